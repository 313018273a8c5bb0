import Verif.Lemmas.ConnIn
/-
Every step of the connection's state machine follows the specification, and brings the connection nearer to having read everything.
-/

namespace Verif.Conn
open Spec

variable {W : Type}

/-- Where a mode of the machine is in the client's stream. -/
def Mode.at : Mode → At
  | .waiting => .cmd
  | .parse => .cmd
  | .fresh => .cmd
  | .nread n got => .want (got.length + n)
  | .swallow n => .skip n.toNat
  | .closed => .closed

/-- The bytes of a data block that are already at their place. -/
def Mode.got : Mode → List Nat
  | .nread _ got => got
  | _ => []

/-- The part of the stream that is still ahead. -/
def St.ahead (s : St W) : List Nat := s.mode.got ++ (s.data ++ s.net)

structure Inv (h : Handler W) (w0 : W) (st : List Nat) (s : St W) : Prop where
  reads : Reads h (w0, .cmd, st) (s.world, s.mode.at, s.ahead)
  wait : s.mode = .waiting → 10 ∉ s.data
  pos : ∀ n, s.mode = .swallow n → 0 ≤ n

/-- How far the connection is from having read everything. -/
def Mode.rank : Mode → Nat
  | .waiting => 0
  | .parse => 1
  | .fresh => 2
  | .nread _ _ => 3
  | .swallow _ => 3
  | .closed => 0

def St.todo (s : St W) : Nat := 5 * s.net.length + 3 * s.data.length + s.mode.rank

theorem open_inv (h : Handler W) (w : W) (junk : Nat → Nat) : Inv h w [] (St.open w junk) :=
  ⟨.refl _, by simp [St.open], by simp [St.open]⟩

/-! ### Reading -/

structure LoopOk (s s' : St W) (got got' : Bool) : Prop where
  world : s'.world = s.world
  mode : s'.mode = s.mode
  bytes : s'.data ++ s'.net = s.data ++ s.net
  keep : got' = false → s'.data = s.data ∧ got = false
  less : got' = true → got = false → s'.net.length < s.net.length
  le : s'.net.length ≤ s.net.length

theorem readLoop_ok (junk : Nat → Nat) (caps : List Nat) (k : Nat) (s : St W) (got : Bool) :
    LoopOk s (readLoop junk k s got caps).1 got (readLoop junk k s got caps).2 := by
  induction caps generalizing k s got with
  | nil =>
    unfold readLoop
    split
    · exact ⟨rfl, rfl, rfl, fun h => ⟨rfl, h⟩, fun h h' => absurd (h'.symm.trans h) (by simp), Nat.le_refl _⟩
    · exact ⟨rfl, rfl, rfl, fun h => ⟨rfl, h⟩, fun h h' => absurd (h'.symm.trans h) (by simp), Nat.le_refl _⟩
  | cons cap caps ih =>
    unfold readLoop
    by_cases h0 : s.spare = [] ∧ k = 0
    · rw [if_pos h0]
      exact ⟨rfl, rfl, rfl, fun h => ⟨rfl, h⟩, fun h h' => absurd (h'.symm.trans h) (by simp), Nat.le_refl _⟩
    · rw [if_neg h0]
      generalize hs1 : (if s.spare = [] then ({ s with spare := (List.range s.rsize).map junk }, k - 1) else (s, k)) = p
      obtain ⟨s1, k1⟩ := p
      have e1 : s1.world = s.world ∧ s1.mode = s.mode ∧ s1.data = s.data ∧ s1.net = s.net := by
        split at hs1 <;> (cases hs1; exact ⟨rfl, rfl, rfl, rfl⟩)
      obtain ⟨ew, em, ed, en⟩ := e1
      simp only
      generalize hr : min (min cap s1.spare.length) s1.net.length = res
      by_cases hz : res = 0
      · rw [if_pos hz]
        exact ⟨ew, em, by rw [ed, en], fun h => ⟨ed, h⟩, fun h h' => absurd (h'.symm.trans h) (by simp),
          by simp [en]⟩
      · rw [if_neg hz]
        have hle : res ≤ s1.net.length := by omega
        have hnl : s1.net.length = s.net.length := by rw [en]
        split
        · rename_i hf
          have := ih k1 { s1 with data := s1.data ++ s1.net.take res, spare := s1.spare.drop res, net := s1.net.drop res } true
          refine ⟨this.world.trans ew, this.mode.trans em, ?_, ?_, ?_, ?_⟩
          · rw [this.bytes]; simp [ed, en]
          · intro hg; exact absurd (this.keep hg).2 (by simp)
          · intro _ _
            have := this.le
            simp only [List.length_drop] at this
            omega
          · have := this.le
            simp only [List.length_drop] at this
            omega
        · refine ⟨ew, em, by simp [ed, en], by simp, ?_, ?_⟩
          · intro _ _; simp only [List.length_drop]; rw [en] at hle ⊢; omega
          · simp only [List.length_drop]; rw [en] at hle ⊢; omega

theorem readLoop_got (junk : Nat → Nat) (caps : List Nat) (s : St W) (hc : 0 < caps.headD 0) (hn : s.net ≠ [])
    (hz : 0 < s.rsize) : (readLoop junk 5 s false caps).2 = true := by
  cases caps with
  | nil => simp at hc
  | cons cap caps =>
    simp only [List.headD_cons] at hc
    unfold readLoop
    rw [if_neg (by simp)]
    generalize hs1 : (if s.spare = [] then ({ s with spare := (List.range s.rsize).map junk }, 5 - 1) else (s, 5)) = p
    obtain ⟨s1, k1⟩ := p
    have e1 : s1.net = s.net ∧ 0 < s1.spare.length := by
      split at hs1
      · cases hs1
        refine ⟨rfl, ?_⟩
        simp only [List.length_map, List.length_range]; exact hz
      · rename_i he
        cases hs1; exact ⟨rfl, List.length_pos_iff.2 he⟩
    obtain ⟨en, hp⟩ := e1
    simp only
    have hnl : 0 < s1.net.length := by rw [en]; exact List.length_pos_iff.2 hn
    rw [if_neg (by omega)]
    split
    · have := readLoop_ok junk caps k1
        { s1 with data := s1.data ++ s1.net.take (min (min cap s1.spare.length) s1.net.length),
                  spare := s1.spare.drop (min (min cap s1.spare.length) s1.net.length),
                  net := s1.net.drop (min (min cap s1.spare.length) s1.net.length) } true
      cases hg : (readLoop junk k1
        { s1 with data := s1.data ++ s1.net.take (min (min cap s1.spare.length) s1.net.length),
                  spare := s1.spare.drop (min (min cap s1.spare.length) s1.net.length),
                  net := s1.net.drop (min (min cap s1.spare.length) s1.net.length) } true caps).2 with
      | true => rfl
      | false => exact absurd (this.keep hg).2 (by simp)
    · rfl

/-- The buffer never vanishes. -/
theorem readLoop_rsize (junk : Nat → Nat) (caps : List Nat) (k : Nat) (s : St W) (got : Bool) :
    s.rsize ≤ (readLoop junk k s got caps).1.rsize := by
  induction caps generalizing k s got with
  | nil =>
    unfold readLoop
    split
    · rename_i h; simp [St.rsize, h.1]
    · exact Nat.le_refl _
  | cons cap caps ih =>
    unfold readLoop
    by_cases h0 : s.spare = [] ∧ k = 0
    · rw [if_pos h0]; exact Nat.le_refl _
    · rw [if_neg h0]
      generalize hs1 : (if s.spare = [] then ({ s with spare := (List.range s.rsize).map junk }, k - 1) else (s, k)) = p
      obtain ⟨s1, k1⟩ := p
      have e1 : s.rsize ≤ s1.rsize := by
        split at hs1
        · rename_i he; cases hs1; simp [St.rsize, he]
        · cases hs1; exact Nat.le_refl _
      simp only
      split
      · exact e1
      · split
        · refine Nat.le_trans e1 (Nat.le_trans ?_ (ih _ _ _))
          simp only [St.rsize, List.length_append, List.length_take, List.length_drop]; omega
        · refine Nat.le_trans e1 ?_
          simp only [St.rsize, List.length_append, List.length_take, List.length_drop]; omega

theorem toFront_rsize (s : St W) : (toFront s).rsize = s.rsize := by
  simp only [toFront, St.rsize, List.length_drop, List.length_append, List.length_nil]; omega

/-! ### One step -/

theorem ahead_cmd {s : St W} (h : s.mode.got = []) : s.ahead = s.data ++ s.net := by
  unfold St.ahead; rw [h]; rfl

theorem line_of_sound {h : Handler W} {w0 w : W} {st l rest : List Nat} (hs : Sound h w0 st)
    (hr : Reads h (w0, .cmd, st) (w, .cmd, l ++ 10 :: rest)) (hn : 10 ∉ l) : ∃ w' nx, h.line w (chomp l) = some (w', nx) ∧ Proper nx := by
  rcases hs _ _ _ hr with hsp | ⟨z, hz⟩
  · simp [Spent] at hsp
  · generalize hx : (w, At.cmd, l ++ 10 :: rest) = x at hz
    cases hz with
    | line w1 w2 raw t r nx hn1 ht hh hp =>
      simp only [Prod.mk.injEq, true_and] at hx
      obtain ⟨rfl, e⟩ := hx
      obtain ⟨rfl, _⟩ := line_inj hn hn1 e
      rw [text_unique ht (chomp_text _)] at hh
      exact ⟨_, _, hh, hp⟩
    | data => simp at hx
    | skip => simp at hx
    | skipped => simp at hx

theorem proper_of_sound {h : Handler W} {w0 w w' : W} {st l rest : List Nat} {nx : Next} (hs : Sound h w0 st)
    (hr : Reads h (w0, .cmd, st) (w, .cmd, l ++ 10 :: rest)) (hn : 10 ∉ l) (hh : h.line w (chomp l) = some (w', nx)) : Proper nx := by
  obtain ⟨w1, nx1, h1, hp⟩ := line_of_sound hs hr hn
  rw [h1] at hh; cases hh; exact hp

theorem data_of_sound {h : Handler W} {w0 w : W} {st d rest : List Nat} (hs : Sound h w0 st)
    (hr : Reads h (w0, .cmd, st) (w, .want d.length, d ++ rest)) : ∃ w', h.data w d = some w' := by
  rcases hs _ _ _ hr with hsp | ⟨z, hz⟩
  · simp only [Spent, List.length_append] at hsp; omega
  · generalize hx : (w, At.want d.length, d ++ rest) = x at hz
    cases hz with
    | line => simp at hx
    | data w1 w2 d1 r hh =>
      simp only [Prod.mk.injEq, At.want.injEq] at hx
      obtain ⟨rfl, hl, e⟩ := hx
      obtain ⟨rfl, _⟩ := List.append_inj e hl
      exact ⟨_, hh⟩
    | skip => simp at hx
    | skipped => simp at hx

theorem stepParse_inv {h : Handler W} {w0 : W} {st : List Nat} {s s' : St W} (hi : Inv h w0 st s) (hm : Modest h w0 st) (hs : Sound h w0 st)
    (hmode : s.mode = .parse) (e : stepParse h s = some s') : Inv h w0 st s' := by
  have hr := hi.reads
  have ha : s.ahead = s.data ++ s.net := ahead_cmd (by rw [hmode]; rfl)
  rw [ha, hmode] at hr
  unfold stepParse at e
  split at e
  · rename_i hd
    cases e
    exact ⟨by rw [ahead_cmd (by rfl)]; exact hr, fun _ => (by simp [hd]), fun n hw => by cases hw⟩
  · split at e
    · rename_i hc
      have hn := cutLine_none.1 hc
      have hx : ¬ Excessive s.data := hm _ _ hr _ (List.prefix_append _ _) hn
      rw [tooLong_modest _ hx] at e
      simp only [Option.some.injEq] at e
      subst e
      exact ⟨by rw [ahead_cmd (by rfl)]; exact hr, fun _ => hn, fun n hw => by cases hw⟩
    · rename_i l r hc
      obtain ⟨hd, hn⟩ := cutLine_some.1 hc
      split at e
      · cases e
      · rename_i w nx hh
        cases e
        have hg : nx.mode.got = [] := by cases nx <;> rfl
        have hat : nx.mode.at = At.of nx := by cases nx <;> simp [Next.mode, Mode.at, At.of]
        have hp := proper_of_sound hs (by rw [hd, List.append_assoc, List.cons_append] at hr; exact hr) hn hh
        refine ⟨?_, ?_, ?_⟩
        · rw [ahead_cmd hg]
          show Reads h _ (w, nx.mode.at, r ++ s.net)
          rw [hat]
          refine .tail hr ?_
          rw [hd, List.append_assoc, List.cons_append]
          exact .line _ _ _ _ _ _ hn (chomp_text l) hh hp
        · intro hw; cases nx <;> cases hw
        · intro n hw
          cases nx with
          | swallow m => cases hw; exact hp
          | _ => cases hw

theorem stepParse_some {h : Handler W} {w0 : W} {st : List Nat} {s : St W} (hi : Inv h w0 st s) (hm : Modest h w0 st)
    (hmode : s.mode = .parse) (hs : Sound h w0 st) : ∃ s', stepParse h s = some s' := by
  have hr := hi.reads
  have ha : s.ahead = s.data ++ s.net := ahead_cmd (by rw [hmode]; rfl)
  rw [ha, hmode] at hr
  unfold stepParse
  split
  · exact ⟨_, rfl⟩
  · split
    · rename_i hc
      have hn := cutLine_none.1 hc
      have hx : ¬ Excessive s.data := hm _ _ hr _ (List.prefix_append _ _) hn
      rw [tooLong_modest _ hx]
      exact ⟨_, rfl⟩
    · rename_i l r hc
      obtain ⟨hd, hn⟩ := cutLine_some.1 hc
      obtain ⟨w', nx, h1, _⟩ := line_of_sound hs (by rw [hd, List.append_assoc, List.cons_append] at hr; exact hr) hn
      rw [h1]
      exact ⟨_, rfl⟩

theorem stepFresh_inv {h : Handler W} {w0 : W} {st : List Nat} {s : St W} (hi : Inv h w0 st s) (hmode : s.mode = .fresh) :
    Inv h w0 st (stepFresh s) := by
  have hr := hi.reads
  have ha : s.ahead = s.data ++ s.net := ahead_cmd (by rw [hmode]; rfl)
  rw [ha, hmode] at hr
  unfold stepFresh
  simp only
  generalize hs1 : (if readBufferHighwat < s.rsize ∧ s.data.length < dataBufferSize then _ else s) = s1
  have e1 : s1.world = s.world ∧ s1.data = s.data ∧ s1.net = s.net := by
    split at hs1 <;> (subst hs1; exact ⟨rfl, rfl, rfl⟩)
  obtain ⟨ew, ed, en⟩ := e1
  split
  · rename_i hd
    refine ⟨?_, fun _ => (by simp [hd]), fun n hw => by cases hw⟩
    rw [ahead_cmd (by rfl)]
    show Reads h _ (s1.world, .cmd, s1.data ++ s1.net)
    rw [ew, ed, en]; exact hr
  · refine ⟨?_, fun hw => (by cases hw), fun n hw => by cases hw⟩
    rw [ahead_cmd (by rfl)]
    show Reads h _ (s1.world, .cmd, s1.data ++ s1.net)
    rw [ew, ed, en]; exact hr

theorem stepRead_inv {h : Handler W} {w0 : W} {st : List Nat} {s : St W} (junk : Nat → Nat) (caps : List Nat) (hi : Inv h w0 st s)
    (hmode : s.mode = .waiting) : Inv h w0 st (stepRead junk caps s) := by
  have hr := hi.reads
  have ha : s.ahead = s.data ++ s.net := ahead_cmd (by rw [hmode]; rfl)
  rw [ha, hmode] at hr
  have hl := readLoop_ok junk caps 5 (toFront s) false
  unfold stepRead
  simp only
  generalize readLoop junk 5 (toFront s) false caps = p at hl ⊢
  obtain ⟨s1, got⟩ := p
  simp only at hl ⊢
  have hg : (if got = true then Mode.parse else Mode.waiting).got = [] := by split <;> rfl
  have hat : (if got = true then Mode.parse else Mode.waiting).at = .cmd := by split <;> rfl
  refine ⟨?_, ?_, fun n hw => by simp only at hw; split at hw <;> cases hw⟩
  · rw [ahead_cmd hg]
    show Reads h _ (s1.world, (if got = true then Mode.parse else Mode.waiting).at, s1.data ++ s1.net)
    rw [hat, hl.world, hl.bytes]
    exact hr
  · intro hw
    cases hgot : got with
    | true => rw [hgot] at hw; cases hw
    | false =>
      rw [(hl.keep hgot).1]
      exact hi.wait hmode

theorem stepNread_inv {h : Handler W} {w0 : W} {st : List Nat} {s s' : St W} {caps : List Nat} {n : Nat} {got : List Nat}
    (hi : Inv h w0 st s) (hmode : s.mode = .nread n got) (e : stepNread h caps n got s = some s') : Inv h w0 st s' := by
  have hr := hi.reads
  have ha : s.ahead = got ++ (s.data ++ s.net) := by unfold St.ahead; rw [hmode]; rfl
  rw [ha, hmode] at hr
  unfold stepNread at e
  by_cases h0 : n = 0
  · rw [if_pos h0] at e
    subst h0
    split at e
    · cases e
    · rename_i w hh
      cases e
      refine ⟨?_, fun hw => (by cases hw), fun n hw => by cases hw⟩
      rw [ahead_cmd (by rfl)]
      exact .tail hr (.data _ _ _ _ hh)
  · rw [if_neg h0] at e
    simp only at e
    by_cases h1 : n - min s.data.length n = 0
    · rw [if_pos h1] at e
      cases e
      refine ⟨?_, fun hw => (by cases hw), fun n hw => by cases hw⟩
      have e1 : (Mode.nread (n - min s.data.length n) (got ++ s.data.take (min s.data.length n))).at = .want (got.length + n) := by
        simp only [Mode.at, List.length_append, List.length_take, At.want.injEq]; omega
      unfold St.ahead
      simp only [e1, Mode.got]
      rw [List.append_assoc, ← List.append_assoc (List.take _ _), List.take_append_drop]
      exact hr
    · rw [if_neg h1] at e
      cases e
      refine ⟨?_, fun hw => (by cases hw), fun n hw => by cases hw⟩
      have hm : min s.data.length n = s.data.length := by omega
      unfold St.ahead
      simp only [Mode.got]
      generalize hres : min (min (caps.headD 0) (n - min s.data.length n)) s.net.length = res
      have e1 : (Mode.nread (n - min s.data.length n - res) (got ++ s.data.take (min s.data.length n) ++ s.net.take res)).at
          = .want (got.length + n) := by
        simp only [Mode.at, List.length_append, List.length_take, At.want.injEq]; omega
      rw [e1, hm, List.take_length, List.drop_length, List.nil_append, List.append_assoc, List.append_assoc, List.take_append_drop]
      exact hr

theorem reads_skip {h : Handler W} {x : W × At × List Nat} {w : W} {n : Nat} {d rest : List Nat} (hd : d.length ≤ n)
    (hr : Reads h x (w, .skip n, d ++ rest)) : Reads h x (w, .skip (n - d.length), rest) := by
  induction d generalizing n with
  | nil => simpa using hr
  | cons b d ih =>
    simp only [List.length_cons] at hd
    obtain ⟨m, rfl⟩ : ∃ m, n = m + 1 := ⟨n - 1, by omega⟩
    have := ih (n := m) (by omega) (.tail hr (by rw [List.cons_append]; exact .skip _ _ _ _))
    rw [List.length_cons]
    rw [show m + 1 - (d.length + 1) = m - d.length by omega]; exact this

theorem stepSwallow_inv {h : Handler W} {w0 : W} {st : List Nat} {s s' : St W} {caps : List Nat} {n : Int}
    (hi : Inv h w0 st s) (hmode : s.mode = .swallow n) (e : stepSwallow caps n s = some s') : Inv h w0 st s' := by
  have hr := hi.reads
  have ha : s.ahead = s.data ++ s.net := ahead_cmd (by rw [hmode]; rfl)
  have hp := hi.pos n hmode
  rw [ha, hmode] at hr
  simp only [Mode.at] at hr
  unfold stepSwallow at e
  by_cases h0 : n = 0
  · rw [if_pos h0] at e
    cases e
    subst h0
    refine ⟨?_, fun hw => (by cases hw), fun n hw => by cases hw⟩
    rw [ahead_cmd (by rfl)]
    exact .tail hr (.skipped _ _)
  · rw [if_neg h0] at e
    split at e
    · rw [if_neg (by omega)] at e
      cases e
      refine ⟨?_, fun hw => (by cases hw), fun m hw => by cases hw; omega⟩
      rw [ahead_cmd (by rfl)]
      have := reads_skip (d := s.data.take (min s.data.length n.toNat)) (rest := s.data.drop (min s.data.length n.toNat) ++ s.net)
        (n := n.toNat)
        (by simp only [List.length_take]; omega)
        (by rw [← List.append_assoc, List.take_append_drop]; exact hr)
      rw [List.length_take] at this
      rw [show min (min s.data.length n.toNat) s.data.length = min s.data.length n.toNat by omega] at this
      rw [show n.toNat - min s.data.length n.toNat = (n - ((min s.data.length n.toNat : Nat) : Int)).toNat by omega] at this
      exact this
    · rename_i hd
      have hd : s.data = [] := Classical.not_not.1 hd
      rw [if_neg (by omega)] at e
      simp only at e
      generalize hres : min (min (caps.headD 0) (min n.toNat s.rsize)) s.net.length = res at e
      cases e
      refine ⟨?_, fun hw => (by cases hw), fun m hw => by cases hw; omega⟩
      rw [ahead_cmd (by rfl)]
      simp only
      rw [hd, List.nil_append] at hr ⊢
      have := reads_skip (d := s.net.take res) (rest := s.net.drop res) (n := n.toNat)
        (by simp only [List.length_take]; omega)
        (by rw [List.take_append_drop]; exact hr)
      rw [List.length_take] at this
      rw [show min res s.net.length = res by omega] at this
      rw [show n.toNat - res = (n - (res : Int)).toNat by omega] at this
      exact this

theorem step_inv {h : Handler W} {w0 : W} {st : List Nat} {s s' : St W} {junk : Nat → Nat} {caps : List Nat} (hi : Inv h w0 st s)
    (hm : Modest h w0 st) (hs : Sound h w0 st) (e : step h junk caps s = some s') : Inv h w0 st s' := by
  unfold step at e
  split at e
  · rename_i hmode; cases e; exact stepRead_inv _ _ hi hmode
  · rename_i hmode; exact stepParse_inv hi hm hs hmode e
  · rename_i hmode; cases e; exact stepFresh_inv hi hmode
  · rename_i hmode; exact stepNread_inv hi hmode e
  · rename_i hmode; exact stepSwallow_inv hi hmode e
  · cases e; exact hi

theorem step_some {h : Handler W} {w0 : W} {st : List Nat} {s : St W} {junk : Nat → Nat} {caps : List Nat} (hi : Inv h w0 st s)
    (hm : Modest h w0 st) (hs : Sound h w0 st) : ∃ s', step h junk caps s = some s' := by
  unfold step
  split
  · exact ⟨_, rfl⟩
  · rename_i hmode; exact stepParse_some hi hm hmode hs
  · exact ⟨_, rfl⟩
  · rename_i n got hmode
    unfold stepNread
    split
    · rename_i h0
      have hr := hi.reads
      have ha : s.ahead = got ++ (s.data ++ s.net) := by unfold St.ahead; rw [hmode]; rfl
      rw [ha, hmode, h0] at hr
      obtain ⟨w', h1⟩ := data_of_sound hs hr
      rw [h1]; exact ⟨_, rfl⟩
    · simp only
      split <;> exact ⟨_, rfl⟩
  · rename_i n hmode
    have hp := hi.pos n hmode
    unfold stepSwallow
    split
    · exact ⟨_, rfl⟩
    · split
      · rw [if_neg (by omega)]; exact ⟨_, rfl⟩
      · rw [if_neg (by omega)]; exact ⟨_, rfl⟩
  · exact ⟨_, rfl⟩

end Verif.Conn
