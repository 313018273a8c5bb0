import Verif.Lemmas.ConnStep
/-
Runs of the connection's state machine: they follow the specification, and they come to rest.
-/

namespace Verif.Conn
open Spec

variable {W : Type}

theorem step_rsize {h : Handler W} {s s' : St W} {junk : Nat → Nat} {caps : List Nat} (hz : 0 < s.rsize)
    (e : step h junk caps s = some s') : 0 < s'.rsize := by
  unfold step at e
  split at e
  · cases e
    unfold stepRead
    have := readLoop_rsize junk caps 5 (toFront s) false
    rw [toFront_rsize] at this
    simp only
    exact Nat.lt_of_lt_of_le hz this
  · unfold stepParse at e
    split at e
    · cases e; exact hz
    · split at e
      · split at e
        · cases e
        · cases e; exact hz
        · cases e; exact hz
      · rename_i l r hc
        split at e
        · cases e
        · cases e
          simp [St.rsize]; omega
  · cases e
    unfold stepFresh
    simp only
    generalize hs1 : (if readBufferHighwat < s.rsize ∧ s.data.length < dataBufferSize then _ else s) = s1
    have e1 : 0 < s1.rsize := by
      split at hs1
      · rename_i hc
        subst hs1
        unfold readBufferHighwat at hc
        simp only [St.rsize, List.length_drop, List.length_take, List.length_append, dataBufferSize, List.length_nil] at hz hc ⊢
        omega
      · subst hs1; exact hz
    split
    · exact e1
    · exact e1
  · unfold stepNread at e
    split at e
    · split at e
      · cases e
      · cases e; exact hz
    · simp only at e
      split at e
      · cases e
        simp only [St.rsize, List.length_drop, List.length_take, List.length_append] at hz ⊢
        omega
      · cases e
        simp only [St.rsize, List.length_drop, List.length_take, List.length_append] at hz ⊢
        omega
  · unfold stepSwallow at e
    split at e
    · cases e; exact hz
    · split at e
      · split at e
        · split at e
          · cases e
          · cases e
            simp only [St.rsize, List.length_drop, List.length_take, List.length_append] at hz ⊢
            omega
        · cases e
          simp only [St.rsize, List.length_drop, List.length_take, List.length_append] at hz ⊢
          omega
      · split at e
        · cases e; exact hz
        · rename_i hd _
          have hd : s.data = [] := Classical.not_not.1 hd
          cases e
          simp only [St.rsize, List.length_drop, List.length_take, List.length_append, hd, List.length_nil] at hz ⊢
          omega
  · cases e; exact hz

theorem step_todo {h : Handler W} {s s' : St W} {junk : Nat → Nat} {caps : List Nat} (hz : 0 < s.rsize) (hc : 0 < caps.headD 0)
    (hpos : ∀ n, s.mode = .swallow n → 0 ≤ n) (hidle : ¬ Idle s) (e : step h junk caps s = some s') : s'.todo < s.todo := by
  unfold step at e
  split at e
  · rename_i hmode
    cases e
    have hn : s.net ≠ [] := by
      intro hn; apply hidle; unfold Idle; rw [hmode]; exact hn
    have hg := readLoop_got junk caps (toFront s) hc hn (by rw [toFront_rsize]; exact hz)
    have hl := readLoop_ok junk caps 5 (toFront s) false
    unfold stepRead
    simp only
    rw [hg]
    have h1 := hl.less hg rfl
    have h2 := congrArg List.length hl.bytes
    simp only [List.length_append] at h2
    have h3 : (toFront s).net = s.net := rfl
    have h4 : (toFront s).data = s.data := rfl
    rw [h3] at h1 h2
    rw [h4] at h2
    simp only [St.todo, hmode, if_true, Mode.rank]
    omega
  · rename_i hmode
    unfold stepParse at e
    split at e
    · cases e; simp [St.todo, hmode, Mode.rank]
    · split at e
      · split at e
        · cases e
        · cases e; simp [St.todo, hmode, Mode.rank]
        · cases e; simp [St.todo, hmode, Mode.rank]
      · rename_i l r hcut
        obtain ⟨hd, _⟩ := cutLine_some.1 hcut
        split at e
        · cases e
        · rename_i w nx hh
          cases e
          have h1 : nx.mode.rank ≤ 3 := by cases nx <;> simp [Next.mode, Mode.rank]
          have h2 := congrArg List.length hd
          simp only [List.length_append, List.length_cons] at h2
          simp only [St.todo, hmode]
          have h3 : Mode.parse.rank = 1 := rfl
          omega
  · rename_i hmode
    cases e
    unfold stepFresh
    simp only
    generalize hs1 : (if readBufferHighwat < s.rsize ∧ s.data.length < dataBufferSize then _ else s) = s1
    have e1 : s1.data = s.data ∧ s1.net = s.net := by
      split at hs1 <;> (subst hs1; exact ⟨rfl, rfl⟩)
    obtain ⟨ed, en⟩ := e1
    split
    · simp only [St.todo, hmode, Mode.rank, ed, en]; omega
    · simp only [St.todo, hmode, Mode.rank, ed, en]; omega
  · rename_i n got hmode
    unfold stepNread at e
    by_cases h0 : n = 0
    · rw [if_pos h0] at e
      split at e
      · cases e
      · cases e; simp [St.todo, hmode, Mode.rank]
    · rw [if_neg h0] at e
      simp only at e
      have hne : ¬ (s.data.length = 0 ∧ s.net.length = 0) := by
        rintro ⟨ha, hb⟩
        apply hidle; unfold Idle; rw [hmode]
        exact ⟨by omega, List.length_eq_zero_iff.1 ha, List.length_eq_zero_iff.1 hb⟩
      split at e
      · cases e
        simp only [St.todo, hmode, Mode.rank, List.length_drop]; omega
      · cases e
        simp only [St.todo, hmode, Mode.rank, List.length_drop]; omega
  · rename_i n hmode
    have hp := hpos n hmode
    unfold stepSwallow at e
    by_cases h0 : n = 0
    · rw [if_pos h0] at e; cases e; simp [St.todo, hmode, Mode.rank]
    · rw [if_neg h0] at e
      have hne : ¬ (s.data.length = 0 ∧ s.net.length = 0) := by
        rintro ⟨ha, hb⟩
        apply hidle; unfold Idle; rw [hmode]
        exact ⟨by omega, List.length_eq_zero_iff.1 ha, List.length_eq_zero_iff.1 hb⟩
      split at e
      · rename_i hd
        rw [if_neg (by omega)] at e
        cases e
        have hd := List.length_pos_iff.2 hd
        simp only [St.todo, hmode, Mode.rank, List.length_drop]; omega
      · rename_i hd
        rw [if_neg (by omega)] at e
        cases e
        have hd := congrArg List.length (Classical.not_not.1 hd)
        simp only [List.length_nil] at hd
        simp only [St.todo, hmode, Mode.rank, List.length_drop]; omega
  · rename_i hmode
    exact absurd (by unfold Idle; rw [hmode]; trivial) hidle

theorem step_idle {h : Handler W} {s s' : St W} {junk : Nat → Nat} {caps : List Nat} (hidle : Idle s)
    (e : step h junk caps s = some s') : Idle s' := by
  unfold step at e
  split at e
  · rename_i hmode
    have hn : s.net = [] := by unfold Idle at hidle; rw [hmode] at hidle; exact hidle
    cases e
    have hl := readLoop_ok junk caps 5 (toFront s) false
    unfold stepRead
    simp only
    generalize readLoop junk 5 (toFront s) false caps = p at hl ⊢
    obtain ⟨s1, got⟩ := p
    simp only at hl ⊢
    have h3 : (toFront s).net = s.net := rfl
    have h1 := hl.le
    rw [h3, hn] at h1
    cases got with
    | true =>
      have := hl.less rfl rfl
      rw [h3, hn] at this
      simp at this
    | false =>
      unfold Idle
      simp only
      simp only [List.length_nil, Nat.le_zero_eq, List.length_eq_zero_iff] at h1
      exact h1
  · rename_i hmode; unfold Idle at hidle; rw [hmode] at hidle; exact hidle.elim
  · rename_i hmode; unfold Idle at hidle; rw [hmode] at hidle; exact hidle.elim
  · rename_i n got hmode
    unfold Idle at hidle; rw [hmode] at hidle
    obtain ⟨h0, hd, hn⟩ := hidle
    unfold stepNread at e
    rw [if_neg (by omega)] at e
    simp only [hd, hn, List.length_nil, Nat.zero_min, Nat.sub_zero, Nat.min_zero, List.take_nil, List.drop_nil, List.append_nil] at e
    rw [if_neg (by omega)] at e
    cases e
    exact ⟨h0, rfl, rfl⟩
  · rename_i n hmode
    unfold Idle at hidle; rw [hmode] at hidle
    obtain ⟨h0, hd, hn⟩ := hidle
    unfold stepSwallow at e
    rw [if_neg (by omega), if_neg (by simp [hd]), if_neg (by omega)] at e
    cases e
    simp only [hn, List.length_nil, Nat.min_zero, List.drop_nil]
    exact ⟨by omega, hd, rfl⟩
  · cases e; exact hidle

/-- At rest, the specification has nothing more to do either. -/
theorem idle_spent {h : Handler W} {w0 : W} {st : List Nat} {s : St W} (hi : Inv h w0 st s) (hidle : Idle s) : Serves h w0 st s.world := by
  refine ⟨_, _, hi.reads, ?_⟩
  unfold St.ahead
  cases hmode : s.mode with
  | waiting =>
    unfold Idle at hidle; rw [hmode] at hidle
    simp only at hidle
    simp only [Mode.at, Mode.got, hidle, List.append_nil, List.nil_append]
    exact hi.wait hmode
  | parse => unfold Idle at hidle; rw [hmode] at hidle; exact hidle.elim
  | fresh => unfold Idle at hidle; rw [hmode] at hidle; exact hidle.elim
  | nread n got =>
    unfold Idle at hidle; rw [hmode] at hidle
    obtain ⟨h0, hd, hn⟩ := hidle
    simp only [Mode.at, Mode.got, hd, hn, List.append_nil, Spent]
    omega
  | swallow n =>
    unfold Idle at hidle; rw [hmode] at hidle
    obtain ⟨h0, hd, hn⟩ := hidle
    simp only [Mode.at, Mode.got, hd, hn, List.append_nil, Spent]
    exact ⟨trivial, by omega⟩
  | closed => trivial

/-! ### Runs -/

theorem inv_sends {h : Handler W} {w0 : W} {st bs : List Nat} {s : St W} (hi : Inv h w0 st s) :
    Inv h w0 (st ++ bs) { s with net := s.net ++ bs } := by
  refine ⟨?_, hi.wait, hi.pos⟩
  have := reads_append bs hi.reads
  unfold St.ahead at this ⊢
  simpa [List.append_assoc] using this

theorem run_inv {h : Handler W} {w0 : W} {junk : Nat → Nat} (es : List Ev) {st : List Nat} {s s' : St W} (hi : Inv h w0 st s)
    (hm : Modest h w0 (st ++ sent es)) (hs : Sound h w0 (st ++ sent es)) (e : run h junk s es = some s') : Inv h w0 (st ++ sent es) s' := by
  induction es generalizing st s with
  | nil => cases e; simpa [sent] using hi
  | cons ev es ih =>
    cases ev with
    | sends bs =>
      have := ih (st := st ++ bs) (inv_sends hi) (by rw [List.append_assoc]; exact hm)
        (by rw [List.append_assoc]; exact hs) e
      rw [List.append_assoc] at this; exact this
    | round caps =>
      simp only [run, event] at e
      cases he : step h junk caps s with
      | none => rw [he] at e; cases e
      | some s1 =>
        rw [he] at e
        exact ih (step_inv hi (modest_prefix (bs := sent es) hm) (sound_prefix (bs := sent es) hs) he) hm hs e

theorem run_some {h : Handler W} {w0 : W} {junk : Nat → Nat} (es : List Ev) {st : List Nat} {s : St W} (hi : Inv h w0 st s)
    (hm : Modest h w0 (st ++ sent es)) (hs : Sound h w0 (st ++ sent es)) : ∃ s', run h junk s es = some s' := by
  induction es generalizing st s with
  | nil => exact ⟨_, rfl⟩
  | cons ev es ih =>
    cases ev with
    | sends bs => exact ih (st := st ++ bs) (inv_sends hi) (by rw [List.append_assoc]; exact hm) (by rw [List.append_assoc]; exact hs)
    | round caps =>
      have hm1 := modest_prefix (bs := sent es) hm
      have hs1 := sound_prefix (bs := sent es) hs
      obtain ⟨s1, h1⟩ := step_some (junk := junk) (caps := caps) hi hm1 hs1
      obtain ⟨s2, h2⟩ := ih (step_inv hi hm1 hs1 h1) hm hs
      exact ⟨s2, by simp only [run, event, h1]; exact h2⟩

theorem run_rsize {h : Handler W} {junk : Nat → Nat} (es : List Ev) {s s' : St W} (hz : 0 < s.rsize)
    (e : run h junk s es = some s') : 0 < s'.rsize := by
  induction es generalizing s with
  | nil => cases e; exact hz
  | cons ev es ih =>
    cases ev with
    | sends bs => exact ih (s := { s with net := s.net ++ bs }) hz e
    | round caps =>
      simp only [run, event] at e
      cases he : step h junk caps s with
      | none => rw [he] at e; cases e
      | some s1 => rw [he] at e; exact ih (step_rsize hz he) e

theorem run_append {h : Handler W} {junk : Nat → Nat} (es es' : List Ev) (s : St W) :
    run h junk s (es ++ es') = (run h junk s es).bind fun s => run h junk s es' := by
  induction es generalizing s with
  | nil => rfl
  | cons ev es ih =>
    simp only [List.cons_append, run]
    cases event h junk s ev with
    | none => rfl
    | some s1 => exact ih s1

theorem sent_append (es es' : List Ev) : sent (es ++ es') = sent es ++ sent es' := by
  induction es with
  | nil => rfl
  | cons ev es ih => cases ev <;> simp [sent, ih]

theorem sent_rounds (rs : List (List Nat)) : sent (rs.map .round) = [] := by
  induction rs with
  | nil => rfl
  | cons r rs ih => exact ih

theorem run_rounds_idle {h : Handler W} {junk : Nat → Nat} (rs : List (List Nat)) {s s' : St W} (hidle : Idle s)
    (e : run h junk s (rs.map .round) = some s') : Idle s' := by
  induction rs generalizing s with
  | nil => cases e; exact hidle
  | cons r rs ih =>
    simp only [List.map_cons, run, event] at e
    cases he : step h junk r s with
    | none => rw [he] at e; cases e
    | some s1 => rw [he] at e; exact ih (step_idle hidle he) e

theorem run_rounds {h : Handler W} {w0 : W} {st : List Nat} {junk : Nat → Nat} (rs : List (List Nat)) {s s' : St W}
    (hi : Inv h w0 st s) (hm : Modest h w0 st) (hs : Sound h w0 st) (hz : 0 < s.rsize)
    (hr : ∀ r ∈ rs, 0 < r.headD 0) (hn : s.todo ≤ rs.length) (e : run h junk s (rs.map .round) = some s') :
    Idle s' ∨ s'.todo = 0 := by
  induction rs generalizing s with
  | nil => cases e; right; simpa using hn
  | cons r rs ih =>
    by_cases hidle : Idle s
    · exact .inl (run_rounds_idle _ hidle e)
    · simp only [List.map_cons, run, event] at e
      cases he : step h junk r s with
      | none => rw [he] at e; cases e
      | some s1 =>
        rw [he] at e
        have h1 := step_todo hz (hr r (by simp)) hi.pos hidle he
        refine ih (step_inv hi hm hs he) (step_rsize hz he) (fun r hr' => hr r (by simp [hr'])) ?_ e
        simp only [List.length_cons] at hn; omega

theorem todo_zero {s : St W} (h : s.todo = 0) : Idle s := by
  unfold St.todo at h
  unfold Idle
  cases hm : s.mode <;> rw [hm] at h <;> simp only [Mode.rank] at h
  · exact List.length_eq_zero_iff.1 (by omega)
  all_goals first | trivial | omega

/-- What is left to do never exceeds what was sent. -/
theorem step_unread {h : Handler W} {s s' : St W} {junk : Nat → Nat} {caps : List Nat} (hpos : ∀ n, s.mode = .swallow n → 0 ≤ n)
    (e : step h junk caps s = some s') : s'.net.length + s'.data.length ≤ s.net.length + s.data.length := by
  unfold step at e
  split at e
  · cases e
    have hl := readLoop_ok junk caps 5 (toFront s) false
    have h2 := congrArg List.length hl.bytes
    simp only [List.length_append] at h2
    have h3 : (toFront s).net = s.net := rfl
    have h4 : (toFront s).data = s.data := rfl
    rw [h3, h4] at h2
    unfold stepRead
    simp only
    omega
  · unfold stepParse at e
    split at e
    · cases e; exact Nat.le_refl _
    · split at e
      · split at e
        · cases e
        · cases e; exact Nat.le_refl _
        · cases e; exact Nat.le_refl _
      · rename_i l r hcut
        obtain ⟨hd, _⟩ := cutLine_some.1 hcut
        split at e
        · cases e
        · cases e
          have h2 := congrArg List.length hd
          simp only [List.length_append, List.length_cons] at h2
          simp only; omega
  · cases e
    unfold stepFresh
    simp only
    generalize hs1 : (if readBufferHighwat < s.rsize ∧ s.data.length < dataBufferSize then _ else s) = s1
    have e1 : s1.data = s.data ∧ s1.net = s.net := by
      split at hs1 <;> (subst hs1; exact ⟨rfl, rfl⟩)
    obtain ⟨ed, en⟩ := e1
    split <;> simp only [ed, en] <;> exact Nat.le_refl _
  · unfold stepNread at e
    split at e
    · split at e
      · cases e
      · cases e; exact Nat.le_refl _
    · simp only at e
      split at e
      · cases e; simp only [List.length_drop]; omega
      · cases e; simp only [List.length_drop]; omega
  · rename_i n hmode
    have hp := hpos n hmode
    unfold stepSwallow at e
    split at e
    · cases e; exact Nat.le_refl _
    · split at e
      · rw [if_neg (by omega)] at e; cases e; simp only [List.length_drop]; omega
      · rw [if_neg (by omega)] at e; cases e; simp only [List.length_drop]; omega
  · cases e; exact Nat.le_refl _

theorem run_unread {h : Handler W} {w0 : W} {st : List Nat} {junk : Nat → Nat} (es : List Ev) {s s' : St W} (hi : Inv h w0 st s)
    (hm : Modest h w0 (st ++ sent es)) (hs : Sound h w0 (st ++ sent es)) (e : run h junk s es = some s') :
    s'.net.length + s'.data.length ≤ s.net.length + s.data.length + (sent es).length := by
  induction es generalizing st s with
  | nil => cases e; simp [sent]
  | cons ev es ih =>
    cases ev with
    | sends bs =>
      have := ih (st := st ++ bs) (s := { s with net := s.net ++ bs }) (inv_sends hi) (by rw [List.append_assoc]; exact hm)
        (by rw [List.append_assoc]; exact hs) e
      simp only [List.length_append, sent] at this ⊢; omega
    | round caps =>
      simp only [run, event] at e
      cases he : step h junk caps s with
      | none => rw [he] at e; cases e
      | some s1 =>
        rw [he] at e
        have h1 := step_unread hi.pos he
        have h2 := ih (step_inv hi (modest_prefix (bs := sent es) hm) (sound_prefix (bs := sent es) hs) he) hm hs e
        simp only [sent]; omega

end Verif.Conn
