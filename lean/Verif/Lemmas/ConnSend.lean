import Verif.Lemmas.ConnOut
/-
Sending a response over TCP: what was sent and what is left make up the response.
-/

namespace Verif.ConnOut

/-- The messages lie one after the other, from entry `lo` on, and have the pieces `gs`. -/
def Ranges (iov : List Frag) (g : Nat) : Nat → List Msg → List (List Frag) → Prop
  | _, [], [] => True
  | lo, m :: ms, f :: fs => m.gen = g ∧ lo ≤ m.start ∧ m.start + m.len ≤ iov.length ∧ (iov.drop m.start).take m.len = f ∧
      Ranges iov g (m.start + m.len) ms fs
  | _, _, _ => False

theorem ranges_set {iov : List Frag} {g : Nat} (k : Nat) (x : Frag) (ms : List Msg) {lo : Nat} {gs : List (List Frag)} (hk : k < lo)
    (h : Ranges iov g lo ms gs) : Ranges (iov.set k x) g lo ms gs := by
  induction ms generalizing lo gs with
  | nil => cases gs <;> exact h
  | cons m ms ih =>
    cases gs with
    | nil => exact h
    | cons f fs =>
      obtain ⟨h1, h2, h3, h4, h5⟩ := h
      refine ⟨h1, h2, by simpa using h3, ?_, ih (by omega) h5⟩
      rw [List.drop_set_of_lt (by omega)]; exact h4

theorem ranges_le {iov : List Frag} {g : Nat} (ms : List Msg) {lo lo' : Nat} {gs : List (List Frag)} (hk : lo' ≤ lo) (h : Ranges iov g lo ms gs) :
    Ranges iov g lo' ms gs := by
  cases ms with
  | nil => cases gs <;> exact h
  | cons m ms =>
    cases gs with
    | nil => exact h
    | cons f fs =>
      obtain ⟨h1, h2, h3⟩ := h
      exact ⟨h1, by omega, h3⟩

theorem ranges_length {iov : List Frag} {g : Nat} (ms : List Msg) {lo : Nat} {gs : List (List Frag)} (h : Ranges iov g lo ms gs) :
    ms.length = gs.length := by
  induction ms generalizing lo gs with
  | nil => cases gs with
    | nil => rfl
    | cons => exact h.elim
  | cons m ms ih =>
    cases gs with
    | nil => exact h.elim
    | cons f fs => simp [ih h.2.2.2.2]

theorem chain_ranges {iov : List Frag} {g : Nat} (ms : List Msg) {n k : Nat} {gs : List (List Frag)} (hc : Chain g n ms k) (hk : k ≤ iov.length)
    (hl : ms.map Msg.len = gs.map List.length) (hf : (iov.take k).drop n = gs.flatten) : Ranges iov g n ms gs := by
  induction ms generalizing n gs with
  | nil =>
    cases gs with
    | nil => trivial
    | cons => simp at hl
  | cons m ms ih =>
    cases gs with
    | nil => simp at hl
    | cons f fs =>
      obtain ⟨h1, h2, h3⟩ := hc
      simp only [List.map_cons, List.cons.injEq] at hl
      obtain ⟨l1, l2⟩ := hl
      rw [List.flatten_cons] at hf
      have hlen := congrArg List.length hf
      simp only [List.length_drop, List.length_take, List.length_append] at hlen
      have hnk : n + f.length ≤ k ∨ f = [] := by
        by_cases h0 : f.length = 0
        · exact .inr (List.length_eq_zero_iff.1 h0)
        · omega
      refine ⟨h1, by omega, ?_, ?_, ?_⟩
      · rcases hnk with h | h
        · omega
        · subst h
          simp only [List.length_nil] at l1
          have hle : ∀ (ms : List Msg) (n k : Nat), Chain g n ms k → n ≤ k := by
            intro ms
            induction ms with
            | nil => intro n k h; exact Nat.le_of_eq h
            | cons m ms ih => intro n k h; have := ih _ _ h.2.2; omega
          have := hle _ _ _ h3
          omega
      · rw [l1, h2]
        have : (iov.drop n).take f.length = ((iov.take k).drop n).take f.length := by
          rcases hnk with h | h
          · rw [List.drop_take, List.take_take, Nat.min_eq_left (by omega)]
          · subst h; simp
        rw [this, hf, List.take_left']
        rfl
      · rw [h2]
        refine ih h3 l2 ?_
        rw [l1, ← List.drop_drop, hf, List.drop_left']
        rfl

theorem built_ranges {o : Out} {gs : List (List Frag)} (h : Built o gs) : Ranges o.iov o.gen 0 o.msgs gs :=
  chain_ranges _ h.chain h.used h.lens (by simpa using h.frags)

/-- All bytes of some pieces. -/
def text (fs : List Frag) : List Nat := fs.flatMap Frag.text

/-- All bytes of some messages. -/
def total (gs : List (List Frag)) : List Nat := gs.flatMap text

/-- Only bytes, no place for a header. -/
def Plain (fs : List Frag) : Prop := ∀ f ∈ fs, ∃ l, f = .bytes l

/-- Only pieces that are not empty. -/
def Solid (fs : List Frag) : Prop := ∀ f ∈ fs, f.text ≠ []

theorem drop_one_slice {iov fs : List Frag} {f : Frag} {start len : Nat} (h : (iov.drop start).take (len + 1) = f :: fs) :
    iov[start]? = some f ∧ (iov.drop (start + 1)).take len = fs := by
  cases hd : iov.drop start with
  | nil => rw [hd] at h; simp at h
  | cons a as =>
    rw [hd, List.take_succ_cons, List.cons.injEq] at h
    refine ⟨?_, ?_⟩
    · have := congrArg (·[0]?) hd
      simp only [List.getElem?_drop, Nat.add_zero, List.getElem?_cons_zero] at this
      rw [this, h.1]
    · rw [← List.drop_drop, hd]; simpa using h.2

theorem consume_ok (iov : List Frag) (len : Nat) {start res : Nat} {fs : List Frag} (hs : (iov.drop start).take len = fs)
    (hl : start + len ≤ iov.length) (hp : Plain fs) (hr : res ≤ (text fs).length) :
    ∃ iov' st' len' fs', consume iov start len res = some (iov', st', len') ∧ start ≤ st' ∧ st' + len' = start + len ∧
      (iov' = iov ∨ ∃ x, st' < start + len ∧ iov' = iov.set st' x) ∧ (iov'.drop st').take len' = fs' ∧
      text fs' = (text fs).drop res ∧ Plain fs' ∧ (Solid fs → Solid fs') := by
  induction len generalizing start res fs with
  | zero =>
    rw [List.take_zero] at hs
    subst hs
    have : res = 0 := by simpa [text] using hr
    subst this
    exact ⟨iov, start, 0, [], by simp [consume], Nat.le_refl _, by omega, .inl rfl, by simp, by simp [text], hp, id⟩
  | succ len ih =>
    cases fs with
    | nil =>
      have := congrArg List.length hs
      simp at this
      omega
    | cons f fs =>
      obtain ⟨hget, hrest⟩ := drop_one_slice hs
      obtain ⟨l, rfl⟩ := hp f (by simp)
      have ht : text (.bytes l :: fs) = l ++ text fs := by simp [text, Frag.text]
      rw [ht] at hr
      unfold consume
      rw [hget]
      simp only
      have hfl : (Frag.bytes l).len = l.length := rfl
      by_cases hc : l.length ≤ res
      · rw [if_pos (show (Frag.bytes l).len ≤ res from hc), hfl]
        obtain ⟨iov', st', len', fs', e1, e2, e3, e4, e5, e6, e7, e8⟩ := ih (res := res - l.length) hrest (by omega) (fun f hf => hp f (by simp [hf]))
          (by rw [List.length_append] at hr; omega)
        refine ⟨iov', st', len', fs', e1, by omega, by omega, ?_, e5, ?_, e7, fun hsd => e8 fun f hf => hsd f (by simp [hf])⟩
        · rcases e4 with e4 | ⟨x, h1, h2⟩
          · exact .inl e4
          · exact .inr ⟨x, by omega, h2⟩
        · rw [e6, ht, List.drop_append, List.drop_of_length_le hc, List.nil_append]
      · rw [if_neg (show ¬ (Frag.bytes l).len ≤ res from hc)]
        by_cases h0 : 0 < res
        · rw [if_pos h0]
          refine ⟨_, start, len + 1, .bytes (l.drop res) :: fs, rfl, Nat.le_refl _, rfl, .inr ⟨_, by omega, rfl⟩, ?_, ?_, ?_, ?_⟩
          · have hlt : start < iov.length := by omega
            rw [List.drop_eq_getElem_cons (by simpa using hlt), List.getElem_set_self, List.take_succ_cons]
            congr 1
            rw [List.drop_set_of_lt (by omega)]
            exact hrest
          · rw [ht]
            simp only [text, List.flatMap_cons, Frag.text]
            rw [List.drop_append_of_le_length (by omega)]
          · intro f hf
            rcases List.mem_cons.1 hf with rfl | hf
            · exact ⟨_, rfl⟩
            · exact hp f (by simp [hf])
          · intro hsd f hf
            rcases List.mem_cons.1 hf with rfl | hf
            · simp only [Frag.text, ne_eq, List.drop_eq_nil_iff]; omega
            · exact hsd f (by simp [hf])
        · rw [if_neg h0]
          have : res = 0 := by omega
          subst this
          exact ⟨iov, start, len + 1, _, rfl, Nat.le_refl _, rfl, .inl rfl, hs, by simp, hp, id⟩

/-- A response that is being sent, with the messages `gs` left. -/
structure Sending (o : Out) (gs : List (List Frag)) : Prop where
  ranges : Ranges o.iov o.gen 0 (o.msgs.drop o.msgcurr) gs
  plain : ∀ g ∈ gs, Plain g
  udp : o.udp = false
  fit : Fit o

/-- Nothing stands in the way: no empty pieces, and no messages without pieces except the first one. -/
structure Nice (gs : List (List Frag)) : Prop where
  solid : ∀ g ∈ gs, Solid g
  tail : ∀ g ∈ gs.tail, g ≠ []

theorem drop_eq_cons_get {α : Type} {l : List α} {n : Nat} {a : α} {as : List α} (h : l.drop n = a :: as) : l[n]? = some a ∧ l.drop (n + 1) = as := by
  refine ⟨?_, ?_⟩
  · have := congrArg (·[0]?) h
    simpa [List.getElem?_drop] using this
  · rw [← List.drop_drop, h]; rfl

theorem get_none_drop {α : Type} {l : List α} {n : Nat} : l[n]? = none ↔ l.drop n = [] := by
  rw [List.getElem?_eq_none_iff, List.drop_eq_nil_iff]

/-- `transmit` after a finished message has been left behind. -/
def transmit' (o : Out) (r : Res) : Option (Out × List (List Nat) × Status) :=
  match o.msgs[o.msgcurr]? with
  | none => some (o, [], .complete)
  | some m =>
    if m.gen ≠ o.gen then none
    else
      let o := if o.udp = true ∧ o.iov[m.start]? = some .header then
          { o with iov := o.iov.set m.start (.bytes (headerBytes o.id o.msgcurr o.msgs.length)) }
        else o
      let text := (o.frags m).flatMap Frag.text
      match r with
      | .again => some (o, [], .more)
      | .fails => some (o, [], .closed)
      | .wrote n =>
        let res := if o.udp then text.length else min n text.length
        if res = 0 then some (o, [], .closed)
        else
          match consume o.iov m.start m.len res with
          | none => none
          | some (iov, st, len) => some ({ o with iov := iov, msgs := o.msgs.set o.msgcurr { m with start := st, len := len } }, [text.take res], .more)

theorem transmit_eq (o : Out) (r : Res) : transmit o r = transmit' (match o.msgs[o.msgcurr]? with
    | some m => if m.len = 0 then { o with msgcurr := o.msgcurr + 1 } else o
    | none => o) r := rfl

/-- What one call of `transmit` does. -/
structure Sent (P : Prop) (o : Out) (gs : List (List Frag)) (r : Res) (o' : Out) (w : List (List Nat)) (st : Status) : Prop where
  done : st = .complete → w = [] ∧ total gs = []
  more : st = .more → ∃ gs', Sending o' gs' ∧ total gs = w.flatten ++ total gs' ∧
    (P → r ≠ .wrote 0 → Nice gs' ∧ (r ≠ .again → w.flatten ≠ []))
  closed : st = .closed → w = [] ∧ (P → r = .fails ∨ r = .wrote 0)
  fit : Fit o'
  same : o'.id = o.id ∧ o'.udp = o.udp

theorem transmit'_ok {P : Prop} {o : Out} {gs : List (List Frag)} (h : Sending o gs) (hne : P → Nice gs ∧ ∀ g ∈ gs, g ≠ []) (r : Res) :
    ∃ o' w st, transmit' o r = some (o', w, st) ∧ Sent P o gs r o' w st := by
  have hr := h.ranges
  have hu := h.udp
  unfold transmit'
  cases hd : o.msgs.drop o.msgcurr with
  | nil =>
    rw [hd] at hr
    rw [get_none_drop.2 hd]
    refine ⟨_, _, _, rfl, ⟨fun _ => ⟨rfl, ?_⟩, fun h => (by cases h), fun h => (by cases h), h.fit, rfl, rfl⟩⟩
    cases gs with
    | nil => rfl
    | cons => exact hr.elim
  | cons m ms =>
    rw [hd] at hr
    obtain ⟨hget, hms⟩ := drop_eq_cons_get hd
    rw [hget]
    cases gs with
    | nil => exact hr.elim
    | cons f fs =>
      obtain ⟨r1, r2, r3, r4, r5⟩ := hr
      simp only [hu, r1, ne_eq, not_true_eq_false, if_false, Bool.false_eq_true, false_and]
      have hft : (o.frags m).flatMap Frag.text = text f := by unfold Out.frags text; rw [r4]
      rw [hft]
      have htot : total (f :: fs) = text f ++ total fs := by simp [total]
      cases r with
      | again =>
        refine ⟨_, _, _, rfl, ⟨fun h => (by cases h), fun _ => ⟨f :: fs, ?_, by simp, fun hn _ => ⟨(hne hn).1, fun h => absurd rfl h⟩⟩, fun h => (by cases h),
          h.fit, rfl, rfl⟩⟩
        exact ⟨by rw [hd]; exact ⟨r1, r2, r3, r4, r5⟩, h.plain, hu, h.fit⟩
      | fails =>
        exact ⟨_, _, _, rfl, ⟨fun h => (by cases h), fun h => (by cases h), fun _ => ⟨rfl, fun _ => .inl rfl⟩, h.fit, rfl, rfl⟩⟩
      | wrote n =>
        simp only
        by_cases h0 : min n (text f).length = 0
        · rw [if_pos h0]
          refine ⟨_, _, _, rfl, ⟨fun h => (by cases h), fun h => (by cases h), fun _ => ⟨rfl, fun hn => .inr ?_⟩, h.fit, rfl, rfl⟩⟩
          have hf := (hne hn).2 f (by simp)
          have : (text f).length ≠ 0 := by
            intro e
            rw [List.length_eq_zero_iff] at e
            cases f with
            | nil => exact hf rfl
            | cons a as =>
              have := (hne hn).1.solid _ (List.mem_cons_self) a (by simp)
              simp only [text, List.flatMap_cons, List.append_eq_nil_iff] at e
              exact this e.1
          congr 1
          omega
        · rw [if_neg h0]
          obtain ⟨iov', st', len', f', e1, e2, e3, e4, e5, e6, e7, e8⟩ := consume_ok o.iov m.len (res := min n (text f).length) r4 r3
            (h.plain f (by simp)) (by omega)
          rw [e1]
          have hlen : iov'.length = o.iov.length := by
            rcases e4 with e4 | ⟨x, _, e4⟩ <;> rw [e4]
            simp
          have hfit : Fit { o with udp := false, iov := iov', msgs := o.msgs.set o.msgcurr { gen := o.gen, start := st', len := len' } } :=
            ⟨by simp only [hlen]; exact h.fit.room, h.fit.pos⟩
          refine ⟨_, _, _, rfl, ⟨fun h => (by cases h), fun _ => ⟨f' :: fs, ⟨?_, ?_, rfl, hfit⟩, ?_, ?_⟩, fun h => (by cases h), hfit, rfl, hu.symm⟩⟩
          · have hlt : o.msgcurr < o.msgs.length := by
              rw [List.getElem?_eq_some_iff] at hget
              exact hget.1
            have hdr : (o.msgs.set o.msgcurr { gen := o.gen, start := st', len := len' }).drop o.msgcurr = { gen := o.gen, start := st', len := len' } :: ms := by
              rw [List.drop_eq_getElem_cons (by simpa using hlt), List.getElem_set_self, List.drop_set_of_lt (by omega), hms]
            simp only [hdr]
            refine ⟨rfl, by omega, by simp only [hlen]; omega, e5, ?_⟩
            simp only [e3]
            rcases e4 with e4 | ⟨x, hx, e4⟩
            · rw [e4]; exact r5
            · rw [e4]; exact ranges_set _ _ _ hx r5
          · intro g hg
            rcases List.mem_cons.1 hg with rfl | hg
            · exact e7
            · exact h.plain g (by simp [hg])
          · rw [htot]
            have : total (f' :: fs) = text f' ++ total fs := by simp [total]
            rw [this, e6, List.flatten_cons, List.flatten_nil, List.append_nil, ← List.append_assoc, List.take_append_drop]
          · intro hn _
            replace hn := (hne hn).1
            refine ⟨⟨?_, hn.tail⟩, ?_⟩
            · intro g hg
              rcases List.mem_cons.1 hg with rfl | hg
              · exact e8 (hn.solid f (by simp))
              · exact hn.solid g (by simp [hg])
            · intro _ e
              have := congrArg List.length e
              simp only [List.flatten_cons, List.flatten_nil, List.append_nil, List.length_take, List.length_nil] at this
              omega

theorem transmit_ok {o : Out} {gs : List (List Frag)} (h : Sending o gs) (r : Res) :
    ∃ o' w st, transmit o r = some (o', w, st) ∧ Sent (Nice gs) o gs r o' w st := by
  have hr := h.ranges
  rw [transmit_eq]
  cases hd : o.msgs.drop o.msgcurr with
  | nil =>
    rw [get_none_drop.2 hd]
    rw [hd] at hr
    cases gs with
    | nil => exact transmit'_ok h (fun hn => ⟨hn, fun g hg => by simp at hg⟩) r
    | cons => exact hr.elim
  | cons m ms =>
    rw [hd] at hr
    obtain ⟨hget, hms⟩ := drop_eq_cons_get hd
    rw [hget]
    cases gs with
    | nil => exact hr.elim
    | cons f fs =>
      obtain ⟨r1, r2, r3, r4, r5⟩ := hr
      have hflen : f.length = m.len := by
        rw [← r4, List.length_take, List.length_drop]; omega
      simp only
      by_cases h0 : m.len = 0
      · rw [if_pos h0]
        have hf : f = [] := List.length_eq_zero_iff.1 (by omega)
        subst hf
        have hs : Sending { o with msgcurr := o.msgcurr + 1 } fs := by
          refine ⟨?_, fun g hg => h.plain g (by simp [hg]), h.udp, ⟨h.fit.room, h.fit.pos⟩⟩
          simp only [hms]
          exact ranges_le _ (Nat.zero_le _) r5
        have ht : total ([] :: fs) = total fs := by simp [total, text]
        obtain ⟨o', w, st, e, hst⟩ := transmit'_ok (P := Nice ([] :: fs)) hs (fun hn =>
          ⟨⟨fun g hg => hn.solid g (by simp [hg]), fun g hg => hn.tail g (by simpa using List.mem_of_mem_tail hg)⟩,
            fun g hg => hn.tail g (by simpa using hg)⟩) r
        refine ⟨o', w, st, e, ⟨fun h => ?_, fun h => ?_, hst.closed, hst.fit, hst.same⟩⟩
        · rw [ht]; exact hst.done h
        · rw [ht]; exact hst.more h
      · rw [if_neg h0]
        refine transmit'_ok h (fun hn => ⟨hn, fun g hg => ?_⟩) r
        rcases List.mem_cons.1 hg with rfl | hg
        · intro e; rw [e] at hflen; simp at hflen; omega
        · exact hn.tail g (by simpa using hg)

open Spec

theorem sendAll_ok (rs : List Res) {o : Out} {gs : List (List Frag)} (h : Sending o gs) :
    ∃ o' w st, sendAll o rs = some (o', w, st) ∧ w.flatten <+: total gs ∧ (st = .complete → w.flatten = total gs) ∧ Fit o' ∧ o'.udp = false ∧ o'.id = o.id ∧
      (Nice gs → (∀ r ∈ rs, r ≠ .fails ∧ r ≠ .wrote 0) → (total gs).length < writes rs → st = .complete) := by
  induction rs generalizing o gs with
  | nil => exact ⟨o, [], .more, rfl, by simp, fun h => (by cases h), h.fit, h.udp, rfl, fun _ _ hw => by simp [writes] at hw⟩
  | cons r rs ih =>
    obtain ⟨o1, w1, st1, e1, hst⟩ := transmit_ok h r
    unfold sendAll
    rw [e1]
    cases st1 with
    | complete =>
      obtain ⟨a, b⟩ := hst.done rfl
      exact ⟨o1, w1, .complete, rfl, by simp [a], fun _ => by simp [a, b], hst.fit, hst.same.2.trans h.udp, hst.same.1, fun _ _ _ => rfl⟩
    | closed =>
      obtain ⟨a, b⟩ := hst.closed rfl
      refine ⟨o1, w1, .closed, rfl, by simp [a], fun h => (by cases h), hst.fit, hst.same.2.trans h.udp, hst.same.1, fun hn hr _ => ?_⟩
      rcases b hn with hb | hb
      · exact absurd hb (hr r (by simp)).1
      · exact absurd hb (hr r (by simp)).2
    | more =>
      obtain ⟨gs', a, b, c⟩ := hst.more rfl
      obtain ⟨o2, w2, st2, e2, p1, p2, p3, p4, p5, p6⟩ := ih a
      simp only [e2, Option.map_some]
      refine ⟨o2, _, st2, rfl, ?_, ?_, p3, p4, p5.trans hst.same.1, ?_⟩
      · rw [b, List.flatten_append]; exact (List.prefix_append_right_inj _).2 p1
      · intro h; rw [b, List.flatten_append, p2 h]
      · intro hn hr hw
        have hr1 := hr r (by simp)
        obtain ⟨c1, c2⟩ := c hn hr1.2
        refine p6 c1 (fun r hr' => hr r (by simp [hr'])) ?_
        have hbl := congrArg List.length b
        rw [List.length_append] at hbl
        cases r with
        | again => simp only [writes] at hw; omega
        | fails => exact absurd rfl hr1.1
        | wrote n =>
          have := c2 (by simp)
          have hpos : 0 < w1.flatten.length := List.length_pos_iff.2 this
          simp only [writes] at hw
          split at hw <;> omega

theorem total_tcp {gs : List (List Frag)} {bs : List (List Nat)} (h : Tcp gs bs) : total gs = bs.flatten := by
  have : ∀ gs : List (List Frag), total gs = text gs.flatten := by
    intro gs
    induction gs with
    | nil => rfl
    | cons g gs ih =>
      unfold total text at ih ⊢
      rw [List.flatMap_cons, ih, List.flatten_cons, List.flatMap_append]
  rw [this, h.text]
  unfold text
  rw [List.flatMap_map]
  exact List.flatMap_id

theorem respond_tcp {o : Out} (hf : Fit o) (hu : o.udp = false) (bs : List (List Nat)) (rs : List Res) :
    ∃ o' w st, respond o bs rs = some (o', w, st) ∧ w.flatten <+: bs.flatten ∧ (st = .complete → w.flatten = bs.flatten) ∧ Fit o' ∧ o'.udp = false ∧
      ((∀ b ∈ bs, b ≠ []) → Willing bs rs → st = .complete) := by
  obtain ⟨o1, e1, b1, _, u1, i1, c1⟩ := start_built hf
  rw [hu] at b1 u1
  simp only [Bool.false_eq_true, if_false] at b1
  obtain ⟨o2, gs, e2, b2, t2, u2, i2, c2⟩ := addAll_tcp bs b1 u1 ⟨by simp, .inl rfl, by simp⟩ (bs0 := [])
  rw [List.nil_append] at t2
  have hmem : ∀ g ∈ gs, ∀ f ∈ g, ∃ l ∈ bs, f = .bytes l := by
    intro g hg f hfm
    have : f ∈ gs.flatten := List.mem_flatten.2 ⟨g, hg, hfm⟩
    rw [t2.text] at this
    obtain ⟨l, hl, rfl⟩ := List.mem_map.1 this
    exact ⟨l, hl, rfl⟩
  have hs : Sending o2 gs := by
    refine ⟨?_, ?_, u2, ⟨b2.room, b2.pos⟩⟩
    · rw [c2, c1]; exact built_ranges b2
    · intro g hg f hfm
      obtain ⟨l, _, rfl⟩ := hmem g hg f hfm
      exact ⟨l, rfl⟩
  obtain ⟨o3, w, st, e3, p1, p2, p3, p4, p5, p6⟩ := sendAll_ok rs hs
  rw [total_tcp t2] at p1 p2 p6
  refine ⟨o3, w, st, ?_, p1, p2, p3, p4, ?_⟩
  · unfold respond
    rw [e1, Option.bind_some, e2, Option.bind_some, e3]
  · intro hne hw
    refine p6 ⟨?_, ?_⟩ hw.1 hw.2
    · intro g hg f hfm
      obtain ⟨l, hl, rfl⟩ := hmem g hg f hfm
      exact hne l hl
    · intro g hg
      rcases t2.full with h1 | h1
      · rw [h1] at hg; simp at hg
      · exact h1 g (List.mem_of_mem_tail hg)

theorem shrink_fit {o : Out} (h : Fit o) : Fit (shrink o) ∧ (shrink o).udp = o.udp := by
  have h1 := h.room
  have h2 := h.pos
  unfold shrink
  split
  · exact ⟨h, rfl⟩
  · simp only
    split
    · split
      · exact ⟨⟨by simp only [List.length_take]; omega, by simp⟩, rfl⟩
      · exact ⟨⟨h1, by simp⟩, rfl⟩
    · split
      · exact ⟨⟨by simp only [List.length_take]; omega, h2⟩, rfl⟩
      · exact ⟨⟨h1, h2⟩, rfl⟩

theorem responses_tcp (l : List (List (List Nat) × List Res)) {o : Out} (hf : Fit o) (hu : o.udp = false) :
    ∃ w st, responses o l = some (w, st) ∧ w.flatten <+: bytesOf l ∧ (st = .complete → w.flatten = bytesOf l) ∧
      ((∀ x ∈ l, (∀ b ∈ x.1, b ≠ []) ∧ Willing x.1 x.2) → st = .complete) := by
  induction l generalizing o with
  | nil => exact ⟨[], .complete, rfl, by simp [bytesOf], fun _ => by simp [bytesOf], fun _ => rfl⟩
  | cons x l ih =>
    obtain ⟨bs, rs⟩ := x
    obtain ⟨o1, w1, st1, e1, p1, p2, p3, p4, p5⟩ := respond_tcp hf hu bs rs
    have hb : bytesOf ((bs, rs) :: l) = bs.flatten ++ bytesOf l := by simp [bytesOf]
    unfold responses
    rw [e1, hb]
    have hother : st1 ≠ .complete → ∃ w st, some (w1, st1) = some (w, st) ∧ w.flatten <+: bs.flatten ++ bytesOf l ∧
        (st = .complete → w.flatten = bs.flatten ++ bytesOf l) ∧ ((∀ x ∈ (bs, rs) :: l, (∀ b ∈ x.1, b ≠ []) ∧ Willing x.1 x.2) → st = .complete) := by
      intro hc
      exact ⟨w1, st1, rfl, p1.trans (List.prefix_append _ _), fun h => absurd h hc,
        fun h => absurd (p5 (h (bs, rs) (by simp)).1 (h (bs, rs) (by simp)).2) hc⟩
    cases st1 with
    | more => exact hother (by simp)
    | closed => exact hother (by simp)
    | complete =>
      obtain ⟨f1, f2⟩ := shrink_fit p3
      obtain ⟨w2, st2, e2, q1, q2, q3⟩ := ih f1 (f2.trans p4)
      simp only [e2, Option.map_some]
      refine ⟨_, st2, rfl, ?_, ?_, fun h => q3 fun x hx => h x (by simp [hx])⟩
      · rw [List.flatten_append, p2 rfl]; exact (List.prefix_append_right_inj _).2 q1
      · intro h; rw [List.flatten_append, p2 rfl, q2 h]

end Verif.ConnOut
