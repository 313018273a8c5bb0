import Verif.Spec.CmdLog

namespace Verif.CmdLog.Lemmas

open Verif.CmdLog Spec

theorem get_len (d : Nat → UInt8) (a b : Nat) : (get d a b).length = b - a := by simp [get]

theorem get_split (d : Nat → UInt8) {a b c : Nat} (h1 : a ≤ b) (h2 : b ≤ c) : get d a c = get d a b ++ get d b c := by
  apply List.ext_getElem
  · simp [get_len]; omega
  · intro i hi hj
    simp only [get, List.getElem_map, List.getElem_range, List.getElem_append, List.length_map, List.length_range]
    split
    · rfl
    · congr 1; omega

theorem get_self (d : Nat → UInt8) (a : Nat) : get d a a = [] := by simp [get]

theorem get_put_out (d : Nat → UInt8) (p : Nat) (b : Bytes) {a c : Nat} (h : c ≤ p ∨ p + b.length ≤ a) : get (put d p b) a c = get d a c := by
  apply List.ext_getElem
  · simp [get_len]
  · intro i hi hj
    have hi' : i < c - a := by simpa [get_len] using hi
    simp only [get, List.getElem_map, List.getElem_range, put]
    have hn : ¬ (p ≤ a + i ∧ a + i < p + b.length) := by omega
    simp only [if_neg hn]

theorem get_put_in (d : Nat → UInt8) (p : Nat) (b : Bytes) : get (put d p b) p (p + b.length) = b := by
  apply List.ext_getElem
  · simp [get_len]
  · intro i hi hj
    simp only [get, List.getElem_map, List.getElem_range, put]
    have hp : p ≤ p + i ∧ p + i < p + b.length := by omega
    simp only [if_pos hp, Nat.add_sub_cancel_left, List.getD_eq_getElem?_getD, List.getElem?_eq_getElem hj, Option.getD_some]

theorem append_flatten (fs : List Bytes) (b : Bytes) : (append fs b).flatten = fs.flatten ++ b := by
  induction fs with
  | nil => simp [append]
  | cons f fs ih =>
    cases fs with
    | nil => simp [append]
    | cons g gs => simp only [append, List.flatten_cons] at ih ⊢; rw [ih]; simp

theorem fmt_len (t : Bytes) : (fmt t).length < 400 := by
  by_cases h : inputSize < t.length
  · simp only [fmt, if_pos h]; simp [inputSize]; omega
  · simp only [fmt, if_neg h]; simp [inputSize]; omega

/-- What waits in the buffer. -/
def pend (s : St) : Bytes := if s.head ≤ s.tail then get s.data s.head s.tail else get s.data s.head s.last ++ get s.data 0 s.tail

/-- The shape of the buffer. -/
def Shape (s : St) : Prop :=
  (s.head ≤ s.tail ∧ s.last = 0 ∧ s.tail < bufSize) ∨ (s.tail < s.head ∧ s.head ≤ s.last ∧ s.last < bufSize ∧ bufSize < s.last + 400)

/-- What the flush thread knows and has done. -/
def Known (s : St) (k : Nat) : Pc → Prop
  | .off c => c = 0 → k = 0 ∧ (s.reqstop = false → onDisk s = (s.acc.take s.seen).flatten)
  | .top => k = 0
  | .snap t l => k = 0 ∧
      ((s.head ≤ t ∧ l = 0 ∧ (s.head ≤ s.tail → t ≤ s.tail) ∧ (s.tail < s.head → t ≤ s.last) ∧
          (s.acc.take s.seen).flatten = onDisk s ++ get s.data s.head t) ∨
       (t < s.head ∧ l = s.last ∧ s.tail < s.head ∧ t ≤ s.tail ∧ (s.acc.take s.seen).flatten = onDisk s ++ (get s.data s.head l ++ get s.data 0 t)))
  | .wrote n wrap => k = n ∧ 0 < n ∧
      (if wrap = true then s.tail < s.head ∧ s.head + n = s.last
       else n ≤ writeSize ∧ (s.head ≤ s.tail → s.head + n ≤ s.tail) ∧ (s.tail < s.head → s.head + n ≤ s.last))

structure Inv (s : St) : Prop where
  shape : Shape s
  seen : s.seen ≤ s.acc.length
  disk : ∃ k, k ≤ (pend s).length ∧ (s.head = 0 → k ≤ writeSize) ∧ onDisk s ++ (pend s).drop k = s.acc.flatten ∧ Known s k s.pc

theorem inv_init : Inv init := by
  refine ⟨Or.inl ⟨by decide, rfl, by decide⟩, Nat.le_refl _, 0, Nat.zero_le _, fun _ => Nat.zero_le _, ?_, ?_⟩
  · rfl
  · exact fun _ => ⟨rfl, fun _ => rfl⟩

theorem inv_wrap {s : St} (h : Inv s) (h1 : s.head ≤ s.tail) (h0 : s.head ≠ 0) (h2 : bufSize < s.tail + 400) :
    Inv { s with last := s.tail, tail := 0 } := by
  obtain ⟨hs, hse, k, hk, hk0, hd, hn⟩ := h
  have ht : s.tail < bufSize := by rcases hs with hs | hs <;> omega
  have hp : pend { s with last := s.tail, tail := 0 } = pend s := by
    have e1 : ¬ s.head ≤ 0 := by omega
    simp only [pend, if_neg e1, if_pos h1, get_self, List.append_nil]
  refine ⟨Or.inr ⟨by show 0 < s.head; omega, h1, ht, h2⟩, hse, k, by rw [hp]; exact hk, hk0, by rw [hp]; exact hd, ?_⟩
  show Known _ k s.pc
  revert hn
  cases s.pc with
  | off c => exact id
  | top => exact id
  | snap t l =>
    rintro ⟨e, hh | hh⟩
    · exact ⟨e, Or.inl ⟨hh.1, hh.2.1, fun hx => absurd hx (by show ¬ s.head ≤ 0; omega), fun _ => hh.2.2.1 h1, hh.2.2.2.2⟩⟩
    · omega
  | wrote n w =>
    cases w with
    | true => rintro ⟨e, e1, e2⟩; simp only [if_true] at e2; omega
    | false =>
      rintro ⟨e, e1, e2⟩
      simp only [Bool.false_eq_true, if_false] at e2
      refine ⟨e, e1, ?_⟩
      simp only [Bool.false_eq_true, if_false]
      exact ⟨e2.1, fun hx => absurd hx (by show ¬ s.head ≤ 0; omega), fun _ => e2.2.1 h1⟩

theorem pend_len_lt {s : St} (hs : Shape s) : (pend s).length < bufSize := by
  unfold pend
  rcases hs with hs | hs
  · rw [if_pos hs.1, get_len]; omega
  · rw [if_neg (by omega), List.length_append, get_len, get_len]; omega

theorem inv_put {s : St} (h : Inv s) (line : Bytes)
    (hr : (s.head ≤ s.tail ∧ s.tail + line.length < bufSize) ∨ (s.tail < s.head ∧ s.tail + line.length < s.head)) :
    Inv { s with data := put s.data s.tail line, tail := s.tail + line.length, acc := s.acc ++ [line] } := by
  obtain ⟨hs, hse, k, hk, hk0, hd, hn⟩ := h
  have hp : pend { s with data := put s.data s.tail line, tail := s.tail + line.length, acc := s.acc ++ [line] } = pend s ++ line := by
    rcases hr with ⟨r1, r2⟩ | ⟨r1, r2⟩
    · have e : s.head ≤ s.tail + line.length := by omega
      simp only [pend, if_pos r1, if_pos e]
      rw [get_split _ r1 (Nat.le_add_right s.tail line.length), get_put_in, get_put_out _ _ _ (Or.inl (Nat.le_refl _))]
    · have e : ¬ s.head ≤ s.tail + line.length := by omega
      have e' : ¬ s.head ≤ s.tail := by omega
      simp only [pend, if_neg e, if_neg e']
      rw [get_split _ (Nat.zero_le s.tail) (Nat.le_add_right s.tail line.length), get_put_in, get_put_out _ _ _ (Or.inl (Nat.le_refl _)),
        get_put_out _ _ _ (Or.inr (by omega)), List.append_assoc]
  have htake : (s.acc ++ [line]).take s.seen = s.acc.take s.seen := List.take_append_of_le_length hse
  refine ⟨?_, by simp; omega, k, by rw [hp, List.length_append]; omega, hk0, ?_, ?_⟩
  · rcases hr with ⟨r1, r2⟩ | ⟨r1, r2⟩
    · rcases hs with hs | hs
      · exact Or.inl ⟨by show s.head ≤ s.tail + line.length; omega, hs.2.1, r2⟩
      · omega
    · rcases hs with hs | hs
      · omega
      · exact Or.inr ⟨r2, hs.2⟩
  · rw [hp, List.drop_append_of_le_length hk, ← List.append_assoc]
    show onDisk s ++ (pend s).drop k ++ line = (s.acc ++ [line]).flatten
    rw [hd]; simp
  · show Known _ k s.pc
    revert hn
    cases s.pc with
    | off c =>
      intro hh hc
      refine ⟨(hh hc).1, fun hq => ?_⟩
      show onDisk s = ((s.acc ++ [line]).take s.seen).flatten
      rw [htake]; exact (hh hc).2 hq
    | top => exact id
    | snap t l =>
      rintro ⟨e, hh | hh⟩
      · refine ⟨e, Or.inl ⟨hh.1, hh.2.1, fun hx => ?_, fun hx => hh.2.2.2.1 ?_, ?_⟩⟩
        · show t ≤ s.tail + line.length
          rcases hr with ⟨r1, r2⟩ | ⟨r1, r2⟩
          · have := hh.2.2.1 r1; omega
          · have hx' : s.head ≤ s.tail + line.length := hx; omega
        · have hx' : s.tail + line.length < s.head := hx; omega
        · show ((s.acc ++ [line]).take s.seen).flatten = onDisk s ++ get (put s.data s.tail line) s.head t
          rw [htake, hh.2.2.2.2, get_put_out]
          rcases hr with ⟨r1, r2⟩ | ⟨r1, r2⟩
          · exact Or.inl (hh.2.2.1 r1)
          · exact Or.inr (by omega)
      · refine ⟨e, Or.inr ⟨hh.1, hh.2.1, ?_, ?_, ?_⟩⟩
        · show s.tail + line.length < s.head; omega
        · show t ≤ s.tail + line.length; omega
        · show ((s.acc ++ [line]).take s.seen).flatten = onDisk s ++ (get (put s.data s.tail line) s.head l ++ get (put s.data s.tail line) 0 t)
          rw [htake, hh.2.2.2.2, get_put_out _ _ _ (Or.inl hh.2.2.2.1), get_put_out _ _ _ (Or.inr (by omega))]
    | wrote n w =>
      rintro ⟨e, e1, e2⟩
      refine ⟨e, e1, ?_⟩
      cases w with
      | true =>
        simp only [if_true] at e2 ⊢
        exact ⟨by omega, e2.2⟩
      | false =>
        simp only [Bool.false_eq_true, if_false] at e2 ⊢
        refine ⟨e2.1, fun hx => ?_, fun hx => e2.2.2 (by omega)⟩
        rcases hr with ⟨r1, r2⟩ | ⟨r1, r2⟩
        · have := e2.2.1 r1; omega
        · omega

/-- The counters, the flags and the files play no role in the invariant, but for `reqstop`. -/
theorem inv_enter {s : St} (h : Inv s) : Inv { s with entered := s.entered + 1 } := by
  obtain ⟨hs, hse, k, hk, hk0, hd, hn⟩ := h
  refine ⟨hs, hse, k, hk, hk0, hd, ?_⟩
  show Known _ k s.pc
  revert hn; cases s.pc <;> exact id

theorem inv_skip {s : St} (h : Inv s) : Inv { s with skipped := s.skipped + 1 } := by
  obtain ⟨hs, hse, k, hk, hk0, hd, hn⟩ := h
  refine ⟨hs, hse, k, hk, hk0, hd, ?_⟩
  show Known _ k s.pc
  revert hn; cases s.pc <;> exact id

/-- When the server stops because of a line: the buffer is full and nothing was given free. -/
def Full (s : St) (line : Bytes) : Prop := s.head = 0 ∧ bufSize ≤ s.tail + line.length

theorem write_cases {s : St} (h : Inv s) (line : Bytes) (hl : line.length < 400) :
    (Full s line ∧ write s line = .fault) ∨
    (¬ Full s line ∧ ∃ s', write s line = .ok s' ∧ Inv s' ∧ s'.entered = s.entered + 1 ∧ s'.ready = s.ready ∧ s'.pc = s.pc ∧ s'.files = s.files ∧
      s'.inUse = s.inUse ∧ s'.reqstop = s.reqstop ∧ s'.seen = s.seen ∧
      ((s'.acc = s.acc ++ [line] ∧ s'.skipped = s.skipped) ∨
        (s'.acc = s.acc ∧ s'.skipped = s.skipped + 1 ∧ bufSize ≤ (pend s).length + 800))) := by
  have hs := h.shape
  by_cases hw : s.head ≤ s.tail ∧ bufSize - s.tail ≤ line.length
  · by_cases h0 : s.head = 0
    · have hF : Full s line := ⟨h0, by omega⟩
      refine Or.inl ⟨hF, ?_⟩
      have ht : s.tail ≠ 0 := by
        intro he; simp only [he, bufSize] at hw; omega
      simp only [write, if_pos hw]
      have e1 : s.head ≤ 0 := by omega
      simp only [if_pos e1, if_pos ht]
    · refine Or.inr ⟨fun hF => h0 hF.1, ?_⟩
      have hI := inv_wrap (inv_enter h) hw.1 h0 (by show bufSize < s.tail + 400; omega)
      have e1 : ¬ s.head ≤ 0 := by omega
      have e2 : ¬ s.tail = 0 := by omega
      simp only [write, if_pos hw, if_neg e1, if_neg e2]
      by_cases hf : line.length < s.head - 0
      · have e3 : ¬ bufSize < 0 + line.length := by simp only [bufSize]; omega
        simp only [if_pos hf, if_neg e3]
        exact ⟨_, rfl, inv_put hI line (Or.inr ⟨by show 0 < s.head; omega, by show 0 + line.length < s.head; omega⟩), rfl, rfl, rfl, rfl, rfl, rfl, rfl,
          Or.inl ⟨rfl, rfl⟩⟩
      · simp only [if_neg hf]
        refine ⟨_, rfl, inv_skip hI, rfl, rfl, rfl, rfl, rfl, rfl, rfl, Or.inr ⟨rfl, rfl, ?_⟩⟩
        simp only [pend, if_pos hw.1, get_len]; omega
  · simp only [write, if_neg hw]
    by_cases h1 : s.head ≤ s.tail
    · rcases hs with hs | hs
      · have e2 : line.length < bufSize - s.tail := by omega
        refine Or.inr ⟨fun hF => by have := hF.2; omega, ?_⟩
        simp only [if_pos h1, hs.2.1, e2, not_true, ne_eq, if_false]
        refine ⟨_, rfl, ?_, rfl, rfl, rfl, rfl, rfl, rfl, rfl, Or.inl ⟨rfl, rfl⟩⟩
        have := inv_put (inv_enter h) line (Or.inl ⟨h1, by show s.tail + line.length < bufSize; omega⟩)
        simpa only [hs.2.1] using this
      · omega
    · rcases hs with hs | hs
      · omega
      · refine Or.inr ⟨fun hF => by have := hF.1; omega, ?_⟩
        have e2 : ¬ s.last = 0 := by omega
        simp only [if_neg h1, if_neg e2]
        by_cases hf : line.length < s.head - s.tail
        · have e3 : ¬ bufSize < s.tail + line.length := by omega
          simp only [if_pos hf, if_neg e3]
          exact ⟨_, rfl, inv_put (inv_enter h) line (Or.inr ⟨by show s.tail < s.head; omega, by show s.tail + line.length < s.head; omega⟩), rfl, rfl, rfl,
            rfl, rfl, rfl, rfl, Or.inl ⟨rfl, rfl⟩⟩
        · simp only [if_neg hf]
          refine ⟨_, rfl, inv_skip (inv_enter h), rfl, rfl, rfl, rfl, rfl, rfl, rfl, Or.inr ⟨rfl, rfl, ?_⟩⟩
          simp only [pend, if_neg h1, List.length_append, get_len]; omega

theorem drop_get (d : Nat → UInt8) {a b : Nat} (n : Nat) (h : a + n ≤ b) : (get d a b).drop n = get d (a + n) b := by
  rw [get_split d (Nat.le_add_right a n) h, List.drop_left' (by rw [get_len]; omega)]

theorem pend_drop {s : St} (n : Nat) (h1 : s.head ≤ s.tail → s.head + n ≤ s.tail) (h2 : s.tail < s.head → s.head + n ≤ s.last) :
    (pend s).drop n = pend { s with head := s.head + n } := by
  unfold pend
  by_cases h : s.head ≤ s.tail
  · have := h1 h
    simp only [if_pos h, if_pos this]
    exact drop_get _ _ this
  · have h' := h2 (by omega)
    have e : ¬ s.head + n ≤ s.tail := by omega
    simp only [if_neg h, if_neg e]
    rw [List.drop_append_of_le_length (by rw [get_len]; omega), drop_get _ _ h']

/-- What a step of the flush thread leaves as it is. -/
structure Keep (s s' : St) : Prop where
  acc : s'.acc = s.acc
  entered : s'.entered = s.entered
  skipped : s'.skipped = s.skipped
  ready : s'.ready = s.ready
  reqstop : s'.reqstop = s.reqstop

/-- How the flush thread comes from one place to the next. -/
def Move (s s' : St) : Prop :=
  match s.pc, s'.pc with
  | .top, .snap _ _ => s'.seen = s.acc.length
  | .top, .off c => c = 0 → s.reqstop = true
  | .top, .top => True
  | .snap _ _, .top => True
  | .snap _ _, .off _ => s'.seen = s.seen
  | .snap _ _, .wrote _ _ => True
  | .wrote _ _, .top => True
  | .wrote _ _, .off c => c = 1
  | .off _, .off _ => s' = s
  | _, _ => False

theorem piece_inv {s : St} {t l : Nat} (h : Inv s) (hpc : s.pc = .snap t l) (n : Nat) (wrap : Bool) (k : Nat) (hn0 : 0 < n)
    (hn : if wrap = true then s.tail < s.head ∧ s.head + n = s.last
       else n ≤ writeSize ∧ (s.head ≤ s.tail → s.head + n ≤ s.tail) ∧ (s.tail < s.head → s.head + n ≤ s.last)) :
    ∃ s', piece s n wrap k = .ok s' ∧ Inv s' ∧ Keep s s' ∧ Move s s' := by
  obtain ⟨hs, hse, k', hk, hk0, hd, hkn⟩ := h
  rw [hpc] at hkn
  obtain ⟨rfl, hkn⟩ := hkn
  have hb1 : s.head ≤ s.tail → s.head + n ≤ s.tail := by
    intro hx; cases wrap
    · simp only [Bool.false_eq_true, if_false] at hn; exact hn.2.1 hx
    · simp only [if_true] at hn; omega
  have hb2 : s.tail < s.head → s.head + n ≤ s.last := by
    intro hx; cases wrap
    · simp only [Bool.false_eq_true, if_false] at hn; exact hn.2.2 hx
    · simp only [if_true] at hn; omega
  have hle : s.head + n ≤ bufSize ∧ n ≤ (pend s).length := by
    unfold pend
    rcases hs with hs | hs
    · have := hb1 hs.1
      rw [if_pos hs.1, get_len]; omega
    · have := hb2 hs.1
      rw [if_neg (by omega), List.length_append, get_len, get_len]; omega
  have hz : s.head = 0 → n ≤ writeSize := by
    intro hx; cases wrap
    · simp only [Bool.false_eq_true, if_false] at hn; exact hn.1
    · simp only [if_true] at hn; omega
  have hpre : ∀ j ≤ n, onDisk s ++ get s.data s.head (s.head + j) ++ (pend s).drop j = s.acc.flatten := by
    intro j hj
    have : pend s = get s.data s.head (s.head + j) ++ (pend s).drop j := by
      rw [pend_drop j (fun hx => by have := hb1 hx; omega) (fun hx => by have := hb2 hx; omega)]
      unfold pend
      by_cases hx : s.head ≤ s.tail
      · have := hb1 hx
        have e : s.head + j ≤ s.tail := by omega
        simp only [if_pos hx, if_pos e]
        exact get_split _ (by omega) e
      · have := hb2 (by omega)
        have e : ¬ s.head + j ≤ s.tail := by omega
        simp only [if_neg hx, if_neg e]
        rw [← List.append_assoc, ← get_split _ (by omega) (by omega)]
    rw [List.append_assoc, ← this]
    simpa using hd
  have e1 : ¬ bufSize < s.head + n := by omega
  simp only [piece, if_neg e1]
  by_cases hkk : k < n
  · simp only [if_pos hkk]
    refine ⟨_, rfl, ⟨hs, hse, k, ?_, ?_, ?_, ?_⟩, ⟨rfl, rfl, rfl, rfl, rfl⟩, ?_⟩
    · show k ≤ (pend s).length; omega
    · intro hx; have := hz hx; omega
    · show (append s.files _).flatten ++ (pend s).drop k = _
      rw [append_flatten]; exact hpre k (by omega)
    · intro hc; cases hc
    · simp only [Move, hpc, exit]
  · simp only [if_neg hkk]
    refine ⟨_, rfl, ⟨hs, hse, n, hle.2, hz, ?_, ?_⟩, ⟨rfl, rfl, rfl, rfl, rfl⟩, ?_⟩
    · show (append s.files _).flatten ++ (pend s).drop n = _
      rw [append_flatten]; exact hpre n (Nat.le_refl _)
    · exact ⟨rfl, hn0, hn⟩
    · simp only [Move, hpc]

theorem flush_inv {s : St} (h : Inv s) (k : Nat) : ∃ s', flush s k = .ok s' ∧ Inv s' ∧ Keep s s' ∧ Move s s' := by
  have h' := h
  obtain ⟨hs, hse, k', hk, hk0, hd, hkn⟩ := h'
  unfold flush
  split
  · next c hpc => exact ⟨s, rfl, h, ⟨rfl, rfl, rfl, rfl, rfl⟩, by simp only [Move, hpc]⟩
  · next hpc =>
    rw [hpc] at hkn
    have hk' : k' = 0 := hkn
    subst hk'
    by_cases hq : s.reqstop = true
    · simp only [hq, if_true]
      refine ⟨_, rfl, ⟨hs, hse, 0, hk, hk0, hd, fun _ => ⟨rfl, fun hr => ?_⟩⟩, ⟨rfl, rfl, rfl, rfl, rfl⟩, ?_⟩
      · have hr' : s.reqstop = false := hr
        rw [hq] at hr'; cases hr'
      · simp only [Move, hpc, exit]; exact fun _ => hq
    · simp only [if_neg hq]
      by_cases hf : s.fd = false
      · simp only [hf, if_true]
        by_cases hk1 : k = 0
        · simp only [hk1, if_true]
          refine ⟨_, rfl, ⟨hs, hse, 0, hk, hk0, hd, fun hc => ?_⟩, ⟨rfl, rfl, rfl, rfl, rfl⟩, ?_⟩
          · cases hc
          · simp only [Move, hpc, exit]; intro hc; cases hc
        · simp only [if_neg hk1]
          refine ⟨_, rfl, ⟨hs, hse, 0, hk, hk0, ?_, ?_⟩, ⟨rfl, rfl, rfl, rfl, rfl⟩, ?_⟩
          · show (s.files ++ [[]]).flatten ++ (pend s).drop 0 = _
            rw [List.flatten_append]; simpa [onDisk] using hd
          · show Known _ 0 s.pc
            rw [hpc]; rfl
          · simp only [Move, hpc]
      · simp only [if_neg hf]
        refine ⟨_, rfl, ⟨hs, Nat.le_refl _, 0, hk, hk0, hd, ?_⟩, ⟨rfl, rfl, rfl, rfl, rfl⟩, ?_⟩
        · refine ⟨rfl, ?_⟩
          have hd' : s.acc.flatten = onDisk s ++ pend s := by rw [← hd]; simp
          rcases hs with hs | hs
          · refine Or.inl ⟨hs.1, hs.2.1, fun _ => Nat.le_refl _, fun hx => ?_, ?_⟩
            · have hx' : s.tail < s.head := hx; omega
            · show (s.acc.take s.acc.length).flatten = onDisk s ++ get s.data s.head s.tail
              rw [List.take_length, hd']
              simp only [pend, if_pos hs.1]
          · refine Or.inr ⟨hs.1, rfl, hs.1, Nat.le_refl _, ?_⟩
            show (s.acc.take s.acc.length).flatten = onDisk s ++ (get s.data s.head s.last ++ get s.data 0 s.tail)
            have e : ¬ s.head ≤ s.tail := by omega
            rw [List.take_length, hd']
            simp only [pend, if_neg e]
        · simp only [Move, hpc]
  · next t l hpc =>
    rw [hpc] at hkn
    obtain ⟨rfl, hkn⟩ := hkn
    rcases hkn with ⟨n1, n2, n3, n4, n5⟩ | ⟨n1, n2, n3, n4, n5⟩
    · have e0 : ¬ l ≠ 0 := by simp [n2]
      simp only [if_pos n1, if_neg e0]
      by_cases c1 : s.inUse = true ∧ t - s.head < writeSize
      · simp only [if_pos c1]
        refine ⟨_, rfl, ⟨hs, hse, 0, hk, hk0, hd, rfl⟩, ⟨rfl, rfl, rfl, rfl, rfl⟩, by simp only [Move, hpc]⟩
      · simp only [if_neg c1]
        by_cases c2 : s.inUse = false ∧ s.head = t
        · simp only [if_pos c2]
          refine ⟨_, rfl, ⟨hs, hse, 0, hk, hk0, hd, fun _ => ⟨rfl, fun _ => ?_⟩⟩, ⟨rfl, rfl, rfl, rfl, rfl⟩, by simp only [Move, hpc, exit]⟩
          show onDisk s = (s.acc.take s.seen).flatten
          rw [n5, c2.2, get_self, List.append_nil]
        · simp only [if_neg c2]
          have hpos : 0 < t - s.head := by
            cases hu : s.inUse
            · have : ¬ s.head = t := fun hx => c2 ⟨hu, hx⟩
              omega
            · have : ¬ t - s.head < writeSize := fun hx => c1 ⟨hu, hx⟩
              simp only [writeSize] at this; omega
          refine piece_inv h hpc _ _ _ (by simp only [writeSize]; omega) ?_
          simp only [Bool.false_eq_true, if_false]
          refine ⟨Nat.min_le_right _ _, fun hx => ?_, fun hx => ?_⟩
          · have := n3 hx; omega
          · have := n4 hx; omega
    · have e0 : ¬ s.head ≤ t := by omega
      have hl : s.head ≤ s.last ∧ s.last ≠ 0 := by rcases hs with hs | hs <;> omega
      have e1 : ¬ l = 0 := by omega
      simp only [if_neg e0, if_neg e1]
      by_cases c1 : l - s.head = 0
      · simp only [if_pos c1]
        refine ⟨_, rfl, ⟨hs, hse, 0, hk, hk0, hd, rfl⟩, ⟨rfl, rfl, rfl, rfl, rfl⟩, by simp only [Move, hpc]⟩
      · simp only [if_neg c1]
        refine piece_inv h hpc _ _ _ (by omega) ?_
        simp only [if_true]
        exact ⟨n3, by omega⟩
  · next n wrap hpc =>
    rw [hpc] at hkn
    obtain ⟨rfl, hn0, hkn⟩ := hkn
    have key : ∃ s1 : St, (if wrap = true then { s with head := 0, last := 0, nw := s.nw + k' } else { s with head := s.head + k', nw := s.nw + k' }) = s1 ∧
        Shape s1 ∧ onDisk s1 ++ pend s1 = s1.acc.flatten ∧ Keep s s1 ∧ s1.seen = s.seen := by
      cases wrap with
      | true =>
        simp only [if_true] at hkn ⊢
        refine ⟨_, rfl, Or.inl ⟨Nat.zero_le _, rfl, ?_⟩, ?_, ⟨rfl, rfl, rfl, rfl, rfl⟩, rfl⟩
        · rcases hs with hs | hs
          · exact hs.2.2
          · show s.tail < bufSize; omega
        · show onDisk s ++ pend _ = s.acc.flatten
          rw [← hd]
          congr 1
          have e : ¬ s.head ≤ s.tail := by omega
          simp only [pend, Nat.zero_le, if_true, if_neg e]
          rw [List.drop_left' (by rw [get_len]; omega)]
      | false =>
        simp only [Bool.false_eq_true, if_false] at hkn ⊢
        refine ⟨_, rfl, ?_, ?_, ⟨rfl, rfl, rfl, rfl, rfl⟩, rfl⟩
        · rcases hs with hs | hs
          · exact Or.inl ⟨hkn.2.1 hs.1, hs.2⟩
          · exact Or.inr ⟨by show s.tail < s.head + k'; omega, hkn.2.2 hs.1, hs.2.2⟩
        · show onDisk s ++ pend _ = s.acc.flatten
          rw [← hd, pend_drop k' hkn.2.1 hkn.2.2]
          rfl
    obtain ⟨s1, e1, hs1, hd1, hK, hse1⟩ := key
    simp only [e1]
    have hse' : s1.seen ≤ s1.acc.length := by rw [hse1, hK.acc]; exact hse
    by_cases c1 : fileMax ≤ s1.nw
    · simp only [if_pos c1]
      by_cases c2 : fileNum ≤ s1.files.length
      · simp only [if_pos c2]
        refine ⟨_, rfl, ⟨hs1, hse', 0, Nat.zero_le _, fun _ => Nat.zero_le _, hd1, fun hc => ?_⟩, ⟨hK.acc, hK.entered, hK.skipped, hK.ready, hK.reqstop⟩, ?_⟩
        · cases hc
        · simp only [Move, hpc, exit]
      · simp only [if_neg c2]
        exact ⟨_, rfl, ⟨hs1, hse', 0, Nat.zero_le _, fun _ => Nat.zero_le _, hd1, rfl⟩, ⟨hK.acc, hK.entered, hK.skipped, hK.ready, hK.reqstop⟩,
          by simp only [Move, hpc]⟩
    · simp only [if_neg c1]
      exact ⟨_, rfl, ⟨hs1, hse', 0, Nat.zero_le _, fun _ => Nat.zero_le _, hd1, rfl⟩, ⟨hK.acc, hK.entered, hK.skipped, hK.ready, hK.reqstop⟩,
        by simp only [Move, hpc]⟩

theorem step_inv {s s' : St} {e : Ev} (h : Inv s) (hs : step s e = .ok s') : Inv s' := by
  cases e with
  | write t =>
    simp only [step] at hs
    by_cases hr : s.ready = true
    · simp only [hr, if_true] at hs
      rcases write_cases h (fmt t) (fmt_len t) with ⟨_, hf⟩ | ⟨_, s1, he, hi, _⟩
      · rw [hf] at hs; cases hs
      · rw [he] at hs; cases hs; exact hi
    · simp only [if_neg hr] at hs; cases hs; exact h
  | start =>
    simp only [step, Res.ok.injEq] at hs
    subst hs
    unfold start
    split
    · split
      · exact h
      · refine ⟨Or.inl ⟨Nat.le_refl _, rfl, by show 0 < bufSize; decide⟩, Nat.le_refl _, 0, Nat.zero_le _, fun _ => Nat.zero_le _, ?_, rfl⟩
        rfl
    · exact h
  | stop =>
    simp only [step, Res.ok.injEq] at hs
    subst hs
    obtain ⟨hs, hse, k, hk, hk0, hd, hn⟩ := h
    refine ⟨hs, hse, k, hk, hk0, hd, ?_⟩
    show Known _ k s.pc
    revert hn; cases s.pc <;> exact id
  | final =>
    simp only [step, Res.ok.injEq] at hs
    subst hs
    obtain ⟨hs, hse, k, hk, hk0, hd, hn⟩ := h
    refine ⟨hs, hse, k, hk, hk0, hd, ?_⟩
    show Known _ k s.pc
    revert hn
    cases s.pc with
    | off c => exact fun hh hc => ⟨(hh hc).1, fun hr => by cases hr⟩
    | top => exact id
    | snap t l => exact id
    | wrote n w => exact id
  | flush k =>
    obtain ⟨s1, he, hi, _⟩ := flush_inv h k
    simp only [step, he, Res.ok.injEq] at hs
    subst hs; exact hi

theorem run_inv {es : List Ev} : ∀ {s s' : St}, Inv s → run s es = .ok s' → Inv s' := by
  induction es with
  | nil => intro s s' h hr; cases hr; exact h
  | cons e es ih =>
    intro s s' h hr
    simp only [run] at hr
    split at hr
    · cases hr
    · next s1 he => exact ih (step_inv h he) hr

theorem run_append {es1 es2 : List Ev} : ∀ {s : St}, run s (es1 ++ es2) = match run s es1 with | .fault => .fault | .ok s' => run s' es2 := by
  induction es1 with
  | nil => intro s; rfl
  | cons e es ih =>
    intro s
    simp only [List.cons_append, run]
    split
    · rfl
    · exact ih

/-- What happens to the lines and the counters while the logging is not started anew. -/
theorem step_track {s s' : St} {e : Ev} (h : Inv s) (hr : s.ready = true) (he : e ≠ .start) (hs : step s e = .ok s') :
    s'.ready = true ∧ ∃ kept, List.Sublist kept (texts [e]) ∧ s'.acc = s.acc ++ kept.map fmt ∧ s'.entered = s.entered + (texts [e]).length ∧
      s'.skipped + kept.length = s.skipped + (texts [e]).length := by
  cases e with
  | write t =>
    simp only [step, hr, if_true] at hs
    rcases write_cases h (fmt t) (fmt_len t) with ⟨_, hf⟩ | ⟨_, s1, h1, hi, w1, w2, w3, w4, w5, w6, w7, w8⟩
    · rw [hf] at hs; cases hs
    · rw [h1] at hs; cases hs
      refine ⟨by rw [w2]; exact hr, ?_⟩
      rcases w8 with ⟨a, b⟩ | ⟨a, b, _⟩
      · exact ⟨[t], List.Sublist.refl _, a, w1, by rw [b]; rfl⟩
      · exact ⟨[], List.nil_sublist _, by simp [a], w1, by rw [b]; rfl⟩
  | start => exact absurd rfl he
  | stop =>
    simp only [step, Res.ok.injEq] at hs
    subst hs
    exact ⟨hr, [], List.nil_sublist _, by simp, rfl, rfl⟩
  | final =>
    simp only [step, Res.ok.injEq] at hs
    subst hs
    exact ⟨hr, [], List.nil_sublist _, by simp, rfl, rfl⟩
  | flush k =>
    obtain ⟨s1, h1, hi, hK, _⟩ := flush_inv h k
    simp only [step, h1, Res.ok.injEq] at hs
    subst hs
    exact ⟨by rw [hK.ready]; exact hr, [], List.nil_sublist _, by simp [hK.acc], hK.entered, by rw [hK.skipped]; rfl⟩

theorem texts_cons (e : Ev) (es : List Ev) : texts (e :: es) = texts [e] ++ texts es := by cases e <;> simp [texts]

theorem run_track {es : List Ev} : ∀ {s s' : St}, Inv s → s.ready = true → noStart es → run s es = .ok s' →
    s'.ready = true ∧ ∃ kept, List.Sublist kept (texts es) ∧ s'.acc = s.acc ++ kept.map fmt ∧ s'.entered = s.entered + (texts es).length ∧
      s'.skipped + kept.length = s.skipped + (texts es).length := by
  induction es with
  | nil => intro s s' h hr _ hs; cases hs; exact ⟨hr, [], List.nil_sublist _, by simp, rfl, rfl⟩
  | cons e es ih =>
    intro s s' h hr hn hs
    simp only [run] at hs
    split at hs
    · cases hs
    · next s1 he =>
      obtain ⟨r1, k1, a1, b1, c1, d1⟩ := step_track h hr (hn e (by simp)) he
      obtain ⟨r2, k2, a2, b2, c2, d2⟩ := ih (step_inv h he) r1 (fun e' he' => hn e' (by simp [he'])) hs
      have hl : (texts (e :: es)).length = (texts [e]).length + (texts es).length := by rw [texts_cons, List.length_append]
      have hk : (k1 ++ k2).length = k1.length + k2.length := List.length_append
      refine ⟨r2, k1 ++ k2, ?_, ?_, ?_, ?_⟩
      · rw [texts_cons]; exact List.Sublist.append a1 a2
      · rw [b2, b1]; simp
      · omega
      · omega

theorem disk_prefix {s : St} (h : Inv s) : onDisk s <+: s.acc.flatten := by
  obtain ⟨_, _, k, _, _, hd, _⟩ := h
  exact ⟨_, hd⟩

theorem backlog_eq {s : St} (h : Inv s) : ∃ k, k ≤ (pend s).length ∧ (s.head = 0 → k ≤ writeSize) ∧ backlog s = (pend s).length - k ∧ Known s k s.pc := by
  obtain ⟨_, _, k, a, b, hd, c⟩ := h
  refine ⟨k, a, b, ?_, c⟩
  unfold backlog
  rw [← hd, List.length_append, List.length_drop]; omega

theorem step_fault {s : St} {e : Ev} (h : Inv s) (hf : step s e = .fault) : ∃ t, e = .write t ∧ Full s (fmt t) := by
  cases e with
  | write t =>
    simp only [step] at hf
    by_cases hr : s.ready = true
    · simp only [hr, if_true] at hf
      rcases write_cases h (fmt t) (fmt_len t) with ⟨hF, _⟩ | ⟨_, s1, he, _⟩
      · exact ⟨t, rfl, hF⟩
      · rw [he] at hf; cases hf
    · simp only [if_neg hr] at hf; cases hf
  | start => simp only [step] at hf; cases hf
  | stop => simp only [step] at hf; cases hf
  | final => simp only [step] at hf; cases hf
  | flush k =>
    obtain ⟨s1, h1, _⟩ := flush_inv h k
    simp only [step, h1] at hf
    cases hf

theorem full_backlog {s : St} {t : Bytes} (h : Inv s) (hF : Full s (fmt t)) : bufSize ≤ backlog s + 400 + writeSize := by
  obtain ⟨k, a, b, c, _⟩ := backlog_eq h
  have := fmt_len t
  have hp : (pend s).length = s.tail := by
    have e : s.head ≤ s.tail := by have := hF.1; omega
    simp only [pend, if_pos e, get_len]; have := hF.1; omega
  have := b hF.1
  have := hF.2
  omega

theorem run_fault {es : List Ev} : ∀ {s : St}, Inv s → run s es = .fault → ∃ es1 e es2 s1, es = es1 ++ e :: es2 ∧ run s es1 = .ok s1 ∧ step s1 e = .fault := by
  induction es with
  | nil => intro s _ hr; cases hr
  | cons e es ih =>
    intro s h hr
    simp only [run] at hr
    split at hr
    · next he => exact ⟨[], e, es, s, rfl, rfl, he⟩
    · next s1 he =>
      obtain ⟨es1, e', es2, s2, rfl, h2, h3⟩ := ih (step_inv h he) hr
      exact ⟨e :: es1, e', es2, s2, rfl, by simp only [run, he]; exact h2, h3⟩

/-- The flush thread has not read `tail` since, or it has seen these lines. -/
def Saw (m : Nat) (s : St) : Prop := match s.pc with
  | .snap _ _ => m ≤ s.seen
  | .off c => c = 0 → s.reqstop = false → m ≤ s.seen
  | _ => True

theorem step_saw {s s' : St} {e : Ev} {m : Nat} (h : Inv s) (hm : m ≤ s.acc.length) (hS : Saw m s) (he : e ≠ .start) (hs : step s e = .ok s') :
    m ≤ s'.acc.length ∧ Saw m s' := by
  cases e with
  | write t =>
    simp only [step] at hs
    by_cases hr : s.ready = true
    · simp only [hr, if_true] at hs
      rcases write_cases h (fmt t) (fmt_len t) with ⟨_, hf⟩ | ⟨_, s1, h1, hi, w1, w2, w3, w4, w5, w6, w7, w8⟩
      · rw [hf] at hs; cases hs
      · rw [h1] at hs; cases hs
        refine ⟨?_, ?_⟩
        · rcases w8 with ⟨a, _⟩ | ⟨a, _⟩
          · rw [a, List.length_append]; omega
          · rw [a]; exact hm
        · unfold Saw at hS ⊢
          rw [w3, w6, w7]; exact hS
    · simp only [if_neg hr] at hs; cases hs; exact ⟨hm, hS⟩
  | start => exact absurd rfl he
  | stop =>
    simp only [step, Res.ok.injEq] at hs
    subst hs; exact ⟨hm, hS⟩
  | final =>
    simp only [step, Res.ok.injEq] at hs
    subst hs
    refine ⟨hm, ?_⟩
    unfold Saw at hS ⊢
    show (match s.pc with | .snap _ _ => m ≤ s.seen | .off c => c = 0 → true = false → m ≤ s.seen | _ => True)
    cases hp : s.pc with
    | off c => intro _ hx; cases hx
    | top => trivial
    | snap t l => rw [hp] at hS; exact hS
    | wrote n w => trivial
  | flush k =>
    obtain ⟨s1, h1, hi, hK, hM⟩ := flush_inv h k
    simp only [step, h1, Res.ok.injEq] at hs
    subst hs
    refine ⟨by rw [hK.acc]; exact hm, ?_⟩
    unfold Move at hM
    unfold Saw at hS ⊢
    cases hq : s.pc with
    | off c =>
      rw [hq] at hM
      cases hp : s1.pc with
      | off c' =>
        rw [hp] at hM
        simp only at hM
        subst hM
        rw [hp] at hS; exact hS
      | top => rw [hp] at hM; exact hM.elim
      | snap t l => rw [hp] at hM; exact hM.elim
      | wrote n w => rw [hp] at hM; exact hM.elim
    | top =>
      rw [hq] at hM hS
      revert hS; revert hM
      cases s1.pc with
      | off c' => intro hM _ hc hr; have := hM hc; rw [hK.reqstop, this] at hr; cases hr
      | top => intro _ _; trivial
      | snap t l => intro hM _; simp only at hM ⊢; omega
      | wrote n w => intro hM _; exact hM.elim
    | snap t l =>
      rw [hq] at hM hS
      revert hS; revert hM
      cases s1.pc with
      | off c' => intro hM hS _ _; simp only at hM hS; omega
      | top => intro _ _; trivial
      | snap t l => intro hM _; exact hM.elim
      | wrote n w => intro _ _; trivial
    | wrote n w =>
      rw [hq] at hM hS
      revert hS; revert hM
      cases s1.pc with
      | off c' => intro hM _ hc; simp only at hM; omega
      | top => intro _ _; trivial
      | snap t l => intro hM _; exact hM.elim
      | wrote n w => intro hM _; exact hM.elim

theorem run_saw {es : List Ev} {m : Nat} : ∀ {s s' : St}, Inv s → m ≤ s.acc.length → Saw m s → noStart es → run s es = .ok s' → Saw m s' := by
  induction es with
  | nil => intro s s' _ _ hS _ hs; cases hs; exact hS
  | cons e es ih =>
    intro s s' h hm hS hn hs
    simp only [run] at hs
    split at hs
    · cases hs
    · next s1 he =>
      obtain ⟨a, b⟩ := step_saw h hm hS (hn e (by simp)) he
      exact ih (step_inv h he) a b (fun e' he' => hn e' (by simp [he'])) hs

theorem acc_prefix {es : List Ev} : ∀ {s s' : St}, Inv s → s.ready = true → noStart es → run s es = .ok s' → s.acc <+: s'.acc := by
  intro s s' h hr hn hs
  obtain ⟨_, kept, _, hk, _⟩ := run_track h hr hn hs
  exact ⟨_, hk.symm⟩

end Verif.CmdLog.Lemmas
