import Verif.Lemmas.CmdLogEnd

namespace Verif.CmdLog.Lemmas

open Verif.CmdLog Spec

theorem linesFrom_app (b : Bytes) (hb : (10 : UInt8) ∉ b) : ∀ (cur r : Bytes), linesFrom cur (b ++ r) = linesFrom (cur ++ b) r := by
  induction b with
  | nil => intro cur r; simp
  | cons c b ih =>
    intro cur r
    have hc : ¬ c = 10 := fun hx => hb (by simp [hx])
    simp only [List.cons_append, linesFrom, if_neg hc]
    rw [ih (fun hx => hb (by simp [hx]))]
    simp

theorem lines_app (b r : Bytes) (hb : (10 : UInt8) ∉ b) : lines (b ++ [10] ++ r) = (b ++ [10]) :: lines r := by
  unfold lines
  rw [List.append_assoc, linesFrom_app b hb]
  simp [linesFrom]

theorem lines_none (b : Bytes) (hb : (10 : UInt8) ∉ b) : lines b = [] := by
  have := linesFrom_app b hb [] []
  unfold lines
  rw [List.append_nil] at this
  rw [this]; rfl

theorem prefix_split {p l r : Bytes} (h : p <+: l ++ r) : p <+: l ∨ ∃ q, p = l ++ q ∧ q <+: r := by
  rcases Nat.le_total p.length l.length with hle | hle
  · exact Or.inl (List.prefix_of_prefix_length_le h (List.prefix_append _ _) hle)
  · have : l <+: p := List.prefix_of_prefix_length_le (List.prefix_append _ _) h hle
    obtain ⟨q, rfl⟩ := this
    exact Or.inr ⟨q, rfl, (List.prefix_append_right_inj l).mp h⟩

theorem lines_prefix (L : List Bytes) (hL : ∀ l ∈ L, ∃ b : Bytes, l = b ++ [10] ∧ (10 : UInt8) ∉ b) : ∀ {p : Bytes}, p <+: L.flatten → lines p <+: L := by
  induction L with
  | nil =>
    intro p h
    have : p = [] := List.prefix_nil.mp h
    rw [this]; exact List.nil_prefix
  | cons l L ih =>
    intro p h
    obtain ⟨b, rfl, hb⟩ := hL l (by simp)
    rw [List.flatten_cons] at h
    rcases prefix_split h with h | ⟨q, rfl, hq⟩
    · rw [List.prefix_concat_iff] at h
      rcases h with h | h
      · rw [h, ← List.append_nil (b ++ [10]), lines_app b [] hb]
        simp [lines, linesFrom]
      · rw [lines_none p (fun hx => hb (h.subset hx))]
        exact List.nil_prefix
    · rw [lines_app b q hb]
      exact (List.cons_prefix_cons).mpr ⟨rfl, ih (fun l hl => hL l (by simp [hl])) hq⟩

theorem fmt_shown {t : Bytes} (ht : t.length ≠ 400) : fmt t = shown t := by
  unfold fmt shown
  by_cases h : inputSize < t.length
  · have h2 : ¬ t.length < 400 := by simp only [inputSize] at h; omega
    simp only [if_pos h, if_neg h2, List.take_take]
    rfl
  · have h2 : t.length < 400 := by simp only [inputSize] at h; omega
    simp only [if_neg h, if_pos h2]
    exact List.take_of_length_le (by simp only [inputSize]; omega)

theorem shown_line {t : Bytes} (ht : wellFormed t) : ∃ b : Bytes, shown t = b ++ [10] ∧ (10 : UInt8) ∉ b := by
  obtain ⟨b, rfl, hb, _⟩ := ht
  unfold shown
  by_cases h : (b ++ [10]).length < 400
  · rw [if_pos h]; exact ⟨b, rfl, hb⟩
  · rw [if_neg h]
    refine ⟨(b ++ [10]).take 396 ++ [46, 46], by simp, ?_⟩
    have hl : 396 ≤ b.length := by simp only [List.length_append, List.length_cons, List.length_nil] at h; omega
    rw [List.take_append_of_le_length hl]
    intro hx
    rcases List.mem_append.mp hx with hx | hx
    · exact hb (List.mem_of_mem_take hx)
    · revert hx; decide

/-- A line that goes into the part before `head`. -/
theorem write_turned {s : St} {line : Bytes} (h1 : s.tail + line.length < s.head) (h2 : s.last ≠ 0) (h3 : s.head ≤ bufSize) :
    write s line = .ok { s with entered := s.entered + 1, data := put s.data s.tail line, tail := s.tail + line.length, acc := s.acc ++ [line] } := by
  have e0 : ¬ s.head ≤ s.tail := by omega
  have e : ¬ (s.head ≤ s.tail ∧ bufSize - s.tail ≤ line.length) := fun hx => e0 hx.1
  have e2 : line.length < s.head - s.tail := by omega
  have e3 : ¬ bufSize < s.tail + line.length := by omega
  simp only [write, if_neg e, if_neg e0, if_neg h2, if_pos e2, if_neg e3]

set_option maxRecDepth 20000 in
theorem writes_turned (n : Nat) : ∀ {s : St}, s.ready = true → s.tail + 256 * n < s.head → s.last ≠ 0 → s.head ≤ bufSize →
    ∃ s', run s (List.replicate n (.write t0)) = .ok s' ∧ s'.ready = true ∧ s'.head = s.head ∧ s'.tail = s.tail + 256 * n ∧ s'.last = s.last ∧ s'.pc = s.pc := by
  induction n with
  | zero => intro s hr _ _ _; exact ⟨s, rfl, hr, rfl, rfl, rfl, rfl⟩
  | succ n ih =>
    intro s hr hb hl hh
    rw [Nat.mul_succ] at hb
    simp only [List.replicate_succ, run, step, hr, if_true]
    rw [write_turned (by rw [fmt_t0]; omega) hl hh]
    simp only []
    obtain ⟨s', h1, h2, h3, h4, h5, h6⟩ := @ih { s with entered := s.entered + 1, data := put s.data s.tail (fmt t0), tail := s.tail + (fmt t0).length, acc := s.acc ++ [fmt t0] }
      hr (by show s.tail + (fmt t0).length + _ < s.head; rw [fmt_t0]; omega) hl hh
    refine ⟨s', h1, h2, h3, ?_, h5, h6⟩
    have h4' : s'.tail = s.tail + (fmt t0).length + 256 * n := h4
    rw [fmt_t0] at h4'
    rw [Nat.mul_succ]; omega

/-- The steps after which a command is left out. -/
def toSkip : List Ev := [.start, .flush 1] ++ (rounds 1 ++ (List.replicate 40943 (.write t0) ++ ([.write t0] ++ List.replicate 14 (.write t0))))

set_option maxRecDepth 20000 in
theorem reach_skip : ∃ s s', run init toSkip = .ok s ∧ (∀ c, s.pc ≠ .off c) ∧ step s (.write t0) = .ok s' ∧ s'.skipped ≠ s.skipped := by
  obtain ⟨s1, r1, a1⟩ := run_rounds 1 at_s0 (by simp only [bufSize]; omega)
  obtain ⟨s2, r2, a2⟩ := writes_fit 40943 a1 (Nat.le_refl _) (by simp only [bufSize]; omega)
  have hh : s2.head = 4096 := a2.head
  have ht : s2.tail = 10485504 := a2.tail
  have st : ∃ s3, step s2 (.write t0) = .ok s3 ∧ s3.ready = true ∧ s3.head = 4096 ∧ s3.tail = 256 ∧ s3.last = 10485504 ∧ s3.pc = .top := by
    have c1 : s2.head ≤ s2.tail ∧ bufSize - s2.tail ≤ (fmt t0).length := by rw [hh, ht, fmt_t0]; simp only [bufSize]; omega
    have c2 : ¬ s2.head ≤ 0 := by omega
    have c3 : ¬ s2.tail = 0 := by omega
    have c4 : (fmt t0).length < s2.head - 0 := by rw [hh, fmt_t0]; omega
    have c5 : ¬ bufSize < 0 + (fmt t0).length := by rw [fmt_t0]; simp only [bufSize]; omega
    simp only [step, a2.ready, if_true, write, if_pos c1, if_neg c2, if_neg c3, if_pos c4, if_neg c5]
    exact ⟨_, rfl, rfl, hh, by show 0 + (fmt t0).length = _; rw [fmt_t0], ht, a2.pc⟩
  obtain ⟨s3, r3, p1, p2, p3, p4, p5⟩ := st
  obtain ⟨s4, r4, q1, q2, q3, q4, q5⟩ := writes_turned 14 p1 (by rw [p2, p3]; omega) (by omega) (by rw [p2]; simp only [bufSize]; omega)
  refine ⟨s4, { s4 with entered := s4.entered + 1, skipped := s4.skipped + 1 }, ?_, ?_, ?_, ?_⟩
  · rw [toSkip, run_append, run_s0]
    simp only []
    rw [run_append, r1]
    simp only []
    rw [run_append, r2]
    simp only []
    rw [run_append]
    simp only [run, r3, r4]
  · intro c hc
    rw [q5, p5] at hc; cases hc
  · have e0 : ¬ s4.head ≤ s4.tail := by omega
    have e : ¬ (s4.head ≤ s4.tail ∧ bufSize - s4.tail ≤ (fmt t0).length) := fun hx => e0 hx.1
    have e1 : ¬ s4.last = 0 := by omega
    have e2 : ¬ (fmt t0).length < s4.head - s4.tail := by rw [fmt_t0]; omega
    simp only [step, q1, if_true, write, if_neg e, if_neg e0, if_neg e1, if_neg e2]
  · show s4.skipped + 1 ≠ s4.skipped
    omega

end Verif.CmdLog.Lemmas
