import Verif.Lemmas.CmdLog

namespace Verif.CmdLog.Lemmas

open Verif.CmdLog Spec

set_option maxRecDepth 20000

attribute [local irreducible] bufSize fileMax

/-- A command line of 256 bytes. -/
@[irreducible] def t0 : Bytes := List.replicate 255 65 ++ [10]

theorem t0_wf : wellFormed t0 := by
  unfold t0
  exact ⟨List.replicate 255 65, rfl, by decide +kernel, by decide +kernel⟩

theorem fmt_t0 : (fmt t0).length = 256 := by unfold t0; decide +kernel

/-- A line that fits without going to the start of the buffer. -/
theorem write_fit {s : St} {line : Bytes} (h1 : s.head ≤ s.tail) (h2 : s.last = 0) (h3 : s.tail + line.length < bufSize) :
    write s line = .ok { s with entered := s.entered + 1, data := put s.data s.tail line, tail := s.tail + line.length, acc := s.acc ++ [line] } := by
  have e : ¬ (s.head ≤ s.tail ∧ bufSize - s.tail ≤ line.length) := by omega
  have e2 : line.length < bufSize - s.tail := by omega
  simp only [write, if_neg e, if_pos h1, h2, ne_eq, not_true, if_false, e2]

/-- What the examples need to know about a state. -/
structure At (s : St) (h t nw : Nat) : Prop where
  head : s.head = h
  tail : s.tail = t
  last : s.last = 0
  ready : s.ready = true
  inUse : s.inUse = true
  reqstop : s.reqstop = false
  pc : s.pc = .top
  fd : s.fd = true
  nw : s.nw = nw

theorem writes_fit {h nw : Nat} (n : Nat) : ∀ {s : St} {t : Nat}, At s h t nw → h ≤ t → t + 256 * n < bufSize →
    ∃ s', run s (List.replicate n (.write t0)) = .ok s' ∧ At s' h (t + 256 * n) nw := by
  induction n with
  | zero => intro s t ha _ _; exact ⟨s, rfl, ha⟩
  | succ n ih =>
    intro s t ha hle hb
    rw [Nat.mul_succ] at hb
    simp only [List.replicate_succ, run, step, ha.ready, if_true]
    rw [write_fit (by rw [ha.head, ha.tail]; exact hle) ha.last (by rw [ha.tail, fmt_t0]; omega)]
    simp only []
    obtain ⟨s', h1, h2⟩ := @ih { s with entered := s.entered + 1, data := put s.data s.tail (fmt t0), tail := s.tail + (fmt t0).length, acc := s.acc ++ [fmt t0] }
      (t + 256) ⟨ha.head, by show s.tail + _ = _; rw [ha.tail, fmt_t0], ha.last, ha.ready, ha.inUse, ha.reqstop, ha.pc, ha.fd, ha.nw⟩ (by omega) (by omega)
    exact ⟨s', h1, by rw [show t + 256 * (n + 1) = t + 256 + 256 * n by rw [Nat.mul_succ]; omega]; exact h2⟩

/-- The flush thread writes one piece. -/
theorem flush_piece {s : St} {h t nw : Nat} (ha : At s h t nw) (hle : h + 4096 ≤ t) (hb : t < bufSize) (hnw : nw + 4096 < fileMax) :
    ∃ s', run s [.flush 4096, .flush 4096, .flush 4096] = .ok s' ∧ At s' (h + 4096) t (nw + 4096) := by
  have e0 : ¬ (s.reqstop = true) := by rw [ha.reqstop]; exact Bool.false_ne_true
  have e0' : ¬ (s.fd = false) := by rw [ha.fd]; exact Bool.noConfusion
  have e1 : s.head ≤ s.tail := by rw [ha.head, ha.tail]; omega
  have e2 : ¬ (s.inUse = true ∧ s.tail - s.head < writeSize) := by rw [ha.head, ha.tail]; simp only [writeSize]; omega
  have e3 : ¬ (s.inUse = false ∧ s.head = s.tail) := by rw [ha.inUse]; exact fun hx => Bool.noConfusion hx.1
  have e4 : min (s.tail - s.head) writeSize = 4096 := by rw [ha.head, ha.tail]; simp only [writeSize]; omega
  have e5 : ¬ (bufSize < s.head + 4096) := by rw [ha.head]; omega
  have e6 : ¬ (4096 < 4096) := by omega
  have e7 : ¬ (fileMax ≤ s.nw + 4096) := by rw [ha.nw]; omega
  refine ⟨{ s with head := s.head + 4096, nw := s.nw + 4096, seen := s.acc.length, files := append s.files (get s.data s.head (s.head + 4096)), pc := .top }, ?_, ?_⟩
  · have st1 : flush s 4096 = .ok { s with pc := .snap s.tail s.last, seen := s.acc.length } := by
      unfold flush; rw [ha.pc]; simp only [if_neg e0, if_neg e0']
    have st2 : flush { s with pc := .snap s.tail s.last, seen := s.acc.length } 4096 =
        .ok { s with seen := s.acc.length, files := append s.files (get s.data s.head (s.head + 4096)), pc := .wrote 4096 false } := by
      unfold flush
      simp only [if_pos e1, ha.last, ne_eq, not_true, if_false, if_neg e2, if_neg e3, e4, piece, if_neg e5, if_neg e6]
    have st3 : flush { s with seen := s.acc.length, files := append s.files (get s.data s.head (s.head + 4096)), pc := .wrote 4096 false } 4096 =
        .ok { s with head := s.head + 4096, nw := s.nw + 4096, seen := s.acc.length, files := append s.files (get s.data s.head (s.head + 4096)), pc := .top } := by
      unfold flush
      simp only [Bool.false_eq_true, if_false, if_neg e7]
    simp only [run, step, st1, st2, st3]
  · exact ⟨by show s.head + 4096 = _; rw [ha.head], ha.tail, ha.last, ha.ready, ha.inUse, ha.reqstop, rfl, ha.fd, by show s.nw + 4096 = _; rw [ha.nw]⟩

/-- Sixteen lines, and one piece to the file. -/
def round : List Ev := List.replicate 16 (.write t0) ++ [.flush 4096, .flush 4096, .flush 4096]

def rounds : Nat → List Ev
  | 0 => []
  | n + 1 => round ++ rounds n

theorem run_rounds (n : Nat) : ∀ {s : St} {h : Nat}, At s h h h → h + 4096 * n < bufSize →
    ∃ s', run s (rounds n) = .ok s' ∧ At s' (h + 4096 * n) (h + 4096 * n) (h + 4096 * n) := by
  induction n with
  | zero => intro s h ha _; exact ⟨s, rfl, ha⟩
  | succ n ih =>
    intro s h ha hb
    rw [Nat.mul_succ] at hb
    obtain ⟨s1, r1, a1⟩ := writes_fit 16 ha (Nat.le_refl _) (by omega)
    obtain ⟨s2, r2, a2⟩ := flush_piece a1 (by omega) (by omega) (by simp only [fileMax, bufSize] at *; omega)
    obtain ⟨s3, r3, a3⟩ := ih (h := h + 4096) (s := s2) a2 (by omega)
    refine ⟨s3, ?_, by rw [show h + 4096 * (n + 1) = h + 4096 + 4096 * n by rw [Nat.mul_succ]; omega]; exact a3⟩
    have hr : run s (List.replicate 16 (.write t0) ++ [.flush 4096, .flush 4096, .flush 4096] ++ rounds n) = .ok s3 := by
      rw [List.append_assoc, run_append, r1]
      simp only []
      rw [run_append, r2]
      exact r3
    exact hr

/-- Logging started and the first file opened. -/
def s0 : St := { init with ready := true, inUse := true, pc := .top, fd := true, files := [[]] }

theorem run_s0 : run init [.start, .flush 1] = .ok s0 := rfl

theorem at_s0 : At s0 0 0 0 := ⟨rfl, rfl, rfl, rfl, rfl, rfl, rfl, rfl, rfl⟩

/-- The flush thread turns in a circle: the part before the turn is empty, and the code does not go on to the start of the buffer. -/
structure Stuck (s : St) : Prop where
  lt : s.tail < s.head
  eq : s.last = s.head
  reqstop : s.reqstop = false
  fd : s.fd = true
  pc : s.pc = .top ∨ ∃ t, s.pc = .snap t s.head ∧ t < s.head
  bound : s.last < bufSize

theorem step_stuck {s s' : St} {e : Ev} (h : Stuck s) (he : e ≠ .final) (hs : step s e = .ok s') : Stuck s' := by
  have hpos : s.last ≠ 0 := by have := h.lt; have := h.eq; omega
  cases e with
  | write t =>
    simp only [step] at hs
    by_cases hr : s.ready = true
    · have e1 : ¬ s.head ≤ s.tail := by have := h.lt; omega
      have e2 : ¬ (s.head ≤ s.tail ∧ bufSize - s.tail ≤ (fmt t).length) := fun hx => e1 hx.1
      simp only [hr, if_true, write, if_neg e2, if_neg e1, if_neg hpos] at hs
      by_cases hf : (fmt t).length < s.head - s.tail
      · have e3 : ¬ bufSize < s.tail + (fmt t).length := by have := h.bound; have := h.eq; omega
        simp only [if_pos hf, if_neg e3, Res.ok.injEq] at hs
        subst hs
        exact ⟨by show s.tail + _ < s.head; omega, h.eq, h.reqstop, h.fd, h.pc, h.bound⟩
      · simp only [if_neg hf, Res.ok.injEq] at hs
        subst hs
        exact ⟨h.lt, h.eq, h.reqstop, h.fd, h.pc, h.bound⟩
    · simp only [if_neg hr, Res.ok.injEq] at hs
      subst hs; exact h
  | start =>
    simp only [step, Res.ok.injEq] at hs
    subst hs
    rcases h.pc with hp | ⟨t, hp, _⟩ <;> (unfold start; rw [hp]; exact h)
  | stop =>
    simp only [step, Res.ok.injEq] at hs
    subst hs
    exact ⟨h.lt, h.eq, h.reqstop, h.fd, h.pc, h.bound⟩
  | final => exact absurd rfl he
  | flush k =>
    simp only [step] at hs
    unfold flush at hs
    rcases h.pc with hp | ⟨t, hp, ht⟩
    · rw [hp] at hs
      have e1 : ¬ s.reqstop = true := by rw [h.reqstop]; exact Bool.false_ne_true
      have e2 : ¬ s.fd = false := by rw [h.fd]; exact Bool.noConfusion
      simp only [if_neg e1, if_neg e2, Res.ok.injEq] at hs
      subst hs
      exact ⟨h.lt, h.eq, h.reqstop, h.fd, Or.inr ⟨s.tail, by show Pc.snap s.tail s.last = _; rw [h.eq], h.lt⟩, h.bound⟩
    · rw [hp] at hs
      have e1 : ¬ s.head ≤ t := by omega
      have e2 : ¬ s.head = 0 := by omega
      simp only [if_neg e1, if_neg e2, Nat.sub_self, if_true, Res.ok.injEq] at hs
      subst hs
      exact ⟨h.lt, h.eq, h.reqstop, h.fd, Or.inl rfl, h.bound⟩

theorem run_stuck {es : List Ev} : ∀ {s s' : St}, Stuck s → (∀ e ∈ es, e ≠ .final) → run s es = .ok s' → Stuck s' := by
  induction es with
  | nil => intro s s' h _ hs; cases hs; exact h
  | cons e es ih =>
    intro s s' h hn hs
    simp only [run] at hs
    split at hs
    · cases hs
    · next s1 he => exact ih (step_stuck h (hn e (by simp)) he) (fun e' he' => hn e' (by simp [he'])) hs

/-- The steps that bring the flush thread into the circle. -/
def toCircle : List Ev := [.start, .flush 1] ++ (rounds 2559 ++ (List.replicate 15 (.write t0) ++ [.flush 1, .write t0, .stop, .flush 4096, .flush 4096]))

theorem reach_circle : ∃ s, run init toCircle = .ok s ∧ Stuck s ∧ s.inUse = false := by
  obtain ⟨s1, r1, a1⟩ := run_rounds 2559 at_s0 (by simp only [bufSize]; omega)
  obtain ⟨s2, r2, a2⟩ := writes_fit 15 a1 (Nat.le_refl _) (by simp only [bufSize]; omega)
  have hh : s2.head = 10481664 := a2.head
  have ht : s2.tail = 10485504 := a2.tail
  have hl : s2.last = 0 := a2.last
  have e0 : ¬ (s2.reqstop = true) := by rw [a2.reqstop]; exact Bool.false_ne_true
  have e0' : ¬ (s2.fd = false) := by rw [a2.fd]; exact Bool.noConfusion
  have st1 : flush s2 1 = .ok { s2 with pc := .snap 10485504 0, seen := s2.acc.length } := by
    unfold flush; rw [a2.pc]; simp only [if_neg e0, if_neg e0', ht, hl]
  have st2 : ∃ d, step { s2 with pc := .snap 10485504 0, seen := s2.acc.length } (.write t0) =
      .ok { s2 with pc := .snap 10485504 0, seen := s2.acc.length, entered := s2.entered + 1, last := 10485504, tail := 256, data := d, acc := s2.acc ++ [fmt t0] } := by
    refine ⟨put s2.data 0 (fmt t0), ?_⟩
    have c1 : s2.head ≤ s2.tail ∧ bufSize - s2.tail ≤ (fmt t0).length := by rw [hh, ht, fmt_t0]; simp only [bufSize]; omega
    have c2 : ¬ s2.head ≤ 0 := by omega
    have c3 : ¬ s2.tail = 0 := by omega
    have c4 : (fmt t0).length < s2.head - 0 := by rw [hh, fmt_t0]; omega
    have c5 : ¬ bufSize < 0 + (fmt t0).length := by rw [fmt_t0]; simp only [bufSize]; omega
    simp only [step, a2.ready, if_true, write, if_pos c1, if_neg c2, if_neg c3, if_pos c4, if_neg c5]
    simp only [ht, fmt_t0, Nat.zero_add]
  obtain ⟨d, st2⟩ := st2
  have st3 : flush { s2 with pc := .snap 10485504 0, seen := s2.acc.length, entered := s2.entered + 1, last := 10485504, tail := 256, data := d, acc := s2.acc ++ [fmt t0], inUse := false } 4096 =
      .ok { s2 with pc := .wrote 3840 false, seen := s2.acc.length, entered := s2.entered + 1, last := 10485504, tail := 256, data := d, acc := s2.acc ++ [fmt t0], inUse := false, files := append s2.files (get d s2.head (s2.head + 3840)) } := by
    have c1 : s2.head ≤ 10485504 := by omega
    have c3 : ¬ s2.head = 10485504 := by omega
    have c4 : min (10485504 - s2.head) writeSize = 3840 := by rw [hh]; simp only [writeSize]; omega
    have c5 : ¬ (bufSize < s2.head + 3840) := by rw [hh]; simp only [bufSize]; omega
    have c6 : ¬ (4096 < 3840) := by omega
    unfold flush
    simp only [if_pos c1, ne_eq, not_true, if_false, Bool.false_eq_true, false_and, true_and, if_neg c3, c4, piece, if_neg c5, if_neg c6]
  have st4 : flush { s2 with pc := .wrote 3840 false, seen := s2.acc.length, entered := s2.entered + 1, last := 10485504, tail := 256, data := d, acc := s2.acc ++ [fmt t0], inUse := false, files := append s2.files (get d s2.head (s2.head + 3840)) } 4096 =
      .ok { s2 with pc := .top, seen := s2.acc.length, entered := s2.entered + 1, last := 10485504, tail := 256, data := d, acc := s2.acc ++ [fmt t0], inUse := false, files := append s2.files (get d s2.head (s2.head + 3840)), head := s2.head + 3840, nw := s2.nw + 3840 } := by
    have c1 : ¬ fileMax ≤ s2.nw + 3840 := by rw [a2.nw]; simp only [fileMax]; omega
    unfold flush
    simp only [Bool.false_eq_true, if_false, if_neg c1]
  refine ⟨{ s2 with pc := .top, seen := s2.acc.length, entered := s2.entered + 1, last := 10485504, tail := 256, data := d, acc := s2.acc ++ [fmt t0], inUse := false, files := append s2.files (get d s2.head (s2.head + 3840)), head := s2.head + 3840, nw := s2.nw + 3840 }, ?_, ⟨?_, ?_, a2.reqstop, a2.fd, Or.inl rfl, ?_⟩, ?_⟩
  rotate_left
  · show 256 < s2.head + 3840; omega
  · show 10485504 = s2.head + 3840; omega
  · show 10485504 < bufSize; simp only [bufSize]; omega
  · rfl
  · rw [toCircle, run_append, run_s0]
    simp only []
    rw [run_append, r1]
    simp only []
    rw [run_append, r2]
    simp only [run]
    simp only [show step s2 (.flush 1) = _ from st1, st2]
    simp only [step, st3, st4]

end Verif.CmdLog.Lemmas
