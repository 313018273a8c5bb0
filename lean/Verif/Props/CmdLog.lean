import Verif.Lemmas.CmdLogLine

namespace Verif.CmdLog.Props

open Verif.CmdLog Spec Lemmas

/-- C89. Whatever the order in which the threads write, the flush thread goes on, the disk fails and the logging is stopped: the files of a logging, one after the
other, hold the beginning of the text that the lines of some of the commands make, in the order in which they were written; and the commands left out
are as many as the statistics say. -/
theorem C89 (es es' : List Ev) (s0 s : St) (h0 : run init es = .ok s0) (hoff : ∃ c, s0.pc = .off c) (hu : s0.inUse = false) (hn : noStart es')
    (h : run s0 (.start :: es') = .ok s) :
    ∃ kept : List Bytes, List.Sublist kept (texts es') ∧ s.entered = (texts es').length ∧ s.skipped + kept.length = s.entered ∧
      onDisk s <+: (kept.map fmt).flatten := by
  have hi := run_inv inv_init h0
  simp only [run, step] at h
  obtain ⟨c, hc⟩ := hoff
  have hst : start s0 = { s0 with head := 0, tail := 0, last := 0, ready := true, inUse := true, pc := .top, fd := false, nw := 0, files := [], entered := 0, skipped := 0, acc := [], seen := 0 } := by
    unfold start; rw [hc]; simp only [hu, Bool.false_eq_true, if_false]
  have hi1 : Inv (start s0) := step_inv (e := .start) hi rfl
  obtain ⟨_, kept, a, b, c1, d⟩ := run_track hi1 (by rw [hst]) hn h
  refine ⟨kept, a, ?_, ?_, ?_⟩
  · rw [c1, hst]; simp
  · rw [c1, d, hst]
  · have := disk_prefix (run_inv hi1 h)
    rw [b, hst] at this
    simpa using this

/-- Two lines are written, the logging is stopped and the flush thread writes both. -/
example : (match run init [.start, .flush 1, .write [65, 10], .write [66, 10], .stop, .flush 0, .flush 10, .flush 0, .flush 0, .flush 0] with
    | .ok s => some (onDisk s, s.entered, s.skipped, s.pc)
    | .fault => none) = some ([65, 10, 66, 10], 2, 0, .off 0) := by decide +kernel

/-- C90 (partial). As long as the bytes accepted and not yet on disk are fewer than the size of the buffer less 4496, the server does not stop, and nothing
outside of the buffer is read or written. What is missing: `C90_false`. -/
theorem C90_partial (es : List Ev) (hb : ∀ es1 es2 s1, es = es1 ++ es2 → run init es1 = .ok s1 → backlog s1 + 4496 < 10485760) :
    ∃ s, run init es = .ok s := by
  cases hr : run init es with
  | ok s => exact ⟨s, rfl⟩
  | fault =>
    obtain ⟨es1, e, es2, s1, he, h1, h2⟩ := run_fault inv_init hr
    have hi := run_inv inv_init h1
    obtain ⟨t, _, hF⟩ := step_fault hi h2
    have h3 := full_backlog hi hF
    have h4 := hb es1 (e :: es2) s1 he h1
    simp only [bufSize, writeSize] at h3
    omega

example (es1 es2 : List Ev) (s1 : St) (h : [Ev.start, .flush 1, .write [65, 10]] = es1 ++ es2) (h1 : run init es1 = .ok s1) :
    backlog s1 + 4496 < 10485760 := by
  rcases es1 with _ | ⟨a, _ | ⟨b, _ | ⟨c, _ | ⟨d, l⟩⟩⟩⟩
  · cases h1; decide
  · simp only [List.cons_append, List.nil_append, List.cons.injEq] at h
    obtain ⟨rfl, _⟩ := h; cases h1; decide
  · simp only [List.cons_append, List.nil_append, List.cons.injEq] at h
    obtain ⟨rfl, rfl, _⟩ := h; cases h1; decide
  · simp only [List.cons_append, List.nil_append, List.cons.injEq] at h
    obtain ⟨rfl, rfl, rfl, _⟩ := h; cases h1; decide +kernel
  · simp only [List.cons_append, List.cons.injEq] at h
    have := congrArg List.length h.2.2.2
    simp at this

/-- The claim of C90 in full is false: if the flush thread does not come to its turn while 40960 commands of 256 bytes are written, an assertion fails and the server
stops. -/
theorem C90_false : run init ([.start, .flush 1] ++ (List.replicate 40959 (.write t0) ++ [.write t0])) = .fault := by
  obtain ⟨s, r, a⟩ := writes_fit 40959 at_s0 (Nat.le_refl _) (by simp only [bufSize]; omega)
  have hi : Inv s := run_inv (run_inv inv_init run_s0) r
  rw [run_append, run_s0]
  simp only []
  rw [run_append, r]
  have hF : Full s (fmt t0) := ⟨a.head, by rw [a.tail, fmt_t0]; simp only [bufSize]; omega⟩
  have : step s (.write t0) = .fault := by
    simp only [step, a.ready, if_true]
    rcases write_cases hi (fmt t0) (fmt_len _) with ⟨_, h⟩ | ⟨h, _⟩
    · exact h
    · exact absurd hF h
  simp only [run, this]

/-- C91 (partial). If the flush thread is not between its look at the buffer and the use it makes of it when the logging is stopped, then every line accepted before is on disk
when it has ended in the normal way. What is missing: `C91_false`. -/
theorem C91_partial (es es' : List Ev) (s s' : St) (h : run init es = .ok s) (hr : s.ready = true) (hp : s.pc = .top ∨ ∃ n w, s.pc = .wrote n w)
    (hn : noStart es') (h' : run s (.stop :: es') = .ok s') (he : s'.pc = .off 0) (hq : s'.reqstop = false) :
    s.acc.flatten <+: onDisk s' := by
  have hi := run_inv inv_init h
  have hn' : noStart (.stop :: es') := by
    intro e he
    rcases List.mem_cons.mp he with rfl | he
    · exact fun hx => by cases hx
    · exact hn e he
  have hS : Saw s.acc.length s := by
    unfold Saw
    rcases hp with hp | ⟨n, w, hp⟩ <;> rw [hp] <;> trivial
  have hS' := run_saw hi (Nat.le_refl _) hS hn' h'
  obtain ⟨tl, hac⟩ := acc_prefix hi hr hn' h'
  have hi' := run_inv hi h'
  obtain ⟨_, hse, k, _, _, hd, hk⟩ := hi'
  rw [he] at hk
  have := (hk rfl).2 hq
  unfold Saw at hS'
  rw [he] at hS'
  have hle := hS' rfl hq
  rw [this, ← hac, List.take_append, List.take_of_length_le hle, List.flatten_append]
  exact List.prefix_append _ _

/-- The flush thread is at the head of its loop with one line waiting, the logging is stopped, and it ends. -/
example : ∃ s s', run init [.start, .flush 1, .write [65, 10]] = .ok s ∧ s.ready = true ∧ s.pc = .top ∧ s.acc = [[65, 10]] ∧
    run s [.stop, .flush 1, .flush 10, .flush 1, .flush 1, .flush 1] = .ok s' ∧ s'.pc = .off 0 ∧ s'.reqstop = false :=
  ⟨_, _, rfl, rfl, rfl, rfl, rfl, rfl, rfl⟩

/-- The claim of C91 in full is false: the flush thread looks at the buffer, finds it empty, a command is logged, the logging is stopped, and the flush thread ends
without a second look. -/
theorem C91_false : ∃ s s', run init [.start, .flush 1, .flush 1, .write [65, 10]] = .ok s ∧ s.inUse = true ∧ s.acc = [[65, 10]] ∧
    run s [.stop, .flush 1] = .ok s' ∧ s'.pc = .off 0 ∧ s'.reqstop = false ∧ onDisk s' = [] :=
  ⟨_, _, rfl, rfl, rfl, rfl, rfl, rfl, rfl⟩

/-- C92 (partial). If no text has a length of exactly 400, the full lines of the files are the texts of commands that were written, in their order, each in full
or cut with the mark. What is missing: `C92_false`. -/
theorem C92_partial (es es' : List Ev) (s0 s : St) (h0 : run init es = .ok s0) (hoff : ∃ c, s0.pc = .off c) (hu : s0.inUse = false) (hn : noStart es')
    (hw : ∀ t ∈ texts es', wellFormed t) (hl : ∀ t ∈ texts es', t.length ≠ 400) (h : run s0 (.start :: es') = .ok s) :
    ∃ kept : List Bytes, List.Sublist kept (texts es') ∧ s.skipped + kept.length = (texts es').length ∧ lines (onDisk s) <+: kept.map shown := by
  obtain ⟨kept, a, b, c, d⟩ := C89 es es' s0 s h0 hoff hu hn h
  refine ⟨kept, a, by omega, ?_⟩
  have he : kept.map fmt = kept.map shown := List.map_congr_left fun t ht => fmt_shown (hl t (a.subset ht))
  rw [he] at d
  refine lines_prefix _ ?_ d
  intro l hl'
  obtain ⟨t, ht, rfl⟩ := List.mem_map.mp hl'
  exact shown_line (hw t (a.subset ht))

example : wellFormed [65, 32, 66, 10] ∧ [65, 32, 66, 10].length ≠ 400 ∧ shown [65, 32, 66, 10] = [65, 32, 66, 10] :=
  ⟨⟨[65, 32, 66], rfl, by decide, by decide⟩, by decide, rfl⟩

/-- A text of 400 bytes. -/
def t400 : Bytes := List.replicate 399 65 ++ [10]

theorem t400_wf : wellFormed t400 := ⟨List.replicate 399 65, rfl, by decide +kernel, by decide +kernel⟩

/-- The claim of C92 in full is false: a text of 400 bytes loses its line feed, and the next command stands on the same line. -/
theorem C92_false : ∃ r : List Bytes, (match run init [.start, .flush 1, .write t400, .write [66, 10], .stop, .flush 1, .flush 4096, .flush 1, .flush 1, .flush 1] with
    | .ok s => some (lines (onDisk s), s.entered, s.skipped, s.pc)
    | .fault => none) = some (r, 2, 0, .off 0) ∧ r = [List.replicate 399 65 ++ [66, 10]] := by
  refine ⟨_, ?_, rfl⟩
  decide +kernel

/-- C93. A command is left out of the log only if at least the size of the buffer less 800 bytes wait for the disk, the piece counted that is on disk and whose place is not yet
given free. -/
theorem C93 (es : List Ev) (s s' : St) (t : Bytes) (h : run init es = .ok s) (hp : ∀ c, s.pc ≠ .off c) (h' : step s (.write t) = .ok s')
    (hs : s'.skipped ≠ s.skipped) : 10485760 ≤ backlog s + inFlight s + 800 := by
  have hi := run_inv inv_init h
  simp only [step] at h'
  by_cases hr : s.ready = true
  · simp only [hr, if_true] at h'
    rcases write_cases hi (fmt t) (fmt_len t) with ⟨_, hf⟩ | ⟨_, s1, h1, _, _, _, _, _, _, _, _, w8⟩
    · rw [hf] at h'; cases h'
    · rw [h1] at h'; cases h'
      rcases w8 with ⟨_, b⟩ | ⟨_, _, b⟩
      · exact absurd b hs
      · obtain ⟨k, hk, _, hb, hn⟩ := backlog_eq hi
        have : k = inFlight s := by
          unfold inFlight
          cases hq : s.pc with
          | off c => exact absurd hq (hp c)
          | top => rw [hq] at hn; exact hn
          | snap a b => rw [hq] at hn; exact hn.1
          | wrote a b => rw [hq] at hn; exact hn.1
        simp only [bufSize] at b
        omega
  · simp only [if_neg hr, Res.ok.injEq] at h'
    subst h'; exact absurd rfl hs

/-- After these steps a command is left out. -/
example : ∃ s s', run init toSkip = .ok s ∧ (∀ c, s.pc ≠ .off c) ∧ step s (.write t0) = .ok s' ∧ s'.skipped ≠ s.skipped := reach_skip

/-- C94 (partial). If the flush thread is not between its look at the buffer and the use it makes of it when the logging is stopped, and no further line comes, then it ends after at
most four steps for each byte of the buffer and five more, whatever the disk does; the logging can then be started again. What is missing: `C94_false`. -/
theorem C94_partial (es : List Ev) (s : St) (h : run init es = .ok s) (hu : s.inUse = true) (hp : ∀ t l, s.pc ≠ .snap t l) (ks : List Nat)
    (hk : 4 * 10485760 + 5 ≤ ks.length) : ∃ s' c, run s (.stop :: ks.map .flush) = .ok s' ∧ s'.pc = .off c := by
  have hi := run_inv inv_init h
  have hq := quiet_stop hi (run_al al_init h) hu hp
  have hi' : Inv { s with inUse := false } := step_inv (e := .stop) hi rfl
  have := toGo_le hi'
  simp only [bufSize] at this
  obtain ⟨s', c, h1, h2⟩ := run_quiet ks hi' hq (by omega)
  exact ⟨s', c, h1, h2⟩

example : ∃ s, run init [.start, .flush 1, .write [65, 10]] = .ok s ∧ s.inUse = true ∧ ∀ t l, s.pc ≠ .snap t l :=
  ⟨_, rfl, rfl, fun t l hx => by cases hx⟩

/-- The claim of C94 in full is false: after these steps, the last of which stop the logging, the flush thread never ends, whatever is done but the shutting down of the server; it goes round
without a pause, and the logging cannot be started again. -/
theorem C94_false : ∃ s, run init toCircle = .ok s ∧ s.inUse = false ∧
    ∀ es s', (∀ e ∈ es, e ≠ .final) → run s es = .ok s' → (∀ c, s'.pc ≠ .off c) ∧ ∀ s'', step s' .start = .ok s'' → s'' = s' := by
  obtain ⟨s, h1, h2, h3⟩ := reach_circle
  refine ⟨s, h1, h3, fun es s' hn hr => ?_⟩
  have := (run_stuck h2 hn hr).pc
  constructor
  · intro c hc
    rcases this with hp | ⟨t, hp, _⟩ <;> (rw [hp] at hc; cases hc)
  · intro s'' hs
    simp only [step, Res.ok.injEq] at hs
    subst hs
    rcases this with hp | ⟨t, hp, _⟩ <;> (unfold start; rw [hp])

end Verif.CmdLog.Props
