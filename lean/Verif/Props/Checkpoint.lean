import Verif.Lemmas.CheckpointRun
/-! # The files of the checkpoints: C38, C51 -/
namespace Verif.Checkpoint.Props
open Verif.Util Verif.Checkpoint Verif.Checkpoint.Spec

/-! ## C38: cleaning up checkpoint files keeps the current ones -/

theorem sweep_keeps {pre : Name} {last : Int} {fail : Name → Bool} : ∀ {d d' : Dir} {ok : Bool},
    sweepDir pre last fail d = some (d', ok) → ∀ e ∈ d, spared pre last e.1 = some true → e ∈ d' := by
  intro d
  induction d with
  | nil => intro d' ok _ e he; simp at he
  | cons a d ih =>
    intro d' ok h e he hs
    simp only [sweepDir] at h
    cases hsp : spared pre last a.1 with
    | none => rw [hsp] at h; simp at h
    | some b =>
      rw [hsp] at h
      cases b with
      | true =>
        simp only [Option.map_eq_some_iff, Prod.exists, Prod.mk.injEq] at h
        obtain ⟨x, y, h1, rfl, rfl⟩ := h
        rcases List.mem_cons.1 he with rfl | he
        · exact List.mem_cons_self ..
        · exact List.mem_cons_of_mem _ (ih h1 e he hs)
      | false =>
        simp only at h
        split at h
        · simp only [Option.some.injEq, Prod.mk.injEq] at h
          rw [← h.1]; exact he
        · rcases List.mem_cons.1 he with rfl | he
          · rw [hsp] at hs; simp at hs
          · exact ih h e he hs

theorem sweep_removes {pre : Name} {last : Int} : ∀ {d d' : Dir} {fail : Name → Bool},
    sweepDir pre last fail d = some (d', true) → ∀ e ∈ d', spared pre last e.1 = some true := by
  intro d
  induction d with
  | nil => intro d' fail h e he; simp [sweepDir] at h; subst h; simp at he
  | cons a d ih =>
    intro d' fail h e he
    simp only [sweepDir] at h
    cases hsp : spared pre last a.1 with
    | none => rw [hsp] at h; simp at h
    | some b =>
      rw [hsp] at h
      cases b with
      | true =>
        simp only [Option.map_eq_some_iff, Prod.exists, Prod.mk.injEq] at h
        obtain ⟨x, y, h1, rfl, rfl⟩ := h
        rcases List.mem_cons.1 he with rfl | he
        · exact hsp
        · exact ih h1 e he
      | false =>
        simp only at h
        split at h
        · simp at h
        · exact ih h e he

/-- **C38, negation.**  A sweep of a directory, with `lasttime` a time stamp as the server really
uses (anything above 2^31 - 1: the 14 digits YYYYMMDDhhmmss are), removes every file of this prefix
that has such a time stamp, among them the current one: `atoi` gives only 32 bits of the number.  So
after the sweep neither the current snapshot nor the current command log is left. -/
theorem C38_false (pre : Name) (t : Nat) (ht : 2147483647 < t) (d d' : Dir) (fail : Name → Bool)
    (h : sweepDir pre t fail d = some (d', true)) (τ : Nat) (hτ : τ < 9223372036854775808) :
    d'.get (fileName pre τ) = none := by
  apply get_none
  intro e he hn
  have := sweep_removes h e he
  rw [hn, spared_own hτ] at this
  simp only [Option.some.injEq, decide_eq_true_eq] at this
  have := Int.bmod_lt (x := (τ : Int)) (m := 4294967296) (by decide)
  omega

/-- The time stamps the server uses are of this size: every date from the year 1000 on. -/
example (t : Nat) (h : Dated t) : 2147483647 < t ∧ t < 9223372036854775808 := by
  unfold Dated at h; omega

/-- The sweep of the current files of 2026-11-16 18:00:00. -/
example : sweepDir snapPrefix 20261116180000 (fun _ => false)
      [(fileName snapPrefix 20261116170000, some 0), (fileName snapPrefix 20261116180000, some 1)]
      = some ([], true) ∧
    sweepDir logPrefix 20261116180000 (fun _ => false) [(fileName logPrefix 20261116180000, some 1)]
      = some ([], true) := by
  decide +kernel

/-- The same in a run of the checkpoint thread: first checkpoint; second checkpoint; the removal of
the first snapshot fails once (disk trouble); the sweep that is to repair this removes everything,
and the server that starts next finds no snapshot at all. -/
def lossRun : List Act :=
  [.restart, .start 20261116170000, .createLog true true, .openLog true, .finish true, .commit,
   .start 20261116180000, .createLog true true, .openLog true, .finish true, .commit,
   .finished, .remove false, .sweep (fun _ => false), .crash]

/-- The data of the run above are lost. -/
theorem C38_false_run : ∃ s, run init lossRun = some s ∧ lastDone init none lossRun = some 2 ∧
    newest s.data = none ∧ s.data = [] ∧ s.logs = [] := by
  refine ⟨⟨[], [], 20261116180000, -1, false, .off, 2⟩, ?_, ?_, ?_, rfl, rfl⟩
  · decide +kernel
  · decide +kernel
  · rfl

/-- **C38, part.**  Where the time stamp fits in 31 bits the sweep does what it is for: it keeps the
files of the current checkpoint and every file that is no checkpoint file, and if it ends without
trouble nothing else is left of the files with a number below 2^31.  What is missing for the claim
are all time stamps that occur (`C38_false`); as long as no removal fails the sweep does not run at
all and the current files stay (`C51_partial`). -/
theorem C38_partial (pre : Name) (t : Nat) (ht : t ≤ 2147483647) (d d' : Dir) (fail : Name → Bool)
    (ok : Bool) (h : sweepDir pre t fail d = some (d', ok)) :
    (∀ e ∈ d, e.1 = fileName pre t → e ∈ d') ∧
    (∀ e ∈ d, pre.isPrefixOf e.1 = false → e ∈ d') ∧
    (ok = true → ∀ e ∈ d', ∀ τ ≤ 2147483647, e.1 = fileName pre τ → τ = t) := by
  refine ⟨?_, ?_, ?_⟩
  · intro e he hn
    apply sweep_keeps h e he
    rw [hn, spared_own (by omega)]
    simp only [Option.some.injEq, decide_eq_true_eq]
    rw [Int.bmod_eq_of_le (by omega) (by omega)]
  · intro e he hp
    apply sweep_keeps h e he
    unfold spared
    rw [if_neg (by rw [hp]; simp)]
  · intro hok e he τ hτ hn
    subst hok
    have := sweep_removes h e he
    rw [hn, spared_own (by omega)] at this
    simp only [Option.some.injEq, decide_eq_true_eq] at this
    rw [Int.bmod_eq_of_le (by omega) (by omega)] at this
    omega

/-- Both kinds of files, small numbers. -/
example : sweepDir snapPrefix 20 (fun _ => false)
      [(fileName snapPrefix 10, some 0), (fileName snapPrefix 20, some 1), ([97], none)]
      = some ([(fileName snapPrefix 20, some 1), ([97], none)], true) := by
  decide +kernel

/-! ## C51: a crash at any moment leaves the last complete checkpoint -/

/-- **C51, part.**  Start with empty directories and let the server make checkpoints, fail in them,
crash between any two file operations and start again, in any order: at the end the snapshot that
recovery would choose is the one of the last checkpoint that was completed, and its command log is
there under the same time stamp.  (If no checkpoint was completed, recovery finds none.)

Conditions: the clock goes forward from one checkpoint to the next, also over restarts (`C51_false`),
and no removal of a file fails (`C38_false_run`). -/
theorem C51_partial (acts : List Act) (s : St) (hf : Forward 0 acts) (hn : NoTrouble acts)
    (h : run init acts = some s) :
    match lastDone init none acts with
    | none => newest s.data = none
    | some i => Recoverable s i := by
  obtain ⟨m, cur, hk, hl⟩ := run_kinv acts KInv.init hf hn h
  simp only [Option.map_none] at hl
  rw [hl]
  cases hc : cur with
  | none => rw [hk.disk.newest, hc]; rfl
  | some p =>
    obtain ⟨i, τ⟩ := p
    obtain ⟨_, _, _, h4, _⟩ := hk.disk.current i τ hc
    exact ⟨τ, by rw [hk.disk.newest, hc]; rfl, h4⟩

/-- And the next start goes through: the name of the snapshot chosen gives back its time stamp. -/
theorem C51_restart (acts : List Act) (s : St) (hf : Forward 0 acts) (hn : NoTrouble acts)
    (h : run init acts = some s) (hoff : s.stage = .off) : ∃ s', step s .restart = some s' := by
  obtain ⟨m, cur, hk, _⟩ := run_kinv acts KInv.init hf hn h
  simp only [step, if_pos hoff]
  rw [hk.disk.newest]
  cases hc : cur with
  | none => exact ⟨_, rfl⟩
  | some p =>
    obtain ⟨i, τ⟩ := p
    obtain ⟨_, h2, _, _, _⟩ := hk.disk.current i τ hc
    have hlt : τ < 9223372036854775808 := by have := h2.2; omega
    have h0 : ¬ ((τ : Int) ≤ 0) := by have := h2.1; omega
    simp only [Option.map_some, behindBar_snap, Option.bind_some, strtoll_show hlt, if_neg h0]
    exact ⟨_, rfl⟩

/-- A checkpoint, a failed one, a crash in the third, start, a fourth one that is complete but whose
predecessor is not yet removed when the server crashes. -/
def goodRun : List Act :=
  [.restart, .start 20261116170000, .createLog true true, .openLog true, .finish true, .commit,
   .start 20261116180000, .createLog true true, .openLog true, .finish false, .remove true, .remove true,
   .start 20261116190000, .createLog true true, .openLog true, .crash,
   .restart, .start 20261116200000, .createLog true true, .openLog true, .finish true, .commit,
   .finished, .remove true, .crash]

example : Forward 0 goodRun ∧ NoTrouble goodRun := by
  simp [Forward, NoTrouble, goodRun, Dated]

example : lastDone init none goodRun = some 4 ∧ (run init goodRun).isSome = true := by
  decide +kernel

/-- The local time goes back by an hour between two checkpoints (end of daylight saving time), the
server crashes before the first of them is removed. -/
def dstRun : List Act :=
  [.restart, .start 20261101013000, .createLog true true, .openLog true, .finish true, .commit,
   .start 20261101010500, .createLog true true, .openLog true, .finish true, .commit, .crash]

/-- **C51, negation.**  No file operation fails, all time stamps are dates, but they are taken from
the local time: if the clock goes back between two checkpoints, a crash makes recovery choose the
older one.  Everything written since then is lost. -/
theorem C51_false : ∃ s, run init dstRun = some s ∧ NoTrouble dstRun ∧
    lastDone init none dstRun = some 2 ∧ ¬ Recoverable s 2 ∧ Recoverable s 1 := by
  have hnew : newest ([(fileName snapPrefix 20261101013000, some 1),
      (fileName snapPrefix 20261101010500, some 2)] : Dir) =
      some (fileName snapPrefix 20261101013000, 1) := by decide +kernel
  refine ⟨⟨[(fileName snapPrefix 20261101013000, some 1), (fileName snapPrefix 20261101010500, some 2)],
    [(fileName logPrefix 20261101013000, some 1), (fileName logPrefix 20261101010500, some 2)],
    20261101010500, 20261101013000, false, .off, 2⟩, ?_, ?_, ?_, ?_, ?_⟩
  · decide +kernel
  · simp [NoTrouble, dstRun]
  · decide +kernel
  · rintro ⟨t, h, _⟩
    simp only [hnew, Option.some.injEq, Prod.mk.injEq] at h
    omega
  · exact ⟨20261101013000, hnew, by decide +kernel⟩

/-- Two checkpoints with the same second of local time (an hour apart at the end of daylight saving
time): the second one is written into the files of the first, and when it fails both are removed. -/
def sameRun : List Act :=
  [.restart, .start 20261101013000, .createLog true true, .openLog true, .finish true, .commit,
   .start 20261101013000, .createLog true true, .openLog true, .finish false, .remove true, .remove true,
   .crash]

theorem C51_false_same : ∃ s, run init sameRun = some s ∧ NoTrouble sameRun ∧
    lastDone init none sameRun = some 1 ∧ newest s.data = none ∧ s.logs = [] := by
  refine ⟨⟨[], [], 20261101013000, -1, false, .off, 2⟩, ?_, ?_, ?_, rfl, rfl⟩
  · decide +kernel
  · simp [NoTrouble, sameRun]
  · decide +kernel

end Verif.Checkpoint.Props
