import Verif.Lemmas.WakeRun
/-! # C116-C118: answers that wait for the log -/
namespace Verif.Wake.Props
open Verif.Wake Verif.Wake.Spec

/-- Steps in a row, with the reports; for the examples. -/
def steps : List Act → St × Debt → Option (St × Debt)
  | [], x => some x
  | a :: as, (s, d) =>
    match step s a with
    | .ok s' => steps as (s', d.next s a)
    | _ => none

theorem steps_reach : ∀ (as : List Act) {x y : St × Debt}, Reach x.1 x.2 → steps as x = some y → Reach y.1 y.2 := by
  intro as
  induction as with
  | nil => intro x y h e; cases e; exact h
  | cons a as ih =>
    rintro ⟨s, d⟩ y h e
    simp only [steps] at e
    split at e
    · rename_i s' hs
      exact ih (Reach.step h hs) e
    · cases e

/-- The start of the server. -/
def start : St × Debt := (init, ⟨fun _ => [], fun _ => true⟩)

theorem reach_of {as : List Act} (h : (steps as start).isSome = true) : Reach ((steps as start).get h).1 ((steps as start).get h).2 :=
  steps_reach as Reach.init (Option.some_get h).symm

/-- A client connects and sends something. -/
def connect : List Act := [.push, .kickNew, .read (some 0), .take, .event 0]

/-- C116 (partial: the last update that is reported was not made by a command with `pipe`).  An answer is sent only when the log is synced
beyond the records of all updates that it reports, whatever the threads do meanwhile. -/
theorem C116_partial {s s' : St} {d : Debt} {c : Nat} (h : Reach s d) (hs : step s .reply = .ok s') (hc : running s = some c)
    (he : d.ends c = true) : ∀ l ∈ d.owed c, l < s.synced := by
  intro l hl
  obtain ⟨l', h1, h2⟩ := (safe_reach h c).2 he l hl
  cases hpc : s.pc with
  | loop => simp only [running, hpc] at hc; cases hc
  | woken => simp only [running, hpc] at hc; cases hc
  | run i r p =>
    simp only [running, hpc] at hc; cases hc
    cases p with
    | ready => exact Nat.lt_of_le_of_lt h1 (held_ready (inv_reach h) hpc h2)
    | wrote m l => simp only [step, hpc] at hs; cases hs
    | enq l => simp only [step, hpc] at hs; cases hs
    | called => simp only [step, hpc] at hs; cases hs

/-- A pipeline of two updates; both are synced and called back, and the client is to be answered. -/
def pipeline : List Act := connect ++
  [.call .pipe true, .finish, .check, .call .answer true, .finish, .enqueue, .check, .sync 2, .collect, .notify, .kickIo, .read none, .take]

example : ∃ s s' d, Reach s d ∧ step s .reply = .ok s' ∧ running s = some 0 ∧ d.ends 0 = true ∧ d.owed 0 = [0, 1] := by
  have h : (steps pipeline start).isSome = true := rfl
  exact ⟨_, ((steps pipeline start).get h).1, _, reach_of h, rfl, rfl, rfl, rfl⟩

/-- C116 is false: when the last command of a pipeline fails, the answer reports the updates before it at once. -/
theorem C116_false : ∃ s s' d c l, Reach s d ∧ step s .reply = .ok s' ∧ running s = some c ∧ l ∈ d.owed c ∧ ¬ l < s.synced := by
  have h : (steps (connect ++ [.call .pipe true, .finish, .check, .call .answer false, .finish, .check]) start).isSome = true := rfl
  exact ⟨_, (Option.get _ h).1, _, 0, 0, reach_of h, rfl, rfl, List.mem_singleton.mpr rfl, Nat.lt_irrefl 0⟩

/-- Runs of the server by itself are not longer than the work before it. -/
theorem run_length {s : St} {l : List St} (h : Run s l) : l.length ≤ rank s := by
  induction h with
  | nil => simp
  | cons ho hs _ ih => have := rank_step ho hs; simp only [List.length_cons]; omega

theorem run_inv {s : St} {l : List St} (h : Run s l) : Inv s → Inv (l.getLastD s) := by
  induction h with
  | nil => exact id
  | @cons s s' a l ho hs _ ih =>
    intro hi
    rcases inv_step hi a with h1 | ⟨s'', h1, h2⟩
    · rw [h1] at hs; cases hs
    · rw [h1] at hs; cases hs
      rw [List.getLastD_cons]; exact ih h2

theorem run_away {c : Nat} {s : St} {l : List St} (h : Run s l) : Inv s → Away s c → (∃ t ∈ l, running t = some c) ∨ Away (l.getLastD s) c := by
  induction h with
  | nil => exact fun _ ha => Or.inr ha
  | @cons s s' a l ho hs _ ih =>
    intro hi ha
    have hi' : Inv s' := by
      rcases inv_step hi a with h1 | ⟨s'', h1, h2⟩
      · rw [h1] at hs; cases hs
      · rw [h1] at hs; cases hs; exact h2
    rcases away_step hi ho hs ha with hr | ha'
    · exact Or.inl ⟨s', List.mem_cons_self .., hr⟩
    · rcases ih hi' ha' with ⟨t, ht, hr⟩ | hx
      · exact Or.inl ⟨t, List.mem_cons_of_mem _ ht, hr⟩
      · rw [List.getLastD_cons]; exact Or.inr hx

/-- C117.  A connection whose socket the worker does not look at, because its answer has to wait for the log, is not forgotten: whatever the
server does by itself, it cannot go on for ever and it cannot stop before the worker runs the connection. -/
theorem C117 {s : St} {d : Debt} {c : Nat} (h : Reach s d) (ha : Away s c) :
    ∃ n, ∀ l, Run s l → l.length ≤ n ∧ ((∃ t ∈ l, running t = some c) ∨ ∃ a s', Own a ∧ step (l.getLastD s) a = .ok s') :=
  ⟨rank s, fun _ hl => ⟨run_length hl, (run_away hl (inv_reach h) ha).imp id fun hx => away_busy (run_inv hl (inv_reach h)) hx⟩⟩

/-- The connection is blocked; its waiter is in the list, and the worker waits in its event loop. -/
example : ∃ s d, Reach s d ∧ Away s 0 ∧ s.queue = [(some 0, 0)] ∧ s.pc = .loop := by
  have h : (steps (connect ++ [.call .answer true, .finish, .enqueue, .check]) start).isSome = true := rfl
  exact ⟨_, _, reach_of h, ⟨rfl, rfl⟩, rfl, rfl⟩

/-- C117, for a client that has just connected: its connection is taken from the queue. -/
theorem C117_new {s : St} {d : Debt} (h : Reach s d) (hc : 0 < s.cq) :
    ∃ n, ∀ l, Run s l → l.length ≤ n ∧ ((∃ t ∈ l, t.cq < s.cq) ∨ ∃ a s', Own a ∧ step (l.getLastD s) a = .ok s') := by
  refine ⟨rank s, fun l hl => ⟨run_length hl, ?_⟩⟩
  by_cases hx : ∃ t ∈ l, t.cq < s.cq
  · exact Or.inl hx
  · right
    refine queued_busy (run_inv hl (inv_reach h)) ?_
    cases l with
    | nil => exact hc
    | cons t l =>
      have hm : (t :: l).getLastD s ∈ t :: l := by
        rw [List.getLastD_cons]
        cases l with
        | nil => exact List.mem_cons_self ..
        | cons u l =>
          rw [List.getLastD_eq_getLast?, List.getLast?_eq_some_getLast (by simp)]
          exact List.mem_cons_of_mem _ (List.getLast_mem _)
      have := Nat.lt_of_not_le fun hle => hx ⟨_, hm, Nat.lt_of_le_of_lt hle hc⟩
      exact this

example : ∃ s d, Reach s d ∧ s.cq = 2 ∧ s.bytes = 1 := by
  have h : (steps [.push, .push, .kickNew] start).isSome = true := rfl
  exact ⟨_, _, reach_of h, rfl, rfl⟩

/-- C118.  Whatever the threads do, no assertion of the wake-up protocol fails: no connection is twice in the list or in two lists, none is
closed while it is in a list, none is run that is closed. -/
theorem C118 {s : St} {d : Debt} (h : Reach s d) (a : Act) : step s a ≠ .fault := by
  rcases inv_step (inv_reach h) a with h1 | ⟨s', h1, _⟩ <;> rw [h1] <;> intro hx <;> cases hx

/-- Two connections are in the list at once, one is being run while the other is left in the local list. -/
example : ∃ s d, Reach s d ∧ s.pc = .run 1 [0] .ready ∧ s.pend = [] := by
  have h : (steps (connect ++ [.call .answer true, .finish, .enqueue, .check, .push, .kickNew, .read (some 1), .take, .event 1,
    .call .answer true, .finish, .enqueue, .check, .sync 2, .collect, .notify, .notify, .kickIo, .read none, .take]) start).isSome = true := rfl
  exact ⟨_, _, reach_of h, rfl, rfl⟩

end Verif.Wake.Props
