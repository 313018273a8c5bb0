import Verif.Model.Wake
/-! # Specification: what clients may rely on when replies wait for the log -/
namespace Verif.Wake.Spec
open Verif.Wake

/-- What the next answer of each connection will report: the numbers of the log records of its updates, and whether the last of them was
made by a command that is answered itself (not by one with `pipe`). -/
structure Debt where
  owed : Nat → List Nat
  ends : Nat → Bool

/-- Nothing reported. -/
def Debt.clear (d : Debt) (c : Nat) : Debt :=
  ⟨fun i => if i = c then [] else d.owed i, fun i => if i = c then true else d.ends i⟩

/-- One more update to report. -/
def Debt.add (d : Debt) (c l : Nat) (e : Bool) : Debt :=
  ⟨fun i => if i = c then d.owed i ++ [l] else d.owed i, fun i => if i = c then e else d.ends i⟩

/-- The connection that the worker runs. -/
def running (s : St) : Option Nat :=
  match s.pc with
  | .run c _ _ => some c
  | _ => none

/-- How the reports change: a successful update is to be reported, unless the client wants no answer; an answer reports all. -/
def Debt.next (d : Debt) (s : St) : Act → Debt
  | .call m true =>
    match running s, m with
    | some c, .answer => d.add c s.nxt true
    | some c, .pipe => d.add c s.nxt false
    | _, _ => d
  | .reply =>
    match running s with
    | some c => d.clear c
    | none => d
  | .read (some c) => d.clear c
  | _ => d

/-- The states that the server can reach, with the reports. -/
inductive Reach : St → Debt → Prop where
  | init : Reach init ⟨fun _ => [], fun _ => true⟩
  | step {s s' : St} {d : Debt} {a : Act} : Reach s d → step s a = .ok s' → Reach s' (d.next s a)

/-- What the server does by itself: no new connections, no data from clients, no updates of other workers. -/
def Own : Act → Prop
  | .kickNew | .kickIo | .read _ | .take | .finish | .enqueue | .check | .leave | .close | .sync _ | .collect | .notify => True
  | _ => False

/-- A run of the server by itself, with all states that it passes. -/
inductive Run : St → List St → Prop where
  | nil (s : St) : Run s []
  | cons {s s' : St} {a : Act} {l : List St} : Own a → step s a = .ok s' → Run s' l → Run s (s' :: l)

/-- The connection is open and the worker does not look at its socket: the client can do nothing to be served. -/
def Away (s : St) (c : Nat) : Prop := (s.conn c).opened = true ∧ (s.conn c).watched = false

end Verif.Wake.Spec
