import Verif.Model.Checkpoint
/-! # What the files of the checkpoints have to be good for -/
namespace Verif.Checkpoint.Spec
open Verif.Checkpoint

/-- The number of the last checkpoint that was completed (its snapshot got its end mark) in a run. -/
def lastDone : St → Option Nat → List Act → Option Nat
  | _, i, [] => i
  | s, i, a :: r =>
    match step s a with
    | none => i
    | some s' =>
      lastDone s' (match a, s.stage with
        | .finish true, .writing _ => some s.seq
        | _, _ => i) r

/-- A crash at this moment loses nothing: recovery chooses the snapshot of checkpoint `i`, and finds
the command log of this checkpoint under the same time stamp. -/
def Recoverable (s : St) (i : Nat) : Prop :=
  ∃ t, newest s.data = some (fileName snapPrefix t, i) ∧
    s.logs.get (fileName logPrefix t) = some (some i)

/-- Time stamps YYYYMMDDhhmmss of the years 1000 to 9999. -/
def Dated (t : Nat) : Prop := 10000000000000 ≤ t ∧ t < 100000000000000

/-- Every checkpoint has a later time stamp than all those before it (`m`: the latest so far). -/
def Forward : Nat → List Act → Prop
  | _, [] => True
  | m, .start t :: r => m < t ∧ Dated t ∧ Forward t r
  | m, _ :: r => Forward m r

/-- No removal of a file fails. -/
def NoTrouble : List Act → Prop
  | [] => True
  | .remove ok :: r => ok = true ∧ NoTrouble r
  | .createLog ok rm :: r => (ok = true ∨ rm = true) ∧ NoTrouble r
  | _ :: r => NoTrouble r

end Verif.Checkpoint.Spec
