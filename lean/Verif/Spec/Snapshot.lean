import Verif.Spec.Recover
import Verif.Model.Snapshot
/-! # What a checkpoint has to save -/
namespace Verif.Log.Spec
open Verif.Log

/-- A flush that concerns `k`. -/
def flushes (sc : Scope) (k : Bytes) : Ev → Bool
  | .flushAll => true
  | .flushPrefix p => (if p = [] then sc.bare else sc.under p) k
  | _ => false

/-- The conditions on one step under which the claim holds at key `k`.  A change by a client: clocks
and lifetimes as in `Calm`; no flush concerning `k` before `k` has been scanned; no change of `k`
before the scan has begun if `k` counts as scanned then.  The scan ends only when an existing item
of `k` has been handed out (C26). -/
def SafeAct (sc : Scope) (junk : Bytes → Bool) (start wall : Nat) (k : Bytes) (s : Chk) : Act → Prop
  | .client c ev =>
    (InStep start c ∧ c.wall ≤ wall ∧
      match ev with
      | .store it => it.key = k → it.ittype = 0 ∧ GoodExp start it.exptime ∧
          (passed wall (deadline start it.exptime) → served start s.live wall k = none)
      | .touch k' e => k' = k → GoodExp start e ∧
          ∀ v, s.live.find c.cur k = some v → ¬ passed wall (deadline start v.exp)
      | _ => True) ∧
    (s.closed = false → s.vis k = false → flushes sc k ev = false) ∧
    (s.begun = false → junk k = true → ev.key ≠ some k)
  | .next c _ => InStep start c ∧ c.wall ≤ wall
  | .dump c => InStep start c ∧ c.wall ≤ wall
  | .finish => ∀ v, s.live k = some v → s.vis k = true

/-- The conditions on a run. -/
def Safe (sc : Scope) (junk : Bytes → Bool) (start wall : Nat) (k : Bytes) : Chk → List Act → Prop
  | _, [] => True
  | s, a :: r => SafeAct sc junk start wall k s a ∧
      ∀ s', s.step sc junk a = some s' → Safe sc junk start wall k s' r

/-- Recovery: the snapshot, then the command log that was opened with it. -/
def recovered (sc : Scope) (c : Clock) (s : Chk) : Option Store :=
  after (kvApply sc c.cur) (fun _ => none) ((s.snap ++ s.new).map (callOf c))

end Verif.Log.Spec
