import Verif.Spec.LogFile
import Verif.Model.Recover
/-! # Restarting a server: wall-clock deadlines and what clients are served -/
namespace Verif.Log.Spec
open Verif.Log

/-- The wall-clock instant at which an item with relative expiry `e` in a process started at `start`
expires; `none` for items that never expire (0) and sticky items (all ones). -/
def deadline (start e : Nat) : Option Nat :=
  if e = 0 ∨ e = 4294967295 then none else some (start + e)

/-- An expiry time as the server keeps it (32 bits), with a deadline before the year 2106. -/
def GoodExp (start e : Nat) : Prop :=
  e = 0 ∨ e = 4294967295 ∨ start + e < 4294967295

/-- The clock of a process started at `start` is in step with the wall clock. -/
def InStep (start : Nat) (c : Clock) : Prop := c.wall = start + c.cur

/-- A deadline that has passed. -/
def passed (wall : Nat) : Option Nat → Prop
  | none => False
  | some d => d ≤ wall

instance (w : Nat) (d : Option Nat) : Decidable (passed w d) := by
  cases d <;> simp only [passed] <;> infer_instance

/-- What a client sees of an item. -/
structure Seen where
  flags : Nat
  value : Bytes
  cas : Nat
deriving DecidableEq, Repr

/-- What a client is served at wall-clock time `t` from a store of a process started at `start`. -/
def served (start : Nat) (s : Store) (t : Nat) (k : Bytes) : Option Seen :=
  match s k with
  | none => none
  | some v => if passed t (deadline start v.exp) then none else some ⟨v.flags, v.value, v.cas⟩

/-- A run of the server: the changes with the clocks, from the empty store. -/
def liveStore (sc : Scope) : Store → List (Clock × Ev) → Store
  | s, [] => s
  | s, (c, ev) :: r => liveStore sc (liveStep sc c s ev).1 r

/-- The updates it logs. -/
def liveLog (sc : Scope) : Store → List (Clock × Ev) → List Logged
  | _, [] => []
  | s, (c, ev) :: r =>
    match liveStep sc c s ev with
    | (s', some op) => ⟨c, op⟩ :: liveLog sc s' r
    | (s', none) => liveLog sc s' r

/-- The histories for which the claims on lifetimes hold at key `k`: every change happens before
recovery with the clock in step; a value of `k` whose lifetime runs out before recovery does not
supersede one whose lifetime does not; and the lifetime of `k` is changed only while its lifetime so
far would not have run out before recovery. -/
def Calm (sc : Scope) (start wall : Nat) (k : Bytes) : Store → List (Clock × Ev) → Prop
  | _, [] => True
  | s, (c, ev) :: r =>
    (InStep start c ∧ c.wall ≤ wall ∧
      match ev with
      | .store it => it.key = k → it.ittype = 0 ∧ GoodExp start it.exptime ∧
          (passed wall (deadline start it.exptime) → served start s wall k = none)
      | .touch k' e => k' = k → GoodExp start e ∧
          ∀ v, s.find c.cur k = some v → ¬ passed wall (deadline start v.exp)
      | _ => True) ∧
    Calm sc start wall k (liveStep sc c s ev).1 r

end Verif.Log.Spec
