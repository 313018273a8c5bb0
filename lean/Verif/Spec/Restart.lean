import Verif.Model.Restart
/-! # What clients may expect across restarts

Stated about calls and replies alone. -/
namespace Verif.Restart.Spec
open Verif.Restart

/-- What is stored: for each key its value and unique id. -/
abbrev Map := Bytes → Option (Bytes × Nat)

/-- One key gets a new content. -/
def Map.put (m : Map) (k : Bytes) (c : Option (Bytes × Nat)) : Map := fun k' => if k' = k then c else m k'

/-- The keys a flush is for. -/
def Concerns (pfx : Bytes → Bytes) (scope : Option Bytes) (k : Bytes) : Prop := ∀ p, scope = some p → pfx k = p

/-- A call with its reply takes one map into another.  A restart, a checkpoint and time change nothing.
Memory may run short at any time (`evict`). -/
inductive Step (pfx : Bytes → Bytes) : Map → Op → Rep → Map → Prop
  | tick (m d) : Step pfx m (.tick d) .none m
  | set (m k v id) : Step pfx m (.set k v) (.stored id) (m.put k (some (v, id)))
  | casOk (m k v v' id id') : m k = some (v', id) → Step pfx m (.cas k v id) (.stored id') (m.put k (some (v, id')))
  | casNo (m k v v' id id') : m k = some (v', id') → id' ≠ id → Step pfx m (.cas k v id) .exists_ m
  | casNone (m k v id) : m k = none → Step pfx m (.cas k v id) .notFound m
  | delete (m k c) : m k = some c → Step pfx m (.delete k) .deleted (m.put k none)
  | deleteNone (m k) : m k = none → Step pfx m (.delete k) .notFound m
  | get (m k v id) : m k = some (v, id) → Step pfx m (.get k) (.value v id) m
  | getNone (m k) : m k = none → Step pfx m (.get k) .miss m
  | flush (m m' scope) : (∀ k, Concerns pfx scope k → m' k = none) → (∀ k, ¬ Concerns pfx scope k → m' k = m k) →
      Step pfx m (.flush scope 0) .ok m'
  | flushNone (m scope) : (∀ k, Concerns pfx scope k → m k = none) → Step pfx m (.flush scope 0) .noPrefix m
  | evict (m k) : Step pfx m (.evict k) .none (m.put k none)
  | reclaim (m k) : Step pfx m (.reclaim k) .none m
  | checkpoint (m) : Step pfx m .checkpoint .none m
  | restart (m d) : Step pfx m (.restart d) .none m

/-- A run of one map. -/
inductive Runs (pfx : Bytes → Bytes) : Map → List (Op × Rep) → Prop
  | nil (m) : Runs pfx m []
  | cons (m m' op r t) : Step pfx m op r m' → Runs pfx m' t → Runs pfx m ((op, r) :: t)

/-- The call stored something under the key. -/
def Stores (k : Bytes) (e : Op × Rep) : Prop :=
  ∃ v id, e = (.set k v, .stored id) ∨ ∃ id', e = (.cas k v id', .stored id)

/-- The reply told the client the unique id of what is stored under the key. -/
def Tells (k : Bytes) (id : Nat) (e : Op × Rep) : Prop :=
  (∃ v, e = (.get k, .value v id)) ∨ (∃ v, e = (.set k v, .stored id)) ∨ ∃ v id', e = (.cas k v id', .stored id)

/-- What is gone does not come back by itself: after a miss, a key is not found before it is stored again. -/
def NoReturn (t : List (Op × Rep)) : Prop :=
  ∀ t1 t2 t3 k r, t = t1 ++ (.get k, .miss) :: (t2 ++ (.get k, r) :: t3) → (∀ e ∈ t2, ¬ Stores k e) → r = .miss

/-- A cas succeeds only if the value is still the one whose unique id the client had been told. -/
def NoLostUpdate (t : List (Op × Rep)) : Prop :=
  ∀ t1 t2 t3 k v id id' e0, t = t1 ++ e0 :: (t2 ++ (.cas k v id, .stored id') :: t3) → Tells k id e0 →
    ∀ e ∈ t2, ¬ Stores k e

/-- Every flush is without delay. -/
def Immediate (ops : List Op) : Prop := ∀ scope w, .flush scope w ∈ ops → w = 0

/-- No restart comes after a checkpoint. -/
def RestartsFirst (ops : List Op) : Prop := ∀ a b d, ops = a ++ .restart d :: b → .checkpoint ∉ a

end Verif.Restart.Spec
