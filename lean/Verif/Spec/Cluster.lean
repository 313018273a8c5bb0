import Verif.Model.Cluster
/-!
# Specification of the ownership of keys in a cluster

Nodes are known by their names; a node has hash points, a key a hash value.  Only the types of events and answers (`Ev`, `Out`) and the
hash functions (`Cfg`) are shared with the model.
-/
namespace Verif.Cluster.Spec

/-- The order of names: that of the bytes, a proper prefix is smaller. -/
def Smaller (x y : List Nat) : Prop := List.Lex (· < ·) x y

/-- Some node has this hash point. -/
def At (points : List Nat → List Nat) (names : List (List Nat)) (p : Nat) : Prop := ∃ x ∈ names, p ∈ points x

/-- The first hash point on the ring at or behind `h`: the least that is not below `h`, the least of all if there is none. -/
def Next (points : List Nat → List Nat) (names : List (List Nat)) (h p : Nat) : Prop :=
  At points names p ∧
  ((h ≤ p ∧ ∀ q, At points names q → h ≤ q → p ≤ q) ∨ ((∀ q, At points names q → q < h) ∧ ∀ q, At points names q → p ≤ q))

/-- The owner of hash value `h`: the node that has the next hash point; of several, the one with the smallest name. -/
def Owner (points : List Nat → List Nat) (names : List (List Nat)) (h : Nat) (x : List Nat) : Prop :=
  x ∈ names ∧ ∃ p, Next points names h p ∧ p ∈ points x ∧ ∀ y ∈ names, p ∈ points y → ¬ Smaller y x

open Classical in
/-- The number of a node: how many names are smaller. -/
noncomputable def rank (names : List (List Nat)) (x : List Nat) : Nat := (names.filter fun y => decide (Smaller y x)).length

open Classical in
/-- How many names are not in the second list. -/
noncomputable def without (names other : List (List Nat)) : Nat := (names.filter fun y => decide (y ∉ other)).length

open Classical in
/-- How many of the names need a new node item: those that are neither present nor the server itself. -/
noncomputable def needs (self : List Nat) (cur names : List (List Nat)) : Nat :=
  (names.filter fun x => decide (x ∉ cur ∧ x ≠ self)).length

open Classical in
/-- The number of the server itself. -/
noncomputable def selfId (names : List (List Nat)) (self : List Nat) : Option Nat :=
  if self ∈ names then some (rank names self) else none

/-- The name of a node: what comes before the first dash. -/
def nodeOf (str : List Nat) : List Nat := str.takeWhile (· != 45)

/-- The present list of nodes, whether it is known, and the list a reconfiguration in progress brings. -/
structure S where
  cur : Option (List (List Nat))
  valid : Bool
  next : Option (List (List Nat))

/-- The nodes present. -/
def S.names (σ : S) : List (List Nat) := σ.cur.getD []

/-- A reconfiguration in progress does not change the number of any node that stays. -/
def Quiet (σ : S) : Prop :=
  ∀ new, σ.next = some new → ∀ x ∈ σ.names, x ∈ new → rank new x = rank σ.names x

/-- What the calls do. -/
def Step (cfg : Cfg) (self : List Nat) (σ : S) : Ev → Out → S → Prop
  | .start strs mem ring, out, σ' =>
    if strs = [] then out = .begun 0 σ.names.length ∧ σ' = ⟨some [], true, none⟩
    else if ∃ str ∈ strs, nodeOf str = [] then out = .failed ∧ σ' = σ
    else
      (out = .failed ∧ σ' = { σ with valid := false } ∧ (ring = false ∨ mem < strs.length)) ∨
      (out = .same ∧ σ' = σ ∧ (∀ x, x ∈ strs.map nodeOf ↔ x ∈ σ.names)) ∨
      (out = .begun (without (strs.map nodeOf) σ.names) (without σ.names (strs.map nodeOf)) ∧
        σ' = { σ with next := some (strs.map nodeOf) } ∧ ¬ (∀ x, x ∈ strs.map nodeOf ↔ x ∈ σ.names))
  | .write, out, σ' => out = .ok ∧ σ' = σ
  | .install, out, σ' => out = .ok ∧ σ' = ⟨σ.next, true, none⟩
  | .lookup key, out, σ' => σ' = σ ∧
    if σ.valid = false then out = .unknown
    else
      ∃ x i mine, Owner cfg.points σ.names (cfg.khash key) x ∧
        (i = rank σ.names x ∨ ∃ new, σ.next = some new ∧ x ∈ new ∧ i = rank new x) ∧
        (mine = true ↔ selfId σ.names self = some i) ∧ (Quiet σ → (mine = true ↔ x = self)) ∧
        out = .owner mine i (selfId σ.names self)

/-- Calls that can happen.  Node strings start with a name, not with a dash, unless they have only dashes; names have at most 127 bytes and are
different; reconfigurations come one after the other; a key is looked up when a list of nodes is known, and not for the list without
nodes. -/
def Legal (σ : S) : Ev → Prop
  | .start strs _ _ => σ.next = none ∧ strs.length < 65000 ∧ (strs.map nodeOf).Nodup ∧
    ∀ str ∈ strs, (nodeOf str).length ≤ 127 ∧ (nodeOf str = [] → ∀ c ∈ str, c = 45)
  | .write => σ.next ≠ none
  | .install => σ.next ≠ none
  | .lookup _ => σ.cur ≠ none ∧ σ.cur ≠ some []

/-- As `Legal`, and no change both removes nodes and adds other nodes than the server itself. -/
def Calm (self : List Nat) (σ : S) : Ev → Prop
  | .start strs mem ring => Legal σ (.start strs mem ring) ∧
    ((∀ x ∈ σ.names, x ∈ strs.map nodeOf) ∨ ∀ x ∈ strs.map nodeOf, x ∈ σ.names ∨ x = self)
  | ev => Legal σ ev

/-- Not configured. -/
def start : S := ⟨none, false, none⟩

end Verif.Cluster.Spec
