import Verif.Model.Prefix
import Verif.Spec.Run
/-!
# What the prefix statistics are for

A list of the linked items with their sizes.  The statistics of a prefix are the numbers and sums over its items; a scan hands out
names, which stay readable until they are released.
-/
namespace Verif.Prefix.Spec

/-- A linked item: its own size and that of its elements. -/
structure Itm where
  id : Nat
  key : List Nat
  ty : Nat
  base : Nat
  elems : Nat

def Itm.size (x : Itm) : Nat := x.base + x.elems

/-- The items, and what was handed out by scans and not yet released: pointers with the names they stand for. -/
structure S where
  items : List Itm
  held : List (Option Nat × Option (List Nat))

def start : S := ⟨[], []⟩

/-- The prefix of a key: the bytes before the first delimiter, not counting one at the very beginning; `none` without delimiter. -/
def owner (d : Nat) : List Nat → Option (List Nat)
  | [] => none
  | a :: r => if d ∈ r then some (a :: r.takeWhile fun b => b != d) else none

/-- The items of a prefix. -/
def under (d : Nat) (σ : S) (p : Option (List Nat)) : List Itm := σ.items.filter fun x => decide (owner d x.key = p)

/-- The statistics of a list of items: number and sum of the sizes, in total and for each of the five types. -/
def figures (l : List Itm) : (Nat × List Nat) × (Nat × List Nat) :=
  ((l.length, (List.range 5).map fun t => (l.filter fun x => decide (x.ty = t)).length),
   ((l.map Itm.size).sum, (List.range 5).map fun t => ((l.filter fun x => decide (x.ty = t)).map Itm.size).sum))

/-- Letters, digits, and `_ - + .`. -/
def NameByte (c : Nat) : Prop :=
  (97 ≤ c ∧ c ≤ 122) ∨ (65 ≤ c ∧ c ≤ 90) ∨ (48 ≤ c ∧ c ≤ 57) ∨ c = 95 ∨ c = 45 ∨ c = 43 ∨ c = 46

/-- Names that may be new prefixes. -/
def GoodName (p : List Nat) : Prop := p.head? ≠ some 45 ∧ ∀ c ∈ p, NameByte c

/-- The name of the prefix of internal items: "arcus". -/
def internalName : List Nat := [97, 114, 99, 117, 115]

/-- A dump line. -/
def record (d : Nat) (σ : S) (p : Option (List Nat)) : Option (List Nat) × (Nat × List Nat) × (Nat × List Nat) :=
  (p, figures (under d σ p))

/-- The place of a prefix in the order of a scan: the bucket of its name, the null prefix first. -/
def place (hash : List Nat → Nat) : Option (List Nat) → Nat
  | none => 0
  | some p => hash p % 1024

/-- The prefix of a name given to `stats prefix`. -/
def ofToken (t : List Nat) : Option (List Nat) := if t = [60, 110, 117, 108, 108, 62] then none else some t

/-- What a call answers. -/
def Step (d : Nat) (hash : List Nat → Nat) (σ : S) (op : Op) (r : Rep) (σ' : S) : Prop :=
  match op with
  | .link id key ty base stotal mem =>
    (r = .ok ∧ σ' = { σ with items := ⟨id, key, ty, base, stotal⟩ :: σ.items } ∧
      ∀ p, owner d key = some p → under d σ (some p) = [] → GoodName p ∧ mem = true) ∨
    (∃ p, owner d key = some p ∧ under d σ (some p) = [] ∧ σ' = σ ∧
      ((r = .ename ∧ ¬ GoodName p) ∨ (r = .nomem ∧ GoodName p ∧ mem = false)))
  | .unlink id => r = .ok ∧ σ' = { σ with items := σ.items.filter fun x => decide (x.id ≠ id) }
  | .grow id n => r = .ok ∧ σ' = { σ with items := σ.items.map fun x => if x.id = id then { x with elems := x.elems + n } else x }
  | .shrink id n => r = .ok ∧ σ' = { σ with items := σ.items.map fun x => if x.id = id then { x with elems := x.elems - n } else x }
  | .replace old new key ty base stotal =>
    r = .ok ∧ σ' = { σ with items := σ.items.map fun x => if x.id = old then ⟨new, key, ty, base, stotal⟩ else x }
  | .statsAll =>
    σ' = σ ∧ ∃ l : List (Option (List Nat)), r = .stats (l.map (record d σ)) ∧ l.Nodup ∧ ∀ p, p ∈ l ↔ under d σ p ≠ []
  | .statsOf toks =>
    σ' = σ ∧ r = .stats (((toks.map ofToken).filter fun p => !(under d σ p).isEmpty).map (record d σ))
  | .count => σ' = σ ∧ ∃ l : List (Option (List Nat)), r = .count l.length ∧ l.Nodup ∧ ∀ p, p ∈ l ↔ under d σ p ≠ []
  | .totals => σ' = σ ∧ r = .totals σ.items.length (σ.items.map Itm.size).sum
  | .scan cur _ arr =>
    ∃ (l : List (Option Nat × Option (List Nat))) (next : Nat), r = .scan l next ∧ l.length ≤ arr ∧
      σ' = { σ with held := l ++ σ.held } ∧ (l.map (·.2)).Nodup ∧ (next = 0 ∨ (cur < next ∧ next < 1024)) ∧
      ∀ p, p ∈ l.map (·.2) ↔
        under d σ p ≠ [] ∧ p ≠ some internalName ∧ cur ≤ place hash p ∧ (next = 0 ∨ place hash p < next) ∧ cur < 1024
  | .release p => r = .ok ∧ ∃ nm l1 l2, σ.held = l1 ++ (p, nm) :: l2 ∧ σ' = { σ with held := l1 ++ l2 }
  | .name p => σ' = σ ∧ ∃ nm, r = .name nm ∧ ∀ nm', (p, nm') ∈ σ.held → nm' = nm

/-- The number of reported prefixes with a given place. -/
def crowd (d : Nat) (hash : List Nat → Nat) (σ : S) (b : Nat) : Nat :=
  ((σ.items.map fun x => owner d x.key).filter fun p => decide (place hash p = b)).eraseDups.length

/-- Which calls are made.  Sizes fit in 32 bits, there are fewer than 2^31 items, the prefix of a key has at most 255 bytes (nothing in
the server checks this), an item is replaced by one of the same key and type, and the array of a scan has room for every crowd. -/
def Legal (d : Nat) (hash : List Nat → Nat) (σ : S) (op : Op) : Prop :=
  match op with
  | .link id key ty base stotal _ =>
    id ∉ σ.items.map Itm.id ∧ key ≠ [] ∧ (∀ p, owner d key = some p → p.length ≤ 255) ∧ ty < 5 ∧ (ty = 0 → stotal = 0) ∧
      base + stotal < 2 ^ 32 ∧ σ.items.length + 1 < 2 ^ 31
  | .unlink id => id ∈ σ.items.map Itm.id
  | .grow id n => ∃ x ∈ σ.items, x.id = id ∧ x.ty ≠ 0 ∧ x.size + n < 2 ^ 32
  | .shrink id n => ∃ x ∈ σ.items, x.id = id ∧ x.ty ≠ 0 ∧ n ≤ x.elems
  | .replace old new key ty base stotal =>
    (∃ x ∈ σ.items, x.id = old ∧ key = x.key ∧ ty = x.ty) ∧ new ∉ σ.items.map Itm.id ∧ (ty = 0 → stotal = 0) ∧ base + stotal < 2 ^ 32
  | .statsAll | .count | .totals => True
  | .statsOf toks => [] ∉ toks
  | .scan _ req arr =>
    0 < req ∧ req ≤ arr ∧ (∀ b, req + crowd d hash σ b ≤ arr + 1) ∧ ∀ i, (σ.held.filter fun h => decide (h.1 = some i)).length < 65535
  | .release p | .name p => p ∈ σ.held.map (·.1)

end Verif.Prefix.Spec
