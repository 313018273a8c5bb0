import Verif.Model.Assoc
import Verif.Spec.Run
/-!
# What the hash table is for

A finite map of the resident items; every scan has a set of keys that it still owes to its caller; cursors order the keys.
-/
namespace Verif.Assoc.Spec

/-- A scan: the keys it still has to deliver, and whether it has delivered anything. -/
structure Owed where
  todo : List (List Nat)
  started : Bool

structure S where
  items : List Item
  scans : List (Option Owed)
  cursors : List Nat

/-- The keys of a list of items. -/
def keys (l : List Item) : List (List Nat) := l.map (·.key)

/-- In the order of bits from the lowest to the highest, `x` comes before `t`: at the first bit where they differ, `t` has 1. -/
def RevLt (x t : Nat) : Prop := ∃ i, x % 2 ^ i = t % 2 ^ i ∧ x.testBit i = false ∧ t.testBit i = true

/-- The key comes before the cursor: by the low `hp` bits of its hash value, then by the others from the lowest to the highest. -/
def Covered (hp : Nat) (hash : List Nat → Nat) (c : Nat) (key : List Nat) : Prop :=
  hash key % 2 ^ hp < c % 2 ^ hp ∨ (hash key % 2 ^ hp = c % 2 ^ hp ∧ RevLt (hash key / 2 ^ hp) (c / 2 ^ hp))

/-- What the scan with number `sid` owes. -/
def owed (σ : S) (sid : Nat) : Option Owed :=
  match σ.scans[sid]? with
  | some (some o) => some o
  | _ => none

/-- A scan after an insertion owes the new key or does not. -/
def Grown (key : List Nat) : Option Owed → Option Owed → Prop
  | none, none => True
  | some o, some o' => o'.started = o.started ∧ (o'.todo = o.todo ∨ o'.todo = key :: o.todo)
  | _, _ => False

/-- A scan after a deletion. -/
def shrunk (key : List Nat) (o : Option Owed) : Option Owed :=
  o.map fun o => { o with todo := o.todo.filter fun k => decide (k ≠ key) }

/-- What a call answers.  The `Bool` tells whether there was room for the chains (only of interest for `scanDirect`). -/
def Step (hp : Nat) (hash : List Nat → Nat) (σ : S) (op : Op) (r : Rep × Bool) (σ' : S) : Prop :=
  match op with
  | .find key => r.1 = .found (σ.items.find? fun it => decide (it.key = key)) ∧ σ' = σ
  | .insert it _ _ =>
    r.1 = .ok ∧ σ'.items = it :: σ.items ∧ σ'.cursors = σ.cursors ∧ σ'.scans.length = σ.scans.length ∧
      ∀ sid, Grown it.key (owed σ sid) (owed σ' sid)
  | .replace key new =>
    r.1 = .ok ∧ σ' = { σ with items := σ.items.map fun it => if it.key = key then new else it }
  | .delete key =>
    r.1 = .ok ∧
      σ' = { σ with items := σ.items.filter fun it => decide (it.key ≠ key), scans := σ.scans.map (shrunk key) }
  | .scanInit _ =>
    r.1 = .scan σ.scans.length ∧ σ' = { σ with scans := σ.scans ++ [some ⟨keys σ.items, false⟩] }
  | .scanNext sid arr _ =>
    ∃ o, owed σ sid = some o ∧
      ((r.1 = .next none ∧ o.todo = [] ∧ σ' = { σ with scans := σ.scans.set sid (some { o with started := true }) }) ∨
       ∃ l, r.1 = .next (some l) ∧ l ≠ [] ∧ l.length ≤ arr ∧ (∀ it ∈ l, it ∈ σ.items ∧ it.key ∈ o.todo) ∧ (keys l).Nodup ∧
         σ' = { σ with scans := σ.scans.set sid (some ⟨o.todo.filter fun k => decide (k ∉ keys l), true⟩) })
  | .visited sid it =>
    ∃ o, owed σ sid = some o ∧ r.1 = .visited (decide (it.key ∉ o.todo)) ∧ σ' = σ
  | .scanFinal sid => r.1 = .ok ∧ σ' = { σ with scans := σ.scans.set sid none }
  | .scanDirect c _ arr =>
    ∃ l c', r.1 = .direct (some (l, c')) ∧ l.length ≤ arr ∧ (∀ it ∈ l, it ∈ σ.items) ∧
      (r.2 = true → ∀ it ∈ σ.items, ¬ Covered hp hash c it.key → c' = 0 ∨ Covered hp hash c' it.key → it ∈ l) ∧
      σ' = { σ with cursors := c' :: σ.cursors }

/-- Which calls are made: keys are not empty, new items have new keys, scans are those that were begun and not ended, cursors are 0 or
were returned before; a scan is asked about visited items only after its first step. -/
def Legal (σ : S) (op : Op) : Prop :=
  match op with
  | .find key => key ≠ []
  | .insert it _ _ => it.key ≠ [] ∧ it.key ∉ keys σ.items
  | .replace key new => key ∈ keys σ.items ∧ new.key = key
  | .delete key => key ∈ keys σ.items
  | .scanInit _ => True
  | .scanNext sid arr _ => owed σ sid ≠ none ∧ 0 < arr
  | .visited sid it => it ∈ σ.items ∧ ∃ o, owed σ sid = some o ∧ o.started = true
  | .scanFinal sid => owed σ sid ≠ none
  | .scanDirect c req arr => (c = 0 ∨ c ∈ σ.cursors) ∧ req ≤ arr ∧ 0 < arr ∧ (c = 0 → 0 < req)

def start : S := ⟨[], [], []⟩

/-! ## Transcripts -/

/-- How often a scan delivered a key. -/
def delivered (sid : Nat) (key : List Nat) : List (Op × (Rep × Bool)) → Nat
  | [] => 0
  | (.scanNext i _ _, (.next (some l), _)) :: t => (if i = sid then (keys l).count key else 0) + delivered sid key t
  | _ :: t => delivered sid key t

/-- The key was not deleted. -/
def NoDelete (key : List Nat) (t : List (Op × (Rep × Bool))) : Prop := ∀ r, (Op.delete key, r) ∉ t

/-- A caller follows the cursors from `c` to `c'`, each call with room for the chains, and collects the lists of items; in between there
may be other calls. -/
inductive Follows : Nat → List (Op × (Rep × Bool)) → List (List Item) → Nat → Prop where
  | nil {c} : Follows c [] [] c
  | other {c x t ls c'} : Follows c t ls c' → Follows c (x :: t) ls c'
  | call {c req arr l c1 t ls c'} : Follows c1 t ls c' →
      Follows c ((.scanDirect c req arr, (.direct (some (l, c1)), true)) :: t) (l :: ls) c'

end Verif.Assoc.Spec
