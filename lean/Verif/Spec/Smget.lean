import Verif.Model.Smget
import Verif.Spec.BTree
/-!
# Specification of the sort-merge get

The answer is described from the collections as the client sees them (`Verif.BT.Spec.C`, specified by C18 to C23).  Only the types of the
reply (`Result`, `Rep`, `Got`, `Miss`, `Err`) are shared with the model.
-/
namespace Verif.Smget.Spec
open Verif.BT Verif.BT.Spec

/-- What the client knows under a key: nothing, an item of another type, a b+tree. -/
inductive View where
  | absent
  | other
  | coll (c : C)

/-- The range begins in the space at one end of the collection from which elements were trimmed. -/
def Behind (c : C) (r : Range) : Prop :=
  c.elems ≠ [] ∧ c.trimmed = true ∧ ((c.ovfl = .smallest ∧ Under c r.lo) ∨ (c.ovfl = .largest ∧ Over c r.lo))

open Classical in
/-- Why a key is reported as missed. -/
noncomputable def missOf (r : Range) : View → Option Miss
  | .absent => some .enoent
  | .other => none
  | .coll c => if c.readable = false then some .unreadable else if Behind c r then some .bkeyoor else none

open Classical in
/-- Why a key makes the command fail. -/
noncomputable def errOf (r : Range) : View → Option Err
  | .absent => none
  | .other => some .badType
  | .coll c => if c.readable = true ∧ c.elems ≠ [] ∧ c.Alien r.lo then some .badBkey else none

/-- Smaller in the direction of the range. -/
def Sooner (r : Range) (a b : BKey) : Prop := (Descending r ∧ KLt b a) ∨ (¬ Descending r ∧ KLt a b)

/-- The order of the answer: by bkey in the direction of the range, equal bkeys by key (a proper prefix is smaller), in the same
direction. -/
def Earlier (r : Range) (x y : Got) : Prop :=
  Sooner r x.elem.bkey y.elem.bkey ∨
  (x.elem.bkey = y.elem.bkey ∧ ((Descending r ∧ List.Lex (· < ·) y.key x.key) ∨ (¬ Descending r ∧ List.Lex (· < ·) x.key y.key)))

/-- The key contributes elements. -/
def Taken (r : Range) (c : C) : Prop := c.readable = true ∧ ¬ Behind c r

/-- The elements the keys offer: those in the range that pass the filter, with the key's number, name and flags. -/
def Offered (view : List Nat → View) (keys : List (List Nat)) (r : Range) (f : Option EFilter) (x : Got) : Prop :=
  ∃ c, keys[x.kidx]? = some x.key ∧ view x.key = .coll c ∧ Taken r c ∧ x.flags = c.flags ∧ x.elem ∈ matching r f c.elems

/-- The elements to be merged: all offered; in unique mode, of those with one bkey only the earliest. -/
def Wanted (view : List Nat → View) (keys : List (List Nat)) (r : Range) (f : Option EFilter) (unique : Bool) (x : Got) : Prop :=
  Offered view keys r f x ∧
  (unique = true → ∀ y, Offered view keys r f y → y.elem.bkey = x.elem.bkey → y = x ∨ Earlier r x y)

/-- The key where the range ends. -/
def EndsAt (r : Range) (k : BKey) : Prop := r.hi = some k ∨ (r.hi = none ∧ r.lo = k)

/-- The range runs, behind the element with bkey `b`, into the space from which elements were trimmed.  Also counted, wrongly, is a
range that ends exactly at this element and holds no other one. -/
def CutOff (c : C) (r : Range) (b : BKey) : Prop :=
  Taken r c ∧ c.trimmed = true ∧
  ∃ e, e.bkey = b ∧ InRange r b ∧
    ((¬ Descending r ∧ c.ovfl = .largest ∧ c.elems.getLast? = some e) ∨ (Descending r ∧ c.ovfl = .smallest ∧ c.elems.head? = some e)) ∧
    (¬ EndsAt r b ∨ ∀ x ∈ c.elems, InRange r x.bkey → x = e)

/-- The answer to a request without errors. -/
structure Answer (view : List Nat → View) (keys : List (List Nat)) (r : Range) (f : Option EFilter) (offset count : Nat)
    (unique : Bool) (R : Result) : Prop where
  elems : ∃ L : List Got, L.Pairwise (Earlier r) ∧ (∀ x, x ∈ L ↔ Wanted view keys r f unique x) ∧ R.elems = (L.drop offset).take count
  miss : R.miss = keys.zipIdx.filterMap fun p => (missOf r (view p.1)).map fun m => (p.2, m)
  trim : ∀ i b, (i, b) ∈ R.trim ↔
    (∃ key c, keys[i]? = some key ∧ view key = .coll c ∧ CutOff c r b) ∧
    (R.elems.length < count ∨ ∃ t, R.elems.getLast? = some t ∧ Sooner r b t.elem.bkey)
  trimOnce : (R.trim.map Prod.fst).Nodup
  trimSorted : R.trim.Pairwise fun x y => ¬ Sooner r y.2 x.2
  dup : R.dup = true ↔ ¬ (R.elems.map fun x => x.elem.bkey).Nodup

/-- The reply: the error of the first key that has one, or the answer. -/
def Reply (view : List Nat → View) (keys : List (List Nat)) (r : Range) (f : Option EFilter) (offset count : Nat)
    (unique : Bool) (rep : Rep) : Prop :=
  (∃ (i : Nat) (key : List Nat) (e : Err), keys[i]? = some key ∧ errOf r (view key) = some e ∧
    (∀ (j : Nat) (k : List Nat), j < i → keys[j]? = some k → errOf r (view k) = none) ∧ rep = .err e) ∨
  ((∀ k ∈ keys, errOf r (view k) = none) ∧ ∃ R, rep = .ok R ∧ Answer view keys r f offset count unique R)

/-- Requests as the protocol passes them on: different keys without zero bytes, at least one element asked for, and a sum of offset and
count that fits 32 bits (the protocol limits it to 2000, but computes it in 32 bits). -/
def Fair (keys : List (List Nat)) (r : Range) (f : Option EFilter) (offset count : Nat) : Prop :=
  keys.Nodup ∧ (∀ k ∈ keys, 0 ∉ k) ∧ RangeOk r ∧ FilterOk f ∧ 0 < count ∧ offset + count < 2 ^ 32

end Verif.Smget.Spec
