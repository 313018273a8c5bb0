import Verif.Model.List
/-!
# Specification of the list commands: operations on a plain sequence

Only the types of the calls and replies (`Op`, `Rep`, `Attr`) are shared with the model.
-/
namespace Verif.Lst.Spec
open Verif.Lst

abbrev Val := List Nat

/-- A list as the client sees it. `maxcount = none`: the configured maximum applies. -/
structure L where
  maxcount : Option Nat
  ovfl : Nat
  readable : Bool
  sticky : Bool
  flags : Nat
  elems : List Val

/-- The list under the observed key, and the elements allocated but not yet inserted by clients. -/
structure S where
  list : Option L
  pend : Nat → Option Val

def start : S := ⟨none, fun _ => none⟩

/-- Largest number of elements. -/
def L.cap (mx : Nat) (l : L) : Nat := match l.maxcount with | some m => m | none => mx

/-- Maximum count from a client's argument: negative = whatever is configured, 0 = 4000, clipped to the
configured maximum. -/
def wantCap (mx : Nat) (m : Int) : Option Nat :=
  if m < 0 then none else if m = 0 then some 4000 else some (min m.toNat mx)

/-- A freshly created list. -/
def fresh (mx : Nat) (a : Attr) : L :=
  ⟨wantCap mx a.maxcount, if a.ovflaction = 0 then ovflTailTrim else a.ovflaction, a.readable, a.sticky, a.flags, []⟩

/-- Whether `index` is a place for a new element in a list of `n` elements that may hold `cap`:
`0..n` from the head, `-1..-(n+1)` from the tail. -/
def InsertPlace (n cap : Nat) (index : Int) : Prop :=
  (0 ≤ index ∧ index ≤ n ∧ index < cap) ∨ (index < 0 ∧ -index ≤ n + 1 ∧ -index ≤ cap)

/-- Position from the head that `index` denotes. -/
def place (n : Nat) (index : Int) : Nat := if 0 ≤ index then index.toNat else (index + n + 1).toNat

/-- Insertion into a list with room, resp. a full one that drops one element: an insertion at one end
drops the element at the other end, an insertion elsewhere drops what the overflow action says. -/
def inserted (mx : Nat) (l : L) (index : Int) (v : Val) : List Val :=
  let l1 := l.elems.insertIdx (place l.elems.length index) v
  if l.elems.length < l.cap mx then l1
  else if index = 0 then l1.dropLast
  else if index = -1 then l1.tail
  else if l.ovfl = ovflHeadTrim then l1.tail
  else l1.dropLast

/-- Answer and effect of an insertion into list `l`. -/
def Insert (mx : Nat) (l : L) (index : Int) (v : Val) (full : Bool) (r : Option Rep) (l' : L) : Prop :=
  (¬ InsertPlace l.elems.length (l.cap mx) index ∧ r = some .eindexoor ∧ l' = l) ∨
  (InsertPlace l.elems.length (l.cap mx) index ∧ (l.sticky = true ∧ full = true) ∧ r = some .enomem ∧ l' = l) ∨
  (InsertPlace l.elems.length (l.cap mx) index ∧ ¬ (l.sticky = true ∧ full = true) ∧
    (l.ovfl = ovflError ∧ l.cap mx ≤ l.elems.length) ∧ r = some .eoverflow ∧ l' = l) ∨
  (InsertPlace l.elems.length (l.cap mx) index ∧ ¬ (l.sticky = true ∧ full = true) ∧
    ¬ (l.ovfl = ovflError ∧ l.cap mx ≤ l.elems.length) ∧ r = none ∧ l' = { l with elems := inserted mx l index v })

/-- A client's index as a position: negative ones count from the tail. -/
def norm (n : Nat) (i : Int) : Int := if i < 0 then i + n else i

/-- The positions denoted by a range on `n` elements: nothing if both ends lie before the head or both
behind the tail, else the ends moved into the list. -/
def range (n : Nat) (f t : Int) : Option (Nat × Nat) :=
  let a := norm n f
  let b := norm n t
  if n = 0 ∨ (a < 0 ∧ b < 0) ∨ (n ≤ a ∧ n ≤ b) then none
  else some (min a.toNat (n - 1), min b.toNat (n - 1))

/-- The elements from position `a` to position `b`, in that direction. -/
def slice (l : List Val) (a b : Nat) : List Val :=
  if a ≤ b then (l.drop a).take (b + 1 - a) else ((l.drop b).take (a + 1 - b)).reverse

/-- The elements outside the positions `a..b` (in either order). -/
def without (l : List Val) (a b : Nat) : List Val := l.take (min a b) ++ l.drop (max a b + 1)

/-- The list after a removal that may drop the emptied key. -/
def shrink (l : L) (rest : List Val) (drop : Bool) : Option L :=
  if rest = [] ∧ drop = true then none else some { l with elems := rest }

/-- Attributes that are refused: a maximum below the present count, an overflow action lists do not have,
making the list unreadable. -/
def BadAttr (mx : Nat) (l : L) (m : Option Int) (o : Option Nat) (rd : Option Bool) : Prop :=
  (∃ x k, m = some x ∧ wantCap mx x = some k ∧ k < l.elems.length) ∨
  (∃ x, o = some x ∧ x ≠ ovflError ∧ x ≠ ovflHeadTrim ∧ x ≠ ovflTailTrim) ∨ rd = some false

/-- The list with the given attributes replaced. -/
def setAttrs (mx : Nat) (l : L) (m : Option Int) (o : Option Nat) (rd : Option Bool) : L :=
  { l with
    maxcount := match m with | some x => wantCap mx x | none => l.maxcount
    ovfl := match o with | some x => x | none => l.ovfl
    readable := match rd with | some _ => true | none => l.readable }

/-- `Step mx σ op r val σ'`: with `mx` the configured maximum, call `op` in state `σ` may answer `r` and
leave `σ'`; `val` is the value a client reads through an element handle in the reply. -/
def Step (mx : Nat) (σ : S) (op : Op) (r : Rep) (val : Nat → Option Val) (σ' : S) : Prop :=
  match op with
  | .create a mem =>
    match σ.list with
    | some _ => r = .eexists ∧ σ' = σ
    | none => if mem = true then r = .ok ∧ σ' = { σ with list := some (fresh mx a) } else r = .enomem ∧ σ' = σ
  | .alloc v => ∃ i, σ.pend i = none ∧ r = .allocated i ∧ σ' = { σ with pend := upd σ.pend i (some v) }
  | .free i => r = .ok ∧ σ' = { σ with pend := upd σ.pend i none }
  | .insert index i a mem full =>
    match σ.list, a with
    | none, none => r = .enoent ∧ σ' = σ
    | none, some a =>
      if mem = false then r = .enomem ∧ σ' = σ
      else ∃ v l' r', σ.pend i = some v ∧ Insert mx (fresh mx a) index v full r' l' ∧
        (match r' with
         | some e => r = e ∧ σ' = σ
         | none => r = .inserted true ∧ σ' = { list := some l', pend := upd σ.pend i none })
    | some l, _ => ∃ v l' r', σ.pend i = some v ∧ Insert mx l index v full r' l' ∧
        (match r' with
         | some e => r = e ∧ σ' = σ
         | none => r = .inserted false ∧ σ' = { list := some l', pend := upd σ.pend i none })
  | .delete f t drop =>
    match σ.list with
    | none => r = .enoent ∧ σ' = σ
    | some l =>
      match range l.elems.length f t with
      | none => r = .elemEnoent ∧ σ' = σ
      | some (a, b) =>
        r = .deleted (max a b + 1 - min a b) (without l.elems a b = [] ∧ drop = true) ∧
        σ' = { σ with list := shrink l (without l.elems a b) drop }
  | .get f t del drop mem =>
    match σ.list with
    | none => r = .enoent ∧ σ' = σ
    | some l =>
      if l.readable = false then r = .unreadable ∧ σ' = σ
      else
        match range l.elems.length f t with
        | none => r = .elemEnoent ∧ σ' = σ
        | some (a, b) =>
          if mem = false then r = .enomem ∧ σ' = σ
          else
            ∃ ids, ids.map val = (slice l.elems a b).map some ∧
              if del = true then
                r = .elems l.flags ids (without l.elems a b = [] ∧ drop = true) ∧
                σ' = { σ with list := shrink l (without l.elems a b) drop }
              else r = .elems l.flags ids false ∧ σ' = σ
  | .release _ => r = .ok ∧ σ' = σ
  | .setattr m o rd =>
    match σ.list with
    | none => r = .enoent ∧ σ' = σ
    | some l =>
      (BadAttr mx l m o rd ∧ r = .ebadvalue ∧ σ' = σ) ∨
      (¬ BadAttr mx l m o rd ∧ r = .ok ∧ σ' = { σ with list := some (setAttrs mx l m o rd) })
  | .getattr =>
    match σ.list with
    | none => r = .enoent ∧ σ' = σ
    | some l => r = .attrs l.elems.length (l.cap mx) l.ovfl l.readable ∧ σ' = σ
  | .remove =>
    match σ.list with
    | none => r = .enoent ∧ σ' = σ
    | some _ => r = .ok ∧ σ' = { σ with list := none }

/-- References clients hold on elements after a call: a get hands out one per element returned. -/
def heldStep (h : Nat → Nat) (op : Op) (r : Rep) : Nat → Nat :=
  match op, r with
  | .release i, _ => upd h i (h i - 1)
  | .get .., .elems _ ids _ => fun i => h i + ids.count i
  | _, _ => h

/-- Calls the protocol layer may issue: it frees or inserts elements it allocated, releases elements it
holds; indexes are 32-bit numbers other than the smallest one. -/
def Legal (σ : S) (h : Nat → Nat) (op : Op) : Prop :=
  (∀ i, h i < 65535) ∧
  match op with
  | .free i => (σ.pend i).isSome
  | .insert index i _ _ _ => (σ.pend i).isSome ∧ -(2 ^ 31) < index
  | .release i => 0 < h i
  | .get _ _ del drop _ => drop = true → del = true
  | _ => True

end Verif.Lst.Spec
