import Verif.Model.BTreeOps
import Verif.Spec.BKey
/-!
# Specification of the b+tree commands: a list of elements sorted by bkey

Only the types of the calls and replies (`Op`, `Rep`, `Link`, `Attr`, `Ovfl`, `KType`, `Range`, `Elem`, `EUpdate`, `Cfg`) and the
reading and writing of decimal numbers (`safeStrtoull`, `showNat`, `addDelta`, specified in Spec/Util and C06) are shared with the
model.
-/
namespace Verif.BT.Spec
open Verif.BT

/-- A b+tree as the client sees it.  `maxcount = none`: the configured maximum applies; `kind`: what bkeys must be. -/
structure C where
  maxcount : Option Nat
  ovfl : Ovfl
  trimmed : Bool
  readable : Bool
  sticky : Bool
  kind : Option KType
  maxRange : Option BKey
  flags : Nat
  elems : List Elem

abbrev S := Option C

def start : S := none

/-- Largest number of elements. -/
def C.cap (mx : Nat) (c : C) : Nat := match c.maxcount with | some m => m | none => mx

/-- Maximum count from a client's argument: negative = whatever is configured, 0 = 4000, clipped to the configured maximum. -/
def wantCap (mx : Nat) (m : Int) : Option Nat :=
  if m < 0 then none else if m = 0 then some 4000 else some (min m.toNat mx)

/-- A freshly created collection. -/
def fresh (mx : Nat) (a : Attr) : C :=
  ⟨wantCap mx a.maxcount, (match a.ovfl with | some o => o | none => .smallest), false, a.readable, a.sticky, none, none, a.flags, []⟩

/-- Number or byte string. -/
def kindOf : BKey → KType
  | .num _ => .u64
  | .bin _ => .bin

/-- A key of the other kind. -/
def C.Alien (c : C) (k : BKey) : Prop := ∃ t, c.kind = some t ∧ t ≠ kindOf k

/-- Not greater. -/
def KLe (a b : BKey) : Prop := KLt a b ∨ a = b

/-! ## Ranges -/

/-- The keys a range denotes: a single one, or everything between two keys given in either order. -/
def InRange (r : Range) (k : BKey) : Prop :=
  match r.hi with
  | none => k = r.lo
  | some h => (KLe r.lo k ∧ KLe k h) ∨ (KLe h k ∧ KLe k r.lo)

/-- The range is given from the larger key to the smaller one. -/
def Descending (r : Range) : Prop := ∃ h, r.hi = some h ∧ KLt h r.lo

/-- The range is given from the smaller key to the larger one. -/
def Ascending (r : Range) : Prop := ∃ h, r.hi = some h ∧ KLt r.lo h

/-- The filter lets an eflag through. -/
def Passes (f : Option EFilter) (eflag : List Nat) : Prop :=
  match f with
  | none => True
  | some g => ∃ s : Filter, Holds g s ∧ s.Valid ∧ s.Keeps eflag

/-- At most `count` of them; 0 means all. -/
def upTo (count : Nat) (l : List Elem) : List Elem := if count = 0 then l else l.take count

open Classical in
/-- The elements in the range that pass the filter, in the order of the range. -/
noncomputable def matching (r : Range) (f : Option EFilter) (l : List Elem) : List Elem :=
  (if Descending r then l.reverse else l).filter fun e => decide (InRange r e.bkey ∧ Passes f e.eflag)

/-- The elements a command selects: of those in the range that pass the filter, in the order of the range, `offset` are passed over
and at most `count` taken. -/
noncomputable def select (r : Range) (f : Option EFilter) (offset count : Nat) (l : List Elem) : List Elem :=
  upTo count ((matching r f l).drop offset)

/-- The collection after a removal that may drop the emptied key. -/
def shrink (c : C) (rest : List Elem) (drop : Bool) : S :=
  if rest = [] ∧ drop = true then none else some { c with elems := rest }

/-- What remains after taking some elements out. -/
def without (l gone : List Elem) : List Elem := l.filter fun e => decide (e ∉ gone)

/-! ## The trimmed indicator -/

/-- The command was satisfied before the end of its range was reached. -/
def Satisfied (c : C) (r : Range) (f : Option EFilter) (offset count : Nat) : Prop :=
  count ≠ 0 ∧ offset + count ≤ (matching r f c.elems).length

/-- The range begins or ends below every element. -/
def Under (c : C) (k : BKey) : Prop := ∀ e ∈ c.elems, KLt k e.bkey

/-- The range begins or ends above every element. -/
def Over (c : C) (k : BKey) : Prop := ∀ e ∈ c.elems, KLt e.bkey k

/-- The smallest element is the end of the descending range and the only element in it, and the range does not begin there. -/
def LoneFirst (c : C) (r : Range) : Prop :=
  ∃ a l h, c.elems = a :: l ∧ r.hi = some h ∧ a.bkey = h ∧ KLt h r.lo ∧ ∀ x ∈ l, KLt r.lo x.bkey

/-- The largest element is the end of the ascending range and the only element in it, and the range does not begin there. -/
def LoneLast (c : C) (r : Range) : Prop :=
  ∃ a l h, c.elems = l ++ [a] ∧ r.hi = some h ∧ a.bkey = h ∧ KLt r.lo h ∧ ∀ x ∈ l, KLt x.bkey r.lo

/-- The answer tells that elements of the range may have been trimmed: elements were trimmed at one end, and the range reaches
beyond this end.  A command that walks towards this end tells it only if it was not satisfied before; it also tells it, wrongly, in
the cases `LoneFirst` and `LoneLast`. -/
def Hint (c : C) (r : Range) (f : Option EFilter) (offset count : Nat) : Prop :=
  c.trimmed = true ∧
  ((c.ovfl = .smallest ∧
      ((¬ Descending r ∧ Under c r.lo) ∨
       (Descending r ∧ ¬ Satisfied c r f offset count ∧ ((∃ h, r.hi = some h ∧ Under c h) ∨ LoneFirst c r)))) ∨
   (c.ovfl = .largest ∧
      ((¬ Ascending r ∧ Over c r.lo) ∨
       (Ascending r ∧ ¬ Satisfied c r f offset count ∧ ((∃ h, r.hi = some h ∧ Over c h) ∨ LoneLast c r)))))

/-! ## Inserting -/

/-- A byte string read as a number. -/
def val (b : List Nat) : Nat := b.foldl (fun n x => 256 * n + x) 0

/-- Length of a binary key, 0 for a number. -/
def size : BKey → Nat
  | .num _ => 0
  | .bin b => b.length

/-- The number a key stands for when byte strings are filled up with zeroes, or cut off, to `w` bytes. -/
def Value (w : Nat) : BKey → Nat
  | .num v => v
  | .bin b => val ((b ++ List.replicate w 0).take w)

/-- The distance of two keys exceeds the maximum range `mr`. -/
def Wide (mr hi lo : BKey) : Prop := Value (size mr) mr < Value (size mr) hi - Value (size mr) lo

open Classical in
/-- The sorted list with one more element. -/
noncomputable def place (e : Elem) (l : List Elem) : List Elem :=
  l.filter (fun x => decide (KLt x.bkey e.bkey)) ++ e :: l.filter fun x => decide (KLt e.bkey x.bkey)

/-- The new element is smaller than all others and too far from the largest. -/
def LowOver (c : C) (e : Elem) (mr : BKey) : Prop :=
  c.maxRange = some mr ∧ Under c e.bkey ∧ ∃ b, c.elems.getLast? = some b ∧ Wide mr b.bkey e.bkey

/-- The new element is larger than all others and too far from the smallest. -/
def HighOver (c : C) (e : Elem) (mr : BKey) : Prop :=
  c.maxRange = some mr ∧ Over c e.bkey ∧ ∃ a, c.elems.head? = some a ∧ Wide mr e.bkey a.bkey

/-- The overflow actions that make room at the lower end. -/
def TrimsLow (o : Ovfl) : Prop := o = .smallest ∨ o = .smallestSilent

/-- The overflow actions that make room at the upper end. -/
def TrimsHigh (o : Ovfl) : Prop := o = .largest ∨ o = .largestSilent

/-- A new element may be put into the collection as far as its key and the sticky memory are concerned. -/
def Admits (c : C) (e : Elem) (full : Bool) : Prop :=
  ¬ ((c.elems ≠ [] ∨ c.maxRange ≠ none) ∧ c.Alien e.bkey) ∧ (∀ x ∈ c.elems, x.bkey ≠ e.bkey) ∧ ¬ (c.sticky = true ∧ full = true)

/-- The key lies within the maximum range. -/
def Near (c : C) (e : Elem) : Prop := ∀ mr, ¬ LowOver c e mr ∧ ¬ HighOver c e mr

open Classical in
/-- Outcome and effect of inserting `e`.  The call needs at most eight new nodes. -/
inductive Insert (mx : Nat) (c : C) (e : Elem) (replace : Bool) (mem : Nat) (full : Bool) : Link → C → Prop where
  /-- The other elements, or the maximum range, are of the other kind. -/
  | alien : c.elems ≠ [] ∨ c.maxRange ≠ none → c.Alien e.bkey → Insert mx c e replace mem full (.refused .ebadbkey) c
  /-- Out of memory. -/
  | nomem : mem < 8 → Admits c e full → Insert mx c e replace mem full (.refused .enomem) c
  /-- No room in the sticky memory. -/
  | stickyFull : c.sticky = true → full = true → (∀ x ∈ c.elems, x.bkey ≠ e.bkey) →
      ¬ ((c.elems ≠ [] ∨ c.maxRange ≠ none) ∧ c.Alien e.bkey) → Insert mx c e replace mem full (.refused .enomem) c
  /-- The key exists. -/
  | dup (old : Elem) : old ∈ c.elems → old.bkey = e.bkey → replace = false → Insert mx c e replace mem full (.refused .elemEexists) c
  /-- No room for the larger element in the sticky memory. -/
  | replFull (old : Elem) : old ∈ c.elems → old.bkey = e.bkey → replace = true → c.sticky = true → full = true →
      old.eflag.length + old.value.length < e.eflag.length + e.value.length → Insert mx c e replace mem full (.refused .enomem) c
  /-- The element with this key is replaced. -/
  | repl (old : Elem) : old ∈ c.elems → old.bkey = e.bkey → replace = true →
      ¬ (c.sticky = true ∧ full = true ∧ old.eflag.length + old.value.length < e.eflag.length + e.value.length) →
      Insert mx c e replace mem full .replaced { c with elems := c.elems.map fun x => if x.bkey = e.bkey then e else x }
  /-- The first element. -/
  | first : Admits c e full → c.elems = [] →
      Insert mx c e replace mem full (.linked none) { c with elems := [e], kind := some (kindOf e.bkey) }
  /-- A further element. -/
  | new : Admits c e full → c.elems ≠ [] → Near c e → c.elems.length < c.cap mx →
      Insert mx c e replace mem full (.linked none) { c with elems := place e c.elems }
  /-- Too many elements. -/
  | overflow : Admits c e full → c.elems ≠ [] → Near c e → c.cap mx ≤ c.elems.length → c.ovfl = .error →
      Insert mx c e replace mem full (.refused .eoverflow) c
  /-- Too many elements, and the new one would be trimmed at once. -/
  | underTrimmed : Admits c e full → c.elems ≠ [] → Near c e → c.cap mx ≤ c.elems.length → TrimsLow c.ovfl → Under c e.bkey →
      Insert mx c e replace mem full (.refused .ebkeyoor) { c with trimmed := c.trimmed || decide (c.ovfl = .smallest) }
  | overTrimmed : Admits c e full → c.elems ≠ [] → Near c e → c.cap mx ≤ c.elems.length → TrimsHigh c.ovfl → Over c e.bkey →
      Insert mx c e replace mem full (.refused .ebkeyoor) { c with trimmed := c.trimmed || decide (c.ovfl = .largest) }
  /-- Too many elements: the smallest goes. -/
  | trimLow (a : Elem) (l : List Elem) : Admits c e full → c.elems ≠ [] → Near c e → c.cap mx ≤ c.elems.length → TrimsLow c.ovfl →
      ¬ Under c e.bkey → place e c.elems = a :: l →
      Insert mx c e replace mem full (.linked (some a))
        { c with elems := l, trimmed := c.trimmed || decide (c.ovfl = .smallest) }
  /-- Too many elements: the largest goes. -/
  | trimHigh (a : Elem) (l : List Elem) : Admits c e full → c.elems ≠ [] → Near c e → c.cap mx ≤ c.elems.length → TrimsHigh c.ovfl →
      ¬ Over c e.bkey → place e c.elems = l ++ [a] →
      Insert mx c e replace mem full (.linked (some a))
        { c with elems := l, trimmed := c.trimmed || decide (c.ovfl = .largest) }
  /-- The key is too far away, and the overflow action does not make room for it. -/
  | tooLow (mr : BKey) : Admits c e full → LowOver c e mr → ¬ TrimsHigh c.ovfl → Insert mx c e replace mem full (.refused .ebkeyoor) c
  | tooHigh (mr : BKey) : Admits c e full → HighOver c e mr → ¬ TrimsLow c.ovfl → Insert mx c e replace mem full (.refused .ebkeyoor) c
  /-- The elements too far from the new one go: those up to the key `to` one below `e - mr`, and in any case the smallest. -/
  | rangeLow (mr to : BKey) (a : Elem) : Admits c e full → HighOver c e mr → TrimsLow c.ovfl → c.elems.head? = some a →
      ValidKey to → SameKind to mr → size to = size mr → Value (size mr) to + Value (size mr) mr + 1 = Value (size mr) e.bkey →
      Insert mx c e replace mem full (.linked none)
        { c with elems := (place e c.elems).filter (fun x => decide (KLt to x.bkey ∧ x ≠ a)),
                 trimmed := c.trimmed && decide (c.ovfl ≠ .smallest) }
  | rangeHigh (mr from_ : BKey) (b : Elem) : Admits c e full → LowOver c e mr → TrimsHigh c.ovfl → c.elems.getLast? = some b →
      ValidKey from_ → SameKind from_ mr → size from_ = size mr →
      Value (size mr) from_ = Value (size mr) e.bkey + Value (size mr) mr + 1 →
      Insert mx c e replace mem full (.linked none)
        { c with elems := (place e c.elems).filter (fun x => decide (KLt x.bkey from_ ∧ x ≠ b)),
                 trimmed := c.trimmed && decide (c.ovfl ≠ .largest) }

/-! ## Updating -/

/-- The new eflag: given, or a bitwise operation on the bytes from `offset` on. -/
def newEflag (u : Option EUpdate) (f : List Nat) : List Nat :=
  match u with
  | none => f
  | some (.set v) => v
  | some (.bitw op o v) => f.take o ++ List.zipWith (Nat.bitwise (onBits op)) ((f.drop o).take v.length) v ++ f.drop (o + v.length)

/-- The bytes of the eflag that a bitwise operation would change do not exist. -/
def BadUpdate (u : Option EUpdate) (f : List Nat) : Prop := ∃ op o v, u = some (.bitw op o v) ∧ v ≠ [] ∧ f.length < o + v.length

/-- The element after an update. -/
def updated (u : Option EUpdate) (v : Option (List Nat)) (e : Elem) : Elem :=
  ⟨e.bkey, newEflag u e.eflag, match v with | some v => v | none => e.value⟩

/-- The list with the element of the same key replaced. -/
def put (e : Elem) (l : List Elem) : List Elem := l.map fun x => if x.bkey = e.bkey then e else x

def body (e : Elem) : Nat := e.eflag.length + e.value.length

/-! ## Attributes -/

/-- Attributes that are refused: a maximum below the present count, an overflow action of lists, making the collection unreadable,
a maximum range of the other kind or, if it changes, exceeded already. -/
def BadAttr (mx : Nat) (c : C) (m : Option Int) (o : Option Ovfl) (rd : Option Bool) (mr : Option (Option BKey)) : Prop :=
  (∃ x k, m = some x ∧ wantCap mx x = some k ∧ k < c.elems.length) ∨ o = some .other ∨ rd = some false ∨
  ∃ r, mr = some (some r) ∧ c.elems ≠ [] ∧
    (c.Alien r ∨ (c.maxRange ≠ some r ∧ ∃ a b, c.elems.head? = some a ∧ c.elems.getLast? = some b ∧ Wide r b.bkey a.bkey))

/-- The kind keys must have afterwards. -/
def newKind (c : C) (mr : Option (Option BKey)) : Option KType :=
  if c.elems = [] then
    match mr with
    | none => c.kind
    | some none => if c.maxRange = none then c.kind else none
    | some (some r) => some (kindOf r)
  else c.kind

/-- The collection with the given attributes replaced. -/
def setAttrs (mx : Nat) (c : C) (m : Option Int) (o : Option Ovfl) (rd : Option Bool) (mr : Option (Option BKey)) : C :=
  { c with
    maxcount := match m with | some x => wantCap mx x | none => c.maxcount
    ovfl := match o with | some x => x | none => c.ovfl
    trimmed := match o with | some x => c.trimmed && decide (c.ovfl = x) | none => c.trimmed
    readable := match rd with | some _ => true | none => c.readable
    maxRange := match mr with | some x => x | none => c.maxRange
    kind := newKind c mr }

/-! ## Positions -/

/-- The elements in ascending or descending order. -/
def ordered (c : C) (desc : Bool) : List Elem := if desc then c.elems.reverse else c.elems

/-- Elements number `a` to `b`, in this order. -/
def slice (l : List Elem) (a b : Nat) : List Elem := if a ≤ b then (l.drop a).take (b - a + 1) else ((l.drop b).take (a - b + 1)).reverse

/-! ## Calls -/

/-- What an insertion answers. -/
def insertRep (created want : Bool) (flags : Nat) : Link → Rep
  | .linked x => .inserted created false (if want then x.map fun y => (y, flags) else none)
  | .replaced => .inserted created true none
  | .refused r => r

/-- `Step mx σ op r σ'`: call `op` in state `σ` may answer `r` and leave `σ'`. -/
def Step (mx : Nat) (σ : S) (op : Op) (r : Rep) (σ' : S) : Prop :=
  match op with
  | .create a imem =>
    match σ with
    | some _ => r = .eexists ∧ σ' = σ
    | none => if imem = true then r = .ok ∧ σ' = some (fresh mx a) else r = .enomem ∧ σ' = none
  | .insert e replace a want imem mem full =>
    match σ, a with
    | none, none => r = .enoent ∧ σ' = none
    | none, some a =>
      if imem = false then r = .enomem ∧ σ' = none
      else ∃ o c', Insert mx (fresh mx a) e replace mem full o c' ∧ r = insertRep true want a.flags o ∧
        σ' = (match o with | .refused _ => none | _ => some c')
    | some c, _ => ∃ o c', Insert mx c e replace mem full o c' ∧ r = insertRep false want c.flags o ∧ σ' = some c'
  | op =>
    match σ with
    | none => r = .enoent ∧ σ' = none
    | some c =>
      match op with
      | .update key u v busy amem full =>
        (c.elems = [] ∧ r = .elemEnoent ∧ σ' = σ) ∨
        (c.elems ≠ [] ∧ c.Alien key ∧ r = .ebadbkey ∧ σ' = σ) ∨
        (c.elems ≠ [] ∧ ¬ c.Alien key ∧
          (((∀ x ∈ c.elems, x.bkey ≠ key) ∧ r = .elemEnoent ∧ σ' = σ) ∨
           ∃ e ∈ c.elems, e.bkey = key ∧
             ((BadUpdate u e.eflag ∧ r = .ebadeflag ∧ σ' = σ) ∨
              (¬ BadUpdate u e.eflag ∧ r = .enomem ∧ σ' = σ ∧ (busy = true ∨ body (updated u v e) ≠ body e) ∧
                (amem = false ∨ (c.sticky = true ∧ full = true ∧ body e < body (updated u v e)))) ∨
              (¬ BadUpdate u e.eflag ∧ r = .ok ∧ σ' = some { c with elems := put (updated u v e) c.elems }))))
      | .delete rg f count drop =>
        (c.elems = [] ∧ r = .elemEnoent ∧ σ' = σ) ∨
        (c.elems ≠ [] ∧ c.Alien rg.lo ∧ r = .ebadbkey ∧ σ' = σ) ∨
        (c.elems ≠ [] ∧ ¬ c.Alien rg.lo ∧
          ((select rg f 0 count c.elems = [] ∧ r = .elemEnoent ∧ σ' = σ) ∨
           (select rg f 0 count c.elems ≠ [] ∧
             r = .deleted (select rg f 0 count c.elems).length
               (decide (without c.elems (select rg f 0 count c.elems) = [] ∧ drop = true)) ∧
             σ' = shrink c (without c.elems (select rg f 0 count c.elems)) drop)))
      | .arith key incr create delta initial eflag busy amem mem full rest =>
        (((c.elems ≠ [] ∨ c.maxRange ≠ none) ∧ c.Alien key) ∧ r = .ebadbkey ∧ σ' = σ) ∨
        (¬ ((c.elems ≠ [] ∨ c.maxRange ≠ none) ∧ c.Alien key) ∧
          (((∀ x ∈ c.elems, x.bkey ≠ key) ∧
             (if create = false then r = .elemEnoent ∧ σ' = σ
              else (amem = false ∧ r = .enomem ∧ σ' = σ) ∨
                ∃ o c', Insert mx c ⟨key, eflag, Verif.Util.showNat initial ++ [13, 10]⟩ false mem full o c' ∧ σ' = some c' ∧
                  r = (match o with | .refused q => q | _ => .number initial))) ∨
           ∃ e ∈ c.elems, e.bkey = key ∧
             match Verif.Util.safeStrtoull (e.value ++ rest) with
             | some (some v) =>
               if e.value = [13, 10] then r = .einval ∧ σ' = σ
               else
                 (r = .number (Verif.Item.addDelta incr v delta) ∧
                   σ' = some { c with elems := put { e with value := Verif.Util.showNat (Verif.Item.addDelta incr v delta) ++ [13, 10] } c.elems }) ∨
                 (r = .enomem ∧ σ' = σ ∧ amem = false ∧
                   (busy = true ∨ (Verif.Util.showNat (Verif.Item.addDelta incr v delta)).length + 2 ≠ e.value.length))
             | _ => r = .einval ∧ σ' = σ))
      | .get rg f offset count del drop rmem =>
        if c.readable = false then r = .unreadable ∧ σ' = σ
        else
          (c.elems.length ≤ offset ∧ r = .elemEnoent ∧ σ' = σ) ∨
          (offset < c.elems.length ∧ c.Alien rg.lo ∧ r = .ebadbkey ∧ σ' = σ) ∨
          (offset < c.elems.length ∧ ¬ c.Alien rg.lo ∧
            (if rmem = false then r = .enomem ∧ σ' = σ
             else
              ∃ hint : Bool, (hint = true ↔ Hint c rg f offset count) ∧
                ((select rg f offset count c.elems = [] ∧ r = (if hint then .ebkeyoor else .elemEnoent) ∧ σ' = σ) ∨
                 (select rg f offset count c.elems ≠ [] ∧
                   (if del = false then r = .elems c.flags (select rg f offset count c.elems) false hint ∧ σ' = σ
                    else
                     r = .elems c.flags (select rg f offset count c.elems)
                       (decide (without c.elems (select rg f offset count c.elems) = [] ∧ drop = true)) false ∧
                     σ' = shrink c (without c.elems (select rg f offset count c.elems)) drop)))))
      | .count rg f =>
        σ' = σ ∧
        if c.readable = false then r = .unreadable
        else (c.Alien rg.lo ∧ r = .ebadbkey) ∨ (¬ c.Alien rg.lo ∧ r = .count (matching rg f c.elems).length)
      | .position key desc =>
        σ' = σ ∧
        if c.readable = false then r = .unreadable
        else
          (c.elems ≠ [] ∧ c.Alien key ∧ r = .ebadbkey) ∨
          ((c.elems ≠ [] → ¬ c.Alien key) ∧
            (((∀ x ∈ c.elems, x.bkey ≠ key) ∧ r = .elemEnoent) ∨
             ∃ (b : Nat) (e : Elem), (ordered c desc)[b]? = some e ∧ e.bkey = key ∧ r = .position b))
      | .around key desc count rmem =>
        σ' = σ ∧
        if c.readable = false then r = .unreadable
        else if c.elems = [] then r = .elemEnoent
        else
          (c.Alien key ∧ r = .ebadbkey) ∨
          (¬ c.Alien key ∧
            if rmem = false then r = .enomem
            else
              ((∀ x ∈ c.elems, x.bkey ≠ key) ∧ r = .elemEnoent) ∨
              ∃ (b : Nat) (e : Elem), (ordered c desc)[b]? = some e ∧ e.bkey = key ∧
                r = .around b c.flags (slice (ordered c desc) (b - count) (b + count)) (min b count))
      | .byPosition desc lo hi rmem =>
        σ' = σ ∧
        if c.readable = false then r = .unreadable
        else if c.elems.length ≤ lo ∧ c.elems.length ≤ hi then r = .elemEnoent
        else if rmem = false then r = .enomem
        else r = .elems c.flags (slice (ordered c desc) (min lo (c.elems.length - 1)) (min hi (c.elems.length - 1))) false false
      | .setattr m o rd mr =>
        (BadAttr mx c m o rd mr ∧ r = .ebadvalue ∧ σ' = σ) ∨
        (¬ BadAttr mx c m o rd mr ∧ r = .ok ∧ σ' = some (setAttrs mx c m o rd mr))
      | .getattr =>
        σ' = σ ∧ r = .attrs c.elems.length (c.cap mx) c.ovfl c.readable c.trimmed c.maxRange
          (match c.elems.head?, c.elems.getLast? with
           | some a, some b => some (a.bkey, b.bkey)
           | _, _ => none)
      | .remove => r = .ok ∧ σ' = none
      | _ => False

/-! ## Legal calls -/

/-- Ranges the protocol accepts: valid keys, both of the same kind. -/
def RangeOk (r : Range) : Prop := ValidKey r.lo ∧ ∀ h, r.hi = some h → ValidKey h ∧ SameKind r.lo h

/-- Filters the protocol accepts. -/
def FilterOk (f : Option EFilter) : Prop := ∀ g, f = some g → ∃ s : Filter, Holds g s ∧ s.Valid

/-- Values end with `\r\n`. -/
def ValueOk (v : List Nat) : Prop := ∃ d, v = d ++ [13, 10]

/-- Overflow actions of b+trees. -/
def AttrOk (a : Attr) : Prop := a.ovfl ≠ some .other

/-- Calls the protocol layer may issue: keys, ranges, filters and values it accepts; the memory behind a value that is read as a
number holds something that ends the number (see C06). -/
def Legal (σ : S) (op : Op) : Prop :=
  match op with
  | .create a _ => AttrOk a
  | .insert e _ a _ _ _ _ => ValidKey e.bkey ∧ ValueOk e.value ∧ ∀ x, a = some x → AttrOk x
  | .update key _ v _ _ _ => ValidKey key ∧ ∀ x, v = some x → ValueOk x
  | .delete r f _ _ => RangeOk r ∧ FilterOk f
  | .arith key _ _ _ _ _ _ _ _ _ rest =>
    ValidKey key ∧ ∀ c e, σ = some c → e ∈ c.elems → e.bkey = key → Verif.Util.safeStrtoull (e.value ++ rest) ≠ none
  | .get r f _ _ _ _ _ => RangeOk r ∧ FilterOk f
  | .count r f => RangeOk r ∧ FilterOk f
  | .position key _ => ValidKey key
  | .around key _ _ _ => ValidKey key
  | .setattr _ _ _ mr => ∀ r, mr = some (some r) → ValidKey r
  | _ => True

/-! ## Notions used in the statements of the properties -/

/-- Elements in strictly increasing order, keys valid and of one kind. -/
def Ordered (c : C) : Prop :=
  c.elems.Pairwise (fun a b => KLt a.bkey b.bkey) ∧ ∀ x ∈ c.elems, ValidKey x.bkey ∧ c.kind = some (kindOf x.bkey)

/-- Never more elements than the maximum, which is at most the configured one. -/
def Bounded (mx : Nat) (σ : S) : Prop := ∀ c, σ = some c → c.elems.length ≤ c.cap mx ∧ c.cap mx ≤ mx ∧ 0 < c.cap mx

/-- Keys are as long as the maximum range, and no two are farther apart. -/
def Spanned (c : C) : Prop :=
  ∀ mr, c.maxRange = some mr → (∀ x ∈ c.elems, size x.bkey = size mr) ∧
    ∀ x ∈ c.elems, ∀ y ∈ c.elems, Value (size mr) y.bkey ≤ Value (size mr) x.bkey + Value (size mr) mr

/-- Keys are as long as the maximum range while there is one. -/
def Uniform (σ : S) (op : Op) : Prop :=
  match op with
  | .insert e _ _ _ _ _ _ => ∀ c mr, σ = some c → c.maxRange = some mr → size e.bkey = size mr
  | .arith key _ _ _ _ _ _ _ _ _ _ => ∀ c mr, σ = some c → c.maxRange = some mr → size key = size mr
  | .setattr _ _ _ mr => ∀ c r, σ = some c → mr = some (some r) → ∀ x ∈ c.elems, size x.bkey = size r
  | _ => True

/-- Every state is as wide as allowed. -/
def SpannedS (σ : S) : Prop := ∀ c, σ = some c → Spanned c

/-- The order in which a range is walked. -/
def Sooner (r : Range) (a b : Elem) : Prop := (¬ Descending r ∧ KLt a.bkey b.bkey) ∨ (Descending r ∧ KLt b.bkey a.bkey)

end Verif.BT.Spec
