import Verif.Model.LogRec
/-! # What a command log record denotes

`meaning life op` is the engine call that redoes the logged operation `op`: the same key, value,
element, attributes, with the expiry time carried over to the restarted server by `life`. -/
namespace Verif.Log.Spec
open Verif.Log

/-- A bkey of the server: an 8 byte integer (length code 0) or 1 to 31 bytes. -/
def GoodBKey (b : BKey) : Prop :=
  (b.len = 0 ∧ b.val.length = 8) ∨ (1 ≤ b.len ∧ b.len ≤ 31 ∧ b.val.length = b.len)

/-- Absent bkey. -/
def NoBKey (b : BKey) : Prop := b.len = 255

/-- Field ranges of an item: keys up to KEY_MAX_LENGTH 16000, values up to the largest configurable
item size 128 MB, 32 and 64 bit fields. -/
structure GoodItem (it : Item) : Prop where
  ty : it.ittype ≤ 4
  key : it.key.length ≤ 16000
  value : it.value.length ≤ 134217728
  flags : it.flags < 4294967296
  exp : it.exptime < 4294967296
  cas : it.cas < 18446744073709551616
  ovfl : it.coll.ovflact < 256
  mfl : it.coll.mflags < 256
  mcntl : -2147483648 ≤ it.coll.mcnt
  mcntu : it.coll.mcnt < 2147483648
  maxb : GoodBKey it.coll.maxbkr ∨ NoBKey it.coll.maxbkr

/-- An element value: elements are at most 32 KB. -/
def GoodElem (v : Bytes) : Prop := v.length < 65536

/-- A filter as parsed from a command: 1 byte counts, the values as long as declared. -/
structure GoodFilter (f : Filter) : Prop where
  nb : f.nbitwval ≤ 31
  nc : f.ncompval ≤ 31
  cc : f.compvcnt ≤ 100
  off : f.offset < 256
  bop : f.bitwop < 256
  cop : f.compop < 256
  bw : f.bitwval.length = f.nbitwval
  cv : f.compval.length = f.compvcnt * f.ncompval

/-- A signed 32 bit value. -/
def GoodI32 (v : Int) : Prop := -2147483648 ≤ v ∧ v < 2147483648

/-- The records the server produces. -/
def Producible : Op → Prop
  | .link it => GoodItem it
  | .unlink it => GoodItem it
  | .flush p n => n < 0 ∨ (n = p.length ∧ p.length ≤ 65535)
  | .setattr it u => GoodItem it ∧ (u = 2 ∨ u = 3 ∨ (u = 4 ∧ it.ittype = 4))
  | .listIns it t e v _ => GoodItem it ∧ t < 4294967296 ∧ GoodI32 e ∧ GoodElem v
  | .listDel it t e d _ => GoodItem it ∧ t < 4294967296 ∧ GoodI32 e ∧ d < 4294967296
  | .setIns it v _ => GoodItem it ∧ GoodElem v
  | .setDel it v _ => GoodItem it ∧ GoodElem v
  | .mapIns it f v _ => GoodItem it ∧ f.length ≤ 250 ∧ GoodElem v
  | .mapDel it f _ => GoodItem it ∧ f.length ≤ 250
  | .btIns it b e v _ => GoodItem it ∧ GoodBKey b ∧ e.length ≤ 31 ∧ GoodElem v
  | .btDel it b _ => GoodItem it ∧ GoodBKey b
  | .btDelLgc it f t fl o r _ => GoodItem it ∧ GoodBKey f ∧ (GoodBKey t ∨ NoBKey t) ∧
      (∀ x, fl = some x → GoodFilter x) ∧ o < 4294967296 ∧ r < 4294967296
  | .opRange _ => True
  | .snapElem _ _ _ _ _ => False
  | .snapDone => True

/-- A bkey or its absence. -/
def optBKey (b : BKey) : Option BKey := if b.len = 255 then none else some b

/-- Attributes of the collection created by an element insert. -/
def attrOf (life : Nat → Nat) (it : Item) : Attr :=
  { flags := it.flags, exptime := life it.exptime, maxcount := it.coll.mcnt,
    ovflact := it.coll.ovflact, readable := it.coll.mflags / 2 % 2 = 1, trimmed := false }

/-- The call that redoes a logged operation. -/
def meaning (life : Nat → Nat) : Op → Call
  | .link it =>
    if life it.exptime = 1 then .expired
    else if it.ittype = 0 then .kvLink it.key it.flags (life it.exptime) it.value it.cas
    else .collLink it.ittype it.key
      { flags := it.flags, exptime := life it.exptime, maxcount := it.coll.mcnt,
        ovflact := it.coll.ovflact, readable := it.coll.mflags / 2 % 2 = 1,
        trimmed := it.coll.mflags / 8 % 2 = 1 }
      (if it.ittype = 4 then optBKey it.coll.maxbkr else none)
  | .unlink it => .unlink it.key
  | .flush p n => if n < 0 then .flushAll else if n = 0 then .flushNull else .flushPrefix p
  | .setattr it u =>
    if u = 2 then .setExptime it.key (life it.exptime)
    else .setColl it.key (life it.exptime) it.coll.mcnt it.coll.ovflact it.coll.mflags
      (if u = 4 then optBKey it.coll.maxbkr else none)
  | .listIns it t e v cr => .listIns it.key (if cr then some (attrOf life it) else none) t e v
  | .listDel it t e d dr => .listDel it.key t e d dr
  | .setIns it v cr => .setIns it.key (if cr then some (attrOf life it) else none) v
  | .setDel it v dr => .setDel it.key v dr
  | .mapIns it f v cr => .mapIns it.key (if cr then some (attrOf life it) else none) f v
  | .mapDel it f dr => .mapDel it.key f dr
  | .btIns it b e v cr => .btIns it.key (if cr then some (attrOf life it) else none) b e v
  | .btDel it b dr => .btDel it.key b dr
  | .btDelLgc it f t fl o r dr => .btDelLgc it.key f (optBKey t) fl o r dr
  | .opRange b => if b then .rangeBegin else .rangeEnd
  | .snapElem ty _ _ d _ => .snapElem ty [] [] d
  | .snapDone => .snapDone

/-- Reading back: whatever the unwritten structure and padding bytes (`rs`, `buf`) and whatever
follows in the read buffer (`slack`), a record written into exactly the room it declares is written
completely inside of it, its header declares its length, the length is a multiple of 8, and redoing
the bytes makes the denoted call. -/
def RoundTrips (c c' : Clock) (op : Op) : Prop :=
  ∀ (rs : Nat → Nat) (buf slack : Bytes), buf.length = 8 + (construct c rs op).bodyLen →
    ∃ bytes, write rs (construct c rs op) buf = some bytes ∧
      bytes.length = buf.length ∧
      fld bytes 4 4 = some (construct c rs op).bodyLen ∧
      bytes.length % 8 = 0 ∧
      redo c' (bytes ++ slack) = some (meaning (fun e => relExp c' (absExp c e)) op)

/-- A collection element as its snapshot record sees it: type 1 list, 2 set, 3 map, 4 b+tree; field or
bkey (with length code `nekey`), eflag and value. -/
structure Elem where
  ittype : Nat
  nekey : Nat
  ekey : Bytes
  eflag : Bytes
  value : Bytes

/-- The elements of the server. -/
structure GoodSnapElem (x : Elem) : Prop where
  value : x.value.length < 65536
  kind : ((x.ittype = 1 ∨ x.ittype = 2) ∧ x.ekey = [] ∧ x.eflag = []) ∨
    (x.ittype = 3 ∧ x.nekey = x.ekey.length ∧ x.nekey ≤ 250 ∧ x.eflag = []) ∨
    (x.ittype = 4 ∧ GoodBKey ⟨x.nekey, x.ekey⟩ ∧ x.eflag.length ≤ 31)

/-- The bytes of an element, in the order of its memory. -/
def Elem.bytes (x : Elem) : Bytes := x.ekey ++ x.eflag ++ x.value

/-- The operation that writes it. -/
def Elem.op (x : Elem) : Op := .snapElem x.ittype x.nekey x.eflag.length x.bytes x.value.length

/-- The call that restores it. -/
def Elem.call (x : Elem) : Call := .snapElem x.ittype x.ekey x.eflag x.value

/-- The expiry time a redo call carries; `none` if it links nothing. -/
def callExp : Call → Option Nat
  | .kvLink _ _ e _ _ => some e
  | .collLink _ _ a _ => some a.exptime
  | .setExptime _ e => some e
  | .setColl _ e _ _ _ _ => some e
  | _ => none

end Verif.Log.Spec
