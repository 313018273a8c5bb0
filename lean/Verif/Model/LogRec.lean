/-! # Command log records: construction, byte layout, reading back (cmdlogrec.c, cmdlogrec.h)

A byte is a `Nat`; C memory reached through a pointer is a list of bytes.  `none` is undefined
behaviour: a copy reading or writing outside of the memory it was given. -/
namespace Verif.Log

abbrev Bytes := List Nat

/-- Little endian store of an unsigned integer in a field of `n` bytes (the assignment to a `uint8_t`,
`uint16_t`, `uint32_t` or `uint64_t` field drops the upper bits, as in C); cmdlogrec.h 99-347. -/
def le : Nat → Nat → Bytes
  | 0, _ => []
  | n + 1, v => (v % 256) :: le n (v / 256)

/-- Little endian load of an unsigned field (cmdlogrec.h 99-347). -/
def unle : Bytes → Nat
  | [] => 0
  | b :: bs => b + 256 * unle bs

/-- Two's complement image of an `int32_t` field (`mcnt`, `eindex`, `maxcount`; cmdlogrec.h). -/
def i32 (v : Int) : Nat := (v % (4294967296 : Int)).toNat

/-- Reading an `int32_t` field. -/
def toI32 (n : Nat) : Int := if n < 2147483648 then (n : Int) else (n : Int) - 4294967296

/-- `memcpy(buf + off, src, n)` where `src` has the bytes `d` (cmdlogrec.c, all `*_write`). -/
def put (b : Bytes) (off : Nat) (d : Bytes) : Option Bytes :=
  if off + d.length ≤ b.length then some (b.take off ++ d ++ b.drop (off + d.length)) else none

/-- `n` bytes of memory at offset `off`. -/
def get (b : Bytes) (off n : Nat) : Option Bytes :=
  if off + n ≤ b.length then some ((b.drop off).take n) else none

/-- An unsigned field of `n` bytes at offset `off`. -/
def fld (b : Bytes) (off n : Nat) : Option Nat := (get b off n).map unle

/-- BTREE_REAL_NBKEY, cmdlogrec.c 46. -/
def realNbkey (n : Nat) : Nat := if n = 0 then 8 else n

/-- BKEY_NULL, types.h 294. -/
def bkeyNull : Nat := 255

/-- GET_8_ALIGN_SIZE, cmdlogrec.c 42-43. -/
def align8 (n : Nat) : Nat := if n % 8 = 0 then n else n + (8 - n % 8)

/-- The two clocks the conversions read: `svcore->get_current_time()` and `time(NULL)`. -/
structure Clock where
  cur : Nat
  wall : Nat
deriving DecidableEq, Repr

/-- CONVERT_ABS_EXPTIME, cmdlogrec.c 54-67 (the result is a 32 bit `rel_time_t`). -/
def absExp (c : Clock) (e : Nat) : Nat :=
  if e = 0 ∨ e = 4294967295 then e
  else if e > c.cur then (c.wall + (e - c.cur)) % 4294967296
  else c.wall % 4294967296

/-- CONVERT_REL_EXPTIME, cmdlogrec.c 70-83 (`abstime` is the 32 bit truncation of `time(NULL)`). -/
def relExp (c : Clock) (e : Nat) : Nat :=
  if e = 0 ∨ e = 4294967295 then e
  else if e > c.wall % 4294967296 then (c.cur + (e - c.wall % 4294967296)) % 4294967296
  else 1

/-- `bkey_t` (types.h 303-316): `len` 0 is an 8 byte integer, `len` 255 is BKEY_NULL. -/
structure BKey where
  len : Nat
  val : Bytes
deriving DecidableEq, Repr

/-- The meta fields of a collection that are logged: coll_meta_info and `maxbkeyrange` of
btree_meta_info, item_base.h 306-327. -/
structure Coll where
  ovflact : Nat
  mflags : Nat
  mcnt : Int
  maxbkr : BKey
deriving DecidableEq, Repr

/-- `hash_item` as the log code sees it (item_base.h 148-164): type, flags, exptime, cas, the key
bytes and the value bytes, which follow the key in memory (`item_get_key`, `item_get_data`), and the
collection meta. -/
structure Item where
  ittype : Nat
  flags : Nat
  exptime : Nat
  cas : Nat
  key : Bytes
  value : Bytes
  coll : Coll
deriving DecidableEq, Repr

/-- `eflag_filter` (types.h 337-347). -/
structure Filter where
  bitwval : Bytes
  compval : Bytes
  nbitwval : Nat
  ncompval : Nat
  compvcnt : Nat
  offset : Nat
  bitwop : Nat
  compop : Nat
deriving DecidableEq, Repr

/-- The calls of the `lrec_construct_*` functions (cmdlogrec.h 400-428) with their arguments; an
element argument is given by its value, field, bkey and eflag bytes. -/
inductive Op where
  | link (it : Item)
  | unlink (it : Item)
  | flush (pfx : Bytes) (nprefix : Int)
  | setattr (it : Item) (updtype : Nat)
  | listIns (it : Item) (totcnt : Nat) (eindex : Int) (value : Bytes) (create : Bool)
  | listDel (it : Item) (totcnt : Nat) (eindex : Int) (delcnt : Nat) (drop : Bool)
  | setIns (it : Item) (value : Bytes) (create : Bool)
  | setDel (it : Item) (value : Bytes) (drop : Bool)
  | mapIns (it : Item) (field value : Bytes) (create : Bool)
  | mapDel (it : Item) (field : Bytes) (drop : Bool)
  | btIns (it : Item) (bkey : BKey) (eflag value : Bytes) (create : Bool)
  | btDel (it : Item) (bkey : BKey) (drop : Bool)
  | btDelLgc (it : Item) (fromB toB : BKey) (filter : Option Filter) (offset reqcount : Nat)
      (drop : Bool)
  | opRange (begin_ : Bool)
  | snapElem (ittype : Nat) (nekey neflag : Nat) (data : Bytes) (nbytes : Nat)
  | snapDone
deriving DecidableEq, Repr

/-- A constructed log record: the header fields, the image of the body structure up to its `data`
member, and the memory copied behind it by the `*_write` function, each piece as (source, length). -/
structure Rec where
  logtype : Nat
  updtype : Nat
  bodyLen : Nat
  body : Bytes
  pieces : List (Bytes × Nat)
deriving DecidableEq, Repr

/-- `get_it_link_updtype`, cmdlogrec.c 188-201. -/
def linkUpdtype (ittype : Nat) : Nat :=
  if ittype = 1 then 6 else if ittype = 2 then 10 else if ittype = 3 then 14
  else if ittype = 4 then 18 else 0

/-- `do_construct_lrec_attr`, cmdlogrec.c 263-271, and the layout of lrec_attr_info,
cmdlogrec.h 210-217.  `rs` supplies the unwritten bytes of structures. -/
def attrImage (c : Clock) (rs : Nat → Nat) (it : Item) : Bytes :=
  le 4 it.flags ++ le 4 (absExp c it.exptime) ++ le 4 (i32 it.coll.mcnt) ++ [rs 100, rs 101] ++
    le 1 it.coll.ovflact ++ le 1 it.coll.mflags

/-- The attribute copy at the end of an element insert record that creates its item
(e.g. cmdlogrec.c 575-578): the source is the 16 byte lrec_attr_info. -/
def attrPiece (c : Clock) (rs : Nat → Nat) (it : Item) (create : Bool) : List (Bytes × Nat) :=
  if create then [(attrImage c rs it, 16)] else []

/-- Length added for the attribute (e.g. cmdlogrec.c 1633-1635). -/
def attrLen (create : Bool) : Nat := if create then 16 else 0

/-- `bool` stored in a `uint8_t`. -/
def b8 (b : Bool) : Nat := if b then 1 else 0

/-- `lrec_construct_link_item`, cmdlogrec.c 1455-1494, with the copies of `lrec_it_link_write`,
278-298.  The reserved bytes and, for the unions, unset bytes come from `rs`. -/
def conLink (c : Clock) (rs : Nat → Nat) (it : Item) : Rec :=
  let common := le 1 it.ittype ++ [rs 9] ++ le 2 it.key.length ++ le 4 it.value.length ++
    le 4 it.flags ++ le 4 (absExp c it.exptime)
  let maxlen := if it.ittype = 4 then it.coll.maxbkr.len else bkeyNull
  let ptr := if it.ittype ≠ 0 then
      le 1 it.coll.ovflact ++ le 1 it.coll.mflags ++ le 1 maxlen ++ [rs 27] ++ le 4 (i32 it.coll.mcnt)
    else le 8 it.cas
  let nadd := if it.ittype ≠ 0 ∧ maxlen ≠ bkeyNull then realNbkey maxlen else 0
  let mx : List (Bytes × Nat) :=
    if it.ittype = 4 ∧ maxlen ≠ bkeyNull then [(it.coll.maxbkr.val, realNbkey maxlen)] else []
  { logtype := 0, updtype := linkUpdtype it.ittype,
    bodyLen := align8 (24 + nadd + it.key.length + it.value.length),
    body := common ++ ptr,
    pieces := mx ++ [(it.key ++ it.value, it.key.length + it.value.length)] }

/-- `lrec_construct_unlink_item`, cmdlogrec.c 1496-1507, and `lrec_it_unlink_write`, 382-390. -/
def conUnlink (it : Item) : Rec :=
  { logtype := 1, updtype := 1, bodyLen := align8 (2 + it.key.length),
    body := le 2 it.key.length,
    pieces := [(it.key ++ it.value, it.key.length)] }

/-- `lrec_construct_flush_item`, cmdlogrec.c 1509-1526, and `lrec_it_flush_write`, 516-527. -/
def conFlush (pfx : Bytes) (nprefix : Int) : Rec :=
  let n8 := if nprefix < 0 then 255 else nprefix.toNat % 256
  let real := if nprefix < 0 then 0 else nprefix.toNat
  { logtype := 3, updtype := 5, bodyLen := align8 (1 + real),
    body := le 1 n8,
    pieces := if n8 > 0 ∧ n8 < 255 then [(pfx, n8)] else [] }

/-- `lrec_construct_setattr`, cmdlogrec.c 1528-1566, and `lrec_it_setattr_write`, 421-436.
UPD_SETATTR_EXPTIME = 2, _INFO = 3, _INFO_BKEY = 4; unset fields come from `rs`. -/
def conSetattr (c : Clock) (rs : Nat → Nat) (it : Item) (upd : Nat) : Rec :=
  let maxlen := if upd = 4 then it.coll.maxbkr.len else bkeyNull
  let info := if upd = 2 then [rs 16, rs 17] else le 1 it.coll.ovflact ++ le 1 it.coll.mflags
  let mcnt := if upd = 2 then [rs 20, rs 21, rs 22, rs 23] else le 4 (i32 it.coll.mcnt)
  let nadd := if maxlen ≠ bkeyNull then realNbkey maxlen else 0
  let mx : List (Bytes × Nat) :=
    if maxlen ≠ bkeyNull then [(it.coll.maxbkr.val, realNbkey maxlen)] else []
  { logtype := 2, updtype := upd, bodyLen := align8 (16 + nadd + it.key.length),
    body := le 2 it.key.length ++ [rs 10, rs 11] ++ le 4 (absExp c it.exptime) ++ info ++
      le 1 maxlen ++ [rs 19] ++ mcnt,
    pieces := mx ++ [(it.key ++ it.value, it.key.length)] }

/-- `lrec_construct_list_elem_insert`, cmdlogrec.c 1614-1637, and `lrec_list_elem_insert_write`,
563-579. -/
def conListIns (c : Clock) (rs : Nat → Nat) (it : Item) (totcnt : Nat) (eindex : Int) (value : Bytes)
    (create : Bool) : Rec :=
  { logtype := 4, updtype := 7,
    bodyLen := align8 (16 + it.key.length + value.length) + attrLen create,
    body := le 2 it.key.length ++ le 1 (b8 create) ++ [rs 11] ++ le 4 value.length ++ le 4 totcnt ++
      le 4 (i32 eindex),
    pieces := [(it.key ++ it.value, it.key.length), (value, value.length)] ++
      attrPiece c rs it create }

/-- `lrec_construct_list_elem_delete`, cmdlogrec.c 1639-1655, and its write, 651-659. -/
def conListDel (rs : Nat → Nat) (it : Item) (totcnt : Nat) (eindex : Int) (delcnt : Nat)
    (drop : Bool) : Rec :=
  { logtype := 5, updtype := 8, bodyLen := align8 (16 + it.key.length),
    body := le 2 it.key.length ++ le 1 (b8 drop) ++ [rs 11] ++ le 4 totcnt ++ le 4 (i32 eindex) ++
      le 4 delcnt,
    pieces := [(it.key ++ it.value, it.key.length)] }

/-- `lrec_construct_set_elem_insert`, cmdlogrec.c 1697-1717, and its write, 696-712. -/
def conSetIns (c : Clock) (rs : Nat → Nat) (it : Item) (value : Bytes) (create : Bool) : Rec :=
  { logtype := 6, updtype := 11,
    bodyLen := align8 (8 + it.key.length + value.length) + attrLen create,
    body := le 2 it.key.length ++ le 1 (b8 create) ++ [rs 11] ++ le 4 value.length,
    pieces := [(it.key ++ it.value, it.key.length), (value, value.length)] ++
      attrPiece c rs it create }

/-- `lrec_construct_set_elem_delete`, cmdlogrec.c 1719-1734, and its write, 782-792. -/
def conSetDel (rs : Nat → Nat) (it : Item) (value : Bytes) (drop : Bool) : Rec :=
  { logtype := 7, updtype := 12, bodyLen := align8 (8 + it.key.length + value.length),
    body := le 2 it.key.length ++ le 1 (b8 drop) ++ [rs 11] ++ le 4 value.length,
    pieces := [(it.key ++ it.value, it.key.length), (value, value.length)] }

/-- `lrec_construct_map_elem_insert`, cmdlogrec.c 1657-1678, and its write, 832-848: field and value
are contiguous in the element. -/
def conMapIns (c : Clock) (rs : Nat → Nat) (it : Item) (field value : Bytes) (create : Bool) : Rec :=
  { logtype := 8, updtype := 15,
    bodyLen := align8 (8 + it.key.length + field.length + value.length) + attrLen create,
    body := le 2 it.key.length ++ le 1 (b8 create) ++ le 1 field.length ++ le 4 value.length,
    pieces := [(it.key ++ it.value, it.key.length), (field ++ value, field.length + value.length)] ++
      attrPiece c rs it create }

/-- `lrec_construct_map_elem_delete`, cmdlogrec.c 1680-1695, and its write, 921-931. -/
def conMapDel (it : Item) (field : Bytes) (drop : Bool) : Rec :=
  { logtype := 9, updtype := 16, bodyLen := align8 (4 + it.key.length + field.length),
    body := le 2 it.key.length ++ le 1 (b8 drop) ++ le 1 field.length,
    pieces := [(it.key ++ it.value, it.key.length), (field, field.length)] }

/-- `lrec_construct_btree_elem_insert`, cmdlogrec.c 1736-1758, and its write, 969-986: bkey, eflag and
value are contiguous in the element. -/
def conBtIns (c : Clock) (rs : Nat → Nat) (it : Item) (bkey : BKey) (eflag value : Bytes)
    (create : Bool) : Rec :=
  { logtype := 10, updtype := 19,
    bodyLen := align8 (12 + it.key.length + realNbkey bkey.len + eflag.length + value.length) +
      attrLen create,
    body := le 2 it.key.length ++ le 1 (b8 create) ++ le 1 bkey.len ++ le 1 eflag.length ++
      [rs 13, rs 14, rs 15] ++ le 4 value.length,
    pieces := [(it.key ++ it.value, it.key.length),
      (bkey.val ++ eflag ++ value, realNbkey bkey.len + eflag.length + value.length)] ++
      attrPiece c rs it create }

/-- `lrec_construct_btree_elem_delete`, cmdlogrec.c 1760-1775, and its write, 1071-1082. -/
def conBtDel (it : Item) (bkey : BKey) (drop : Bool) : Rec :=
  { logtype := 11, updtype := 20,
    bodyLen := align8 (4 + realNbkey bkey.len + it.key.length),
    body := le 2 it.key.length ++ le 1 (b8 drop) ++ le 1 bkey.len,
    pieces := [(it.key ++ it.value, it.key.length), (bkey.val, realNbkey bkey.len)] }

/-- The filter fields of the logical delete record (memset to 0 without a filter),
cmdlogrec.c 1785-1799. -/
def lgcFilter (filter : Option Filter) : Bytes :=
  match filter with
  | none => le 1 0 ++ le 1 0 ++ le 1 0 ++ le 1 0 ++ le 1 0 ++ le 1 0 ++ le 1 0
  | some f => le 1 1 ++ le 1 f.nbitwval ++ le 1 f.ncompval ++ le 1 f.compvcnt ++ le 1 f.offset ++
      le 1 f.bitwop ++ le 1 f.compop

/-- The filter copies of the logical delete record, cmdlogrec.c 1141-1150. -/
def lgcFilterPieces (filter : Option Filter) : List (Bytes × Nat) :=
  match filter with
  | none => []
  | some f => (if f.nbitwval > 0 then [(f.bitwval, f.nbitwval)] else []) ++
      [(f.compval, f.compvcnt * f.ncompval)]

/-- The length of the filter data, cmdlogrec.c 1811. -/
def lgcFilterLen (filter : Option Filter) : Nat :=
  match filter with
  | none => 0
  | some f => f.nbitwval + f.compvcnt * f.ncompval

/-- `lrec_construct_btree_elem_delete_logical`, cmdlogrec.c 1777-1813, and its write, 1122-1151. -/
def conBtDelLgc (it : Item) (fromB toB : BKey) (filter : Option Filter) (offset reqcount : Nat)
    (drop : Bool) : Rec :=
  { logtype := 12, updtype := 20,
    bodyLen := align8 (20 + it.key.length + realNbkey fromB.len +
      (if realNbkey toB.len = bkeyNull then 0 else realNbkey toB.len) + lgcFilterLen filter),
    body := le 2 it.key.length ++ le 1 (b8 drop) ++ le 1 fromB.len ++ le 1 toB.len ++
      lgcFilter filter ++ le 4 offset ++ le 4 reqcount,
    pieces := [(it.key ++ it.value, it.key.length), (fromB.val, realNbkey fromB.len)] ++
      (if realNbkey toB.len ≠ bkeyNull then [(toB.val, realNbkey toB.len)] else []) ++
      lgcFilterPieces filter }

/-- `lrec_construct_operation_range`, cmdlogrec.c 1815-1822, write 1259-1276. -/
def conRange (begin_ : Bool) : Rec :=
  { logtype := if begin_ then 13 else 14, updtype := 22, bodyLen := 0, body := [], pieces := [] }

/-- Bytes of key data in front of the value of a snapshot element (field, or bkey and eflag),
cmdlogrec.c 1576-1606. -/
def snapKeyLen (ittype nekey neflag : Nat) : Nat :=
  if ittype = 3 then nekey else if ittype = 4 then realNbkey nekey + neflag else 0

/-- `lrec_construct_snapshot_elem`, cmdlogrec.c 1568-1612, write 1285-1302; `data` is the memory at
`log->valptr`.  Unset fields come from `rs`. -/
def conSnapElem (rs : Nat → Nat) (ittype nekey neflag : Nat) (data : Bytes) (nbytes : Nat) : Rec :=
  { logtype := 15,
    updtype := if ittype = 1 then 7 else if ittype = 2 then 11 else if ittype = 3 then 15
      else if ittype = 4 then 19 else 22,
    bodyLen := align8 (6 + (nbytes + snapKeyLen ittype nekey neflag)),
    body := le 4 nbytes ++ (if ittype = 3 ∨ ittype = 4 then le 1 nekey else [rs 12]) ++
      (if ittype = 4 then le 1 neflag else [rs 13]),
    pieces := [(data, nbytes + snapKeyLen ittype nekey neflag)] }

/-- PERSISTENCE_ENGINE_NAME, cmdlogrec.c 29: "ARCUS-DEFAULT_ENGINE". -/
def engineName : Bytes :=
  [65, 82, 67, 85, 83, 45, 68, 69, 70, 65, 85, 76, 84, 95, 69, 78, 71, 73, 78, 69]

/-- `lrec_construct_snapshot_done`, cmdlogrec.c 1438-1453, write 1363-1367. -/
def conSnapDone : Rec :=
  { logtype := 16, updtype := 22, bodyLen := align8 40,
    body := engineName ++ List.replicate 12 0 ++ le 4 1 ++ le 4 0, pieces := [] }

/-- The construction of each record type. -/
def construct (c : Clock) (rs : Nat → Nat) : Op → Rec
  | .link it => conLink c rs it
  | .unlink it => conUnlink it
  | .flush p n => conFlush p n
  | .setattr it u => conSetattr c rs it u
  | .listIns it t e v cr => conListIns c rs it t e v cr
  | .listDel it t e d dr => conListDel rs it t e d dr
  | .setIns it v cr => conSetIns c rs it v cr
  | .setDel it v dr => conSetDel rs it v dr
  | .mapIns it f v cr => conMapIns c rs it f v cr
  | .mapDel it f dr => conMapDel it f dr
  | .btIns it b e v cr => conBtIns c rs it b e v cr
  | .btDel it b dr => conBtDel it b dr
  | .btDelLgc it f t fl o r dr => conBtDelLgc it f t fl o r dr
  | .opRange b => conRange b
  | .snapElem ty nk nf d n => conSnapElem rs ty nk nf d n
  | .snapDone => conSnapDone

/-- Image of LogHdr, cmdlogrec.h 99-104. -/
def hdrImage (rs : Nat → Nat) (r : Rec) : Bytes :=
  le 1 r.logtype ++ le 1 r.updtype ++ [rs 2, rs 3] ++ le 4 r.bodyLen

/-- The copies behind the structure image, one after the other at the running offset. -/
def writePieces (buf : Bytes) (off : Nat) : List (Bytes × Nat) → Option Bytes
  | [] => some buf
  | (src, n) :: ps =>
    match get src 0 n with
    | none => none
    | some d =>
      match put buf off d with
      | none => none
      | some buf' => writePieces buf' (off + n) ps

/-- `lrec_write_to_buffer`, cmdlogrec.c 1417-1423: the image of header and body structure, then the
pieces.  `buf` is the room the log buffer reserved for this record. -/
def write (rs : Nat → Nat) (r : Rec) (buf : Bytes) : Option Bytes :=
  match put buf 0 (hdrImage rs r ++ r.body) with
  | none => none
  | some buf' => writePieces buf' (hdrImage rs r ++ r.body).length r.pieces

/-- Attributes handed to the `*_apply_item_link` functions (`item_attr`). -/
structure Attr where
  flags : Nat
  exptime : Nat
  maxcount : Int
  ovflact : Nat
  readable : Bool
  trimmed : Bool
deriving DecidableEq, Repr

/-- The engine call a redo function makes (after reading its arguments out of the record).  For an
element insert with `create` the call carries the attributes; the existence check is the engine's. -/
inductive Call where
  | kvLink (key : Bytes) (flags exptime : Nat) (value : Bytes) (cas : Nat)
  | collLink (ittype : Nat) (key : Bytes) (attr : Attr) (maxbkr : Option BKey)
  | expired
  | unlink (key : Bytes)
  | setExptime (key : Bytes) (exptime : Nat)
  | setColl (key : Bytes) (exptime : Nat) (mcnt : Int) (ovflact mflags : Nat) (maxbkr : Option BKey)
  | flushAll
  | flushNull
  | flushPrefix (pfx : Bytes)
  | listIns (key : Bytes) (create : Option Attr) (totcnt : Nat) (eindex : Int) (value : Bytes)
  | listDel (key : Bytes) (totcnt : Nat) (eindex : Int) (delcnt : Nat) (drop : Bool)
  | setIns (key : Bytes) (create : Option Attr) (value : Bytes)
  | setDel (key : Bytes) (value : Bytes) (drop : Bool)
  | mapIns (key : Bytes) (create : Option Attr) (field value : Bytes)
  | mapDel (key : Bytes) (field : Bytes) (drop : Bool)
  | btIns (key : Bytes) (create : Option Attr) (bkey : BKey) (eflag value : Bytes)
  | btDel (key : Bytes) (bkey : BKey) (drop : Bool)
  | btDelLgc (key : Bytes) (fromB : BKey) (toB : Option BKey) (filter : Option Filter)
      (offset reqcount : Nat) (drop : Bool)
  | rangeBegin
  | rangeEnd
  | snapElem (ittype : Nat) (ekey eflag : Bytes) (value : Bytes)
  | snapDone
deriving DecidableEq, Repr

/-- COLL_META_FLAG_READABLE (2), item_base.h 122. -/
def readable (mflags : Nat) : Bool := mflags / 2 % 2 = 1
/-- COLL_META_FLAG_TRIMMED (8), item_base.h 124. -/
def trimmed (mflags : Nat) : Bool := mflags / 8 % 2 = 1

/-- `do_construct_item_attr`, cmdlogrec.c 250-261, at offset `off` behind `keyptr`. -/
def readAttr (c : Clock) (data : Bytes) (off : Nat) : Option Attr := do
  let flags ← fld data off 4
  let exptime ← fld data (off + 4) 4
  let maxc ← fld data (off + 8) 4
  let ovfl ← fld data (off + 14) 1
  let mfl ← fld data (off + 15) 1
  pure { flags := flags, exptime := relExp c exptime, maxcount := toI32 maxc, ovflact := ovfl,
         readable := readable mfl, trimmed := false }

/-- The attributes of an insert record, read only if `create` is set (e.g. cmdlogrec.c 589-602). -/
def readCreate (c : Clock) (create : Nat) (data : Bytes) (off : Nat) : Option (Option Attr) :=
  if create ≠ 0 then (readAttr c data off).map some else some none

/-- The optional maxbkeyrange in front of the key: its value and the offset of the key
(cmdlogrec.c 332-339, 453-460). -/
def readMax (len : Nat) (data : Bytes) : Option (Option BKey × Nat) :=
  if len ≠ bkeyNull then (get data 0 (realNbkey len)).map fun v => (some ⟨len, v⟩, realNbkey len)
  else some (none, 0)

/-- `lrec_it_link_redo`, cmdlogrec.c 300-347. -/
def redoLink (c : Clock) (b : Bytes) : Option Call := do
  let ittype ← fld b 8 1
  let keylen ← fld b 10 2
  let vallen ← fld b 12 4
  let flags ← fld b 16 4
  let exp0 ← fld b 20 4
  let data := b.drop 32
  let exptime := relExp c exp0
  if exptime = 1 then pure .expired
  else if ittype = 0 then
    let cas ← fld b 24 8
    let key ← get data 0 keylen
    let value ← get data keylen vallen
    pure (.kvLink key flags exptime value cas)
  else
    let ovfl ← fld b 24 1
    let mfl ← fld b 25 1
    let maxl ← fld b 26 1
    let mcnt ← fld b 28 4
    let attr : Attr :=
      { flags := flags, exptime := exptime, maxcount := toI32 mcnt, ovflact := ovfl,
        readable := readable mfl, trimmed := trimmed mfl }
    if ittype = 4 then
      let (mx, off) ← readMax maxl data
      let key ← get data off keylen
      pure (.collLink ittype key attr mx)
    else
      let key ← get data 0 keylen
      pure (.collLink ittype key attr none)

/-- `lrec_it_unlink_redo`, cmdlogrec.c 392-404. -/
def redoUnlink (b : Bytes) : Option Call := do
  let keylen ← fld b 8 2
  let key ← get (b.drop 10) 0 keylen
  pure (.unlink key)

/-- `lrec_it_setattr_redo`, cmdlogrec.c 438-478. -/
def redoSetattr (c : Clock) (b : Bytes) : Option Call := do
  let upd ← fld b 1 1
  let keylen ← fld b 8 2
  let exp0 ← fld b 12 4
  let data := b.drop 24
  if upd = 2 then
    let key ← get data 0 keylen
    pure (.setExptime key (relExp c exp0))
  else
    let ovfl ← fld b 16 1
    let mfl ← fld b 17 1
    let maxl ← fld b 18 1
    let mcnt ← fld b 20 4
    let (mx, off) ← readMax maxl data
    let key ← get data off keylen
    pure (.setColl key (relExp c exp0) (toI32 mcnt) ovfl mfl mx)

/-- `lrec_it_flush_redo`, cmdlogrec.c 529-548. -/
def redoFlush (b : Bytes) : Option Call := do
  let n ← fld b 8 1
  if n = 255 then pure .flushAll
  else if n = 0 then pure .flushNull
  else
    let p ← get (b.drop 9) 0 n
    pure (.flushPrefix p)

/-- `lrec_list_elem_insert_redo`, cmdlogrec.c 581-623. -/
def redoListIns (c : Clock) (b : Bytes) : Option Call := do
  let keylen ← fld b 8 2
  let create ← fld b 10 1
  let vallen ← fld b 12 4
  let totcnt ← fld b 16 4
  let eindex ← fld b 20 4
  let data := b.drop 24
  let key ← get data 0 keylen
  let attr ← readCreate c create data (keylen + vallen)
  let value ← get data keylen vallen
  pure (.listIns key attr totcnt (toI32 eindex) value)

/-- `lrec_list_elem_delete_redo`, cmdlogrec.c 661-682. -/
def redoListDel (b : Bytes) : Option Call := do
  let keylen ← fld b 8 2
  let drop ← fld b 10 1
  let totcnt ← fld b 12 4
  let eindex ← fld b 16 4
  let delcnt ← fld b 20 4
  let key ← get (b.drop 24) 0 keylen
  pure (.listDel key totcnt (toI32 eindex) delcnt (drop ≠ 0))

/-- `lrec_set_elem_insert_redo`, cmdlogrec.c 714-756. -/
def redoSetIns (c : Clock) (b : Bytes) : Option Call := do
  let keylen ← fld b 8 2
  let create ← fld b 10 1
  let vallen ← fld b 12 4
  let data := b.drop 16
  let key ← get data 0 keylen
  let attr ← readCreate c create data (keylen + vallen)
  let value ← get data keylen vallen
  pure (.setIns key attr value)

/-- `lrec_set_elem_delete_redo`, cmdlogrec.c 794-816. -/
def redoSetDel (b : Bytes) : Option Call := do
  let keylen ← fld b 8 2
  let drop ← fld b 10 1
  let vallen ← fld b 12 4
  let data := b.drop 16
  let key ← get data 0 keylen
  let value ← get data keylen vallen
  pure (.setDel key value (drop ≠ 0))

/-- `lrec_map_elem_insert_redo`, cmdlogrec.c 850-893; `map_apply_elem_insert` takes field and value
from `datptr`. -/
def redoMapIns (c : Clock) (b : Bytes) : Option Call := do
  let keylen ← fld b 8 2
  let create ← fld b 10 1
  let fldlen ← fld b 11 1
  let vallen ← fld b 12 4
  let data := b.drop 16
  let key ← get data 0 keylen
  let attr ← readCreate c create data (keylen + fldlen + vallen)
  let field ← get data keylen fldlen
  let value ← get data (keylen + fldlen) vallen
  pure (.mapIns key attr field value)

/-- `lrec_map_elem_delete_redo`, cmdlogrec.c 933-954. -/
def redoMapDel (b : Bytes) : Option Call := do
  let keylen ← fld b 8 2
  let drop ← fld b 10 1
  let fldlen ← fld b 11 1
  let data := b.drop 12
  let key ← get data 0 keylen
  let field ← get data keylen fldlen
  pure (.mapDel key field (drop ≠ 0))

/-- `lrec_bt_elem_insert_redo`, cmdlogrec.c 988-1031; `btree_apply_elem_insert` takes bkey, eflag and
value from `datptr`. -/
def redoBtIns (c : Clock) (b : Bytes) : Option Call := do
  let keylen ← fld b 8 2
  let create ← fld b 10 1
  let nbkey ← fld b 11 1
  let neflag ← fld b 12 1
  let vallen ← fld b 16 4
  let data := b.drop 20
  let key ← get data 0 keylen
  let attr ← readCreate c create data (keylen + realNbkey nbkey + neflag + vallen)
  let bk ← get data keylen (realNbkey nbkey)
  let ef ← get data (keylen + realNbkey nbkey) neflag
  let value ← get data (keylen + realNbkey nbkey + neflag) vallen
  pure (.btIns key attr ⟨nbkey, bk⟩ ef value)

/-- `lrec_bt_elem_delete_redo`, cmdlogrec.c 1084-1105. -/
def redoBtDel (b : Bytes) : Option Call := do
  let keylen ← fld b 8 2
  let drop ← fld b 10 1
  let nbkey ← fld b 11 1
  let data := b.drop 12
  let key ← get data 0 keylen
  let bk ← get data keylen (realNbkey nbkey)
  pure (.btDel key ⟨nbkey, bk⟩ (drop ≠ 0))

/-- The upper bound of the range (cmdlogrec.c 1168-1171). -/
def readTo (tn : Nat) (data : Bytes) (off : Nat) : Option (Option BKey) :=
  if realNbkey tn ≠ bkeyNull then (get data off (realNbkey tn)).map fun v => some ⟨tn, v⟩
  else some none

/-- The filter of a logical delete record (cmdlogrec.c 1173-1188); `b` is the record and `off` the
offset of `bitwvalptr` behind `keyptr`. -/
def readFilter (b data : Bytes) (off : Nat) : Option (Option Filter) := do
  let filtering ← fld b 13 1
  if filtering ≠ 0 then
    let nb ← fld b 14 1
    let nc ← fld b 15 1
    let cc ← fld b 16 1
    let fo ← fld b 17 1
    let bo ← fld b 18 1
    let co ← fld b 19 1
    let bw ← get data off nb
    let cv ← get data (off + nb) (cc * nc)
    pure (some { bitwval := bw, compval := cv, nbitwval := nb, ncompval := nc, compvcnt := cc,
                 offset := fo, bitwop := bo, compop := co })
  else pure none

/-- `lrec_bt_elem_delete_logical_redo`, cmdlogrec.c 1153-1207. -/
def redoBtDelLgc (b : Bytes) : Option Call := do
  let keylen ← fld b 8 2
  let drop ← fld b 10 1
  let fn ← fld b 11 1
  let tn ← fld b 12 1
  let offset ← fld b 20 4
  let reqc ← fld b 24 4
  let data := b.drop 28
  let fv ← get data keylen (realNbkey fn)
  let toB ← readTo tn data (keylen + realNbkey fn)
  let filter ← readFilter b data
    (keylen + realNbkey fn + (if realNbkey tn = bkeyNull then 0 else realNbkey tn))
  let key ← get data 0 keylen
  pure (.btDelLgc key ⟨fn, fv⟩ toB filter offset reqc (drop ≠ 0))

/-- `lrec_redo_from_record`, cmdlogrec.c 1425-1435, for the records of a command log; the two range
records and the snapshot end record have no redo function. -/
def redo (c : Clock) (b : Bytes) : Option Call := do
  let ty ← fld b 0 1
  if ty = 0 then redoLink c b
  else if ty = 1 then redoUnlink b
  else if ty = 2 then redoSetattr c b
  else if ty = 3 then redoFlush b
  else if ty = 4 then redoListIns c b
  else if ty = 5 then redoListDel b
  else if ty = 6 then redoSetIns c b
  else if ty = 7 then redoSetDel b
  else if ty = 8 then redoMapIns c b
  else if ty = 9 then redoMapDel b
  else if ty = 10 then redoBtIns c b
  else if ty = 11 then redoBtDel b
  else if ty = 12 then redoBtDelLgc b
  else if ty = 13 then pure .rangeBegin
  else if ty = 14 then pure .rangeEnd
  else if ty = 16 then pure .snapDone
  else none

/-- `lrec_snapshot_elem_link_redo`, cmdlogrec.c 1304-1326, for an item of type `ittype` (the item the
preceding link record created). -/
def redoSnapElem (ittype : Nat) (b : Bytes) : Option Call := do
  let nbytes ← fld b 8 4
  let nekey ← fld b 12 1
  let neflag ← fld b 13 1
  let data := b.drop 14
  if ittype = 1 ∨ ittype = 2 then
    let v ← get data 0 nbytes
    pure (.snapElem ittype [] [] v)
  else if ittype = 3 then
    let f ← get data 0 nekey
    let v ← get data nekey nbytes
    pure (.snapElem ittype f [] v)
  else if ittype = 4 then
    let k ← get data 0 (realNbkey nekey)
    let e ← get data (realNbkey nekey) neflag
    let v ← get data (realNbkey nekey + neflag) nbytes
    pure (.snapElem ittype k e v)
  else none

/-- `lrec_set_item_in_snapshot_elem`, cmdlogrec.c 1834-1840: stores the item pointer (8 bytes, `ptr`)
in the `it` member of the SnapshotElemLog the read buffer is seen as.  The member sits behind header
(8 bytes), body (nbytes, nekey, neflag, data[1] padded to 8) and `valptr` (8), at offset 24
(cmdlogrec.h 195-207). -/
def setItem (ptr : Bytes) (b : Bytes) : Option Bytes := put b 24 ptr

/-- How `snapshot_file_apply` redoes an element record (chkpt_snapshot.c 768-785): the pointer is
stored, then the record is redone. -/
def applySnapElem (ittype : Nat) (ptr : Bytes) (b : Bytes) : Option Call :=
  match setItem ptr b with
  | none => none
  | some b' => redoSnapElem ittype b'

/-- The key `lrec_get_item_if_collection_link` looks up for a collection link record,
cmdlogrec.c 1824-1832: `keylen` bytes at `body.data`. -/
def linkLookupKey (b : Bytes) : Option Bytes := do
  let keylen ← fld b 10 2
  get (b.drop 32) 0 keylen

end Verif.Log
