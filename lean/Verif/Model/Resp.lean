import Verif.Model.BKey
/-!
# The text of ASCII replies

How memcached.c makes the replies to `get`, `mget`, to the reading commands on collections and to `getattr`: text is printed into a buffer whose
size is computed beforehand; the I/O vector takes pieces of the buffer, of keys and of items, and is read when the reply is sent.
`none` stands for a write or read outside of the buffer or a failed `assert`.
Simplified: `malloc` and `add_iov` find memory (the I/O vector is `Model/ConnOut`); flags are given in host order (`htonl` and its inverse cancel).
-/
namespace Verif.Resp
open Verif.Util (showNat safeHexatostr)
open Verif.BT (BKey)

/-! ## The reply buffer -/

/-- What an entry of the I/O vector points at (memcached.c 1136-1236 `add_iov`): a piece of the reply buffer, or bytes elsewhere (a constant,
a key, an item). -/
inductive Piece where
  | buf (off len : Nat)
  | ext (bs : List Nat)
deriving DecidableEq, Repr

/-- The reply buffer (`respbuf`), `respptr` as an offset, and the entries of the I/O vector (memcached.c 2027-2031). -/
structure St where
  mem : List Nat
  ptr : Nat
  iov : List Piece
deriving DecidableEq, Repr

/-- `memcpy` into the buffer (memcached.c 1839, 2178). -/
def write (mem : List Nat) (off : Nat) (bs : List Nat) : Option (List Nat) :=
  if off + bs.length ≤ mem.length then some (mem.take off ++ bs ++ mem.drop (off + bs.length)) else none

/-- `sprintf` of the text `s`, and the last loop of `safe_hexatostr` (memcached.c 2044; util.c 149-161): with the terminating zero. -/
def sprintf (mem : List Nat) (off : Nat) (s : List Nat) : Option (List Nat) := write mem off (s ++ [0])

/-- `strlen` (memcached.c 2045): up to the first zero; `none` if there is none in the buffer. -/
def strlenAux : List Nat → Option Nat
  | [] => none
  | b :: r => if b = 0 then some 0 else (strlenAux r).map (· + 1)

/-- `strlen(respptr)` (memcached.c 2045). -/
def strlen (mem : List Nat) (off : Nat) : Option Nat := strlenAux (mem.drop off)

/-- `sprintf(respptr, …); add_iov(c, respptr, strlen(respptr)); respptr += strlen(respptr)` (memcached.c 2044-2048, 10581-10587). -/
def emit (s : St) (t : List Nat) : Option St := do
  let mem ← sprintf s.mem s.ptr t
  let n ← strlen mem s.ptr
  some ⟨mem, s.ptr + n, s.iov ++ [.buf s.ptr n]⟩

/-- The last line of a reply: `sprintf(respptr, …); add_iov(c, respptr, strlen(respptr))` (memcached.c 2065-2072, 10592-10599). -/
def emitLast (s : St) (t : List Nat) : Option St := do
  let mem ← sprintf s.mem s.ptr t
  let n ← strlen mem s.ptr
  some ⟨mem, s.ptr, s.iov ++ [.buf s.ptr n]⟩

/-- `add_iov` of bytes outside of the buffer (memcached.c 2409-2410). -/
def ext (s : St) (bs : List Nat) : St := { s with iov := s.iov ++ [.ext bs] }

/-- The bytes of an entry when the vector is sent (memcached.c 14036 `sendmsg`). -/
def Piece.bytes (mem : List Nat) : Piece → List Nat
  | .buf off len => (mem.drop off).take len
  | .ext bs => bs

/-- The bytes that the client receives (memcached.c 14036). -/
def St.text (s : St) : List Nat := s.iov.flatMap (Piece.bytes s.mem)

/-! ## Elements -/

/-- What `get_elem_info` gives (include/memcached/types.h `eitem_info`): bkey (b+tree) or field (map), element flag, `nbytes`, and the value in one piece
and further ones. -/
structure Elem where
  bkey : BKey
  field : List Nat
  eflag : List Nat
  nbytes : Nat
  value : List Nat
  addnl : List (List Nat)
deriving DecidableEq, Repr

/-- `add_iov_einfo_ascii` (memcached.c 1280-1292). -/
def einfo (s : St) (e : Elem) : St :=
  let s := if 0 < e.value.length then ext s e.value else s
  e.addnl.foldl ext s

/-- `nbytes - 2` (memcached.c 1843, 2192, 3015): 32 bits, unsigned. -/
def minus2 (n : Nat) : Nat := if 2 ≤ n then n - 2 else 2 ^ 32 - (2 - n)

/-- `einfo->nbytes-2` (memcached.c 1843, 2192). -/
def vlen (e : Elem) : Nat := minus2 e.nbytes

/-- The first part of `make_bop_elem_response` (memcached.c 2177-2184); also memcached.c 2755-2762. -/
def makeBkey (mem : List Nat) (off : Nat) (k : BKey) : Option (List Nat × Nat) :=
  match k with
  | .bin b => do
    let mem ← write mem off [48, 120]
    let mem ← sprintf mem (off + 2) (safeHexatostr b)
    let n ← strlen mem (off + 2)
    some (mem, off + 2 + n)
  | .num v => do
    let mem ← sprintf mem off (showNat v)
    let n ← strlen mem off
    some (mem, off + n)

/-- The second part of `make_bop_elem_response` (memcached.c 2186-2190). -/
def makeEflag (mem : List Nat) (off : Nat) (f : List Nat) : Option (List Nat × Nat) :=
  if 0 < f.length then do
    let mem ← write mem off [32, 48, 120]
    let mem ← sprintf mem (off + 3) (safeHexatostr f)
    let n ← strlen mem (off + 3)
    some (mem, off + 3 + n)
  else some (mem, off)

/-- `" %u "` of `nbytes-2` with the update of the pointer (memcached.c 1843-1844, 2192-2193). -/
def makeLen (mem : List Nat) (off : Nat) (e : Elem) : Option (List Nat × Nat) := do
  let mem ← sprintf mem off ([32] ++ showNat (vlen e) ++ [32])
  let n ← strlen mem off
  some (mem, off + n)

/-- `make_bop_elem_response` (memcached.c 2172-2196): the buffer, and the end of the text as an offset. -/
def makeBop (mem : List Nat) (off : Nat) (e : Elem) : Option (List Nat × Nat) := do
  let (mem, p) ← makeBkey mem off e.bkey
  let (mem, p) ← makeEflag mem p e.eflag
  makeLen mem p e

/-- `make_mop_elem_response` (memcached.c 1833-1847): the buffer, and the end of the text. -/
def makeMop (mem : List Nat) (off : Nat) (e : Elem) : Option (List Nat × Nat) :=
  if e.field.length = 0 then none
  else do
    let mem ← write mem off e.field
    makeLen mem (off + e.field.length) e

/-- `make_smget_trim_response` (memcached.c 2750-2766): the buffer, and the end of the text. -/
def makeTrim (mem : List Nat) (off : Nat) (k : BKey) : Option (List Nat × Nat) := do
  let mem ← write mem off [32]
  let (mem, p) ← makeBkey mem (off + 1) k
  let mem ← sprintf mem p [13, 10]
  some (mem, p + 2)

/-- One b+tree element in a reply, behind the text `pre` (memcached.c 11351-11359 with nothing before, 2417-2427 with "ELEMENT "). -/
def bopElem (pre : List Nat) (s : St) (e : Elem) : Option St := do
  let mem ← sprintf s.mem s.ptr pre
  let n ← strlen mem s.ptr
  let (mem, p) ← makeBop mem (s.ptr + n) e
  some (einfo ⟨mem, p, s.iov ++ [.buf s.ptr (p - s.ptr)]⟩ e)

/-- One element of `bop get` (memcached.c 11350-11360, 11554-11564, 11662-11672). -/
def bopElem0 (s : St) (e : Elem) : Option St := do
  let (mem, p) ← makeBop s.mem s.ptr e
  some (einfo ⟨mem, p, s.iov ++ [.buf s.ptr (p - s.ptr)]⟩ e)

/-- One element of `mop get` (memcached.c 2051-2061). -/
def mopElem (s : St) (e : Elem) : Option St := do
  let (mem, p) ← makeMop s.mem s.ptr e
  some (einfo ⟨mem, p, s.iov ++ [.buf s.ptr (p - s.ptr)]⟩ e)

/-- One element of `lop get` or `sop get` (memcached.c 10578-10588, 10972-10982).  The pointer moves after the entries for the value are added. -/
def lopElem (s : St) (e : Elem) : Option St := do
  let s ← emit s (showNat (vlen e) ++ [32])
  some (einfo s e)

/-- A loop over elements (memcached.c 2051 and the others). -/
def each {α : Type} (f : St → α → Option St) (s : St) (es : List α) : Option St := es.foldlM f s

/-! ## Sizes of buffers -/

/-- `UINT32_STR_LENG` (mc_util.h 24). -/
def u32Len : Nat := 10
/-- `MAX_BKEY_LENG`, `MAX_EFLAG_LENG` (include/memcached/types.h 291-292). -/
def bkeyMax : Nat := 31
/-- `MAX_FIELD_LENG` (include/memcached/types.h 293). -/
def fieldMax : Nat := 250

/-- `bufsize` of `lop get` and `sop get` (memcached.c 10562-10563, 10956-10957): 32 bits. -/
def lopSize (n : Nat) : Nat := (2 * u32Len + 30 + n * (u32Len + 2)) % 2 ^ 32
/-- `bufsize` of `mop get` (memcached.c 2035-2036). -/
def mopSize (n : Nat) : Nat := (2 * u32Len + 30 + n * ((fieldMax + 2) + (u32Len + 2))) % 2 ^ 32
/-- `bufsize` of `bop get` and `bop gbp` (memcached.c 11334-11335, 11646-11647). -/
def bopSize (n : Nat) : Nat := (2 * u32Len + 30 + n * ((bkeyMax * 2 + 2) + (bkeyMax * 2 + 2) + u32Len + 3)) % 2 ^ 32
/-- `bufsize` of `bop pwg` (memcached.c 11537-11538). -/
def pwgSize (n : Nat) : Nat := (4 * u32Len + 30 + n * ((bkeyMax * 2 + 2) + (bkeyMax * 2 + 2) + u32Len + 3)) % 2 ^ 32
/-- `bufsize` of the reply with a trimmed element (memcached.c 2210-2212). -/
def trimSize : Nat := 8 + (2 * u32Len + 30) + ((bkeyMax * 2 + 2) + (bkeyMax * 2 + 2) + u32Len + 3)

/-! ## Replies of commands on one collection -/

/-- `VALUE %u %u\r\n` (memcached.c 2044, 10571, 11343). -/
def headText (flags n : Nat) : List Nat := [86, 65, 76, 85, 69, 32] ++ showNat flags ++ [32] ++ showNat n ++ [13, 10]
/-- `END\r\n` (memcached.c 2068, 10595). -/
def tEnd : List Nat := [69, 78, 68, 13, 10]
/-- `DELETED\r\n` (memcached.c 2066). -/
def tDeleted : List Nat := [68, 69, 76, 69, 84, 69, 68, 13, 10]
/-- `DELETED_DROPPED\r\n` (memcached.c 2066). -/
def tDropped : List Nat := [68, 69, 76, 69, 84, 69, 68, 95, 68, 82, 79, 80, 80, 69, 68, 13, 10]
/-- `TRIMMED\r\n` (memcached.c 2232, 11367). -/
def tTrimmed : List Nat := [84, 82, 73, 77, 77, 69, 68, 13, 10]

/-- The last line of `lop get`, `sop get`, `mop get` (memcached.c 2065-2069). -/
def tailText (delete dropped : Bool) : List Nat := if delete then (if dropped then tDropped else tDeleted) else tEnd

/-- The last line of `bop get` (memcached.c 11364-11368). -/
def bopTail (delete dropped trimmed : Bool) : List Nat :=
  if delete then (if dropped then tDropped else tDeleted) else (if trimmed then tTrimmed else tEnd)

/-- `out_lop_get_response`, `out_sop_get_response` (memcached.c 10550-10618, 10944-11011); `mem` is what `malloc` returns. -/
def lopGet (mem : List Nat) (delete dropped : Bool) (flags : Nat) (es : List Elem) : Option St := do
  let s ← emit ⟨mem, 0, []⟩ (headText flags es.length)
  let s ← each lopElem s es
  emitLast s (tailText delete dropped)

/-- `out_mop_get_response` (memcached.c 2022-2090). -/
def mopGet (mem : List Nat) (delete dropped : Bool) (flags : Nat) (es : List Elem) : Option St := do
  let s ← emit ⟨mem, 0, []⟩ (headText flags es.length)
  let s ← each mopElem s es
  emitLast s (tailText delete dropped)

/-- `out_bop_get_response` (memcached.c 11321-11389). -/
def bopGet (mem : List Nat) (delete dropped trimmed : Bool) (flags : Nat) (es : List Elem) : Option St := do
  let s ← emit ⟨mem, 0, []⟩ (headText flags es.length)
  let s ← each bopElem0 s es
  emitLast s (bopTail delete dropped trimmed)

/-- `out_bop_gbp_response` (memcached.c 11633-11697): the last line is a constant. -/
def bopGbp (mem : List Nat) (flags : Nat) (es : List Elem) : Option St := do
  let s ← emit ⟨mem, 0, []⟩ (headText flags es.length)
  let s ← each bopElem0 s es
  some (ext s tEnd)

/-- `VALUE %d %u %u %u\r\n` (memcached.c 11546-11547). -/
def pwgHead (pos flags n idx : Nat) : List Nat :=
  [86, 65, 76, 85, 69, 32] ++ showNat pos ++ [32] ++ showNat flags ++ [32] ++ showNat n ++ [32] ++ showNat idx ++ [13, 10]

/-- `out_bop_pwg_response` (memcached.c 11524-11589); the position is not negative. -/
def bopPwg (mem : List Nat) (pos flags idx : Nat) (es : List Elem) : Option St := do
  let s ← emit ⟨mem, 0, []⟩ (pwgHead pos flags es.length idx)
  let s ← each bopElem0 s es
  some (ext s tEnd)

/-- `out_bop_trim_response` (memcached.c 2198-2251): the buffer begins with a pointer to the element (8 bytes). -/
def bopTrim (mem : List Nat) (flags : Nat) (e : Elem) : Option St := do
  let s ← bopElem (headText flags 1) ⟨mem, 8, []⟩ e
  some (ext s tTrimmed)

/-! ## Replies of `bop mget` and `bop smget` -/

/-- What `btree_elem_get` found for a key of `bop mget` (memcached.c 2401-2464): elements, or a status. -/
inductive Found where
  | hit (trimmed : Bool) (flags : Nat) (es : List Elem)
  | noElem | noKey | outOfRange | unreadable | badType | badBkey
deriving Repr

/-- The text behind the key: ` %s %u %u\r\n` or ` %s\r\n` (memcached.c 2404-2406, 2443-2460). -/
def Found.text : Found → List Nat
  | .hit tr flags es =>
    [32] ++ (if tr then [84, 82, 73, 77, 77, 69, 68] else [79, 75]) ++ [32] ++ showNat flags ++ [32] ++ showNat es.length ++ [13, 10]
  | .noElem => [32, 78, 79, 84, 95, 70, 79, 85, 78, 68, 95, 69, 76, 69, 77, 69, 78, 84, 13, 10]
  | .noKey => [32, 78, 79, 84, 95, 70, 79, 85, 78, 68, 13, 10]
  | .outOfRange => [32, 79, 85, 84, 95, 79, 70, 95, 82, 65, 78, 71, 69, 13, 10]
  | .unreadable => [32, 85, 78, 82, 69, 65, 68, 65, 66, 76, 69, 13, 10]
  | .badType => [32, 84, 89, 80, 69, 95, 77, 73, 83, 77, 65, 84, 67, 72, 13, 10]
  | .badBkey => [32, 66, 75, 69, 89, 95, 77, 73, 83, 77, 65, 84, 67, 72, 13, 10]

/-- The elements of an entry; none for a status (memcached.c 2416, 2442-2460). -/
def Found.elems : Found → List Elem
  | .hit _ _ es => es
  | _ => []

/-- `process_bop_mget_single` (memcached.c 2380-2479), the part that makes the reply. -/
def mgetOne (s : St) (r : List Nat × Found) : Option St := do
  let mem ← sprintf s.mem s.ptr r.2.text
  let n ← strlen mem s.ptr
  let s := ext (ext { s with mem := mem } [86, 65, 76, 85, 69, 32]) r.1
  let s : St := ⟨s.mem, s.ptr + n, s.iov ++ [.buf s.ptr n]⟩
  each (bopElem [69, 76, 69, 77, 69, 78, 84, 32]) s r.2.elems

/-- 32-bit wrap-around to a signed number: assignment to an `int` (memcached.c 11840-11845). -/
def toInt (n : Nat) : Int := (n : Int).bmod (2 ^ 32)

/-- `need_size` of `bop mget` (memcached.c 11840-11845); `sizeof(struct elems_result)` is 24. -/
def mgetSize (numkeys count : Nat) : Nat :=
  (numkeys * 24 + numkeys * (u32Len * 2 + 30) + numkeys * count * ((bkeyMax * 2 + 2) + (bkeyMax * 2 + 2) + u32Len + 15)) % 2 ^ 32

/-- `process_bop_mget_complete` (memcached.c 2481-2577): the text begins behind the array of results. -/
def bopMget (mem : List Nat) (rs : List (List Nat × Found)) : Option St := do
  let s ← each mgetOne ⟨mem, rs.length * 24, []⟩ rs
  emitLast s tEnd

/-- The result of the engine for `bop smget` (include/memcached/types.h `smget_result_t`), with keys instead of key numbers: elements with key and flags,
missed keys with an error code, trimmed keys with the last bkey. -/
structure SmRes where
  elems : List (List Nat × Nat × Elem)
  missed : List (List Nat × Found)
  trimmed : List (List Nat × BKey)
  dup : Bool
deriving Repr

/-- `get_smget_miss_response` (memcached.c 2742-2748). -/
def missText : Found → List Nat
  | .noKey => [32, 78, 79, 84, 95, 70, 79, 85, 78, 68, 13, 10]
  | .unreadable => [32, 85, 78, 82, 69, 65, 68, 65, 66, 76, 69, 13, 10]
  | .outOfRange => [32, 79, 85, 84, 95, 79, 70, 95, 82, 65, 78, 71, 69, 13, 10]
  | _ => [32, 85, 78, 75, 78, 79, 87, 78, 13, 10]

/-- One element of `bop smget` (memcached.c 2786-2800, 2601-2615): ` %u `, then the element; the key goes before it. -/
def smElem (s : St) (x : List Nat × Nat × Elem) : Option St :=
  bopElem ([32] ++ showNat x.2.1 ++ [32]) (ext s x.1) x.2.2

/-- One missed key (memcached.c 2811-2819). -/
def smMiss (s : St) (x : List Nat × Found) : Option St := some (ext (ext s x.1) (missText x.2))

/-- One trimmed key (memcached.c 2830-2840). -/
def smTrim (s : St) (x : List Nat × BKey) : Option St := do
  let (mem, p) ← makeTrim s.mem s.ptr x.2
  some ⟨mem, p, (ext s x.1).iov ++ [.buf s.ptr (p - s.ptr)]⟩

/-- `ELEMENTS %u\r\n` (memcached.c 2780). -/
def elementsText (n : Nat) : List Nat := [69, 76, 69, 77, 69, 78, 84, 83, 32] ++ showNat n ++ [13, 10]
/-- `MISSED_KEYS %u\r\n` (memcached.c 2803, 2618). -/
def missedText (n : Nat) : List Nat := [77, 73, 83, 83, 69, 68, 95, 75, 69, 89, 83, 32] ++ showNat n ++ [13, 10]
/-- `TRIMMED_KEYS %u\r\n` (memcached.c 2823). -/
def trimmedText (n : Nat) : List Nat := [84, 82, 73, 77, 77, 69, 68, 95, 75, 69, 89, 83, 32] ++ showNat n ++ [13, 10]
/-- `DUPLICATED\r\n` (memcached.c 2844). -/
def tDup : List Nat := [68, 85, 80, 76, 73, 67, 65, 84, 69, 68, 13, 10]

/-- `out_bop_smget_response` (memcached.c 2768-2863); `p0` is the offset of `respptr`. -/
def smget (mem : List Nat) (p0 : Nat) (r : SmRes) : Option St := do
  let s ← emit ⟨mem, p0, []⟩ (elementsText r.elems.length)
  let s ← each smElem s r.elems
  let s ← emit s (missedText r.missed.length)
  let s ← each smMiss s r.missed
  let s ← emit s (trimmedText r.trimmed.length)
  let s ← each smTrim s r.trimmed
  emitLast s (if r.dup then tDup else tEnd)

/-- `MAX_SMGET_KEY_COUNT` and `MAX_SMGET_REQ_COUNT` (memcached.h 99-101): the check on the numbers of `bop smget` (memcached.c 13072-13099); 32 bits. -/
def smgetAccepts (numkeys offset count : Nat) : Bool :=
  decide (0 < numkeys ∧ numkeys ≤ 10000 ∧ 0 < count ∧ (offset + count) % 2 ^ 32 ≤ 2000)

/-- `MAX_BMGET_KEY_COUNT` and `MAX_BMGET_ELM_COUNT` (memcached.h 92-94): the check on the numbers of `bop mget` (memcached.c 13072-13088). -/
def mgetAccepts (numkeys count : Nat) : Bool := decide (0 < numkeys ∧ numkeys ≤ 200 ∧ 0 < count ∧ count ≤ 50)

/-- `need_size` of `bop smget` with a mode (memcached.c 11866-11882): every summand is an `int`, the sum too; `none` if the `assert` behind fails
(memcached.c 11884).  `sizeof(smget_ehit_t)` is 8, `sizeof(smget_emis_t)` is 4. -/
def smgetSize (numkeys count : Nat) : Option Nat :=
  let a := toInt ((count + numkeys) % 2 ^ 32 * 8)
  let b := toInt (count * 8)
  let c := toInt (numkeys * 4)
  let h : Int := 3 * u32Len + 50
  let d := toInt (count * ((bkeyMax * 2 + 2) + (bkeyMax * 2 + 2) + u32Len * 2 + 10) + numkeys * ((bkeyMax * 2 + 2) + 5))
  let n := (a + b + c + h + d).bmod (2 ^ 32)
  if 0 < n then some n.toNat else none

/-- The offset of the reply text behind the arrays (memcached.c 2879-2881, 2771). -/
def smgetPtr (numkeys count : Nat) : Nat := (count + numkeys) % 2 ^ 32 * 8 + count * 8 + numkeys * 4

/-- `DUPLICATED_TRIMMED\r\n` (memcached.c 2637). -/
def tDupTrimmed : List Nat := [68, 85, 80, 76, 73, 67, 65, 84, 69, 68, 95, 84, 82, 73, 77, 77, 69, 68, 13, 10]
/-- `VALUE %u\r\n` (memcached.c 2595). -/
def oldHead (n : Nat) : List Nat := [86, 65, 76, 85, 69, 32] ++ showNat n ++ [13, 10]

/-- One missed key of the older form (memcached.c 2625-2632). -/
def oldMiss (s : St) (k : List Nat) : Option St := some (ext (ext s k) [13, 10])

/-- `out_bop_smget_old_response` (memcached.c 2582-2658). -/
def smgetOld (mem : List Nat) (p0 : Nat) (es : List (List Nat × Nat × Elem)) (missed : List (List Nat)) (trimmed dup : Bool) : Option St := do
  let s ← emit ⟨mem, p0, []⟩ (oldHead es.length)
  let s ← each smElem s es
  let s ← emit s (missedText missed.length)
  let s ← each oldMiss s missed
  emitLast s (if trimmed then (if dup then tDupTrimmed else tTrimmed) else (if dup then tDup else tEnd))

/-- `need_size` of `bop smget` without a mode (memcached.c 11851-11864), if the numbers do not wrap around. -/
def oldSize (numkeys cnt : Nat) : Nat :=
  cnt * 16 + numkeys * 4 + (2 * u32Len + 30) + cnt * ((bkeyMax * 2 + 2) + (bkeyMax * 2 + 2) + u32Len * 2 + 5)

/-- The offset of the reply text (memcached.c 2667-2669, 2589). -/
def oldPtr (numkeys cnt : Nat) : Nat := cnt * 16 + numkeys * 4

/-! ## Replies to `get`, `gets`, `mget`, `mgets` -/

/-- An item as `get_item_info` gives it (include/memcached/types.h `item_info`). -/
structure Item where
  key : List Nat
  flags : Nat
  cas : Nat
  nbytes : Nat
  value : List Nat
  addnl : List (List Nat)
deriving DecidableEq, Repr

/-- `SUFFIX_SIZE` (memcached.h 63). -/
def suffixSize : Nat := 24

/-- `snprintf(suffix, SUFFIX_SIZE, …)` and `add_iov` of `len` bytes of it (memcached.c 3014-3026, 3053-3055): at most 23 bytes and a zero are written;
`none` if more bytes are taken than written. -/
def suffix (t : List Nat) (len : Nat) : Option (List Nat) :=
  let b := t.take (suffixSize - 1) ++ [0]
  if len ≤ b.length then some (b.take len) else none

/-- The value of an item (memcached.c 1243-1255 `add_iov_hinfo_ascii`). -/
def hinfo (it : Item) : List (List Nat) := (if 0 < it.value.length then [it.value] else []) ++ it.addnl

/-- ` %u %u\r\n` (memcached.c 3014-3015). -/
def suffixText (it : Item) : List Nat :=
  [32] ++ showNat it.flags ++ [32] ++ showNat (minus2 it.nbytes) ++ [13, 10]

/-- `process_get_single` for a key that is found (memcached.c 2986-3060): the entries of the I/O vector.  Simplified: what `gat` does to the item is left
out, and every suffix buffer is a new one. -/
def getSingle (cas : Bool) (it : Item) : Option (List (List Nat)) := do
  let t := suffixText it
  if cas then
    let a ← suffix t (t.length - 2)
    let u := [32] ++ showNat it.cas ++ [13, 10]
    let b ← suffix u u.length
    some ([[86, 65, 76, 85, 69, 32], it.key, a, b] ++ hinfo it)
  else
    let a ← suffix t t.length
    some ([[86, 65, 76, 85, 69, 32], it.key, a] ++ hinfo it)

/-- The replies of `get` and `mget` (memcached.c 8619-8675, 3113-3145): one entry for every key that is found, then `END`. -/
def getReply (cas : Bool) : List Item → Option (List (List Nat))
  | [] => some [tEnd]
  | it :: r => do
    let a ← getSingle cas it
    let b ← getReply cas r
    some (a ++ b)

/-! ## The reply to `getattr` -/

/-- The attributes of an item (include/memcached/types.h 387-400 `item_attr`); `left` is `lefttime(exptime)` as `int32_t`, `none` as a bkey is
`BKEY_NULL`.  Types: 0 = kv, 1 = list, 2 = set, 3 = map, 4 = b+tree. -/
structure Attrs where
  type : Nat
  flags : Nat
  left : Int
  count : Int
  maxcount : Int
  ovfl : Nat
  readable : Bool
  maxrange : Option BKey
  minbkey : BKey
  maxbkey : BKey
  trimmed : Bool
deriving DecidableEq, Repr

/-- `ENGINE_ITEM_ATTR` (include/memcached/types.h 173-186). -/
inductive AttrId where
  | type | flags | exptime | count | maxcount | ovfl | readable | maxrange | minbkey | maxbkey | trimmed
deriving DecidableEq, Repr

/-- `%d`. -/
def showInt (i : Int) : List Nat := if i < 0 then 45 :: showNat i.natAbs else showNat i.natAbs

/-- `get_item_type_str` (memcached.c 1596-1604). -/
def typeStr : Nat → List Nat
  | 0 => [107, 118]
  | 1 => [108, 105, 115, 116]
  | 2 => [115, 101, 116]
  | 3 => [109, 97, 112]
  | 4 => [98, 43, 116, 114, 101, 101]
  | _ => [117, 110, 107, 110, 111, 119, 110]

/-- `get_ovflaction_str` (memcached.c 1616-1626); numbers as in include/memcached/types.h `ENGINE_OVFL_ACTION`. -/
def ovflStr : Nat → List Nat
  | 1 => [101, 114, 114, 111, 114]
  | 2 => [104, 101, 97, 100, 95, 116, 114, 105, 109]
  | 3 => [116, 97, 105, 108, 95, 116, 114, 105, 109]
  | 4 => [115, 109, 97, 108, 108, 101, 115, 116, 95, 116, 114, 105, 109]
  | 5 => [108, 97, 114, 103, 101, 115, 116, 95, 116, 114, 105, 109]
  | 6 => [115, 109, 97, 108, 108, 101, 115, 116, 95, 115, 105, 108, 101, 110, 116, 95, 116, 114, 105, 109]
  | 7 => [108, 97, 114, 103, 101, 115, 116, 95, 115, 105, 108, 101, 110, 116, 95, 116, 114, 105, 109]
  | _ => [117, 110, 107, 110, 111, 119, 110]

/-- A bkey behind `name` (memcached.c 13222-13235, 13241-13253, 13260-13272): the number, or `0x` and digits. -/
def attrBkey (mem : List Nat) (off : Nat) (name : List Nat) (k : BKey) : Option (List Nat) :=
  match k with
  | .num v => sprintf mem off (name ++ showNat v ++ [13, 10])
  | .bin b => do
    let mem ← sprintf mem off (name ++ [48, 120])
    let n ← strlen mem off
    let mem ← sprintf mem (off + n) (safeHexatostr b)
    let m ← strlen mem (off + n)
    sprintf mem (off + n + m) [13, 10]

/-- The text of an attribute (memcached.c 13207-13278).  With no range as the attribute and with no element, constants are printed. -/
def attrPrint (mem : List Nat) (off : Nat) (a : Attrs) (i : AttrId) : Option (List Nat) :=
  match i with
  | .type => sprintf mem off ([65, 84, 84, 82, 32, 116, 121, 112, 101, 61] ++ typeStr a.type ++ [13, 10])
  | .flags => sprintf mem off ([65, 84, 84, 82, 32, 102, 108, 97, 103, 115, 61] ++ showNat a.flags ++ [13, 10])
  | .exptime => sprintf mem off ([65, 84, 84, 82, 32, 101, 120, 112, 105, 114, 101, 116, 105, 109, 101, 61] ++ showInt a.left ++ [13, 10])
  | .count => sprintf mem off ([65, 84, 84, 82, 32, 99, 111, 117, 110, 116, 61] ++ showInt a.count ++ [13, 10])
  | .maxcount => sprintf mem off ([65, 84, 84, 82, 32, 109, 97, 120, 99, 111, 117, 110, 116, 61] ++ showInt a.maxcount ++ [13, 10])
  | .ovfl => sprintf mem off ([65, 84, 84, 82, 32, 111, 118, 101, 114, 102, 108, 111, 119, 97, 99, 116, 105, 111, 110, 61] ++ ovflStr a.ovfl ++ [13, 10])
  | .readable =>
    sprintf mem off ([65, 84, 84, 82, 32, 114, 101, 97, 100, 97, 98, 108, 101, 61] ++ (if a.readable then [111, 110] else [111, 102, 102]) ++ [13, 10])
  | .maxrange =>
    match a.maxrange with
    | none => sprintf mem off [65, 84, 84, 82, 32, 109, 97, 120, 98, 107, 101, 121, 114, 97, 110, 103, 101, 61, 48, 13, 10]
    | some k => attrBkey mem off [65, 84, 84, 82, 32, 109, 97, 120, 98, 107, 101, 121, 114, 97, 110, 103, 101, 61] k
  | .minbkey =>
    if 0 < a.count then attrBkey mem off [65, 84, 84, 82, 32, 109, 105, 110, 98, 107, 101, 121, 61] a.minbkey
    else sprintf mem off [65, 84, 84, 82, 32, 109, 105, 110, 98, 107, 101, 121, 61, 45, 49, 13, 10]
  | .maxbkey =>
    if 0 < a.count then attrBkey mem off [65, 84, 84, 82, 32, 109, 97, 120, 98, 107, 101, 121, 61] a.maxbkey
    else sprintf mem off [65, 84, 84, 82, 32, 109, 97, 120, 98, 107, 101, 121, 61, 45, 49, 13, 10]
  | .trimmed => sprintf mem off ([65, 84, 84, 82, 32, 116, 114, 105, 109, 109, 101, 100, 61] ++ (if a.trimmed then [49] else [48]) ++ [13, 10])

/-- `attr_to_printable_buffer` (memcached.c 13204-13281): the buffer and the pointer behind the text (`ptr += strlen(ptr)`). -/
def attrLine (mem : List Nat) (off : Nat) (a : Attrs) (i : AttrId) : Option (List Nat × Nat) := do
  let mem ← attrPrint mem off a i
  let n ← strlen mem off
  some (mem, off + n)

/-- The attributes of `getattr` without names (memcached.c 13349-13364). -/
def allAttrs (a : Attrs) : List AttrId :=
  [.type, .flags, .exptime] ++ (if a.type ≠ 0 then [.count, .maxcount, .ovfl, .readable] else []) ++
    (if a.type = 4 then [.maxrange, .minbkey, .maxbkey, .trimmed] else [])

/-- The loop over the attributes (memcached.c 13344-13347). -/
def attrLoop (a : Attrs) : List Nat → Nat → List AttrId → Option (List Nat × Nat)
  | mem, off, [] => some (mem, off)
  | mem, off, i :: is => do
    let (mem, off) ← attrLine mem off a i
    attrLoop a mem off is

/-- The number of entries of `attr_ids` (memcached.c 13303; include/memcached/types.h 185 `ATTR_END`). -/
def attrEnd : Nat := 11

/-- `process_getattr_command` on a hit (memcached.c 13302-13367): `mem` is `buffer[1024]`; the reply is the C string in it with a line end.
`none` also when more names are given than `attr_ids` has entries. -/
def getattr (mem : List Nat) (a : Attrs) (ids : List AttrId) : Option (List Nat) :=
  if attrEnd < ids.length then none
  else do
    let (mem, off) ← attrLoop a mem 0 (if 0 < ids.length then ids else allAttrs a)
    let mem ← sprintf mem off [69, 78, 68]
    let n ← strlen mem 0
    some (mem.take n ++ [13, 10])

end Verif.Resp
