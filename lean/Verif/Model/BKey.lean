import Verif.Model.Util
/-!
# Bkeys, element flags and element filters

Model of the byte-level part of engines/default/coll_btree.c (lines 378-689 and 1028-1056) and of the parser of
filters, memcached.c 12070-12078 and 12162-12236.  Bytes are natural numbers below 256; `none` stands for a failed
`assert`, a read of bytes that do not exist or were not written, or a write outside an array.
-/
namespace Verif.BT

/-- A bkey with its length byte: `nbkey = 0` is an unsigned 64-bit number, else `nbkey` bytes;
include/memcached/types.h `bkey_range`, item_base.h 208-216 `btree_elem_item`. -/
inductive BKey where
  | num (v : Nat)
  | bin (b : List Nat)
deriving DecidableEq, Repr

/-- `nbkey` of a bkey; item_base.h 213. -/
def BKey.nbkey : BKey → Nat
  | .num _ => 0
  | .bin b => b.length

/-- Result of the loop shared by `BINARY_COMP`, `BINARY_ISLT`, `_ISLE`, `_ISGT`, `_ISGE`, coll_btree.c 417-423 (and
452-456, 466-470, 480-484, 494-498): the first differing byte within the shorter length, or nothing. -/
def firstDiff : List Nat → List Nat → Option (Nat × Nat)
  | a :: as, b :: bs => if a = b then firstDiff as bs else some (a, b)
  | _, _ => none

/-- `BINARY_COMP`, coll_btree.c 413-427. -/
def binComp (v1 v2 : List Nat) : Option Ordering :=
  if v1.length = 0 ∨ v2.length = 0 then none
  else
    match firstDiff v1 v2 with
    | some (a, b) => if a < b then some .lt else some .gt
    | none =>
      if v1.length = v2.length then some .eq
      else if v1.length < v2.length then some .lt
      else some .gt

/-- `UINT64_COMP`, coll_btree.c 378-383. -/
def u64Comp (v1 v2 : Nat) : Ordering := if v1 = v2 then .eq else if v1 < v2 then .lt else .gt

/-- `BKEY_COMP`, coll_btree.c 543-545: with one length 0 `BINARY_COMP` fails its assertion. -/
def bkeyComp : BKey → BKey → Option Ordering
  | .num a, .num b => some (u64Comp a b)
  | .bin a, .bin b => binComp a b
  | _, _ => none

/-- Comparison operators, include/memcached/types.h `ENGINE_COMPARE_OP`. -/
inductive CmpOp where
  | eq | ne | lt | le | gt | ge
deriving DecidableEq, Repr

/-- The loop of `BINARY_ISEQ` and `BINARY_ISNE`, coll_btree.c 434-437, 445-448: all bytes equal. -/
def allEq : List Nat → List Nat → Bool
  | a :: as, b :: bs => if a ≠ b then false else allEq as bs
  | _, _ => true

/-- `BINARY_COMPARE_OP`: `BINARY_ISEQ` .. `BINARY_ISGE`, coll_btree.c 429-506, 535-537. -/
def binIs (op : CmpOp) (v1 v2 : List Nat) : Option Bool :=
  if v1.length = 0 ∨ v2.length = 0 then none
  else
    match op with
    | .eq => some (if v1.length ≠ v2.length then false else allEq v1 v2)
    | .ne => some (if v1.length ≠ v2.length then true else !allEq v1 v2)
    | .lt =>
      match firstDiff v1 v2 with
      | some (a, b) => some (decide (a < b))
      | none => some (decide (v1.length < v2.length))
    | .le =>
      match firstDiff v1 v2 with
      | some (a, b) => some (decide (a < b))
      | none => some (decide (v1.length ≤ v2.length))
    | .gt =>
      match firstDiff v1 v2 with
      | some (a, b) => some (decide (a > b))
      | none => some (decide (v1.length > v2.length))
    | .ge =>
      match firstDiff v1 v2 with
      | some (a, b) => some (decide (a > b))
      | none => some (decide (v1.length ≥ v2.length))

/-- `UINT64_COMPARE_OP`: `UINT64_ISEQ` .. `UINT64_ISGE`, coll_btree.c 385-411, 532-533. -/
def u64Is (op : CmpOp) (v1 v2 : Nat) : Bool :=
  match op with
  | .eq => decide (v1 = v2)
  | .ne => decide (v1 ≠ v2)
  | .lt => decide (v1 < v2)
  | .le => decide (v1 ≤ v2)
  | .gt => decide (v1 > v2)
  | .ge => decide (v1 ≥ v2)

/-- `BKEY_ISEQ` .. `BKEY_ISGE`, coll_btree.c 547-569. -/
def bkeyIs (op : CmpOp) : BKey → BKey → Option Bool
  | .num a, .num b => some (u64Is op a b)
  | .bin a, .bin b => binIs op a b
  | _, _ => none

/-! ## Differences -/

/-- Bytes of a key as `BINARY_DIFF` uses them, coll_btree.c 613-626: padded with zeroes up to `length`, and only the
first `length` bytes are looked at.  A number has `nbkey = 0` and counts as no bytes at all. -/
def padTo (length : Nat) (k : BKey) : List Nat :=
  let b := match k with | .num _ => [] | .bin b => b
  (b ++ List.replicate (length - b.length) 0).take length

/-- The loop of `BINARY_DIFF`, coll_btree.c 629-645, from the last byte to the first; the second result is
`subtraction`. -/
def diffLoop : List Nat → List Nat → List Nat × Bool
  | a :: as, b :: bs =>
    let r := diffLoop as bs
    if r.2 = false then
      if a ≥ b then ((a - b) :: r.1, false) else ((255 - b + a + 1) :: r.1, true)
    else
      if a > b then ((a - b - 1) :: r.1, false) else ((255 - b + a) :: r.1, true)
  | _, _ => ([], false)

/-- `BKEY_DIFF(bk1, bk2, len)`, coll_btree.c 680-682 with `UINT64_DIFF`, 578-582, and `BINARY_DIFF`, 605-646.  With
`len = 0` both keys are read as numbers. -/
def bkeyDiff (len : Nat) (k1 k2 : BKey) : Option BKey :=
  if len = 0 then
    match k1, k2 with
    | .num a, .num b => if a < b then none else some (.num (a - b))
    | _, _ => none
  else some (.bin (diffLoop (padTo len k1) (padTo len k2)).1)

/-- The loop of `BINARY_DECR`, coll_btree.c 667-673, from the last byte; the second result: a byte was decremented. -/
def decrLoop : List Nat → List Nat × Bool
  | [] => ([], false)
  | a :: as =>
    let r := decrLoop as
    if r.2 then (a :: r.1, true)
    else if a > 0 then ((a - 1) :: r.1, true)
    else (255 :: r.1, false)

/-- `BKEY_DECR`, coll_btree.c 687-688 with `UINT64_DECR`, 592-596, and `BINARY_DECR`, 664-675. -/
def bkeyDecr : BKey → Option BKey
  | .num a => if a > 0 then some (.num (a - 1)) else none
  | .bin b => if b.length = 0 then none else if (decrLoop b).2 then some (.bin (decrLoop b).1) else none

/-! ## Element filters -/

/-- Bitwise operators, include/memcached/types.h `ENGINE_BITWISE_OP`. -/
inductive BitOp where
  | and | or | xor
deriving DecidableEq, Repr

/-- One byte of `BINARY_AND`, `BINARY_OR`, `BINARY_XOR`, coll_btree.c 508-530. -/
def BitOp.app : BitOp → Nat → Nat → Nat
  | .and, a, b => a &&& b
  | .or, a, b => a ||| b
  | .xor, a, b => a ^^^ b

/-- `MAX_EFLAG_LENG`, include/memcached/types.h. -/
abbrev maxEflag : Nat := 31

/-- `MAX_EFLAG_COMPARE_COUNT`, include/memcached/types.h. -/
abbrev maxCompare : Nat := 100

/-- `eflag_filter`, include/memcached/types.h 338-347; `bitwval` and `compval` are the contents of the two arrays. -/
structure EFilter where
  bitwval : List Nat
  compval : List Nat
  nbitwval : Nat
  ncompval : Nat
  compvcnt : Nat
  offset : Nat
  bitwop : BitOp
  compop : CmpOp
deriving DecidableEq, Repr

/-- `n` bytes read through a pointer to memory holding `m`. -/
def readN (m : List Nat) (n : Nat) : Option (List Nat) := if m.length < n then none else some (m.take n)

/-- `n` bytes of `m` from `off` on. -/
def readAt (m : List Nat) (off n : Nat) : Option (List Nat) := readN (m.drop off) n

/-- Loop over the comparison values, coll_btree.c 1044-1050: is one of the values from number `i` on equal? -/
def anyEq (f : EFilter) (operand : List Nat) : Nat → Nat → Option Bool
  | 0, _ => some false
  | fuel + 1, i =>
    match readAt f.compval (i * f.ncompval) f.ncompval, readN operand f.ncompval with
    | some c, some o =>
      match binIs .eq o c with
      | none => none
      | some true => some true
      | some false => anyEq f operand fuel (i + 1)
    | _, _ => none

/-- The operand of the comparison, coll_btree.c 1036-1042: the eflag bytes from the offset on, or the result of the bitwise
operation in an array of 31 bytes; `mem` is the memory from the offset on. -/
def filterOperand (f : EFilter) (mem : List Nat) : Option (List Nat) :=
  if f.nbitwval > 0 then
    if f.nbitwval > maxEflag then none
    else
      match readN mem f.nbitwval, readN f.bitwval f.nbitwval with
      | some o, some b => some (List.zipWith f.bitwop.app o b)
      | _, _ => none
  else some mem

/-- `do_btree_elem_filter`, coll_btree.c 1028-1056, on an element with the given eflag followed in memory by `rest`. -/
def elemFilter (f : EFilter) (eflag rest : List Nat) : Option Bool :=
  if f.offset ≥ eflag.length ∨ f.ncompval > eflag.length - f.offset then some (decide (f.compop = .ne))
  else
    match filterOperand f ((eflag ++ rest).drop f.offset) with
    | none => none
    | some o =>
      if f.compvcnt > 1 then
        if f.compop ≠ .eq ∧ f.compop ≠ .ne then none
        else
          match anyEq f o f.compvcnt 0 with
          | none => none
          | some b => some (if b then decide (f.compop = .eq) else decide (f.compop ≠ .eq))
      else
        match readN o f.ncompval, readN f.compval f.ncompval with
        | some o, some c => binIs f.compop o c
        | _, _ => none

/-! ## The parser of filters -/

/-- `memcpy`-like write of `bs` at offset `off` of an array with contents `m`. -/
def writeAt (m : List Nat) (off : Nat) (bs : List Nat) : Option (List Nat) :=
  if off + bs.length ≤ m.length then some (m.take off ++ bs ++ m.drop (off + bs.length)) else none

/-- `strncmp(s, "0x", 2) == 0`. -/
def is0x (s : List Nat) : Bool := s.take 2 = [48, 120]

/-- `get_eflag_from_str`, memcached.c 12070-12078: the bytes written, `none` for the result -1 (the bytes written
before a wrong digit is met are not modelled; every caller gives up then). -/
def eflagFromStr (s : List Nat) : Option (List Nat) :=
  if is0x s then Verif.Util.safeStrtohexa (s.drop 2) maxEflag else none

/-- `get_bitwise_op_from_str`, memcached.c 12152-12160. -/
def bitwiseOp (s : List Nat) : Option BitOp :=
  if s = [38] then some .and else if s = [124] then some .or else if s = [94] then some .xor else none

/-- `get_compare_op_from_str`, memcached.c 12134-12150. -/
def compareOp (s : List Nat) : Option CmpOp :=
  if s = [69, 81] then some .eq else if s = [78, 69] then some .ne else if s = [76, 84] then some .lt
  else if s = [76, 69] then some .le else if s = [71, 84] then some .gt else if s = [71, 69] then some .ge else none

/-- The pieces `strtok_r(s, ",")` returns: runs of characters other than commas. -/
def strtok (cur : List Nat) : List Nat → List (List Nat)
  | [] => if cur = [] then [] else [cur]
  | c :: cs => if c = 44 then (if cur = [] then strtok [] cs else cur :: strtok [] cs) else strtok (cur ++ [c]) cs

/-- Result of parsing: `bad` is the return value -1, `ok` gives the number of tokens used and the filter. -/
inductive Parsed where
  | bad
  | ok (n : Nat) (f : EFilter)
deriving DecidableEq, Repr

/-- The loop over the comparison values of `EQ` and `NE`, memcached.c 12199-12216. -/
def valuesLoop (offset : Nat) : List (List Nat) → EFilter → Option (Option EFilter)
  | [], f => some (some f)
  | p :: ps, f =>
    match eflagFromStr p with
    | none => some none
    | some v =>
      match writeAt f.compval (f.compvcnt * f.ncompval) v with
      | none => none
      | some m =>
        let f := { f with compval := m, compvcnt := f.compvcnt + 1 }
        if f.compvcnt > maxCompare then some none
        else if f.compvcnt = 1 then
          if offset + v.length > maxEflag then some none
          else if f.nbitwval > 0 ∧ v.length ≠ f.nbitwval then some none
          else valuesLoop offset ps { f with ncompval := v.length }
        else if v.length ≠ f.ncompval then some none
        else valuesLoop offset ps f

/-- The comparison part of a filter, memcached.c 12187-12230; `used` tokens were used before it. -/
def parseCompare (offset : Nat) (used : Nat) (top tval : List Nat) (f : EFilter) : Option Parsed :=
  match compareOp top with
  | none => some .bad
  | some op =>
    let f := { f with compop := op }
    if op = .eq ∨ op = .ne then
      match valuesLoop offset (strtok [] tval) { f with compvcnt := 0 } with
      | none => none
      | some none => some .bad
      | some (some f) => some (.ok (used + 2) f)
    else
      match eflagFromStr tval with
      | none => some .bad
      | some v =>
        match writeAt f.compval 0 v with
        | none => none
        | some m =>
          if offset + v.length > maxEflag then some .bad
          else if f.nbitwval > 0 ∧ v.length ≠ f.nbitwval then some .bad
          else some (.ok (used + 2) { f with compval := m, ncompval := v.length, compvcnt := 1 })

/-- `get_efilter_from_tokens`, memcached.c 12162-12236; `f0` is what the structure held before (from an earlier command);
tokens without their terminating NUL. -/
def parseFilter (f0 : EFilter) (tokens : List (List Nat)) : Option Parsed :=
  match tokens with
  | t0 :: t1 :: t2 :: more =>
    if is0x t2 then
      match Verif.Util.safeStrtoul (t0 ++ [0]) with
      | none => none
      | some none => some .bad
      | some (some offset) =>
        if offset ≥ maxEflag then some .bad
        else
          match more with
          | t3 :: t4 :: _ =>
            if is0x t4 then
              match bitwiseOp t1 with
              | none => some .bad
              | some bop =>
                match eflagFromStr t2 with
                | none => some .bad
                | some v =>
                  match writeAt f0.bitwval 0 v with
                  | none => none
                  | some m => parseCompare offset 3 t3 t4 { f0 with offset := offset, bitwop := bop, bitwval := m, nbitwval := v.length }
            else parseCompare offset 1 t1 t2 { f0 with offset := offset, nbitwval := 0 }
          | _ => parseCompare offset 1 t1 t2 { f0 with offset := offset, nbitwval := 0 }
    else some (.ok 0 { f0 with ncompval := 0 })
  | _ => some (.ok 0 { f0 with ncompval := 0 })

end Verif.BT
