import Verif.Model.Resp
import Verif.Spec.Util
/-!
# What a client reads in an ASCII reply

A client as docs/ascii-protocol describes the replies: lines end with `\r\n`, words are separated by one blank, data is taken by its length.
-/
namespace Verif.Resp.Spec
open Verif.BT (BKey)
open Verif.Util.Spec (decVal)

/-! ## Reading -/

/-- A line: the bytes up to the first `\r\n`, and the rest. -/
def line : List Nat → Option (List Nat × List Nat)
  | 13 :: 10 :: r => some ([], r)
  | b :: r => (line r).map fun (l, r) => (b :: l, r)
  | [] => none

/-- A word: the bytes up to the first blank, and the rest. -/
def word : List Nat → Option (List Nat × List Nat)
  | [] => none
  | b :: r => if b = 32 then some ([], r) else (word r).map fun (w, r) => (b :: w, r)

/-- The words of a line. -/
def words (l : List Nat) : List (List Nat) :=
  match l with
  | [] => [[]]
  | b :: r =>
    if b = 32 then [] :: words r
    else match words r with
      | [] => [[b]]
      | w :: ws => (b :: w) :: ws

/-- A decimal number. -/
def number (w : List Nat) : Option Nat := if w ≠ [] ∧ w.all (fun d => 48 ≤ d && d ≤ 57) then some (decVal w) else none

/-- A decimal number with an optional minus sign. -/
def integer (w : List Nat) : Option Int :=
  match w with
  | 45 :: r => (number r).map fun n => -(n : Int)
  | _ => (number w).map fun n => (n : Int)

/-- A hexadecimal digit. -/
def digit (c : Nat) : Option Nat :=
  if 48 ≤ c ∧ c ≤ 57 then some (c - 48) else if 65 ≤ c ∧ c ≤ 70 then some (c - 55) else if 97 ≤ c ∧ c ≤ 102 then some (c - 87) else none

/-- Bytes in hexadecimal notation. -/
def hex : List Nat → Option (List Nat)
  | [] => some []
  | [_] => none
  | a :: b :: r =>
    match digit a, digit b, hex r with
    | some x, some y, some bs => some ((16 * x + y) :: bs)
    | _, _, _ => none

/-- A bkey: `0x` and bytes, or a number. -/
def bkey (w : List Nat) : Option BKey :=
  match w with
  | 48 :: 120 :: h => (hex h).map .bin
  | _ => (number w).map .num

/-- `n` bytes of data and the line end behind them. -/
def block (n : Nat) (t : List Nat) : Option (List Nat × List Nat) :=
  if n ≤ t.length then
    match t.drop n with
    | 13 :: 10 :: r => some (t.take n, r)
    | _ => none
  else none

/-- `<bytes> <data>\r\n`. -/
def sized (t : List Nat) : Option (List Nat × List Nat) := do
  let (w, t) ← word t
  let n ← number w
  block n t

/-- An element of a list or a set. -/
abbrev LElem := List Nat
/-- An element of a map: field and data. -/
abbrev MElem := List Nat × List Nat
/-- An element of a b+tree: bkey, element flag (empty if there is none), data. -/
abbrev BElem := BKey × List Nat × List Nat

/-- `<field> <bytes> <data>\r\n`. -/
def melem (t : List Nat) : Option (MElem × List Nat) := do
  let (f, t) ← word t
  let (d, t) ← sized t
  some ((f, d), t)

/-- `<bkey> [<eflag>] <bytes> <data>\r\n`. -/
def belem (t : List Nat) : Option (BElem × List Nat) := do
  let (w, t) ← word t
  let k ← bkey w
  let (v, t) ← word t
  match v with
  | 48 :: 120 :: h => do
    let f ← hex h
    let (d, t) ← sized t
    some ((k, f, d), t)
  | _ => do
    let n ← number v
    let (d, t) ← block n t
    some ((k, [], d), t)

/-- `n` times the same. -/
def times {α : Type} (p : List Nat → Option (α × List Nat)) : Nat → List Nat → Option (List α × List Nat)
  | 0, t => some ([], t)
  | n + 1, t => do
    let (x, t) ← p t
    let (xs, t) ← times p n t
    some (x :: xs, t)

/-- The last line of a reply. -/
inductive Tail where
  | fin | deleted | dropped | trimmed | dup | dupTrimmed
deriving DecidableEq, Repr

/-- The last line: `END`, `DELETED`, `DELETED_DROPPED`, `TRIMMED`, `DUPLICATED`, `DUPLICATED_TRIMMED`. -/
def last (t : List Nat) : Option (Tail × List Nat) := do
  let (l, t) ← line t
  if l = [69, 78, 68] then some (.fin, t)
  else if l = [68, 69, 76, 69, 84, 69, 68] then some (.deleted, t)
  else if l = [68, 69, 76, 69, 84, 69, 68, 95, 68, 82, 79, 80, 80, 69, 68] then some (.dropped, t)
  else if l = [84, 82, 73, 77, 77, 69, 68] then some (.trimmed, t)
  else if l = [68, 85, 80, 76, 73, 67, 65, 84, 69, 68] then some (.dup, t)
  else if l = [68, 85, 80, 76, 73, 67, 65, 84, 69, 68, 95, 84, 82, 73, 77, 77, 69, 68] then some (.dupTrimmed, t)
  else none

/-- The last line that belongs to what was done: elements deleted, collection dropped, range trimmed. -/
def tailOf (delete dropped trimmed : Bool) : Tail :=
  if delete then (if dropped then .dropped else .deleted) else if trimmed then .trimmed else .fin

/-- The last line of `bop smget` without a mode. -/
def tailOld (trimmed dup : Bool) : Tail := if trimmed then (if dup then .dupTrimmed else .trimmed) else (if dup then .dup else .fin)

/-- A reply with elements: `VALUE <flags> <count>\r\n`, elements, last line. -/
def values {α : Type} (p : List Nat → Option (α × List Nat)) (t : List Nat) : Option ((Nat × List α × Tail) × List Nat) := do
  let (l, t) ← line t
  match words l with
  | [[86, 65, 76, 85, 69], f, n] => do
    let f ← number f
    let n ← number n
    let (es, t) ← times p n t
    let (e, t) ← last t
    some ((f, es, e), t)
  | _ => none

/-- The reply of `bop pwg`: `VALUE <position> <flags> <count> <index>\r\n`, elements, last line. -/
def pwg (t : List Nat) : Option ((Nat × Nat × Nat × List BElem × Tail) × List Nat) := do
  let (l, t) ← line t
  match words l with
  | [[86, 65, 76, 85, 69], p, f, n, i] => do
    let p ← number p
    let f ← number f
    let n ← number n
    let i ← number i
    let (es, t) ← times belem n t
    let (e, t) ← last t
    some ((p, f, i, es, e), t)
  | _ => none

/-- What `bop mget` says about a key. -/
inductive Ans where
  | hit (trimmed : Bool) (flags : Nat) (es : List BElem)
  | status (s : List Nat)
deriving DecidableEq, Repr

/-- `ELEMENT <bkey> [<eflag>] <bytes> <data>\r\n`. -/
def element (t : List Nat) : Option (BElem × List Nat) := do
  let (w, t) ← word t
  if w = [69, 76, 69, 77, 69, 78, 84] then belem t else none

/-- The reply of `bop mget`: for every key `VALUE <key> <status> [<flags> <ecount>]\r\n` and elements, then `END`.  The first argument bounds the number of
keys. -/
def mget : Nat → List Nat → Option (List (List Nat × Ans) × List Nat)
  | 0, _ => none
  | k + 1, t => do
    let (l, t) ← line t
    match words l with
    | [[69, 78, 68]] => some ([], t)
    | [[86, 65, 76, 85, 69], key, s] => do
      let (xs, t) ← mget k t
      some ((key, .status s) :: xs, t)
    | [[86, 65, 76, 85, 69], key, s, f, n] => do
      let tr ← (if s = [79, 75] then some false else if s = [84, 82, 73, 77, 77, 69, 68] then some true else none)
      let f ← number f
      let n ← number n
      let (es, t) ← times element n t
      let (xs, t) ← mget k t
      some ((key, .hit tr f es) :: xs, t)
    | _ => none

/-- `<key> <flags> <bkey> [<eflag>] <bytes> <data>\r\n`. -/
def selem (t : List Nat) : Option ((List Nat × Nat × BElem) × List Nat) := do
  let (k, t) ← word t
  let (f, t) ← word t
  let f ← number f
  let (e, t) ← belem t
  some ((k, f, e), t)

/-- `<key> <cause>\r\n`. -/
def miss (t : List Nat) : Option ((List Nat × List Nat) × List Nat) := do
  let (l, t) ← line t
  match words l with
  | [k, c] => some ((k, c), t)
  | _ => none

/-- `<key> <bkey>\r\n`. -/
def trim (t : List Nat) : Option ((List Nat × BKey) × List Nat) := do
  let (l, t) ← line t
  match words l with
  | [k, b] => do
    let b ← bkey b
    some ((k, b), t)
  | _ => none

/-- A line with a word and a number. -/
def heading (w : List Nat) (t : List Nat) : Option (Nat × List Nat) := do
  let (l, t) ← line t
  match words l with
  | [v, n] => if v = w then (number n).map fun n => (n, t) else none
  | _ => none

/-- What `bop smget` answers. -/
structure Merged where
  elems : List (List Nat × Nat × BElem)
  missed : List (List Nat × List Nat)
  trimmed : List (List Nat × BKey)
  tail : Tail
deriving DecidableEq, Repr

/-- The reply of `bop smget` with a mode. -/
def smget (t : List Nat) : Option (Merged × List Nat) := do
  let (n, t) ← heading [69, 76, 69, 77, 69, 78, 84, 83] t
  let (es, t) ← times selem n t
  let (n, t) ← heading [77, 73, 83, 83, 69, 68, 95, 75, 69, 89, 83] t
  let (ms, t) ← times miss n t
  let (n, t) ← heading [84, 82, 73, 77, 77, 69, 68, 95, 75, 69, 89, 83] t
  let (ts, t) ← times trim n t
  let (e, t) ← last t
  some (⟨es, ms, ts, e⟩, t)

/-- The reply of `bop smget` without a mode: elements, missed keys, last line. -/
def smgetOld (t : List Nat) : Option ((List (List Nat × Nat × BElem) × List (List Nat) × Tail) × List Nat) := do
  let (n, t) ← heading [86, 65, 76, 85, 69] t
  let (es, t) ← times selem n t
  let (n, t) ← heading [77, 73, 83, 83, 69, 68, 95, 75, 69, 89, 83] t
  let (ms, t) ← times line n t
  let (e, t) ← last t
  some ((es, ms, e), t)

/-- An item in the reply of `get`: key, flags, data, cas. -/
abbrev Hit := List Nat × Nat × List Nat × Option Nat

/-- The reply of `get`, `gets`, `mget`, `mgets`: `VALUE <key> <flags> <bytes> [<cas>]\r\n<data>\r\n` for every hit, then `END`.  The first argument bounds
the number of hits. -/
def gets : Nat → List Nat → Option (List Hit × List Nat)
  | 0, _ => none
  | k + 1, t => do
    let (l, t) ← line t
    match words l with
    | [[69, 78, 68]] => some ([], t)
    | [[86, 65, 76, 85, 69], key, f, n] => do
      let f ← number f
      let n ← number n
      let (d, t) ← block n t
      let (xs, t) ← gets k t
      some ((key, f, d, none) :: xs, t)
    | [[86, 65, 76, 85, 69], key, f, n, c] => do
      let f ← number f
      let n ← number n
      let c ← number c
      let (d, t) ← block n t
      let (xs, t) ← gets k t
      some ((key, f, d, some c) :: xs, t)
    | _ => none

/-! ## What may be stored -/

/-- A key or field: not empty, no blank, no line feed. -/
def Word (k : List Nat) : Prop := k ≠ [] ∧ 32 ∉ k ∧ 10 ∉ k

instance (k : List Nat) : Decidable (Word k) := by unfold Word; infer_instance

/-- A bkey: 1 to 31 bytes, or 64 bits. -/
def BkeyOk : BKey → Prop
  | .num v => v < 2 ^ 64
  | .bin b => 0 < b.length ∧ b.length ≤ 31 ∧ ∀ x ∈ b, x < 256

instance (k : BKey) : Decidable (BkeyOk k) := by cases k <;> (unfold BkeyOk; infer_instance)

/-- The data of an element, with `\r\n` behind it, as it lies in the element; at most 32 KB (item_base.h 41). -/
def DataOk (e : Elem) (d : List Nat) : Prop :=
  e.value ++ e.addnl.flatten = d ++ [13, 10] ∧ e.nbytes = d.length + 2 ∧ d.length + 2 ≤ 32768

/-- The element `e` of a b+tree is stored with this bkey, element flag and data. -/
def Stored (e : Elem) (x : BElem) : Prop :=
  e.bkey = x.1 ∧ e.eflag = x.2.1 ∧ DataOk e x.2.2 ∧ BkeyOk x.1 ∧ x.2.1.length ≤ 31 ∧ ∀ b ∈ x.2.1, b < 256

/-- The element `e` of a map is stored with this field and data. -/
def StoredM (e : Elem) (x : MElem) : Prop := e.field = x.1 ∧ DataOk e x.2 ∧ Word x.1 ∧ x.1.length ≤ 250

/-- The item is stored with this key, flags, data and cas; data of less than 128 MB (memcached.c 15842). -/
def StoredI (cas : Bool) (it : Item) (x : Hit) : Prop :=
  it.key = x.1 ∧ it.flags = x.2.1 ∧ it.value ++ it.addnl.flatten = x.2.2.1 ++ [13, 10] ∧ it.nbytes = x.2.2.1.length + 2 ∧
    x.2.2.2 = (if cas then some it.cas else none) ∧ Word x.1 ∧ x.2.1 < 2 ^ 32 ∧ x.2.2.1.length + 2 ≤ 134217728 ∧ it.cas < 2 ^ 64

/-- Two lists, element by element. -/
inductive Each {α β : Type} (R : α → β → Prop) : List α → List β → Prop where
  | nil : Each R [] []
  | cons {a b as bs} : R a b → Each R as bs → Each R (a :: as) (b :: bs)

/-- The word for what was found in place of elements (docs/ascii-protocol, `bop mget`). -/
def statusWord : Found → Option (List Nat)
  | .hit _ _ _ => none
  | .noElem => some [78, 79, 84, 95, 70, 79, 85, 78, 68, 95, 69, 76, 69, 77, 69, 78, 84]
  | .noKey => some [78, 79, 84, 95, 70, 79, 85, 78, 68]
  | .outOfRange => some [79, 85, 84, 95, 79, 70, 95, 82, 65, 78, 71, 69]
  | .unreadable => some [85, 78, 82, 69, 65, 68, 65, 66, 76, 69]
  | .badType => some [84, 89, 80, 69, 95, 77, 73, 83, 77, 65, 84, 67, 72]
  | .badBkey => some [66, 75, 69, 89, 95, 77, 73, 83, 77, 65, 84, 67, 72]

/-- What was found for a key is this answer. -/
inductive Answers : Found → Ans → Prop where
  | hit {tr flags es bs} : flags < 2 ^ 32 → Each Stored es bs → Answers (.hit tr flags es) (.hit tr flags bs)
  | status {f w} : statusWord f = some w → Answers f (.status w)

/-- What was found for this key is this answer, with at most `count` elements. -/
def StoredA (count : Nat) (r : List Nat × Found) (x : List Nat × Ans) : Prop :=
  r.1 = x.1 ∧ Answers r.2 x.2 ∧ r.2.elems.length ≤ count

/-- An element of a merged reply: key, flags of the collection, element. -/
def StoredS (r : List Nat × Nat × Elem) (x : List Nat × Nat × BElem) : Prop :=
  r.1 = x.1 ∧ r.2.1 = x.2.1 ∧ x.2.1 < 2 ^ 32 ∧ Stored r.2.2 x.2.2

/-- A missed key with its cause: no such key, not readable, or trimmed. -/
def StoredMiss (r : List Nat × Found) (x : List Nat × List Nat) : Prop :=
  r.1 = x.1 ∧ (r.2 = .noKey ∨ r.2 = .unreadable ∨ r.2 = .outOfRange) ∧ statusWord r.2 = some x.2

/-! ## Attributes -/

/-- The value of an attribute as the client takes it. -/
inductive Val where
  | type (n : Nat) | number (i : Int) | ovfl (n : Nat) | flag (b : Bool) | bkey (k : BKey) | absent
deriving DecidableEq, Repr

/-- Name and value around the first `=`. -/
def split : List Nat → Option (List Nat × List Nat)
  | [] => none
  | b :: r => if b = 61 then some ([], r) else (split r).map fun (w, r) => (b :: w, r)

/-- kv, list, set, map, b+tree. -/
def typeName (w : List Nat) : Option Nat :=
  if w = [107, 118] then some 0 else if w = [108, 105, 115, 116] then some 1 else if w = [115, 101, 116] then some 2
  else if w = [109, 97, 112] then some 3 else if w = [98, 43, 116, 114, 101, 101] then some 4 else none

/-- error, head_trim, tail_trim, smallest_trim, largest_trim, smallest_silent_trim, largest_silent_trim. -/
def ovflName (w : List Nat) : Option Nat :=
  if w = [101, 114, 114, 111, 114] then some 1
  else if w = [104, 101, 97, 100, 95, 116, 114, 105, 109] then some 2
  else if w = [116, 97, 105, 108, 95, 116, 114, 105, 109] then some 3
  else if w = [115, 109, 97, 108, 108, 101, 115, 116, 95, 116, 114, 105, 109] then some 4
  else if w = [108, 97, 114, 103, 101, 115, 116, 95, 116, 114, 105, 109] then some 5
  else if w = [115, 109, 97, 108, 108, 101, 115, 116, 95, 115, 105, 108, 101, 110, 116, 95, 116, 114, 105, 109] then some 6
  else if w = [108, 97, 114, 103, 101, 115, 116, 95, 115, 105, 108, 101, 110, 116, 95, 116, 114, 105, 109] then some 7
  else none

/-- A bkey, or `-1` if there is no element. -/
def bkeyVal (w : List Nat) : Option Val := if w = [45, 49] then some .absent else (bkey w).map .bkey

/-- `<name>=<value>`. -/
def attr (w : List Nat) : Option (AttrId × Val) := do
  let (n, v) ← split w
  if n = [116, 121, 112, 101] then (typeName v).map fun x => (.type, .type x)
  else if n = [102, 108, 97, 103, 115] then (integer v).map fun x => (.flags, .number x)
  else if n = [101, 120, 112, 105, 114, 101, 116, 105, 109, 101] then (integer v).map fun x => (.exptime, .number x)
  else if n = [99, 111, 117, 110, 116] then (integer v).map fun x => (.count, .number x)
  else if n = [109, 97, 120, 99, 111, 117, 110, 116] then (integer v).map fun x => (.maxcount, .number x)
  else if n = [111, 118, 101, 114, 102, 108, 111, 119, 97, 99, 116, 105, 111, 110] then (ovflName v).map fun x => (.ovfl, .ovfl x)
  else if n = [114, 101, 97, 100, 97, 98, 108, 101] then
    (if v = [111, 110] then some (.readable, .flag true) else if v = [111, 102, 102] then some (.readable, .flag false) else none)
  else if n = [109, 97, 120, 98, 107, 101, 121, 114, 97, 110, 103, 101] then (bkeyVal v).map fun x => (.maxrange, x)
  else if n = [109, 105, 110, 98, 107, 101, 121] then (bkeyVal v).map fun x => (.minbkey, x)
  else if n = [109, 97, 120, 98, 107, 101, 121] then (bkeyVal v).map fun x => (.maxbkey, x)
  else if n = [116, 114, 105, 109, 109, 101, 100] then (integer v).map fun x => (.trimmed, .number x)
  else none

/-- The reply of `getattr`: lines `ATTR <name>=<value>`, then `END`.  The first argument bounds the number of lines. -/
def attrs : Nat → List Nat → Option (List (AttrId × Val) × List Nat)
  | 0, _ => none
  | k + 1, t => do
    let (l, t) ← line t
    match words l with
    | [[69, 78, 68]] => some ([], t)
    | [[65, 84, 84, 82], w] => do
      let x ← attr w
      let (xs, t) ← attrs k t
      some (x :: xs, t)
    | _ => none

/-- The value of an attribute.  No limit of the range is the number 0; without elements there is no first and last bkey. -/
def attrOf (a : Attrs) : AttrId → Val
  | .type => .type a.type
  | .flags => .number a.flags
  | .exptime => .number a.left
  | .count => .number a.count
  | .maxcount => .number a.maxcount
  | .ovfl => .ovfl a.ovfl
  | .readable => .flag a.readable
  | .maxrange => .bkey (a.maxrange.getD (.num 0))
  | .minbkey => if 0 < a.count then .bkey a.minbkey else .absent
  | .maxbkey => if 0 < a.count then .bkey a.maxbkey else .absent
  | .trimmed => .number (if a.trimmed then 1 else 0)

/-- A 32-bit signed number. -/
def Num32 (i : Int) : Prop := -2147483648 ≤ i ∧ i ≤ 2147483647

/-- The attribute has a value of its type. -/
def AttrOk (a : Attrs) : AttrId → Prop
  | .type => a.type ≤ 4
  | .flags => a.flags < 2 ^ 32
  | .exptime => Num32 a.left
  | .count => Num32 a.count
  | .maxcount => Num32 a.maxcount
  | .ovfl => 1 ≤ a.ovfl ∧ a.ovfl ≤ 7
  | .readable => True
  | .maxrange => ∀ k, a.maxrange = some k → BkeyOk k
  | .minbkey => 0 < a.count → BkeyOk a.minbkey
  | .maxbkey => 0 < a.count → BkeyOk a.maxbkey
  | .trimmed => True

end Verif.Resp.Spec
