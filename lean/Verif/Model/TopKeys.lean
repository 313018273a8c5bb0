/-
Model of the "top keys" statistics: /repo/topkeys.c (the most recently used keys, a
doubly linked list threaded through heap items plus a hash table) and the parts of
/repo/genhash.c it uses.

Memory is a finite map from addresses to nodes, so that a use of freed memory, a tripped
assertion or a NULL dereference shows up as `none`.  Address 0 is `&tk->list`, the head of
the ring.  All functions run under `tk->mutex` (topkeys.h 70, topkeys.c 197), therefore
one after another.
-/

namespace Verif.TopKeys

/-- A key is a string of bytes (topkeys.h 95). -/
abbrev Key := List UInt8

/-- Number of counters of an item: TK_OPS 13, TK_LOPS 9, TK_SOPS 11, TK_MOPS 12,
    TK_BOPS 29, TK_AOPS 4 (topkeys.h 25-61). -/
def nCounters : Nat := 78

/-- `topkey_item_t` (topkeys.h 83-96), and for address 0 the head `tk->list`
    (topkeys.h 99), of which only the two links are used.  `nkey` is the length of `key`;
    `cnt` are the counters in the order in which the macros declare them. -/
structure Node where
  next : Nat
  prev : Nat
  key : Key
  ctime : Nat
  atime : Nat
  cnt : List Nat
deriving DecidableEq, Repr

/-- The heap as far as top keys use it: the live nodes by address. -/
abbrev Mem := List (Nat × Node)

/-- Read of the node at an address; `none` if nothing live is there. -/
def get : Mem → Nat → Option Node
  | [], _ => none
  | (b, n) :: m, a => if b = a then some n else get m a

/-- `free` (topkeys.c 111). -/
def release (m : Mem) (a : Nat) : Mem := m.filter (fun p => !(p.1 == a))

/-- Write of a whole node. -/
def put (m : Mem) (a : Nat) (n : Node) : Mem := (a, n) :: release m a

/-- `a->next = v` (topkeys.c 84, 90, 93). -/
def setNext (m : Mem) (a v : Nat) : Option Mem := do
  let n ← get m a
  some (put m a { n with next := v })

/-- `a->prev = v` (topkeys.c 85, 91, 92). -/
def setPrev (m : Mem) (a v : Nat) : Option Mem := do
  let n ← get m a
  some (put m a { n with prev := v })

/-- `dlist_remove` (topkeys.c 80-86), with both assertions. -/
def dlistRemove (m : Mem) (a : Nat) : Option Mem := do
  let n ← get m a
  let p ← get m n.prev
  if p.next ≠ a then none else do
  let x ← get m n.next
  if x.prev ≠ a then none else do
  let m ← setNext m n.prev n.next
  setPrev m n.next n.prev

/-- `dlist_insert_after` (topkeys.c 88-94). -/
def dlistInsertAfter (m : Mem) (l a : Nat) : Option Mem := do
  let h ← get m l
  let m ← setNext m a h.next
  let m ← setPrev m a l
  let h ← get m l
  let m ← setPrev m h.next a
  setNext m l a

/-- `prime_size_table` (genhash.c 14-19). -/
def primeSizeTable : List Nat :=
  [3, 7, 13, 23, 47, 97, 193, 383, 769, 1531, 3067, 6143, 12289, 24571, 49157,
   98299, 196613, 393209, 786433, 1572869, 3145721, 6291449, 12582917,
   25165813, 50331653, 100663291, 201326611, 402653189, 805306357, 1610612741]

/-- `genhash_string_hash` (genhash.c 343-355).  `int` and `char` are taken to be 32 bits and
    signed 8 bits; the overflowing `int` arithmetic is taken to wrap. -/
def stringHash (k : Key) : BitVec 32 :=
  k.foldl (fun rv c => ((rv <<< 5) + rv) ^^^ (c.toBitVec.signExtend 32)) 5381#32

/-- `hashfunc(k, klen) % h->size` (genhash.c 112, 135, 225): the `int` is converted to
    `size_t` because `size` is one (genhash_int.h 18). -/
def hashIdx (size : Nat) (k : Key) : Nat := ((stringHash k).signExtend 64).toNat % size

/-- `topkeys_t` (topkeys.h 98-104).  A table entry (genhash_int.h 4-15) is the address of
    its item: key and value of an entry both point into the item, since no `dupKey` and
    `dupValue` are given (topkeys.c 52-59, 125). -/
structure TK where
  mem : Mem
  buckets : List (List Nat)
  nkeys : Nat
  maxKeys : Nat

/-- `topkeys_init` (topkeys.c 40-66) with `genhash_init` (genhash.c 71-92).  Which of the 30
    sizes is used is computed in floating point (genhash.c 57-69); here it is the
    parameter `magn`.  The two callocs are taken to succeed. -/
def init (maxKeys magn : Nat) : Option TK := do
  if maxKeys < 1 then none else do
  let size ← primeSizeTable[magn]?
  some { mem := [(0, { next := 0, prev := 0, key := [], ctime := 0, atime := 0, cnt := [] })],
         buckets := List.replicate size [], nkeys := 0, maxKeys := maxKeys }

/-- The loop of `genhash_find_entry` (genhash.c 140) with `my_hash_eq` (topkeys.c 34-38). -/
def findIn (m : Mem) (k : Key) : List Nat → Option (Option Nat)
  | [] => some none
  | a :: as => do
    let n ← get m a
    if n.key = k then some (some a) else findIn m k as

/-- `genhash_find` (genhash.c 128-156). -/
def find (t : TK) (k : Key) : Option (Option Nat) := do
  let b ← t.buckets[hashIdx t.buckets.length k]?
  findIn t.mem k b

/-- Unlinking of the first matching entry of a bucket (genhash.c 229-243). -/
def deleteIn (m : Mem) (k : Key) : List Nat → Option (List Nat)
  | [] => some []
  | a :: as => do
    let n ← get m a
    if n.key = k then some as else do
    let r ← deleteIn m k as
    some (a :: r)

/-- `genhash_delete` (genhash.c 217-250). -/
def hashDelete (t : TK) (k : Key) : Option TK := do
  let i := hashIdx t.buckets.length k
  let b ← t.buckets[i]?
  let b' ← deleteIn t.mem k b
  some { t with buckets := t.buckets.set i b' }

/-- `genhash_update` (genhash.c 158-177) with `genhash_store` (genhash.c 103-126): the value
    of an entry found is replaced, else the entry is put in front of its bucket.  The
    calloc of an entry is taken to succeed (it is asserted, genhash.c 117). -/
def hashUpdate (t : TK) (k : Key) (a : Nat) : Option TK := do
  let i := hashIdx t.buckets.length k
  let b ← t.buckets[i]?
  let r ← findIn t.mem k b
  match r with
  | some a' => some { t with buckets := t.buckets.set i (b.map (fun c => if c = a' then a else c)) }
  | none => some { t with buckets := t.buckets.set i (a :: b) }

/-- `topkeys_item_delete` (topkeys.c 106-112). -/
def itemDelete (t : TK) (a : Nat) : Option TK := do
  let n ← get t.mem a
  let t ← hashDelete t n.key
  let m ← dlistRemove t.mem a
  some { t with mem := release m a, nkeys := t.nkeys - 1 }

/-- The item that `topkey_item_init` makes (topkeys.c 10-22). -/
def newNode (k : Key) (now : Nat) : Node :=
  { next := 0, prev := 0, key := k, ctime := now, atime := now,
    cnt := List.replicate nCounters 0 }

/-- `++tk->nkeys > tk->max_keys` and the eviction of the tail (topkeys.c 122-124). -/
def makeRoom (t : TK) : Option TK :=
  let t := { t with nkeys := t.nkeys + 1 }
  if t.nkeys > t.maxKeys then do
    let h ← get t.mem 0
    itemDelete t h.prev
  else some t

/-- `topkeys_item_get_or_create` (topkeys.c 114-135); `al` is calloc (`none` for NULL), whose
    failing trips the assertion in `topkey_item_init` (topkeys.c 12-13).  (Without
    assertions NULL would be returned, topkeys.c 127-128, and dereferenced by the macro `TK`,
    topkeys.h 71-73.)  The result is the new state and the address of the item. -/
def getOrCreate (t : TK) (al : Mem → Option Nat) (k : Key) (now : Nat) :
    Option (TK × Nat) := do
  let r ← find t k
  match r with
  | none =>
    match al t.mem with
    | none => none
    | some a => do
      let t ← makeRoom { t with mem := put t.mem a (newNode k now) }
      let t ← hashUpdate t k a
      let m ← dlistInsertAfter t.mem 0 a
      some ({ t with mem := m }, a)
  | some a => do
    let m ← dlistRemove t.mem a
    let m ← dlistInsertAfter m 0 a
    some ({ t with mem := m }, a)

/-- `tmp->op++` (topkeys.h 73): an `int` of 2^31 - 1 overflows. -/
def bump (m : Mem) (a : Nat) (op : Nat) : Option Mem := do
  let n ← get m a
  let v ← n.cnt[op]?
  if v ≥ 2147483647 then none else
  some (put m a { n with cnt := n.cnt.set op (v + 1) })

/-- One counted operation on a key (memcached.h 514-554). -/
structure Use where
  key : Key
  op : Nat
  now : Nat
deriving DecidableEq, Repr

/-- The `TK` macro (topkeys.h 66-76), with its assertion that the key is not empty. -/
def count (t : TK) (al : Mem → Option Nat) (u : Use) : Option TK :=
  if u.key = [] then none else do
  let (t, a) ← getOrCreate t al u.key u.now
  let m ← bump t.mem a u.op
  some { t with mem := m }

/-- Operations one after another; `al i` is what calloc does at the `i`-th of them. -/
def run (t : TK) (al : Nat → Mem → Option Nat) : Nat → List Use → Option TK
  | _, [] => some t
  | i, u :: us => do
    let t ← count t (al i) u
    run t al (i + 1) us

/-- `dlist_iter` (topkeys.c 96-104) from address `p` on; the fuel is one more than the
    number of live nodes, a longer walk would not end. -/
def iter (m : Mem) : Nat → Nat → Option (List Node)
  | 0, _ => none
  | fuel + 1, p => do
    let n ← get m p
    if n.next = 0 then some [] else do
    let x ← get m n.next
    let r ← iter m fuel n.next
    some (x :: r)

/-- The items that `topkeys_stats` visits (topkeys.c 187-201). -/
def items (t : TK) : Option (List Node) := iter t.mem (t.mem.length + 1) 0

/-- The names of TK_OPS (topkeys.h 25-28). -/
def opNames : List String :=
  ["get_hits", "get_misses", "cmd_set", "incr_hits", "incr_misses", "decr_hits",
   "decr_misses", "delete_hits", "delete_misses", "evictions", "cas_hits", "cas_misses",
   "cas_badval"]

/-- `%d` and `PRIu32` of a number that is not negative. -/
def dec (n : Nat) : List Char := Nat.toDigits 10 n

/-- TK_FMT for one counter after the other (topkeys.c 169, 182). -/
def fmtOps : List String → List Nat → List Char
  | s :: ss, v :: vs => s.toList ++ ('=' :: dec v) ++ ',' :: fmtOps ss vs
  | _, _ => []

/-- What the snprintf of `tk_iterfunc` formats (topkeys.c 181-183); the differences of times
    are 32-bit unsigned. -/
def fmtLine (now : Nat) (n : Node) : List Char :=
  fmtOps opNames n.cnt ++ "ctime=".toList ++ dec ((now + 4294967296 - n.ctime) % 4294967296)
    ++ ",atime=".toList ++ dec ((now + 4294967296 - n.atime) % 4294967296)

/-- `snprintf(val_str, 249, …)` into `char val_str[250]` followed by `add_stat(…, val_str,
    vlen, …)`, where `vlen` is the length before cutting (topkeys.c 176-184): at most 248
    characters and a NUL are written; reading more than that reads a byte nobody wrote and
    then past the array. -/
def statValue (now : Nat) (n : Node) : Option (List Char) :=
  let s := fmtLine now n
  if s.length ≤ 248 then some s
  else if s.length = 249 then some (s.take 248 ++ ['\x00'])
  else none

/-- `tk_iterfunc` over the items of the list. -/
def statLines (now : Nat) : List Node → Option (List (Key × List Char))
  | [] => some []
  | n :: ns => do
    let v ← statValue now n
    let r ← statLines now ns
    some ((n.key, v) :: r)

/-- `topkeys_stats` (topkeys.c 187-201): the pairs handed to `add_stat`. -/
def stats (t : TK) (now : Nat) : Option (List (Key × List Char)) := do
  let ns ← items t
  statLines now ns

end Verif.TopKeys
