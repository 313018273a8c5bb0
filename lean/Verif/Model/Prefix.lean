import Verif.Model.Util
/-!
# Prefixes

Model of engines/default/prefix.c with its callers in item_base.c: the table of prefixes, the statistics kept in each, the
`stats prefix` dump and the prefix scan.  `none` is a failed assertion, a write outside an array or a use of freed memory.  The server
is built without `NDEBUG` (no such option in configure.ac or Makefile.am), so the assertions are live.

Build options as shipped (include/memcached/types.h 35-42): `NESTED_PREFIX` and `SCAN_COMMAND` are defined.  `DEFAULT_PREFIX_MAX_DEPTH`
is 1 (prefix.h 24), so `prefix_link` never makes a child prefix: `parent_prefix` is NULL and `child_prefix_items` 0 everywhere, and the
inclusive counters are never touched; they are left out.
-/
namespace Verif.Prefix
open Verif.Util

/-- Modulus of a `uint64_t` counter (prefix.h 46-49, default_engine.h 91-92). -/
def w64 : Nat := 18446744073709551616

/-- Modulus of a `uint32_t` size (prefix.c 149, 176, 203, 224, 331, 433; item_base.h 225). -/
def w32 : Nat := 4294967296

/-- `+=` on a `uint64_t` (prefix.c 152-155, 206-207). -/
def add64 (a b : Nat) : Nat := (a + b) % w64

/-- `-=` on a `uint64_t` (prefix.c 179-182, 227-228). -/
def sub64 (a b : Nat) : Nat := (a + (w64 - b % w64)) % w64

/-- The server's settings the code depends on: the delimiter (`config->prefix_delimiter`) and the hash function
(`svcore->hash`, prefix.c 324, 359). -/
structure Cfg where
  delim : Nat
  hash : List Nat → Nat

/-- The counters of one prefix, prefix.h 45-49: per item type, and in total. -/
structure Acct where
  cnt : Nat → Nat
  byt : Nat → Nat
  tcnt : Nat
  tbyt : Nat

/-- All counters 0: `memset` in `prefix_init` (prefix.c 90) and `prefix_link` (prefix.c 405). -/
def Acct.zero : Acct := ⟨fun _ => 0, fun _ => 0, 0, 0⟩

/-- `prefix_t`, prefix.h 23-57: the name that follows the structure in memory (prefix.c 112-115, 406-407), its length in a `uint8_t`,
the flags, the reference count and the counters.  `oldest_live` and `create_time` are left out (`Verif.Item` models the former). -/
structure Pt where
  bytes : List Nat
  nprefix : Nat
  internal : Bool
  islinked : Bool
  refcount : Nat
  acct : Acct

/-- A linked item as far as prefixes are concerned: its key, type (0 KV, 1 list, 2 set, 3 map, 4 b+tree), `slabs_space_size(ITEM_ntotal)`
(item_base.c 147-148), `info->stotal` of a collection (a `uint32_t`, item_base.h 225, 250, 275, 312), and `pfxptr` (`none`: the null
prefix). -/
structure It where
  key : List Nat
  ty : Nat
  base : Nat
  stotal : Nat
  pfx : Option Nat

/-- `ITEM_stotal`, item_base.c 145-154. -/
def It.size (it : It) : Nat := if it.ty = 0 then it.base else it.base + it.stotal

/-- The null prefix, the prefixes in memory by address, the next address (addresses are not reused, so that a use of freed memory
shows), the hash chains, `total_prefix_items`, the linked items by address, and `curr_items` and `curr_bytes`. -/
structure St where
  null : Acct
  heap : Nat → Option Pt
  fresh : Nat
  table : Nat → List Nat
  total : Nat
  items : Nat → Option It
  currItems : Nat
  currBytes : Nat

/-- `prefix_init`, prefix.c 77-99. -/
def init : St := ⟨.zero, fun _ => none, 0, fun _ => [], 0, fun _ => none, 0, 0⟩

/-- `hashsize(DEFAULT_PREFIX_HASHPOWER)`, prefix.c 29, 35. -/
def buckets : Nat := 1024

/-- The bucket of a name: `hash & hashmask`, prefix.c 119, 253, 278. -/
def bucket (h : Nat) : Nat := h % buckets

/-- The test of `_prefix_find` and `_prefix_delete`, prefix.c 121, 282: the length, then `memcmp` of that many bytes. -/
def named (pt : Pt) (name : List Nat) (n : Nat) : Bool :=
  decide (n = pt.nprefix) && decide (pt.bytes.take n = name.take n)

/-- The walk along a chain, prefix.c 120-126, 281-287. -/
def findChain (heap : Nat → Option Pt) (name : List Nat) (n : Nat) : List Nat → Option (Option Nat)
  | [] => some none
  | i :: l =>
    match heap i with
    | none => none
    | some pt => if named pt name n then some (some i) else findChain heap name n l

/-- `_prefix_find`, prefix.c 117-127. -/
def find (s : St) (name : List Nat) (n : Nat) (h : Nat) : Option (Option Nat) :=
  findChain s.heap name n (s.table (bucket h))

/-- `_prefix_item_count_incr`, prefix.c 149-174. -/
def Acct.incr (a : Acct) (ty size : Nat) : Acct where
  cnt t := if t = ty then add64 (a.cnt t) 1 else a.cnt t
  byt t := if t = ty then add64 (a.byt t) size else a.byt t
  tcnt := add64 a.tcnt 1
  tbyt := add64 a.tbyt size

/-- `_prefix_item_count_decr`, prefix.c 176-201. -/
def Acct.decr (a : Acct) (ty size : Nat) : Acct where
  cnt t := if t = ty then sub64 (a.cnt t) 1 else a.cnt t
  byt t := if t = ty then sub64 (a.byt t) size else a.byt t
  tcnt := sub64 a.tcnt 1
  tbyt := sub64 a.tbyt size

/-- `_prefix_item_bytes_incr`, prefix.c 203-222. -/
def Acct.more (a : Acct) (ty n : Nat) : Acct :=
  { a with byt := fun t => if t = ty then add64 (a.byt t) n else a.byt t, tbyt := add64 a.tbyt n }

/-- `_prefix_item_bytes_decr`, prefix.c 224-243. -/
def Acct.less (a : Acct) (ty n : Nat) : Acct :=
  { a with byt := fun t => if t = ty then sub64 (a.byt t) n else a.byt t, tbyt := sub64 a.tbyt n }

/-- A function updated at one place. -/
def upd {α : Type} (f : Nat → α) (i : Nat) (a : α) : Nat → α := fun j => if j = i then a else f j

/-- The counters of the prefix a pointer refers to are changed; a freed prefix is an error. -/
def withAcct (s : St) (p : Option Nat) (f : Acct → Acct) : Option St :=
  match p with
  | none => some { s with null := f s.null }
  | some i =>
    match s.heap i with
    | none => none
    | some pt => some { s with heap := upd s.heap i (some { pt with acct := f pt.acct }) }

/-- The first delimiter of a key that is not its first byte: `memchr(key+1, delimiter, nkey-1)`, prefix.c 342-350. -/
def firstDelim (d : Nat) (key : List Nat) : Option Nat :=
  match key with
  | [] => none
  | _ :: r => if d ∈ r then some (1 + (r.takeWhile (· != d)).length) else none

/-- `PREFIX_IS_RSVD`, prefix.h 59, on a name of length `n`: "arcus". -/
def isRsvd (key : List Nat) (n : Nat) : Bool := decide (n = 5) && decide (key.take 5 = [97, 114, 99, 117, 115])

/-- Answers. -/
inductive Rep where
  | ok | ename | nomem
  | stats (l : List (Option (List Nat) × (Nat × List Nat) × (Nat × List Nat)))
  | count (n : Nat)
  | scan (l : List (Option Nat × Option (List Nat))) (next : Nat)
  | name (n : Option (List Nat))
  | totals (items bytes : Nat)

/-- `_prefix_insert`, prefix.c 245-275: the new prefix must not be found; it becomes the head of its chain. -/
def insertPt (s : St) (pt : Pt) (h : Nat) : Option (Except Rep (St × Option Nat)) :=
  match find s pt.bytes pt.nprefix h with
  | none => none
  | some (some _) => none
  | some none =>
    some (.ok ({ s with
      heap := upd s.heap s.fresh (some pt)
      fresh := s.fresh + 1
      table := upd s.table (bucket h) (s.fresh :: s.table (bucket h))
      total := (s.total + 1) % w32 }, some s.fresh))

/-- Finding or making the prefix of a key, the first part of `prefix_link` (prefix.c 331-421): the state and the pointer, or the error
code.  `mem`: whether `malloc` succeeds.  The length of the name goes into a `uint8_t` (prefix.c 408, prefix.h 27). -/
def getPrefix (cfg : Cfg) (s : St) (key : List Nat) (mem : Bool) : Option (Except Rep (St × Option Nat)) :=
  match firstDelim cfg.delim key with
  | none => some (.ok (s, none))
  | some n =>
    match find s key n (cfg.hash (key.take n)) with
    | none => none
    | some (some i) => some (.ok (s, some i))
    | some none =>
      match isValidName key n with
      | none => none
      | some false => some (.error .ename)
      | some true =>
        if !mem then some (.error .nomem)
        else insertPt s ⟨key.take n, n % 256, isRsvd key n, true, 0, .zero⟩ (cfg.hash (key.take n))

/-- `do_item_link` (item_base.c 992-1028) with `prefix_link` (prefix.c 331-431) and `do_item_stat_link` (item_base.c 199-212).  The hash
table, the LRU list and the log are modelled elsewhere; `ITEM_INTERNAL` is left out. -/
def link (cfg : Cfg) (s : St) (id : Nat) (key : List Nat) (ty base stotal : Nat) (mem : Bool) : Option (St × Rep) :=
  if key = [] then none
  else
    match getPrefix cfg s key mem with
    | none => none
    | some (.error e) => some (s, e)
    | some (.ok (s, p)) =>
      let it : It := ⟨key, ty, base, stotal, p⟩
      match withAcct s p (·.incr ty (it.size % w32)) with
      | none => none
      | some s =>
        some ({ s with
          items := upd s.items id (some it)
          currItems := add64 s.currItems 1
          currBytes := add64 s.currBytes it.size }, .ok)

/-- A chain without the first prefix of the given name, with that prefix: `_prefix_delete`, prefix.c 281-306. -/
def cutChain (heap : Nat → Option Pt) (name : List Nat) (n : Nat) : List Nat → Option (List Nat × Option Nat)
  | [] => some ([], none)
  | i :: l =>
    match heap i with
    | none => none
    | some pt =>
      if named pt name n then some (l, some i)
      else
        match cutChain heap name n l with
        | none => none
        | some (l', r) => some (i :: l', r)

/-- `_prefix_delete`, prefix.c 276-316: found by name, unlinked, and freed unless a scan still refers to it. -/
def delete (s : St) (name : List Nat) (n : Nat) (h : Nat) : Option St :=
  match cutChain s.heap name n (s.table (bucket h)) with
  | none => none
  | some (_, none) => some s
  | some (l', some i) =>
    match s.heap i with
    | none => none
    | some pt =>
      some { s with
        total := (s.total + (w32 - 1)) % w32
        table := upd s.table (bucket h) l'
        heap := upd s.heap i (if pt.refcount = 0 then none else some { pt with islinked := false }) }

/-- The end of `prefix_unlink`, prefix.c 442-452: a prefix without items is deleted.  (`drop_if_empty` is always true: no caller of
`do_item_unlink` passes `ITEM_UNLINK_REPLACE`.) -/
def dropEmpty (cfg : Cfg) (s : St) (p : Option Nat) : Option St :=
  match p with
  | none => some s
  | some i =>
    match s.heap i with
    | none => none
    | some pt =>
      if 0 < pt.acct.tcnt then some s
      else if pt.acct.tbyt ≠ 0 then none
      else delete s pt.bytes pt.nprefix (cfg.hash (pt.bytes.take pt.nprefix))

/-- `do_item_unlink` (item_base.c 1031-1071) with `prefix_unlink` (prefix.c 433-453) and `do_item_stat_unlink` (item_base.c 214-226). -/
def unlink (cfg : Cfg) (s : St) (id : Nat) : Option (St × Rep) :=
  match s.items id with
  | none => none
  | some it =>
    match withAcct s it.pfx (·.decr it.ty (it.size % w32)) with
    | none => none
    | some s =>
      match dropEmpty cfg s it.pfx with
      | none => none
      | some s =>
        some ({ s with
          items := upd s.items id none
          currItems := sub64 s.currItems 1
          currBytes := sub64 s.currBytes it.size }, .ok)

/-- `do_coll_space_incr`, item_base.c 340-348, when an element is linked. -/
def grow (s : St) (id n : Nat) : Option (St × Rep) :=
  match s.items id with
  | none => none
  | some it =>
    match withAcct s it.pfx (·.more it.ty (n % w32)) with
    | none => none
    | some s =>
      some ({ s with
        items := upd s.items id (some { it with stotal := (it.stotal + n) % w32 })
        currBytes := add64 s.currBytes n }, .ok)

/-- `do_coll_space_decr`, item_base.c 354-363, when an element is unlinked. -/
def shrink (s : St) (id n : Nat) : Option (St × Rep) :=
  match s.items id with
  | none => none
  | some it =>
    if it.stotal < n then none
    else
      match withAcct s it.pfx (·.less it.ty (n % w32)) with
      | none => none
      | some s =>
        some ({ s with
          items := upd s.items id (some { it with stotal := it.stotal - n })
          currBytes := sub64 s.currBytes n }, .ok)

/-- `do_item_stat_replace`, item_base.c 228-253, on the counters: booked under the type of the old item. -/
def Acct.swap (a : Acct) (ty old new : Nat) : Acct :=
  if old < new then a.more ty ((new - old) % w32) else if new < old then a.less ty ((old - new) % w32) else a

/-- `do_item_replace`, item_base.c 1074-1131: the new item takes over the prefix pointer. -/
def replace (s : St) (old new : Nat) (key : List Nat) (ty base stotal : Nat) : Option (St × Rep) :=
  match s.items old with
  | none => none
  | some it =>
    let it' : It := ⟨key, ty, base, stotal, it.pfx⟩
    match withAcct s it.pfx (·.swap it.ty it.size it'.size) with
    | none => none
    | some s =>
      some ({ s with
        items := upd (upd s.items old none) new (some it')
        currBytes := add64 (sub64 s.currBytes it.size) it'.size }, .ok)

/-- The number of digits printed for `%llu`, prefix.c 606-607. -/
def digits (n : Nat) : Nat := if n < 10 then 1 else 1 + digits (n / 10)

/-- The five counters of a line, in the order of the item types (prefix.c 582-593). -/
def five (f : Nat → Nat) : List Nat := (List.range 5).map f

/-- The bytes `_prefix_stats_write_buffer` prints (prefix.c 545-600, format 604-611): 99 fixed characters, the name, twelve numbers. -/
def lineLen (name : List Nat) (a : Acct) : Nat :=
  99 + name.length + ((a.tcnt :: five a.cnt ++ a.tbyt :: five a.byt).map digits).sum

/-- One line of the dump as data. -/
def line (name : Option (List Nat)) (a : Acct) : Option (List Nat) × (Nat × List Nat) × (Nat × List Nat) :=
  (name, (a.tcnt, five a.cnt), (a.tbyt, five a.byt))

/-- "<null>" (prefix.c 549, 637, 688). -/
def nullName : List Nat := [60, 110, 117, 108, 108, 62]

/-- The prefixes of a chain; a freed one is an error. -/
def deref (heap : Nat → Option Pt) : List Nat → Option (List Pt)
  | [] => some []
  | i :: l =>
    match heap i, deref heap l with
    | some pt, some r => some (pt :: r)
    | _, _ => none

/-- Writing the lines, each followed by the test `pos < buflen` (prefix.c 666-707); the tail is "END\r\n". -/
def writeLines (buflen : Nat) (pos : Nat) : List (List Nat × Acct) → Option Nat
  | [] => if pos + 5 < buflen then some (pos + 5) else none
  | (nm, a) :: l => if pos + lineLen nm a < buflen then writeLines buflen (pos + lineLen nm a) l else none

/-- The size of the buffer (prefix.c 645-658): the names, 339 bytes for each prefix, and `sizeof("END\r\n")`. -/
def bufLen (names num : Nat) : Nat := names + num * 339 + 6

/-- The lines of a dump are written into the buffer, and returned as data. -/
def dumpLines (buflen : Nat) (null : Bool) (nullAcct : Acct) (pts : List Pt) : Option Rep :=
  match writeLines buflen 0 ((if null then [(nullName, nullAcct)] else []) ++ pts.map fun pt => (pt.bytes, pt.acct)) with
  | none => none
  | some _ => some (.stats ((if null then [line none nullAcct] else []) ++ pts.map fun pt => line (some pt.bytes) pt.acct))

/-- All chains, bucket after bucket (prefix.c 626-632, 674-698). -/
def allIds (s : St) : List Nat := (List.range buckets).flatMap s.table

/-- `prefix_dump_stats` for all prefixes, prefix.c 602-713. -/
def statsAll (s : St) : Option (St × Rep) :=
  match deref s.heap (allIds s) with
  | none => none
  | some pts =>
    let null := decide (0 < s.null.tcnt)
    match dumpLines (bufLen ((pts.map (·.nprefix)).sum + if null then 6 else 0) (s.total + if null then 1 else 0)) null s.null pts with
    | none => none
    | some r => some (s, r)

/-- The prefixes of the given names, prefix.c 684-694: for each its name, line and counters. -/
def lookups (cfg : Cfg) (s : St) : List (List Nat) → Option (List (List Nat × Option (List Nat) × Acct))
  | [] => some []
  | t :: ts =>
    match lookups cfg s ts with
    | none => none
    | some r =>
      if t = nullName then some (if 0 < s.null.tcnt then (nullName, none, s.null) :: r else r)
      else
        match find s t t.length (cfg.hash t) with
        | none => none
        | some none => some r
        | some (some i) =>
          match s.heap i with
          | none => none
          | some pt => some ((pt.bytes, some pt.bytes, pt.acct) :: r)

/-- `prefix_dump_stats` for given prefixes, prefix.c 640-645, 684-707. -/
def statsOf (cfg : Cfg) (s : St) (toks : List (List Nat)) : Option (St × Rep) :=
  match lookups cfg s toks with
  | none => none
  | some r =>
    match writeLines (bufLen (toks.map List.length).sum toks.length) 0 (r.map fun x => (x.1, x.2.2)) with
    | none => none
    | some _ => some (s, .stats (r.map fun x => line x.2.1 x.2.2))

/-- `prefix_count`, prefix.c 536-543. -/
def count (s : St) : Nat := s.total + if 0 < s.null.tcnt then 1 else 0

/-- One chain of a scan, prefix.c 736-743: prefixes with items that are not internal are stored and referenced.  The array has `room`
more places; writing behind it is an error. -/
def scanChain (heap : Nat → Option Pt) (room : Nat) : List Nat → Option ((Nat → Option Pt) × List (Option Nat))
  | [] => some (heap, [])
  | i :: l =>
    match heap i with
    | none => none
    | some pt =>
      if !pt.internal && decide (pt.acct.tcnt ≠ 0) then
        if room = 0 ∨ 65535 ≤ pt.refcount then none
        else
          match scanChain (upd heap i (some { pt with refcount := pt.refcount + 1 })) (room - 1) l with
          | none => none
          | some (h, r) => some (h, some i :: r)
      else scanChain heap room l

/-- The loop of `_prefix_scan_direct`, prefix.c 731-749.  `fuel` is `hash_limit - hash_count`; `got` the places used so far. -/
def scanLoop (s : St) (req arr : Nat) : Nat → (Nat → Option Pt) → Nat → Nat → Option ((Nat → Option Pt) × List (Option Nat) × Nat)
  | 0, heap, b, _ => some (heap, [], b)
  | fuel + 1, heap, b, got =>
    if req ≤ got then some (heap, [], b)
    else
      let nul : List (Option Nat) := if b = 0 ∧ s.null.tcnt ≠ 0 then [none] else []
      if arr < got + nul.length then none
      else
        match scanChain heap (arr - (got + nul.length)) (s.table b) with
        | none => none
        | some (h, l) =>
          if buckets ≤ b + 1 then some (h, nul ++ l, b + 1)
          else
            match scanLoop s req arr fuel h (b + 1) (got + nul.length + l.length) with
            | none => none
            | some (h', l', b') => some (h', nul ++ l ++ l', b')

/-- Reading the name of a scanned prefix (`prefix_get_name` and `nprefix`, prefix.c 779-786, default_engine.c 1296). -/
def nameIn (heap : Nat → Option Pt) (p : Option Nat) : Option (Option (List Nat)) :=
  match p with
  | none => some none
  | some i =>
    match heap i with
    | none => none
    | some pt => some (some (pt.bytes.take pt.nprefix))

/-- The names of the prefixes a scan has stored, read at once (default_engine.c 1290-1305). -/
def namesIn (heap : Nat → Option Pt) : List (Option Nat) → Option (List (Option Nat × Option (List Nat)))
  | [] => some []
  | p :: l =>
    match nameIn heap p, namesIn heap l with
    | some n, some r => some ((p, n) :: r)
    | _, _ => none

/-- `prefix_scan_direct`, prefix.c 716-765, with the cursor as a number (`safe_strtoul` and `sprintf` of it are left out).  The answer
also shows the names of the prefixes. -/
def scan (s : St) (cur req arr : Nat) : Option (St × Rep) :=
  if arr = 0 ∨ arr < req then none
  else if buckets ≤ cur then some (s, .scan [] 0)
  else
    match scanLoop s req arr (req * 4) s.heap cur 0 with
    | none => none
    | some (h, l, b) =>
      match namesIn h l with
      | none => none
      | some l => some ({ s with heap := h }, .scan l (if buckets ≤ b then 0 else b))

/-- `prefix_release`, prefix.c 767-777. -/
def release (s : St) (p : Option Nat) : Option (St × Rep) :=
  match p with
  | none => some (s, .ok)
  | some i =>
    match s.heap i with
    | none => none
    | some pt =>
      if pt.refcount = 0 then none
      else
        let pt := { pt with refcount := pt.refcount - 1 }
        some ({ s with heap := upd s.heap i (if pt.refcount = 0 ∧ pt.islinked = false then none else some pt) }, .ok)

/-- The name of a scanned prefix is read later (default_engine.c 1296). -/
def name (s : St) (p : Option Nat) : Option (St × Rep) :=
  match nameIn s.heap p with
  | none => none
  | some n => some (s, .name n)

/-- The calls.  Item addresses (`id`) are chosen by the caller. -/
inductive Op where
  | link (id : Nat) (key : List Nat) (ty base stotal : Nat) (mem : Bool)
  | unlink (id : Nat)
  | grow (id n : Nat)
  | shrink (id n : Nat)
  | replace (old new : Nat) (key : List Nat) (ty base stotal : Nat)
  | statsAll
  | statsOf (toks : List (List Nat))
  | count
  | totals
  | scan (cur req arr : Nat)
  | release (p : Option Nat)
  | name (p : Option Nat)

/-- One call under the cache lock: prefix.c 602-786, item_base.c 340-363, 992-1131; `totals` reads `curr_items` and `bytes`
(item_base.c 296-303). -/
def step (cfg : Cfg) (s : St) : Op → Option (St × Rep)
  | .link id key ty base stotal mem => link cfg s id key ty base stotal mem
  | .unlink id => unlink cfg s id
  | .grow id n => grow s id n
  | .shrink id n => shrink s id n
  | .replace old new key ty base stotal => replace s old new key ty base stotal
  | .statsAll => statsAll s
  | .statsOf toks => statsOf cfg s toks
  | .count => some (s, .count (count s))
  | .totals => some (s, .totals s.currItems s.currBytes)
  | .scan cur req arr => scan s cur req arr
  | .release p => release s p
  | .name p => name s p

end Verif.Prefix
