import Verif.Model.Util
/-!
# The main hash table

Model of engines/default/assoc.c with SCAN_COMMAND defined, and of the loop of `default_keyscan` in default_engine.c.  The root
table is a function from table number and bucket to the chain of that bucket; chains are lists in the order of the `h_next`
pointers.  A chain holds cache items and the placeholders of scans.  The hash value `khash` of an item is `cfg.hash` of its key
(callers always pass that value); `x & mask(p)` is written `x % 2^p` and `x >> p` is `x / 2^p`.  Every call runs under the cache
lock.  Counters are unbounded.  `none` is a failed assertion, or an access outside an array or behind the end of a chain.
-/
namespace Verif.Assoc

/-- `hashpower`, assoc.c 68 (16 there), and the hash function. -/
structure Cfg where
  hp : Nat
  hash : List Nat → Nat

/-- `hash_item`, item_base.h: key, identity (which stands for everything else in the item), and the number of elements
if the item is a collection. -/
structure Item where
  key : List Nat
  id : Nat
  coll : Option Nat
deriving DecidableEq, Repr

/-- What a chain holds: an item, or the `ph_item` of scan number `sid`, assoc.h 57-66. -/
inductive Entry where
  | item (it : Item)
  | ph (sid : Nat)
deriving DecidableEq, Repr

/-- `struct assoc_scan`, assoc.h 57-66; `hashsz` always is `2^hp`. -/
structure Scan where
  bucket : Nat
  tabcnt : Nat
  tabidx : Nat
  linked : Bool
deriving DecidableEq, Repr

/-- `struct assoc`, assoc.h 25-55, with the scans of the callers.  `prevsize` and `prevmask` are given by `prevpower`. -/
structure St where
  table : Nat → Nat → List Entry
  rootpower : Nat
  roottabsz : Nat
  expanding : Bool
  prevpower : Nat
  expBucket : Nat
  expTab : Nat
  refcount : Nat → Nat
  items : Nat
  limit : Nat
  scans : List (Option Scan)

/-- `(hashsize * rootsize * 3) / 2`, assoc.c 82, 237. -/
def expLimit (cfg : Cfg) (rootpower : Nat) : Nat := (2 ^ cfg.hp * 2 ^ rootpower * 3) / 2

/-- `assoc_init`, assoc.c 62-102. -/
def init (cfg : Cfg) : St :=
  { table := fun _ _ => [], rootpower := 0, roottabsz := 512, expanding := false, prevpower := 0, expBucket := 0, expTab := 0,
    refcount := fun _ => 0, items := 0, limit := expLimit cfg 0, scans := [] }

/-- `GET_HASH_BUCKET`, assoc.c 33. -/
def bucketOf (cfg : Cfg) (key : List Nat) : Nat := cfg.hash key % 2 ^ cfg.hp

/-- `hash >> hashpower`. -/
def upperOf (cfg : Cfg) (key : List Nat) : Nat := cfg.hash key / 2 ^ cfg.hp

/-- `CUR_HASH_TABIDX`, assoc.c 39-60; `x` is `hash >> hashpower`. -/
def curTab (s : St) (x bucket : Nat) : Nat :=
  if s.expanding then
    if bucket < s.expBucket then x % 2 ^ s.prevpower
    else if s.expBucket < bucket then x % 2 ^ s.rootpower
    else if x % 2 ^ s.prevpower < s.expTab then x % 2 ^ s.rootpower
    else x % 2 ^ s.prevpower
  else x % 2 ^ s.rootpower

/-- The table number of a key. -/
def tabOf (cfg : Cfg) (s : St) (key : List Nat) : Nat := curTab s (upperOf cfg key) (bucketOf cfg key)

/-- `roottable[t].hashtable[b]`: there are `rootsize` tables with `hashsize` buckets. -/
def chain (cfg : Cfg) (s : St) (t b : Nat) : Option (List Entry) :=
  if t < 2 ^ s.rootpower ∧ b < 2 ^ cfg.hp then some (s.table t b) else none

/-- A table with another chain in one place. -/
def setChain (T : Nat → Nat → List Entry) (t b : Nat) (l : List Entry) : Nat → Nat → List Entry :=
  fun t' b' => if t' = t ∧ b' = b then l else T t' b'

/-! ## The map -/

/-- The item of an entry with a given key (placeholders have `nkey = 0`). -/
def Entry.match? (key : List Nat) : Entry → Option Item
  | .item it => if it.key = key then some it else none
  | .ph _ => none

/-- `assoc_find`, assoc.c 166-188; an empty key would be compared with placeholders whose `khash` is unset. -/
def find (cfg : Cfg) (s : St) (key : List Nat) : Option (Option Item) :=
  if key = [] then none
  else
    match chain cfg s (tabOf cfg s key) (bucketOf cfg key) with
    | none => none
    | some l => some (l.findSome? (Entry.match? key))

/-- The inner loop of `redistribute`, assoc.c 138-149, over the rest of the chain of table `tab`; items that go elsewhere are put at
the head of another chain at once, those that stay are collected in `kept`. -/
def redistChain (cfg : Cfg) (rp tab b : Nat) : List Entry → (Nat → Nat → List Entry) → List Entry → Option (Nat → Nat → List Entry)
  | [], T, kept => some (setChain T tab b kept)
  | .ph _ :: _, _, _ => none
  | .item it :: l, T, kept =>
    if upperOf cfg it.key % 2 ^ rp = tab then redistChain cfg rp tab b l T (kept ++ [.item it])
    else
      redistChain cfg rp tab b l
        (setChain T (upperOf cfg it.key % 2 ^ rp) b (.item it :: T (upperOf cfg it.key % 2 ^ rp) b)) kept

/-- The rounds of `redistribute`, assoc.c 136-152. -/
def redistRounds (cfg : Cfg) : Nat → St → Option St
  | 0, s => some s
  | n + 1, s =>
    match chain cfg s s.expTab s.expBucket with
    | none => none
    | some l =>
      match redistChain cfg s.rootpower s.expTab s.expBucket l s.table [] with
      | none => none
      | some T =>
        if 2 ^ s.prevpower ≤ s.expTab + 1 then some { s with table := T, expTab := s.expTab + 1 }
        else redistRounds cfg n { s with table := T, expTab := s.expTab + 1 }

/-- `redistribute`, assoc.c 126-164. -/
def redistribute (cfg : Cfg) (s : St) : Option St :=
  match redistRounds cfg 4 s with
  | none => none
  | some s =>
    if 2 ^ s.prevpower ≤ s.expTab then
      if 0 < s.expBucket then some { s with expTab := 0, expBucket := s.expBucket - 1 }
      else some { s with expTab := 0, expanding := false }
    else some s

/-- `assoc_expand`, assoc.c 219-256; `mem1` and `mem2` tell whether the two allocations succeed. -/
def expand (s : St) (cfg : Cfg) (mem1 mem2 : Bool) : Option St :=
  if s.roottabsz < 2 ^ s.rootpower * 2 ∧ mem1 = false then some s
  else
    let sz := if s.roottabsz < 2 ^ s.rootpower * 2 then s.roottabsz * 2 else s.roottabsz
    if mem2 = false then some { s with roottabsz := sz }
    else if sz < 2 ^ s.rootpower + 2 ^ s.rootpower then none
    else
      some { s with
        table := fun t b => if 2 ^ s.rootpower ≤ t then [] else s.table t b
        roottabsz := sz
        rootpower := s.rootpower + 1
        prevpower := s.rootpower
        limit := if s.rootpower + 1 < 15 then expLimit cfg (s.rootpower + 1) else 0
        expanding := true
        expBucket := 2 ^ cfg.hp - 1
        expTab := 0 }

/-- `assoc_insert`, assoc.c 259-286. -/
def insert (cfg : Cfg) (s : St) (it : Item) (mem1 mem2 : Bool) : Option St :=
  match find cfg s it.key, chain cfg s (tabOf cfg s it.key) (bucketOf cfg it.key) with
  | some none, some l =>
    let s1 := { s with table := setChain s.table (tabOf cfg s it.key) (bucketOf cfg it.key) (.item it :: l), items := s.items + 1 }
    if s1.expanding then
      if s1.refcount s1.expBucket = 0 then redistribute cfg s1 else some s1
    else if s1.limit ≠ 0 ∧ s1.limit < s1.items then expand s1 cfg mem1 mem2
    else some s1
  | _, _ => none

/-- What stands in the place of the item: the new item, or nothing. -/
def instead : Option Item → List Entry
  | some x => [.item x]
  | none => []

/-- A chain with the first item of this key replaced or taken out, assoc.c 198-202, 296-297, 316-318. -/
def change (key : List Nat) (new : Option Item) : List Entry → Option (List Entry)
  | [] => none
  | .ph i :: l => (change key new l).map (.ph i :: ·)
  | .item it :: l =>
    if it.key = key then some (instead new ++ l)
    else (change key new l).map (.item it :: ·)

/-- `assoc_replace`, assoc.c 288-301, for an old item in the table. -/
def replace (cfg : Cfg) (s : St) (key : List Nat) (new : Item) : Option St :=
  match chain cfg s (tabOf cfg s key) (bucketOf cfg key) with
  | none => none
  | some l =>
    match change key (some new) l with
    | none => none
    | some l' => some { s with table := setChain s.table (tabOf cfg s key) (bucketOf cfg key) l' }

/-- `assoc_delete`, assoc.c 303-327. -/
def delete (cfg : Cfg) (s : St) (key : List Nat) : Option St :=
  match chain cfg s (tabOf cfg s key) (bucketOf cfg key) with
  | none => none
  | some l =>
    match change key none l with
    | none => none
    | some l' =>
      if s.items = 0 then none
      else some { s with table := setChain s.table (tabOf cfg s key) (bucketOf cfg key) l', items := s.items - 1 }

/-! ## Scans with a placeholder -/

/-- The part of a chain before and after a placeholder; `none`: the walk runs off the chain. -/
def cutPh (sid : Nat) : List Entry → Option (List Entry × List Entry)
  | [] => none
  | e :: l =>
    if e = .ph sid then some ([], l)
    else
      match cutPh sid l with
      | none => none
      | some (p, q) => some (e :: p, q)

/-- What a call of `assoc_scan_next` has collected: `item_array`, `elem_count`, `scan_cost`. -/
structure Got where
  out : List Item
  elems : Nat
  cost : Nat
deriving DecidableEq, Repr

/-- The innermost loop of `assoc_scan_next`, assoc.c 405-419: the rest of the chain behind the item where it stopped, if it did. -/
def takeChain (arr lim : Nat) : List Entry → Got → Option (Got × Option (List Entry))
  | [], g => some (g, none)
  | .ph _ :: l, g => takeChain arr lim l { g with cost := g.cost + 1 }
  | .item it :: l, g =>
    if arr ≤ g.out.length then none
    else if arr ≤ g.out.length + 1 then some ({ g with out := g.out ++ [it] }, some l)
    else
      match it.coll with
      | none => takeChain arr lim l { g with out := g.out ++ [it], cost := g.cost + 1 }
      | some n =>
        if lim = 0 then takeChain arr lim l { g with out := g.out ++ [it], cost := g.cost + 1 }
        else if lim < g.elems + n then some ({ g with out := g.out ++ [it], elems := g.elems + n }, some l)
        else takeChain arr lim l { out := g.out ++ [it], elems := g.elems + n, cost := g.cost + 1 }

/-- The chain under the scan without the placeholder, split where the scan goes on, assoc.c 399-403 (`_unlink_scan_placeholder`,
349-359). -/
def resume (sid : Nat) (linked : Bool) (l : List Entry) : Option (List Entry × List Entry) :=
  if linked then cutPh sid l else some ([], l)

/-- The loop over the tables of a bucket, assoc.c 394-430; the first argument is `tabcnt - tabidx`.  The last result is `scan_done`. -/
def scanTabs (cfg : Cfg) (arr lim sid : Nat) : Nat → St → Scan → Got → Option (St × Scan × Got × Bool)
  | 0, s, sc, g => some (s, sc, g, false)
  | n + 1, s, sc, g =>
    if 2 * arr < g.cost ∧ 0 < g.out.length then some (s, sc, g, true)
    else
      match chain cfg s sc.tabidx sc.bucket with
      | none => none
      | some c =>
        match resume sid sc.linked c with
        | none => none
        | some (p, q) =>
          match takeChain arr lim q { g with cost := g.cost + 1 } with
          | none => none
          | some (g', none) =>
            scanTabs cfg arr lim sid n { s with table := setChain s.table sc.tabidx sc.bucket (p ++ q) }
              { sc with linked := false, tabidx := sc.tabidx + 1 } g'
          | some (g', some []) =>
            some ({ s with table := setChain s.table sc.tabidx sc.bucket (p ++ q) },
              { sc with linked := false, tabidx := sc.tabidx + 1 }, g', true)
          | some (g', some (e :: l)) =>
            some ({ s with
                table := setChain s.table sc.tabidx sc.bucket (p ++ q.take (q.length - (l.length + 1)) ++ .ph sid :: e :: l) },
              { sc with linked := true }, g', true)

/-- The start of a bucket, assoc.c 386-393. -/
def startBucket (s : St) (sc : Scan) : St × Scan :=
  if sc.tabcnt = 0 then
    ({ s with refcount := fun b => if b = sc.bucket then s.refcount b + 1 else s.refcount b },
     { sc with tabcnt := 2 ^ s.rootpower, tabidx := 0 })
  else (s, sc)

/-- `infotable[bucket].refcount -= 1`. -/
def unref (s : St) (b : Nat) : Option St :=
  if s.refcount b = 0 then none else some { s with refcount := fun b' => if b' = b then s.refcount b' - 1 else s.refcount b' }

/-- The outer loop of `assoc_scan_next`, assoc.c 384-440; the first argument is `hashsz - bucket`. -/
def scanBuckets (cfg : Cfg) (arr lim sid : Nat) : Nat → St → Scan → Got → Option (St × Scan × Got)
  | 0, s, sc, g => some (s, sc, g)
  | n + 1, s, sc, g =>
    match scanTabs cfg arr lim sid ((startBucket s sc).2.tabcnt - (startBucket s sc).2.tabidx) (startBucket s sc).1 (startBucket s sc).2 g with
    | none => none
    | some (s', sc', g', true) => some (s', sc', g')
    | some (s', sc', g', false) =>
      match unref s' sc'.bucket with
      | none => none
      | some s2 => scanBuckets cfg arr lim sid n s2 { sc' with bucket := sc'.bucket + 1, tabcnt := 0 } g'

/-- An initialized scan. -/
def getScan (s : St) (sid : Nat) : Option Scan :=
  match s.scans[sid]? with
  | some (some sc) => some sc
  | _ => none

/-- `assoc_scan_next`, assoc.c 373-447: the items, or `none` for the end (-1). -/
def scanNext (cfg : Cfg) (s : St) (sid arr lim : Nat) : Option (St × Option (List Item)) :=
  match getScan s sid with
  | none => none
  | some sc =>
    if arr = 0 then none
    else
      match scanBuckets cfg arr lim sid (2 ^ cfg.hp - sc.bucket) s sc ⟨[], 0, 0⟩ with
      | none => none
      | some (s', sc', g) =>
        some ({ s' with scans := s'.scans.set sid (some sc') },
          if g.out = [] ∧ 2 ^ cfg.hp ≤ sc'.bucket then none else some g.out)

/-- `assoc_scan_in_visited_area`, assoc.c 549-582. -/
def inVisited (cfg : Cfg) (s : St) (sid : Nat) (it : Item) : Option Bool :=
  match getScan s sid with
  | none => none
  | some sc =>
    if bucketOf cfg it.key < sc.bucket then some true
    else if bucketOf cfg it.key = sc.bucket then
      if tabOf cfg s it.key < sc.tabidx then some true
      else if tabOf cfg s it.key = sc.tabidx ∧ sc.linked = true then
        match chain cfg s (tabOf cfg s it.key) sc.bucket with
        | none => none
        | some c =>
          match cutPh sid c with
          | none => if .item it ∈ c then some true else none
          | some (p, _) => some (decide (.item it ∈ p))
      else some false
    else some false

/-- The placeholder is taken out if it is linked, assoc.c 349-359, 588-590. -/
def unlinkPh (cfg : Cfg) (s : St) (sid : Nat) (sc : Scan) : Option St :=
  if sc.linked then
    match chain cfg s sc.tabidx sc.bucket with
    | none => none
    | some c =>
      match cutPh sid c with
      | none => none
      | some (p, q) => some { s with table := setChain s.table sc.tabidx sc.bucket (p ++ q) }
  else some s

/-- The reference on the bucket is given back, assoc.c 591-594. -/
def release (cfg : Cfg) (s : St) (sc : Scan) : Option St :=
  if sc.bucket < 2 ^ cfg.hp ∧ 0 < sc.tabcnt then unref s sc.bucket else some s

/-- `assoc_scan_final`, assoc.c 584-596. -/
def scanFinal (cfg : Cfg) (s : St) (sid : Nat) : Option St :=
  match getScan s sid with
  | none => none
  | some sc =>
    match unlinkPh cfg s sid sc with
    | none => none
    | some s1 =>
      match release cfg s1 sc with
      | none => none
      | some s2 => some { s2 with scans := s2.scans.set sid none }

/-! ## Scans with a cursor -/

/-- One round of the loop in `reverse_bits`, assoc.c 454-458. -/
def swapBits (s : Nat) (m v : BitVec 32) : BitVec 32 := ((v >>> s) &&& m) ||| ((v <<< s) &&& ~~~m)

/-- `reverse_bits`, assoc.c 451-460: `s` and `mask` go through the values given by `mask ^= mask << s`. -/
def reverseBits (v : BitVec 32) : BitVec 32 :=
  let m0 : BitVec 32 := BitVec.allOnes 32
  let m1 := m0 ^^^ (m0 <<< 16)
  let m2 := m1 ^^^ (m1 <<< 8)
  let m3 := m2 ^^^ (m2 <<< 4)
  let m4 := m3 ^^^ (m3 <<< 2)
  let m5 := m4 ^^^ (m4 <<< 1)
  swapBits 1 m5 (swapBits 2 m4 (swapBits 4 m3 (swapBits 8 m2 (swapBits 16 m1 v))))

/-- The next table number, assoc.c 527-532. -/
def nextTab (rootpower t : Nat) : Nat :=
  if 0 < 2 ^ rootpower - 1 then
    (reverseBits (reverseBits (BitVec.ofNat 32 t ||| ~~~ (BitVec.ofNat 32 (2 ^ rootpower - 1))) + 1)).toNat
  else t

/-- The items of a chain are stored, assoc.c 508-519: `none` is a write outside the array; when the array is full the rest of the chain
is left out. -/
def storeChain (arr : Nat) : List Entry → List Item → Option (List Item)
  | [], out => some out
  | .ph _ :: l, out => storeChain arr l out
  | .item it :: l, out =>
    if arr ≤ out.length then none
    else if arr ≤ out.length + 1 then some (out ++ [it])
    else storeChain arr l (out ++ [it])

/-- The loop of `assoc_scan_direct`, assoc.c 504-538; `fuel` bounds the number of rounds. -/
def directLoop (cfg : Cfg) (s : St) (req arr : Nat) : Nat → Nat → Nat → Nat → List Item → Option (Nat × Nat × List Item)
  | 0, _, _, _, _ => none
  | fuel + 1, t, b, n, out =>
    if (out.length < req ∧ n < req * 4) ∨ (s.expanding = true ∧ 2 ^ s.prevpower - 1 < t) then
      match chain cfg s t b with
      | none => none
      | some c =>
        match storeChain arr c out with
        | none => none
        | some out' =>
          if nextTab s.rootpower t = 0 then
            if 2 ^ cfg.hp ≤ b + 1 then some (0, b + 1, out')
            else directLoop cfg s req arr fuel 0 (b + 1) (n + 1) out'
          else directLoop cfg s req arr fuel (nextTab s.rootpower t) b (n + 1) out'
    else some (t, b, out)

/-- `assoc_scan_direct`, assoc.c 480-546; the cursor is the number that `decode_cursor` and `encode_cursor` (462-478) read from and
print into the string.  Results: `none` for an invalid cursor (-1), otherwise the items and the new cursor. -/
def scanDirect (cfg : Cfg) (s : St) (cursor req arr : Nat) : Option (Option (List Item × Nat)) :=
  if arr = 0 ∨ arr < req then none
  else if 2 ^ s.rootpower ≤ cursor / 2 ^ cfg.hp then some none
  else
    match directLoop cfg s req arr (4 * req + 2) (cursor / 2 ^ cfg.hp) (cursor % 2 ^ cfg.hp) 0 [] with
    | none => none
    | some (t, b, out) => some (some (out, if 2 ^ cfg.hp ≤ b then 0 else t * 2 ^ cfg.hp + b))

/-- `iter_count`, default_engine.c 1341-1342: `count - scan_total` is computed in 32-bit unsigned arithmetic. -/
def iterCount (count total : Nat) : Nat :=
  if (count + 4294967296 - total) % 4294967296 < 200 then (count + 4294967296 - total) % 4294967296 else 200

/-- The loop of `default_keyscan`, default_engine.c 1340-1380: `ss i` is the table when round `i` takes the cache lock, `keep` tells which
items are kept (valid, of the type and matching the pattern); the loop is left for its duration after `rounds` rounds.
Result `none` inside: invalid cursor. -/
def keyscanLoop (cfg : Cfg) (ss : Nat → St) (count arrsz : Nat) (keep : Item → Bool) :
    Nat → Nat → Nat → Nat → List Item → Option (Option (List Item × Nat))
  | 0, _, cursor, _, out => some (some (out, cursor))
  | left + 1, i, cursor, iter, out =>
    if iter < count then
      match scanDirect cfg (ss i) cursor (iterCount count out.length) (arrsz - out.length) with
      | none => none
      | some none => some none
      | some (some (l, cursor')) =>
        if cursor' = 0 then some (some (out ++ l.filter keep, 0))
        else keyscanLoop cfg ss count arrsz keep left (i + 1) cursor' (iter + iterCount count out.length) (out ++ l.filter keep)
    else some (some (out, cursor))

/-- `default_keyscan`, default_engine.c 1329-1388. -/
def keyscan (cfg : Cfg) (ss : Nat → St) (cursor count arrsz : Nat) (keep : Item → Bool) (rounds : Nat) :
    Option (Option (List Item × Nat)) :=
  if arrsz < count + 100 then none else keyscanLoop cfg ss count arrsz keep rounds 0 cursor 0 []

/-! ## Calls -/

inductive Op where
  | find (key : List Nat)
  | insert (it : Item) (mem1 mem2 : Bool)
  | replace (key : List Nat) (new : Item)
  | delete (key : List Nat)
  /-- `assoc_scan_init`, assoc.c 361-371; it leaves `tabidx` as it was (`junk`). -/
  | scanInit (junk : Nat)
  | scanNext (sid arr lim : Nat)
  | visited (sid : Nat) (it : Item)
  | scanFinal (sid : Nat)
  | scanDirect (cursor req arr : Nat)
deriving DecidableEq, Repr

inductive Rep where
  | ok
  | found (it : Option Item)
  | scan (sid : Nat)
  /-- `none`: the end of the scan. -/
  | next (l : Option (List Item))
  | visited (b : Bool)
  /-- `none`: invalid cursor. -/
  | direct (r : Option (List Item × Nat))
deriving DecidableEq, Repr

/-- The calls of assoc.h. -/
def step (cfg : Cfg) (s : St) : Op → Option (St × Rep)
  | .find key => (find cfg s key).map fun r => (s, .found r)
  | .insert it mem1 mem2 => (insert cfg s it mem1 mem2).map fun s' => (s', .ok)
  | .replace key new => (replace cfg s key new).map fun s' => (s', .ok)
  | .delete key => (delete cfg s key).map fun s' => (s', .ok)
  | .scanInit junk => some ({ s with scans := s.scans ++ [some ⟨0, 0, junk, false⟩] }, .scan s.scans.length)
  | .scanNext sid arr lim => (scanNext cfg s sid arr lim).map fun r => (r.1, .next r.2)
  | .visited sid it => (inVisited cfg s sid it).map fun b => (s, .visited b)
  | .scanFinal sid => (scanFinal cfg s sid).map fun s' => (s', .ok)
  | .scanDirect c req arr => (scanDirect cfg s c req arr).map fun r => (s, .direct r)

end Verif.Assoc
