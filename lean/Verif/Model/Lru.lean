/-!
The queues of least recently used items and the search for memory (engines/default/item_base.c, items.c).

A call of a function of item_base.c runs under the cache lock and is one step.  `none` is a fault: an access to an item that has been freed, a failed
assertion, an item taken off a queue in which it is not, or a call that its callers do not make (a second link, a key stored twice).
Doubly linked queues are lists, head first.  Keys and prefixes are opaque numbers.  A block that is reused gets a new number.
-/
namespace Verif.Lru

abbrev Id := Nat

/-- Function update. -/
def upd {α β : Type} [DecidableEq α] (f : α → β) (a : α) (b : β) : α → β := fun x => if x = a then b else f x

/-- `(rel_time_t)(-1)`, item_base.h 137. -/
def sticky : Nat := 4294967295

/-- `hash_item` (item_base.h 156-173).  `cls` is the number of its LRU queue (item_base.c 461-464), `n` the size asked for its block (`ITEM_ntotal`),
`size` the space counted for it (`ITEM_stotal`, item_base.c 145-154), `inQ` is false when `prev == next == it` (item_base.c 508).  `refs` counts
`refcount` and `refchunk` together and does not overflow (C08 is about that). -/
structure It where
  key : Nat
  pfx : Nat
  cls : Nat
  exp : Nat
  n : Nat
  size : Nat
  time : Nat
  refs : Nat
  linked : Bool
  inQ : Bool
deriving DecidableEq, Repr

/-- The memory below (slabs.c): `slabs_alloc`, `slabs_free`, `slabs_adjust_mem_requested` and `slabs_space_shortage_level`, anything (C59 to C62 are
about it).  The class 0 is that of small memory, in which the slab class follows from the size. -/
structure Slabs (M : Type) where
  alloc : M → Nat → Nat → Option M
  free : M → Nat → Nat → M
  adjust : M → Nat → Nat → Nat → M
  level : M → Nat

/-- `config->evict_to_free`, `config->sticky_limit`, `slabs_space_size` and `POWER_LARGEST`. -/
structure Cfg where
  evict : Bool
  stickyLimit : Nat
  space : Nat → Nat
  largest : Nat

/-- `struct engine_stats` (default_engine.h 83-96), 64-bit numbers. -/
structure Stats where
  currItems : Nat := 0
  currBytes : Nat := 0
  stickyItems : Nat := 0
  stickyBytes : Nat := 0
  evictions : Nat := 0
  reclaimed : Nat := 0
  outOfMemory : Nat := 0
  repairs : Nat := 0
deriving DecidableEq, Repr

/-- The queues are numbered by class and whether they are those of sticky items (`heads`, `sticky_heads`).  `low` is `lowMK`, `cur` is `curMK` and for
the sticky queues `sticky_curMK`; there is no `lowMK` of a sticky queue, here it stays `none` (items.h 30-52).  `tbl` are the items in the hash table
(C25 is about the table itself), `pmark` is `oldest_live` of the prefixes. -/
structure St (M : Type) where
  now : Nat
  oldest : Nat
  pmark : Nat → Nat
  heap : Id → Option It
  tbl : List Id
  next : Id
  q : Nat × Bool → List Id
  low : Nat × Bool → Option Id
  cur : Nat × Bool → Option Id
  stats : Stats
  mem : M

variable {M : Type}

/-- An empty engine. -/
def init (now : Nat) (m : M) : St M :=
  { now, oldest := 0, pmark := fun _ => 0, heap := fun _ => none, tbl := [], next := 0, q := fun _ => [], low := fun _ => none,
    cur := fun _ => none, stats := {}, mem := m }

/-- The queue of an item (item_base.c 461-471 and 504-516). -/
def qid (it : It) : Nat × Bool := (it.cls, it.exp == sticky)

/-- `it->prev`: the item before in the queue, `none` for the head. -/
def prevOf : List Id → Id → Option Id
  | a :: b :: l, i => if b = i then some a else prevOf (b :: l) i
  | _, _ => none

/-- `item_link_q`, item_base.c 453-495. -/
def linkQ (s : St M) (i : Id) : Option (St M) :=
  match s.heap i with
  | none => none
  | some it =>
    if (s.q (qid it)).head? = some i then none
    else
      let first := it.exp ≠ sticky ∧ 0 < it.exp ∧ s.low (qid it) = none
      some { s with
        q := upd s.q (qid it) (i :: s.q (qid it))
        low := if first then upd s.low (qid it) (some i) else s.low
        cur := if first then upd s.cur (qid it) (some i) else s.cur
        heap := upd s.heap i (some { it with inQ := true }) }

/-- `lowMK` after `it` is taken off (item_base.c 527-528); also the mark of a sticky queue, which has none. -/
def lowAfter (l : List Id) (low : Option Id) (i : Id) : Option Id := if low = some i then prevOf l i else low

/-- `curMK` after `it` is taken off (item_base.c 529-533), `sticky_curMK` (519-520). -/
def curAfter (l : List Id) (low cur : Option Id) (i : Id) : Option Id :=
  if cur = some i then (prevOf l i).or (lowAfter l low i) else cur

/-- `item_unlink_q`, item_base.c 497-553. -/
def unlinkQ (s : St M) (i : Id) : Option (St M) :=
  match s.heap i with
  | none => none
  | some it =>
    if it.inQ = false then some s
    else
      let l := s.q (qid it)
      if i ∈ l then
        some { s with
          q := upd s.q (qid it) (l.erase i)
          low := upd s.low (qid it) (lowAfter l (s.low (qid it)) i)
          cur := upd s.cur (qid it) (curAfter l (s.low (qid it)) (s.cur (qid it)) i)
          heap := upd s.heap i (some { it with inQ := false }) }
      else none

/-- `do_item_isvalid`, item_base.c 556-577, with `prefix_isvalid`, prefix.c 502-515. -/
def valid (s : St M) (it : It) : Bool :=
  !(it.exp != 0 && decide (it.exp ≤ s.now)) &&
  !(s.oldest != 0 && decide (s.oldest ≤ s.now) && decide (it.time ≤ s.oldest)) &&
  !(s.pmark it.pfx != 0 && decide (s.pmark it.pfx ≤ s.now) && decide (it.time ≤ s.pmark it.pfx))

/-- 64-bit addition. -/
def add64 (a b : Nat) : Nat := (a + b) % 18446744073709551616

/-- 64-bit subtraction. -/
def sub64 (a b : Nat) : Nat := (a + (18446744073709551616 - b % 18446744073709551616)) % 18446744073709551616

/-- `do_item_stat_link`, item_base.c 199-212. -/
def statLink (t : Stats) (it : It) : Stats :=
  { t with
    stickyBytes := if it.exp = sticky then add64 t.stickyBytes it.size else t.stickyBytes
    stickyItems := if it.exp = sticky then add64 t.stickyItems 1 else t.stickyItems
    currBytes := add64 t.currBytes it.size
    currItems := add64 t.currItems 1 }

/-- `do_item_stat_unlink`, item_base.c 214-226. -/
def statUnlink (t : Stats) (it : It) : Stats :=
  { t with
    stickyBytes := if it.exp = sticky then sub64 t.stickyBytes it.size else t.stickyBytes
    stickyItems := if it.exp = sticky then sub64 t.stickyItems 1 else t.stickyItems
    currBytes := sub64 t.currBytes it.size
    currItems := sub64 t.currItems 1 }

/-- `do_item_stat_replace`, item_base.c 228-254; `new_stotal - old_stotal` is a 64-bit number. -/
def statReplace (t : Stats) (old new : It) : Stats :=
  { t with
    stickyBytes := if new.exp = sticky then add64 t.stickyBytes (sub64 new.size old.size) else t.stickyBytes
    currBytes := add64 t.currBytes (sub64 new.size old.size) }

/-- `do_item_free`, item_base.c 971-989, with its assertions.  A collection that still has elements is emptied by the background thread first; here its
memory is given back at once. -/
def free (sl : Slabs M) (s : St M) (i : Id) : Option (St M) :=
  match s.heap i with
  | none => none
  | some it =>
    if it.linked = true ∨ it.refs ≠ 0 then none
    else some { s with heap := upd s.heap i none, mem := sl.free s.mem it.n it.cls }

/-- `do_item_unlink`, item_base.c 1031-1071.  What is freed of a collection before (item_base.c 607-609, 622-624) has the same effect on the statistics
as if it were still there.  The prefix of the last item is kept with its mark (C30 is about prefixes). -/
def unlink (sl : Slabs M) (s : St M) (i : Id) : Option (St M) :=
  match s.heap i with
  | none => none
  | some it =>
    if it.linked = false then some s
    else
      match unlinkQ s i with
      | none => none
      | some s =>
        let s := { s with
          tbl := s.tbl.erase i
          heap := upd s.heap i (some { it with inQ := false, linked := false })
          stats := statUnlink s.stats it }
        if it.refs = 0 then free sl s i else some s

/-- `assoc_find`: the item in the table with this key. -/
def find (s : St M) (k : Nat) : Option Id := s.tbl.find? fun i => (s.heap i).any fun it => it.key == k

/-- `do_item_link`, item_base.c 992-1028; the prefix is always found or made. -/
def link (s : St M) (i : Id) : Option (St M) :=
  match s.heap i with
  | none => none
  | some it =>
    if it.linked = true ∨ it.inQ = true ∨ (find s it.key).isSome then none
    else
      match linkQ { s with heap := upd s.heap i (some { it with linked := true, time := s.now }), tbl := i :: s.tbl } i with
      | none => none
      | some s => some { s with stats := statLink s.stats it }

/-- `do_item_replace`, item_base.c 1074-1131: the callers replace an item by a new one with its key. -/
def replace (sl : Slabs M) (s : St M) (old new : Id) : Option (St M) :=
  match s.heap old, s.heap new with
  | some o, some n =>
    if o.linked = false ∨ n.linked = true ∨ n.inQ = true ∨ o.key ≠ n.key ∨ o.pfx ≠ n.pfx then none
    else
      match unlinkQ s old with
      | none => none
      | some s =>
        let s := { s with
          tbl := s.tbl.map fun i => if i = old then new else i
          heap := upd (upd s.heap new (some { n with linked := true, time := s.now })) old (some { o with inQ := false, linked := false })
          stats := statReplace s.stats o n }
        match (if o.refs = 0 then free sl s old else some s) with
        | none => none
        | some s => linkQ s new
  | _, _ => none

/-- `do_item_update`, item_base.c 1134-1156; 32-bit subtraction of `ITEM_UPDATE_INTERVAL`. -/
def update (s : St M) (i : Id) (force : Bool) : Option (St M) :=
  match s.heap i with
  | none => none
  | some it =>
    if it.linked = true ∧ (force = true ∨ it.time < (s.now + 4294967296 - 60) % 4294967296) then
      match unlinkQ s i with
      | none => none
      | some s => linkQ { s with heap := upd s.heap i (some { it with inQ := false, time := s.now }) } i
    else some s

/-- `do_item_get`, item_base.c 1160-1194. -/
def get (sl : Slabs M) (s : St M) (k : Nat) (upd_ : Bool) : Option (St M × Option Id) :=
  match find s k with
  | none => some (s, none)
  | some i =>
    match s.heap i with
    | none => none
    | some it =>
      if valid s it then
        let s := { s with heap := upd s.heap i (some { it with refs := it.refs + 1 }) }
        if upd_ then (update s i false).map fun s => (s, some i) else some (s, some i)
      else (unlink sl s i).map fun s => (s, none)

/-- `do_item_release`, item_base.c 1197-1220. -/
def release (sl : Slabs M) (s : St M) (i : Id) : Option (St M) :=
  match s.heap i with
  | none => none
  | some it =>
    let s := { s with heap := upd s.heap i (some { it with refs := it.refs - 1 }) }
    if it.refs - 1 ≠ 0 then some s
    else if it.linked = false then free sl s i
    else if it.inQ = false then
      if valid s it then linkQ { s with heap := upd s.heap i (some { it with refs := 0, time := s.now }) } i else unlink sl s i
    else some s

/-- The expire time in `do_item_setattr`, items.c 800-857, of an item the caller has got; true if it is accepted. -/
def setExp (s : St M) (i : Id) (e : Nat) : Option (St M × Bool) :=
  match s.heap i with
  | none => none
  | some it =>
    if (it.exp = sticky ∧ e ≠ sticky) ∨ (it.exp ≠ sticky ∧ e = sticky) then some (s, false)
    else
      let s := { s with heap := upd s.heap i (some { it with exp := e }) }
      if it.exp = 0 ∧ e ≠ 0 then (update s i true).map fun s => (s, true) else some (s, true)

/-- `do_coll_space_incr`, item_base.c 340-347. -/
def grow (s : St M) (i : Id) (n : Nat) : Option (St M) :=
  match s.heap i with
  | none => none
  | some it =>
    if it.linked = false then none
    else some { s with
      heap := upd s.heap i (some { it with size := it.size + n })
      stats := { s.stats with
        stickyBytes := if it.exp = sticky then add64 s.stats.stickyBytes n else s.stats.stickyBytes
        currBytes := add64 s.stats.currBytes n } }

/-- `do_coll_space_decr`, item_base.c 353-362, with its assertion. -/
def shrink (s : St M) (i : Id) (n : Nat) : Option (St M) :=
  match s.heap i with
  | none => none
  | some it =>
    if it.linked = false ∨ it.size < n then none
    else some { s with
      heap := upd s.heap i (some { it with size := it.size - n })
      stats := { s.stats with
        stickyBytes := if it.exp = sticky then sub64 s.stats.stickyBytes n else s.stats.stickyBytes
        currBytes := sub64 s.stats.currBytes n } }

/-- `do_item_evict`, item_base.c 615-627, with `do_item_stat_evict`. -/
def evict (sl : Slabs M) (s : St M) (i : Id) : Option (St M) :=
  unlink sl { s with stats := { s.stats with evictions := s.stats.evictions + 1 } } i

/-- `do_item_invalidate`, item_base.c 602-613, with `do_item_stat_reclaim`. -/
def invalidate (sl : Slabs M) (s : St M) (i : Id) : Option (St M) :=
  unlink sl { s with stats := { s.stats with reclaimed := s.stats.reclaimed + 1 } } i

/-- `do_item_repair`, item_base.c 629-642. -/
def repair (sl : Slabs M) (s : St M) (i : Id) : Option (St M) :=
  match s.heap i with
  | none => none
  | some it =>
    unlink sl { s with
      heap := upd s.heap i (some { it with refs := 0 })
      stats := { s.stats with repairs := s.stats.repairs + 1 } } i

/-- `slabs_alloc`: the state after it, and whether there is memory. -/
def slabsAlloc (sl : Slabs M) (s : St M) (n c : Nat) : St M × Bool :=
  match sl.alloc s.mem n c with
  | none => (s, false)
  | some m => ({ s with mem := m }, true)

/-- `do_item_reclaim`, item_base.c 579-600: in the classes above small memory the block itself is handed on. -/
def reclaim (sl : Slabs M) (s : St M) (i : Id) (n c : Nat) : Option (St M × Bool) :=
  if c ≠ 0 then
    match s.heap i with
    | none => none
    | some it =>
      match unlink sl { s with
          heap := upd s.heap i (some { it with refs := 1 })
          stats := { s.stats with reclaimed := s.stats.reclaimed + 1 }
          mem := sl.adjust s.mem it.cls it.n n } i with
      | none => none
      | some s => some ({ s with heap := upd s.heap i none }, true)
  else
    match invalidate sl s i with
    | none => none
    | some s => some (slabsAlloc sl s n c)

/-- The condition `refcount == 0 && !do_item_isvalid(search, current_time)`; `none` if the item has been freed. -/
def dead (s : St M) (i : Id) : Option Bool :=
  match s.heap i with
  | none => none
  | some it => some (it.refs == 0 && !valid s it)

/-- One round of the loops of `do_item_regain`, item_base.c 665-681, and of the search from the tail, item_base.c 842-860, for an item that is in use:
it is taken off its queue. -/
def drop (s : St M) (i : Id) : Option (St M) := unlinkQ s i

/-- The loop of `do_item_regain`, item_base.c 662-684, `k` rounds. -/
def regainLoop (sl : Slabs M) (c : Nat) : Nat → St M → Option Id → Option (St M)
  | 0, s, _ => some s
  | _ + 1, s, none => some s
  | k + 1, s, some i =>
    match s.heap i with
    | none => none
    | some it =>
      let prev := prevOf (s.q (c, false)) i
      if it.refs = 0 then
        match (if valid s it then evict sl s i else invalidate sl s i) with
        | none => none
        | some s => regainLoop sl c k s prev
      else
        match drop s i with
        | none => none
        | some s => regainLoop sl c k s prev

/-- `do_item_regain`, item_base.c 644-686, of small memory (`LRU_CLSID_FOR_SMALL`, 0). -/
def regain (sl : Slabs M) (s : St M) (count : Nat) : Option (St M) := regainLoop sl 0 count s (s.q (0, false)).getLast?

/-- `try one more invalidation`, item_base.c 752-757, 784-788 and 812-816. -/
def oneMore (sl : Slabs M) (s : St M) (o : Option Id) : Option (St M) :=
  match o with
  | none => some s
  | some i =>
    match dead s i with
    | none => none
    | some true => invalidate sl s i
    | some false => some s

/-- The loop that begins at the mark of sticky items, item_base.c 742-750, and that of step 2, item_base.c 797-805: `k` rounds, the mark moves up; the
rounds that are left and whether memory was had. -/
def markLoop (sl : Slabs M) (n : Nat) (q : Nat × Bool) : Nat → St M → Option (St M × Bool)
  | 0, s => some (s, false)
  | k + 1, s =>
    match s.cur q with
    | none => some (s, false)
    | some i =>
      let s := { s with cur := upd s.cur q (prevOf (s.q q) i) }
      match dead s i with
      | none => none
      | some true =>
        match reclaim sl s i n q.1 with
        | none => none
        | some (s, true) => some (s, true)
        | some (s, false) => markLoop sl n q k s
      | some false => markLoop sl n q k s

/-- Step 1, item_base.c 770-783: from `lowMK` up to `curMK`; also the rounds that are left and the item before that reclaimed. -/
def lowLoop (sl : Slabs M) (n c : Nat) : Nat → St M → Option Id → Option (St M × Nat × Option (Option Id))
  | 0, s, _ => some (s, 0, none)
  | k + 1, s, none => some (s, k + 1, none)
  | k + 1, s, some i =>
    if s.cur (c, false) = some i then some (s, k + 1, none)
    else
      match s.heap i with
      | none => none
      | some it =>
        let prev := prevOf (s.q (c, false)) i
        if it.refs = 0 ∧ valid s it = false then
          match reclaim sl s i n c with
          | none => none
          | some (s, true) => some (s, k + 1, some prev)
          | some (s, false) => lowLoop sl n c k s prev
        else
          lowLoop sl n c k
            (if it.exp = 0 ∧ s.low (c, false) = some i then { s with low := upd s.low (c, false) prev } else s) prev

/-- The search from the tail, item_base.c 840-862, `k` rounds. -/
def tailLoop (sl : Slabs M) (n c : Nat) : Nat → St M → Option Id → Option (St M × Bool)
  | 0, s, _ => some (s, false)
  | _ + 1, s, none => some (s, false)
  | k + 1, s, some i =>
    match s.heap i with
    | none => none
    | some it =>
      let prev := prevOf (s.q (c, false)) i
      if it.refs = 0 then
        match (if valid s it then (evict sl s i).map fun s => slabsAlloc sl s n c else reclaim sl s i n c) with
        | none => none
        | some (s, true) => some (s, true)
        | some (s, false) => tailLoop sl n c k s prev
      else
        match drop s i with
        | none => none
        | some s => tailLoop sl n c k s prev

/-- The last loop, item_base.c 886-903: items in use and not touched for `TAIL_REPAIR_TIME` are taken (the sum of 32 bits is that of numbers until 3
hours before the clock runs out, after 136 years). -/
def repairLoop (sl : Slabs M) (n c : Nat) : Nat → St M → Option Id → Option (St M × Bool)
  | 0, s, _ => some (s, false)
  | _ + 1, s, none => some (s, false)
  | k + 1, s, some i =>
    match s.heap i with
    | none => none
    | some it =>
      let prev := prevOf (s.q (c, false)) i
      if it.refs ≠ 0 ∧ it.time + 10800 < s.now then
        match (repair sl s i).map fun s => slabsAlloc sl s n c with
        | none => none
        | some (s, true) => some (s, true)
        | some (s, false) => repairLoop sl n c k s prev
      else repairLoop sl n c k s prev

/-- The tail of `do_item_mem_alloc`, item_base.c 820-908. -/
def allocOrEvict (cfg : Cfg) (sl : Slabs M) (s : St M) (n c : Nat) : Option (St M × Bool) :=
  match slabsAlloc sl s n c with
  | (s, true) => some (s, true)
  | (s, false) =>
    if cfg.evict = false then some ({ s with stats := { s.stats with outOfMemory := s.stats.outOfMemory + 1 } }, false)
    else
      match tailLoop sl n c 200 s (s.q (c, false)).getLast? with
      | none => none
      | some (s, true) => some (s, true)
      | some (s, false) =>
        let s := { s with stats := { s.stats with outOfMemory := s.stats.outOfMemory + 1 } }
        if c = 0 then some (s, false) else repairLoop sl n c 50 s (s.q (c, false)).getLast?

/-- Step 2 with what follows, item_base.c 794-818: after `k` more rounds `curMK` begins again at `lowMK`. -/
def curSearch (cfg : Cfg) (sl : Slabs M) (s : St M) (n c k : Nat) : Option (St M × Bool) :=
  match markLoop sl n (c, false) k s with
  | none => none
  | some (s, b) =>
    let s := if s.cur (c, false) = none then { s with cur := upd s.cur (c, false) (s.low (c, false)) } else s
    if b then (oneMore sl s (s.cur (c, false))).map fun s => (s, true) else allocOrEvict cfg sl s n c

/-- The search at the marks of plain items, item_base.c 764-819. -/
def lowSearch (cfg : Cfg) (sl : Slabs M) (s : St M) (n c : Nat) : Option (St M × Bool) :=
  match s.cur (c, false) with
  | none => allocOrEvict cfg sl s n c
  | some _ =>
    match s.low (c, false) with
    | none => none
    | some l =>
      match lowLoop sl n c 10 s (some l) with
      | none => none
      | some (s, _, some prev) => (oneMore sl s prev).map fun s => (s, true)
      | some (s, k, none) => curSearch cfg sl s n c (k + 20)

/-- The search at the mark of sticky items, item_base.c 737-762. -/
def stickySearch (cfg : Cfg) (sl : Slabs M) (s : St M) (n c : Nat) : Option (St M × Bool) :=
  match s.cur (c, true) with
  | none => lowSearch cfg sl s n c
  | some _ =>
    match markLoop sl n (c, true) 10 s with
    | none => none
    | some (s, true) => (oneMore sl s (s.cur (c, true))).map fun s => (s, true)
    | some (s, false) => lowSearch cfg sl s n c

/-- `do_item_mem_alloc`, item_base.c 690-909: `c` is the LRU queue, 0 for small memory. -/
def memAlloc (cfg : Cfg) (sl : Slabs M) (s : St M) (n c : Nat) : Option (St M × Bool) :=
  match (if cfg.evict = true ∧ c = 0 ∧ 0 < sl.level s.mem then regain sl s (sl.level s.mem) else some s) with
  | none => none
  | some s => stickySearch cfg sl s n c

/-- `do_item_alloc`, item_base.c 926-968, with `do_item_sticky_overflowed` (326-333). -/
def alloc (cfg : Cfg) (sl : Slabs M) (s : St M) (key pfx exp n c : Nat) : Option (St M × Option Id) :=
  if exp = sticky ∧ ¬ s.stats.stickyBytes < cfg.stickyLimit then some (s, none)
  else
    match memAlloc cfg sl s n c with
    | none => none
    | some (s, false) => some (s, none)
    | some (s, true) =>
      some ({ s with
        heap := upd s.heap s.next
          (some { key, pfx, cls := c, exp, n, size := cfg.space n, time := 0, refs := 1, linked := false, inQ := false })
        next := s.next + 1 }, some s.next)

/-- The walk of a flush through one queue, items.c 501-526 and 530-553: `none` for the prefix is flush_all. -/
def flushWalk (sl : Slabs M) (pfx : Option Nat) (mark : Nat) (q : Nat × Bool) : St M → List Id → Option (St M)
  | s, [] => some s
  | s, i :: l =>
    match s.heap i with
    | none => none
    | some it =>
      if it.time < mark then
        some { s with
          low := if q.2 then s.low else upd s.low q (s.q q).getLast?
          cur := upd s.cur q (s.q q).getLast? }
      else if pfx = none ∨ pfx = some it.pfx then
        match unlink sl s i with
        | none => none
        | some s => flushWalk sl pfx mark q s l
      else flushWalk sl pfx mark q s l

/-- The walk through all queues, items.c 493-556. -/
def flushAll (sl : Slabs M) (pfx : Option Nat) (mark : Nat) : St M → List (Nat × Bool) → Option (St M)
  | s, [] => some s
  | s, q :: qs =>
    match flushWalk sl pfx mark q s (s.q q) with
    | none => none
    | some s => flushAll sl pfx mark s qs

/-- `do_item_flush_expired`, items.c 436-560, of a prefix that is there or of all. -/
def flush (cfg : Cfg) (sl : Slabs M) (s : St M) (pfx : Option Nat) (when_ : Nat) : Option (St M) :=
  let mark := if when_ = 0 then s.now - 1 else when_ - 1
  let s := match pfx with
    | none => { s with oldest := mark }
    | some p => { s with pmark := upd s.pmark p mark }
  if mark = 0 then some s
  else flushAll sl pfx mark s ((List.range (cfg.largest + 1)).flatMap fun c => [(c, false), (c, true)])

/-- The calls, by the functions of items.c and the collections, and by the background thread (item_base.c 1276-1292, which regains when the level is 10
or more). -/
inductive Op where
  | tick (dt : Nat)
  | alloc (key pfx exp n c : Nat)
  | mem (n : Nat)
  | memFree (n : Nat)
  | link (i : Id)
  | replace (old new : Id)
  | unlink (i : Id)
  | get (key : Nat) (update : Bool)
  | update (i : Id)
  | release (i : Id)
  | setExp (i : Id) (e : Nat)
  | grow (i : Id) (n : Nat)
  | shrink (i : Id) (n : Nat)
  | flush (pfx : Option Nat) (when_ : Nat)
  | background
deriving DecidableEq, Repr

/-- What a call gives. -/
inductive Out where
  | done
  | no
  | item (i : Id)
deriving DecidableEq, Repr

/-- An item or none. -/
def Out.of : Option Id → Out
  | none => .no
  | some i => .item i

/-- Done or not. -/
def Out.ofBool : Bool → Out
  | true => .done
  | false => .no

/-- One call (the functions above); the clock goes on up to the end of its 32 bits. -/
def step (cfg : Cfg) (sl : Slabs M) (s : St M) : Op → Option (St M × Out)
  | .tick dt => if s.now + dt < 4294967295 then some ({ s with now := s.now + dt }, .done) else none
  | .alloc key pfx exp n c => (alloc cfg sl s key pfx exp n c).map fun (s, o) => (s, .of o)
  | .mem n => (memAlloc cfg sl s n 0).map fun (s, b) => (s, .ofBool b)
  | .memFree n => some ({ s with mem := sl.free s.mem n 0 }, .done)
  | .link i => (link s i).map fun s => (s, .done)
  | .replace o n => (replace sl s o n).map fun s => (s, .done)
  | .unlink i => (unlink sl s i).map fun s => (s, .done)
  | .get k u => (get sl s k u).map fun (s, o) => (s, .of o)
  | .update i => (update s i false).map fun s => (s, .done)
  | .release i => (release sl s i).map fun s => (s, .done)
  | .setExp i e => (setExp s i e).map fun (s, b) => (s, .ofBool b)
  | .grow i n => (grow s i n).map fun s => (s, .done)
  | .shrink i n => (shrink s i n).map fun s => (s, .done)
  | .flush p w => (flush cfg sl s p w).map fun s => (s, .done)
  | .background =>
    if cfg.evict = true ∧ 10 ≤ sl.level s.mem then (regain sl s (sl.level s.mem)).map fun s => (s, .done) else some (s, .done)

/-- A sequence of calls. -/
def run (cfg : Cfg) (sl : Slabs M) : St M → List Op → Option (St M)
  | s, [] => some s
  | s, op :: ops =>
    match step cfg sl s op with
    | none => none
    | some (s, _) => run cfg sl s ops

end Verif.Lru
