import Verif.Model.Util
/-!
# Items: hash table, LRU queues, reference counts, expiry and flush

Model of `engines/default/items.c` and `engines/default/item_base.c` (key-value part, and
collection items seen as opaque items).  Items live in a heap addressed by identifiers; an access to
an identifier that is not allocated makes the whole operation `none` ("fault"), and so does a failed
`assert`.  One engine call runs under the cache lock and is one atomic step.
-/
namespace Verif.Item
open Verif.Util

abbrev Key := List Nat
abbrev Id := Nat

/-- Function update. -/
def upd {α β : Type} [DecidableEq α] (f : α → β) (a : α) (b : β) : α → β :=
  fun x => if x = a then b else f x

/-- Configuration: prefix delimiter (default_engine.c config), `slabs_clsid` as an arbitrary function
of the total size (slabs.c), `MAX_SM_VALUE_LEN` (slabs.c 195), `POWER_LARGEST` (slabs.h). -/
structure Cfg where
  delim : Nat
  clsid : Nat → Nat
  maxSm : Nat
  powerLargest : Nat
  clsid_le : ∀ n, clsid n ≤ powerLargest

/-- Reference counter pair `refcount` (16 bit) and `refchunk` (8 bit), item_base.h 157-160. -/
structure Ref where
  cnt : Nat
  chunk : Nat
deriving DecidableEq, Repr

/-- `ITEM_REFCOUNT_INCR`, item_base.c 94-102; the overflow assertion is a fault. -/
def Ref.incr (r : Ref) : Option Ref :=
  let c := (r.cnt + 1) % 65536
  if c = 65535 then
    let k := (r.chunk + 1) % 256
    if k = 0 then none else some ⟨c - 32768, k⟩
  else some ⟨c, r.chunk⟩

/-- `ITEM_REFCOUNT_DECR`, item_base.c 105-112 (only called with `refcount != 0`). -/
def Ref.decr (r : Ref) : Ref :=
  let c := r.cnt - 1
  if c = 0 ∧ 0 < r.chunk then ⟨32768, r.chunk - 1⟩ else ⟨c, r.chunk⟩

/-- `hash_item`, item_base.h 156-173.  `coll` is `IS_COLL_ITEM`; `data` are the value bytes including
the trailing CRLF (empty for collections, whose elements are modelled elsewhere); `inLru` is false when
`prev == next == it` ("unlinked from LRU", item_base.c 508). -/
structure Obj where
  key : Key
  flags : Nat
  exptime : Nat
  time : Nat
  cas : Nat
  coll : Bool
  data : List Nat
  linked : Bool
  inLru : Bool
  ref : Ref
deriving DecidableEq, Repr

/-- Sticky expiry time `(rel_time_t)(-1)`, item_base.h 143. -/
def sticky : Nat := 2 ^ 32 - 1

/-- Engine state: clock, cas counter (item_base.c 379-383; not wrapped at 2^64), `config->oldest_live`,
`oldest_live` of every prefix (0 when the prefix is not in the prefix table), hash table (key, item),
heap, next fresh identifier, LRU queues indexed by class and stickiness, head first
(`itemsp->heads` and `itemsp->sticky_heads`). -/
structure St where
  now : Nat
  casId : Nat
  oldest : Nat
  pfxOld : List Nat → Nat
  tbl : List (Key × Id)
  heap : Id → Option Obj
  nextId : Id
  lru : Nat × Bool → List Id

/-- Engine start (item_base.c item_base_init, prefix.c 77-98): everything empty. -/
def init (now : Nat) : St :=
  { now := now, casId := 0, oldest := 0, pfxOld := fun _ => 0, tbl := [], heap := fun _ => none,
    nextId := 0, lru := fun _ => [] }

/-- Prefix of a key: the bytes before the first delimiter at position ≥ 1, or the null prefix;
prefix.c 331-352 with `DEFAULT_PREFIX_MAX_DEPTH` 1. -/
def pfxOf (cfg : Cfg) (k : Key) : List Nat :=
  match k with
  | [] => []
  | c :: r => if cfg.delim ∈ r then c :: r.takeWhile (· != cfg.delim) else []

/-- `mc_isvalidname(key, nprefix)` on the prefix of the key (prefix.c 366-369, util.c 174-187). -/
def pfxNameOk (cfg : Cfg) (k : Key) : Bool :=
  let p := pfxOf cfg k
  p.isEmpty || isValidName k p.length == some true

/-- `ITEM_ntotal` of a key-value item: header 64 + cas 8 + key + data, item_base.c 114-150. -/
def ntotal (o : Obj) : Nat := 72 + o.key.length + o.data.length

/-- LRU class chosen by `item_link_q`/`item_unlink_q`, item_base.c 461-473 and 504-516. -/
def qid (cfg : Cfg) (o : Obj) : Nat × Bool :=
  (if o.coll ∨ ntotal o ≤ cfg.maxSm then 0 else cfg.clsid (ntotal o), o.exptime == sticky)

/-- `item_link_q`, item_base.c 453-495 (the lowMK/curMK scan positions are not modelled). -/
def itemLinkQ (cfg : Cfg) (s : St) (i : Id) : Option St :=
  match s.heap i with
  | none => none
  | some o =>
    let q := qid cfg o
    some { s with lru := upd s.lru q (i :: s.lru q), heap := upd s.heap i (some { o with inLru := true }) }

/-- `item_unlink_q`, item_base.c 497-553. -/
def itemUnlinkQ (cfg : Cfg) (s : St) (i : Id) : Option St :=
  match s.heap i with
  | none => none
  | some o =>
    if !o.inLru then some s
    else
      let q := qid cfg o
      some { s with lru := upd s.lru q ((s.lru q).erase i), heap := upd s.heap i (some { o with inLru := false }) }

/-- One flush mark test of `do_item_isvalid`/`prefix_isvalid`: the mark is set, has been reached by
the clock, and the item is not newer; item_base.c 568-571, prefix.c 506-509. -/
def flushedBy (now mark time : Nat) : Bool := mark != 0 && mark ≤ now && time ≤ mark

/-- `do_item_isvalid`, item_base.c 556-577 and `prefix_isvalid`, prefix.c 502-515. -/
def isValid (cfg : Cfg) (s : St) (o : Obj) : Bool :=
  !(o.exptime != 0 && o.exptime ≤ s.now) &&
  !flushedBy s.now s.oldest o.time &&
  !flushedBy s.now (s.pfxOld (pfxOf cfg o.key)) o.time

/-- `assoc_find`, assoc.c 166-188, on the abstract table (the chained table itself is property C25). -/
def assocFind (s : St) (k : Key) : Option Id := s.tbl.lookup k

/-- `assoc_delete`, assoc.c 303-327. -/
def assocDelete (t : List (Key × Id)) (k : Key) : List (Key × Id) := t.filter (fun p => p.1 != k)

/-- `assoc_replace`, assoc.c 288-301. -/
def assocReplace (t : List (Key × Id)) (old new : Id) : List (Key × Id) :=
  t.map fun p => if p.2 = old then (p.1, new) else p

/-- `do_item_free`, item_base.c 971-989.  The assertions that the item is unlinked and unreferenced
are faults, so is freeing an item that is not allocated.  A non-empty collection is first emptied by
the background thread (item_base.c 977-983, 1249-1274); here its memory is returned at once. -/
def doItemFree (s : St) (i : Id) : Option St :=
  match s.heap i with
  | none => none
  | some o => if o.linked ∨ o.ref.cnt ≠ 0 then none else some { s with heap := upd s.heap i none }

/-- `prefix_unlink` with `drop_if_empty`, prefix.c 433-453, after the item has left the table: an
emptied prefix is deleted, which forgets its flush mark.  The null prefix is never deleted. -/
def pfxDrop (cfg : Cfg) (s : St) (p : List Nat) : St :=
  if p ≠ [] ∧ (s.tbl.all fun e => pfxOf cfg e.1 != p) = true then { s with pfxOld := upd s.pfxOld p 0 } else s

/-- `do_item_unlink`, item_base.c 1031-1071. -/
def doItemUnlink (cfg : Cfg) (s : St) (i : Id) : Option St :=
  match s.heap i with
  | none => none
  | some o =>
    if !o.linked then some s
    else
      match itemUnlinkQ cfg s i with
      | none => none
      | some s =>
        match s.heap i with
        | none => none
        | some o =>
          let s := { s with tbl := assocDelete s.tbl o.key, heap := upd s.heap i (some { o with linked := false }) }
          let s := pfxDrop cfg s (pfxOf cfg o.key)
          if o.ref.cnt = 0 then doItemFree s i else some s

/-- Error codes and replies of the engine calls. -/
inductive Rep where
  | ok
  | stored (cas : Nat)
  | notStored
  | eexists
  | enoent
  | ebadtype
  | ebadvalue
  | einval
  | enomem
  | ename
  | pfxEnoent
  | allocated (i : Id)
  | hit (i : Id) (flags cas : Nat) (data : List Nat)
  | num (v cas : Nat)
deriving DecidableEq, Repr

/-- `do_item_link`, item_base.c 992-1028, with `prefix_link`, prefix.c 331-431 (allocation of the
prefix structure is assumed to succeed).  The cas id is consumed even when the prefix name is refused. -/
def doItemLink (cfg : Cfg) (s : St) (i : Id) : Option (St × Rep) :=
  match s.heap i with
  | none => none
  | some o =>
    if o.linked then none                       -- assert, item_base.c 995
    else
      let cas := s.casId + 1
      let s := { s with casId := cas, heap := upd s.heap i (some { o with cas := cas }) }
      if !(s.tbl.any fun e => pfxOf cfg e.1 == pfxOf cfg o.key) && !pfxNameOk cfg o.key then some (s, .ename)
      else if (assocFind s o.key).isSome then none   -- assert, assoc.c 263
      else
        let s := { s with tbl := (o.key, i) :: s.tbl
                          heap := upd s.heap i (some { o with cas := cas, linked := true, time := s.now }) }
        match itemLinkQ cfg s i with
        | none => none
        | some s => some (s, .stored cas)

/-- `do_item_replace`, item_base.c 1074-1131. -/
def doItemReplace (cfg : Cfg) (s : St) (old new : Id) : Option (St × Nat) :=
  match s.heap old with
  | none => none
  | some o =>
    if !o.linked then none                       -- assert, item_base.c 1080
    else
      match itemUnlinkQ cfg s old with
      | none => none
      | some s =>
        match s.heap new with
        | none => none
        | some n =>
          let cas := s.casId + 1
          let s := { s with casId := cas
                            heap := upd s.heap new (some { n with cas := cas, linked := true, time := s.now })
                            tbl := assocReplace s.tbl old new }
          match s.heap old with
          | none => none
          | some o =>
            let s := { s with heap := upd s.heap old (some { o with linked := false }) }
            match (if o.ref.cnt = 0 then doItemFree s old else some s) with
            | none => none
            | some s =>
              match itemLinkQ cfg s new with
              | none => none
              | some s => some (s, cas)

/-- `do_item_update`, item_base.c 1134-1156; the subtraction of `ITEM_UPDATE_INTERVAL` (60) is on
32-bit unsigned numbers. -/
def doItemUpdate (cfg : Cfg) (s : St) (i : Id) (force : Bool) : Option St :=
  match s.heap i with
  | none => none
  | some o =>
    if !o.linked then some s
    else if force || o.time < (s.now + 2 ^ 32 - 60) % 2 ^ 32 then
      match itemUnlinkQ cfg s i with
      | none => none
      | some s =>
        match s.heap i with
        | none => none
        | some o => itemLinkQ cfg { s with heap := upd s.heap i (some { o with time := s.now }) } i
    else some s

/-- `do_item_get`, item_base.c 1160-1194. -/
def doItemGet (cfg : Cfg) (s : St) (k : Key) (update : Bool) : Option (St × Option Id) :=
  match assocFind s k with
  | none => some (s, none)
  | some i =>
    match s.heap i with
    | none => none
    | some o =>
      if isValid cfg s o then
        match o.ref.incr with
        | none => none
        | some r =>
          let s := { s with heap := upd s.heap i (some { o with ref := r }) }
          if update then
            match doItemUpdate cfg s i false with
            | none => none
            | some s => some (s, some i)
          else some (s, some i)
      else
        match doItemUnlink cfg s i with
        | none => none
        | some s => some (s, none)

/-- `do_item_release`, item_base.c 1197-1220. -/
def doItemRelease (cfg : Cfg) (s : St) (i : Id) : Option St :=
  match s.heap i with
  | none => none
  | some o =>
    let r := if o.ref.cnt ≠ 0 then o.ref.decr else o.ref
    let s := { s with heap := upd s.heap i (some { o with ref := r }) }
    if r.cnt = 0 then
      if !o.linked then doItemFree s i
      else if !o.inLru then
        if isValid cfg s o then
          itemLinkQ cfg { s with heap := upd s.heap i (some { o with ref := r, time := s.now }) } i
        else doItemUnlink cfg s i
      else some s
    else some s

/-- What `do_item_mem_alloc` (item_base.c 690-909) and the background thread (do_item_regain,
item_base.c 648-686) may do to existing items while searching for memory. -/
inductive EnvAct where
  | evict (i : Id)      -- unreferenced item taken from a queue: do_item_evict, do_item_reclaim, do_item_invalidate
  | lruDrop (i : Id)    -- referenced item taken off its queue, item_base.c 675-680 and 856-859
  | repair (i : Id)     -- do_item_repair, item_base.c 634-646
deriving DecidableEq, Repr

/-- One such action, guarded by the conditions the code tests; an action whose guard fails does
nothing.  Over-approximation: any queued item may be picked, in any order. -/
def envAct (cfg : Cfg) (s : St) : EnvAct → Option St
  | .evict i =>
    match s.heap i with
    | none => some s
    | some o => if o.inLru ∧ o.ref.cnt = 0 then doItemUnlink cfg s i else some s
  | .lruDrop i =>
    match s.heap i with
    | none => some s
    | some o => if o.inLru ∧ o.ref.cnt ≠ 0 then itemUnlinkQ cfg s i else some s
  | .repair i =>
    match s.heap i with
    | none => some s
    | some o =>
      if o.inLru ∧ o.ref.cnt ≠ 0 ∧ o.time + 3 * 3600 < s.now then
        doItemUnlink cfg { s with heap := upd s.heap i (some { o with ref := ⟨0, 0⟩ }) } i
      else some s

/-- A sequence of such actions. -/
def envActs (cfg : Cfg) : St → List EnvAct → Option St
  | s, [] => some s
  | s, a :: as =>
    match envAct cfg s a with
    | none => none
    | some s => envActs cfg s as

/-- Outcome of a memory allocation: the actions performed while searching, and whether memory was
obtained (also false for an oversized item or when the sticky limit is reached, item_base.c 933-950). -/
structure Env where
  acts : List EnvAct
  ok : Bool
deriving DecidableEq, Repr

/-- `do_item_alloc`, item_base.c 926-968; also the collection item allocators, which set the item type
(coll_list.c do_list_item_alloc etc.).  The value bytes, which the caller writes right after the
allocation, are passed in. -/
def doItemAlloc (cfg : Cfg) (s : St) (env : Env) (key : Key) (flags exptime : Nat) (coll : Bool)
    (data : List Nat) : Option (St × Option Id) :=
  match envActs cfg s env.acts with
  | none => none
  | some s =>
    if env.ok then
      let o : Obj := { key := key, flags := flags, exptime := exptime, time := 0, cas := 0, coll := coll,
                       data := data, linked := false, inLru := false, ref := ⟨1, 0⟩ }
      some ({ s with heap := upd s.heap s.nextId (some o), nextId := s.nextId + 1 }, some s.nextId)
    else some (s, none)

/-- Store operations, include/memcached/types.h `ENGINE_STORE_OPERATION`. -/
inductive StoreOp where
  | set | add | replace | cas | append | prepend
deriving DecidableEq, Repr

/-- `do_item_store_set`, items.c 76-97. -/
def storeSet (cfg : Cfg) (s : St) (i : Id) : Option (St × Rep) :=
  match s.heap i with
  | none => none
  | some it =>
    match doItemGet cfg s it.key false with
    | none => none
    | some (s, none) => doItemLink cfg s i
    | some (s, some oldi) =>
      match s.heap oldi with
      | none => none
      | some old =>
        if old.coll then
          match doItemRelease cfg s oldi with
          | none => none
          | some s => some (s, .ebadtype)
        else
          match doItemReplace cfg s oldi i with
          | none => none
          | some (s, c) =>
            match doItemRelease cfg s oldi with
            | none => none
            | some s => some (s, .stored c)

/-- `do_item_store_add`, items.c 99-121. -/
def storeAdd (cfg : Cfg) (s : St) (i : Id) : Option (St × Rep) :=
  match s.heap i with
  | none => none
  | some it =>
    match doItemGet cfg s it.key false with
    | none => none
    | some (s, none) => doItemLink cfg s i
    | some (s, some oldi) =>
      match s.heap oldi with
      | none => none
      | some old =>
        if old.coll then
          match doItemRelease cfg s oldi with
          | none => none
          | some s => some (s, .ebadtype)
        else
          match doItemUpdate cfg s oldi false with
          | none => none
          | some s =>
            match doItemRelease cfg s oldi with
            | none => none
            | some s => some (s, .notStored)

/-- `do_item_store_replace`, items.c 123-142. -/
def storeReplace (cfg : Cfg) (s : St) (i : Id) : Option (St × Rep) :=
  match s.heap i with
  | none => none
  | some it =>
    match doItemGet cfg s it.key false with
    | none => none
    | some (s, none) => some (s, .notStored)
    | some (s, some oldi) =>
      match s.heap oldi with
      | none => none
      | some old =>
        if old.coll then
          match doItemRelease cfg s oldi with
          | none => none
          | some s => some (s, .ebadtype)
        else
          match doItemReplace cfg s oldi i with
          | none => none
          | some (s, c) =>
            match doItemRelease cfg s oldi with
            | none => none
            | some s => some (s, .stored c)

/-- `do_item_store_cas`, items.c 144-174. -/
def storeCas (cfg : Cfg) (s : St) (i : Id) : Option (St × Rep) :=
  match s.heap i with
  | none => none
  | some it =>
    match doItemGet cfg s it.key false with
    | none => none
    | some (s, none) => some (s, .enoent)
    | some (s, some oldi) =>
      match s.heap oldi with
      | none => none
      | some old =>
        if old.coll then
          match doItemRelease cfg s oldi with
          | none => none
          | some s => some (s, .ebadtype)
        else if it.cas = old.cas then
          match doItemReplace cfg s oldi i with
          | none => none
          | some (s, c) =>
            match doItemRelease cfg s oldi with
            | none => none
            | some s => some (s, .stored c)
        else
          match doItemRelease cfg s oldi with
          | none => none
          | some s => some (s, .eexists)

/-- The data of the combined item built by `do_item_store_attach`, items.c 196-212: the buffer has
`it->nbytes + old_it->nbytes - 2` bytes; the first copy is overwritten from its last two bytes on. -/
def attachData (append : Bool) (old new : List Nat) : List Nat :=
  if append then old.take (old.length - 2) ++ new else new.take (new.length - 2) ++ old

/-- `do_item_store_attach`, items.c 176-224. -/
def storeAttach (cfg : Cfg) (s : St) (i : Id) (append : Bool) (env : Env) : Option (St × Rep) :=
  match s.heap i with
  | none => none
  | some it =>
    match doItemGet cfg s it.key false with
    | none => none
    | some (s, none) => some (s, .notStored)
    | some (s, some oldi) =>
      match s.heap oldi with
      | none => none
      | some old =>
        if old.coll then
          match doItemRelease cfg s oldi with
          | none => none
          | some s => some (s, .ebadtype)
        else if it.cas ≠ 0 ∧ it.cas ≠ old.cas then
          match doItemRelease cfg s oldi with
          | none => none
          | some s => some (s, .eexists)
        else
          match doItemAlloc cfg s env it.key old.flags old.exptime false (attachData append old.data it.data) with
          | none => none
          | some (s, none) =>
            match doItemRelease cfg s oldi with
            | none => none
            | some s => some (s, .notStored)
          | some (s, some newi) =>
            match doItemReplace cfg s oldi newi with
            | none => none
            | some (s, c) =>
              match doItemRelease cfg s newi with
              | none => none
              | some s =>
                match doItemRelease cfg s oldi with
                | none => none
                | some s => some (s, .stored c)

/-- `item_store`, items.c 321-353. -/
def itemStore (cfg : Cfg) (s : St) (i : Id) (op : StoreOp) (env : Env) : Option (St × Rep) :=
  match op with
  | .set => storeSet cfg s i
  | .add => storeAdd cfg s i
  | .replace => storeReplace cfg s i
  | .cas => storeCas cfg s i
  | .append => storeAttach cfg s i true env
  | .prepend => storeAttach cfg s i false env

/-- The new value computed by `do_add_delta`, items.c 249-257, on 64-bit unsigned numbers. -/
def addDelta (incr : Bool) (value delta : Nat) : Nat :=
  if incr then (value + delta) % 2 ^ 64 else if value < delta then 0 else value - delta

/-- `do_add_delta`, items.c 237-275.  `rest` are the memory bytes behind the item's data: the data is
not NUL-terminated, so `safe_strtoull` may look at them. -/
def doAddDelta (cfg : Cfg) (s : St) (i : Id) (incr : Bool) (delta : Nat) (rest : List Nat) (env : Env) :
    Option (St × Rep) :=
  match s.heap i with
  | none => none
  | some it =>
    match safeStrtoull (it.data ++ rest) with
    | none => none
    | some none => some (s, .einval)
    | some (some value) =>
      let v := addDelta incr value delta
      match doItemAlloc cfg s env it.key it.flags it.exptime false (showNat v ++ [13, 10]) with
      | none => none
      | some (s, none) => some (s, .enomem)
      | some (s, some newi) =>
        match doItemReplace cfg s i newi with
        | none => none
        | some (s, c) =>
          match doItemRelease cfg s newi with
          | none => none
          | some s => some (s, .num v c)

/-- `item_arithmetic`, items.c 355-399.  On a collection item the reference taken by `do_item_get` is
not given back (items.c 369-371). -/
def itemArithmetic (cfg : Cfg) (s : St) (key : Key) (incr create : Bool) (delta initial flags exptime : Nat)
    (rest : List Nat) (env : Env) : Option (St × Rep) :=
  match doItemGet cfg s key false with
  | none => none
  | some (s, some i) =>
    match s.heap i with
    | none => none
    | some it =>
      if it.coll then some (s, .ebadtype)
      else
        match doAddDelta cfg s i incr delta rest env with
        | none => none
        | some (s, r) =>
          match doItemRelease cfg s i with
          | none => none
          | some s => some (s, r)
  | some (s, none) =>
    if create then
      match doItemAlloc cfg s env key flags exptime false (showNat initial ++ [13, 10]) with
      | none => none
      | some (s, none) => some (s, .enomem)
      | some (s, some i) =>
        match storeAdd cfg s i with
        | none => none
        | some (s, r) =>
          match doItemRelease cfg s i with
          | none => none
          | some s =>
            match r with
            | .stored c => some (s, .num initial c)
            | r => some (s, r)
    else some (s, .enoent)

/-- `item_delete`, items.c 404-428. -/
def itemDelete (cfg : Cfg) (s : St) (key : Key) (cas : Nat) : Option (St × Rep) :=
  match doItemGet cfg s key false with
  | none => none
  | some (s, none) => some (s, .enoent)
  | some (s, some i) =>
    match s.heap i with
    | none => none
    | some it =>
      if cas = 0 ∨ cas = it.cas then
        match doItemUnlink cfg s i with
        | none => none
        | some s =>
          match doItemRelease cfg s i with
          | none => none
          | some s => some (s, .ok)
      else
        match doItemRelease cfg s i with
        | none => none
        | some s => some (s, .eexists)

/-- `default_get`, default_engine.c 385-405, with `item_get`, items.c 297-304. -/
def itemGet (cfg : Cfg) (s : St) (key : Key) : Option (St × Rep) :=
  match doItemGet cfg s key true with
  | none => none
  | some (s, none) => some (s, .enoent)
  | some (s, some i) =>
    match s.heap i with
    | none => none
    | some it =>
      if it.coll then
        match doItemRelease cfg s i with
        | none => none
        | some s => some (s, .ebadtype)
      else some (s, .hit i it.flags it.cas it.data)

/-- `item_setattr` with the expire time as only attribute, items.c 800-880 (`do_item_setattr`).
Collection attributes are not modelled here. -/
def itemSetExp (cfg : Cfg) (s : St) (key : Key) (exptime : Nat) : Option (St × Rep) :=
  match doItemGet cfg s key false with
  | none => none
  | some (s, none) => some (s, .enoent)
  | some (s, some i) =>
    match s.heap i with
    | none => none
    | some it =>
      if (it.exptime = sticky ∧ exptime ≠ sticky) ∨ (it.exptime ≠ sticky ∧ exptime = sticky) then
        match doItemRelease cfg s i with
        | none => none
        | some s => some (s, .ebadvalue)
      else
        let s' := { s with heap := upd s.heap i (some { it with exptime := exptime }) }
        match (if it.exptime = 0 ∧ exptime ≠ 0 then doItemUpdate cfg s' i true else some s') with
        | none => none
        | some s =>
          match doItemRelease cfg s i with
          | none => none
          | some s => some (s, .ok)

/-- Creation of an empty collection: `list_struct_create` (coll_list.c 354-379) and its siblings. -/
def collCreate (cfg : Cfg) (s : St) (key : Key) (flags exptime : Nat) (env : Env) : Option (St × Rep) :=
  match doItemGet cfg s key false with
  | none => none
  | some (s, some i) =>
    match doItemRelease cfg s i with
    | none => none
    | some s => some (s, .eexists)
  | some (s, none) =>
    match doItemAlloc cfg s env key flags exptime true [] with
    | none => none
    | some (s, none) => some (s, .enomem)
    | some (s, some i) =>
      match doItemLink cfg s i with
      | none => none
      | some (s, r) =>
        match doItemRelease cfg s i with
        | none => none
        | some s => some (s, r)

/-- Walk of one LRU queue by the flush, items.c 502-526 / 530-553: from the head until the first item
older than the mark, unlinking the items in scope.  `ids` is the queue as seen at the start; the walk
follows `next` pointers saved before each unlink. -/
def flushWalk (cfg : Cfg) (scope : Key → Bool) (mark : Nat) : St → List Id → Option St
  | s, [] => some s
  | s, i :: rest =>
    match s.heap i with
    | none => none
    | some o =>
      if o.time < mark then some s
      else if scope o.key then
        match doItemUnlink cfg s i with
        | none => none
        | some s => flushWalk cfg scope mark s rest
      else flushWalk cfg scope mark s rest

/-- The loop over all classes, items.c 494-555. -/
def flushClasses (cfg : Cfg) (scope : Key → Bool) (mark : Nat) : St → List (Nat × Bool) → Option St
  | s, [] => some s
  | s, q :: qs =>
    match flushWalk cfg scope mark s (s.lru q) with
    | none => none
    | some s => flushClasses cfg scope mark s qs

/-- The queues in the order of the loop, items.c 494-555. -/
def allQueues (cfg : Cfg) : List (Nat × Bool) :=
  (List.range (cfg.powerLargest + 1)).flatMap fun c => [(c, false), (c, true)]

/-- `do_item_flush_expired`, items.c 436-561; `scope = none` is flush_all, `some p` flushes prefix `p`
(the empty name is the null prefix).  A prefix is known exactly when it has linked items. -/
def itemFlush (cfg : Cfg) (s : St) (scope : Option (List Nat)) (when_ : Nat) : Option (St × Rep) :=
  match scope with
  | some p =>
    if p ≠ [] ∧ (s.tbl.all fun e => pfxOf cfg e.1 != p) = true then some (s, .pfxEnoent)
    else
      let mark := if when_ = 0 then s.now - 1 else when_ - 1
      let s := { s with pfxOld := upd s.pfxOld p mark }
      if mark ≠ 0 then
        match flushClasses cfg (fun k => pfxOf cfg k == p) mark s (allQueues cfg) with
        | none => none
        | some s => some (s, .ok)
      else some (s, .ok)
  | none =>
    let mark := if when_ = 0 then s.now - 1 else when_ - 1
    let s := { s with oldest := mark }
    if mark ≠ 0 then
      match flushClasses cfg (fun _ => true) mark s (allQueues cfg) with
      | none => none
      | some s => some (s, .ok)
    else some (s, .ok)

/-- Calls of the engine by the protocol layer, plus the clock and the background thread. -/
inductive Op where
  | tick (dt : Nat)
  | alloc (key : Key) (flags exptime cas : Nat) (data : List Nat) (env : Env)
  | store (i : Id) (op : StoreOp) (env : Env)
  | release (i : Id)
  | get (key : Key)
  | delete (key : Key) (cas : Nat)
  | arith (key : Key) (incr create : Bool) (delta initial flags exptime : Nat) (rest : List Nat) (env : Env)
  | setExp (key : Key) (exptime : Nat)
  | collCreate (key : Key) (flags exptime : Nat) (env : Env)
  | flush (scope : Option (List Nat)) (when_ : Nat)
  | background (acts : List EnvAct)
deriving DecidableEq, Repr

/-- `item_alloc` (items.c 282-295) followed by `item_set_cas` of the protocol layer
(memcached.c process_update_command). -/
def itemAlloc (cfg : Cfg) (s : St) (key : Key) (flags exptime cas : Nat) (data : List Nat) (env : Env) :
    Option (St × Rep) :=
  match doItemAlloc cfg s env key flags exptime false data with
  | none => none
  | some (s, none) => some (s, .enomem)
  | some (s, some i) =>
    match s.heap i with
    | none => none
    | some o => some ({ s with heap := upd s.heap i (some { o with cas := cas }) }, .allocated i)

/-- One engine call (all of items.c above); `none` is a fault. -/
def step (cfg : Cfg) (s : St) : Op → Option (St × Rep)
  | .tick dt => some ({ s with now := s.now + dt }, .ok)
  | .alloc k f e c d env => itemAlloc cfg s k f e c d env
  | .store i op env => itemStore cfg s i op env
  | .release i => (doItemRelease cfg s i).map fun s => (s, .ok)
  | .get k => itemGet cfg s k
  | .delete k c => itemDelete cfg s k c
  | .arith k inc cr d ini f e rest env => itemArithmetic cfg s k inc cr d ini f e rest env
  | .setExp k e => itemSetExp cfg s k e
  | .collCreate k f e env => collCreate cfg s k f e env
  | .flush sc w => itemFlush cfg s sc w
  | .background acts => (envActs cfg s acts).map fun s => (s, .ok)

end Verif.Item
