/-! # Key-value items across restarts: unique ids and flush marks

Key-value items without lifetime (lifetimes across a restart are C40, C41 and C47), in a server with
`use_persistence` and synchronous logging, so that the records of every acknowledged change are on
disk (C33); the bytes of the records are the matter of C31 and C34.  Memory suffices unless an item is
evicted, no item is referenced by a client for long, times and ids stay below 2^32 and 2^64. -/
namespace Verif.Restart

abbrev Bytes := List Nat

/-- `hash_item` (item_base.h 148-164): the fields that matter here. -/
structure It where
  key : Bytes
  value : Bytes
  cas : Nat
  time : Nat
deriving DecidableEq, Repr

/-- The records of key-value items: link (cmdlogrec.c 1455-1494), unlink (1496-1507), flush (1509-1526);
the scope of a flush is everything (`none`) or a prefix, the empty one being the null prefix. -/
inductive Rec where
  | link (k v : Bytes) (cas : Nat)
  | unlink (k : Bytes)
  | flush (scope : Option Bytes)
deriving DecidableEq, Repr

/-- The clock of the process (memcached.c 178-188), the hash table, `config->oldest_live`
(default_engine.h 52), `oldest_live` of the prefixes (prefix.h 35; 0 if the prefix is not in the table),
the counter of `get_cas_id` (item_base.c 379-383), and the records on disk: those of the last snapshot
followed by those of its command log. -/
structure St where
  now : Nat
  items : List It
  old : Nat
  pold : Bytes → Nat
  ctr : Nat
  log : List Rec

/-- One test of `do_item_isvalid` (item_base.c 568-571) and of `prefix_isvalid` (prefix.c 506-509). -/
def flushedBy (now mark time : Nat) : Bool := mark != 0 && mark ≤ now && time ≤ mark

/-- `do_item_isvalid`, item_base.c 556-577, without the expiry; prefixes are not nested
(DEFAULT_PREFIX_MAX_DEPTH is 1, prefix.c 34). -/
def valid (pfx : Bytes → Bytes) (s : St) (it : It) : Bool :=
  !flushedBy s.now s.old it.time && !flushedBy s.now (s.pold (pfx it.key)) it.time

/-- `assoc_find`, assoc.c. -/
def find (l : List It) (k : Bytes) : Option It := l.find? fun it => it.key == k

/-- `assoc_delete`, assoc.c. -/
def erase (l : List It) (k : Bytes) : List It := l.filter fun it => it.key != k

/-- Whether a prefix is in the prefix table: the null prefix always is, another one while it has items
(prefix.c `prefix_link`, `prefix_unlink`). -/
def known (pfx : Bytes → Bytes) (l : List It) (p : Bytes) : Bool := p == [] || l.any fun it => pfx it.key == p

/-- The part of `prefix_unlink` that takes an empty prefix out of the table; its mark is forgotten. -/
def settle (pfx : Bytes → Bytes) (s : St) : St :=
  { s with pold := fun p => if known pfx s.items p then s.pold p else 0 }

/-- `do_item_unlink`, item_base.c 1031-1070, without the record. -/
def unlink (pfx : Bytes → Bytes) (s : St) (k : Bytes) : St := settle pfx { s with items := erase s.items k }

/-- `do_item_get` with DONT_UPDATE, item_base.c 1160-1175: an invalid item is unlinked with the cause
ITEM_UNLINK_INVALID, for which no record is written (item_clog.c 45-57). -/
def lookup (pfx : Bytes → Bytes) (s : St) (k : Bytes) : St × Option It :=
  match find s.items k with
  | none => (s, none)
  | some it => if valid pfx s it then (s, some it) else (unlink pfx s k, none)

/-- `do_item_link` (item_base.c 992-1028) and `do_item_replace` (1073-1131): a new unique id, the time of
the link, a link record.  An item in the way has been looked up before and is replaced. -/
def link (s : St) (k v : Bytes) : St :=
  { s with items := ⟨k, v, s.ctr + 1, s.now⟩ :: erase s.items k, ctr := s.ctr + 1,
           log := s.log ++ [.link k v (s.ctr + 1)] }

/-- `do_item_update`, item_base.c 1134-1156, not forced: the time is brought up to date if it is older than
a minute; in the first minute the difference is below 0, which is a big unsigned number.  No record is
written (item_clog.c 59-64). -/
def touch (s : St) (k : Bytes) : St :=
  { s with items := s.items.map fun it =>
      if it.key = k ∧ (s.now < 60 ∨ it.time < s.now - 60) then { it with time := s.now } else it }

/-- What a flush concerns: `nprefix < 0` or `prefix_isincluded` (items.c 513, prefix.c 456-472). -/
def inScope (pfx : Bytes → Bytes) (scope : Option Bytes) (k : Bytes) : Bool :=
  match scope with
  | none => true
  | some p => pfx k == p

/-- `do_item_flush_expired`, items.c 436-561, without the record; `false` is ENGINE_PREFIX_ENOENT.  The
queues are in descending order of the times, so the walk from the head to the first item older than the
mark (502-553) unlinks exactly the items concerned that are not older. -/
def flush (pfx : Bytes → Bytes) (s : St) (scope : Option Bytes) (when_ : Nat) : St × Bool :=
  let mark := if when_ = 0 then s.now - 1 else when_ - 1
  match scope with
  | none =>
    let s := { s with old := mark }
    if mark = 0 then (s, true)
    else (settle pfx { s with items := s.items.filter fun it => !(decide (mark ≤ it.time)) }, true)
  | some p =>
    if known pfx s.items p then
      let s := { s with pold := fun q => if q = p then mark else s.pold q }
      if mark = 0 then (s, true)
      else (settle pfx { s with items := s.items.filter fun it => !(inScope pfx scope it.key && decide (mark ≤ it.time)) }, true)
    else (s, false)

/-- The calls of clients, and what else happens to the server. -/
inductive Op where
  /-- time passes -/
  | tick (d : Nat)
  /-- `set` -/
  | set (k v : Bytes)
  /-- `cas` with a unique id -/
  | cas (k v : Bytes) (id : Nat)
  | delete (k : Bytes)
  /-- `gets` -/
  | get (k : Bytes)
  /-- `flush_all` and `flush_prefix`; `when_` is 0, or the time of the flush on the clock of the process -/
  | flush (scope : Option Bytes) (when_ : Nat)
  /-- memory is short, and the item is taken -/
  | evict (k : Bytes)
  /-- the item is taken if it is invalid (item_base.c 742-810, items.c 1202-1204) -/
  | reclaim (k : Bytes)
  /-- a checkpoint is made -/
  | checkpoint
  /-- the server ends, also by a crash, and is started again; `d` is how long it takes from the start of the
  process to the start of the clock -/
  | restart (d : Nat)
deriving DecidableEq, Repr

/-- The replies. -/
inductive Rep where
  | none
  | stored (id : Nat)
  | exists_
  | notFound
  | deleted
  | value (v : Bytes) (id : Nat)
  | miss
  | ok
  | noPrefix
deriving DecidableEq, Repr

/-- The redo of a record (cmdlogrec.c 300-332, 392-404, 529-548): `item_apply_kv_link` (items.c 1719-1765)
links by the usual functions, which takes a new unique id, and puts the recorded id in its place;
`item_apply_unlink` (1767-1793); `item_apply_flush` (1890-1901).  A failure is passed over (cmdlogfile.c
540-549).  Nothing is logged: logging is enabled after the recovery (cmdlogmgr.c 471-476). -/
def redo (pfx : Bytes → Bytes) (s : St) : Rec → St
  | .link k v cas =>
    let s := (lookup pfx s k).1
    { s with items := ⟨k, v, cas, s.now⟩ :: erase s.items k, ctr := s.ctr + 1 }
  | .unlink k =>
    match lookup pfx s k with
    | (s, none) => s
    | (s, some _) => unlink pfx s k
  | .flush scope => (flush pfx s scope 0).1

/-- The state of a process that has just been started: `process_started` is two seconds before the start
(memcached.c 298), so that the clock shows at least 2; `config->oldest_live` is 0 (default_engine.c 2064);
the counter of the unique ids is 0 (item_base.c 381).  The clock is set before the recovery (memcached.c
16166-16175), and stands still during it, as it is moved by the event loop. -/
def fresh (d : Nat) (log : List Rec) : St := ⟨2 + d, [], 0, fun _ => 0, 0, log⟩

/-- A start with the files of the last run: `chkpt_recovery_redo`, checkpoint.c 415-447. -/
def start (pfx : Bytes → Bytes) (d : Nat) (log : List Rec) : St := log.foldl (redo pfx) (fresh d log)

/-- `do_checkpoint`: a snapshot with a link record for each valid item (chkpt_snapshot.c 238-279,
`item_scan_getnext`, items.c 1075-1087), and a new command log.  Nothing happens during the snapshot here
(cf. C36). -/
def checkpoint (pfx : Bytes → Bytes) (s : St) : St :=
  { s with log := (s.items.filter (valid pfx s)).map fun it => .link it.key it.value it.cas }

/-- One call and its reply: `do_item_store_set` (items.c 76-97), `do_item_store_cas` (144-175), `item_delete`
(404-428), `item_get`, `item_flush_expired`; an eviction is logged (item_clog.c 45-57), a flush is if it has no
delay (cmdlogmgr.c 542-549), and nothing was done if the mark is 0 (items.c 493). -/
def step (pfx : Bytes → Bytes) (s : St) : Op → St × Rep
  | .tick d => ({ s with now := s.now + d }, .none)
  | .set k v =>
    let s := (lookup pfx s k).1
    (link s k v, .stored (s.ctr + 1))
  | .cas k v id =>
    match lookup pfx s k with
    | (s, none) => (s, .notFound)
    | (s, some it) => if id = it.cas then (link s k v, .stored (s.ctr + 1)) else (s, .exists_)
  | .delete k =>
    match lookup pfx s k with
    | (s, none) => (s, .notFound)
    | (s, some _) => ({ unlink pfx s k with log := s.log ++ [.unlink k] }, .deleted)
  | .get k =>
    match lookup pfx s k with
    | (s, none) => (s, .miss)
    | (s, some it) => (touch s k, .value it.value it.cas)
  | .flush scope w =>
    match flush pfx s scope w with
    | (s', false) => (s', .noPrefix)
    | (s', true) =>
      (if w = 0 ∧ s.now - 1 ≠ 0 then { s' with log := s'.log ++ [.flush scope] } else s', .ok)
  | .evict k =>
    match find s.items k with
    | none => (s, .none)
    | some _ => ({ unlink pfx s k with log := s.log ++ [.unlink k] }, .none)
  | .reclaim k =>
    match find s.items k with
    | none => (s, .none)
    | some it => if valid pfx s it then (s, .none) else (unlink pfx s k, .none)
  | .checkpoint => (checkpoint pfx s, .none)
  | .restart d => (start pfx d s.log, .none)

/-- A run: the calls with their replies, and the state at the end. -/
def run (pfx : Bytes → Bytes) : St → List Op → List (Op × Rep) × St
  | s, [] => ([], s)
  | s, op :: ops =>
    let (s', r) := step pfx s op
    let (t, e) := run pfx s' ops
    ((op, r) :: t, e)

end Verif.Restart
