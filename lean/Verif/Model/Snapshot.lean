import Verif.Model.Recover
import Verif.Spec.LogFile
/-! # The checkpoint snapshot and the new command log, for key-value items

While the checkpoint thread scans the hash table and writes the items to the snapshot file, the
clients keep changing items; a change goes to the old log and, if the item lies in the part of the
table already scanned, to the new log as well.  Everything that holds the cache lock is one step;
`dump` runs without it.  Only the new files are modelled here (the old ones are no longer used once
the checkpoint is complete).  Collections are left out, and memory and disk writes do not fail. -/
namespace Verif.Log
open Spec

/-- An item handed out by the scan with its reference count raised (items.c 1065-1122): the object
stays alive until it is dumped.  `linked` says that it is still the object of the hash table. -/
structure Held where
  key : Bytes
  kv : KV
  linked : Bool
deriving DecidableEq, Repr

/-- A checkpoint in progress: the hash table; whether `assoc_scan_next` has run at least once; the
keys of the scanned part of the table; the items handed out and not yet dumped (`item_array` of
`do_snapshot_action`, chkpt_snapshot.c 341-425); the records of the snapshot file and of the new
command log; whether the scan has been closed (`cmdlog_reset_chkpt_scan`, cmdlogmgr.c 707-715). -/
structure Chk where
  live : Store
  begun : Bool
  vis : Bytes → Bool
  held : List Held
  snap : List Logged
  new : List Logged
  closed : Bool

/-- `item_scan_open` with `cmdlog_set_chkpt_scan`, items.c 1013-1024, cmdlogmgr.c 698-705. -/
def Chk.start (live : Store) : Chk := ⟨live, false, fun _ => false, [], [], [], false⟩

/-- The key whose item decides on dual writing, NEED_DUAL_WRITE, cmdlogmgr.c 36-37; a flush is
logged with a null item (cmdlogmgr.c 542-549). -/
def Ev.key : Ev → Option Bytes
  | .store it => some it.key
  | .delete k => some k
  | .evict k => some k
  | .reclaim k => some k
  | .touch k _ => some k
  | .flushAll => none
  | .flushPrefix _ => none

/-- `assoc_scan_in_visited_area`, assoc.c 549-581, through the map from keys to positions (C26 says
that an item is in the visited area iff it has been handed out or need not be).  Before the first
`assoc_scan_next` the answer for a key of bucket 0 depends on a field that has not been set
(assoc.c 361-371): `junk`. -/
def Chk.visited (s : Chk) (junk : Bytes → Bool) (k : Bytes) : Bool :=
  if s.begun then s.vis k else junk k

/-- NEED_DUAL_WRITE, cmdlogmgr.c 36-37; after the scan has been closed the new log is the only one
(`cmdlog_file_complete_dual_write`, cmdlogfile.c 176-194). -/
def Chk.dual (s : Chk) (junk : Bytes → Bool) (ev : Ev) : Bool :=
  s.closed || match ev.key with
    | none => true
    | some k => s.visited junk k

/-- Whether a change takes the object of key `k` out of the hash table (the same cases as
`liveStep`): item_base.c 992-1131, items.c 404-428, 436-561. -/
def unlinks (sc : Scope) (c : Clock) (s : Store) (k : Bytes) : Ev → Bool
  | .store it => it.key = k
  | .delete k' => k' = k
  | .evict k' => k' = k
  | .reclaim k' => k' = k && (s.find c.cur k).isNone
  | .touch k' _ => k' = k && (s.find c.cur k).isNone
  | .flushAll => true
  | .flushPrefix p => (if p = [] then sc.bare else sc.under p) k

/-- What a change does to an object the snapshot holds: a setattr of the expiretime writes into the
object while it is linked (items.c 841), all the others replace or unlink it. -/
def Held.change (sc : Scope) (c : Clock) (s : Store) (ev : Ev) (h : Held) : Held :=
  if h.linked && !unlinks sc c s h.key ev then
    match ev with
    | .touch k e => if k = h.key then { h with kv := { h.kv with exp := e } } else h
    | _ => h
  else { h with linked := false }

/-- What happens during a checkpoint. -/
inductive Act where
  /-- a change by a client (or an eviction) -/
  | client (c : Clock) (ev : Ev)
  /-- `item_scan_getnext`, items.c 1065-1122: the keys that enter the visited area.  Also used for a
  key without an item whose place enters the visited area. -/
  | next (c : Clock) (ks : List Bytes)
  /-- one round of the loop of `do_snapshot_data_dump`, chkpt_snapshot.c 243-285 -/
  | dump (c : Clock)
  /-- `do_snapshot_data_done` and `item_scan_close`, chkpt_snapshot.c 287-308, items.c 1144-1157 -/
  | finish

/-- The items of `ks` that `item_scan_getnext` keeps: the valid ones, items.c 1080-1108. -/
def hand (c : Clock) (s : Store) (ks : List Bytes) : List Held :=
  ks.filterMap fun k => (s.find c.cur k).map fun v => ⟨k, v, true⟩

/-- The steps of a checkpoint; `none`: not possible. -/
def Chk.step (sc : Scope) (junk : Bytes → Bool) (s : Chk) : Act → Option Chk
  | .client c ev =>
    some { s with
      live := (liveStep sc c s.live ev).1
      held := s.held.map (Held.change sc c s.live ev)
      new := if s.dual junk ev then
          match (liveStep sc c s.live ev).2 with
          | some op => s.new ++ [⟨c, op⟩]
          | none => s.new
        else s.new }
  | .next c ks =>
    if s.closed = false ∧ s.held = [] ∧ ks.Nodup ∧ ∀ k ∈ ks, s.vis k = false then
      some { s with
        begun := true
        vis := fun k => s.vis k || k ∈ ks
        held := hand c s.live ks }
    else none
  | .dump c =>
    match s.held with
    | [] => none
    | h :: r => some { s with held := r, snap := s.snap ++ [⟨c, .link (h.kv.item h.key)⟩] }
  | .finish =>
    if s.closed = false ∧ s.held = [] then some { s with closed := true, begun := true } else none

/-- A run of such steps. -/
def Chk.run (sc : Scope) (junk : Bytes → Bool) : Chk → List Act → Option Chk
  | s, [] => some s
  | s, a :: r =>
    match s.step sc junk a with
    | none => none
    | some s' => Chk.run sc junk s' r

end Verif.Log
