import Verif.Model.LogFile
/-! # Key-value items: what the running server logs and what recovery does with it

The hash table is a map from keys (C25 shows that it is one).  `under p key` says that a flush of
prefix `p` concerns `key`, `bare key` that a flush of the null prefix does (`prefix_isincluded`,
prefix.c); both are parameters.  Memory suffices. -/
namespace Verif.Log

/-- The part of `hash_item` a client sees (item_base.h 148-164); `exp` is relative to the start of
the process that holds the item. -/
structure KV where
  flags : Nat
  exp : Nat
  value : Bytes
  cas : Nat
deriving DecidableEq, Repr

/-- The linked items. -/
abbrev Store := Bytes → Option KV

/-- `assoc_insert`, `assoc_replace`, `assoc_delete` (assoc.c). -/
def Store.put (s : Store) (k : Bytes) (v : Option KV) : Store := fun k' => if k' = k then v else s k'

/-- The expiry test of `do_item_isvalid`, item_base.c 377-401: the flush marks are not needed because
an immediate flush unlinks all the items it concerns here (cf. C04). -/
def KV.valid (cur : Nat) (v : KV) : Bool := !(v.exp ≠ 0 ∧ v.exp ≤ cur)

/-- `do_item_get`, item_base.c 1160-1190: an invalid item is unlinked and not returned. -/
def Store.find (s : Store) (cur : Nat) (k : Bytes) : Option KV :=
  match s k with
  | none => none
  | some v => if v.valid cur then some v else none

/-- Which keys a prefix flush concerns. -/
structure Scope where
  under : Bytes → Bytes → Bool
  bare : Bytes → Bool

/-- `do_item_flush_expired` with `when` 0, items.c 436-561: the items concerned are unlinked. -/
def Store.flush (s : Store) (p : Bytes → Bool) : Store := fun k => if p k then none else s k

/-- The calls of recovery on key-value items: `item_apply_kv_link` (items.c 1719-1764),
`item_apply_unlink` (1766-1792), `item_apply_setattr_exptime` (1794-1817), `item_apply_flush`
(1887-1899).  An item found expired is unlinked by the lookup.  Calls on collections are left out. -/
def kvApply (sc : Scope) (cur : Nat) (s : Store) : Call → Option Store
  | .kvLink k f e v cas => some (s.put k (some ⟨f, e, v, cas⟩))
  | .unlink k => some (s.put k none)
  | .setExptime k e =>
    match s.find cur k with
    | some v => some (s.put k (some { v with exp := e }))
    | none => some (s.put k none)
  | .flushAll => some (s.flush fun _ => true)
  | .flushNull => some (s.flush sc.bare)
  | .flushPrefix p => some (s.flush (sc.under p))
  | _ => some s

/-- The changes of key-value items in the running server. -/
inductive Ev where
  /-- `do_item_link` or `do_item_replace` of a filled item, item_base.c 992-1028, 1073-1131 -/
  | store (it : Item)
  /-- `item_delete`, items.c 404-428 -/
  | delete (k : Bytes)
  /-- eviction: `do_item_unlink` with ITEM_UNLINK_EVICT, item_base.c 1031-1070 -/
  | evict (k : Bytes)
  /-- an expired item is unlinked with ITEM_UNLINK_INVALID -/
  | reclaim (k : Bytes)
  /-- `do_item_setattr` of the expiretime, items.c 800-855 -/
  | touch (k : Bytes) (exp : Nat)
  /-- `do_item_flush_expired` with `when` 0 -/
  | flushAll
  /-- the same for a prefix; the empty one is the null prefix -/
  | flushPrefix (p : Bytes)
deriving DecidableEq, Repr

/-- The item a key-value pair is (item_base.h 148-164). -/
def KV.item (k : Bytes) (v : KV) : Item :=
  { ittype := 0, flags := v.flags, exptime := v.exp, cas := v.cas, key := k, value := v.value,
    coll := ⟨0, 0, 0, ⟨255, []⟩⟩ }

/-- One change and the record it generates: item_clog.c 32-75 and 243-255, cmdlogmgr.c 516-580.  A
link is logged whatever it replaces; an unlink is logged for the causes NORMAL and EVICT; a setattr
of the expiretime is logged with update type UPD_SETATTR_EXPTIME (2).  The refusal of a change between
sticky and not sticky (items.c 808-813) is left out.  A flush is logged also if the prefix
does not exist; the code returns before that, and nothing changes in either case. -/
def liveStep (sc : Scope) (c : Clock) (s : Store) : Ev → Store × Option Op
  | .store it => (s.put it.key (some ⟨it.flags, it.exptime, it.value, it.cas⟩), some (.link it))
  | .delete k =>
    match s.find c.cur k with
    | some v => (s.put k none, some (.unlink (v.item k)))
    | none => (s.put k none, none)
  | .evict k =>
    match s k with
    | some v => (s.put k none, some (.unlink (v.item k)))
    | none => (s, none)
  | .reclaim k =>
    match s.find c.cur k with
    | some _ => (s, none)
    | none => (s.put k none, none)
  | .touch k e =>
    match s.find c.cur k with
    | some v => (s.put k (some { v with exp := e }), some (.setattr ({ v with exp := e }.item k) 2))
    | none => (s.put k none, none)
  | .flushAll => (s.flush fun _ => true, some (.flush [] (-1)))
  | .flushPrefix p => (s.flush (if p = [] then sc.bare else sc.under p), some (.flush p p.length))

end Verif.Log
