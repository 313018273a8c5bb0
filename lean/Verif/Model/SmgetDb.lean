import Verif.Model.Smget
/-!
# Commands on several keys

The b+tree commands of `Verif.Model.BTreeOps` on a function from keys to items, with the sort-merge get of `Verif.Model.Smget`.
-/
namespace Verif.Smget
open Verif.BT

/-- Commands: a b+tree command on a key; a command that leaves an item of another type there, or nothing; the sort-merge get. -/
inductive Cmd where
  | bop (key : List Nat) (op : Op)
  | put (key : List Nat)
  | drop (key : List Nat)
  | smget (keys : List (List Nat)) (r : Range) (f : Option EFilter) (offset count : Nat) (unique : Bool)

/-- Answers; that of the sort-merge get comes with the references it leaves. -/
inductive Out where
  | bop (r : BT.Rep)
  | badType
  | done
  | smget (r : Rep) (refs : Refs)
deriving DecidableEq

/-- What a b+tree command leaves, as an item. -/
def entry : Option Info → Entry
  | none => .absent
  | some info => .tree info

/-- Change of one key. -/
def set (db : List Nat → Entry) (key : List Nat) (e : Entry) : List Nat → Entry := fun k => if k = key then e else db k

/-- One command.  Each b+tree command starts with `do_btree_item_find`, coll_btree.c 186-201, and fails on an item of another type;
what commands for other types do to their items, and memory management, is reduced to `put` and `drop`: items.c store (item_store), delete
(item_delete) and expiry.  The sort-merge get changes nothing, coll_btree.c 4183-4230. -/
def step (cfg : Cfg) (db : List Nat → Entry) : Cmd → Option ((List Nat → Entry) × Out)
  | .bop key op =>
    match db key with
    | .other => some (db, .badType)
    | .absent => (BT.step cfg none op).map fun p => (set db key (entry p.1), .bop p.2)
    | .tree info => (BT.step cfg (some info) op).map fun p => (set db key (entry p.1), .bop p.2)
  | .put key => some (set db key .other, .done)
  | .drop key => some (set db key .absent, .done)
  | .smget keys r f offset count unique => (Smget.smget db keys r f offset count unique).map fun p => (db, .smget p.1 p.2)

/-- No items. -/
def noItems : List Nat → Entry := fun _ => .absent

end Verif.Smget
