import Verif.Model.BTreeOps
/-!
# Sort-merge get over several b+trees

Model of engines/default/coll_btree.c, lines 2821-2836, 2857-2887, 2920-2991, 3190-3394, 3512-3649, 4183-4232.  The collections of the keys are given by a
function from keys to items; memory, statistics and element reference counts are left out.  A scan keeps the element it stands on (the
code reads it again through the position).  The slots of `btree_scan_buf` are left out: the sorted index array is a list of scans; the
slot in hand (`curr_idx`) matters only for the item it still names, which is `slot`.  `none` is a failed assertion or an access out of
an array.
-/
namespace Verif.Smget
open Verif.BT

/-- What `do_btree_item_find` finds, coll_btree.c 186-201: nothing, an item of another type, a b+tree. -/
inductive Entry where
  | absent
  | other
  | tree (info : Info)

/-- `strncmp` as called at coll_btree.c 2825, 2828, 2831: it stops at a zero byte. -/
def strncmp : List Nat → List Nat → Nat → Option Ordering
  | _, _, 0 => some .eq
  | a :: as, b :: bs, n + 1 =>
    if a < b then some .lt else if b < a then some .gt else if a = 0 then some .eq else strncmp as bs n
  | _, _, _ + 1 => none

/-- `do_btree_comp_hkey`, coll_btree.c 2821-2836. -/
def compHkey (a b : List Nat) : Option Ordering :=
  if a.length = b.length then strncmp a b a.length
  else if a.length < b.length then
    match strncmp a b a.length with
    | none => none
    | some .eq => some .lt
    | some o => some o
  else
    match strncmp a b b.length with
    | none => none
    | some .eq => some .gt
    | some o => some o

/-- `btree_scan_info`, coll_btree.c 96-101, with the key and meta information of the item and the element at the position. -/
structure Scan where
  kidx : Nat
  key : List Nat
  info : Info
  n : Nat
  i : Nat
  bkeq : Bool
  elem : Elem

/-- What a request asks for: range type, end of the range, filter; coll_btree.c 3191-3194. -/
structure Ask where
  rt : RType
  lo : BKey
  to : BKey
  f : Option EFilter

/-- `ascending`, coll_btree.c 3210, 3533. -/
def Ask.asc (a : Ask) : Bool := a.rt != .dsc

/-- A comparison as seen in the direction of the range: the two branches of the loops, coll_btree.c 3338-3344, 3625-3631. -/
def dir (asc : Bool) (o : Ordering) : Ordering := if asc then o else o.swap

/-- Comparison of two scans by the bkeys they stand on, then by key, coll_btree.c 3303-3312, 3329-3335, 3619-3624. -/
def scanComp (asc : Bool) (x y : Scan) : Option Ordering :=
  match bkeyComp x.elem.bkey y.elem.bkey with
  | none => none
  | some .eq => (compHkey x.key y.key).map (dir asc)
  | some o => some (dir asc o)

/-- Comparison of two scans by bkey alone: the same loop with `unique`, which stops at an equal bkey, coll_btree.c 3329-3337. -/
def bkeyDir (asc : Bool) (x y : Scan) : Option Ordering := (bkeyComp x.elem.bkey y.elem.bkey).map (dir asc)

/-- Where a scan goes: to the next element wanted, or out of the range; then whether the range reaches into trimmed space, and
the bkey of the last element seen. -/
inductive Moved where
  | at (s : Scan)
  | out (trim : Bool) (last : BKey)

/-- The loop at `scan_next` until an element passes the filter, coll_btree.c 3260-3278, 3578-3605, with `do_btree_scan_next`, 2857-2867; `fuel` bounds the number of rounds. -/
def scanMove (a : Ask) : Nat → Scan → Option Moved
  | 0, _ => none
  | fuel + 1, s =>
    if s.bkeq = true then some (.out false s.elem.bkey)
    else
      match findNext a.asc s.info.tree.leaves a.to s.n s.i with
      | none => none
      | some (.pos n' i', some (e, b)) =>
        match keep a.f e with
        | none => none
        | some true => some (.at { s with n := n', i := i', bkeq := b, elem := e })
        | some false => scanMove a fuel { s with n := n', i := i', bkeq := b, elem := e }
      | some (p, _) =>
        some (.out ((match p with | .pos _ _ => false | _ => true) && s.info.trimmed && overlapped s.info.ovfl s.info.tree.leaves p a.rt)
          s.elem.bkey)

/-- `scanMove` with enough rounds. -/
def move (a : Ask) (s : Scan) : Option Moved := scanMove a (rounds s.info.tree.leaves) s

/-- Errors of the calls. -/
inductive Err where
  | badType | badBkey | badValue | bkeyOor
deriving DecidableEq, Repr

/-- Why a key is missed, coll_btree.c 3218, 3226, 3244, 3252. -/
inductive Miss where
  | enoent | unreadable | bkeyoor
deriving DecidableEq, Repr

/-- The first scan step of a key. -/
inductive Begin where
  | miss (m : Miss)
  | err (e : Err)
  | empty
  | scan (m : Moved)

/-- A key up to its first element wanted, coll_btree.c 3212-3278. -/
def begin_ (a : Ask) (db : List Nat → Entry) (kidx : Nat) (key : List Nat) : Option Begin :=
  match db key with
  | .absent => some (.miss .enoent)
  | .other => some (.err .badType)
  | .tree info =>
    if info.readable = false then some (.miss .unreadable)
    else if info.ccnt = 0 then some .empty
    else if badType info.bktype a.lo then some (.err .badBkey)
    else if info.tree.leaves = [] then none
    else
      match findFirst a.rt a.lo a.to info.tree with
      | none => none
      | some ⟨none, pos, _, _⟩ =>
        if info.trimmed && overlapped info.ovfl info.tree.leaves pos a.rt then some (.miss .bkeyoor) else some .empty
      | some ⟨some e, .pos n i, bkeq, _⟩ =>
        if !bkeq && info.trimmed && overlapped info.ovfl info.tree.leaves (.pos n i) a.rt then some (.miss .bkeyoor)
        else
          match keep a.f e with
          | none => none
          | some true => some (.scan (.at ⟨kidx, key, info, n, i, false, e⟩))
          | some false => (move a ⟨kidx, key, info, n, i, false, e⟩).map .scan
      | some _ => none

/-- References to items: taken by `do_btree_item_find`, given back by `do_item_release`, item_base.c 1196-1220.  `held` lists the
keys whose item is held, `over` those released without being held. -/
structure Refs where
  held : List Nat
  over : List Nat
deriving DecidableEq

/-- `do_btree_item_find` takes a reference. -/
def Refs.take (r : Refs) (k : Nat) : Refs := { r with held := k :: r.held }

/-- `do_item_release`, item_base.c 1196-1220. -/
def Refs.give (r : Refs) (k : Nat) : Refs :=
  if k ∈ r.held then { r with held := r.held.erase k } else { r with over := k :: r.over }

/-- `smget_result_t`, include/memcached/types.h, as far as the first phase fills it, with the sorted scans and the item named by the
slot in hand. -/
structure P1 where
  sort : List Scan
  slot : Option Nat
  miss : List (Nat × Miss)
  trim : List (Nat × BKey)
  refs : Refs

/-- `do_btree_smget_add_miss`, coll_btree.c 2869-2876; `trim_kinfo` is the end of the same array (default_engine.c 1092-1095), which
has `size` entries. -/
def addMiss (size : Nat) (s : P1) (k : Nat) (m : Miss) : Option P1 :=
  if s.miss.length + s.trim.length < size then some { s with miss := s.miss ++ [(k, m)] } else none

/-- `do_btree_smget_add_trim`, coll_btree.c 2878-2887, with room checked as in `addMiss`. -/
def addTrim (size misses : Nat) (trim : List (Nat × BKey)) (k : Nat) (b : BKey) : Option (List (Nat × BKey)) :=
  if misses + trim.length < size then some (trim ++ [(k, b)]) else none

/-- Outcome of a step of the first phase. -/
inductive R1 where
  | go (s : P1)
  | stop (e : Err) (r : Refs)

/-- Release of a list of items, coll_btree.c 3387-3391, 4223-4226. -/
def giveAll (r : Refs) (l : List Nat) : Refs := l.foldl Refs.give r

/-- The first phase fails: the scans kept are released, coll_btree.c 3386-3391. -/
def fail (e : Err) (s : P1) (r : Refs) : R1 := .stop e (giveAll r (s.sort.map Scan.kidx))

/-- A scan that ends, coll_btree.c 3265-3272. -/
def ended (size : Nat) (s : P1) (k : Nat) (trim : Bool) (last : BKey) : Option R1 :=
  if trim = true then (addTrim size s.miss.length s.trim k last).map fun t => .go { s with trim := t, refs := s.refs.give k }
  else some (.go { s with refs := s.refs.give k })

/-- The scan finds its place among the sorted scans, coll_btree.c 3280-3381; a scan that loses against one with the same bkey goes on
(3351-3365), hence the `fuel`.  The trimmed element recorded when the loser ends at once is the winner's (3263); its bkey is the same. -/
def place (a : Ask) (unique : Bool) (req size : Nat) : Nat → P1 → Scan → Option R1
  | 0, _, _ => none
  | fuel + 1, st, s =>
    match st.sort.getLast? with
    | none => if req = 0 then none else some (.go { st with sort := [s], slot := none })
    | some last =>
      match (if req ≤ st.sort.length then scanComp a.asc s last else some .lt) with
      | none => none
      | some .eq => some (fail .badValue st (st.refs.give s.kidx))
      | some .gt => some (.go { st with slot := none, refs := st.refs.give s.kidx })
      | some .lt =>
        match bsearch (fun j => match st.sort[j]? with
            | none => none
            | some c => if unique then bkeyDir a.asc s c else scanComp a.asc s c) (st.sort.length + 1) 0 st.sort.length with
        | none => none
        | some (.found j) =>
          match st.sort[j]? with
          | none => none
          | some c =>
            match compHkey s.key c.key with
            | none => none
            | some o =>
              match dir a.asc o with
              | .eq => some (fail .badValue st (st.refs.give s.kidx))
              | .lt =>
                match move a c with
                | none => none
                | some (.out t b) => ended size { st with sort := st.sort.set j s, slot := none } c.kidx t b
                | some (.at c') => place a unique req size fuel { st with sort := st.sort.set j s, slot := none } c'
              | .gt =>
                match move a s with
                | none => none
                | some (.out t b) => ended size { st with slot := some s.kidx } s.kidx t b
                | some (.at s') => place a unique req size fuel { st with slot := some s.kidx } s'
        | some (.missing l) =>
          if req ≤ st.sort.length then
            some (.go { st with sort := st.sort.dropLast.insertIdx l s, slot := none, refs := st.refs.give last.kidx })
          else some (.go { st with sort := st.sort.insertIdx l s, slot := none })

/-- One key of the first phase, coll_btree.c 3212-3382. -/
def oneKey (a : Ask) (unique : Bool) (req size work : Nat) (db : List Nat → Entry) (st : P1) (kidx : Nat) (key : List Nat) : Option R1 :=
  match begin_ a db kidx key with
  | none => none
  | some (.err e) => some (fail e st (if e = .badType then st.refs else (st.refs.take kidx).give kidx))
  | some (.miss .enoent) => (addMiss size st kidx .enoent).map .go
  | some (.miss m) => (addMiss size { st with refs := (st.refs.take kidx).give kidx } kidx m).map .go
  | some .empty => some (.go { st with refs := (st.refs.take kidx).give kidx })
  | some (.scan (.out t b)) => ended size { st with refs := st.refs.take kidx } kidx t b
  | some (.scan (.at s)) => place a unique req size work { st with refs := st.refs.take kidx } s

/-- The loop over the keys, `do_btree_smget_scan_sort`, coll_btree.c 3190-3394. -/
def scanSort (a : Ask) (unique : Bool) (req size work : Nat) (db : List Nat → Entry) : Nat → List (List Nat) → P1 → Option R1
  | _, [], st => some (.go st)
  | kidx, key :: rest, st =>
    match oneKey a unique req size work db st kidx key with
    | none => none
    | some (.go st') => scanSort a unique req size work db (kidx + 1) rest st'
    | some (.stop e r) => some (.stop e r)

/-- One element of the answer: its key, the flags of the item and the element; `smget_ehit_t`, include/memcached/types.h. -/
structure Got where
  kidx : Nat
  key : List Nat
  flags : Nat
  elem : Elem
deriving DecidableEq

/-- What a scan stands on. -/
def Scan.got (s : Scan) : Got := ⟨s.kidx, s.key, s.info.flags, s.elem⟩

/-- State of the second phase, coll_btree.c 3521-3534; `skip` is `skip_count`. -/
structure P2 where
  sort : List Scan
  prev : Option BKey
  skip : Nat
  elems : List Got
  dup : Bool
  trim : List (Nat × BKey)

/-- `BKEY_COMP(prev, elem) == 0`, coll_btree.c 3540-3545. -/
def sameAs (prev : Option BKey) (k : BKey) : Option Bool :=
  match prev with
  | none => some false
  | some p => (bkeyComp p k).map (· == .eq)

/-- The first scan moves on and finds its new place, coll_btree.c 3578-3641. -/
def advance (a : Ask) (size misses : Nat) (st : P2) (h : Scan) (rest : List Scan) : Option P2 :=
  match move a h with
  | none => none
  | some (.out true b) => (addTrim size misses st.trim h.kidx b).map fun t => { st with sort := rest, trim := t }
  | some (.out false _) => some { st with sort := rest }
  | some (.at h') =>
    match bsearch (fun j => match rest[j]? with | none => none | some c => scanComp a.asc h' c) (rest.length + 1) 0 rest.length with
    | some (.missing l) => some { st with sort := rest.insertIdx l h' }
    | _ => none

/-- `do_btree_smget_elem_sort` without the final adjustment, coll_btree.c 3512-3642; `fuel` bounds the number of rounds. -/
def elemSort (a : Ask) (unique : Bool) (offset count size misses : Nat) : Nat → P2 → Option P2
  | 0, _ => none
  | fuel + 1, st =>
    match st.sort with
    | [] => some st
    | h :: rest =>
      match sameAs st.prev h.elem.bkey with
      | none => none
      | some same =>
        let st1 := { st with prev := some h.elem.bkey }
        if unique = true ∧ same = true then
          match advance a size misses st1 h rest with
          | none => none
          | some st2 => elemSort a unique offset count size misses fuel st2
        else if st1.skip < offset then
          match advance a size misses { st1 with skip := st1.skip + 1 } h rest with
          | none => none
          | some st2 => elemSort a unique offset count size misses fuel st2
        else
          let st2 := { st1 with elems := st1.elems ++ [h.got], dup := st1.dup || (decide (0 < st1.elems.length) && same) }
          if count ≤ st2.elems.length then some st2
          else
            match advance a size misses st2 h rest with
            | none => none
            | some st3 => elemSort a unique offset count size misses fuel st3

/-- Whether a trimmed key is reported: the test against the last element of a full answer, coll_btree.c 2945-2952. -/
def trimValid (asc : Bool) (tail : Option BKey) (b : BKey) : Option Bool :=
  match tail with
  | none => some true
  | some t => (bkeyComp b t).map fun o => dir asc o == .lt

/-- Binary search for the place in the sorted array, coll_btree.c 2954-2982: behind an equal bkey. -/
def trimPos (asc : Bool) (l : List (Nat × BKey)) (b : BKey) : Option Nat :=
  match bsearch (fun j => match l[j]? with | none => none | some c => (bkeyComp b c.2).map (dir asc)) (l.length + 1) 0 l.length with
  | none => none
  | some (.found j) => some (j + 1)
  | some (.missing j) => some j

/-- The loop of `do_btree_smget_adjust_trim`, coll_btree.c 2940-2987; the list comes in the order of the loop. -/
def adjustTrim (asc : Bool) (tail : Option BKey) : List (Nat × BKey) → List (Nat × BKey) → Option (List (Nat × BKey))
  | acc, [] => some acc
  | acc, x :: rest =>
    match trimValid asc tail x.2 with
    | none => none
    | some false => adjustTrim asc tail acc rest
    | some true =>
      match trimPos asc acc x.2 with
      | none => none
      | some j => adjustTrim asc tail (acc.insertIdx j x) rest

/-- The answer, `smget_result_t`. -/
structure Result where
  elems : List Got
  miss : List (Nat × Miss)
  trim : List (Nat × BKey)
  dup : Bool
deriving DecidableEq

/-- Reply of `btree_elem_smget`. -/
inductive Rep where
  | ok (r : Result)
  | err (e : Err)
deriving DecidableEq

/-- Number of rounds that is always enough: the elements of all collections. -/
def work (db : List Nat → Entry) (keys : List (List Nat)) : Nat :=
  (keys.map fun k => match db k with | .tree info => info.tree.leaves.flatten.length | _ => 0).sum + 2

/-- Width of `offset + count`, coll_btree.c 4189-4190: `uint32_t`. -/
def u32 (n : Nat) : Nat := n % 2 ^ 32

/-- `btree_elem_smget`, coll_btree.c 4183-4230: the reply and the references left. -/
def smget (db : List Nat → Entry) (keys : List (List Nat)) (r : Range) (f : Option EFilter) (offset count : Nat) (unique : Bool) :
    Option (Rep × Refs) :=
  match rangeType r with
  | none => none
  | some (rt, to) =>
    match scanSort ⟨rt, r.lo, to, f⟩ unique (u32 (offset + count)) keys.length (work db keys) db 0 keys ⟨[], none, [], [], ⟨[], []⟩⟩ with
    | none => none
    | some (.stop e refs) => some (.err e, refs)
    | some (.go st) =>
      match elemSort ⟨rt, r.lo, to, f⟩ unique offset count keys.length st.miss.length (work db keys)
          ⟨st.sort, none, 0, [], false, st.trim⟩ with
      | none => none
      | some p =>
        match adjustTrim (rt != .dsc) (if p.elems.length = count then p.elems.getLast?.map (·.elem.bkey) else none) [] p.trim.reverse with
        | none => none
        | some trim =>
          some (.ok ⟨p.elems, st.miss, trim, p.dup⟩, giveAll st.refs (st.sort.map Scan.kidx ++ st.slot.toList))

end Verif.Smget
