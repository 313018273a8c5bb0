import Verif.Model.BTree
import Verif.Model.Item
/-!
# The b+tree: element operations and the engine calls

Model of engines/default/coll_btree.c, lines 203-256, 320-364, 693-704, 843-1026, 1694-1824, 1892-2820 and 3655-4128, 4272-4383.  One key is
observed: `none` is a key without item.  Not modelled: items of another type under the key, expiration, memory accounting,
command logging, element reference counts (an element some client still reads is the oracle `busy`).  `none` is a fault.
-/
namespace Verif.BT

/-- `bkey_range`, include/memcached/types.h; `to = none` is `to_nbkey == BKEY_NULL`. -/
structure Range where
  lo : BKey
  hi : Option BKey
deriving DecidableEq, Repr

/-- `BKEY_RANGE_TYPE_*`, coll_btree.c 60-63. -/
inductive RType where
  | sin | asc | dsc
deriving DecidableEq, Repr

/-- `do_btree_bkey_range_type`, coll_btree.c 693-704, with the key where the walk ends. -/
def rangeType (r : Range) : Option (RType × BKey) :=
  match r.hi with
  | none => some (.sin, r.lo)
  | some k =>
    match bkeyComp r.lo k with
    | none => none
    | some .eq => some (.sin, k)
    | some .lt => some (.asc, k)
    | some .gt => some (.dsc, k)

/-- `BTREE_GET_ELEM_ITEM`, coll_btree.c 80. -/
def elemAt (leaves : Row Elem) (n i : Nat) : Option Elem :=
  match leaves[n]? with
  | none => none
  | some c => c[i]?

/-- `do_btree_get_first_elem`, coll_btree.c 320-327. -/
def firstElem (t : Tree) : Option Elem := elemAt t.leaves 0 0

/-- `do_btree_get_last_elem`, coll_btree.c 329-336. -/
def lastElem (t : Tree) : Option Elem :=
  match t.leaves.getLast? with
  | none => none
  | some c => c.getLast?

/-- Result of `do_btree_find_first`: the element, `path[0]` and the path above. -/
structure First where
  elem : Option Elem
  pos : Pos
  bkeq : Bool
  path : List Posi

/-- The first item of the next leaf, coll_btree.c 907-912, 930-935. -/
def nextLeaf (t : Tree) (n : Nat) (p : List Posi) : Option (Pos × List Posi) :=
  if n + 1 < t.leaves.length then
    match stepPath true t.upper p with
    | none => none
    | some p' => some (.pos (n + 1) 0, p')
  else some (.past, p)

/-- The last item of the previous leaf, coll_btree.c 914-920, 952-959. -/
def prevLeaf (t : Tree) (n : Nat) (p : List Posi) : Option (Pos × List Posi) :=
  if n = 0 then some (.before, p)
  else
    match t.leaves[n - 1]?, stepPath false t.upper p with
    | some c, some p' => if c.length = 0 then none else some (.pos (n - 1) (c.length - 1), p')
    | _, _ => none

/-- The element at a position unless it lies beyond the end of the range, coll_btree.c 936-943, 960-967. -/
def within (leaves : Row Elem) (beyond : CmpOp) (to : BKey) (q : Pos × List Posi) : Option First :=
  match q.1 with
  | .pos n i =>
    match elemAt leaves n i with
    | none => none
    | some e =>
      match bkeyIs beyond e.bkey to with
      | none => none
      | some b => some ⟨if b then none else some e, .pos n i, false, q.2⟩
  | p => some ⟨none, p, false, q.2⟩

/-- `do_btree_find_first`, coll_btree.c 843-972, with a range. -/
def findFirst (rt : RType) (from_ to : BKey) (t : Tree) : Option First :=
  match findPosi from_ t with
  | none => none
  | some (n, p, .found i) =>
    match elemAt t.leaves n i with
    | none => none
    | some e => some ⟨some e, .pos n i, true, p⟩
  | some (n, p, .missing l) =>
    match t.leaves[n]? with
    | none => none
    | some node =>
      match rt with
      | .sin =>
        if 0 < l ∧ l < node.length then some ⟨none, .pos n l, false, p⟩
        else
          match (if node.length ≤ l then nextLeaf t n p else prevLeaf t n p) with
          | none => none
          | some q => some ⟨none, q.1, false, q.2⟩
      | .asc =>
        match (if l < node.length then some (Pos.pos n l, p) else nextLeaf t n p) with
        | none => none
        | some q => within t.leaves .gt to q
      | .dsc =>
        match (if 0 < l then some (Pos.pos n (l - 1), p) else prevLeaf t n p) with
        | none => none
        | some q => within t.leaves .lt to q

/-- The filter of a command: none, or `do_btree_elem_filter`; the value follows the eflag in memory. -/
def keep (f : Option EFilter) (e : Elem) : Option Bool :=
  match f with
  | none => some true
  | some f => elemFilter f e.eflag e.value

/-- `do_btree_find_next` and `do_btree_find_prev`, coll_btree.c 974-1026: the position reached and, if it holds an element of the
range, that element and whether it is the end of the range. -/
def findNext (forward : Bool) (leaves : Row Elem) (to : BKey) (n i : Nat) : Option (Pos × Option (Elem × Bool)) :=
  match stepPosi forward leaves n i with
  | none => none
  | some (.pos n' i') =>
    match elemAt leaves n' i' with
    | none => none
    | some e =>
      match bkeyComp e.bkey to with
      | none => none
      | some .eq => some (.pos n' i', some (e, true))
      | some .gt => some (.pos n' i', if forward then none else some (e, false))
      | some .lt => some (.pos n' i', if forward then some (e, false) else none)
  | some p => some (p, none)

/-- What a walk along the leaves found: the elements with their positions, in the order of the walk, the number of leaves
visited and the last position reached. -/
structure Found where
  picks : List (Posi × Elem)
  nodes : Nat
  last : Pos

/-- The loop of `do_btree_elem_delete`, coll_btree.c 1936-1978, `do_btree_elem_get`, 2378-2424, and `do_btree_elem_count`,
2520-2533 (there with `offset = count = 0`), from the element `e` at `(n, i)`; `fuel` bounds the number of rounds.  The removal of
elements during the walk is modelled by `removePicks` afterwards. -/
def walk (forward : Bool) (leaves : Row Elem) (to : BKey) (f : Option EFilter) (offset count : Nat) :
    Nat → Nat → Nat → Elem → Bool → Nat → List (Posi × Elem) → Nat → Option Found
  | 0, _, _, _, _, _, _, _ => none
  | fuel + 1, n, i, e, bkeq, skip, picks, nodes =>
    match keep f e with
    | none => none
    | some k =>
      let skip' := if k = true ∧ skip < offset then skip + 1 else skip
      let picks' := if k = true ∧ offset ≤ skip then picks ++ [((n, i), e)] else picks
      if k = true ∧ offset ≤ skip ∧ 0 < count ∧ count ≤ picks'.length then some ⟨picks', nodes, .pos n i⟩
      else if bkeq = true then some ⟨picks', nodes, .pos n i⟩
      else
        match findNext forward leaves to n i with
        | none => none
        | some (.pos n' i', some (e', b)) =>
          walk forward leaves to f offset count fuel n' i' e' b skip' picks' (if n' = n then nodes else nodes + 1)
        | some (p, _) => some ⟨picks', nodes, p⟩

/-- Number of rounds that is always enough. -/
def rounds (leaves : Row Elem) : Nat := leaves.flatten.length + 1

/-- The leaves visited by a walk. -/
def leafNumbers (forward : Bool) (n k : Nat) : List Nat := (List.range k).map fun j => if forward then n + j else n - j

/-- The indexes picked in a leaf. -/
def pickedIn (picks : List (Posi × Elem)) (j : Nat) : List Nat := (picks.filter fun x => x.1.1 = j).map fun x => x.1.2

/-- Removal of what a walk found and the merge, coll_btree.c 1961-2003, 2402-2445. -/
def dropFound (forward : Bool) (t : Tree) (n : Nat) (p : List Posi) (w : Found) : Option Tree :=
  if w.picks = [] then some t
  else
    match removePicks forward ((leafNumbers forward n w.nodes).map (pickedIn w.picks)) t.leaves t.upper n p with
    | none => none
    | some (leaves, upper) => merge forward w.nodes ⟨leaves, upper⟩ p

/-! ## The collection -/

/-- `ENGINE_OVERFLOW_ACTION`, include/memcached/types.h; the actions of lists are `other`. -/
inductive Ovfl where
  | error | smallest | largest | smallestSilent | largestSilent | other
deriving DecidableEq, Repr

/-- `BKEY_TYPE_UINT64`, `BKEY_TYPE_BINARY`, coll_btree.c 53-55 (`BKEY_TYPE_UNKNOWN` is `none`). -/
inductive KType where
  | u64 | bin
deriving DecidableEq, Repr

/-- Type of a key, coll_btree.c 2236-2239, 4365-4369. -/
def BKey.type : BKey → KType
  | .num _ => .u64
  | .bin _ => .bin

/-- `btree_meta_info`, item_base.h 300-317, with the item's flags. -/
structure Info where
  tree : Tree
  ccnt : Nat
  mcnt : Int
  ovfl : Ovfl
  trimmed : Bool
  readable : Bool
  sticky : Bool
  bktype : Option KType
  maxRange : Option BKey
  flags : Nat
deriving DecidableEq, Repr

/-- `config->max_btree_size`. -/
structure Cfg where
  maxSize : Nat

/-- Creation attributes, include/memcached/types.h `item_attr`. -/
structure Attr where
  maxcount : Int
  ovfl : Option Ovfl
  readable : Bool
  sticky : Bool
  flags : Nat
deriving DecidableEq, Repr

/-- `do_btree_real_maxcount`, coll_btree.c 203-216. -/
def realMaxcount (maxSize : Nat) (maxcount : Int) : Int :=
  if maxcount < 0 then -1
  else if maxcount = 0 then 4000
  else if maxcount > maxSize then maxSize
  else maxcount

/-- `do_btree_item_alloc`, coll_btree.c 218-256, without the overflow action forced by an environment variable. -/
def newInfo (cfg : Cfg) (a : Attr) : Info :=
  { tree := ⟨[], []⟩, ccnt := 0, mcnt := realMaxcount cfg.maxSize a.maxcount,
    ovfl := match a.ovfl with | none => .smallest | some o => o,
    trimmed := false, readable := a.readable, sticky := a.sticky, bktype := none, maxRange := none, flags := a.flags }

/-- Type check of a key, coll_btree.c 2553-2556, 3783-3786 and other calls. -/
def badType (bktype : Option KType) (k : BKey) : Bool :=
  match bktype with
  | none => false
  | some .u64 => decide (0 < k.nbkey)
  | some .bin => decide (k.nbkey = 0)

/-- `do_btree_overlapped_with_trimmed_space`, coll_btree.c 2292-2321. -/
def overlapped (o : Ovfl) (leaves : Row Elem) (p : Pos) (rt : RType) : Bool :=
  match o with
  | .smallest =>
    match p with
    | .past => false
    | .before => true
    | .pos n i => decide (n = 0 ∧ i = 0 ∧ rt = .asc)
  | .largest =>
    match p with
    | .past => true
    | .before => false
    | .pos n i => decide (n + 1 = leaves.length ∧ (leaves[n]?.map List.length) = some (i + 1) ∧ rt = .dsc)
  | _ => false

/-- Elements taken off the collection. -/
def withTree (info : Info) (t : Tree) (gone : Nat) : Option Info :=
  if info.ccnt < gone then none else some { info with tree := t, ccnt := info.ccnt - gone }

/-- `do_btree_elem_delete`, coll_btree.c 1892-2019: the number of elements deleted. -/
def elemDelete (info : Info) (rt : RType) (from_ to : BKey) (f : Option EFilter) (offset count : Nat) : Option (Info × Nat) :=
  if info.tree.leaves = [] then some (info, 0)
  else
    match findFirst rt from_ to info.tree with
    | none => none
    | some ⟨none, _, _, _⟩ => some (info, 0)
    | some ⟨some e, .pos n i, bkeq, p⟩ =>
      if rt = .sin then
        if bkeq = false then none
        else
          match keep f e with
          | none => none
          | some k =>
            if offset = 0 ∧ k = true then
              match unlinkAt info.tree n i p with
              | none => none
              | some t => (withTree info t 1).map fun x => (x, 1)
            else some (info, 0)
      else
        match walk (rt == .asc) info.tree.leaves to f offset count (rounds info.tree.leaves) n i e false 0 [] 1 with
        | none => none
        | some w =>
          match dropFound (rt == .asc) info.tree n p w with
          | none => none
          | some t => (withTree info t w.picks.length).map fun x => (x, w.picks.length)
    | some _ => none

/-- `do_btree_elem_get`, coll_btree.c 2323-2473: the elements and `potentialbkeytrim`. -/
def elemGet (info : Info) (rt : RType) (from_ to : BKey) (f : Option EFilter) (offset count : Nat) (del : Bool) :
    Option (Info × List Elem × Bool) :=
  if info.tree.leaves = [] then none
  else
    match findFirst rt from_ to info.tree with
    | none => none
    | some ⟨none, pos, _, _⟩ => some (info, [], info.trimmed && overlapped info.ovfl info.tree.leaves pos rt)
    | some ⟨some e, .pos n i, bkeq, p⟩ =>
      if rt = .sin then
        if bkeq = false then none
        else
          match keep f e with
          | none => none
          | some k =>
            if offset = 0 ∧ k = true then
              if del then
                match unlinkAt info.tree n i p with
                | none => none
                | some t => (withTree info t 1).map fun x => (x, [e], false)
              else some (info, [e], false)
            else some (info, [], false)
      else
        let start := !bkeq && info.trimmed && overlapped info.ovfl info.tree.leaves (.pos n i) rt
        match walk (rt == .asc) info.tree.leaves to f offset count (rounds info.tree.leaves) n i e false 0 [] 1 with
        | none => none
        | some w =>
          let stop := (match w.last with | .pos _ _ => false | _ => true) && info.trimmed && overlapped info.ovfl info.tree.leaves w.last rt
          if del then
            match dropFound (rt == .asc) info.tree n p w with
            | none => none
            | some t => (withTree info t w.picks.length).map fun x => (x, w.picks.map Prod.snd, start || stop)
          else some (info, w.picks.map Prod.snd, start || stop)
    | some _ => none

/-- The shortcut of `do_btree_elem_count` for a range that covers everything, coll_btree.c 2494-2513. -/
def fullRange (info : Info) (rt : RType) (from_ to : BKey) (f : Option EFilter) : Option Bool :=
  if rt ≠ .sin ∧ f = none then
    match firstElem info.tree, lastElem info.tree with
    | some a, some b =>
      match bkeyComp (if rt = .asc then from_ else to) a.bkey, bkeyComp (if rt = .asc then to else from_) b.bkey with
      | some c1, some c2 => some (decide (c1 ≠ .gt ∧ c2 ≠ .lt))
      | _, _ => none
    | _, _ => none
  else some false

/-- `do_btree_elem_count`, coll_btree.c 2475-2541. -/
def elemCount (info : Info) (rt : RType) (from_ to : BKey) (f : Option EFilter) : Option Nat :=
  if info.tree.leaves = [] then some 0
  else
    match fullRange info rt from_ to f with
    | none => none
    | some true => some info.ccnt
    | some false =>
      match findFirst rt from_ to info.tree with
      | none => none
      | some ⟨none, _, _, _⟩ => some 0
      | some ⟨some e, .pos n i, bkeq, _⟩ =>
        if rt = .sin then
          if bkeq = false then none
          else (keep f e).map fun k => if k then 1 else 0
        else
          (walk (rt == .asc) info.tree.leaves to f 0 0 (rounds info.tree.leaves) n i e false 0 [] 1).map fun w => w.picks.length
      | some _ => none

/-! ## Overflow -/

/-- `OVFL_TYPE_*`, coll_btree.c 70-73, or the refusal. -/
inductive Check where
  | none_ | count | range | eoverflow | ebkeyoor
deriving DecidableEq, Repr

/-- Step 1 of `do_btree_overflow_check`, coll_btree.c 2057-2090: the range of bkeys. -/
def rangeCheck (info : Info) (e : Elem) : Option Check :=
  match info.maxRange with
  | none => some .none_
  | some mr =>
    match firstElem info.tree, lastElem info.tree with
    | some a, some b =>
      match bkeyIs .lt e.bkey a.bkey, bkeyIs .gt e.bkey b.bkey with
      | some true, _ =>
        match bkeyDiff mr.nbkey b.bkey e.bkey with
        | none => none
        | some d =>
          match bkeyIs .gt d mr with
          | none => none
          | some true => some (if info.ovfl = .largest ∨ info.ovfl = .largestSilent then .range else .ebkeyoor)
          | some false => some .none_
      | some false, some true =>
        match bkeyDiff mr.nbkey e.bkey a.bkey with
        | none => none
        | some d =>
          match bkeyIs .gt d mr with
          | none => none
          | some true => some (if info.ovfl = .smallest ∨ info.ovfl = .smallestSilent then .range else .ebkeyoor)
          | some false => some .none_
      | some false, some false => some .none_
      | _, _ => none
    | _, _ => none

/-- `real_mcnt`, coll_btree.c 2055. -/
def realCap (cfg : Cfg) (info : Info) : Nat := if 0 < info.mcnt then info.mcnt.toNat else cfg.maxSize

/-- Step 2 of `do_btree_overflow_check`, coll_btree.c 2092-2119: the number of elements; the new `TRIMMED` flag comes with the result. -/
def countCheck (cfg : Cfg) (info : Info) (e : Elem) : Option (Check × Bool) :=
  if realCap cfg info ≤ info.ccnt then
    match info.ovfl with
    | .error => some (.eoverflow, info.trimmed)
    | .smallest | .smallestSilent =>
      match firstElem info.tree with
      | none => none
      | some a =>
        match bkeyIs .lt e.bkey a.bkey with
        | none => none
        | some true => some (.ebkeyoor, info.trimmed || info.ovfl == .smallest)
        | some false => some (.count, info.trimmed)
    | _ =>
      match lastElem info.tree with
      | none => none
      | some b =>
        match bkeyIs .gt e.bkey b.bkey with
        | none => none
        | some true => some (.ebkeyoor, info.trimmed || info.ovfl == .largest)
        | some false => some (.count, info.trimmed)
  else some (.none_, info.trimmed)

/-- `do_btree_overflow_check`, coll_btree.c 2049-2122. -/
def overflowCheck (cfg : Cfg) (info : Info) (e : Elem) : Option (Check × Bool) :=
  match rangeCheck info e with
  | none => none
  | some .none_ => countCheck cfg info e
  | some c => some (c, info.trimmed)

/-- The range to be trimmed, coll_btree.c 2138-2175. -/
def trimRange (info : Info) (e : Elem) : Option Range :=
  match info.maxRange with
  | none => none
  | some mr =>
    if info.ovfl = .smallest ∨ info.ovfl = .smallestSilent then
      match firstElem info.tree, bkeyDiff mr.nbkey e.bkey mr with
      | some a, some d =>
        match bkeyDecr d with
        | none => none
        | some to => some ⟨a.bkey, some to⟩
      | _, _ => none
    else
      match lastElem info.tree with
      | none => none
      | some b =>
        match bkeyDiff mr.nbkey b.bkey e.bkey with
        | none => none
        | some d1 =>
          match bkeyDiff mr.nbkey d1 mr with
          | none => none
          | some d2 =>
            match bkeyDecr d2 with
            | none => none
            | some d3 =>
              match bkeyDiff mr.nbkey b.bkey d3 with
              | none => none
              | some from_ => some ⟨from_, some b.bkey⟩

/-- The path of `do_btree_get_first_leaf`, coll_btree.c 338-350. -/
def firstPath (upper : List (Row Nat)) : List Posi := upper.map fun _ => (0, 0)

/-- The path of `do_btree_get_last_leaf`, coll_btree.c 352-364. -/
def lastPath (upper : List (Row Nat)) : Option (List Posi) :=
  match upper with
  | [] => some []
  | row :: rows =>
    match row.getLast?, lastPath rows with
    | some c, some p => if c.length = 0 then none else some ((row.length - 1, c.length - 1) :: p)
    | _, _ => none

/-- `do_btree_overflow_trim`, coll_btree.c 2124-2201: the collection and the element trimmed by count. -/
def overflowTrim (info : Info) (e : Elem) (c : Check) : Option (Info × Option Elem) :=
  if info.ovfl = .error ∨ info.ovfl = .other then none
  else
    match c with
    | .range =>
      match trimRange info e with
      | none => none
      | some r =>
        match rangeType r with
        | none => none
        | some (rt, to) =>
          match elemDelete info rt r.lo to none 0 0 with
          | none => none
          | some (info', k) =>
            if k = 0 ∨ info'.ccnt = 0 then none
            else
              some ({ info' with trimmed := if info.ovfl = .smallest ∨ info.ovfl = .largest then false else info'.trimmed }, none)
    | _ =>
      if info.ovfl = .smallest ∨ info.ovfl = .smallestSilent then
        match firstElem info.tree, unlinkAt info.tree 0 0 (firstPath info.tree.upper) with
        | some a, some t =>
          (withTree info t 1).map fun x => ({ x with trimmed := x.trimmed || info.ovfl == .smallest }, some a)
        | _, _ => none
      else
        match info.tree.leaves.getLast?, lastPath info.tree.upper with
        | some c, some p =>
          match c.getLast?, unlinkAt info.tree (info.tree.leaves.length - 1) (c.length - 1) p with
          | some b, some t =>
            (withTree info t 1).map fun x => ({ x with trimmed := x.trimmed || info.ovfl == .largest }, some b)
          | _, _ => none
        | _, _ => none

/-! ## Replies -/

/-- Answers of the engine calls: `ENGINE_ERROR_CODE` with the output arguments. -/
inductive Rep where
  | ok
  | inserted (created replaced : Bool) (trimmed : Option (Elem × Nat))
  | deleted (count : Nat) (dropped : Bool)
  | elems (flags : Nat) (l : List Elem) (dropped trimmed : Bool)
  | count (n : Nat)
  | position (n : Nat)
  | around (n : Nat) (flags : Nat) (l : List Elem) (index : Nat)
  | number (v : Nat)
  | attrs (count : Nat) (maxcount : Int) (ovfl : Ovfl) (readable trimmed : Bool) (maxRange : Option BKey) (bkeys : Option (BKey × BKey))
  | eexists
  | elemEexists
  | enoent
  | elemEnoent
  | eoverflow
  | ebkeyoor
  | ebadbkey
  | ebadeflag
  | ebadvalue
  | einval
  | enomem
  | unreadable
deriving DecidableEq, Repr

/-! ## Inserting -/

/-- Result of `do_btree_elem_link`. -/
inductive Link where
  | linked (trimmed : Option Elem)
  | replaced
  | refused (r : Rep)
deriving DecidableEq, Repr

/-- The tree with room in the leaf for a new element, coll_btree.c 2224-2230. -/
def makeRoom (t : Tree) (tot n i : Nat) (p : List Posi) (mem : Nat) : Option (Split Elem) :=
  match t.leaves[n]? with
  | none => none
  | some node => if itemCount ≤ node.length then splitLeaf t tot n i p mem else some (.ok t.leaves t.upper (n, i) p)

/-- The part of `do_btree_elem_link` after the split, coll_btree.c 2232-2271. -/
def linkNew (cfg : Cfg) (info : Info) (n i : Nat) (p : List Posi) (e : Elem) : Option (Info × Link) :=
  match (if 0 < info.ccnt then overflowCheck cfg info e else some (.none_, info.trimmed)) with
  | none => none
  | some (.eoverflow, tr) => some ({ info with trimmed := tr }, .refused .eoverflow)
  | some (.ebkeyoor, tr) => some ({ info with trimmed := tr }, .refused .ebkeyoor)
  | some (c, tr) =>
    match insertAt info.tree n i p e with
    | none => none
    | some t =>
      let info' := { info with
        tree := t, ccnt := info.ccnt + 1, trimmed := tr, bktype := if 0 < info.ccnt then info.bktype else some e.bkey.type }
      if c = .none_ then some (info', .linked none)
      else (overflowTrim info' e c).map fun x => (x.1, .linked x.2)

/-- `do_btree_elem_link`, coll_btree.c 2203-2290; `mem` is the number of node allocations that succeed, `full` tells that the memory
for sticky items is used up. -/
def elemLink (cfg : Cfg) (info : Info) (e : Elem) (replace : Bool) (mem : Nat) (full : Bool) : Option (Info × Link) :=
  match findPosi e.bkey info.tree with
  | none => none
  | some (n, p, .missing i) =>
    if info.sticky = true ∧ full = true then some (info, .refused .enomem)
    else
      match makeRoom info.tree info.ccnt n i p mem with
      | none => none
      | some .nomem => some (info, .refused .enomem)
      | some (.ok leaves upper (n', i') p') => linkNew cfg { info with tree := ⟨leaves, upper⟩ } n' i' p' e
  | some (n, _, .found i) =>
    if replace then
      match elemAt info.tree.leaves n i with
      | none => none
      | some old =>
        if info.sticky = true ∧ full = true ∧ old.eflag.length + old.value.length < e.eflag.length + e.value.length then
          some (info, .refused .enomem)
        else
          match replaceAt info.tree n i e with
          | none => none
          | some t => some ({ info with tree := t }, .replaced)
    else some (info, .refused .elemEexists)

/-- Linking into a collection that may have no root yet, coll_btree.c 2561-2584 and 3866-3884: the new root is taken away again if
nothing was linked. -/
def linkRoot (cfg : Cfg) (info : Info) (e : Elem) (replace : Bool) (mem : Nat) (full : Bool) : Option (Info × Link) :=
  if info.tree.leaves = [] then
    if mem = 0 then some (info, .refused .enomem)
    else
      match elemLink cfg { info with tree := ⟨[[]], []⟩ } e replace (mem - 1) full with
      | none => none
      | some (info', .refused r) => some ({ info' with tree := ⟨[], []⟩ }, .refused r)
      | some x => some x
  else elemLink cfg info e replace mem full

/-- `do_btree_elem_insert`, coll_btree.c 2543-2585. -/
def elemInsert (cfg : Cfg) (info : Info) (e : Elem) (replace : Bool) (mem : Nat) (full : Bool) : Option (Info × Link) :=
  if (0 < info.ccnt ∨ info.maxRange ≠ none) ∧ badType info.bktype e.bkey = true then some (info, .refused .ebadbkey)
  else linkRoot cfg info e replace mem full

/-! ## Updates -/

/-- `eflag_update`, include/memcached/types.h: a new eflag, or a bitwise operation on a part of the old one. -/
inductive EUpdate where
  | set (v : List Nat)
  | bitw (op : BitOp) (offset : Nat) (v : List Nat)
deriving DecidableEq, Repr

/-- The check of coll_btree.c 1749-1753. -/
def badEflag (u : Option EUpdate) (eflag : List Nat) : Bool :=
  match u with
  | some (.bitw _ offset v) => decide (0 < v.length ∧ (eflag.length ≤ offset ∨ eflag.length - offset < v.length))
  | _ => false

/-- `BINARY_BITWISE_OP` on a part of the memory `m`, in place, coll_btree.c 1764-1766, 1796-1798. -/
def bitwAt (op : BitOp) (m : List Nat) (offset : Nat) (v : List Nat) : Option (List Nat) :=
  if v.length = 0 then some m
  else
    match readAt m offset v.length with
    | none => none
    | some o => writeAt m offset (List.zipWith op.app o v)

/-- Length of the eflag afterwards, coll_btree.c 1756. -/
def newNeflag (u : Option EUpdate) (eflag : List Nat) : Nat :=
  match u with
  | some (.set v) => v.length
  | _ => eflag.length

/-- Length of the value afterwards, coll_btree.c 1757. -/
def newNbytes (value : Option (List Nat)) (e : Elem) : Nat :=
  match value with
  | none => e.value.length
  | some v => v.length

/-- The update in place, coll_btree.c 1759-1777: `m` is the memory holding eflag and value. -/
def updateInPlace (u : Option EUpdate) (value : Option (List Nat)) (e : Elem) : Option Elem :=
  match (match u with
         | none => some (e.eflag ++ e.value)
         | some (.bitw op off v) => bitwAt op (e.eflag ++ e.value) off v
         | some (.set v) => writeAt (e.eflag ++ e.value) 0 v) with
  | none => none
  | some m =>
    let ne := newNeflag u e.eflag
    match value with
    | none => some ⟨e.bkey, m.take ne, (m.drop ne).take e.value.length⟩
    | some v =>
      match writeAt m ne v with
      | none => none
      | some m => some ⟨e.bkey, m.take ne, (m.drop ne).take v.length⟩

/-- The new element built by coll_btree.c 1790-1817. -/
def updateCopy (u : Option EUpdate) (value : Option (List Nat)) (e : Elem) : Option Elem :=
  match (match u with
         | none => some e.eflag
         | some (.bitw op off v) => bitwAt op e.eflag off v
         | some (.set v) => some v) with
  | none => none
  | some f => some ⟨e.bkey, f, match value with | none => e.value | some v => v⟩

/-- `do_btree_elem_update`, coll_btree.c 1725-1824; `busy`: somebody holds a reference to the element, `amem`: the allocation of an
element succeeds. -/
def elemUpdate (info : Info) (key : BKey) (u : Option EUpdate) (value : Option (List Nat)) (busy amem full : Bool) :
    Option (Info × Rep) :=
  if info.tree.leaves = [] then some (info, .elemEnoent)
  else
    match findFirst .sin key key info.tree with
    | none => none
    | some ⟨none, _, _, _⟩ => some (info, .elemEnoent)
    | some ⟨some e, .pos n i, bkeq, _⟩ =>
      if bkeq = false then none
      else if badEflag u e.eflag = true then some (info, .ebadeflag)
      else
        let old := e.eflag.length + e.value.length
        let new := newNeflag u e.eflag + newNbytes value e
        if busy = false ∧ old = new then
          match updateInPlace u value e with
          | none => none
          | some e' => (replaceAt info.tree n i e').map fun t => ({ info with tree := t }, .ok)
        else if info.sticky = true ∧ full = true ∧ old < new then some (info, .enomem)
        else if amem = false then some (info, .enomem)
        else
          match updateCopy u value e with
          | none => none
          | some e' => (replaceAt info.tree n i e').map fun t => ({ info with tree := t }, .ok)
    | some _ => none

/-- `do_btree_elem_arithmetic`, coll_btree.c 2587-2679, when the element exists. -/
def arithFound (info : Info) (n i : Nat) (e : Elem) (incr : Bool) (delta : Nat) (busy amem : Bool) (rest : List Nat) :
    Option (Info × Rep) :=
  match Verif.Util.safeStrtoull (e.value ++ rest) with
  | none => none
  | some none => some (info, .einval)
  | some (some v) =>
    if e.value.length = 2 then some (info, .einval)
    else
      let v' := Verif.Item.addDelta incr v delta
      let s := Verif.Util.showNat v' ++ [13, 10]
      if busy = false ∧ e.value.length = s.length then
        (replaceAt info.tree n i { e with value := s }).map fun t => ({ info with tree := t }, .number v')
      else if amem = false then some (info, .enomem)
      else (replaceAt info.tree n i { e with value := s }).map fun t => ({ info with tree := t }, .number v')

/-- `btree_elem_arithmetic`, coll_btree.c 3854-3885, on an existing item, with `do_btree_elem_arithmetic`, 2587-2679.  `rest`: the
memory behind the value. -/
def elemArith (cfg : Cfg) (info : Info) (key : BKey) (incr create : Bool) (delta initial : Nat) (eflag : List Nat)
    (busy amem : Bool) (mem : Nat) (full : Bool) (rest : List Nat) : Option (Info × Rep) :=
  if (0 < info.ccnt ∨ info.maxRange ≠ none) ∧ badType info.bktype key = true then some (info, .ebadbkey)
  else if info.tree.leaves = [] ∧ create = false then some (info, .elemEnoent)
  else if info.tree.leaves = [] ∧ mem = 0 then some (info, .enomem)
  else
    match findFirst .sin key key (if info.tree.leaves = [] then ⟨[[]], []⟩ else info.tree) with
    | none => none
    | some ⟨none, _, _, _⟩ =>
      if create = false then some (info, .elemEnoent)
      else if amem = false then some (info, .enomem)
      else
        match linkRoot cfg info ⟨key, eflag, Verif.Util.showNat initial ++ [13, 10]⟩ false mem full with
        | none => none
        | some (info', .linked _) => some (info', .number initial)
        | some (info', .refused r) => if r = .elemEexists then none else some (info', r)
        | some (_, .replaced) => none
    | some ⟨some e, .pos n i, bkeq, _⟩ =>
      if bkeq = false then none else arithFound info n i e incr delta busy amem rest
    | some _ => none

/-! ## Positions -/

/-- `do_btree_posi_from_path`, coll_btree.c 2681-2696, ascending: `i` is the index in the leaf. -/
def posiFromPath (upper : List (Row Nat)) (p : List Posi) (i : Nat) : Option Nat :=
  match upper, p with
  | [], [] => some i
  | row :: rows, (n, j) :: p =>
    match row[n]?, posiFromPath rows p i with
    | some node, some b => some (b + (node.take j).sum)
    | _, _ => none
  | _, _ => none

/-- The position as the client counts, coll_btree.c 2691-2694. -/
def orderPosi (ccnt : Nat) (desc : Bool) (b : Nat) : Option Nat :=
  if desc then (if b < ccnt then some (ccnt - b - 1) else none) else some b

/-- `do_btree_elem_batch_get`, coll_btree.c 2718-2737, in the order of the walk. -/
def batchGet (leaves : Row Elem) (forward : Bool) : Nat → Nat → Nat → Option (List Elem)
  | 0, _, _ => some []
  | count + 1, n, i =>
    match stepPosi forward leaves n i with
    | none => none
    | some (.pos n' i') =>
      match elemAt leaves n' i', batchGet leaves forward count n' i' with
      | some e, some l => some (e :: l)
      | _, _ => none
    | some _ => some []

/-- `do_btree_posi_find` and `do_btree_posi_find_with_get`, coll_btree.c 2698-2716, 2739-2776: nothing, or position, elements and
index of the element in the list. -/
def posiFind (info : Info) (key : BKey) (desc : Bool) (count : Nat) : Option (Option (Nat × List Elem × Nat)) :=
  if info.tree.leaves = [] then some none
  else
    match findFirst .sin key key info.tree with
    | none => none
    | some ⟨none, _, _, _⟩ => some none
    | some ⟨some e, .pos n i, bkeq, p⟩ =>
      if bkeq = false then none
      else
        match posiFromPath info.tree.upper p i with
        | none => none
        | some b =>
          match orderPosi info.ccnt desc b with
          | none => none
          | some bpos =>
            let eidx := if bpos < count then bpos else count
            match batchGet info.tree.leaves desc eidx n i, batchGet info.tree.leaves (!desc) count n i with
            | some l1, some l2 => if l1.length ≠ eidx then none else some (some (bpos, l1.reverse ++ e :: l2, eidx))
            | _, _ => none
    | some _ => none

/-- The scan of one node in `do_btree_elem_get_by_posi`, coll_btree.c 2793-2798. -/
def pickCount : List Nat → Nat → Option (Nat × Nat)
  | [], _ => none
  | e :: es, r =>
    if e = 0 then none
    else if r < e then some (0, r)
    else
      match pickCount es (r - e) with
      | none => none
      | some (i, r') => some (i + 1, r')

/-- The descent of `do_btree_elem_get_by_posi`, coll_btree.c 2790-2801: the node reached below the given levels and the rest of the
index. -/
def posiDown : List (Row Nat) → Nat → Option (Nat × Nat)
  | [], idx => some (0, idx)
  | row :: rows, idx =>
    match posiDown rows idx with
    | none => none
    | some (n, r) =>
      match row[n]? with
      | none => none
      | some node =>
        match pickCount node r with
        | none => none
        | some (i, r') => some (off row n + i, r')

/-- `do_btree_elem_get_by_posi`, coll_btree.c 2778-2819. -/
def elemByPosi (info : Info) (index count : Nat) (forward : Bool) : Option (List Elem) :=
  match posiDown info.tree.upper index with
  | none => none
  | some (n, i) =>
    match elemAt info.tree.leaves n i, batchGet info.tree.leaves forward (count - 1) n i with
    | some e, some l => some (e :: l)
    | _, _ => none

/-! ## Engine calls -/

/-- The observed key. -/
abbrev St := Option Info

/-- Engine calls with the oracles explained above (`imem`: the allocation of the item succeeds; `want`: the client asks for the
trimmed element; `rmem`: the allocation of the result array succeeds). -/
inductive Op where
  | create (a : Attr) (imem : Bool)
  | insert (e : Elem) (replace : Bool) (a : Option Attr) (want imem : Bool) (mem : Nat) (full : Bool)
  | update (key : BKey) (u : Option EUpdate) (value : Option (List Nat)) (busy amem full : Bool)
  | delete (r : Range) (f : Option EFilter) (count : Nat) (drop : Bool)
  | arith (key : BKey) (incr create : Bool) (delta initial : Nat) (eflag : List Nat) (busy amem : Bool) (mem : Nat) (full : Bool)
      (rest : List Nat)
  | get (r : Range) (f : Option EFilter) (offset count : Nat) (del drop rmem : Bool)
  | count (r : Range) (f : Option EFilter)
  | position (key : BKey) (desc : Bool)
  | around (key : BKey) (desc : Bool) (count : Nat) (rmem : Bool)
  | byPosition (desc : Bool) (lo hi : Nat) (rmem : Bool)
  | setattr (maxcount : Option Int) (ovfl : Option Ovfl) (readable : Option Bool) (maxRange : Option (Option BKey))
  | getattr
  | remove
deriving Repr

/-- `btree_elem_insert`, coll_btree.c 3712-3762. -/
def collInsert (cfg : Cfg) (s : St) (e : Elem) (replace : Bool) (a : Option Attr) (want imem : Bool) (mem : Nat) (full : Bool) :
    Option (St × Rep) :=
  match s with
  | some info =>
    match elemInsert cfg info e replace mem full with
    | none => none
    | some (info, .linked x) => some (some info, .inserted false false (if want then x.map fun y => (y, info.flags) else none))
    | some (info, .replaced) => some (some info, .inserted false true none)
    | some (info, .refused r) => some (some info, r)
  | none =>
    match a with
    | none => some (none, .enoent)
    | some a =>
      if imem = false then some (none, .enomem)
      else
        match elemInsert cfg (newInfo cfg a) e replace mem full with
        | none => none
        | some (info, .linked x) => some (some info, .inserted true false (if want then x.map fun y => (y, info.flags) else none))
        | some (info, .replaced) => some (some info, .inserted true true none)
        | some (_, .refused r) => some (none, r)

/-- `btree_elem_delete`, coll_btree.c 3796-3839. -/
def collDelete (info : Info) (r : Range) (f : Option EFilter) (count : Nat) (drop : Bool) : Option (St × Rep) :=
  match rangeType r with
  | none => none
  | some (rt, to) =>
    if info.ccnt = 0 then some (some info, .elemEnoent)
    else if badType info.bktype r.lo = true then some (some info, .ebadbkey)
    else
      match elemDelete info rt r.lo to f 0 count with
      | none => none
      | some (info', k) =>
        if k = 0 then some (some info', .elemEnoent)
        else if info'.ccnt = 0 ∧ drop = true then
          if info'.tree.leaves = [] then some (none, .deleted k true) else none
        else some (some info', .deleted k false)

/-- `btree_elem_get`, coll_btree.c 3894-3965. -/
def collGet (info : Info) (r : Range) (f : Option EFilter) (offset count : Nat) (del drop rmem : Bool) : Option (St × Rep) :=
  match rangeType r with
  | none => none
  | some (rt, to) =>
    if info.readable = false then some (some info, .unreadable)
    else if info.ccnt = 0 ∨ info.ccnt ≤ offset then some (some info, .elemEnoent)
    else if badType info.bktype r.lo = true then some (some info, .ebadbkey)
    else if rmem = false then some (some info, .enomem)
    else
      match elemGet info rt r.lo to f offset count del with
      | none => none
      | some (info', l, tr) =>
        if (if count = 0 ∨ info.ccnt < count then info.ccnt else count) < l.length then none
        else if l = [] then some (some info', if tr then .ebkeyoor else .elemEnoent)
        else if del = false then some (some info', .elems info.flags l false tr)
        else if info'.ccnt = 0 ∧ drop = true then
          if info'.tree.leaves = [] then some (none, .elems info.flags l true false) else none
        else some (some info', .elems info.flags l false false)

/-- `btree_elem_count`, coll_btree.c 3967-3991. -/
def collCount (info : Info) (r : Range) (f : Option EFilter) : Option Rep :=
  match rangeType r with
  | none => none
  | some (rt, to) =>
    if info.readable = false then some .unreadable
    else if badType info.bktype r.lo = true then some .ebadbkey
    else (elemCount info rt r.lo to f).map .count

/-- `btree_posi_find`, coll_btree.c 3993-4022. -/
def collPosition (info : Info) (key : BKey) (desc : Bool) : Option Rep :=
  if info.readable = false then some .unreadable
  else if info.ccnt = 0 then some .elemEnoent
  else if badType info.bktype key = true then some .ebadbkey
  else
    match posiFind info key desc 0 with
    | none => none
    | some none => some .elemEnoent
    | some (some (b, _, _)) => some (.position b)

/-- `btree_posi_find_with_get`, coll_btree.c 4024-4063. -/
def collAround (info : Info) (key : BKey) (desc : Bool) (count : Nat) (rmem : Bool) : Option Rep :=
  if info.readable = false then some .unreadable
  else if info.ccnt = 0 then some .elemEnoent
  else if badType info.bktype key = true then some .ebadbkey
  else if rmem = false then some .enomem
  else
    match posiFind info key desc count with
    | none => none
    | some none => some .elemEnoent
    | some (some (b, l, i)) => if 2 * count + 1 < l.length then none else some (.around b info.flags l i)

/-- `btree_elem_get_by_posi`, coll_btree.c 4065-4128. -/
def collByPosition (info : Info) (desc : Bool) (lo hi : Nat) (rmem : Bool) : Option Rep :=
  if info.readable = false then some .unreadable
  else if info.ccnt = 0 then some .elemEnoent
  else if info.ccnt ≤ lo ∧ info.ccnt ≤ hi then some .elemEnoent
  else
    let a := if info.ccnt ≤ lo then info.ccnt - 1 else lo
    let b := if info.ccnt ≤ hi then info.ccnt - 1 else hi
    let a' := if desc then info.ccnt - a - 1 else a
    let b' := if desc then info.ccnt - b - 1 else b
    let n := if a' ≤ b' then b' - a' + 1 else a' - b' + 1
    if rmem = false then some .enomem
    else if info.tree.leaves = [] then some .elemEnoent
    else
      match elemByPosi info a' n (decide (a' ≤ b')) with
      | none => none
      | some l => if n < l.length then none else some (.elems info.flags l false false)

/-- `btree_coll_getattr`, coll_btree.c 4272-4292. -/
def collGetattr (cfg : Cfg) (info : Info) : Option Rep :=
  let mk := Rep.attrs info.ccnt (if 0 < info.mcnt then info.mcnt else cfg.maxSize) info.ovfl info.readable info.trimmed info.maxRange
  if 0 < info.ccnt then
    match firstElem info.tree, lastElem info.tree with
    | some a, some b => some (mk (some (a.bkey, b.bkey)))
    | _, _ => none
  else some (mk none)

/-- The check of a new maximum bkey range, coll_btree.c 4318-4344: is it refused? -/
def badMaxRange (info : Info) (r : BKey) : Option Bool :=
  if 0 < info.ccnt then
    if badType info.bktype r = true then some true
    else if 2 ≤ info.ccnt ∧ info.maxRange ≠ some r then
      match firstElem info.tree, lastElem info.tree with
      | some a, some b =>
        match bkeyDiff r.nbkey b.bkey a.bkey with
        | none => none
        | some d => bkeyIs .gt d r
      | _, _ => none
    else some false
  else some false

/-- The same when the attribute is given and not removed, coll_btree.c 4318-4320. -/
def badNewRange (info : Info) (mr : Option (Option BKey)) : Option Bool :=
  match mr with
  | some (some r) => badMaxRange info r
  | _ => some false

/-- The checks of `btree_coll_setattr` on the other attributes, coll_btree.c 4300-4317. -/
def badAttrs (cfg : Cfg) (info : Info) (m : Option Int) (o : Option Ovfl) (rd : Option Bool) : Bool :=
  (match m with
   | none => false
   | some x => decide (0 < realMaxcount cfg.maxSize x ∧ realMaxcount cfg.maxSize x < info.ccnt)) ||
  (match o with | some .other => true | _ => false) ||
  (match rd with | some false => true | _ => false)

/-- The assignment of a maximum bkey range, coll_btree.c 4359-4377. -/
def setMaxRange (info : Info) (mr : Option (Option BKey)) : Info :=
  match mr with
  | none => info
  | some none =>
    if info.maxRange = none then info
    else { info with maxRange := none, bktype := if info.ccnt = 0 then none else info.bktype }
  | some (some r) => { info with maxRange := some r, bktype := if info.ccnt = 0 then some r.type else info.bktype }

/-- `btree_coll_setattr`, coll_btree.c 4294-4383, with every attribute given at most once (items.c 800-880 applies it to an existing
item); the overflow action forced by an environment variable is left out. -/
def collSetattr (cfg : Cfg) (info : Info) (m : Option Int) (o : Option Ovfl) (rd : Option Bool) (mr : Option (Option BKey)) :
    Option (St × Rep) :=
  match badNewRange info mr with
  | none => none
  | some bad =>
    if badAttrs cfg info m o rd = true ∨ bad = true then some (some info, .ebadvalue)
    else
      some (some (setMaxRange { info with
        mcnt := match m with | none => info.mcnt | some x => realMaxcount cfg.maxSize x
        trimmed := match o with | none => info.trimmed | some x => if info.ovfl ≠ x then false else info.trimmed
        ovfl := match o with | none => info.ovfl | some x => x
        readable := match rd with | none => info.readable | some _ => true } mr), .ok)

/-- One engine call. -/
def step (cfg : Cfg) (s : St) (op : Op) : Option (St × Rep) :=
  match op with
  | .create a imem =>
    match s with
    | some _ => some (s, .eexists)
    | none => if imem then some (some (newInfo cfg a), .ok) else some (none, .enomem)
  | .insert e replace a want imem mem full => collInsert cfg s e replace a want imem mem full
  | op =>
    match s with
    | none => some (none, .enoent)
    | some info =>
      match op with
      | .update key u value busy amem full =>
        if info.ccnt = 0 then some (s, .elemEnoent)
        else if badType info.bktype key = true then some (s, .ebadbkey)
        else (elemUpdate info key u value busy amem full).map fun x => (some x.1, x.2)
      | .delete r f count drop => collDelete info r f count drop
      | .arith key incr create delta initial eflag busy amem mem full rest =>
        (elemArith cfg info key incr create delta initial eflag busy amem mem full rest).map fun x => (some x.1, x.2)
      | .get r f offset count del drop rmem => collGet info r f offset count del drop rmem
      | .count r f => (collCount info r f).map fun x => (s, x)
      | .position key desc => (collPosition info key desc).map fun x => (s, x)
      | .around key desc count rmem => (collAround info key desc count rmem).map fun x => (s, x)
      | .byPosition desc lo hi rmem => (collByPosition info desc lo hi rmem).map fun x => (s, x)
      | .setattr m o rd mr => collSetattr cfg info m o rd mr
      | .getattr => (collGetattr cfg info).map fun x => (s, x)
      | .remove => some (none, .ok)
      | .create _ _ => none
      | .insert _ _ _ _ _ _ _ => none

end Verif.BT
