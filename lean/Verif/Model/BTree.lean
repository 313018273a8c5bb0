import Verif.Model.BKey
/-!
# The b+tree: nodes, splits and merges

Model of engines/default/coll_btree.c, lines 693-1692 and 1894-2019 (tree part), with BTREE_DELETE_NO_MERGE undefined.

Representation.  A tree is a list of levels; a level (`Row`) is the list of its nodes from left to right, joined by the
`prev` and `next` pointers of the code; a node is the list of its `used_count` items.  Leaf items are elements, items of a
node at depth `d > 0` are the element counts `ecnt[i]`; the child `item[i]` of node `n` of a level is the node number
`off row n + i` of the level below.  A missing level list means `root == NULL`.  Elements are values: their memory and
reference counts are not modelled here (see Model/Item, Model/List and Model/HTree for that discipline), so an element
released while a client still reads it is outside this model.  Memory accounting (`stotal`) and command logging are
omitted.  `none` is a failed assertion, a NULL or out-of-bounds access.
-/
namespace Verif.BT

/-- `btree_elem_item`, item_base.h 268-279: bkey, eflag and value. -/
structure Elem where
  bkey : BKey
  eflag : List Nat
  value : List Nat
deriving DecidableEq, Repr

/-- One level of the tree. -/
abbrev Row (α : Type) := List (List α)

/-- `btree_elem_posi` with `node != NULL`, item_base.h: node number within its level and index in the node. -/
abbrev Posi := Nat × Nat

/-- `BTREE_ITEM_COUNT`, item_base.h. -/
abbrev itemCount : Nat := 32

/-- `BTREE_MAX_DEPTH`, item_base.h. -/
abbrev maxDepth : Nat := 7

/-- `info->root` with all nodes reachable from it, item_base.h 281-317: `upper` from depth 1 up to the root.
`leaves = []` is `root == NULL`. -/
structure Tree where
  leaves : Row Elem
  upper : List (Row Nat)
deriving DecidableEq, Repr

/-- Number of items in the nodes left of node `n`; the number of its first child. -/
def off {α : Type} (row : Row α) (n : Nat) : Nat := ((row.take n).map List.length).sum

/-- Result of moving a position, coll_btree.c 706-730: `past` is `{NULL, 0}`, `before` is `{NULL, BTREE_ITEM_COUNT}`. -/
inductive Pos where
  | pos (n i : Nat)
  | past
  | before
deriving DecidableEq, Repr

/-- `do_btree_incr_posi`, coll_btree.c 706-714. -/
def incrPosi {α : Type} (row : Row α) (n i : Nat) : Option Pos :=
  match row[n]? with
  | none => none
  | some node =>
    if i + 1 < node.length then some (.pos n (i + 1))
    else if n + 1 < row.length then some (.pos (n + 1) 0)
    else some .past

/-- `do_btree_decr_posi`, coll_btree.c 716-730; stepping into a node without items is a fault here. -/
def decrPosi {α : Type} (row : Row α) (n i : Nat) : Option Pos :=
  if 0 < i then some (.pos n (i - 1))
  else if n = 0 then some .before
  else
    match row[n - 1]? with
    | none => none
    | some node => if node.length = 0 then none else some (.pos (n - 1) (node.length - 1))

/-- A step to the right or to the left. -/
def stepPosi {α : Type} (next : Bool) (row : Row α) (n i : Nat) : Option Pos :=
  if next then incrPosi row n i else decrPosi row n i

/-- `do_btree_incr_path` and `do_btree_decr_path`, coll_btree.c 732-753: the path holds the positions from the given level
up to the root; beyond the root the code would run on unset memory. -/
def stepPath (next : Bool) : List (Row Nat) → List Posi → Option (List Posi)
  | row :: rows, (n, i) :: p =>
    match stepPosi next row n i with
    | some (.pos n' i') =>
      if n' = n then some ((n', i') :: p)
      else
        match stepPath next rows p with
        | none => none
        | some p' => some ((n', i') :: p')
    | _ => none
  | _, _ => none

/-! ## Searching -/

/-- Outcome of a binary search: found at `i`, or `left` after the loop (then `right = left - 1`). -/
inductive Hit where
  | found (i : Nat)
  | missing (left : Nat)
deriving DecidableEq, Repr

/-- The binary search loop, coll_btree.c 770-788, 822-829, 886-893; `cmp mid` compares the key searched with item `mid`,
`right` is the C variable plus one; `fuel` bounds the number of rounds (at most 32 items). -/
def bsearch (cmp : Nat → Option Ordering) : Nat → Nat → Nat → Option Hit
  | 0, _, _ => none
  | fuel + 1, left, right =>
    if left < right then
      let mid := (left + right - 1) / 2
      match cmp mid with
      | none => none
      | some .eq => some (.found mid)
      | some .lt => bsearch cmp fuel left mid
      | some .gt => bsearch cmp fuel (mid + 1) right
    else some (.missing left)

/-- `do_btree_get_first_elem`, coll_btree.c 300-309, for all nodes of a level, given the first elements of the nodes of the
level below. -/
def nodeFirsts {β : Type} : Row Nat → List β → Option (List β)
  | [], _ => some []
  | node :: rest, f =>
    match f with
    | [] => none
    | e :: _ =>
      match nodeFirsts rest (f.drop node.length) with
      | none => none
      | some r => some (e :: r)

/-- First elements of the leaf nodes. -/
def leafFirsts : Row Elem → Option (List Elem)
  | [] => some []
  | node :: rest =>
    match node with
    | [] => none
    | e :: _ =>
      match leafFirsts rest with
      | none => none
      | some r => some (e :: r)

/-- Comparison of a key with an element of a list. -/
def cmpAt (key : BKey) (f : List Elem) (i : Nat) : Option Ordering :=
  match f[i]? with
  | none => none
  | some e => bkeyComp key e.bkey

/-- `do_btree_find_leaf`, coll_btree.c 755-798: the levels are listed bottom up, `f` holds the first elements of the nodes
below the first level given.  The result is the number of the node reached below that level, the path above it, and
whether the key was met as a separator. -/
def descend (key : BKey) : List (Row Nat) → List Elem → Option (Nat × List Posi × Bool)
  | [], _ => some (0, [], false)
  | row :: rows, f =>
    match nodeFirsts row f with
    | none => none
    | some f' =>
      match descend key rows f' with
      | none => none
      | some (n, p, found) =>
        match row[n]? with
        | none => none
        | some node =>
          if found then some (off row n, (n, 0) :: p, true)
          else
            match bsearch (fun j => cmpAt key f (off row n + j)) 33 1 node.length with
            | none => none
            | some (.found i) => some (off row n + i, (n, i) :: p, true)
            | some (.missing l) => some (off row n + (l - 1), (n, l - 1) :: p, false)

/-- `do_btree_find_leaf` from the root. -/
def findLeaf (key : BKey) (t : Tree) : Option (Nat × List Posi × Bool) :=
  match t.upper with
  | [] => some (0, [], false)
  | _ =>
    match leafFirsts t.leaves with
    | none => none
    | some f => descend key t.upper f

/-- Leaf node, path above it and the outcome of the search in the leaf, coll_btree.c 808-841 (`do_btree_find_insposi`) and
864-900 (`do_btree_find_first`). -/
def findPosi (key : BKey) (t : Tree) : Option (Nat × List Posi × Hit) :=
  match findLeaf key t with
  | none => none
  | some (n, p, found) =>
    if found then some (n, p, .found 0)
    else
      match t.leaves[n]? with
      | none => none
      | some node =>
        match bsearch (cmpAt key node) 33 0 node.length with
        | none => none
        | some h => some (n, p, h)

/-! ## Counts in the upper levels -/

/-- `node->ecnt[i] -= k` at a position; counts are unsigned, so a result below zero is a fault. -/
def subAt (row : Row Nat) (n i k : Nat) : Option (Row Nat) :=
  match row[n]? with
  | none => none
  | some node =>
    match node[i]? with
    | none => none
    | some e => if e < k then none else some (row.set n (node.set i (e - k)))

/-- `node->ecnt[i] += k` at a position. -/
def addAt (row : Row Nat) (n i k : Nat) : Option (Row Nat) :=
  match row[n]? with
  | none => none
  | some node =>
    match node[i]? with
    | none => none
    | some e => some (row.set n (node.set i (e + k)))

/-- Counts along a path increased by one, coll_btree.c 2259-2261. -/
def addPath : List (Row Nat) → List Posi → Option (List (Row Nat))
  | [], [] => some []
  | row :: rows, (n, i) :: p =>
    match addAt row n i 1, addPath rows p with
    | some row', some rows' => some (row' :: rows')
    | _, _ => none
  | _, _ => none

/-- Counts along a path decreased, coll_btree.c 1682-1685, 1967-1970, 1986-1989. -/
def subPath (k : Nat) : List (Row Nat) → List Posi → Option (List (Row Nat))
  | [], [] => some []
  | row :: rows, (n, i) :: p =>
    match subAt row n i k, subPath k rows p with
    | some row', some rows' => some (row' :: rows')
    | _, _ => none
  | _, _ => none

/-- `do_btree_ecnt_move_split`, coll_btree.c 1172-1192. -/
def ecntMoveSplit (next : Bool) (k : Nat) : List (Row Nat) → List Posi → Option (List (Row Nat))
  | row :: rows, (n, i) :: p =>
    match subAt row n i k with
    | none => none
    | some row1 =>
      match stepPosi next row1 n i with
      | some (.pos n' i') =>
        match addAt row1 n' i' k with
        | none => none
        | some row2 =>
          if n' = n then some (row2 :: rows)
          else
            match ecntMoveSplit next k rows p with
            | none => none
            | some rows' => some (row2 :: rows')
      | _ => none
  | _, _ => none

/-! ## Moving items between nodes -/

/-- `do_btree_node_item_move`, coll_btree.c 1118-1170, from node `n` to node `m` on its right (`next`) or left. -/
def itemMove {α : Type} (row : Row α) (n m : Nat) (next : Bool) (mc : Nat) : Option (Row α) :=
  match row[n]?, row[m]? with
  | some c, some t =>
    if mc = 0 ∨ c.length < mc ∨ itemCount < t.length + mc ∨ n = m then none
    else if next then some ((row.set n (c.take (c.length - mc))).set m (c.drop (c.length - mc) ++ t))
    else some ((row.set n (c.drop mc)).set m (t ++ c.take mc))
  | _, _ => none

/-- Number of elements below some items: `elem_count` of coll_btree.c 1248-1255. -/
def weight {α : Type} (w : α → Nat) (l : List α) : Nat := (l.map w).sum

/-- Node `n` has a neighbour to the left. -/
def prevOf {α : Type} (row : Row α) (n : Nat) : Option (List α) := if n = 0 then none else row[n - 1]?

/-- Direction of a balance, coll_btree.c 1230-1237: the neighbour with less items. -/
def sbalNext {α : Type} (row : Row α) (n : Nat) : Bool :=
  match row[n + 1]?, prevOf row n with
  | some a, some b => decide (a.length < b.length)
  | some _, none => true
  | none, _ => false

/-- Number of items moved, coll_btree.c 1239-1245, 1271-1277: `c` and `t` are the numbers of items of the two nodes, `edge`
tells that the other node is the first or the last of the level. -/
def sbalCount (c t : Nat) (edge : Bool) : Nat :=
  let mc := if 0 < t then (c - t) / 2 else if edge then c / 10 else c / 2
  if mc = 0 then 1 else mc

/-- `do_btree_node_sbalance`, coll_btree.c 1222-1303, on node `n` of a level whose path index is `i`; `p` is the path in the
levels `above`.  Results: the level, the levels above, the new position and path. -/
def sbalance {α : Type} (w : α → Nat) (row : Row α) (above : List (Row Nat)) (n i : Nat) (p : List Posi) :
    Option (Row α × List (Row Nat) × Posi × List Posi) :=
  match row[n]? with
  | none => none
  | some c =>
    if sbalNext row n = true then
      match row[n + 1]? with
      | none => none
      | some t =>
        let mc := sbalCount c.length t.length (decide (n + 2 = row.length))
        if c.length < t.length then none
        else
          match itemMove row n (n + 1) true mc, ecntMoveSplit true (weight w (c.drop (c.length - mc))) above p with
          | some row', some above' =>
            if i ≥ c.length - mc then
              match stepPath true above' p with
              | none => none
              | some p' => some (row', above', (n + 1, i - (c.length - mc)), p')
            else some (row', above', (n, i), p)
          | _, _ => none
    else
      match prevOf row n with
      | none => none
      | some t =>
        let mc := sbalCount c.length t.length (decide (n = 1))
        if c.length < t.length then none
        else
          match itemMove row n (n - 1) false mc, ecntMoveSplit false (weight w (c.take mc)) above p with
          | some row', some above' =>
            if i < mc then
              match stepPath false above' p with
              | none => none
              | some p' => some (row', above', (n - 1, i + t.length), p')
            else some (row', above', (n, i - mc), p)
          | _, _ => none

/-! ## Splits -/

/-- Result of making room in a level and above. -/
inductive Room where
  | nomem
  | ok (rows : List (Row Nat)) (path : List Posi)
deriving DecidableEq, Repr

/-- Result of splitting a node. -/
inductive Split (α : Type) where
  | nomem
  | ok (row : Row α) (above : List (Row Nat)) (posi : Posi) (path : List Posi)

/-- The part of `do_btree_node_link`, coll_btree.c 1321-1347, in the parent: a new entry with count 0 at index `j` of node `n`. -/
def linkEntry (row : Row Nat) (n j : Nat) : Option (Row Nat) :=
  match row[n]? with
  | none => none
  | some node =>
    if node.length = 0 ∨ node.length < j ∨ itemCount ≤ node.length then none
    else some (row.set n (node.insertIdx j 0))

/-- One neighbour has less than half of its items, coll_btree.c 1373-1374. -/
def smallNeighbour {α : Type} (row : Row α) (n : Nat) : Bool :=
  (match row[n + 1]? with
   | some b => decide (b.length < itemCount / 2)
   | none => false) ||
  (match prevOf row n with
   | some b => decide (b.length < itemCount / 2)
   | none => false)

/-- One round of `do_btree_node_split` at the full node `n`, coll_btree.c 1373-1382 (upward) and 1397-1416 (downward); `mem`
counts the node allocations that still succeed, `room` makes room in the parent (the rounds above). -/
def splitStep {α : Type} (w : α → Nat) (row : Row α) (above : List (Row Nat)) (n i : Nat) (p : List Posi) (mem : Nat)
    (room : Nat → Option Room) : Option (Split α) :=
  if smallNeighbour row n then
    match sbalance w row above n i p with
    | none => none
    | some (row', above', posi, p') => some (.ok row' above' posi p')
  else if mem = 0 then some .nomem
  else
    match room (mem - 1) with
    | none => none
    | some .nomem => some .nomem
    | some (.ok (prow :: rest) ((pn, pi) :: p')) =>
      let next := if row.length = 1 then decide (itemCount / 2 ≤ i) else decide (0 < n)
      let j := if next then pi + 1 else pi
      match linkEntry prow pn j with
      | none => none
      | some prow' =>
        let row' := row.insertIdx (off prow pn + j) []
        match sbalance w row' (prow' :: rest) (if next then n else n + 1) i ((pn, if next then pi else pi + 1) :: p') with
        | none => none
        | some (row', above', posi, p') => some (.ok row' above' posi p')
    | _ => none

/-- The loop of `do_btree_node_split` above the leaves, coll_btree.c 1383-1396, 1397-1416: the node of level `d` on the path
gets room for one more item; without such a level a new root with one item is made, `tot` is `info->ccnt`. -/
def room (tot : Nat) : Nat → List (Row Nat) → List Posi → Nat → Option Room
  | d, [], [], mem =>
    if maxDepth ≤ d then none
    else if mem = 0 then some .nomem
    else some (.ok [[[tot]]] [(0, 0)])
  | d, row :: rows, (n, i) :: p, mem =>
    if maxDepth ≤ d then none
    else
      match row[n]? with
      | none => none
      | some node =>
        if node.length < itemCount then some (.ok (row :: rows) ((n, i) :: p))
        else
          match splitStep id row rows n i p mem (room tot (d + 1) rows p) with
          | none => none
          | some .nomem => some .nomem
          | some (.ok row' rows' posi p') => some (.ok (row' :: rows') (posi :: p'))
  | _, _, _, _ => none

/-- `do_btree_node_split`, coll_btree.c 1359-1427, for the leaf `n` with insert index `i`. -/
def splitLeaf (t : Tree) (tot n i : Nat) (p : List Posi) (mem : Nat) : Option (Split Elem) :=
  splitStep (fun _ => 1) t.leaves t.upper n i p mem (room tot 1 t.upper p)

/-! ## Merges -/

/-- First index after `f` with a property. -/
def nextIdx {α : Type} (q : α → Bool) (l : List α) (f : Nat) : Option Nat :=
  match (l.drop (f + 1)).findIdx? q with
  | none => none
  | some j => some (f + 1 + j)

/-- Last index before `f` with a property. -/
def prevIdx {α : Type} (q : α → Bool) (l : List α) (f : Nat) : Option Nat :=
  match ((l.take f).reverse).findIdx? q with
  | none => none
  | some j => some (f - 1 - j)

/-- The position of item number `f` of a level. -/
def locate {α : Type} : Row α → Nat → Option Posi
  | [], _ => none
  | node :: rest, f =>
    if f < node.length then some (0, f)
    else
      match locate rest (f - node.length) with
      | none => none
      | some (n, i) => some (n + 1, i)

/-- `do_btree_ecnt_move_merge`, coll_btree.c 1194-1220.  The inner loop steps to the nearest item with a positive count,
passing over nodes without items: written here as a search in the sequence of all items of the level. -/
def ecntMoveMerge (next : Bool) (k : Nat) : List (Row Nat) → List Posi → Option (List (Row Nat))
  | row :: rows, (n, i) :: p =>
    match subAt row n i k with
    | none => none
    | some row1 =>
      let f := off row1 n + i
      match (if next then nextIdx (fun e => decide (0 < e)) row1.flatten f
             else prevIdx (fun e => decide (0 < e)) row1.flatten f) with
      | none => none
      | some m =>
        match locate row1 m with
        | none => none
        | some (n', i') =>
          match addAt row1 n' i' k with
          | none => none
          | some row2 =>
            if n' = n then some (row2 :: rows)
            else
              match ecntMoveMerge next k rows p with
              | none => none
              | some rows' => some (row2 :: rows')
  | _, _ => none

/-- `node->next`: nodes without items have been detached (`do_btree_node_detach`, coll_btree.c 1488-1496, or 1459-1461) when
this is used, so they are passed over. -/
def nextNode {α : Type} (row : Row α) (n : Nat) : Option Nat := nextIdx (fun c => decide (0 < c.length)) row n

/-- `node->prev`. -/
def prevNode {α : Type} (row : Row α) (n : Nat) : Option Nat := prevIdx (fun c => decide (0 < c.length)) row n

/-- Length of a node given by its number, if any. -/
def lenAt {α : Type} (row : Row α) : Option Nat → Option Nat
  | none => none
  | some m =>
    match row[m]? with
    | none => none
    | some c => some c.length

/-- Direction of a merge, coll_btree.c 1434-1440. -/
def mbalNext {α : Type} (row : Row α) (n : Nat) : Bool :=
  match lenAt row (nextNode row n), lenAt row (prevNode row n) with
  | some a, some b => decide (a < b)
  | some _, none => true
  | none, _ => false

/-- `do_btree_node_mbalance`, coll_btree.c 1430-1449, on node `n`; `p` is the path above. -/
def mbalance {α : Type} (row : Row α) (above : List (Row Nat)) (n : Nat) (p : List Posi) :
    Option (Row α × List (Row Nat)) :=
  let next := mbalNext row n
  match (if next then nextNode row n else prevNode row n) with
  | none => none
  | some m =>
    match row[n]?, above, p with
    | some c, prow :: _, (pn, pi) :: _ =>
      match itemMove row n m next c.length with
      | none => none
      | some row' =>
        match prow[pn]? with
        | none => none
        | some pnode =>
          match pnode[pi]? with
          | none => none
          | some k =>
            match ecntMoveMerge next k above p with
            | none => none
            | some above' => some (row', above')
    | _, _, _ => none

/-- A linked neighbour has less than half of its items, coll_btree.c 1570-1571, 1620-1621. -/
def smallLinked {α : Type} (row : Row α) (n : Nat) : Bool :=
  (match lenAt row (prevNode row n) with
   | some l => decide (l < itemCount / 2)
   | none => false) ||
  (match lenAt row (nextNode row n) with
   | some l => decide (l < itemCount / 2)
   | none => false)

/-- The count at the head of a path. -/
def countAt (above : List (Row Nat)) (p : List Posi) : Option Nat :=
  match above, p with
  | row :: _, (n, i) :: _ =>
    match row[n]? with
    | none => none
    | some node => node[i]?
  | _, _ => none

/-- Number of the node at the head of a path. -/
def nodeAt (above : List (Row Nat)) (p : List Posi) : Option Nat :=
  match above, p with
  | row :: _, (n, i) :: _ => some (off row n + i)
  | _, _ => none

/-- One node of a merge, coll_btree.c 1613-1630 (and 1563-1576 with a single node): the node is gone (result 1) or stays. -/
def mergeVisit {α : Type} (row : Row α) (above : List (Row Nat)) (p : List Posi) :
    Option (Row α × List (Row Nat) × Nat) :=
  match nodeAt above p with
  | none => none
  | some n =>
    match row[n]? with
    | none => none
    | some c =>
      if c.length = 0 then
        if countAt above p = some 0 then some (row, above, 1) else none
      else if c.length < itemCount / 2 ∧ smallLinked row n = true then
        match mbalance row above n p with
        | none => none
        | some (row', above') => if countAt above' p = some 0 then some (row', above', 1) else none
      else some (row, above, 0)

/-- Number of the parent node on a path. -/
def headNode : List Posi → Option Nat
  | [] => none
  | (n, _) :: _ => some n

/-- The second loop over the nodes of a level, coll_btree.c 1612-1649; `par`, `cur` and `tot` are `par_node_count`,
`cur_unlink_cnt` and `tot_unlink_cnt`.  The code takes the entries of unlinked nodes out of a parent when it leaves the
parent; here this is done at the end of the level (`mergeLevel`), the entries have count 0 in the meantime and are passed
over by `ecntMoveMerge`. -/
def mergeLoop {α : Type} (forward : Bool) : Nat → Row α → List (Row Nat) → List Posi → Nat → Nat → Nat →
    Option (Row α × List (Row Nat) × Nat × Nat)
  | 0, _, _, _, _, _, _ => none
  | left + 1, row, above, p, par, cur, tot =>
    match mergeVisit row above p with
    | none => none
    | some (row', above', u) =>
      if left = 0 then
        some (row', above', if 0 < cur + u then par + 1 else par, tot + (cur + u))
      else
        match stepPath forward above' p with
        | none => none
        | some p' =>
          if headNode p' = headNode p then mergeLoop forward left row' above' p' par (cur + u) tot
          else mergeLoop forward left row' above' p' (par + 1) 0 (tot + (cur + u))

/-- `do_btree_node_remove_null_items`, coll_btree.c 1498-1529, in all parents: entries whose child is gone are taken out. -/
def dropNull : Row Nat → List Bool → Row Nat
  | [], _ => []
  | node :: rest, gone =>
    ((node.zip gone).filterMap fun e => if e.2 then none else some e.1) :: dropNull rest (gone.drop node.length)

/-- One round of `do_btree_node_merge`, coll_btree.c 1545-1650, at a level that is not the root: `cur` nodes from the path on.
With a single node the separate branch 1563-1576 takes the same steps.  The assertion of
`do_btree_node_remove_null_items` (all entries without child have been counted) is checked for the whole level. -/
def mergeLevel {α : Type} (forward : Bool) (cur : Nat) (row : Row α) (above : List (Row Nat)) (p : List Posi) :
    Option (Row α × List (Row Nat) × Nat) :=
  match mergeLoop forward cur row above p 0 0 0 with
  | none => none
  | some (row', above', par, tot) =>
    if (row'.filter fun c => c.length = 0).length ≠ tot then none
    else
      match above' with
      | [] => none
      | prow :: rest =>
        some (row'.filter (fun c => 0 < c.length), dropNull prow (row'.map fun c => decide (c.length = 0)) :: rest, par)

/-- `do_btree_node_merge` above the leaves, coll_btree.c 1544-1652; the second result tells whether the root was reached. -/
def mergeUp (forward : Bool) : Nat → List (Row Nat) → List Posi → Nat → Option (List (Row Nat) × Bool)
  | _, rows, _, 0 => some (rows, false)
  | 0, _, _, _ => none
  | _, [], _, _ => none
  | _, [row], _, cur + 1 => if cur = 0 then some ([row], true) else none
  | fuel + 1, row :: above, p, cur + 1 =>
    match mergeLevel forward (cur + 1) row above p with
    | none => none
    | some (row', above', par) =>
      match mergeUp forward fuel above' p.tail par with
      | none => none
      | some (rows, r) => some (row' :: rows, r)

/-- Root nodes with a single child are removed, coll_btree.c 1555-1560. -/
def collapse : List (Row Nat) → List (Row Nat)
  | [] => []
  | row :: rows =>
    match collapse rows with
    | [] => if row.map List.length = [1] then [] else [row]
    | r :: rs => row :: r :: rs

/-- The root after a merge that reached it, coll_btree.c 1549-1561: a root without items is removed. -/
def fixRoot (leaves : Row Elem) (upper : List (Row Nat)) : Tree :=
  match upper.getLast? with
  | none => if leaves = [[]] then ⟨[], []⟩ else ⟨leaves, []⟩
  | some top => if top = [[]] then ⟨[], []⟩ else ⟨leaves, collapse upper⟩

/-- `do_btree_node_merge`, coll_btree.c 1531-1653, from the leaves; `p` is the path above the first leaf visited. -/
def merge (forward : Bool) (cur : Nat) (t : Tree) (p : List Posi) : Option Tree :=
  match t.upper with
  | [] => if cur = 1 then some (fixRoot t.leaves []) else none
  | _ =>
    match mergeLevel forward cur t.leaves t.upper p with
    | none => none
    | some (leaves, upper, par) =>
      match mergeUp forward (t.upper.length + 1) upper p.tail par with
      | none => none
      | some (rows, r) => some (if r then fixRoot leaves rows else ⟨leaves, rows⟩)

/-! ## Elements -/

/-- Insertion of an element into the leaf and the counts above it, coll_btree.c 2250-2262. -/
def insertAt (t : Tree) (n i : Nat) (p : List Posi) (e : Elem) : Option Tree :=
  match t.leaves[n]? with
  | none => none
  | some node =>
    if node.length < i ∨ itemCount ≤ node.length then none
    else
      match addPath t.upper p with
      | none => none
      | some upper => some ⟨t.leaves.set n (node.insertIdx i e), upper⟩

/-- `do_btree_elem_replace`, coll_btree.c 1694-1723. -/
def replaceAt (t : Tree) (n i : Nat) (e : Elem) : Option Tree :=
  match t.leaves[n]? with
  | none => none
  | some node => if i < node.length then some { t with leaves := t.leaves.set n (node.set i e) } else none

/-- `do_btree_elem_unlink`, coll_btree.c 1655-1692. -/
def unlinkAt (t : Tree) (n i : Nat) (p : List Posi) : Option Tree :=
  match t.leaves[n]? with
  | none => none
  | some node =>
    if node.length ≤ i then none
    else
      match subPath 1 t.upper p with
      | none => none
      | some upper =>
        let t' : Tree := ⟨t.leaves.set n (node.eraseIdx i), upper⟩
        if node.length - 1 < itemCount / 2 then merge true 1 t' p else some t'

/-- Items of a node left after some positions became NULL, coll_btree.c 1498-1529. -/
def eraseIdxs {α : Type} (node : List α) (idxs : List Nat) : List α :=
  node.zipIdx.filterMap fun e => if e.2 ∈ idxs then none else some e.1

/-- Removal of the elements picked in each of the consecutive leaves visited, coll_btree.c 1961-1990, 2404-2440.  The code
does this while it walks, when it leaves a node; the walk never looks at a node it has left. -/
def removePicks (forward : Bool) : List (List Nat) → Row Elem → List (Row Nat) → Nat → List Posi →
    Option (Row Elem × List (Row Nat))
  | [], leaves, upper, _, _ => some (leaves, upper)
  | idxs :: more, leaves, upper, n, p =>
    match leaves[n]? with
    | none => none
    | some node =>
      match (if idxs.length = 0 then some upper else subPath idxs.length upper p) with
      | none => none
      | some upper' =>
        let leaves' := leaves.set n (eraseIdxs node idxs)
        if more = [] then some (leaves', upper')
        else
          match (if upper = [] then some p else stepPath forward upper' p) with
          | none => none
          | some p' => if n = 0 ∧ forward = false then none else removePicks forward more leaves' upper' (if forward then n + 1 else n - 1) p'

end Verif.BT
