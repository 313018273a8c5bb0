/-!
# Model of engines/default/coll_set.c and coll_map.c: the 16-way hash trees

Sets and maps store their elements in the same kind of tree: a node has 16 slots, a slot is a chain of
elements or a child node, chosen by four bits of the 32-bit hash value of the element (its value in a set, its
field in a map).  The two files differ in the counters of a node and in the calls; `Kind` says which file is
meant.  One item (one key) is observed; validity, reference count and hash table entry of the item, the slab
accounting `stotal` and the command log calls are left out (see Model/Item.lean and Model/List.lean).

Simplifications: a chain is a list of element numbers instead of `next` pointers, `linked` stands for
`next != ADDR_MEANS_UNLINKED`; counters are natural numbers (`Lemmas/HTree.lean` shows that they stay below the
range of the C types); calls that visit many elements first collect them and then apply the
changes of reference counts and the frees, in the order of the visit.  A failed assertion, an access to freed
memory, a write outside an array, a division by zero and an undefined shift are the outcome `none`.
-/
namespace Verif.HT

/-- Which collection: coll_set.c or coll_map.c. -/
inductive Kind where
  | set
  | map
deriving DecidableEq, Repr

/-- `set_elem_item`, `map_elem_item`, item_base.h 178-196: `key` is the value of a set element, the field of a
map element; `val` is the value of a map element (empty in sets). -/
structure Elem where
  refcount : Nat
  linked : Bool
  hval : Nat
  key : List Nat
  val : List Nat
deriving DecidableEq, Repr

/-- Element memory. -/
abbrev Heap := Nat → Option Elem

/-- A slot: `hcnt[i] ≥ 0` and a chain, or `hcnt[i] = -1` and a child node; `set_hash_node` (item_base.h 235-242)
with `cnt` = `tot_elem_cnt` (`nhash` unused), `map_hash_node` (259-267) with `cnt` = `cur_elem_cnt` and
`nhash` = `cur_hash_cnt`.  The root is a `node`. -/
inductive T where
  | chain (hcnt : Nat) (es : List Nat)
  | node (depth cnt nhash : Nat) (kids : Fin 16 → T)

/-- The slots in the order of the loops `for (hidx = 0; hidx < 16; hidx++)`. -/
def slots : List (Fin 16) := List.finRange 16

/-- `SET_GET_HASHIDX`, coll_set.c 105-106, `MAP_GET_HASHIDX`, coll_map.c 65-66.  The mask `0xF` is an int: its
shift by 28 or more bits is undefined behaviour (with gcc the lookups, which use `int hval`, get a negative index
from hash values of 2^31 and more at depth 7). -/
def hashIdx (hval depth : Nat) : Option (Fin 16) :=
  if depth < 7 then some ⟨hval / 16 ^ depth % 16, Nat.mod_lt _ (by decide)⟩ else none

/-- Store into a slot. -/
def put (kids : Fin 16 → T) (i : Fin 16) (t : T) : Fin 16 → T := fun j => if j = i then t else kids j

/-- `do_set_node_alloc`, coll_set.c 192-208; `do_map_node_alloc`, coll_map.c 143-160. -/
def newNode (depth : Nat) : T := .node depth 0 0 (fun _ => .chain 0 [])

/-- Search in a chain by hash value and key: coll_set.c 430-433, 458-463; coll_map.c 352-357, 570-579. -/
def search (h : Heap) (hv : Nat) (key : List Nat) : List Nat → Option (Option Nat)
  | [] => some none
  | i :: es =>
    match h i with
    | none => none
    | some e => if e.hval = hv ∧ e.key = key then some (some i) else search h hv key es

/-- `do_set_elem_find`, coll_set.c 412-435; `do_map_elem_find`, coll_map.c 556-582. -/
def find (h : Heap) (hv : Nat) (key : List Nat) : T → Option (Option Nat)
  | .chain _ es => search h hv key es
  | .node d _ _ kids =>
    match hashIdx hv d with
    | none => none
    | some i => find h hv key (kids i)

/-- Loop of `do_set_node_link`, coll_set.c 257-266, `do_map_node_link`, coll_map.c 214-224: the chain is moved,
element by element, to the front of the chains of the new node at depth `d`; the last component counts. -/
def distribute (h : Heap) (d : Nat) : List Nat → (Fin 16 → Nat × List Nat) → Nat → Option ((Fin 16 → Nat × List Nat) × Nat)
  | [], f, n => some (f, n)
  | i :: es, f, n =>
    match h i with
    | none => none
    | some e =>
      match hashIdx e.hval d with
      | none => none
      | some x => distribute h d es (fun j => if j = x then ((f x).1 + 1, i :: (f x).2) else f j) (n + 1)

/-- The part of `do_set_elem_link` (coll_set.c 354-377) and `do_map_elem_link` (coll_map.c 397-417) that puts the
element `id` in, splitting a chain of 64 elements; `mem` is whether a node can be allocated.  `none` in the result:
out of memory.  In sets all nodes on the path count the element. -/
def place (k : Kind) (h : Heap) (mem : Bool) (id hv : Nat) : T → Option (Option T)
  | .chain _ _ => none
  | .node d c nh kids =>
    match hashIdx hv d with
    | none => none
    | some i =>
      match kids i with
      | .node .. =>
        match place k h mem id hv (kids i) with
        | none => none
        | some none => some none
        | some (some t) => some (some (.node d (if k = .set then c + 1 else c) nh (put kids i t)))
      | .chain n es =>
        if 64 ≤ n then
          if !mem then some none
          else
            match distribute h (d + 1) es (fun _ => (0, [])) 0 with
            | none => none
            | some (f, found) =>
              if found ≠ n then none
              else
                match hashIdx hv (d + 1) with
                | none => none
                | some x =>
                  let kids' : Fin 16 → T := fun j => if j = x then .chain ((f x).1 + 1) (id :: (f x).2) else .chain (f j).1 (f j).2
                  let child := T.node (d + 1) (found + 1) 0 kids'
                  some (some (match k with
                    | .set => .node d (c + 1) nh (put kids i child)
                    | .map => .node d (c - found) (nh + 1) (put kids i child)))
        else some (some (.node d (c + 1) nh (put kids i (.chain (n + 1) (id :: es)))))

/-- `do_map_elem_replace`, coll_map.c 291-330: the new element takes the place of the old one in its chain. -/
def replace (hv old new : Nat) : T → Option T
  | .chain n es => some (.chain n (es.map fun i => if i = old then new else i))
  | .node d c nh kids =>
    match hashIdx hv d with
    | none => none
    | some i =>
      match replace hv old new (kids i) with
      | none => none
      | some t => some (.node d c nh (put kids i t))

/-- Loop of `do_set_node_unlink`, coll_set.c 296-310; `do_map_node_unlink`, coll_map.c 258-272: all elements, each
put in front of the list `head`. -/
def collect (kids : Fin 16 → T) : List (Fin 16) → Nat → List Nat → Option (Nat × List Nat)
  | [], f, head => some (f, head)
  | i :: is, f, head =>
    match kids i with
    | .node .. => none
    | .chain n es =>
      if 0 < n then
        if es.length ≠ n then none else collect kids is (f + n) (es.reverse ++ head)
      else collect kids is f head

/-- `is_leaf_node`, coll_set.c 119-126. -/
def isLeaf (kids : Fin 16 → T) : Bool :=
  slots.all fun i => match kids i with | .chain .. => true | .node .. => false

/-- The test for dissolving a child node: coll_set.c 447-448, 508-509, 582-583 (`SET_MAX_HASHCHAIN_SIZE/2` is 32);
coll_map.c 463-464, 506-507. -/
def isSmall (k : Kind) (c nh : Nat) (kids : Fin 16 → T) : Bool :=
  match k with
  | .set => decide (c < 32) && isLeaf kids
  | .map => decide (nh = 0) && decide (c < 32)

/-- After a removal below slot `i` left the slot as `t` with `ecnt` elements less: a chain was shortened by
`do_set_elem_unlink` / `do_map_elem_unlink` (coll_set.c 396-397, coll_map.c 435-436), or a child node that
has become small is dissolved into a chain (coll_set.c 447-451, 508-513; coll_map.c 463-468, 506-511). -/
def settle (k : Kind) (d c nh : Nat) (kids : Fin 16 → T) (i : Fin 16) (t : T) (ecnt : Nat) : Option T :=
  match t with
  | .chain .. => some (.node d (c - ecnt) nh (put kids i t))
  | .node _ c' nh' kids' =>
    if isSmall k c' nh' kids' then
      match collect kids' slots 0 [] with
      | none => none
      | some (fcnt, es) =>
        if fcnt ≠ c' then none
        else some (match k with
          | .set => .node d (c - ecnt) nh (put kids i (.chain fcnt es))
          | .map => .node d (c + fcnt) (nh - 1) (put kids i (.chain fcnt es)))
    else some (.node d (if k = .set then c - ecnt else c) nh (put kids i t))

/-- `do_set_elem_traverse_delete`, coll_set.c 437-472; `do_map_elem_traverse_dfs_byfield` with `delete`,
coll_map.c 451-491.  Result: not found, or the element and the tree without it. -/
def delKey (k : Kind) (h : Heap) (hv : Nat) (key : List Nat) : T → Option (Option (Nat × T))
  | .chain n es =>
    if 0 < n then
      match search h hv key es with
      | none => none
      | some none => some none
      | some (some i) => some (some (i, .chain (n - 1) (es.erase i)))
    else some none
  | .node d c nh kids =>
    match hashIdx hv d with
    | none => none
    | some i =>
      match delKey k h hv key (kids i) with
      | none => none
      | some none => some none
      | some (some (id, t)) => (settle k d c nh kids i t 1).map fun t => some (id, t)

/-- The loop over the slots in `do_set_elem_traverse_dfs`, coll_set.c 501-532, and
`do_map_elem_traverse_dfs_bycnt`, coll_map.c 500-527; `visit i r` is the traversal of slot `i` for `r` elements. -/
def dfsLoop (k : Kind) (count : Nat) (del : Bool) (visit : Fin 16 → Nat → Option (T × List Nat)) :
    List (Fin 16) → T → List Nat → Option (T × List Nat)
  | [], t, out => some (t, out)
  | i :: is, t, out =>
    match visit i (if 0 < count then count - out.length else 0) with
    | none => none
    | some (ti, new) =>
      match (if del then (match t with
            | .chain .. => none
            | .node d c nh kids => settle k d c nh kids i ti new.length) else some t) with
      | none => none
      | some t =>
        if 0 < count ∧ count ≤ (out ++ new).length then some (t, out ++ new)
        else dfsLoop k count del visit is t (out ++ new)

/-- `do_set_elem_traverse_dfs`, coll_set.c 494-533; `do_map_elem_traverse_dfs_bycnt`, coll_map.c 493-528: the first
`count` elements (0: all), removed if `del`. -/
def dfs (k : Kind) (del : Bool) : T → Nat → Option (T × List Nat)
  | .chain n es, count =>
    if 0 < n then
      let out := if 0 < count then es.take count else es
      some (if del then .chain (n - out.length) (es.drop out.length) else .chain n es, out)
    else some (.chain n es, [])
  | .node d c nh kids, count =>
    dfsLoop k count del (fun i r => dfs k del (kids i) r) slots (.node d c nh kids) []

/-- Loop of `do_set_elem_traverse_sampling` over a chain, coll_set.c 550-558; `rnd` are the values of `rand()`,
`p` how many have been used. -/
def sampleChain (rnd : Nat → Nat) (count : Nat) : List Nat → Nat → Nat → List Nat → Option (List Nat × Nat × Nat)
  | [], remain, p, out => some (out, remain, p)
  | i :: es, remain, p, out =>
    if remain = 0 then none
    else if rnd p % remain < count - out.length then
      if count ≤ (out ++ [i]).length then some (out ++ [i], remain, p + 1)
      else sampleChain rnd count es (remain - 1) (p + 1) (out ++ [i])
    else sampleChain rnd count es (remain - 1) (p + 1) out

/-- One slot in the loop of the sampling, coll_set.c 543-560: the child is sampled, or the chain is. -/
def sampleSlot (rnd : Nat → Nat) (count : Nat) (t : T) (visit : Nat → Nat → Nat → Option (List Nat × Nat)) (remain p : Nat) (out : List Nat) :
    Option (List Nat × Nat × Nat) :=
  match t with
  | .node _ c _ _ => (visit remain (count - out.length) p).map fun r => (out ++ r.1, remain - c, r.2)
  | .chain n es => if 0 < n then sampleChain rnd count es remain p out else some (out, remain, p)

/-- The loop over the slots, coll_set.c 542-562; `visit i remain count p` is the sampling of the child in slot `i`. -/
def sampleLoop (rnd : Nat → Nat) (count : Nat) (kids : Fin 16 → T) (visit : Fin 16 → Nat → Nat → Nat → Option (List Nat × Nat)) :
    List (Fin 16) → Nat → Nat → List Nat → Option (List Nat × Nat)
  | [], _, p, out => some (out, p)
  | i :: is, remain, p, out =>
    match sampleSlot rnd count (kids i) (visit i) remain p out with
    | none => none
    | some (out, remain, p) =>
      if count ≤ out.length then some (out, p) else sampleLoop rnd count kids visit is remain p out

/-- `do_set_elem_traverse_sampling`, coll_set.c 535-564. -/
def sample (rnd : Nat → Nat) : T → Nat → Nat → Nat → Option (List Nat × Nat)
  | .chain _ _, _, _, _ => none
  | .node _ _ _ kids, remain, count, p =>
    sampleLoop rnd count kids (fun i r c p => sample rnd (kids i) r c p) slots remain p []

/-- Number of elements of a slot by its counter: `tot_elem_cnt` of the child or `hcnt`. -/
def slotCnt : T → Nat
  | .chain n _ => n
  | .node _ c _ _ => c

/-- The loop over the slots in `do_set_elem_at_offset`, coll_set.c 570-603. -/
def atLoop (k : Kind) (del : Bool) (d c nh : Nat) (kids : Fin 16 → T) (visit : Fin 16 → Nat → Option (Nat × T)) :
    List (Fin 16) → Nat → Option (Nat × T)
  | [], _ => none
  | i :: is, offset =>
    if slotCnt (kids i) ≤ offset then atLoop k del d c nh kids visit is (offset - slotCnt (kids i))
    else
      match visit i offset with
      | none => none
      | some (id, t) => if del then (settle k d c nh kids i t 1).map fun t => (id, t) else some (id, .node d c nh kids)

/-- `do_set_elem_at_offset`, coll_set.c 566-605: the element at an offset in traversal order, removed if `del`. -/
def atOffset (k : Kind) (del : Bool) : T → Nat → Option (Nat × T)
  | .chain n es, offset =>
    match es[offset]? with
    | none => none
    | some i => some (i, if del then .chain (n - 1) (es.eraseIdx offset) else .chain n es)
  | .node d c nh kids, offset =>
    atLoop k del d c nh kids (fun i o => atOffset k del (kids i) o) slots offset

/-- `set_meta_info`, `map_meta_info` (item_base.h 244-252, 269-277); of `mflags` the readable and sticky flags, and
the item flags returned by a get. -/
structure Info where
  mcnt : Int
  ccnt : Nat
  ovflact : Nat
  readable : Bool
  sticky : Bool
  flags : Nat
  root : Option T

/-- Element memory and the collection under the observed key. -/
structure St where
  heap : Heap
  nextId : Nat
  coll : Option Info

/-- No collection, no elements. -/
def init : St := ⟨fun _ => none, 0, none⟩

/-- Function update. -/
def upd {α : Type} (f : Nat → α) (i : Nat) (v : α) : Nat → α := fun j => if j = i then v else f j

/-- Engine configuration: `max_set_size` or `max_map_size`, and the hash function (`genhash_string_hash`,
genhash.c 343-355, is one possible value; the theorems hold for every function). -/
structure Cfg where
  maxSize : Nat
  hash : List Nat → Nat

/-- `genhash_string_hash`, genhash.c 343-355, as an unsigned 32-bit number, for bytes below 128. -/
def genhash (s : List Nat) : Nat := s.foldl (fun rv b => (rv * 33 % 2 ^ 32).xor b) 5381

/-- `OVFL_ERROR`, include/memcached/types.h. -/
abbrev ovflError : Nat := 1

/-- `do_set_real_maxcount`, coll_set.c 145-158; `do_map_real_maxcount`, coll_map.c 96-109. -/
def realMaxcount (maxSize : Nat) (maxcount : Int) : Int :=
  if maxcount < 0 then -1
  else if maxcount = 0 then 4000
  else if maxcount > maxSize then maxSize
  else maxcount

/-- Creation attributes, include/memcached/types.h `item_attr`. -/
structure Attr where
  maxcount : Int
  readable : Bool
  sticky : Bool
  flags : Nat
deriving DecidableEq, Repr

/-- Meta information written by `do_set_item_alloc`, coll_set.c 160-190; `do_map_item_alloc`, coll_map.c 111-141. -/
def newInfo (cfg : Cfg) (a : Attr) : Info :=
  { mcnt := realMaxcount cfg.maxSize a.maxcount, ccnt := 0, ovflact := ovflError, readable := a.readable,
    sticky := a.sticky, flags := a.flags, root := none }

/-- `do_set_elem_alloc`, coll_set.c 215-229; `do_map_elem_alloc`, coll_map.c 167-183; the caller writes the data. -/
def elemAlloc (s : St) (key val : List Nat) : St × Nat :=
  ({ s with heap := upd s.heap s.nextId (some ⟨0, false, 0, key, val⟩), nextId := s.nextId + 1 }, s.nextId)

/-- `do_set_elem_free`, coll_set.c 231-237; `do_map_elem_free`, coll_map.c 185-191. -/
def elemFree (h : Heap) (i : Nat) : Option Heap :=
  match h i with
  | none => none
  | some e => if e.refcount ≠ 0 then none else some (upd h i none)

/-- `do_set_elem_release`, coll_set.c 239-247; `do_map_elem_release`, coll_map.c 193-201. -/
def elemRelease (h : Heap) (i : Nat) : Option Heap :=
  match h i with
  | none => none
  | some e =>
    let rc := if e.refcount ≠ 0 then e.refcount - 1 else e.refcount
    let h := upd h i (some { e with refcount := rc })
    if rc = 0 ∧ e.linked = false then elemFree h i else some h

/-- The element side of linking: hash value and `next`; coll_set.c 335, 366; coll_map.c 346, 409. -/
def markLinked (h : Heap) (i hv : Nat) : Option Heap :=
  match h i with
  | none => none
  | some e => some (upd h i (some { e with linked := true, hval := hv }))

/-- The element side of `do_set_elem_unlink`, coll_set.c 395, 407-409; `do_map_elem_unlink`, coll_map.c 434, 446-448;
of `do_map_elem_replace`, coll_map.c 316-319. -/
def markUnlinked (h : Heap) (i : Nat) : Option Heap :=
  match h i with
  | none => none
  | some e =>
    let h := upd h i (some { e with linked := false })
    if e.refcount = 0 then elemFree h i else some h

/-- `markUnlinked` for the elements of a removal. -/
def unlinkAll : Heap → List Nat → Option Heap
  | h, [] => some h
  | h, i :: is => match markUnlinked h i with | none => none | some h => unlinkAll h is

/-- `elem->refcount++` for the elements put into the result array (16-bit counter). -/
def refAll : Heap → List Nat → Option Heap
  | h, [] => some h
  | h, i :: is =>
    match h i with
    | none => none
    | some e => refAll (upd h i (some { e with refcount := (e.refcount + 1) % 2 ^ 16 })) is

/-- Replies. -/
inductive Rep where
  | ok
  | allocated (i : Nat)
  | inserted (created replaced : Bool)
  | deleted (count : Nat) (dropped : Bool)
  | exist (b : Bool)
  | elems (flags : Nat) (ids : List Nat) (dropped : Bool)
  | attrs (count : Nat) (maxcount : Int) (ovflaction : Nat) (readable : Bool)
  | eexists
  | elemEexists
  | enoent
  | elemEnoent
  | eoverflow
  | enomem
  | unreadable
  | ebadvalue
  | running
deriving DecidableEq, Repr

/-- The test for dropping the root: coll_set.c 486, 613, 678; coll_map.c 548, 641, 670. -/
def isEmptyRoot (k : Kind) (c nh : Nat) : Bool :=
  match k with
  | .set => decide (c = 0)
  | .map => decide (nh = 0) && decide (c = 0)

/-- `info->root` is dropped when it is empty: `do_set_node_unlink(info, NULL, 0)`, coll_set.c 283-286 with the tests
486, 613, 678; `do_map_node_unlink(info, NULL, 0)`, coll_map.c 244-248 with the tests 548, 641, 670. -/
def dropRoot (k : Kind) (t : T) : Option T :=
  match t with
  | .chain .. => some t
  | .node _ c nh _ => if isEmptyRoot k c nh then none else some t

/-- `do_set_elem_insert`, coll_set.c 688-731, with `do_set_elem_link`, 326-386.  `mem`: a node can be allocated;
`full`: `do_item_sticky_overflowed()`. -/
def setInsert (cfg : Cfg) (s : St) (info : Info) (id : Nat) (mem full : Bool) : Option (St × Info × Rep) :=
  let realMcnt : Int := if info.mcnt > 0 then info.mcnt else cfg.maxSize
  if info.sticky ∧ full then some (s, info, .enomem)
  else if info.ovflact ≠ ovflError then none
  else if (info.ccnt : Int) ≥ realMcnt then some (s, info, .eoverflow)
  else if info.root.isNone ∧ !mem then some (s, info, .enomem)
  else
    match s.heap id with
    | none => none
    | some e =>
      let hv := cfg.hash e.key
      let root := info.root.getD (newNode 0)
      match find s.heap hv e.key root with
      | none => none
      | some (some _) => some (s, info, .elemEexists)
      | some none =>
        match place .set s.heap mem id hv root with
        | none => none
        | some none => some (s, info, .enomem)
        | some (some t) =>
          match markLinked s.heap id hv with
          | none => none
          | some h => some ({ s with heap := h }, { info with root := some t, ccnt := info.ccnt + 1 }, .ok)

/-- `do_map_elem_insert`, coll_map.c 679-707, with `do_map_elem_link`, 332-425.  `found` of the reply: replaced. -/
def mapInsert (cfg : Cfg) (s : St) (info : Info) (id : Nat) (repl mem full : Bool) : Option (St × Info × Rep) :=
  if info.root.isNone ∧ !mem then some (s, info, .enomem)
  else
    match s.heap id with
    | none => none
    | some e =>
      let hv := cfg.hash e.key
      let root := info.root.getD (newNode 0)
      match find s.heap hv e.key root with
      | none => none
      | some (some old) =>
        if repl then
          match s.heap old with
          | none => none
          | some eo =>
            if info.sticky ∧ eo.val.length < e.val.length ∧ full then some (s, info, .enomem)
            else
              match replace hv old id root with
              | none => none
              | some t =>
                match markLinked s.heap id hv with
                | none => none
                | some h =>
                  match markUnlinked h old with
                  | none => none
                  | some h => some ({ s with heap := h }, { info with root := some t }, .exist true)
        else some (s, info, .elemEexists)
      | some none =>
        if info.sticky ∧ full then some (s, info, .enomem)
        else if info.ovflact ≠ ovflError then none
        else if (info.ccnt : Int) ≥ (if info.mcnt > 0 then info.mcnt else (cfg.maxSize : Int)) then some (s, info, .eoverflow)
        else
          match place .map s.heap mem id hv root with
          | none => none
          | some none => some (s, info, .enomem)
          | some (some t) =>
            match markLinked s.heap id hv with
            | none => none
            | some h => some ({ s with heap := h }, { info with root := some t, ccnt := info.ccnt + 1 }, .ok)

/-- The insertion of a set resp. map: `do_set_elem_insert`, coll_set.c 688-731; `do_map_elem_insert`, coll_map.c 679-707. -/
def insertBy (k : Kind) (cfg : Cfg) (s : St) (info : Info) (id : Nat) (repl mem full : Bool) : Option (St × Info × Rep) :=
  match k with
  | .set => setInsert cfg s info id mem full
  | .map => mapInsert cfg s info id repl mem full

/-- `set_elem_insert`, coll_set.c 794-830; `map_elem_insert`, coll_map.c 770-808: the item is created on demand and
removed again when the insertion fails. -/
def collInsert (k : Kind) (cfg : Cfg) (s : St) (id : Nat) (repl : Bool) (a : Option Attr) (imem mem full : Bool) :
    Option (St × Rep) :=
  match s.coll with
  | none =>
    match a with
    | none => some (s, .enoent)
    | some a =>
      if !imem then some (s, .enomem)
      else
        match insertBy k cfg s (newInfo cfg a) id repl mem full with
        | none => none
        | some (s, info, .ok) => some ({ s with coll := some info }, .inserted true false)
        | some (s, info, .exist _) => some ({ s with coll := some info }, .inserted true true)
        | some (s, _, r) => some (s, r)
  | some info =>
    match insertBy k cfg s info id repl mem full with
    | none => none
    | some (s, info, .ok) => some ({ s with coll := some info }, .inserted false false)
    | some (s, info, .exist _) => some ({ s with coll := some info }, .inserted false true)
    | some (s, info, r) => some ({ s with coll := some info }, r)

/-- Removal of the elements with the given keys: `do_set_elem_delete_with_value` (one key), coll_set.c 474-492, the
loops of `do_map_elem_delete_with_field`, coll_map.c 541-546, and of `do_map_elem_get` with `delete`, 661-667. -/
def delKeys (k : Kind) (cfg : Cfg) (h : Heap) : List (List Nat) → T → List Nat → Option (T × List Nat)
  | [], t, out => some (t, out)
  | key :: ks, t, out =>
    match delKey k h (cfg.hash key) key t with
    | none => none
    | some none => delKeys k cfg h ks t out
    | some (some (id, t)) => delKeys k cfg h ks t (out ++ [id])

/-- The elements with the given keys: loop of `do_map_elem_get`, coll_map.c 661-667, without `delete`. -/
def findKeys (cfg : Cfg) (h : Heap) : List (List Nat) → T → List Nat → Option (List Nat)
  | [], _, out => some out
  | key :: ks, t, out =>
    match find h (cfg.hash key) key t with
    | none => none
    | some none => findKeys cfg h ks t out
    | some (some id) => findKeys cfg h ks t (out ++ [id])

/-- `set_elem_delete`, coll_set.c 832-862 (`keys` one value); `map_elem_delete`, coll_map.c 831-864 (no keys: all). -/
def collDelete (k : Kind) (cfg : Cfg) (s : St) (keys : List (List Nat)) (drop : Bool) : Option (St × Rep) :=
  match s.coll with
  | none => some (s, .enoent)
  | some info =>
    match info.root with
    | none => some (s, .elemEnoent)
    | some root =>
      match (if keys = [] then dfs k true root 0 else delKeys k cfg s.heap keys root []) with
      | none => none
      | some (t, ids) =>
        match unlinkAll s.heap ids with
        | none => none
        | some h =>
          let info := { info with root := dropRoot k t, ccnt := info.ccnt - ids.length }
          if ids = [] then some ({ s with heap := h, coll := some info }, .elemEnoent)
          else if info.ccnt = 0 ∧ drop then
            if k = .map ∧ info.root.isSome then none                      -- assert, coll_map.c 850
            else some ({ s with heap := h, coll := none }, .deleted ids.length true)
          else some ({ s with heap := h, coll := some info }, .deleted ids.length false)

/-- `set_elem_exist`, coll_set.c 864-888. -/
def setExist (cfg : Cfg) (s : St) (v : List Nat) : Option (St × Rep) :=
  match s.coll with
  | none => some (s, .enoent)
  | some info =>
    if !info.readable then some (s, .unreadable)
    else
      match info.root with
      | none => some (s, .exist false)
      | some root =>
        match find s.heap (cfg.hash v) v root with
        | none => none
        | some r => some (s, .exist r.isSome)

/-- Loop of the random removal, coll_set.c 628-634. -/
def randDel (rnd : Nat → Nat) : Nat → T → Nat → Nat → List Nat → Option (T × List Nat)
  | 0, t, _, _, out => some (t, out)
  | n + 1, t, ccnt, p, out =>
    if ccnt = 0 then none
    else
      match atOffset .set true t (rnd p % ccnt) with
      | none => none
      | some (id, t) => randDel rnd n t (ccnt - 1) (p + 1) (out ++ [id])

/-- `hash_insert`, coll_set.c 86-99; a bucket holds at most three keys. -/
def hashInsert (cap : Nat) (b : Nat → List Nat) (key : Nat) : Option (Nat → List Nat) :=
  let idx := key % cap
  if (b idx).length = 3 then none
  else if key ∈ b idx then none
  else some (upd b idx (b idx ++ [key]))

/-- Loop of the draw with a hash table of offsets, coll_set.c 639-647.  `rounds` bounds the draws: `none` in the result
means that the loop is still running after that many. -/
def randHash (rnd : Nat → Nat) (t : T) (ccnt count cap : Nat) :
    Nat → Nat → (Nat → List Nat) → List Nat → Option (Option (List Nat))
  | rounds, p, b, out =>
    if count ≤ out.length then some (some out)
    else match rounds with
      | 0 => some none
      | rounds + 1 =>
        if ccnt = 0 ∨ cap = 0 then none
        else
          match hashInsert cap b (rnd p % ccnt) with
          | none => randHash rnd t ccnt count cap rounds (p + 1) b out
          | some b =>
            match atOffset .set false t (rnd p % ccnt) with
            | none => none
            | some (id, _) => randHash rnd t ccnt count cap rounds (p + 1) b (out ++ [id])

/-- Loop of the shuffle, coll_set.c 652-659; `i` counts down to 1. -/
def shuffle (rnd : Nat → Nat) : Nat → Nat → Array Nat → Option (Array Nat)
  | 0, _, a => some a
  | i + 1, p, a =>
    let j := rnd p % (i + 2)
    if j ≠ i + 1 then
      if h : i + 1 < a.size ∧ j < a.size then shuffle rnd i (p + 1) (a.swap (i + 1) j h.1 h.2) else none
    else shuffle rnd i (p + 1) a

/-- What a traversal produced: the tree and the elements, or still drawing. -/
inductive Got where
  | done (t : T) (ids : List Nat)
  | running

/-- `do_set_elem_get`, coll_set.c 664-686, with `do_set_elem_traverse_rand`, 621-662.  `hmem`: memory for the hash
table of offsets, whose capacity is `(int)(1.3 * count)`. -/
def setGet (info : Info) (root : T) (count : Nat) (del hmem : Bool) (rnd : Nat → Nat) (rounds : Nat) : Option Got :=
  if count ≥ info.ccnt ∨ count = 0 then (dfs .set del root count).map fun r => .done r.1 r.2
  else if del then (randDel rnd count root info.ccnt 0 []).map fun r => .done r.1 r.2
  else if count ≤ info.ccnt / 10 then
    if !hmem then some (.done root [])
    else
      match randHash rnd root info.ccnt count (13 * count / 10) rounds 0 (fun _ => []) [] with
      | none => none
      | some none => some .running
      | some (some out) => some (.done root out)
  else
    match sample rnd root info.ccnt count 0 with
    | none => none
    | some (out, p) => (shuffle rnd (out.length - 1) p out.toArray).map fun a => .done root a.toList

/-- `do_map_elem_get`, coll_map.c 648-677. -/
def mapGet (cfg : Cfg) (h : Heap) (root : T) (fields : List (List Nat)) (del : Bool) : Option Got :=
  if fields = [] then (dfs .map del root 0).map fun r => .done r.1 r.2
  else if del then (delKeys .map cfg h fields root []).map fun r => .done r.1 r.2
  else (findKeys cfg h fields root []).map fun out => .done root out

/-- The end of `set_elem_get` and `map_elem_get`, after the traversal: the array of `cap` entries, reference counts,
the frees, the empty collection. -/
def finishGet (k : Kind) (s : St) (info : Info) (t : T) (ids : List Nat) (cap : Nat) (del drop : Bool) : Option (St × Rep) :=
  if cap < ids.length then none
  else
    match refAll s.heap ids with
    | none => none
    | some h =>
      match (if del then unlinkAll h ids else some h) with
      | none => none
      | some h =>
        let info := if del then { info with root := dropRoot k t, ccnt := info.ccnt - ids.length } else info
        if ids = [] then some ({ s with heap := h, coll := some info }, match k with | .set => .enomem | .map => .elemEnoent)
        else if info.ccnt = 0 ∧ drop then
          if del then some ({ s with heap := h, coll := none }, .elems info.flags ids true) else none
        else some ({ s with heap := h, coll := some info }, .elems info.flags ids false)

/-- `set_elem_get`, coll_set.c 890-948: the array has `count` entries, or one per element if there are fewer
(or `count` is 0). -/
def setElemGet (s : St) (count : Nat) (del drop mem hmem : Bool) (rnd : Nat → Nat) (rounds : Nat) : Option (St × Rep) :=
  match s.coll with
  | none => some (s, .enoent)
  | some info =>
    if !info.readable then some (s, .unreadable)
    else if info.ccnt = 0 then some (s, .elemEnoent)
    else if !mem then some (s, .enomem)
    else
      match info.root with
      | none => none
      | some root =>
        match setGet info root count del hmem rnd rounds with
        | none => none
        | some .running => some (s, .running)
        | some (.done t ids) =>
          finishGet .set s info t ids (if count = 0 ∨ info.ccnt < count then info.ccnt else count) del drop

/-- `map_elem_get`, coll_map.c 866-923: the array has one entry per field, or per element if there are fewer. -/
def mapElemGet (cfg : Cfg) (s : St) (fields : List (List Nat)) (del drop mem : Bool) : Option (St × Rep) :=
  match s.coll with
  | none => some (s, .enoent)
  | some info =>
    if !info.readable then some (s, .unreadable)
    else if info.ccnt = 0 then some (s, .elemEnoent)
    else if !mem then some (s, .enomem)
    else
      match info.root with
      | none => none
      | some root =>
        match mapGet cfg s.heap root fields del with
        | none => none
        | some .running => none
        | some (.done t ids) =>
          finishGet .map s info t ids
            (if fields.length = 0 ∨ info.ccnt < fields.length then info.ccnt else fields.length) del drop

/-- `map_elem_update`, coll_map.c 810-829, with `do_map_elem_update`, 584-632: in place if nobody reads the element and
the size is the same, else by a new element.  `emem`: memory for it. -/
def mapUpdate (cfg : Cfg) (s : St) (field value : List Nat) (emem full : Bool) : Option (St × Rep) :=
  match s.coll with
  | none => some (s, .enoent)
  | some info =>
    match info.root with
    | none => some (s, .elemEnoent)
    | some root =>
      match find s.heap (cfg.hash field) field root with
      | none => none
      | some none => some (s, .elemEnoent)
      | some (some id) =>
        match s.heap id with
        | none => none
        | some e =>
          if e.refcount = 0 ∧ e.val.length = value.length then
            some ({ s with heap := upd s.heap id (some { e with val := value }) }, .ok)
          else if info.sticky ∧ e.val.length < value.length ∧ full then some (s, .enomem)
          else if !emem then some (s, .enomem)
          else
            let (s1, new) := elemAlloc s e.key value
            match replace (cfg.hash field) id new root with
            | none => none
            | some t =>
              match markLinked s1.heap new e.hval with
              | none => none
              | some h =>
                match markUnlinked h id with
                | none => none
                | some h => some ({ s1 with heap := h, coll := some { info with root := some t } }, .ok)

/-- `set_coll_setattr`, coll_set.c 1051-1085; `map_coll_setattr`, coll_map.c 1026-1060. -/
def setattr (cfg : Cfg) (s : St) (maxcount : Option Int) (ovfl : Option Nat) (readable : Option Bool) : Option (St × Rep) :=
  match s.coll with
  | none => some (s, .enoent)
  | some info =>
    let m := maxcount.map (realMaxcount cfg.maxSize)
    if (∃ x, m = some x ∧ x > 0 ∧ x < (info.ccnt : Int)) then some (s, .ebadvalue)
    else if (∃ x, ovfl = some x ∧ x ≠ ovflError) then some (s, .ebadvalue)
    else if readable = some false then some (s, .ebadvalue)
    else
      let info := match m with | some x => { info with mcnt := x } | none => info
      let info := match ovfl with | some x => { info with ovflact := x } | none => info
      let info := match readable with | some _ => { info with readable := true } | none => info
      some ({ s with coll := some info }, .ok)

/-- `set_coll_getattr`, coll_set.c 1031-1049; `map_coll_getattr`, coll_map.c 1006-1024. -/
def getattr (cfg : Cfg) (s : St) : Option (St × Rep) :=
  match s.coll with
  | none => some (s, .enoent)
  | some info => some (s, .attrs info.ccnt (if info.mcnt > 0 then info.mcnt else cfg.maxSize) info.ovflact info.readable)

/-- Removal of the item; the background thread frees the elements with `set_elem_delete_with_count`, coll_set.c 950-953
and `do_set_elem_delete`, 607-619; coll_map.c 925-928, 634-646 (called with count 0 = all instead of in portions). -/
def remove (k : Kind) (s : St) : Option (St × Rep) :=
  match s.coll with
  | none => some (s, .enoent)
  | some info =>
    match info.root with
    | none => some ({ s with coll := none }, .ok)
    | some root =>
      match dfs k true root 0 with
      | none => none
      | some (_, ids) =>
        match unlinkAll s.heap ids with
        | none => none
        | some h => some ({ s with heap := h, coll := none }, .ok)

/-- Calls of the set and map interfaces. -/
inductive Op where
  | create (a : Attr) (mem : Bool)
  | alloc (key val : List Nat)
  | free (i : Nat)
  | insert (i : Nat) (repl : Bool) (a : Option Attr) (imem mem full : Bool)
  | update (field value : List Nat) (emem full : Bool)
  | delete (keys : List (List Nat)) (drop : Bool)
  | exist (v : List Nat)
  | getRandom (count : Nat) (del drop mem hmem : Bool) (rnd : Nat → Nat) (rounds : Nat)
  | getFields (fields : List (List Nat)) (del drop mem : Bool)
  | release (i : Nat)
  | setattr (maxcount : Option Int) (ovflaction : Option Nat) (readable : Option Bool)
  | getattr
  | remove

/-- `set_struct_create`, coll_set.c 736-761; `map_struct_create`, coll_map.c 712-737. -/
def create (cfg : Cfg) (s : St) (a : Attr) (mem : Bool) : Option (St × Rep) :=
  match s.coll with
  | some _ => some (s, .eexists)
  | none => if mem then some ({ s with coll := some (newInfo cfg a) }, .ok) else some (s, .enomem)

/-- `set_elem_free`, coll_set.c 772-778; `map_elem_free`, coll_map.c 748-754. -/
def free (s : St) (i : Nat) : Option (St × Rep) :=
  match s.heap i with
  | none => none
  | some e => if e.linked then none else (elemFree s.heap i).map fun h => ({ s with heap := h }, .ok)

/-- One call (coll_set.h, coll_map.h). -/
def step (k : Kind) (cfg : Cfg) (s : St) : Op → Option (St × Rep)
  | .create a mem => create cfg s a mem
  | .alloc key val => some ((elemAlloc s key val).1, .allocated (elemAlloc s key val).2)
  | .free i => free s i
  | .insert i repl a imem mem full => collInsert k cfg s i repl a imem mem full
  | .update f v emem full => mapUpdate cfg s f v emem full
  | .delete keys drop => collDelete k cfg s keys drop
  | .exist v => setExist cfg s v
  | .getRandom c del drop mem hmem rnd rounds => setElemGet s c del drop mem hmem rnd rounds
  | .getFields fs del drop mem => mapElemGet cfg s fs del drop mem
  | .release i => (elemRelease s.heap i).map fun h => ({ s with heap := h }, .ok)
  | .setattr m o r => setattr cfg s m o r
  | .getattr => getattr cfg s
  | .remove => remove k s

end Verif.HT
