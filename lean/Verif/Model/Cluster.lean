import Verif.Model.BTree
/-!
# The cluster configuration: which server owns a key

Model of cluster_config.c.  Node items have addresses, because the arrays of the old and the new configuration share them; address 0 is
`self_node`.  The MD5 hash is a parameter.  Logging, the slice index and the states of nodes and slices (which never change) are left
out, as is the room for the two arrays, which `do_hashring_space_prepare` makes (335-346).  Looking up keys takes `ketama_lock`, a
reconfiguration takes `config_lock`, and `ketama_lock` only for the final exchange: look-ups happen between any two writes of
`do_continuum_build`.  `none` is a failed assertion, an access out of an array, or a call that waits for `config_lock`.
-/
namespace Verif.Cluster
open Verif.BT (bsearch Hit)

/-- The number of hash points per node (160, cluster_config.c 33-35), the sorted hash points of a node (`gen_node_continuum`,
133-165) and the hash value of a key (`hash_ketama`, 96-105). -/
structure Cfg where
  n : Nat
  points : List Nat → List Nat
  khash : List Nat → Nat

/-- `struct cont_item`, cluster_config.c 46-51. -/
structure Slice where
  hpoint : Nat
  nindex : Nat

/-- `struct node_item`, cluster_config.c 54-62. -/
structure Node where
  name : List Nat
  refcnt : Nat
  slices : List Slice

/-- Memory of node items; `none`: not initialised. -/
abbrev Heap := Nat → Option Node

/-- A reconfiguration between `do_nodearray_build_for_replace` and `do_hashring_replace`: the new array, the new `self_id`, and the
writes of `do_continuum_build` still to be done, each with node, slice and node index; cluster_config.c 644-662. -/
structure Job where
  arr : List Nat
  selfId : Option Nat
  todo : List (Nat × Nat × Nat)

/-- `struct cluster_config`, cluster_config.c 64-84; `cont` lists node and slice of the continuum's pointers and is `none` until the
first configuration; `selfId` is `none` for -1; `fresh` is the next address of `malloc`. -/
structure St where
  heap : Heap
  fresh : Nat
  free : List Nat
  selfId : Option Nat
  nodes : List Nat
  cont : Option (List (Nat × Nat))
  valid : Bool
  job : Option Job

/-- `strcmp` on strings without their final zero. -/
def strcmp : List Nat → List Nat → Ordering
  | [], [] => .eq
  | [], _ :: _ => .lt
  | _ :: _, [] => .gt
  | a :: as, b :: bs => if a < b then .lt else if b < a then .gt else strcmp as bs

/-- One string of `do_node_string_check`, cluster_config.c 170-181: `strtok_r` skips dashes and ends the string at the next one; the
string keeps its beginning. -/
def cut (str : List Nat) : Option (List Nat) :=
  if str.dropWhile (· == 45) = [] then none
  else some (str.takeWhile (· == 45) ++ (str.dropWhile (· == 45)).takeWhile (· != 45))

/-- `do_node_string_check`, cluster_config.c 170-181. -/
def cutAll : List (List Nat) → Option (List (List Nat))
  | [] => some []
  | str :: rest =>
    match cut str, cutAll rest with
    | some x, some xs => some (x :: xs)
    | _, _ => none

/-- Write to a node item. -/
def put (h : Heap) (id : Nat) (node : Node) : Heap := fun k => if k = id then some node else h k

/-- `do_node_item_init`, cluster_config.c 243-252: the name is cut to 127 bytes. -/
def mkNode (cfg : Cfg) (name : List Nat) : Node :=
  ⟨name.take 127, 0, (cfg.points (name.take 127)).map fun p => ⟨p, 0⟩⟩

/-- `do_node_free_list_prepare`, cluster_config.c 203-221; `mem` is the number of node items for which `malloc` succeeds. -/
def grow (s : St) (count mem : Nat) : St × Bool :=
  let need := count - (s.free.length + s.nodes.length)
  let got := min need mem
  ({ s with free := (List.range' s.fresh got).reverse ++ s.free, fresh := s.fresh + got }, decide (need ≤ mem))

/-- `do_nodearray_find`, cluster_config.c 353-368. -/
def find (h : Heap) (arr : List Nat) (name : List Nat) : Option (Option Nat) :=
  match bsearch (fun j => match arr[j]? with
      | none => none
      | some id => match h id with
        | none => none
        | some node => some (strcmp name node.name)) (arr.length + 1) 0 arr.length with
  | none => none
  | some (.found j) => some (some j)
  | some (.missing _) => some none

/-- `item->refcnt += 1`, cluster_config.c 426; the counter has 16 bits. -/
def hold (h : Heap) (id : Nat) : Option Heap :=
  match h id with
  | none => none
  | some node => if node.refcnt + 1 < 65536 then some (put h id { node with refcnt := node.refcnt + 1 }) else none

/-- The node item for a name, cluster_config.c 405-425: that of the present array, `self_node`, or one from the free list, whose lack fails
an assertion; and whether it was found in the present array. -/
def pick (cfg : Cfg) (s : St) (name : List Nat) : Option (St × Nat × Bool) :=
  match (if s.nodes.length = 0 then some none else find s.heap s.nodes name) with
  | none => none
  | some (some i) => (s.nodes[i]?).map fun id => (s, id, true)
  | some none =>
    match s.heap 0 with
    | none => none
    | some me =>
      if strcmp name me.name = .eq then some (s, 0, false)
      else
        match s.free with
        | [] => none
        | id :: rest => some ({ s with heap := put s.heap id (mkNode cfg name), free := rest }, id, false)

/-- The loop of `do_nodearray_build_for_replace`, cluster_config.c 404-428: the new array and `nfound`. -/
def gather (cfg : Cfg) : St → List (List Nat) → Option (St × List Nat × Nat)
  | s, [] => some (s, [], 0)
  | s, name :: rest =>
    match pick cfg s name with
    | none => none
    | some (s1, id, old) =>
      match hold s1.heap id with
      | none => none
      | some h =>
        match gather cfg { s1 with heap := h } rest with
        | none => none
        | some (s2, arr, nfound) => some (s2, id :: arr, nfound + if old then 1 else 0)

/-- `do_nodearray_release`, cluster_config.c 370-379. -/
def release : St → List Nat → Option St
  | s, [] => some s
  | s, id :: rest =>
    match s.heap id with
    | none => none
    | some node =>
      if node.refcnt = 0 then none
      else
        release { s with
          heap := put s.heap id { node with refcnt := node.refcnt - 1 }
          free := if node.refcnt = 1 then id :: s.free else s.free } rest

/-- Insertion into a sorted list. -/
def insertBy {α : Type} (le : α → α → Bool) (x : α) : List α → List α
  | [] => [x]
  | y :: ys => if le x y then x :: y :: ys else y :: insertBy le x ys

/-- `qsort`; the order of equal elements, which C leaves open, does not matter here: names are different (`Legal`), and equal hash
points of one node have the same node index. -/
def sortBy {α : Type} (le : α → α → Bool) : List α → List α
  | [] => []
  | x :: xs => insertBy le x (sortBy le xs)

/-- `compare_node_item_ptr`, cluster_config.c 107-112, as `≤`. -/
def nodeLe (h : Heap) (x y : Nat) : Bool :=
  match h x, h y with
  | some a, some b => strcmp a.name b.name != .gt
  | _, _ => false

/-- What a pointer of the continuum points to. -/
def slice (h : Heap) (x : Nat × Nat) : Option Slice :=
  match h x.1 with
  | none => none
  | some node => node.slices[x.2]?

/-- `compare_cont_item_ptr`, cluster_config.c 114-123, as `≤`. -/
def contLe (h : Heap) (x y : Nat × Nat) : Bool :=
  match slice h x, slice h y with
  | some a, some b => decide (a.hpoint < b.hpoint ∨ (a.hpoint = b.hpoint ∧ a.nindex ≤ b.nindex))
  | _, _ => false

/-- The writes of `do_continuum_build`, cluster_config.c 467-472. -/
def writes (cfg : Cfg) (arr : List Nat) : List (Nat × Nat × Nat) :=
  arr.zipIdx.flatMap fun p => (List.range cfg.n).map fun j => (p.1, j, p.2)

/-- One write of `do_continuum_build`, cluster_config.c 469; the index has 16 bits. -/
def write1 (h : Heap) (w : Nat × Nat × Nat) : Option Heap :=
  match h w.1 with
  | none => none
  | some node =>
    match node.slices[w.2.1]? with
    | none => none
    | some sl => some (put h w.1 { node with slices := node.slices.set w.2.1 { sl with nindex := w.2.2 % 65536 } })

/-- Several writes. -/
def writeAll : Heap → List (Nat × Nat × Nat) → Option Heap
  | h, [] => some h
  | h, w :: rest =>
    match write1 h w with
    | none => none
    | some h' => writeAll h' rest

/-- `do_hashring_replace`, cluster_config.c 493-534. -/
def replace (s : St) (arr : List Nat) (selfId : Option Nat) (cont : List (Nat × Nat)) : Option St :=
  release { s with nodes := arr, selfId := selfId, cont := some cont, valid := true, job := none } s.nodes

/-- Answers. -/
inductive Out where
  | failed
  | same
  | begun (added removed : Nat)
  | ok
  | unknown
  | owner (mine : Bool) (keyId : Nat) (selfId : Option Nat)
deriving DecidableEq

/-- `cluster_config_reconfigure`, cluster_config.c 617-662, up to the loops of `do_continuum_build`; the numbers of nodes added and
removed are returned at once.  `mem`: see `grow`; `ring`: the array can be enlarged. -/
def start (cfg : Cfg) (s : St) (strs : List (List Nat)) (mem : Nat) (ring : Bool) : Option (St × Out) :=
  match s.job with
  | some _ => none
  | none =>
    if strs.length = 0 then (replace s [] none []).map fun s' => (s', .begun 0 s.nodes.length)
    else
      match cutAll strs with
      | none => some (s, .failed)
      | some names =>
        match grow s names.length mem with
        | (s1, ok) =>
          if ok = false ∨ ring = false then some ({ s1 with valid := false }, .failed)
          else
            match gather cfg s1 names with
            | none => none
            | some (s2, arr, nfound) =>
              if names.length = s.nodes.length ∧ names.length = nfound then (release s2 arr).map fun s3 => (s3, .same)
              else
                let sorted := sortBy (nodeLe s2.heap) arr
                match s2.heap 0 with
                | none => none
                | some me =>
                  match find s2.heap sorted me.name with
                  | none => none
                  | some selfId =>
                    some ({ s2 with job := some ⟨sorted, selfId, writes cfg sorted⟩ },
                      .begun (names.length - nfound) (s.nodes.length - nfound))

/-- One more write of the reconfiguration in progress (nothing, if all are done). -/
def stepWrite (s : St) : Option (St × Out) :=
  match s.job with
  | none => none
  | some job =>
    match job.todo with
    | [] => some (s, .ok)
    | w :: rest => (write1 s.heap w).map fun h => ({ s with heap := h, job := some { job with todo := rest } }, .ok)

/-- The rest of the reconfiguration: the remaining writes, the sorting of the continuum (cluster_config.c 467-474), the exchange. -/
def install (cfg : Cfg) (s : St) : Option (St × Out) :=
  match s.job with
  | none => none
  | some job =>
    match writeAll s.heap job.todo with
    | none => none
    | some h =>
      (replace { s with heap := h } job.arr job.selfId
        (sortBy (contLe h) (job.arr.flatMap fun id => (List.range cfg.n).map fun j => (id, j)))).map fun s' => (s', .ok)

/-- The way back to the first of equal hash points, cluster_config.c 549-554. -/
def back (h : Heap) (cont : List (Nat × Nat)) (hv : Nat) : Nat → Option Nat
  | 0 => some 0
  | mid + 1 =>
    match cont[mid]?.bind (slice h) with
    | none => none
    | some sl => if sl.hpoint = hv then back h cont hv mid else some (mid + 1)

/-- `do_continuum_find`, cluster_config.c 536-560. -/
def contFind (h : Heap) (cont : List (Nat × Nat)) (hv : Nat) : Option Slice :=
  match bsearch (fun j => match cont[j]?.bind (slice h) with
      | none => none
      | some sl => some (compare hv sl.hpoint)) (cont.length + 1) 0 cont.length with
  | none => none
  | some (.found mid) =>
    match back h cont hv mid with
    | none => none
    | some i => cont[i]?.bind (slice h)
  | some (.missing left) => cont[if left < cont.length then left else 0]?.bind (slice h)

/-- `cluster_config_key_is_mine`, cluster_config.c 678-698. -/
def lookup (cfg : Cfg) (s : St) (key : List Nat) : Option (St × Out) :=
  match s.cont with
  | none => none
  | some cont =>
    if s.valid = true then
      (contFind s.heap cont (cfg.khash key)).map fun sl => (s, .owner (decide (s.selfId = some sl.nindex)) sl.nindex s.selfId)
    else some (s, .unknown)

/-- Events. -/
inductive Ev where
  | start (strs : List (List Nat)) (mem : Nat) (ring : Bool)
  | write
  | install
  | lookup (key : List Nat)

/-- One event. -/
def step (cfg : Cfg) (s : St) : Ev → Option (St × Out)
  | .start strs mem ring => start cfg s strs mem ring
  | .write => stepWrite s
  | .install => install cfg s
  | .lookup key => lookup cfg s key

/-- `cluster_config_init`, cluster_config.c 565-595: the node of the server itself and ten free node items. -/
def init (cfg : Cfg) (self : List Nat) : St :=
  { heap := put (fun _ => none) 0 { mkNode cfg self with refcnt := 1 }
    fresh := 11
    free := (List.range' 1 10).reverse
    selfId := none
    nodes := []
    cont := none
    valid := false
    job := none }

end Verif.Cluster
