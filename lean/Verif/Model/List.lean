/-!
# Model of engines/default/coll_list.c

Doubly linked list with head and tail pointers in a heap of elements.  One list item (one key) is
observed: `St.list = none` means that the key holds no item.  Validity (expiry, flush), the reference
count of the item and its place in the hash table belong to the item model (Model/Item.lean); the slab
accounting `stotal` and the command log calls are left out.  A failed assertion, a dereference of NULL,
of the "unlinked" marker or of freed memory, and a write outside an array are the outcome `none`.
-/
namespace Verif.Lst

/-- Element pointer; `unlinked` is `ADDR_MEANS_UNLINKED` (item_base.h 145). -/
inductive Ptr where
  | null
  | unlinked
  | node (i : Nat)
deriving DecidableEq, Repr

/-- `list_elem_item`, item_base.h 167-175. -/
structure Elem where
  refcount : Nat
  next : Ptr
  prev : Ptr
  value : List Nat
deriving DecidableEq, Repr

/-- `list_meta_info`, item_base.h 219-228; of `mflags` only the readable flag, plus whether the item
is sticky (item expiry time) and the item flags returned by a get. -/
structure Info where
  mcnt : Int
  ccnt : Int
  ovflact : Nat
  readable : Bool
  sticky : Bool
  flags : Nat
  head : Ptr
  tail : Ptr
deriving DecidableEq, Repr

/-- Element memory and the list stored under the observed key. -/
structure St where
  heap : Nat → Option Elem
  nextId : Nat
  list : Option Info

/-- No list, no elements (coll_list.c has no state of its own). -/
def init : St := ⟨fun _ => none, 0, none⟩

/-- Function update. -/
def upd {α : Type} (f : Nat → α) (i : Nat) (v : α) : Nat → α := fun j => if j = i then v else f j

/-- `OVFL_ERROR`, `OVFL_HEAD_TRIM`, `OVFL_TAIL_TRIM`; include/memcached/types.h `ENGINE_OVFL_ACTION`. -/
abbrev ovflError : Nat := 1
abbrev ovflHeadTrim : Nat := 2
abbrev ovflTailTrim : Nat := 3

/-- `do_list_real_maxcount`, coll_list.c 77-90; `DEFAULT_LIST_SIZE` is 4000 (item_base.h 34). -/
def realMaxcount (maxSize : Nat) (maxcount : Int) : Int :=
  if maxcount < 0 then -1
  else if maxcount = 0 then 4000
  else if maxcount > maxSize then maxSize
  else maxcount

/-- Creation attributes, include/memcached/types.h `item_attr`. -/
structure Attr where
  maxcount : Int
  ovflaction : Nat
  readable : Bool
  sticky : Bool
  flags : Nat
deriving DecidableEq, Repr

/-- The meta information written by `do_list_item_alloc`, coll_list.c 92-122. -/
def newInfo (maxSize : Nat) (a : Attr) : Info :=
  { mcnt := realMaxcount maxSize a.maxcount, ccnt := 0,
    ovflact := if a.ovflaction = 0 then ovflTailTrim else a.ovflaction,
    readable := a.readable, sticky := a.sticky, flags := a.flags, head := .null, tail := .null }

/-- Dereference of an element pointer. -/
def deref (h : Nat → Option Elem) : Ptr → Option Elem
  | .node i => h i
  | _ => none

/-- `do_list_elem_alloc`, coll_list.c 124-138, when memory is available; the caller writes the value. -/
def elemAlloc (s : St) (value : List Nat) : St × Nat :=
  ({ s with heap := upd s.heap s.nextId (some ⟨0, .unlinked, .unlinked, value⟩), nextId := s.nextId + 1 }, s.nextId)

/-- `do_list_elem_free`, coll_list.c 140-146. -/
def elemFree (s : St) (i : Nat) : Option St :=
  match s.heap i with
  | none => none
  | some e => if e.refcount ≠ 0 then none else some { s with heap := upd s.heap i none }

/-- `do_list_elem_release`, coll_list.c 148-156. -/
def elemRelease (s : St) (i : Nat) : Option St :=
  match s.heap i with
  | none => none
  | some e =>
    let rc := if e.refcount ≠ 0 then e.refcount - 1 else e.refcount
    let s := { s with heap := upd s.heap i (some { e with refcount := rc }) }
    if rc = 0 ∧ e.next = .unlinked then elemFree s i else some s

/-- Loop of `do_list_elem_find`, coll_list.c 165-167: follow `next` at most `n` times. -/
def walkNext (h : Nat → Option Elem) : Nat → Ptr → Option Ptr
  | 0, p => some p
  | n + 1, p =>
    if p = .null then some p
    else match deref h p with
      | none => none
      | some e => walkNext h n e.next

/-- Loop of `do_list_elem_find`, coll_list.c 171-173: follow `prev` at most `n` times. -/
def walkPrev (h : Nat → Option Elem) : Nat → Ptr → Option Ptr
  | 0, p => some p
  | n + 1, p =>
    if p = .null then some p
    else match deref h p with
      | none => none
      | some e => walkPrev h n e.prev

/-- `do_list_elem_find`, coll_list.c 158-176. -/
def elemFind (h : Nat → Option Elem) (info : Info) (index : Int) : Option Ptr :=
  if index ≤ info.ccnt.tdiv 2 then
    if index < 0 then none else walkNext h index.toNat info.head
  else
    if index ≥ info.ccnt then none else walkPrev h (info.ccnt - 1 - index).toNat info.tail

/-- Store through a pointer: `p->next = v` resp. `p->prev = v`. -/
def setNext (h : Nat → Option Elem) (p v : Ptr) : Option (Nat → Option Elem) :=
  match p with
  | .node i => match h i with
    | none => none
    | some e => some (upd h i (some { e with next := v }))
  | _ => none

/-- See `setNext` (coll_list.c 198-201, 216-219). -/
def setPrev (h : Nat → Option Elem) (p v : Ptr) : Option (Nat → Option Elem) :=
  match p with
  | .node i => match h i with
    | none => none
    | some e => some (upd h i (some { e with prev := v }))
  | _ => none

/-- First part of `do_list_elem_link`, coll_list.c 183-193: the neighbours of the new element. -/
def linkPlace (h : Nat → Option Elem) (info : Info) (index : Int) : Option (Ptr × Ptr) :=
  if index = 0 then some (.null, info.head)
  else if index ≥ info.ccnt then some (info.tail, .null)
  else match elemFind h info (index - 1) with
    | none => none
    | some prev => match deref h prev with
      | none => none
      | some e => some (prev, e.next)

/-- `do_list_elem_link`, coll_list.c 178-208; `i` is the element. -/
def elemLink (s : St) (info : Info) (index : Int) (i : Nat) : Option (St × Info) :=
  if index < 0 then none
  else
    match linkPlace s.heap info index with
    | none => none
    | some (prev, next) =>
      match s.heap i with
      | none => none
      | some e =>
        let h := upd s.heap i (some { e with prev := prev, next := next })
        let hi : Option ((Nat → Option Elem) × Info) :=
          if prev = .null then some (h, { info with head := .node i })
          else (setNext h prev (.node i)).map fun h => (h, info)
        match hi with
        | none => none
        | some (h, info) =>
          let hi : Option ((Nat → Option Elem) × Info) :=
            if next = .null then some (h, { info with tail := .node i })
            else (setPrev h next (.node i)).map fun h => (h, info)
          match hi with
          | none => none
          | some (h, info) => some ({ s with heap := h }, { info with ccnt := info.ccnt + 1 })

/-- `do_list_elem_unlink`, coll_list.c 210-231. -/
def elemUnlink (s : St) (info : Info) (i : Nat) : Option (St × Info) :=
  match s.heap i with
  | none => none
  | some e =>
    let hi : Option ((Nat → Option Elem) × Info) :=
      if e.prev = .null then some (s.heap, { info with head := e.next })
      else (setNext s.heap e.prev e.next).map fun h => (h, info)
    match hi with
    | none => none
    | some (h, info) =>
      let hi : Option ((Nat → Option Elem) × Info) :=
        if e.next = .null then some (h, { info with tail := e.prev })
        else (setPrev h e.next e.prev).map fun h => (h, info)
      match hi with
      | none => none
      | some (h, info) =>
        match h i with
        | none => none
        | some e =>
          let s := { s with heap := upd h i (some { e with prev := .unlinked, next := .unlinked }) }
          let info := { info with ccnt := info.ccnt - 1 }
          if e.refcount = 0 then (elemFree s i).map fun s => (s, info) else some (s, info)

/-- Loop of `do_list_elem_delete`, coll_list.c 244-250.  `fuel` bounds the number of rounds (each one
unlinks an element); running out of it counts as a fault. -/
def deleteLoop (count : Nat) : Nat → St → Info → Ptr → Nat → Option (St × Info × Nat)
  | _, s, info, .null, fcnt => some (s, info, fcnt)
  | 0, _, _, _, _ => none
  | fuel + 1, s, info, p, fcnt =>
    match p with
    | .node i =>
      match s.heap i with
      | none => none
      | some e =>
        match elemUnlink s info i with
        | none => none
        | some (s, info) =>
          if 0 < count ∧ count ≤ fcnt + 1 then some (s, info, fcnt + 1)
          else deleteLoop count fuel s info e.next (fcnt + 1)
    | _ => none

/-- `do_list_elem_delete`, coll_list.c 233-252. -/
def elemDelete (s : St) (info : Info) (index : Int) (count : Nat) : Option (St × Info × Nat) :=
  match elemFind s.heap info index with
  | none => none
  | some p => deleteLoop count (info.ccnt.toNat + 1) s info p 0

/-- Loop of `do_list_elem_get`, coll_list.c 269-276; `arr` is the part of `elem_array` filled so far
(in reverse), `cap` its capacity; the 16-bit reference counter wraps. -/
def getLoop (count cap : Nat) (forward del : Bool) :
    Nat → St → Info → Ptr → List Nat → Option (St × Info × List Nat)
  | _, s, info, .null, arr => some (s, info, arr.reverse)
  | 0, _, _, _, _ => none
  | fuel + 1, s, info, p, arr =>
    match p with
    | .node i =>
      match s.heap i with
      | none => none
      | some e =>
        let tobe := if forward then e.next else e.prev
        let s := { s with heap := upd s.heap i (some { e with refcount := (e.refcount + 1) % 2 ^ 16 }) }
        if cap ≤ arr.length then none
        else
          match (if del then elemUnlink s info i else some (s, info)) with
          | none => none
          | some (s, info) =>
            if 0 < count ∧ count ≤ arr.length + 1 then some (s, info, (i :: arr).reverse)
            else getLoop count cap forward del fuel s info tobe (i :: arr)
    | _ => none

/-- `do_list_elem_get`, coll_list.c 254-279, with an array of `count` slots (coll_list.c 562). -/
def elemGet (s : St) (info : Info) (index : Int) (count : Nat) (forward del : Bool) :
    Option (St × Info × List Nat) :=
  match elemFind s.heap info index with
  | none => none
  | some p => getLoop count count forward del (info.ccnt.toNat + 1) s info p []

/-- Replies of the list calls. -/
inductive Rep where
  | ok
  | allocated (i : Nat)
  | inserted (created : Bool)
  | deleted (count : Nat) (dropped : Bool)
  | elems (flags : Nat) (ids : List Nat) (dropped : Bool)
  | attrs (count maxcount : Int) (ovflaction : Nat) (readable : Bool)
  | eexists
  | enoent
  | elemEnoent
  | eindexoor
  | eoverflow
  | enomem
  | unreadable
  | ebadvalue
deriving DecidableEq, Repr

/-- The overflow part of `do_list_elem_insert`, coll_list.c 316-336: make room and adjust the index. -/
def insertTrim (s : St) (info : Info) (index : Int) : Option (St × Info × Int) :=
  if index = 0 ∨ index = -1 then
    match elemDelete s info (if index = -1 then 0 else info.ccnt - 1) 1 with
    | none => none
    | some (s, info, n) => if n ≠ 1 then none else some (s, info, index)
  else
    match elemDelete s info (if info.ovflact = ovflHeadTrim then 0 else info.ccnt - 1) 1 with
    | none => none
    | some (s, info, n) =>
      if n ≠ 1 then none
      else
        some (s, info,
          if info.ovflact = ovflHeadTrim then (if index > 0 then index - 1 else index)
          else (if index < 0 then index + 1 else index))

/-- `do_list_elem_insert`, coll_list.c 281-349.  `stickyFull` is the answer of
`do_item_sticky_overflowed`.  The index is a 32-bit int: negating the smallest one is undefined. -/
def elemInsert (maxSize : Nat) (s : St) (info : Info) (index : Int) (i : Nat) (stickyFull : Bool) :
    Option (St × Info × Rep) :=
  let realMcnt : Int := if info.mcnt > 0 then info.mcnt else maxSize
  if index = -(2 ^ 31) then none
  else if (index ≥ 0 ∧ (index > info.ccnt ∨ index > realMcnt - 1)) ∨
      (index < 0 ∧ (-index > info.ccnt + 1 ∨ -index > realMcnt)) then some (s, info, .eindexoor)
  else if info.sticky ∧ stickyFull then some (s, info, .enomem)
  else if info.ovflact = ovflError ∧ info.ccnt ≥ realMcnt then some (s, info, .eoverflow)
  else
    match (if info.ccnt ≥ realMcnt then insertTrim s info index else some (s, info, index)) with
    | none => none
    | some (s, info, index) =>
      let index := if index < 0 then (if index + (info.ccnt + 1) < 0 then 0 else index + (info.ccnt + 1)) else index
      match elemLink s info index i with
      | none => none
      | some (s, info) => some (s, info, .ok)

/-- `adjust_list_range`, coll_list.c 451-475. -/
def adjustRange (ccnt from_ to_ : Int) : Option (Int × Int) :=
  if ccnt ≤ 0 then none
  else
    let f := if from_ < 0 then from_ + ccnt else from_
    let t := if to_ < 0 then to_ + ccnt else to_
    let f' : Option Int :=
      if f < 0 then (if t < 0 then none else some 0)
      else if f ≥ ccnt then (if t ≥ ccnt then none else some (ccnt - 1))
      else some f
    match f' with
    | none => none
    | some f => some (f, if t < 0 then 0 else if t ≥ ccnt then ccnt - 1 else t)

/-- Calls of the list interface by the protocol layer. -/
inductive Op where
  | create (a : Attr) (mem : Bool)
  | alloc (value : List Nat)
  | free (i : Nat)
  | insert (index : Int) (i : Nat) (a : Option Attr) (mem stickyFull : Bool)
  | delete (from_ to_ : Int) (drop : Bool)
  | get (from_ to_ : Int) (del drop mem : Bool)
  | release (i : Nat)
  | setattr (maxcount : Option Int) (ovflaction : Option Nat) (readable : Option Bool)
  | getattr
  | remove
deriving DecidableEq, Repr

/-- `list_struct_create`, coll_list.c 354-379. -/
def listCreate (maxSize : Nat) (s : St) (a : Attr) (mem : Bool) : Option (St × Rep) :=
  match s.list with
  | some _ => some (s, .eexists)
  | none => if mem then some ({ s with list := some (newInfo maxSize a) }, .ok) else some (s, .enomem)

/-- `list_elem_free`, coll_list.c 391-397. -/
def listElemFree (s : St) (i : Nat) : Option (St × Rep) :=
  match s.heap i with
  | none => none
  | some e => if e.next ≠ .unlinked then none else (elemFree s i).map fun s => (s, .ok)

/-- `list_elem_insert`, coll_list.c 412-449. -/
def listElemInsert (maxSize : Nat) (s : St) (index : Int) (i : Nat) (a : Option Attr) (mem stickyFull : Bool) :
    Option (St × Rep) :=
  match s.list, a with
  | none, none => some (s, .enoent)
  | none, some a =>
    if !mem then some (s, .enomem)
    else
      match elemInsert maxSize s (newInfo maxSize a) index i stickyFull with
      | none => none
      | some (s, info, .ok) => some ({ s with list := some info }, .inserted true)
      | some (s, _, r) => some (s, r)
  | some info, _ =>
    match elemInsert maxSize s info index i stickyFull with
    | none => none
    | some (s, info, .ok) => some ({ s with list := some info }, .inserted false)
    | some (s, info, r) => some ({ s with list := some info }, r)

/-- `list_elem_delete`, coll_list.c 477-524. -/
def listElemDelete (s : St) (from_ to_ : Int) (drop : Bool) : Option (St × Rep) :=
  match s.list with
  | none => some (s, .enoent)
  | some info =>
    match adjustRange info.ccnt from_ to_ with
    | none => some (s, .elemEnoent)
    | some (f, t) =>
      let index := if f ≤ t then f else t
      let count := if f ≤ t then t - f + 1 else f - t + 1
      match elemDelete s info index count.toNat with
      | none => none
      | some (s, info, n) =>
        if 0 < n then
          if info.ccnt = 0 ∧ drop then some ({ s with list := none }, .deleted n true)
          else some ({ s with list := some info }, .deleted n false)
        else some ({ s with list := some info }, .elemEnoent)

/-- `list_elem_get`, coll_list.c 526-586. -/
def listElemGet (s : St) (from_ to_ : Int) (del drop mem : Bool) : Option (St × Rep) :=
  match s.list with
  | none => some (s, .enoent)
  | some info =>
    if !info.readable then some (s, .unreadable)
    else
      match adjustRange info.ccnt from_ to_ with
      | none => some (s, .elemEnoent)
      | some (f, t) =>
        let count := if f ≤ t then t - f + 1 else f - t + 1
        let forward := decide (f ≤ t)
        if !mem then some (s, .enomem)
        else
          match elemGet s info f count.toNat forward del with
          | none => none
          | some (s, info, ids) =>
            if ids.length = 0 then none                            -- assert, coll_list.c 568
            else if info.ccnt = 0 ∧ drop then
              if del then some ({ s with list := none }, .elems info.flags ids true) else none
            else some ({ s with list := some info }, .elems info.flags ids false)

/-- One pass of the first loop of `list_coll_setattr`, coll_list.c 637-656 (attributes checked in the
order maxcount, overflow action, readable), then the second loop, 658-667. -/
def listSetattr (maxSize : Nat) (s : St) (maxcount : Option Int) (ovfl : Option Nat) (readable : Option Bool) :
    Option (St × Rep) :=
  match s.list with
  | none => some (s, .enoent)
  | some info =>
    let m := maxcount.map (realMaxcount maxSize)
    if (∃ x, m = some x ∧ x > 0 ∧ x < info.ccnt) then some (s, .ebadvalue)
    else if (∃ x, ovfl = some x ∧ x ≠ ovflError ∧ x ≠ ovflHeadTrim ∧ x ≠ ovflTailTrim) then some (s, .ebadvalue)
    else if readable = some false then some (s, .ebadvalue)
    else
      let info := match m with | some x => { info with mcnt := x } | none => info
      let info := match ovfl with | some x => { info with ovflact := x } | none => info
      let info := match readable with | some _ => { info with readable := true } | none => info
      some ({ s with list := some info }, .ok)

/-- `list_coll_getattr`, coll_list.c 612-630. -/
def listGetattr (maxSize : Nat) (s : St) : Option (St × Rep) :=
  match s.list with
  | none => some (s, .enoent)
  | some info => some (s, .attrs info.ccnt (if info.mcnt > 0 then info.mcnt else maxSize) info.ovflact info.readable)

/-- Removal of the whole item: `do_item_unlink`, then the background thread frees the elements with
`list_elem_delete_with_count`, coll_list.c 588-591 (called with count 0 = all instead of in portions). -/
def listRemove (s : St) : Option (St × Rep) :=
  match s.list with
  | none => some (s, .enoent)
  | some info =>
    match elemDelete s info 0 0 with
    | none => none
    | some (s, _, _) => some ({ s with list := none }, .ok)

/-- One call of the list interface (coll_list.h). -/
def step (maxSize : Nat) (s : St) : Op → Option (St × Rep)
  | .create a mem => listCreate maxSize s a mem
  | .alloc v => some ((elemAlloc s v).1, .allocated (elemAlloc s v).2)
  | .free i => listElemFree s i
  | .insert index i a mem sf => listElemInsert maxSize s index i a mem sf
  | .delete f t d => listElemDelete s f t d
  | .get f t d dr m => listElemGet s f t d dr m
  | .release i => (elemRelease s i).map fun s => (s, .ok)
  | .setattr m o r => listSetattr maxSize s m o r
  | .getattr => listGetattr maxSize s
  | .remove => listRemove s

end Verif.Lst
