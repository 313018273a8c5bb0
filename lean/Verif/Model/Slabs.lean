/-!
# The small memory allocator

Model of engines/default/slabs.c: the small memory allocator (sizes up to 49148 bytes: items, elements, tree and hash nodes) and the slab class
0 it takes its 256 KB blocks from.  All of it runs under one lock (slabs.c 1546-1548, 1556-1558).

Memory is a function from addresses to 4-byte words, used at multiples of 4 only; the bookkeeping of the allocator lies in the same memory as
the data of the users.  A pointer fills 8 bytes; the model keeps it in the first of the two words and leaves the second alone.  `NULL` is 0.
The k-th chunk of slab class 0 lies at `(k + 1) * 262144`; in the code the pages of chunks are where `malloc` puts them (slabs.c 1242-1269).
`none` is a failed assertion, a table index out of range, an unsigned counter below 0, or an access outside the pages.  Sums do not wrap at
2^64.
-/
namespace Verif.Slabs

/-! ## Size classes -/

/-- `SM_BLOCK_SIZE`, slabs.c 135. -/
def blockSize : Nat := 262144
/-- `SM_BHEAD_SIZE`, `sizeof(sm_blck_t)`, slabs.c 74-84, 184. -/
def headSize : Nat := 32
/-- `SM_BBODY_SIZE`, slabs.c 185. -/
def bodySize : Nat := blockSize - headSize
/-- `SM_MIN_SLOT_SIZE`, slabs.c 138. -/
def minSlot : Nat := 32
/-- `SM_MAX_SLOT_SIZE`, slabs.c 140. -/
def maxSlot : Nat := 49152

/-- `sm_class_t`, slabs.c 102-107 (`sucnt` is never read). -/
structure Cls where
  sulen : Nat
  tolen : Nat
  tocnt : Nat
deriving DecidableEq, Repr

/-- The loop of `do_smmgr_build_class_info` and what follows it, slabs.c 278-298; the fuel is `SM_MAX_CLASS_INFO` (46), whose excess is the
assertion of 297. -/
def buildFrom : Nat → Nat → Nat → Nat → Option (List Cls)
  | 0, _, _, _ => none
  | fuel + 1, len, tolen, tocnt =>
    if tolen + len * 128 < maxSlot then
      (buildFrom fuel (len * 2) (tolen + len * 128) (tocnt + 128)).map (⟨len, tolen, tocnt⟩ :: ·)
    else if (maxSlot - tolen) % len = 0 then
      match fuel with
      | 0 => none
      | _ => some [⟨len, tolen, tocnt⟩, ⟨0, tolen + len * ((maxSlot - tolen) / len), tocnt + (maxSlot - tolen) / len⟩]
    else none

/-- `do_smmgr_build_class_info`, slabs.c 270-328. -/
def classInfo : Option (List Cls) := buildFrom 10 8 0 0

/-- `SM_NUM_CLASSES`, slabs.c 336-337: the value is that of `classInfo`, see `numClasses_eq`. -/
def numClasses : Nat := 709

/-- The class found by the loop of `do_smmgr_memid`, slabs.c 385-388. -/
def clsOf : List Cls → Nat → Option Cls
  | c :: d :: r, slen => if d.tolen ≤ slen then clsOf (d :: r) slen else some c
  | _, _ => none

/-- `do_smmgr_memid`, slabs.c 380-405. -/
def memid (slen : Nat) (above : Bool) : Option Nat :=
  if slen % 8 ≠ 0 then none
  else if maxSlot ≤ slen then some (numClasses - 1)
  else
    match classInfo with
    | none => none
    | some cs =>
      match clsOf cs slen with
      | none => none
      | some c =>
        let smid := c.tocnt + (slen - c.tolen) / c.sulen
        some (if above ∧ (slen - c.tolen) % c.sulen ≠ 0 then smid + 1 else smid)

/-- `do_smmgr_slen`, slabs.c 371-378. -/
def slen (size : Nat) : Nat :=
  let n := ((size + 4 - 1) / 8 + 1) * 8
  if n < minSlot then minSlot else n

/-! ## State -/

/-- The slab class 0 and the memory limits: `slabclass_t`, `struct slabs` (slabs.h 26-60), and the two counters of `sm_anchor` that belong to
them.  `slots` is the stack of free chunks, top first; `endPtr` is the chunk `end_page_ptr` points to. -/
structure Pages where
  perslab : Nat
  slots : List Nat
  endPtr : Option Nat
  endFree : Nat
  slabs : Nat
  rsvd : Nat
  memLimit : Nat
  memMalloced : Nat
  memReserved : Nat
  freeLimit : Nat
  freeChunk : Nat
  itemMax : Nat

/-- `sm_anchor_t`, slabs.c 109-129, the memory, and the slab class the blocks come from.  `head`, `tail`, `fspace`, `fcount` are `free_slist`,
`uspace`, `ucount` are `used_slist` (whose pointers are never used).  `space_shortage_level` is not in the state, see `Op.alloc`. -/
structure St where
  mem : Nat → Nat
  head : Nat → Nat
  tail : Nat → Nat
  fspace : Nat → Nat
  fcount : Nat → Nat
  fmin : Nat
  fmax : Int
  fnum : Int
  uspace : Nat → Nat
  ucount : Nat → Nat
  umin : Nat
  umax : Int
  unum : Int
  pct : Int
  total : Nat
  pctsp : Nat
  fsmall : Nat
  favail : Nat
  bhead : Nat
  btail : Nat
  bcount : Nat
  pg : Pages

/-- One word or table entry changed. -/
def set (m : Nat → Nat) (a v : Nat) : Nat → Nat := fun x => if x = a then v else m x

/-- `offset` and `length` of a slot head or tail side by side in a word: two 16-bit numbers (slabs.c 61-62, 69-70). -/
def enc (o l : Nat) : Nat := o % 65536 + 65536 * (l % 65536)
/-- The first of them. -/
def lo (w : Nat) : Nat := w % 65536
/-- The second of them. -/
def hi (w : Nat) : Nat := w / 65536 % 65536

/-- The loop `for (i = a; i < a + n; i++) if (p(i)) break;`: where it stops, if before the end. -/
def up (p : Nat → Bool) : Nat → Nat → Option Nat
  | _, 0 => none
  | i, n + 1 => if p i then some i else up p (i + 1) n

/-- The loop `for (i = a; i > a - n; i--) if (p(i)) break;`: where it stops, if before the end. -/
def down (p : Nat → Bool) : Nat → Nat → Option Nat
  | _, 0 => none
  | i, n + 1 => if p i then some i else down p (i - 1) n

/-! ## Lists of classes -/

/-- `do_smmgr_used_slot_list_add`, slabs.c 407-416. -/
def usedAdd (s : St) (targ : Nat) : St :=
  { s with
    umin := if targ < s.umin then targ else s.umin
    umax := if s.umax < targ then targ else s.umax
    unum := s.unum + 1 }

/-- `do_smmgr_used_slot_list_del`, slabs.c 418-442. -/
def usedDel (s : St) (targ : Nat) : Option St :=
  if targ = s.umin then
    if (targ : Int) = s.umax then some { s with umin := numClasses, umax := -1, unum := s.unum - 1 }
    else
      match up (fun i => 0 < s.ucount i) (targ + 1) (s.umax - targ).toNat with
      | none => none
      | some i => some { s with umin := i, unum := s.unum - 1 }
  else if (targ : Int) = s.umax then
    match down (fun i => 0 < s.ucount i) (targ - 1) (targ - s.umin) with
    | none => none
    | some i => some { s with umax := i, unum := s.unum - 1 }
  else some { s with unum := s.unum - 1 }

/-- `do_smmgr_free_slot_list_add`, slabs.c 444-458. -/
def freeAdd (s : St) (targ : Nat) : St :=
  if numClasses - 1 ≤ targ then s
  else
    { s with
      fmin := if targ < s.fmin then targ else s.fmin
      fmax := if s.fmax < targ then targ else s.fmax
      fnum := s.fnum + 1 }

/-- `do_smmgr_free_slot_list_del`, slabs.c 460-489. -/
def freeDel (s : St) (targ : Nat) : Option St :=
  if numClasses - 1 ≤ targ then some s
  else if targ = s.fmin then
    if (targ : Int) = s.fmax then some { s with fmin := numClasses, fmax := -1, fnum := s.fnum - 1 }
    else
      match up (fun i => s.head i ≠ 0) (targ + 1) (s.fmax - targ).toNat with
      | none => none
      | some i => some { s with fmin := i, fnum := s.fnum - 1 }
  else if (targ : Int) = s.fmax then
    match down (fun i => s.head i ≠ 0) (targ - 1) (targ - s.fmin) with
    | none => none
    | some i => some { s with fmax := i, fnum := s.fnum - 1 }
  else some { s with fnum := s.fnum - 1 }

/-! ## Slots -/

/-- `do_smmgr_used_slot_init`, slabs.c 491-502. -/
def usedInit (m : Nat → Nat) (slot offset length : Nat) : Option (Nat → Nat) :=
  if offset % 8 = 0 ∧ length % 8 = 0 then
    some (set (set m (slot + length - 4) (enc (offset / 8) (length / 8))) slot 4294967295)
  else none

/-- `do_smmgr_free_slot_init`, slabs.c 504-513: the two halves of a word are written together.  In a slot of 8 bytes the tail is the second
word of the head. -/
def freeInit (m : Nat → Nat) (slot offset length : Nat) : Option (Nat → Nat) :=
  if offset % 8 = 0 ∧ length % 8 = 0 then
    let m1 := set m (slot + length - 4) (enc (offset / 8) 0)
    let m2 := set m1 slot 0
    some (set m2 (slot + 4) (enc (lo (m2 (slot + length - 4))) (length / 8)))
  else none

/-- `do_smmgr_free_slot_link`, slabs.c 515-565: at the tail of the list of its class.  `prev` is 8 bytes into the slot, `next` 16 bytes. -/
def link (s : St) (slot offset length : Nat) : Option St :=
  match freeInit s.mem slot offset length with
  | none => none
  | some m =>
    if length < minSlot then some { s with mem := m, fsmall := s.fsmall + length }
    else
      match memid length false with
      | none => none
      | some smid =>
        if smid < numClasses then
          let m := set m (slot + 16) 0
          match (if s.tail smid = 0 then
              (if s.head smid = 0 ∧ s.fcount smid = 0 ∧ s.fspace smid = 0 then
                some { s with mem := set m (slot + 8) 0, head := set s.head smid slot }
              else none)
            else
              (if s.head smid ≠ 0 ∧ 0 < s.fcount smid ∧ 0 < s.fspace smid then
                some { s with mem := set (set m (slot + 8) (s.tail smid)) (s.tail smid + 16) slot }
              else none)) with
          | none => none
          | some s =>
            let s := { s with
              tail := set s.tail smid slot
              fspace := set s.fspace smid (s.fspace smid + length)
              fcount := set s.fcount smid (s.fcount smid + 1) }
            let s := if s.fcount smid = 1 then freeAdd s smid else s
            if s.pct ≠ -1 then
              if (smid : Int) < s.pct then some { s with fsmall := s.fsmall + length }
              else some { s with favail := s.favail + length }
            else if smid = numClasses - 1 then some { s with favail := s.favail + length }
            else some s
        else none

/-- `do_smmgr_free_slot_unlink`, slabs.c 567-604. -/
def unlink (s : St) (slot : Nat) : Option St :=
  let slen := hi (s.mem (slot + 4)) * 8
  if slen < minSlot then
    if slen ≤ s.fsmall then some { s with fsmall := s.fsmall - slen } else none
  else
    match memid slen false with
    | none => none
    | some smid =>
      if smid < numClasses ∧ s.pct ≠ -1 then
        match (if (smid : Int) < s.pct then
            (if slen ≤ s.fsmall then some { s with fsmall := s.fsmall - slen } else none)
          else
            (if slen ≤ s.favail then some { s with favail := s.favail - slen } else none)) with
        | none => none
        | some s =>
          if s.fcount smid = 1 then
            if s.fspace smid = slen ∧ s.head smid = slot ∧ s.tail smid = slot then
              freeDel { s with
                head := set s.head smid 0
                tail := set s.tail smid 0
                fspace := set s.fspace smid 0
                fcount := set s.fcount smid 0 } smid
            else none
          else if 1 < s.fcount smid ∧ slen < s.fspace smid ∧ s.head smid ≠ 0 ∧ s.tail smid ≠ 0 then
            let prev := s.mem (slot + 8)
            let m1 := if prev ≠ 0 then set s.mem (prev + 16) (s.mem (slot + 16)) else s.mem
            let next := m1 (slot + 16)
            let m2 := if next ≠ 0 then set m1 (next + 8) (m1 (slot + 8)) else m1
            some { s with
              mem := m2
              head := if s.head smid = slot then set s.head smid (m2 (slot + 16)) else s.head
              tail := if s.tail smid = slot then set s.tail smid (m2 (slot + 8)) else s.tail
              fspace := set s.fspace smid (s.fspace smid - slen)
              fcount := set s.fcount smid (s.fcount smid - 1) }
          else none
      else none

/-! ## Blocks -/

/-- The memory limits are looked at after every new page; when little is left, the reserve of slab class 0 is fixed: slabs.c 1297-1311.  The
products are of 32-bit numbers. -/
def fixReserve (p : Pages) : Pages :=
  if p.memLimit ≤ p.memMalloced ∨ p.memLimit - p.memMalloced < p.memReserved then
    if p.rsvd = 0 then
      let additional := if p.slabs / 100 * 5 < 4 then 4 else p.slabs / 100 * 5
      let limit := additional * p.perslab * blockSize % 4294967296
      { p with
        rsvd := p.slabs + additional
        freeLimit := limit
        freeChunk := limit + (p.slots.length + p.endFree) * blockSize % 4294967296 }
    else p
  else p

/-- `do_slabs_newslab` for slab class 0, slabs.c 1271-1315; `os`: whether `realloc` and `memory_allocate` (1229-1269) succeed.  The page is
cleared (1285), which the model leaves out: nothing depends on it.  `none` here is the answer 0. -/
def newslab (p : Pages) (os : Bool) : Option Pages :=
  let len := blockSize * p.perslab
  if (p.memLimit ≠ 0 ∧ p.memLimit < p.memMalloced + len ∧ p.rsvd ≤ p.slabs) ∨ os = false then none
  else
    let p := { p with endPtr := some (p.slabs * p.perslab), endFree := p.perslab, slabs := p.slabs + 1, memMalloced := p.memMalloced + len }
    let p := if 0 < p.rsvd ∧ p.rsvd < p.slabs then { p with freeLimit := p.freeLimit + len, freeChunk := p.freeChunk + len } else p
    some (fixReserve p)

/-- `do_slabs_alloc` for a block, slabs.c 1341-1390 with size 262144 and class 0: a chunk, or `NULL`.  `--p->end_page_free` is 32-bit. -/
def chunkAlloc (p : Pages) (os : Bool) : Option (Pages × Option Nat) :=
  match (if p.endPtr.isSome ∨ p.slots ≠ [] then some p else newslab p os) with
  | none => some (p, none)
  | some p =>
    match p.slots with
    | c :: r => some ({ p with slots := r }, some c)
    | [] =>
      match p.endPtr with
      | none => none
      | some c =>
        let n := if p.endFree = 0 then 4294967295 else p.endFree - 1
        some ({ p with endFree := n, endPtr := if n ≠ 0 then some (c + 1) else none }, some c)

/-- `do_slabs_free` for a block, slabs.c 1392-1421, when `realloc` succeeds. -/
def chunkFree (p : Pages) (c : Nat) : Pages := { p with slots := c :: p.slots }

/-- The address of a chunk. -/
def chunkAdr (c : Nat) : Nat := (c + 1) * blockSize

/-- `do_smmgr_used_blck_link`, slabs.c 642-657: `prev` is the first word of a block, `next` is 8 bytes into it. -/
def blckLink (s : St) (b : Nat) : St :=
  let m := set (set s.mem b s.btail) (b + 8) 0
  let s := if m b ≠ 0 then { s with mem := set m (m b + 8) b } else { s with mem := m, bhead := b }
  { s with btail := b, bcount := s.bcount + 1 }

/-- `do_smmgr_used_blck_unlink`, slabs.c 659-666. -/
def blckUnlink (s : St) (b : Nat) : Option St :=
  if 0 < s.bcount then
    let s := if s.mem b ≠ 0 then { s with mem := set s.mem (s.mem b + 8) (s.mem (b + 8)) } else { s with bhead := s.mem (b + 8) }
    let s := if s.mem (b + 8) ≠ 0 then { s with mem := set s.mem (s.mem (b + 8)) (s.mem b) } else { s with btail := s.mem b }
    some { s with bcount := s.bcount - 1 }
  else none

/-- `do_smmgr_blck_alloc`, slabs.c 668-679.  A chunk outside the pages is a fault: the first thing done is to write to it. -/
def blckAlloc (s : St) (os : Bool) : Option (St × Option Nat) :=
  match chunkAlloc s.pg os with
  | none => none
  | some (p, none) => some ({ s with pg := p }, none)
  | some (p, some c) =>
    if c < p.slabs * p.perslab then
      let s := blckLink { s with pg := p } (chunkAdr c)
      if 0 < s.pg.freeLimit then
        if blockSize ≤ s.pg.freeChunk then
          some ({ s with pg := { s.pg with freeChunk := s.pg.freeChunk - blockSize } }, some (chunkAdr c))
        else
          some ({ s with pg := { s.pg with freeChunk := s.pg.freeChunk + 18446744073709551616 - blockSize } }, some (chunkAdr c))
      else some (s, some (chunkAdr c))
    else none

/-- `do_smmgr_blck_free`, slabs.c 681-689. -/
def blckFree (s : St) (b : Nat) : Option St :=
  match blckUnlink s b with
  | none => none
  | some s =>
    let s := { s with pg := chunkFree s.pg (b / blockSize - 1) }
    if 0 < s.pg.freeLimit then
      some { s with pg := { s.pg with freeChunk := (s.pg.freeChunk + blockSize) % 18446744073709551616 } }
    else some s

/-! ## The largest classes that hold one per cent of the used space -/

/-- `do_smmgr_01pct_first_set`, slabs.c 691-710. -/
def firstSet (s : St) (slen targ : Nat) : Option St :=
  if s.pct = -1 then
    match (if s.fmax ≠ -1 then
        (if s.fmax = s.fmin ∧ s.fsmall = 0 ∧ s.favail = 0 then
          (if s.fmax < targ then some { s with fsmall := s.fspace s.fmax.toNat }
          else some { s with favail := s.fspace s.fmax.toNat })
        else none)
      else some s) with
    | none => none
    | some s => some { s with pct := targ, pctsp := slen }
  else none

/-- `do_smmgr_01pct_last_clear`, slabs.c 712-720. -/
def lastClear (s : St) : Option St :=
  if s.fsmall = 0 ∧ s.favail = 0 then some { s with pct := -1, pctsp := 0 } else none

/-- The sum of a table over `n` classes, slabs.c 742-746, 794-798, 826-830. -/
def sumFrom (f : Nat → Nat) : Nat → Nat → Nat
  | _, 0 => 0
  | i, n + 1 => f i + sumFrom f (i + 1) n

/-- The loop of `do_smmgr_01pct_check_and_move_right`, slabs.c 732-739: the class and `used_01pct_space` at its end. -/
def rightLoop (uspace : Nat → Nat) (std : Nat) : Nat → Nat → Nat → Nat × Nat
  | i, sp, 0 => (i, sp)
  | i, sp, n + 1 =>
    if 0 < uspace i then
      if sp - uspace i < std then (i, sp) else rightLoop uspace std (i + 1) (sp - uspace i) n
    else rightLoop uspace std (i + 1) sp n

/-- The classes from `pct` up to `smid` become small: slabs.c 741-748 and 764, 825-835. -/
def toRight (s : St) (smid : Nat) : Option St :=
  let adj := sumFrom s.fspace s.pct.toNat (smid - s.pct.toNat)
  if adj ≤ s.favail then some { s with fsmall := s.fsmall + adj, favail := s.favail - adj, pct := smid } else none

/-- `do_smmgr_01pct_check_and_move_right`, slabs.c 722-766. -/
def moveRight (s : St) : Option St :=
  let std := s.total / 100 + 1
  if 0 ≤ s.pct ∧ s.pct < numClasses then
    let r := rightLoop s.uspace std s.pct.toNat s.pctsp (s.umax - s.pct).toNat
    let s := { s with pctsp := r.2 }
    if (r.1 : Int) ≠ s.pct then toRight s r.1 else some s
  else none

/-- The loop of `do_smmgr_01pct_check_and_move_left`, slabs.c 783-790. -/
def leftLoop (uspace : Nat → Nat) (std : Nat) : Nat → Nat → Nat → Option (Nat × Nat)
  | _, _, 0 => none
  | i, sp, n + 1 =>
    if 0 < uspace i then
      if std ≤ sp + uspace i then some (i, sp + uspace i) else leftLoop uspace std (i - 1) (sp + uspace i) n
    else leftLoop uspace std (i - 1) sp n

/-- `do_smmgr_01pct_check_and_move_left`, slabs.c 768-838. -/
def moveLeft (s : St) : Option St :=
  let std := s.total / 100 + 1
  if 0 ≤ s.pct ∧ s.pct < numClasses then
    if s.pctsp < std then
      let top : Int := if s.umax < s.pct - 1 then s.umax else s.pct - 1
      match leftLoop s.uspace std top.toNat s.pctsp (top + 1 - s.umin).toNat with
      | none => none
      | some (smid, sp) =>
        let adj := sumFrom s.fspace smid (s.pct.toNat - smid)
        if adj ≤ s.fsmall then
          some { s with pctsp := sp, fsmall := s.fsmall - adj, favail := s.favail + adj, pct := smid }
        else none
    else if s.uspace s.pct.toNat = 0 then
      match up (fun i => 0 < s.uspace i) (s.pct.toNat + 1) (s.umax - s.pct).toNat with
      | none => none
      | some smid => toRight s smid
    else some s
  else none

/-! ## Allocation -/

/-- The class from which `do_smmgr_alloc` takes a slot, slabs.c 858-906; `short`: whether `space_shortage_level` is above 0. -/
def pickClass (s : St) (short : Bool) (slen targ : Nat) : Option Nat :=
  if s.fmax < targ then some (numClasses - 1)
  else if s.head targ ≠ 0 then some targ
  else
    match (if s.pct ≤ targ then some (Sum.inr (targ + 1))
      else
        match memid (slen * 2) false with
        | none => none
        | some twice =>
          let top : Nat := if (twice : Int) < s.pct then twice - 1 else (s.pct - 1).toNat
          match (if short then down (fun i => s.head i ≠ 0) top (top - targ) else none) with
          | some smid => some (Sum.inl smid)
          | none => some (Sum.inr (if (twice : Int) < s.pct then twice else s.pct.toNat))) with
    | none => none
    | some (Sum.inl smid) => some smid
    | some (Sum.inr smid) =>
      if s.fmax < smid then some s.fmax.toNat
      else up (fun i => s.head i ≠ 0) smid (s.fmax + 1 - smid).toNat

/-- The slot taken from a class or from a new block, slabs.c 908-930; `some (_, 0)` is the answer `NULL`. -/
def takeSlot (s : St) (os : Bool) (slen smid : Nat) : Option (St × Nat) :=
  let cur := s.head smid
  if cur = 0 then
    match blckAlloc s os with
    | none => none
    | some (s, none) => some (s, 0)
    | some (s, some b) =>
      match usedInit s.mem (b + headSize) headSize slen with
      | none => none
      | some m =>
        match link { s with mem := m } (b + headSize + slen) (headSize + slen) (bodySize - slen) with
        | none => none
        | some s => some (s, b + headSize)
  else
    let off := lo (s.mem (cur + 4)) * 8
    let len := hi (s.mem (cur + 4)) * 8
    if slen ≤ len then
      match unlink s cur with
      | none => none
      | some s =>
        match usedInit s.mem cur off slen with
        | none => none
        | some m =>
          if slen < len then
            match link { s with mem := m } (cur + slen) (off + slen) (len - slen) with
            | none => none
            | some s => some (s, cur)
          else some ({ s with mem := m }, cur)
    else none

/-- The counting of a new used slot, slabs.c 932-951. -/
def countUsed (s : St) (slen targ : Nat) : Option St :=
  let s := { s with
    total := s.total + slen
    uspace := set s.uspace targ (s.uspace targ + slen)
    ucount := set s.ucount targ (s.ucount targ + 1) }
  let s := if s.ucount targ = 1 then usedAdd s targ else s
  if s.total = slen then
    if s.pctsp = 0 then firstSet s slen targ else none
  else if s.pct ≤ targ then moveRight { s with pctsp := s.pctsp + slen }
  else moveLeft s

/-- `do_smmgr_alloc`, slabs.c 840-953. -/
def alloc (s : St) (size : Nat) (short os : Bool) : Option (St × Nat) :=
  match memid (slen size) true with
  | none => none
  | some targ =>
    if targ < numClasses then
      match pickClass s short (slen size) targ with
      | none => none
      | some smid =>
        if smid < numClasses then
          match takeSlot s os (slen size) smid with
          | none => none
          | some (s, p) =>
            if p = 0 then some (s, 0)
            else
              match countUsed s (slen size) targ with
              | none => none
              | some s => some (s, p)
        else none
    else none

/-! ## Release -/

/-- `sm_get_prev_free_slot`, slabs.c 955-967. -/
def prevFree (m : Nat → Nat) (cur blck : Nat) : Option (Option Nat) :=
  let t := m (cur - 4)
  if hi t ≤ 1 then
    let prv := blck + lo t * 8
    if lo (m (prv + 4)) = lo t ∧ m prv = 0 then some (some prv) else none
  else some none

/-- `sm_get_next_free_slot`, slabs.c 969-982; `nxt` is the end of the slot being released. -/
def nextFree (m : Nat → Nat) (nxt : Nat) : Option (Option Nat) :=
  if m nxt = 0 then
    let t := m (nxt + hi (m (nxt + 4)) * 8 - 4)
    if lo t = lo (m (nxt + 4)) ∧ hi t ≤ 1 then some (some nxt) else none
  else some none

/-- The slot joined with a free one before it, slabs.c 1010-1019: slot, offset, length. -/
def joinPrev (s : St) (cur blck off len : Nat) : Option (St × Nat × Nat × Nat) :=
  if headSize < off then
    match prevFree s.mem cur blck with
    | none => none
    | some none => some (s, cur, off, len)
    | some (some prv) =>
      match unlink s prv with
      | none => none
      | some s => some (s, prv, lo (s.mem (prv + 4)) * 8, len + hi (s.mem (prv + 4)) * 8)
  else some (s, cur, off, len)

/-- The slot joined with a free one after it, slabs.c 1020-1027: its length. -/
def joinNext (s : St) (nxt off len : Nat) : Option (St × Nat) :=
  if off + len < blockSize then
    match nextFree s.mem nxt with
    | none => none
    | some none => some (s, len)
    | some (some n) =>
      match unlink s n with
      | none => none
      | some s => some (s, len + hi (s.mem (n + 4)) * 8)
  else some (s, len)

/-- The memory given back, slabs.c 1001-1033. -/
def giveSlot (s : St) (ptr slen : Nat) : Option St :=
  let t := s.mem (ptr + slen - 4)
  let off := lo t * 8
  let len := hi t * 8
  if len = slen then
    let blck := ptr - off
    match joinPrev s ptr blck off len with
    | none => none
    | some (s, cur, off, len) =>
      match joinNext s (ptr + slen) off len with
      | none => none
      | some (s, len) =>
        if headSize < off ∨ len < bodySize then link s cur off len
        else blckFree s blck
  else none

/-- The counting of a used slot that is gone, slabs.c 1035-1055. -/
def countFreed (s : St) (slen targ : Nat) : Option St :=
  if 1 ≤ s.ucount targ ∧ slen ≤ s.total ∧ slen ≤ s.uspace targ then
    let s := { s with
      total := s.total - slen
      uspace := set s.uspace targ (s.uspace targ - slen)
      ucount := set s.ucount targ (s.ucount targ - 1) }
    match (if s.ucount targ = 0 then usedDel s targ else some s) with
    | none => none
    | some s =>
      if s.total = 0 then
        if s.pctsp = slen then lastClear s else none
      else if s.pct ≤ targ then
        if slen ≤ s.pctsp then moveLeft { s with pctsp := s.pctsp - slen } else none
      else moveRight s
  else none

/-- `do_smmgr_free`, slabs.c 984-1057. -/
def free (s : St) (ptr size : Nat) : Option St :=
  match memid (slen size) true with
  | none => none
  | some targ =>
    if targ < numClasses then
      match giveSlot s ptr (slen size) with
      | none => none
      | some s => countFreed s (slen size) targ
    else none

/-! ## Use -/

/-- Settings: the largest item size (`-I`, memcached.c 15821-15857) and the memory limit (`-m`). -/
structure Cfg where
  itemMax : Nat
  limit : Nat

/-- Settings the server starts with: 20 KB to 128 MB, memcached.c 15837-15846. -/
def Cfg.Ok (c : Cfg) : Prop := 20480 ≤ c.itemMax ∧ c.itemMax ≤ 134217728

/-- `slabs_init` and `do_smmgr_init`, slabs.c 1071-1074, 330-360. -/
def init (c : Cfg) (mem : Nat → Nat) : St where
  mem := mem
  head := fun _ => 0
  tail := fun _ => 0
  fspace := fun _ => 0
  fcount := fun _ => 0
  fmin := numClasses
  fmax := -1
  fnum := 0
  uspace := fun _ => 0
  ucount := fun _ => 0
  umin := numClasses
  umax := -1
  unum := 0
  pct := -1
  total := 0
  pctsp := 0
  fsmall := 0
  favail := 0
  bhead := 0
  btail := 0
  bcount := 0
  pg := {
    perslab := c.itemMax / blockSize, slots := [], endPtr := none, endFree := 0, slabs := 0, rsvd := 0, memLimit := c.limit
    memMalloced := 0, memReserved := if c.limit / 100 * 5 < 4 * c.itemMax then 4 * c.itemMax else c.limit / 100 * 5
    freeLimit := 0, freeChunk := 0, itemMax := c.itemMax }

/-- `do_slabs_set_memlimit`, slabs.c 1510-1538, without a preallocated memory; `false`: refused. -/
def setLimit (s : St) (limit : Nat) : St × Bool :=
  let p := s.pg
  if limit < p.memMalloced + p.memMalloced / 10 then (s, false)
  else
    let r := if limit / 100 * 5 < 4 * p.itemMax then 4 * p.itemMax else limit / 100 * 5
    if p.rsvd ≠ 0 ∧ limit - p.memMalloced < r then (s, false)
    else ({ s with pg := { p with memLimit := limit, memReserved := r, rsvd := 0, freeLimit := 0, freeChunk := 0 } }, true)

/-- What happens to the allocator.  `alloc`: `slabs_alloc` of a small size; `short`: the space shortage level is above 0 (slabs.c 213-260; any
value is possible here), `os`: a new page can be had from the system.  `free`: `slabs_free` of a small size.  `store`, `load`: a user's access
to a word of memory.  `otherPage`: a new page for another slab class (slabs.c 1290-1311).  `limit`: the memory limit is changed. -/
inductive Op where
  | alloc (size : Nat) (short os : Bool)
  | free (ptr size : Nat)
  | store (adr v : Nat)
  | load (adr : Nat)
  | otherPage (len : Nat)
  | limit (n : Nat)

/-- What is seen: a pointer (0: `NULL`), a word, or that a call returned. -/
inductive Obs where
  | ptr (p : Nat)
  | word (v : Nat)
  | done
  | ok (b : Bool)
deriving DecidableEq

/-- One event. -/
def step (s : St) : Op → Option (St × Obs)
  | .alloc size short os => (alloc s size short os).map fun r => (r.1, .ptr r.2)
  | .free ptr size => (free s ptr size).map fun s => (s, .done)
  | .store adr v => some ({ s with mem := set s.mem adr v }, .done)
  | .load adr => some (s, .word (s.mem adr))
  | .otherPage len => some ({ s with pg := fixReserve { s.pg with memMalloced := s.pg.memMalloced + len } }, .done)
  | .limit n => let r := setLimit s n; some (r.1, .ok r.2)

end Verif.Slabs
