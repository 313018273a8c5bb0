/-
Model of the long query detection: /repo/lqdetect.c.

Texts are lists of characters (bytes 0-255).  `none` stands for signed overflow or for a
write or read outside of a buffer.
-/
import Verif.Model.List

namespace Verif.LqDetect

/-- A C string, without its NUL. -/
abbrev Text := List Char

/-- `enum lq_detect_command` (lqdetect.c 25-37), in this order. -/
inductive Cmd where
  | sopGet | mopDelete | mopGet | lopInsert | lopDelete | lopGet | bopDelete | bopGet | bopCount
  | bopGbp
deriving DecidableEq, Repr

/-- The commands in the order of the enumeration (lqdetect.c 25-37). -/
def cmds : List Cmd :=
  [.sopGet, .mopDelete, .mopGet, .lopInsert, .lopDelete, .lopGet, .bopDelete, .bopGet, .bopCount,
   .bopGbp]

/-- `command_str` (lqdetect.c 42-46). -/
def cmdStr : Cmd → Text
  | .sopGet => "sop get".toList
  | .mopDelete => "mop delete".toList
  | .mopGet => "mop get".toList
  | .lopInsert => "lop insert".toList
  | .lopDelete => "lop delete".toList
  | .lopGet => "lop get".toList
  | .bopDelete => "bop delete".toList
  | .bopGet => "bop get".toList
  | .bopCount => "bop count".toList
  | .bopGbp => "bop gbp".toList

/-- `%u`, and `%d` and PRIu64 of a number that is not negative. -/
def dec (n : Nat) : Text := Nat.toDigits 10 n

/-- `%d`. -/
def decI : Int → Text
  | .ofNat n => dec n
  | .negSucc n => '-' :: dec (n + 1)

/-- `%0<w>d` of a number that is not negative. -/
def pad (w n : Nat) : Text := List.replicate (w - (dec n).length) '0' ++ dec n

/-- One hexadecimal digit as `safe_hexatostr` prints it (util.c 153-158). -/
def hexDigit (n : Nat) : Char := if n < 10 then Char.ofNat (48 + n) else Char.ofNat (65 + (n - 10))

/-- `safe_hexatostr` (util.c 149-161). -/
def hex : List UInt8 → Text
  | [] => []
  | b :: bs => hexDigit (b.toNat / 16) :: hexDigit (b.toNat % 16) :: hex bs

/-- `bkey_range` (include/memcached/types.h): `from_nbkey > 0` is a string of bytes, else a
    64-bit number; `to_nbkey = BKEY_NULL` is no end. -/
inductive Range where
  | num (from_ : Nat) (to_ : Option Nat)
  | hex (from_ : List UInt8) (to_ : Option (List UInt8))
deriving DecidableEq, Repr

/-- `do_make_bkeystring` (lqdetect.c 185-211); `ef` is `efilter != NULL`. -/
def bkeyString (r : Range) (ef : Bool) : Text :=
  (match r with
   | .hex f none => '0' :: 'x' :: hex f
   | .hex f (some t) => '0' :: 'x' :: hex f ++ "..0x".toList ++ hex t
   | .num f none => dec f
   | .num f (some t) => dec f ++ "..".toList ++ dec t)
  ++ (if ef then " efilter".toList else [])

/-- `snprintf(buf, size, …)` for a text: what is in `buf` afterwards. -/
def cut (size : Nat) (t : Text) : Text := t.take (size - 1)

/-- The arguments of the external functions (lqdetect.c 346-471), without client and key. -/
inductive Query where
  | lopInsert (index : Int)
  | lopDelete (count : Nat) (from_ to_ : Int) (drop : Bool)
  | lopGet (count : Nat) (from_ to_ : Int) (delete drop : Bool)
  | sopGet (elems count : Nat) (delete drop : Bool)
  | mopGet (elems numkeys : Nat) (delete drop : Bool)
  | mopDelete (elems numkeys : Nat) (drop : Bool)
  | bopGbp (elems from_ to_ : Nat) (asc : Bool)
  | bopGet (access : Nat) (r : Range) (ef : Bool) (offset count : Nat) (delete drop : Bool)
  | bopCount (access : Nat) (r : Range) (ef : Bool)
  | bopDelete (access : Nat) (r : Range) (ef : Bool) (count : Nat) (drop : Bool)
deriving DecidableEq, Repr

/-- The command under which it is saved (lqdetect.c 353, 366, 379, 392, 405, 418, 430, 444, 455,
    469). -/
def Query.cmd : Query → Cmd
  | .lopInsert .. => .lopInsert
  | .lopDelete .. => .lopDelete
  | .lopGet .. => .lopGet
  | .sopGet .. => .sopGet
  | .mopGet .. => .mopGet
  | .mopDelete .. => .mopDelete
  | .bopGbp .. => .bopGbp
  | .bopGet .. => .bopGet
  | .bopCount .. => .bopCount
  | .bopDelete .. => .bopDelete

/-- `index >= 0 ? index+1 : -(index)` in `int` (lqdetect.c 348, 360, 373). -/
def indexCost (i : Int) : Option Nat :=
  if i ≥ 2147483647 ∨ i ≤ -2147483648 then none
  else some (if i ≥ 0 then (i + 1).toNat else (-i).toNat)

/-- `overhead` (lqdetect.c 348, 360, 373, 386, 399, 412, 425, 438, 451, 463), a `uint32_t`. -/
def Query.overhead : Query → Option Nat
  | .lopInsert i => indexCost i
  | .lopDelete n f _ _ => do
    let c ← indexCost f
    some ((n + c) % 4294967296)
  | .lopGet n f _ _ _ => do
    let c ← indexCost f
    some ((n + c) % 4294967296)
  | .sopGet n _ _ _ => some n
  | .mopGet n _ _ _ => some n
  | .mopDelete n _ _ => some n
  | .bopGbp n _ _ _ => some n
  | .bopGet n _ _ _ _ _ _ => some n
  | .bopCount n _ _ => some n
  | .bopDelete n _ _ _ _ => some n

/-- " drop", " delete" or nothing (lqdetect.c 377, 389, 402, 442). -/
def delDrop (delete drop : Bool) : Text :=
  if drop then " drop".toList else if delete then " delete".toList else []

/-- `argument.query` (lqdetect.c 351, 363, 376, 388, 401, 414, 427, 440-442, 453, 465-467).
    `do_make_bkeystring` writes without a limit: `none` if that passes the 192 bytes. -/
def Query.text : Query → Option Text
  | .lopInsert i => some (cut 192 (decI i))
  | .lopDelete _ f t drop => some (cut 192 (decI f ++ "..".toList ++ decI t ++ delDrop false drop))
  | .lopGet _ f t del drop => some (cut 192 (decI f ++ "..".toList ++ decI t ++ delDrop del drop))
  | .sopGet _ c del drop => some (cut 192 (dec c ++ delDrop del drop))
  | .mopGet _ c del drop => some (cut 192 (dec c ++ delDrop del drop))
  | .mopDelete _ c drop => some (cut 192 (dec c ++ delDrop false drop))
  | .bopGbp _ f t asc =>
    some (cut 192 (dec f ++ "..".toList ++ dec t ++ ' ' :: (if asc then "asc".toList else "desc".toList)))
  | .bopGet _ r ef o c del drop =>
    let b := bkeyString r ef
    if b.length ≥ 192 then none
    else some (b ++ cut (192 - b.length) (' ' :: dec o ++ ' ' :: dec c ++ delDrop del drop))
  | .bopCount _ r ef =>
    let b := bkeyString r ef
    if b.length ≥ 192 then none else some b
  | .bopDelete _ r ef c drop =>
    let b := bkeyString r ef
    if b.length ≥ 192 then none
    else some (b ++ cut (192 - b.length) (' ' :: dec c ++ delDrop false drop))

/-- `argument.count`, which only three commands set (lqdetect.c 391, 404, 417); it is read for
    these three alone (lqdetect.c 101-115). -/
def Query.count : Query → Nat
  | .sopGet _ c _ _ => c
  | .mopGet _ c _ _ => c
  | .mopDelete _ c _ => c
  | _ => 0

/-- A call of one of the external functions: client, key, arguments, and the local time that
    `do_lqdetect_write` would take. -/
structure Call where
  ip : Text
  key : Text
  query : Query
  hour : Nat
  min : Nat
  sec : Nat
  usec : Nat
deriving DecidableEq, Repr

/-- `struct lq_detect_argument` (lqdetect.c 58-63); `key` is meant only if `count` is 0. -/
structure Arg where
  query : Text
  key : Text
  count : Nat
  overhead : Nat
deriving DecidableEq, Repr

/-- `struct lq_detect_buffer` (lqdetect.c 66-71) with `arg[cmd]` (76), of which the first
    `nsaved` are listed here, oldest first.  `data` is the text in the buffer up to its NUL. -/
structure Buf where
  data : Text
  offset : Nat
  ntotal : Nat
  nsaved : Nat
  args : List Arg

/-- `lqdetect.stats.state` (lqdetect.c 20-22). -/
inductive State where
  | explicitStop | overflowStop | running
deriving DecidableEq, Repr

/-- `struct lq_detect_global` (lqdetect.c 74-81) and `lqdetect_in_use` (39); dates left out. -/
structure LQ where
  buf : Cmd → Buf
  state : State
  threshold : Nat
  overflow : Nat
  inUse : Bool

/-- `lqdetect_init` (lqdetect.c 214-233), malloc succeeding. -/
def init : LQ :=
  { buf := fun _ => { data := [], offset := 0, ntotal := 0, nsaved := 0, args := [] },
    state := .explicitStop, threshold := 0, overflow := 0, inUse := false }

/-- `lqdetect_start` (lqdetect.c 243-273). -/
def start (s : LQ) (thr : Nat) : LQ :=
  if s.inUse then s
  else
    { buf := fun c => { s.buf c with ntotal := 0, nsaved := 0, offset := 0, args := [] },
      state := .running, threshold := if thr = 0 then 4000 else thr, overflow := 0, inUse := true }

/-- `do_lqdetect_stop` (lqdetect.c 154-161). -/
def doStop (s : LQ) (cause : State) : LQ := { s with state := cause, inUse := false }

/-- `lqdetect_stop` (lqdetect.c 275-284). -/
def stop (s : LQ) : LQ := if s.inUse then doStop s .explicitStop else s

/-- The key that is shown (lqdetect.c 128-136). -/
def keyPtr (k : Text) : Text :=
  if k.length > 250 then cut 251 (k.take 124 ++ "...".toList ++ (k.drop (k.length - 123)).take 123) else k

/-- The three commands for which the count decides whether keys are compared
    (lqdetect.c 101-103). -/
def keyed : Cmd → Bool
  | .sopGet | .mopGet | .mopDelete => true
  | _ => false

/-- `is_command_duplicated` (lqdetect.c 83-118), without the copy of the key. -/
def duplicated (b : Buf) (cmd : Cmd) (key : Text) (a : Arg) : Bool :=
  b.args.any (fun o => o.query == a.query && (!(keyed cmd) || (decide (a.count > 0)) || o.key == key))

/-- The text of one line (lqdetect.c 146-148). -/
def lineText (cmd : Cmd) (c : Call) (a : Arg) (key : Text) : Text :=
  pad 2 c.hour ++ ':' :: pad 2 c.min ++ ':' :: pad 2 c.sec ++ '.' :: pad 6 c.usec ++ ' ' :: c.ip
    ++ " <".toList ++ dec a.overhead ++ "> ".toList ++ cmdStr cmd ++ ' ' :: key ++ ' ' :: a.query
    ++ ['\n']

/-- `do_lqdetect_write` (lqdetect.c 120-152).  `none` if the 20 slots or the 10000 bytes of the
    buffer are exceeded, or if there is no room at all for the text. -/
def write (b : Buf) (cmd : Cmd) (c : Call) (a : Arg) : Option Buf :=
  let key := keyPtr c.key
  if duplicated b cmd key a then some b
  else
    let length := (b.nsaved + 1) * 500
    if b.nsaved ≥ 20 ∨ length > 10000 ∨ length ≤ b.offset then none
    else
      let t := cut (length - b.offset) (lineText cmd c a key)
      some { b with
        data := b.data.take b.offset ++ t, offset := b.offset + t.length, nsaved := b.nsaved + 1,
        args := b.args ++ [{ a with key := if keyed cmd && a.count == 0 then cut 251 key else [] }] }

/-- `do_lqdetect_save_cmd` (lqdetect.c 163-183). -/
def save (s : LQ) (c : Call) (a : Arg) : Option LQ :=
  if s.inUse then do
    let cmd := c.query.cmd
    let b : Buf := { s.buf cmd with ntotal := ((s.buf cmd).ntotal + 1) % 4294967296 }
    if b.nsaved < 20 then do
      let b ← write b cmd c a
      let s := { s with buf := fun x => if x = cmd then b else s.buf x }
      if b.nsaved ≥ 20 then
        let s := { s with overflow := s.overflow + 1 }
        some (if s.overflow ≥ 10 then doStop s .overflowStop else s)
      else some s
    else some { s with buf := fun x => if x = cmd then b else s.buf x }
  else some s

/-- The external functions (lqdetect.c 346-471), called while `lqdetect_in_use`
    (memcached.c 1667, 1980, 2124, 10637, 10753, 11029, 11409, 11461, 11713, 11966). -/
def call (s : LQ) (c : Call) : Option LQ :=
  if s.inUse then do
    let o ← c.query.overhead
    if o ≥ s.threshold then do
      let t ← c.query.text
      save s c { query := t, key := [], count := c.query.count, overhead := o }
    else some s
  else some s

/-- What may happen, one after another. -/
inductive Event where
  | start (thr : Nat)
  | stop
  | call (c : Call)
deriving DecidableEq, Repr

/-- One event. -/
def step (s : LQ) : Event → Option LQ
  | .start t => some (start s t)
  | .stop => some (stop s)
  | .call c => call s c

/-- A sequence of events. -/
def run (s : LQ) : List Event → Option LQ
  | [] => some s
  | e :: es => do
    let s ← step s e
    run s es

/-- The loop of `lqdetect_result_get` (lqdetect.c 332-338), writing into a buffer of `length`
    bytes of which `out` are used: `none` if a print would be cut. -/
def showLoop (s : LQ) (length : Nat) : List Cmd → Text → Option Text
  | [], out => some out
  | c :: cs, out =>
    let b := s.buf c
    let out := out ++ (cmdStr c ++ " : ".toList ++ dec b.ntotal ++ ['\n'])
    let out := if b.ntotal > 0 then out ++ b.data else out
    if out.length + 1 > length then none else showLoop s length cs out

/-- `lqdetect_result_get` (lqdetect.c 320-344). -/
def showText (s : LQ) : Option Text :=
  showLoop s (320 + (cmds.map (fun c => (s.buf c).offset)).sum) cmds []

/-- What `lqdetect_stats` shows (lqdetect.c 286-318): state, total (an `int`, which wraps) and
    threshold; times left out. -/
def stats (s : LQ) : State × Int × Nat :=
  (s.state, (BitVec.ofNat 32 (cmds.map (fun c => (s.buf c).ntotal)).sum).toInt, s.threshold)

/-! ### What the list commands visit -/

/-- Steps of `do_list_elem_find` (coll_list.c 158-176). -/
def findSteps (ccnt index : Int) : Nat :=
  if index ≤ ccnt / 2 then index.toNat else (ccnt - 1 - index).toNat

/-- Elements visited by `lop get` on a list of `ccnt` elements, and how many it returns
    (coll_list.c 254-279, 550-566); `none` if it finds none. -/
def lopGetVisits (ccnt from_ to_ : Int) : Option (Nat × Nat) :=
  match Verif.Lst.adjustRange ccnt from_ to_ with
  | none => none
  | some (f, t) =>
    let count := ((if f ≤ t then t - f else f - t) + 1).toNat
    some (findSteps ccnt f + count, count)

/-- Elements visited by `lop delete`, and how many it deletes (coll_list.c 233-252,
    495-506). -/
def lopDeleteVisits (ccnt from_ to_ : Int) : Option (Nat × Nat) :=
  match Verif.Lst.adjustRange ccnt from_ to_ with
  | none => none
  | some (f, t) =>
    let count := ((if f ≤ t then t - f else f - t) + 1).toNat
    some (findSteps ccnt (if f ≤ t then f else t) + count, count)

/-- Elements visited by `lop insert` into a list of `ccnt` elements that is not full
    (coll_list.c 178-193, 281-346): the steps to the neighbour, and the new element; `none` if
    the index is out of range. -/
def lopInsertVisits (ccnt index : Int) : Option Nat :=
  if (index ≥ 0 ∧ index > ccnt) ∨ (index < 0 ∧ -index > ccnt + 1) then none
  else
    let i := if index < 0 then (if index + (ccnt + 1) < 0 then 0 else index + (ccnt + 1)) else index
    some ((if i = 0 then 0 else if i ≥ ccnt then 0 else findSteps ccnt (i - 1)) + 1)

/-! ### Threads -/

/-- Where a worker thread is within a call: the check of `lqdetect_in_use` (memcached.c 1667 and
    so on), the check of the threshold (lqdetect.c 349 and so on) and the work under the lock
    (lqdetect.c 167-182) are separate steps. -/
inductive Pc where
  | idle
  | checked (c : Call)
  | long (c : Call)
deriving DecidableEq, Repr

/-- All threads: the state, the lock (held by `lqdetect_start` between its two steps, with
    the threshold to be set), and each worker.  The work under the lock other than that of
    `lqdetect_start` is one step, since nothing of it is read without the lock. -/
structure Sys where
  lq : LQ
  starting : Option Nat
  pc : Nat → Pc

/-- Steps of the threads. -/
inductive Act where
  | check (w : Nat) (c : Call)
  | compare (w : Nat)
  | save (w : Nat)
  | clear (thr : Nat)
  | begin_
  | stop
deriving DecidableEq, Repr

/-- One step; `none` for a fault.  A thread that cannot go on (lock taken, wrong place) does
    not move.  `clear` is `lqdetect_start` up to and including the memset (lqdetect.c 246-261),
    which leaves a threshold of 0 that is read without the lock; `begin_` is the rest
    (262-271). -/
def Sys.step (s : Sys) : Act → Option Sys
  | .check w c =>
    match s.pc w with
    | .idle =>
      if s.lq.inUse then some { s with pc := fun x => if x = w then .checked c else s.pc x } else some s
    | _ => some s
  | .compare w =>
    match s.pc w with
    | .checked c => do
      let o ← c.query.overhead
      some { s with pc := fun x => if x = w then (if o ≥ s.lq.threshold then .long c else .idle) else s.pc x }
    | _ => some s
  | .save w =>
    match s.pc w, s.starting with
    | .long c, none => do
      let o ← c.query.overhead
      let t ← c.query.text
      let l ← LqDetect.save s.lq c { query := t, key := [], count := c.query.count, overhead := o }
      some { s with lq := l, pc := fun x => if x = w then .idle else s.pc x }
    | _, _ => some s
  | .clear thr =>
    match s.starting with
    | none =>
      if s.lq.inUse then some s
      else some { s with
        starting := some thr,
        lq := { s.lq with
          buf := fun c => { s.lq.buf c with ntotal := 0, nsaved := 0, offset := 0, args := [] },
          state := .explicitStop, threshold := 0 } }
    | some _ => some s
  | .begin_ =>
    match s.starting with
    | some thr => some { s with
        starting := none,
        lq := { s.lq with
          state := .running, threshold := if thr = 0 then 4000 else thr, overflow := 0, inUse := true } }
    | none => some s
  | .stop =>
    match s.starting with
    | none => some { s with lq := LqDetect.stop s.lq }
    | some _ => some s

/-- Any interleaving of steps. -/
def Sys.run (s : Sys) : List Act → Option Sys
  | [] => some s
  | a :: as => do
    let s ← s.step a
    Sys.run s as

/-- All threads at the beginning. -/
def Sys.init : Sys := { lq := LqDetect.init, starting := none, pc := fun _ => .idle }

end Verif.LqDetect
