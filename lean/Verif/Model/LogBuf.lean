/-! # Command log buffer, flush requests, dual write, group commit
(cmdlogbuf.c, cmdlogfile.c 139-321, cmdlogmgr.c 362-392 and 698-715, checkpoint.c 233-286)

The threads are interleaved at the granularity of their locks: what `log_write_lock` protects is one
step; the flusher is at most one thread at a time (`log_flush_lock`) and runs through the stages of
`Flight`.  `none` is a failed assertion or an access outside of the memory.  Sizes and offsets do not
overflow: the buffer has 100 MB, log sequence numbers have 64 bits.  Writing to a file does not
fail. -/
namespace Verif.LogBuf

abbrev Bytes := List Nat

/-- `log_FREQ`, cmdlogbuf.c 39-43. -/
structure Req where
  n : Nat
  dual : Bool
deriving DecidableEq, Repr

/-- `LogSN`, cmdlogrec.h 32-35. -/
structure LSN where
  file : Nat
  off : Nat
deriving DecidableEq, Repr

/-- LOGSN_IS_LE, cmdlogrec.h 49-51. -/
def LSN.le (a b : LSN) : Bool := a.file < b.file || (a.file = b.file && a.off ≤ b.off)

/-- CMDLOG_FLUSH_AUTO_SIZE, cmdlogbuf.c 33. -/
def auto : Nat := 32768

/-- `log_BUFFER`, cmdlogbuf.c 46-63.  `last`, `dwEnd`: `none` is -1. -/
structure Buf where
  data : Nat → Nat
  size : Nat
  head : Nat
  tail : Nat
  last : Option Nat
  fque : Nat → Req
  fqsz : Nat
  fbgn : Nat
  fend : Nat
  dwEnd : Option Nat
  dwSize : Nat

/-- Where the flusher is in `do_log_buff_flush`, cmdlogbuf.c 112-180. -/
inductive Flight where
  /-- not inside (the flush lock is free) -/
  | idle
  /-- behind 146 with `dual_write_complete_flag`: the dual write size, then the request -/
  | comp (size n : Nat) (dual : Bool)
  /-- in front of 159 -/
  | put (n : Nat) (dual : Bool)
  /-- in front of 162 -/
  | lsn (n : Nat)
  /-- in front of 167 -/
  | fin (n : Nat)
deriving DecidableEq, Repr

/-- `log_FILE`, cmdlogfile.c 34-41, with the contents of the files.  `prev_fd` is left out. -/
structure Files where
  cur : Bytes
  size : Nat
  next : Option Bytes
  nextSize : Nat
deriving DecidableEq, Repr

/-- Where the checkpoint thread is: `do_checkpoint`, checkpoint.c 233-286, `do_snapshot_action`,
chkpt_snapshot.c 341-425, and the wait for the previous checkpoint, checkpoint.c 328-346. -/
inductive Chk where
  | idle
  /-- the new log file is open (checkpoint.c 249) -/
  | opened
  /-- `chkpt_scanp` is set (cmdlogmgr.c 698-706) -/
  | scanning
  /-- the snapshot is complete; waiting for the end of the dual write -/
  | waiting
  /-- the snapshot failed; the new log file is not closed yet (checkpoint.c 269) -/
  | failed
deriving DecidableEq, Repr

/-- All of it.  `sync` is the number `now_flush_lsn` the fsync thread has read; `durable` is how many
bytes of the current file have been fsynced. -/
structure St where
  buf : Buf
  flight : Flight
  nxtWrite : LSN
  nxtFlush : LSN
  uptFlush : LSN
  nxtFsync : LSN
  files : Files
  chk : Chk
  sync : Option LSN
  durable : Nat

/-- `cmdlog_buf_init`, cmdlogbuf.c 412-468 (CMDLOG_BUFFER_SIZE and the length of the queue are
parameters; `data` are the unset bytes), with an empty log file and no checkpoint. -/
def init (data : Nat → Nat) (size fqsz : Nat) : St :=
  { buf := { data := data, size := size, head := 0, tail := 0, last := none,
             fque := fun _ => ⟨0, false⟩, fqsz := fqsz, fbgn := 0, fend := 0,
             dwEnd := none, dwSize := 0 },
    flight := .idle, nxtWrite := ⟨1, 0⟩, nxtFlush := ⟨1, 0⟩, uptFlush := ⟨0, 0⟩, nxtFsync := ⟨0, 0⟩,
    files := { cur := [], size := 0, next := none, nextSize := 0 },
    chk := .idle, sync := none, durable := 0 }

/-- `if ((++i) == logbuff->fqsz) i = 0`, e.g. cmdlogbuf.c 137. -/
def inc (fqsz i : Nat) : Nat := if i + 1 = fqsz then 0 else i + 1

/-- Closing of the open flush request, cmdlogbuf.c 206-208, 273-275. -/
def bump (b : Buf) : Buf :=
  if 0 < (b.fque b.fend).n then { b with fend := inc b.fqsz b.fend } else b

/-- Bytes of memory. -/
def slice (f : Nat → Nat) (a n : Nat) : Bytes := (List.range n).map fun i => f (a + i)

/-- Copy into memory. -/
def blit (f : Nat → Nat) (a : Nat) (d : Bytes) : Nat → Nat :=
  fun i => if h : a ≤ i ∧ i - a < d.length then d[i - a]'h.2 else f i

/-- One turn of the search for a position, cmdlogbuf.c 194-218: `true` if the record fits at `tail`.
Otherwise the writer flushes and tries again. -/
def place (b : Buf) (len : Nat) : Option (Buf × Bool) :=
  if b.head ≤ b.tail then
    if b.last ≠ none then none
    else if len < b.size - b.tail then some (b, true)
    else if 0 < b.head then some (bump { b with last := some b.tail, tail := 0 }, decide (len < b.head))
    else some (b, false)
  else if b.last = none then none
  else some (b, decide (len < b.head - b.tail))

/-- The flush requests for a record of `len` bytes, cmdlogbuf.c 243-254.  `fuel` bounds the number of
turns (the loop does not end if it runs out, e.g. if nothing is spare). -/
def enqueue : Nat → Buf → Nat → Bool → Option Buf
  | _, b, 0, _ => some b
  | 0, _, _ + 1, _ => none
  | fuel + 1, b, len + 1, dual =>
    let r := b.fque b.fend
    if auto < r.n then none
    else
      let spare := min (auto - r.n) (len + 1)
      let b1 := { b with fque := fun i => if i = b.fend then ⟨r.n + spare, dual⟩ else b.fque i }
      let b2 := if r.n + spare = auto then { b1 with fend := inc b.fqsz b.fend } else b1
      enqueue fuel b2 (len + 1 - spare) dual

/-- `do_log_buff_write` behind the search, cmdlogbuf.c 227-254. -/
def commit (s : St) (b : Buf) (rec : Bytes) (dual : Bool) : Option (St × Option LSN) :=
  if b.size < b.tail + rec.length then none
  else
    let b1 := { b with data := blit b.data b.tail rec, tail := b.tail + rec.length,
                       dwSize := if dual then b.dwSize + rec.length else b.dwSize }
    let r := b.fque b.fend
    let b2 := if 0 < r.n ∧ r.dual ≠ dual then { b1 with fend := inc b.fqsz b.fend } else b1
    match enqueue rec.length b2 rec.length dual with
    | none => none
    | some b3 => some ({ s with buf := b3,
                                nxtWrite := ⟨s.nxtWrite.file, s.nxtWrite.off + rec.length⟩ },
                       some s.nxtWrite)

/-- One attempt of `do_log_buff_write`, cmdlogbuf.c 182-265: the log sequence number of the record, or
`none` if there is no room and the writer has to flush. -/
def write (s : St) (rec : Bytes) (dual : Bool) : Option (St × Option LSN) :=
  if ¬ rec.length < s.buf.size then none
  else
    match place s.buf rec.length with
    | none => none
    | some (b, false) => some ({ s with buf := b }, none)
    | some (b, true) => commit s b rec dual

/-- `do_log_buff_flush_requested`, cmdlogbuf.c 100-110. -/
def requested (s : St) : Bool := s.nxtFlush.le s.uptFlush

/-- The choice of the request, cmdlogbuf.c 128-139: size 0 if there is nothing to flush. -/
def choose (s : St) (b : Buf) (all : Bool) : Option (Buf × Req) :=
  if b.fbgn ≠ b.fend then
    if (b.fque b.fbgn).n = 0 then none else some (b, b.fque b.fbgn)
  else if 0 < (b.fque b.fend).n ∧ (all ∨ requested s) then
    some ({ b with fend := inc b.fqsz b.fend }, b.fque b.fend)
  else some (b, ⟨0, false⟩)

/-- `if (logbuff->head == logbuff->last)`, cmdlogbuf.c 141-144, 169-172. -/
def wrapHead (b : Buf) : Buf := if b.last = some b.head then { b with last := none, head := 0 } else b

/-- `do_log_buff_flush` up to line 146.  The flush lock is free. -/
def take (s : St) (all : Bool) : Option St :=
  let b0 := if s.buf.dwEnd = some s.buf.fbgn then { s.buf with dwSize := 0, dwEnd := none } else s.buf
  match choose s b0 all with
  | none => none
  | some (b, r) =>
    let b1 := if 0 < r.n then wrapHead b else b
    some { s with
      buf := b1
      flight := if s.buf.dwEnd = some s.buf.fbgn then .comp s.buf.dwSize r.n r.dual
        else if 0 < r.n then .put r.n r.dual else .idle }

/-- `cmdlog_file_complete_dual_write`, cmdlogfile.c 176-194. -/
def Files.complete (f : Files) : Files :=
  match f.next with
  | none => f
  | some x => { cur := x, size := f.nextSize, next := none, nextSize := 0 }

/-- `cmdlog_file_write`, cmdlogfile.c 141-174. -/
def Files.write (f : Files) (d : Bytes) (dual : Bool) : Files :=
  let f1 := { f with cur := f.cur ++ d, size := f.size + d.length }
  match dual, f.next with
  | true, some x => { f1 with next := some (x ++ d), nextSize := f.nextSize + d.length }
  | _, _ => f1

/-- The next stage of the flusher, cmdlogbuf.c 148-178. -/
def flush (s : St) : Option St :=
  match s.flight with
  | .idle => some s
  | .comp size n dual =>
    let f := s.files.complete
    if size = f.size then
      some { s with files := f, nxtFlush := ⟨s.nxtFlush.file + 1, size⟩, durable := 0,
                    flight := if 0 < n then .put n dual else .idle }
    else none
  | .put n dual =>
    if s.buf.head + n ≤ s.buf.size then
      some { s with files := s.files.write (slice s.buf.data s.buf.head n) dual, flight := .lsn n }
    else none
  | .lsn n => some { s with nxtFlush := ⟨s.nxtFlush.file, s.nxtFlush.off + n⟩, flight := .fin n }
  | .fin n =>
    let b := wrapHead { s.buf with head := s.buf.head + n }
    some { s with
      buf := { b with fque := fun i => if i = b.fbgn then ⟨0, false⟩ else b.fque i,
                      fbgn := inc b.fqsz b.fbgn }
      flight := .idle }

/-- A whole call of `do_log_buff_flush`, cmdlogbuf.c 112-180, with no writer in between: the choice and
the (at most four) stages of the flusher.  Called by the flusher thread (`all` false, 316-318), by a
writer without room (`all` false, 219-224) and at shutdown (`all` true, once, 477). -/
def flushOnce (s : St) (all : Bool) : Option St :=
  (take s all).bind fun s1 => (flush s1).bind fun s2 => (flush s2).bind fun s3 =>
    (flush s3).bind flush

/-- `n` calls, one behind the other. -/
def flushes (all : Bool) : Nat → St → Option St
  | 0, s => some s
  | n + 1, s => (flushOnce s all).bind (flushes all n)

/-- `do_log_buff_write`, cmdlogbuf.c 182-265, with the calls of the flush in its loop, at most `n`
turns.  No other thread is running. -/
def attempts : Nat → St → Bytes → Bool → Option (St × Option LSN)
  | 0, s, _, _ => some (s, none)
  | n + 1, s, rec, dual =>
    match write s rec dual with
    | none => none
    | some (s1, some q) => some (s1, some q)
    | some (s1, none) => (flushOnce s1 false).bind fun s2 => attempts n s2 rec dual

/-- The reset of the dual write flags, cmdlogbuf.c 288-295: `fuel` is the length of the queue. -/
def clearDual : Nat → Buf → Nat → Buf
  | 0, b, _ => b
  | fuel + 1, b, i =>
    if 0 < (b.fque i).n then
      let b1 := { b with fque := fun j => if j = i then ⟨(b.fque i).n, false⟩ else b.fque j }
      if inc b.fqsz i = b.fbgn then b1 else clearDual fuel b1 (inc b.fqsz i)
    else b

/-- `cmdlog_reset_chkpt_scan` and `do_log_buff_complete_dual_write` with success,
cmdlogmgr.c 708-715, cmdlogbuf.c 272-282. -/
def completeOk (s : St) : Option St :=
  let b := bump s.buf
  if b.dwEnd ≠ none then none
  else some { s with buf := { b with dwEnd := some b.fend },
                     nxtWrite := ⟨s.nxtWrite.file + 1, b.dwSize⟩, chk := .waiting }

/-- The same for a failed snapshot, cmdlogbuf.c 283-296. -/
def completeFail (s : St) : St :=
  { s with buf := clearDual s.buf.fqsz { s.buf with dwSize := 0 } s.buf.fbgn, chk := .failed }

/-- The steps of the threads. -/
inductive Act where
  /-- a client thread: one attempt to write a record -/
  | write (rec : Bytes) (dual : Bool)
  /-- the flusher (or a writer without room, or `cmdlog_buff_flush_direct` with `all`) enters -/
  | take (all : Bool)
  /-- the flusher goes on -/
  | flush
  /-- `cmdlog_buff_flush_request`, cmdlogbuf.c 375-391 -/
  | request (l : LSN)
  /-- checkpoint thread: `cmdlog_file_open`, cmdlogfile.c 271-296, with a file open already -/
  | openNext
  /-- checkpoint thread: `cmdlog_set_chkpt_scan` -/
  | scan
  /-- checkpoint thread: the snapshot ends -/
  | complete (ok : Bool)
  /-- checkpoint thread: `cmdlog_file_close` after a failure, cmdlogfile.c 298-321: `next_size` stays -/
  | close
  /-- checkpoint thread: `cmdlog_file_dual_write_finished`, cmdlogfile.c 196-206 -/
  | finished
  /-- fsync thread: `cmdlog_file_sync` up to the fsync, cmdlogfile.c 217-232 -/
  | syncBegin
  /-- fsync thread: the fsync and the update of `nxt_fsync_lsn`, 239-265; the file is the one that was
  current at `syncBegin` -/
  | syncEnd
deriving DecidableEq, Repr

/-- One step; a step of a thread that is not enabled (lock held, other place in the code) changes
nothing.  The second component is the log sequence number given out. -/
def step (s : St) : Act → Option (St × Option LSN)
  | .write rec dual => write s rec dual
  | .take all =>
    match s.flight with
    | .idle => (take s all).map fun s' => (s', none)
    | _ => some (s, none)
  | .flush => (flush s).map fun s' => (s', none)
  | .request l =>
    if s.nxtFlush.le l ∧ s.uptFlush.le l then some ({ s with uptFlush := l }, none) else some (s, none)
  | .openNext =>
    if s.chk = .idle then
      some ({ s with files := { s.files with next := some [] }, chk := .opened }, none)
    else some (s, none)
  | .scan => if s.chk = .opened then some ({ s with chk := .scanning }, none) else some (s, none)
  | .complete ok =>
    if s.chk = .scanning then
      if ok then (completeOk s).map fun s' => (s', none) else some (completeFail s, none)
    else some (s, none)
  | .close =>
    if s.chk = .opened ∨ s.chk = .failed then
      some ({ s with files := { s.files with next := none }, chk := .idle }, none)
    else some (s, none)
  | .finished =>
    if s.chk = .waiting ∧ s.files.next = none then some ({ s with chk := .idle }, none)
    else some (s, none)
  | .syncBegin =>
    match s.sync with
    | none => some ({ s with sync := some s.nxtFlush }, none)
    | some _ => some (s, none)
  | .syncEnd =>
    match s.sync with
    | none => some (s, none)
    | some l =>
      if l.le s.nxtFsync then some ({ s with sync := none }, none)
      else some ({ s with sync := none, nxtFsync := l,
                          durable := if l.file = s.nxtFlush.file then s.files.cur.length
                            else s.durable }, none)

end Verif.LogBuf
