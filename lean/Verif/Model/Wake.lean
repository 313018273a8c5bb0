/-! # Model: replies that wait for the log, and the wake-up of their connections

One worker thread with its connections, the thread that accepts connections, the other workers, and the group commit thread
(thread.c 319-597, memcached.c 590-722, 887-949, 14180-14200, 14288-14308, engines/default/cmdlogmgr.c 180-392).
A step of the model is what a thread does between two places where another thread can come in: it takes and gives back a lock once, or touches
shared data once.

Simplified: log sequence numbers are numbers; one record for each update; memory of waiters does not run out (cmdlog_waiter_begin). -/
namespace Verif.Wake

/-- What decides whether a command is answered at once: `c->noreply` is set by `noreply` and by `pipe` alike (memcached.c 7951-7993); the
answer to a command with `pipe` is kept and sent with the answer to the last command of the pipeline (memcached.c 1437-1481, 1545-1568). -/
inductive Mode where
  | answer | quiet | pipe
deriving DecidableEq, Repr

/-- `get_noreply` (memcached.c 15161-15165) for a command of the mode. -/
def Mode.noreply : Mode → Bool
  | .answer => false
  | .quiet => true
  | .pipe => true

/-- The part of `struct conn` for waiting (memcached.h 434-471): `opened`: `c->thread != NULL`; `closing`: `c->state == conn_closing`; `wait`:
`current_io_wait`; `early`: `premature_io_complete`; `blocked`: `io_blocked`; `would`: `ewouldblock`; `watched`: the event of the connection is
in the event loop. -/
structure Conn where
  opened : Bool
  closing : Bool
  wait : Nat
  early : Nat
  blocked : Bool
  would : Bool
  watched : Bool
deriving DecidableEq, Repr

/-- A connection just made by `conn_new` (memcached.c 590-722), and linked to its thread (thread.c 361-368). -/
def fresh : Conn := ⟨true, false, 0, 0, false, false, true⟩

/-- An object of the connection cache without connection: what `conn_cleanup` and `conn_close` leave (memcached.c 887-898, 938-948). -/
def unused : Conn := ⟨false, true, 0, 0, false, false, false⟩

/-- Where the worker is with a command: in the state machine, with no engine call to settle (`ready`); the engine call is made, its log record
has the number (`none` for a call that failed), and `cmdlog_waiter_end` comes (`wrote`); `waitfor_io_complete` is done and the waiter has to be
added to the list (`enq`, cmdlogmgr.c 375-382); the engine call is over and the end of `conn_parse_cmd` or `conn_nread` comes (`called`). -/
inductive Phase where
  | ready
  | wrote (m : Mode) (l : Option Nat)
  | enq (l : Nat)
  | called
deriving DecidableEq, Repr

/-- Where the worker is: in the event loop; in `thread_libevent_process` after reading the pipe (thread.c 336-372); running the connection, with
the rest of its list `pending` (thread.c 374-387; the rest is empty for a connection run because of an event of its own). -/
inductive Pc where
  | loop
  | woken
  | run (c : Nat) (rest : List Nat) (ph : Phase)
deriving DecidableEq, Repr

/-- The state: the worker and its connections; `cq`: the queue of new connections, by its length; `bytes`: what is in the notification pipe;
`newKicks`, `ioKicks`: bytes that the accepting thread and `notify_io_complete` still have to write; `pend`: `thr->pending_io`;
`queue`: the waiters for the group commit with their numbers, `none` for a connection of another worker (`wait_head`); `batch`: waiters taken by
`do_cmdlog_get_commit_waiter` and not yet called back; `nxt`: the number of the next log record; `synced`: `nxt_fsync_lsn`.
Simplified: the list `pending_io`, linked by `conn->next`, is a list; where a connection would be in two lists with its one field `next`,
the model has a fault. -/
structure St where
  conn : Nat → Conn
  pc : Pc
  cq : Nat
  bytes : Nat
  newKicks : Nat
  ioKicks : Nat
  pend : List Nat
  queue : List (Option Nat × Nat)
  batch : List (Option Nat × Nat)
  nxt : Nat
  synced : Nat

/-- The server after its start (setup_thread, thread.c 218-275; cmdlog_waiter_init, cmdlogmgr.c 399-423). -/
def init : St := ⟨fun _ => unused, .loop, 0, 0, 0, 0, [], [], [], 0, 0⟩

/-- The result of a step: the thread is not there (`off`), an `assert` or a broken list (`fault`), or the next state. -/
inductive Res where
  | off
  | fault
  | ok (s : St)

/-- What a thread does next.  The accepting thread puts a connection into the queue (`push`) and writes to the pipe (`kickNew`)
(thread.c 607-636); `notify_io_complete` writes to the pipe (`kickIo`, thread.c 566-571); the worker reads from the pipe and takes a new
connection, for which the connection cache gives the object (`read`, `none` if `conn_new` fails), takes the list (`take`), gets an event of a
connection (`event`), makes an engine call (`call`), ends it (`finish`, `enqueue`), decides about blocking (`check`), sends the answer (`reply`),
goes back to wait for the client (`leave`), decides to close (`quit`), closes (`close`); another worker makes an update (`other`) and waits for it
(`otherEnqueue`); the log is synced (`sync`); the group commit thread takes waiters (`collect`) and calls one back (`notify`). -/
inductive Act where
  | push | kickNew | kickIo
  | read (c : Option Nat)
  | take
  | event (c : Nat)
  | call (m : Mode) (ok : Bool)
  | finish | enqueue | check | reply | leave | quit | close
  | other
  | otherEnqueue (l : Nat)
  | sync (n : Nat)
  | collect | notify
deriving DecidableEq, Repr

/-- Assignment to the fields of a connection (C struct assignment, as in thread.c 447-451). -/
def St.set (s : St) (c : Nat) (k : Conn) : St := { s with conn := fun i => if i = c then k else s.conn i }

/-- The rest of the list `pending` of `thread_libevent_process` (thread.c 373-379). -/
def Pc.rest : Pc → List Nat
  | .run _ r _ => r
  | _ => []

/-- One turn of the loop over `pending`, or its end (thread.c 375-387). -/
def St.next (s : St) : List Nat → Res
  | [] => .ok { s with pc := .loop }
  | c :: rest =>
    if (s.conn c).opened then .ok { s.set c { s.conn c with watched := true } with pc := .run c rest .ready } else .fault

/-- `c->next != NULL` for a connection of the list. -/
def hasNext (l : List Nat) (c : Nat) : Bool := decide (1 < (l.dropWhile (· != c)).length)

/-- `should_io_blocked` (thread.c 439-465), called with `ewouldblock` cleared (memcached.c 14193-14198, 14301-14306). -/
def St.block (s : St) (c : Nat) : St × Bool :=
  let k := s.conn c
  if 0 < k.wait then (s.set c { k with would := false, watched := false, blocked := true }, true)
  else (s.set c { k with would := false }, false)

/-- `notify_io_complete` (thread.c 497-564) without the write to the pipe.
Simplified: the check without lock (thread.c 510-514) and the one with it are one. -/
def St.notify (s : St) (c : Nat) : Res :=
  let k := s.conn c
  if !k.opened || k.closing then .ok s
  else if 0 < k.wait then
    if k.wait = 1 ∧ k.blocked then
      let s' := s.set c { k with wait := 0, blocked := false }
      if c ∈ s.pend then (if s.pend.count c = 1 then .ok s' else .fault)
      else if c ∈ s.pc.rest then .fault
      else .ok { s' with pend := c :: s.pend, ioKicks := if s.pend = [] then s.ioKicks + 1 else s.ioKicks }
    else .ok (s.set c { k with wait := k.wait - 1 })
  else .ok (s.set c { k with early := k.early + 1 })

/-- `waitfor_io_complete` (thread.c 467-483). -/
def St.waitFor (s : St) (c : Nat) : St :=
  let k := s.conn c
  s.set c (if 0 < k.early then { k with early := k.early - 1 } else { k with wait := k.wait + 1 })

/-- `do_cmdlog_get_commit_waiter` (cmdlogmgr.c 180-218): the waiters from the head of the list that are synced (`LOGSN_IS_LE`, cmdlogmgr.c 196). -/
def collected (synced : Nat) (q : List (Option Nat × Nat)) : List (Option Nat × Nat) × List (Option Nat × Nat) :=
  (q.takeWhile fun w => !decide (synced ≤ w.2), q.dropWhile fun w => !decide (synced ≤ w.2))

/-- One step.  Cited at the steps. -/
def step (s : St) : Act → Res
  -- cq_push and the write of dispatch_conn_new (thread.c 607-636)
  | .push => .ok { s with cq := s.cq + 1, newKicks := s.newKicks + 1 }
  | .kickNew => if s.newKicks = 0 then .off else .ok { s with newKicks := s.newKicks - 1, bytes := s.bytes + 1 }
  -- thread.c 566-571
  | .kickIo => if s.ioKicks = 0 then .off else .ok { s with ioKicks := s.ioKicks - 1, bytes := s.bytes + 1 }
  -- thread.c 336-370
  | .read o =>
    if s.pc ≠ .loop ∨ s.bytes = 0 then .off
    else
      let s' := { s with pc := .woken, bytes := s.bytes - 1, cq := s.cq - 1 }
      if s.cq = 0 then .ok s'
      else match o with
        | none => .ok s'
        | some c => if (s.conn c).opened then .off else .ok (s'.set c fresh)
  -- thread.c 372-379
  | .take => if s.pc ≠ .woken then .off else { s with pend := [] }.next s.pend
  -- event_handler (memcached.c 14503-14547)
  | .event c =>
    if s.pc ≠ .loop ∨ (s.conn c).opened = false ∨ (s.conn c).watched = false then .off
    else .ok { s with pc := .run c [] .ready }
  -- an engine call with its log record (engines/default/items.c 321-353 and its kind)
  | .call m ok =>
    match s.pc with
    | .run c rest .ready =>
      if (s.conn c).closing then .off
      else .ok { s with pc := .run c rest (.wrote m (if ok then some s.nxt else none)), nxt := if ok then s.nxt + 1 else s.nxt }
    | .run c rest .called =>
      .ok { s with pc := .run c rest (.wrote m (if ok then some s.nxt else none)), nxt := if ok then s.nxt + 1 else s.nxt }
    | _ => .off
  -- cmdlog_waiter_end up to waitfor_io_complete (cmdlogmgr.c 362-378)
  | .finish =>
    match s.pc with
    | .run c rest (.wrote m (some l)) =>
      if m.noreply = false ∧ s.synced ≤ l then .ok { s.waitFor c with pc := .run c rest (.enq l) }
      else .ok { s with pc := .run c rest .called }
    | .run c rest (.wrote _ none) => .ok { s with pc := .run c rest .called }
    | _ => .off
  -- cmdlogmgr.c 380-387, CONN_CHECK_AND_SET_EWOULDBLOCK (memcached.h 498-503)
  | .enqueue =>
    match s.pc with
    | .run c rest (.enq l) =>
      .ok { s.set c { s.conn c with would := true } with pc := .run c rest .called, queue := s.queue ++ [(some c, l)] }
    | _ => .off
  -- memcached.c 14193-14198, 14301-14306
  | .check =>
    match s.pc with
    | .run c rest .called =>
      if (s.conn c).would then
        let (s', b) := s.block c
        if b then s'.next rest else .ok { s' with pc := .run c rest .ready }
      else .ok { s with pc := .run c rest .ready }
    | _ => .off
  -- conn_mwrite (memcached.c 14408-14490)
  | .reply =>
    match s.pc with
    | .run c _ .ready => if (s.conn c).closing then .off else .ok s
    | _ => .off
  -- conn_waiting (memcached.c 14148-14158)
  | .leave =>
    match s.pc with
    | .run c rest .ready => if (s.conn c).closing then .off else s.next rest
    | _ => .off
  -- conn_set_state(c, conn_closing), as in memcached.c 13715
  | .quit =>
    match s.pc with
    | .run c _ .ready => .ok (s.set c { s.conn c with closing := true })
    | _ => .off
  -- conn_closing of TCP, conn_close, remove_io_pending (memcached.c 14492-14501, 900-949, thread.c 585-597)
  | .close =>
    match s.pc with
    | .run c rest .ready =>
      if (s.conn c).closing = false then .off
      else if hasNext s.pend c || hasNext rest c then .fault
      else { s.set c unused with pend := s.pend.erase c }.next rest
    | _ => .off
  -- the same engine call and end by another worker
  | .other => .ok { s with nxt := s.nxt + 1 }
  | .otherEnqueue l => if l < s.nxt then .ok { s with queue := s.queue ++ [(none, l)] } else .off
  -- cmdlog_file_sync (engines/default/cmdlogfile.c 208-269)
  | .sync n => if s.synced < n ∧ n ≤ s.nxt then .ok { s with synced := n } else .off
  -- cmdlogmgr.c 296-301
  | .collect =>
    if s.batch ≠ [] ∨ (collected s.synced s.queue).1 = [] then .off
    else .ok { s with batch := (collected s.synced s.queue).1, queue := (collected s.synced s.queue).2 }
  -- do_cmdlog_callback_and_free_waiters (cmdlogmgr.c 245-261)
  | .notify =>
    match s.batch with
    | [] => .off
    | (none, _) :: b => .ok { s with batch := b }
    | (some c, _) :: b => { s with batch := b }.notify c

end Verif.Wake
