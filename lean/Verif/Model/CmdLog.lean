/-
Command logging (cmdlog.c): a ring buffer into which all worker threads write their command lines, and a thread that writes it to files.

The steps of this model are the parts of the code that run under the lock of the buffer, and the steps of the flush thread between them; they
may follow one another in any order.
-/

namespace Verif.CmdLog

abbrev Bytes := List UInt8

/-- `CMDLOG_INPUT_SIZE` (cmdlog.c 31). -/
def inputSize : Nat := 400

/-- `CMDLOG_BUFFER_SIZE` (cmdlog.c 32). -/
def bufSize : Nat := 10 * 1024 * 1024

/-- `CMDLOG_WRITE_SIZE` (cmdlog.c 33). -/
def writeSize : Nat := 4 * 1024

/-- `CMDLOG_FILE_MAXSIZE` (cmdlog.c 35). -/
def fileMax : Nat := 10 * 1024 * 1024

/-- `CMDLOG_FILE_MAXNUM` (cmdlog.c 36). -/
def fileNum : Nat := 10

/-- The line that `cmdlog_write` puts together from the time, the address and the command, given here as one text `s` that ends with a line feed
(cmdlog.c 404-415): `snprintf` keeps 399 bytes of it and returns its whole length. -/
def fmt (s : Bytes) : Bytes :=
  let kept := s.take (inputSize - 1)
  if inputSize < s.length then kept.take (inputSize - 4) ++ [46, 46, 10] else kept

/-- Where the flush thread stands: it has ended with this cause (cmdlog.c 42-45), at the head of its loop (147), after it has read `tail` and `last`
(161-164), after it has written `n` bytes to the file and before it moves `head` (181-189, 197-205). -/
inductive Pc where
  | off (cause : Nat)
  | top
  | snap (t l : Nat)
  | wrote (n : Nat) (wrap : Bool)
  deriving DecidableEq, Repr

/-- The buffer, the flush thread and the statistics (cmdlog.c 47-90); `ready` says that `buffer.data` has been allocated, `nw` is `nwtotal`, the length of `files` is `file_count`. Added to the code:
`acc`, the lines that were put into the buffer since the start of the logging, and `seen`, how many of them there were when the flush thread
read `tail`. Left out: dates, names of files. The two counters are numbers without bound here, 32 bits there. -/
structure St where
  data : Nat → UInt8
  head : Nat
  tail : Nat
  last : Nat
  ready : Bool
  inUse : Bool
  reqstop : Bool
  pc : Pc
  fd : Bool
  nw : Nat
  files : List Bytes
  entered : Nat
  skipped : Nat
  acc : List Bytes
  seen : Nat

/-- `cmdlog_init` (cmdlog.c 231-248). -/
def init : St :=
  { data := fun _ => 0, head := 0, tail := 0, last := 0, ready := false, inUse := false, reqstop := false, pc := .off 0, fd := false, nw := 0, files := [],
    entered := 0, skipped := 0, acc := [], seen := 0 }

/-- What happens: a thread writes a line (it may have looked at `cmdlog_in_use` long before, memcached.c 13591), the logging is started or
stopped, the server shuts down, the flush thread goes on (`k`: `open` fails if it is 0, `write` writes at most `k` bytes). -/
inductive Ev where
  | write (s : Bytes)
  | start
  | stop
  | final
  | flush (k : Nat)
  deriving DecidableEq, Repr

/-- A step: an assertion fails and the server stops, or memory outside of the buffer would be touched; or the next state. -/
inductive Res where
  | fault
  | ok (s : St)

/-- `memcpy` into the buffer (cmdlog.c 426, 434). -/
def put (d : Nat → UInt8) (p : Nat) (b : Bytes) : Nat → UInt8 :=
  fun i => if p ≤ i ∧ i < p + b.length then b.getD (i - p) 0 else d i

/-- The bytes `a` to `b` of the buffer (cmdlog.c 181, 197). -/
def get (d : Nat → UInt8) (a b : Nat) : Bytes := (List.range (b - a)).map fun i => d (a + i)

/-- `cmdlog_write` from the lock on (cmdlog.c 417-441). The waking up of the flush thread has no effect here: it may go on at any time. -/
def write (s : St) (line : Bytes) : Res :=
  let s := { s with entered := s.entered + 1 }
  let s := if s.head ≤ s.tail ∧ bufSize - s.tail ≤ line.length then { s with last := s.tail, tail := 0 } else s
  if s.head ≤ s.tail then
    if s.last ≠ 0 then .fault
    else if ¬ line.length < bufSize - s.tail then .fault
    else .ok { s with data := put s.data s.tail line, tail := s.tail + line.length, acc := s.acc ++ [line] }
  else
    if s.last = 0 then .fault
    else if line.length < s.head - s.tail then
      if bufSize < s.tail + line.length then .fault
      else .ok { s with data := put s.data s.tail line, tail := s.tail + line.length, acc := s.acc ++ [line] }
    else .ok { s with skipped := s.skipped + 1 }

/-- The end of the flush thread (cmdlog.c 220-228). -/
def exit (s : St) (cause : Nat) : St := { s with inUse := false, fd := false, pc := .off cause }

/-- `write` to the file (cmdlog.c 181, 197): it goes to the last file. -/
def append : List Bytes → Bytes → List Bytes
  | [], b => [b]
  | [f], b => [f ++ b]
  | f :: g :: fs, b => f :: append (g :: fs) b

/-- `write` of `n` bytes from `head` on and the test of its result (cmdlog.c 181-187, 197-203). -/
def piece (s : St) (n : Nat) (wrap : Bool) (k : Nat) : Res :=
  if bufSize < s.head + n then .fault
  else if k < n then .ok (exit { s with files := append s.files (get s.data s.head (s.head + k)) } 2)
  else .ok { s with files := append s.files (get s.data s.head (s.head + n)), pc := .wrote n wrap }

/-- One part of the loop of `cmdlog_flush_thread` (cmdlog.c 147-218). -/
def flush (s : St) (k : Nat) : Res :=
  match s.pc with
  | .off _ => .ok s
  | .top =>
    if s.reqstop then .ok (exit s 0)
    else if s.fd = false then
      if k = 0 then .ok (exit s 2) else .ok { s with fd := true, files := s.files ++ [[]] }
    else .ok { s with pc := .snap s.tail s.last, seen := s.acc.length }
  | .snap t l =>
    if s.head ≤ t then
      if l ≠ 0 then .fault
      else if s.inUse = true ∧ t - s.head < writeSize then .ok { s with pc := .top }
      else if s.inUse = false ∧ s.head = t then .ok (exit s 0)
      else piece s (min (t - s.head) writeSize) false k
    else
      if l = 0 then .fault
      else if l - s.head = 0 then .ok { s with pc := .top }
      else piece s (l - s.head) true k
  | .wrote n wrap =>
    let s := if wrap then { s with head := 0, last := 0, nw := s.nw + n } else { s with head := s.head + n, nw := s.nw + n }
    if fileMax ≤ s.nw then
      if fileNum ≤ s.files.length then .ok (exit { s with nw := 0, fd := false } 1)
      else .ok { s with nw := 0, fd := false, pc := .top }
    else .ok { s with pc := .top }

/-- `cmdlog_start` (cmdlog.c 267-348), if the file can be opened and the thread be created; it does nothing while logging is on or the flush thread of
the last logging has not ended. -/
def start (s : St) : St :=
  match s.pc with
  | .off _ =>
    if s.inUse then s
    else { s with head := 0, tail := 0, last := 0, ready := true, inUse := true, pc := .top, fd := false, nw := 0, files := [], entered := 0, skipped := 0, acc := [], seen := 0 }
  | _ => s

/-- One step. `cmdlog_stop` (cmdlog.c 350-361), `cmdlog_final` (250-265, the asking for the end alone). A thread writes only if it has found
`cmdlog_in_use` set (memcached.c 13590-13592), hence not before the first start; it may do so long after. -/
def step (s : St) : Ev → Res
  | .write t => if s.ready then write s (fmt t) else .ok s
  | .start => .ok (start s)
  | .stop => .ok { s with inUse := false }
  | .final => .ok { s with reqstop := true }
  | .flush k => flush s k

/-- Steps one after the other. -/
def run (s : St) : List Ev → Res
  | [] => .ok s
  | e :: es => match step s e with
    | .fault => .fault
    | .ok s => run s es

end Verif.CmdLog
