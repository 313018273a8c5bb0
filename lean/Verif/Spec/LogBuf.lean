import Verif.Model.LogBuf
/-! # What the command log files have to contain

`Logs` is the log as the writers see it: the bytes that belong to the current file and, during a
checkpoint, to the next one.  It knows nothing of buffers, positions and flush requests. -/
namespace Verif.LogBuf.Spec
open Verif.LogBuf

/-- Where records go. -/
inductive Mode where
  /-- to the current log -/
  | plain
  /-- to the current log, and to the next one if they are marked for dual write -/
  | both
  /-- to the next log only: the snapshot is complete -/
  | after
deriving DecidableEq, Repr

/-- The logs. -/
structure Logs where
  cur : Bytes
  new : Bytes
  mode : Mode
deriving DecidableEq, Repr

/-- The effect of a step on the logs: `s` is the state in front of it, `o` the sequence number it gave
out. -/
def Logs.next (g : Logs) (s : St) (a : Act) (o : Option LSN) : Logs :=
  match a with
  | .write rec dual =>
    match o with
    | none => g
    | some _ =>
      match g.mode with
      | .plain => { g with cur := g.cur ++ rec }
      | .both => { g with cur := g.cur ++ rec, new := g.new ++ if dual then rec else [] }
      | .after => { g with new := g.new ++ rec }
  | .flush =>
    match s.flight with
    | .comp _ _ _ => ⟨g.new, [], .plain⟩
    | _ => g
  | .scan => if s.chk = .opened then { g with new := [], mode := .both } else g
  | .complete ok => if s.chk = .scanning then { g with mode := if ok then .after else .plain } else g
  | _ => g

/-- Number of flush requests in the queue (the open one not counted). -/
def used (b : Buf) : Nat := (b.fend + b.fqsz - b.fbgn) % b.fqsz

/-- What the callers guarantee, and what the theorems need: records are not empty and shorter than the
buffer; records are marked for dual write only during the scan; the queue of flush requests (6553600
entries) has room; and no write that was started in an earlier checkpoint is going on when the next
one opens its file (at least five seconds lie between them). -/
def Allowed (s : St) : Act → Prop
  | .write rec dual => rec ≠ [] ∧ rec.length < s.buf.size ∧ (dual = true → s.chk = .scanning) ∧
      used s.buf + rec.length / auto + 2 < s.buf.fqsz
  | .complete _ => used s.buf + 1 < s.buf.fqsz
  | .openNext => s.flight = .idle
  | _ => True

/-- The states reached by steps for which `P` holds, with the logs. -/
inductive Reach (P : St → Act → Prop) (size fqsz : Nat) : St → Logs → Prop where
  | init (data : Nat → Nat) : Reach P size fqsz (init data size fqsz) ⟨[], [], .plain⟩
  | step {s s' : St} {g : Logs} (a : Act) (o : Option LSN) : Reach P size fqsz s g → P s a →
      step s a = some (s', o) → Reach P size fqsz s' (g.next s a o)

/-- The bytes in the ring. -/
def content (b : Buf) : Bytes :=
  match b.last with
  | none => slice b.data b.head (b.tail - b.head)
  | some e => slice b.data b.head (e - b.head) ++ slice b.data 0 b.tail

/-- The bytes in the ring that are not in a file yet. -/
def unwritten (s : St) : Bytes :=
  match s.flight with
  | .lsn n => (content s.buf).drop n
  | .fin n => (content s.buf).drop n
  | _ => content s.buf

/-- The open flush request has room for the record: it is not cut in two. -/
def fits (s : St) (rec : Bytes) : Bool := decide ((s.buf.fque s.buf.fend).n + rec.length ≤ auto)

/-- The records whose place is remembered. -/
def note (s : St) (a : Act) (o : Option LSN) (h : List (LSN × Bytes)) : List (LSN × Bytes) :=
  match a, o with
  | .write rec _, some q => if fits s rec then (q, rec) :: h else h
  | _, _ => h

/-- The states reached without a checkpoint, with the log and the records that were not cut. -/
inductive Logged (size fqsz : Nat) : St → Logs → List (LSN × Bytes) → Prop where
  | init (data : Nat → Nat) : Logged size fqsz (init data size fqsz) ⟨[], [], .plain⟩ []
  | step {s s' : St} {g : Logs} {h : List (LSN × Bytes)} (a : Act) (o : Option LSN) :
      Logged size fqsz s g h → Allowed s a → a ≠ .openNext → step s a = some (s', o) →
      Logged size fqsz s' (g.next s a o) (note s a o h)

/-- The client that waits for the record is told that it is on disk, cmdlogmgr.c 362-392. -/
def acked (s : St) (q : LSN) : Prop := s.nxtFsync.le q = false

/-- `Allowed`, and no record has more than `m` bytes. -/
def AllowedUpTo (m : Nat) (s : St) (a : Act) : Prop :=
  Allowed s a ∧ ∀ rec d, a = .write rec d → rec.length ≤ m

end Verif.LogBuf.Spec
