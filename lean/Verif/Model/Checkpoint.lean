import Verif.Model.Util
/-! # The files of the checkpoints (checkpoint.c)

Directories are lists of file names with what matters of the contents; file names are byte strings.
The checkpoint thread is stepped from one file system operation to the next, so that a crash may come
between any two of them.  File system operations are durable at once. -/
namespace Verif.Checkpoint
open Verif.Util

abbrev Name := List Nat

/-- CHKPT_SNAPSHOT_PREFIX "snapshot_", checkpoint.c 32. -/
def snapPrefix : Name := [115, 110, 97, 112, 115, 104, 111, 116, 95]

/-- CHKPT_CMDLOG_PREFIX "cmdlog_", checkpoint.c 33. -/
def logPrefix : Name := [99, 109, 100, 108, 111, 103, 95]

/-- CHKPT_FILE_NAME_FORMAT without the directory, checkpoint.c 31. -/
def fileName (pre : Name) (t : Nat) : Name := pre ++ showNat t

/-- `strtol`/`strtoll` of libc with 64 bits: out of range values are cut to the limits (C11
7.22.1.4); `none`: no terminator. -/
def strtoll (m : List Nat) : Option Int :=
  match scanNum m with
  | none => none
  | some s =>
    let v : Int := if s.neg then -(digitsVal s.digits : Int) else digitsVal s.digits
    some (if v < -9223372036854775808 then -9223372036854775808
      else if 9223372036854775807 < v then 9223372036854775807 else v)

/-- `atoi` of libc: `(int) strtol(..)`, the low 32 bits as a signed number. -/
def atoi (m : List Nat) : Option Int := (strtoll m).map fun v => Int.bmod v 4294967296

/-- A directory.  Of a snapshot file: `some id` if it is complete (ends with the SNAPSHOT_DONE record)
and holds checkpoint `id`.  Of a command log: `some id` if it is the log of checkpoint `id`. -/
abbrev Dir := List (Name × Option Nat)

/-- The contents of a file. -/
def Dir.get (d : Dir) (n : Name) : Option (Option Nat) := (d.find? fun e => e.1 = n).map (·.2)

/-- `open(.., O_CREAT)`: an existing file stays as it is. -/
def Dir.create (d : Dir) (n : Name) (c : Option Nat) : Dir :=
  if (d.get n).isSome then d else d ++ [(n, c)]

/-- Writing to a file. -/
def Dir.write (d : Dir) (n : Name) (c : Option Nat) : Dir :=
  d.map fun e => if e.1 = n then (n, c) else e

/-- `unlink`; ENOENT does not count as a failure. -/
def Dir.remove (d : Dir) (n : Name) : Dir := d.filter fun e => e.1 ≠ n

/-- Whether `do_chkpt_sweep_files` spares a file, checkpoint.c 101-104, 125-128. -/
def spared (pre : Name) (last : Int) (n : Name) : Option Bool :=
  if pre.isPrefixOf n then (atoi (n.drop pre.length ++ [0])).map fun v => decide (last = v)
  else some true

/-- One of the two loops of `do_chkpt_sweep_files`, checkpoint.c 99-113, 123-137.  `fail n`: the
removal of `n` fails, which ends the loop. -/
def sweepDir (pre : Name) (last : Int) (fail : Name → Bool) : Dir → Option (Dir × Bool)
  | [] => some ([], true)
  | e :: r =>
    match spared pre last e.1 with
    | none => none
    | some true => (sweepDir pre last fail r).map fun (d, ok) => (e :: d, ok)
    | some false => if fail e.1 then some (e :: r, false) else sweepDir pre last fail r

/-- `strcoll` in the C locale on names without NUL. -/
def nameLe : Name → Name → Bool
  | [], _ => true
  | _ :: _, [] => false
  | a :: x, b :: y => if a < b then true else if a = b then nameLe x y else false

/-- The choice of `chkpt_recovery_analysis`, checkpoint.c 365-413: the last complete snapshot in
alphabetical order. -/
def newest : Dir → Option (Name × Nat)
  | [] => none
  | e :: r =>
    if snapPrefix.isPrefixOf e.1 then
      match e.2, newest r with
      | some i, some (n, j) => if nameLe e.1 n then some (n, j) else some (e.1, i)
      | some i, none => some (e.1, i)
      | none, x => x
    else newest r

/-- `strchr(name, '_') + 1`, checkpoint.c 397. -/
def behindBar : Name → Option Name
  | [] => none
  | c :: r => if c = 95 then some r else behindBar r

/-- Where the checkpoint thread is. -/
inductive Stage where
  /-- not running -/
  | off
  /-- in the loop of `chkpt_thread_main` -/
  | idle
  /-- `do_chkpt_create_files`, line 159: the snapshot file exists -/
  | made (t : Nat)
  /-- behind `do_chkpt_create_files` -/
  | both (t : Nat)
  /-- in `chkpt_snapshot_direct` -/
  | writing (t : Nat)
  /-- the SNAPSHOT_DONE record is on disk; line 257 comes next -/
  | done (t : Nat)
  /-- failure: in front of the removal of the new snapshot (line 277) -/
  | undo (t : Nat)
  /-- failure: in front of the removal of the new log -/
  | undoLog (t : Nat)
  /-- in front of the removal of the previous snapshot (line 332) -/
  | drop
  /-- in front of the removal of the previous log -/
  | dropLog
deriving DecidableEq, Repr

/-- `chkpt_st`, checkpoint.c 46-60, `need_remove` of `chkpt_thread_main`, and the two directories.
`seq` counts the checkpoints begun (only used to tell the contents of files apart). -/
structure St where
  data : Dir
  logs : Dir
  last : Int
  prev : Int
  needRemove : Bool
  stage : Stage
  seq : Nat
deriving DecidableEq

/-- Before the first start: empty directories. -/
def init : St := ⟨[], [], -1, -1, false, .off, 0⟩

/-- The operations. -/
inductive Act where
  /-- start of the server: recovery, checkpoint.c 365-449.  Without a snapshot it makes a checkpoint,
  whose steps are those below. -/
  | restart
  /-- `do_checkpoint` reads the clock and creates the snapshot file, checkpoint.c 236, 150-159 -/
  | start (t : Nat)
  /-- creation of the log file, 161-178; if it fails (`ok` false) the snapshot file is removed, which
  may fail too (`rm` false) -/
  | createLog (ok rm : Bool)
  /-- `cmdlog_file_open`, 249, then the snapshot file is truncated, chkpt_snapshot.c 352 -/
  | openLog (ok : Bool)
  /-- the end of the snapshot, 252-271 -/
  | finish (ok : Bool)
  /-- `prevtime` and `lasttime` are set, 257-258 -/
  | commit
  /-- one of the two removals of `do_chkpt_remove_files`, 183-203 -/
  | remove (ok : Bool)
  /-- `cmdlog_file_dual_write_finished`, 329-332 -/
  | finished
  /-- `do_chkpt_sweep_files`, 317-323 -/
  | sweep (fail : Name → Bool)
  /-- crash -/
  | crash

/-- The time stamp as a file number; the code prints it with "%"PRId64. -/
def stamp (t : Int) : Option Nat := if 0 ≤ t then some t.toNat else none

/-- One operation; `none`: not possible at this place (or a failed assertion). -/
def step (s : St) : Act → Option St
  | .restart =>
    if s.stage = .off then
      match newest s.data with
      | none => some { s with last := -1, prev := -1, needRemove := false, stage := .idle }
      | some (n, _) =>
        match (behindBar n).bind fun r => strtoll (r ++ [0]) with
        | none => none
        | some t =>
          if t ≤ 0 then none
          else some { s with last := t, prev := -1, needRemove := false, stage := .idle,
                             logs := s.logs.create (fileName logPrefix t.toNat) none }
    else none
  | .start t =>
    if s.stage = .idle ∧ s.prev = -1 then
      some { s with data := s.data.create (fileName snapPrefix t) none, stage := .made t,
                    seq := s.seq + 1 }
    else none
  | .createLog ok rm =>
    match s.stage with
    | .made t =>
      if ok then some { s with logs := s.logs.create (fileName logPrefix t) (some s.seq),
                               stage := .both t }
      else if rm then some { s with data := s.data.remove (fileName snapPrefix t), stage := .idle }
      else some { s with needRemove := true, stage := .idle }
    | _ => none
  | .openLog ok =>
    match s.stage with
    | .both t =>
      if ok then some { s with data := s.data.write (fileName snapPrefix t) none, stage := .writing t }
      else some { s with stage := .undo t }
    | _ => none
  | .finish ok =>
    match s.stage with
    | .writing t =>
      if ok then some { s with data := s.data.write (fileName snapPrefix t) (some s.seq),
                               stage := .done t }
      else some { s with stage := .undo t }
    | _ => none
  | .commit =>
    match s.stage with
    | .done t => some { s with prev := s.last, last := t, stage := .idle }
    | _ => none
  | .remove ok =>
    match s.stage with
    | .undo t =>
      if ok then some { s with data := s.data.remove (fileName snapPrefix t), stage := .undoLog t }
      else some { s with needRemove := true, stage := .idle }
    | .undoLog t =>
      if ok then some { s with logs := s.logs.remove (fileName logPrefix t), stage := .idle }
      else some { s with needRemove := true, stage := .idle }
    | .drop =>
      match stamp s.prev with
      | none => none
      | some p =>
        if ok then some { s with data := s.data.remove (fileName snapPrefix p), stage := .dropLog }
        else some { s with needRemove := true, prev := -1, stage := .idle }
    | .dropLog =>
      match stamp s.prev with
      | none => none
      | some p =>
        if ok then some { s with logs := s.logs.remove (fileName logPrefix p), prev := -1,
                                 stage := .idle }
        else some { s with needRemove := true, prev := -1, stage := .idle }
    | _ => none
  | .finished => if s.stage = .idle ∧ s.prev ≠ -1 then some { s with stage := .drop } else none
  | .sweep fail =>
    if s.stage = .idle ∧ s.needRemove = true then
      match sweepDir snapPrefix s.last fail s.data, sweepDir logPrefix s.last fail s.logs with
      | some (d, ok1), some (l, ok2) =>
        some { s with data := d, logs := l, needRemove := !(ok1 && ok2) }
      | _, _ => none
    else none
  | .crash => some { s with stage := .off }

/-- A run. -/
def run : St → List Act → Option St
  | s, [] => some s
  | s, a :: r => (step s a).bind fun s' => run s' r

end Verif.Checkpoint
