import Verif.Model.LogRec
/-! # Command log file: appending and recovery (cmdlogfile.c)

The file is a list of bytes.  The engine the calls are applied to is a parameter: `app st call` is
the state after the call, `none` if the call returns ENGINE_ENOMEM (all other failures leave the
state the call leaves and are ignored by recovery). -/
namespace Verif.Log

/-- Result of a part of recovery: a value, the return value -1, or undefined behaviour. -/
inductive Res (α : Type) where
  | val (a : α)
  | fail
  | undef
deriving DecidableEq, Repr

/-- MAX_LOG_RECORD_SIZE - sizeof(LogHdr), cmdlogfile.c 512, cmdlogrec.h 71. -/
def maxBody : Nat := 2097152 - 8

/-- Offsets are `int`s (cmdlogfile.c 440-442). -/
def intMax : Nat := 2147483647

variable {σ : Type}

/-- What recovery reads besides the file: the clocks, and the bytes that an earlier record left behind
the record at a given offset in the read buffer `buf[MAX_LOG_RECORD_SIZE]`. -/
structure Env where
  clock : Clock
  stale : Nat → Bytes

/-- The call of `lrec_redo_from_record` for the record with header `h` and body `b` read at offset
`off` (cmdlogfile.c 406, 534): the failure cases of the two callers are the same. -/
def redoRec (e : Env) (app : σ → Call → Option σ) (off : Nat) (h b : Bytes) (st : σ) : Res σ :=
  match redo e.clock (h ++ b ++ e.stale off) with
  | none => .undef
  | some call =>
    match app st call with
    | none => .fail
    | some st' => .val st'

/-- `do_redo_pending_lrec`, cmdlogfile.c 380-421: redoes the records with a body between `off` and
`endOff`.  `fuel` bounds the number of iterations (running out of it counts as undefined). -/
def redoPending (e : Env) (app : σ → Call → Option σ) (file : Bytes) (endOff : Nat) :
    Nat → Nat → σ → Res σ
  | 0, _, _ => .undef
  | n + 1, off, st =>
    if off < endOff then
      match get file off 8 with
      | none => .fail
      | some h =>
        match fld h 4 4 with
        | none => .undef
        | some len =>
          if len > 0 then
            if len > maxBody then .undef
            else
              match get file (off + 8) len with
              | none => .fail
              | some b =>
                match redoRec e app off h b st with
                | .val st' => redoPending e app file endOff n (off + 8 + len) st'
                | .fail => .fail
                | .undef => .undef
          else redoPending e app file endOff n (off + 8) st
    else .val st

/-- What one iteration of the loop of `cmdlog_file_apply` does. -/
inductive Turn (σ : Type) where
  /-- `break` with `ret` 0: recovery ends with this state, offset and pending start -/
  | stop (st : σ) (off : Nat) (pend : Option Nat)
  /-- `break` with `ret` -1 -/
  | fail
  | undef
  /-- next iteration -/
  | next (st : σ) (off : Nat) (pend : Option Nat)
deriving DecidableEq, Repr

/-- An OPERATION_BEGIN record whose header ends at `off`, cmdlogfile.c 467-477. -/
def turnBegin (st : σ) (off : Nat) (pend : Option Nat) : Turn σ :=
  match pend with
  | some _ => .fail
  | none => .next st off (some off)

/-- An OPERATION_END record whose header ends at `off`, cmdlogfile.c 479-499.  The difference of the
`int` offsets passed to lseek overflows if `off` has become negative. -/
def turnEnd (e : Env) (app : σ → Call → Option σ) (file : Bytes) (st : σ) (off : Nat)
    (pend : Option Nat) : Turn σ :=
  match pend with
  | none => .fail
  | some start =>
    if off > intMax then .undef
    else
      match redoPending e app file off (file.length + 1) start st with
      | .val st' => .next st' off none
      | .fail => .fail
      | .undef => .undef

/-- Redo of a record read completely, up to offset `off'` (cmdlogfile.c 531-547). -/
def turnRedo (e : Env) (app : σ → Call → Option σ) (off off' : Nat) (h b : Bytes) (st : σ)
    (pend : Option Nat) : Turn σ :=
  match pend with
  | some p => .next st off' (some p)
  | none =>
    match redoRec e app off h b st with
    | .val st' => .next st' off' none
    | .fail => .fail
    | .undef => .undef

/-- Any other record, its header `h` read at `off`, cmdlogfile.c 501-547.  The test for a torn body
subtracts the `int` offset behind the header from the size; if the offset has become negative the
difference is large and the test passes. -/
def turnRec (e : Env) (app : σ → Call → Option σ) (file : Bytes) (st : σ) (off : Nat)
    (pend : Option Nat) (h : Bytes) (len : Nat) : Turn σ :=
  if len > 0 then
    if off + 8 ≤ intMax ∧ file.length - (off + 8) < len then .stop st off pend
    else if maxBody < len then .fail
    else
      match get file (off + 8) len with
      | none => .fail
      | some b => turnRedo e app off (off + 8 + len) h b st pend
  else turnRedo e app off (off + 8) h [] st pend

/-- One iteration of the loop of `cmdlog_file_apply`, cmdlogfile.c 447-547. The file position equals
the offset.  Once the `int` offset exceeds INT_MAX it is negative, hence not less than the `size_t`
file size, and the loop ends. -/
def turn (e : Env) (app : σ → Call → Option σ) (file : Bytes) (st : σ) (off : Nat)
    (pend : Option Nat) : Turn σ :=
  if off ≤ intMax ∧ off < file.length then
    if file.length - off < 8 then .stop st off pend
    else
      match get file off 8 with
      | none => .fail
      | some h =>
        match fld h 0 1, fld h 4 4 with
        | some ty, some len =>
          if ty = 13 then turnBegin st (off + 8) pend
          else if ty = 14 then turnEnd e app file st (off + 8) pend
          else turnRec e app file st off pend h len
        | _, _ => .undef
  else .stop st off pend

/-- The loop. -/
def applyLoop (e : Env) (app : σ → Call → Option σ) (file : Bytes) :
    Nat → σ → Nat → Option Nat → Res (σ × Nat)
  | 0, _, _, _ => .undef
  | n + 1, st, off, pend =>
    match turn e app file st off pend with
    | .stop st' off' _ => .val (st', off')
    | .fail => .fail
    | .undef => .undef
    | .next st' off' pend' => applyLoop e app file n st' off' pend'

/-- `cmdlog_file_apply`, cmdlogfile.c 423-559: the recovered state and the file offset at which the
log will be continued (`logfile->size`, the position of the descriptor). -/
def fileApply (e : Env) (app : σ → Call → Option σ) (file : Bytes) (st : σ) : Res (σ × Nat) :=
  if file.length = 0 then .val (st, 0) else applyLoop e app file (file.length + 1) st 0 none

/-- `cmdlog_file_write`, cmdlogfile.c 139-157: the bytes are written at the position of the
descriptor; the file was opened without O_TRUNC and O_APPEND (280) and is not truncated. -/
def fileWrite (file : Bytes) (off : Nat) (d : Bytes) : Bytes :=
  file.take off ++ d ++ file.drop (off + d.length)

end Verif.Log
