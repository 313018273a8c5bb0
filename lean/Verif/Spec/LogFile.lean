import Verif.Spec.LogRec
import Verif.Model.LogFile
/-! # What recovery has to restore

The log is a sequence of entries: one update, or the updates of one operation on several elements
(written between two range records).  A crash leaves a prefix of its bytes.  Recovery has to restore
the state after the entries that were written completely. -/
namespace Verif.Log.Spec
open Verif.Log

/-- An update and the clocks at which it was logged. -/
structure Logged where
  clock : Clock
  op : Op

/-- One operation of the log. -/
inductive Entry where
  | one (l : Logged)
  | range (ls : List Logged)

/-- Updates; the range records and the end record of a snapshot are no updates. -/
def Plain : Op → Prop
  | .opRange _ => False
  | .snapDone => False
  | .snapElem _ _ _ _ _ => False
  | _ => True

/-- `b` are bytes the server may write for the update: some unset bytes `rs`, some content `buf` of
the room in the log buffer. -/
def Image (l : Logged) (b : Bytes) : Prop :=
  ∃ rs buf, buf.length = 8 + (construct l.clock rs l.op).bodyLen ∧
    write rs (construct l.clock rs l.op) buf = some b

/-- An update of a command log: one of the records the server produces, at most as long as recovery
can read (2 MB), and no flush of a prefix of 255 or more bytes (cf. `C31_flush_255_false`). -/
structure Update (l : Logged) (b : Bytes) : Prop where
  plain : Plain l.op
  good : Producible l.op
  short : ∀ p n, l.op = .flush p n → n < 255
  image : Image l b
  size : b.length ≤ 2097152

/-- The bytes of an entry. -/
def EntryImage : Entry → Bytes → Prop
  | .one l, b => Update l b
  | .range ls, b => ∃ (c0 c1 : Clock) (b0 b1 : Bytes) (ms : List (Logged × Bytes)),
      Image ⟨c0, .opRange true⟩ b0 ∧ Image ⟨c1, .opRange false⟩ b1 ∧
      ms.map (·.1) = ls ∧ (∀ m ∈ ms, Update m.1 m.2) ∧ b = b0 ++ (ms.map (·.2)).flatten ++ b1

/-- The bytes of a log. -/
def bytes (log : List (Entry × Bytes)) : Bytes := (log.map (·.2)).flatten

/-- The entries all of whose bytes are among the first `n`. -/
def whole : List (Entry × Bytes) → Nat → List (Entry × Bytes)
  | [], _ => []
  | x :: r, n => if x.2.length ≤ n then x :: whole r (n - x.2.length) else []

/-- The entry that was being written. -/
def torn : List (Entry × Bytes) → Nat → Option Entry
  | [], _ => none
  | x :: r, n => if x.2.length ≤ n then torn r (n - x.2.length) else some x.1

/-- The call that redoes an update at recovery. -/
def callOf (c : Clock) (l : Logged) : Call :=
  meaning (fun e => relExp c (absExp l.clock e)) l.op

/-- The calls that redo an entry. -/
def calls (c : Clock) : Entry → List Call
  | .one l => [callOf c l]
  | .range ls => ls.map (callOf c)

/-- The state after a sequence of calls; `none` if one of them runs out of memory. -/
def after {σ : Type} (app : σ → Call → Option σ) : σ → List Call → Option σ
  | s, [] => some s
  | s, a :: r =>
    match app s a with
    | none => none
    | some s' => after app s' r

/-- The state after the operations of a log. -/
def afterLog {σ : Type} (app : σ → Call → Option σ) (c : Clock) (s : σ)
    (log : List (Entry × Bytes)) : Option σ :=
  after app s (log.flatMap fun x => calls c x.1)

/-- Crash, recovery, continuation and crash again, any number of times.  `Restarts file done torn`:
the file after the last crash, the entries written completely in all the runs, the entry that was
being written at the last crash.  Each run recovers (with its own clock, engine state and stale
bytes) and continues the log at the offset where recovery left the descriptor.  Only crashes that
leave no partial range are covered, and only runs that overwrite the partial record they found. -/
inductive Restarts {σ : Type} (app : Nat → σ → Call → Option σ) (st : σ) :
    Bytes → List (Entry × Bytes) → Option Entry → Prop where
  | first (log : List (Entry × Bytes)) (cut : Nat) : (∀ x ∈ log, EntryImage x.1 x.2) →
      (bytes log).length ≤ intMax → Restarts app st ((bytes log).take cut) (whole log cut) (torn log cut)
  | again (file : Bytes) (done : List (Entry × Bytes)) (t : Option Entry)
      (log : List (Entry × Bytes)) (cut off : Nat) (e : Env) (s : σ) : Restarts app st file done t →
      (∀ ls, t ≠ some (.range ls)) →
      fileApply e (app e.clock.cur) file st = .val (s, off) →
      (∀ x ∈ log, EntryImage x.1 x.2) →
      file.length ≤ off + ((bytes log).take cut).length →
      (bytes done).length + (bytes log).length ≤ intMax →
      Restarts app st (fileWrite file off ((bytes log).take cut)) (done ++ whole log cut) (torn log cut)

end Verif.Log.Spec
