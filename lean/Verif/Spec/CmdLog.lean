import Verif.Model.CmdLog

/-
What a user of the command log relies on.
-/

namespace Verif.CmdLog.Spec

open Verif.CmdLog

/-- What stands in the files, one after the other. -/
def onDisk (s : St) : Bytes := s.files.flatten

/-- The texts that threads wrote. -/
def texts : List Ev → List Bytes
  | [] => []
  | .write t :: es => t :: texts es
  | _ :: es => texts es

/-- The logging was started in no step. -/
def noStart (es : List Ev) : Prop := ∀ e ∈ es, e ≠ Ev.start

/-- The bytes that were accepted and are not on disk. -/
def backlog (s : St) : Nat := s.acc.flatten.length - (onDisk s).length

/-- The bytes that are on disk already while their place in the buffer is not given free yet. -/
def inFlight (s : St) : Nat := match s.pc with
  | .wrote n _ => n
  | _ => 0

/-- A text as the server makes it: one line of characters, ended by a line feed. -/
def wellFormed (t : Bytes) : Prop := ∃ b : Bytes, t = b ++ [10] ∧ (10 : UInt8) ∉ b ∧ (0 : UInt8) ∉ b

/-- What a reader of the file should find for a text: the text, or its beginning with the mark that it was cut. -/
def shown (t : Bytes) : Bytes := if t.length < 400 then t else t.take 396 ++ [46, 46, 10]

/-- The full lines of a file; `cur` is the line begun. -/
def linesFrom (cur : Bytes) : Bytes → List Bytes
  | [] => []
  | c :: cs => if c = 10 then (cur ++ [c]) :: linesFrom [] cs else linesFrom (cur ++ [c]) cs

/-- The full lines of a file. -/
def lines (b : Bytes) : List Bytes := linesFrom [] b

end Verif.CmdLog.Spec
