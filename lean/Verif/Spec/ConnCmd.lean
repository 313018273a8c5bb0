import Verif.Model.ConnCmd
import Verif.Spec.ConnIn
/-
What a client may expect of commands with data and of pipelines: the data of a command is taken whole and never for a command, and a
pipeline has one answer.
-/

namespace Verif.Conn.Spec

variable {E : Type}

/-- A request: the command line as it is sent (without the line feed), the text of the line, and the bytes that follow it. -/
structure Req where
  raw : List Nat
  line : List Nat
  data : List Nat

/-- The bytes of a request. -/
def Req.wire (r : Req) : List Nat := r.raw ++ 10 :: r.data

/-- The bytes of several requests. -/
def wires (rs : List Req) : List Nat := rs.flatMap Req.wire

/-- How many bytes of data belong to a command: the announced length and the end of the line. -/
def need : Cmd → Nat
  | .simple _ => 0
  | .direct => 0
  | .quick _ => 0
  | .store _ len => len + 2
  | .value _ len => len + 2
  | .fields _ len _ => if len = 0 then 0 else len + 2
  | .keys len _ => if len = 0 then 0 else len + 2

/-- The announced length is one that the protocol allows, and only lists that are not empty are refused. -/
def Allowed : Cmd → Prop
  | .store _ len => len ≤ 2147483645
  | .value _ len => len ≤ 2147483645
  | .fields _ len refused => len ≤ 4294967293 ∧ (refused = true → 0 < len)
  | .keys len refused => len ≤ 4294967293 ∧ (refused = true → 0 < len)
  | _ => True

/-- A well-formed request: one line of moderate length, followed by the data that the line announces. -/
structure Req.Good (g : Engine E) (r : Req) : Prop where
  oneLine : 10 ∉ r.raw
  text : Text r.raw r.line
  short : r.raw.length ≤ 1024
  whole : r.data.length = need (g.parse r.line)
  allowed : Allowed (g.parse r.line)

/-- The last word of a command. -/
def tailOf : Cmd → Tail
  | .simple t => t
  | .direct => .plain
  | .quick t => t
  | .store t _ => t
  | .value t _ => t
  | .fields t _ _ => t
  | .keys _ _ => .plain

/-- Commands that may go without an answer have answers that can be left out or kept back: the bytes that are sent without `out_string` belong
to commands without `noreply` and `pipe`.  And a refusal is a string for `out_string`. -/
structure Polite (g : Engine E) : Prop where
  direct : ∀ e l d e' s, g.exec e l d = (e', .sends s) → tailOf (g.parse l) = .plain
  refusal : ∀ l t len, g.parse l = .fields t len true ∨ g.parse l = .keys len true → ∀ e e' s, g.exec e l [] ≠ (e', .sends s)

/-- The exceptions: key lists of more than 2 GB, and a refused `mop delete` with `noreply` or `pipe`. -/
def Tame : Cmd → Prop
  | .fields t len refused => len < 2147483646 ∧ (refused = true → t = .plain)
  | .keys len _ => len < 2147483646
  | _ => True

/-- `mop delete` with a list of fields. -/
def HasFields : Cmd → Prop
  | .fields _ len _ => 0 < len
  | _ => False

/-- The commands that may be part of a pipeline (all but `mop delete` with a list of fields). -/
def Pipeable : Cmd → Prop
  | .quick _ => True
  | .value _ _ => True
  | .fields _ len refused => len = 0 ∧ refused = false
  | _ => False

/-- What one command of a pipeline does and answers, on its own. -/
inductive Does (g : Engine E) : E → Req → E → List Nat → Prop where
  | now (e e' : E) (r : Req) (s : List Nat) : need (g.parse r.line) = 0 → g.exec e r.line [] = (e', .says s) → Does g e r e' s
  | data (e e1 e' : E) (r : Req) (s : List Nat) : 0 < need (g.parse r.line) → g.room e r.line = (e1, none) →
      g.exec e1 r.line r.data = (e', .says s) → Does g e r e' s
  | noRoom (e e' : E) (r : Req) (s : List Nat) : 0 < need (g.parse r.line) → g.room e r.line = (e', some s) → Does g e r e' s

/-- The command answers with a string. -/
def Talks (g : Engine E) (r : Req) : Prop := ∀ e d, ∃ e' s, g.exec e r.line d = (e', .says s)

/-- How a pipeline ends. -/
inductive Ending where
  | done
  | tooMany
  | tooLong
  | failed

/-- The last line of the answer. -/
def Ending.text : Ending → List Nat
  | .done => [69, 78, 68]
  | .tooMany => [80, 73, 80, 69, 95, 69, 82, 82, 79, 82, 32, 99, 111, 109, 109, 97, 110, 100, 32, 111, 118, 101, 114, 102, 108, 111, 119]
  | .tooLong => [80, 73, 80, 69, 95, 69, 82, 82, 79, 82, 32, 109, 101, 109, 111, 114, 121, 32, 111, 118, 101, 114, 102, 108, 111, 119]
  | .failed => [80, 73, 80, 69, 95, 69, 82, 82, 79, 82, 32, 98, 97, 100, 32, 101, 114, 114, 111, 114]

/-- An answer that is an error. -/
def Fails (s : List Nat) : Prop :=
  [67, 76, 73, 69, 78, 84, 95, 69, 82, 82, 79, 82] <+: s ∨ [83, 69, 82, 86, 69, 82, 95, 69, 82, 82, 79, 82] <+: s ∨ [69, 82, 82, 79, 82] <+: s

/-- What a pipeline should do: the commands are executed in order, until one of them fails, or 500 commands have been executed and there are
more, or their answers exceed 20000 bytes (then the last answer is left out).  `n` and `b` count the commands and the bytes of the answers
so far.  The commands after that are not executed. -/
inductive Pipeline (g : Engine E) : Nat → Nat → E → List Req → E → List (List Nat) → Ending → Prop where
  | tooLong (n b e e' r rs s) : Does g e r e' s → 20000 ≤ b + (s.length + 2) → Pipeline g n b e (r :: rs) e' [] .tooLong
  | failed (n b e e' r rs s) : Does g e r e' s → b + (s.length + 2) < 20000 → Fails s → Pipeline g n b e (r :: rs) e' [s] .failed
  | done (n b e e' r s) : Does g e r e' s → b + (s.length + 2) < 20000 → ¬ Fails s → Pipeline g n b e [r] e' [s] .done
  | tooMany (n b e e' r r' rs s) : Does g e r e' s → b + (s.length + 2) < 20000 → ¬ Fails s → n = 499 →
      Pipeline g n b e (r :: r' :: rs) e' [s] .tooMany
  | more (n b e e1 e' r r' rs s ss w) : Does g e r e1 s → b + (s.length + 2) < 20000 → ¬ Fails s → n < 499 →
      Pipeline g (n + 1) (b + (s.length + 2)) e1 (r' :: rs) e' ss w → Pipeline g n b e (r :: r' :: rs) e' (s :: ss) w

/-- `ds` is the number `n` in decimal digits. -/
def Decimal (n : Nat) (ds : List Nat) : Prop :=
  ds ≠ [] ∧ (∀ d ∈ ds, 48 ≤ d ∧ d ≤ 57) ∧ ds.foldl (fun a d => 10 * a + (d - 48)) 0 = n ∧ (ds.head? = some 48 → ds = [48])

/-- The answer to a pipeline: the number of answers, the answers, and the ending, each in a line of its own. -/
def Reply (ss : List (List Nat)) (w : Ending) (out : List Nat) : Prop :=
  ∃ ds, Decimal ss.length ds ∧
    out = [82, 69, 83, 80, 79, 78, 83, 69, 32] ++ ds ++ [13, 10] ++ ss.flatMap (· ++ [13, 10]) ++ w.text ++ [13, 10]

/-- All commands but the last say `pipe`. -/
def Piped (g : Engine E) : List Req → Prop
  | [] => False
  | [r] => tailOf (g.parse r.line) = .plain
  | r :: rs => tailOf (g.parse r.line) = .pipe ∧ Piped g rs

/-- A connection between pipelines. -/
def Ready (c : Conn) : Prop := c.noreply = false ∧ c.pipe = .off ∧ c.count = 0

end Verif.Conn.Spec
