import Verif.Model.ConnIn
/-
What a client may expect of the way the server reads their bytes: commands are lines, data blocks have the announced length, and nothing
else counts.  The definitions speak about the stream of bytes only, not about buffers, packets or read calls.
-/

namespace Verif.Conn.Spec

variable {W : Type}

/-- Where the server is in the client's stream: before a command line, before a data block of `n` bytes that is wanted or to be skipped,
or finished. -/
inductive At where
  | cmd
  | want (n : Nat)
  | skip (n : Nat)
  | closed
  deriving DecidableEq, Repr

/-- The place a handler leaves the server at. -/
def At.of : Next → At
  | .cmd => .cmd
  | .nread n => .want n
  | .swallow n => .skip n.toNat
  | .close => .closed

/-- A handler does not ask for a negative number of bytes to be skipped. -/
def Proper : Next → Prop
  | .swallow n => 0 ≤ n
  | _ => True

/-- The text of a line: a carriage return at the end of `raw` does not belong to it, unless the line has nothing else. -/
inductive Text : List Nat → List Nat → Prop where
  | crlf (t : List Nat) : t ≠ [] → Text (t ++ [13]) t
  | lf (t : List Nat) : t.getLast? ≠ some 13 → Text t t
  | cr : Text [13] [13]

/-- One step along the stream: a whole line is handled, a whole data block is handed over, or a byte is skipped. -/
inductive Takes (h : Handler W) : W × At × List Nat → W × At × List Nat → Prop where
  | line (w w' : W) (raw t rest : List Nat) (nx : Next) : 10 ∉ raw → Text raw t → h.line w t = some (w', nx) →
      Proper nx → Takes h (w, .cmd, raw ++ 10 :: rest) (w', At.of nx, rest)
  | data (w w' : W) (d rest : List Nat) : h.data w d = some w' → Takes h (w, .want d.length, d ++ rest) (w', .cmd, rest)
  | skip (w : W) (n b : Nat) (rest : List Nat) : Takes h (w, .skip (n + 1), b :: rest) (w, .skip n, rest)
  | skipped (w : W) (rest : List Nat) : Takes h (w, .skip 0, rest) (w, .cmd, rest)

/-- Several steps. -/
inductive Reads (h : Handler W) : W × At × List Nat → W × At × List Nat → Prop where
  | refl (x) : Reads h x x
  | tail {x y z} : Reads h x y → Takes h y z → Reads h x z

/-- Nothing more can be done with what has been sent: no complete line, not all of the data block. -/
def Spent : At → List Nat → Prop
  | .cmd, rest => 10 ∉ rest
  | .want n, rest => rest.length < n
  | .skip n, rest => rest = [] ∧ 0 < n
  | .closed, _ => True

/-- The stream takes the server from `w` to `w'`, and no further. -/
def Serves (h : Handler W) (w : W) (stream : List Nat) (w' : W) : Prop :=
  ∃ a rest, Reads h (w, .cmd, stream) (w', a, rest) ∧ Spent a rest

/-- The beginning of a command line that the server does not put up with: more than 1024 bytes with more than 100 blanks in front, or more
than 24 KB of something else than `get` or `gets`. -/
def Excessive (p : List Nat) : Prop :=
  1024 < p.length ∧
    (List.replicate 101 32 <+: p ∨
      24 * 1024 < p.length ∧ isGet (p.dropWhile (· == 32)) = false)

/-- The stream has no such line. -/
def Modest (h : Handler W) (w : W) (stream : List Nat) : Prop :=
  ∀ w' rest, Reads h (w, .cmd, stream) (w', .cmd, rest) → ∀ p, p <+: rest → 10 ∉ p → ¬ Excessive p

/-- No command line of the stream begins with 1025 blanks. -/
def FewBlanks (h : Handler W) (w : W) (stream : List Nat) : Prop :=
  ∀ w' rest, Reads h (w, .cmd, stream) (w', .cmd, rest) → ¬ List.replicate 1025 32 <+: rest

/-- The bytes the client has sent. -/
def sent : List Ev → List Nat
  | [] => []
  | .sends bs :: es => bs ++ sent es
  | .round _ :: es => sent es

/-- The server has read all that was sent and waits for more (or has closed the connection). -/
def Idle (s : St W) : Prop :=
  match s.mode with
  | .waiting => s.net = []
  | .nread n _ => 0 < n ∧ s.data = [] ∧ s.net = []
  | .swallow n => 0 < n ∧ s.data = [] ∧ s.net = []
  | .closed => True
  | _ => False

/-- On this stream the handlers run into no assertion, and ask for nothing impossible. -/
def Sound (h : Handler W) (w : W) (stream : List Nat) : Prop :=
  ∀ w' a rest, Reads h (w, .cmd, stream) (w', a, rest) → Spent a rest ∨ ∃ z, Takes h (w', a, rest) z

end Verif.Conn.Spec
