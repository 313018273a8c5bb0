/-
What a user of the binary protocol relies on, stated on the bytes that are sent, the answers and the calls of the engine, without the functions
that handle a request.
-/
import Verif.Model.Bin

namespace Verif.Bin.Spec

open Verif.Bin

/-- The body length in the header of a frame that begins at `p` (include/memcached/protocol_binary.h 243-258). -/
def bodyAt (inp : Bytes) (p : Nat) : Nat := be (slice inp (p + 8) 4)

/-- The positions at which the client began a request: the first byte it sent, and the first byte behind each request, which is as long as its
header says (include/memcached/protocol_binary.h 236-258: the length of the body includes key and extras). -/
inductive Boundary (inp : Bytes) : Nat → Prop
  | start : Boundary inp 0
  | next {p : Nat} : Boundary inp p → p + 24 ≤ inp.length → Boundary inp (p + 24 + bodyAt inp p)

/-- What a server did with a stream `inp` so far: which requests it took at which positions, which bytes it threw away, where it stands. Any part of the
stream may have arrived at any time (`n`), and the need to log in may change (`deny`). -/
inductive Run {σ : Type} (e : Engine σ) (g : Cfg) (inp : Bytes) (s0 : σ) : Conn σ → Nat → List (Nat × Ev) → Prop
  | start : Run e g inp s0 { eng := s0, sw := 0, closed := false } 0 []
  | step {c c' : Conn σ} {p used n : Nat} {tr : List (Nat × Ev)} {deny : Bool} {ev : Ev} :
      Run e g inp s0 c p tr → Bin.step e g deny c ((inp.take n).drop p) = .next c' used ev →
      Run e g inp s0 c' (p + used) (tr ++ [(p, ev)])

/-- Framing is kept: what the server takes for a request is one that the client sent, and none is left out. -/
def Framed {σ : Type} (inp : Bytes) (c : Conn σ) (p : Nat) (tr : List (Nat × Ev)) : Prop :=
  (∀ q h rs nx, (q, Ev.req h rs nx) ∈ tr → Boundary inp q) ∧
  (c.closed = false → ∀ b, Boundary inp b → b < p → ∃ h rs nx, (b, Ev.req h rs nx) ∈ tr)

/-- The operation codes of the quiet forms (include/memcached/protocol_binary.h 127-228: the names that end in Q). -/
def quiet (op : Nat) : Bool :=
  op == 0x09 || op == 0x0d || (decide (0x11 ≤ op) && decide (op ≤ 0x1a)) || op == 0x54 || op == 0x55 || op == 0x65 || op == 0x66 ||
  (decide (0x7c ≤ op) && decide (op ≤ 0x7f))

/-- `GETQ` and `GETKQ`. -/
def quietGet (op : Nat) : Bool := op == 0x09 || op == 0x0d

/-- An answer belongs to a request and is well formed: it carries its operation code and its opaque field, and states its length. -/
def Belongs (h : Hdr) (r : Resp) : Prop :=
  r.opcode = h.opcode ∧ r.opq = h.opq ∧ (r.body.length < 2 ^ 32 → r.bodylen = r.body.length)

/-- What is sent for a request: as a rule one answer; none if the connection is closed because of it; for a quiet request only an answer
other than "success", except that a quiet get is answered exactly if it is not a miss; for `STAT` several, the last one empty. -/
def Answered (h : Hdr) (rs : List Resp) (nx : Next) : Prop :=
  (∀ r ∈ rs, Belongs h r) ∧
  ((nx = .closing ∧ rs.length ≤ 1) ∨
   (h.opcode ≠ 0x10 ∧ quiet h.opcode = false ∧ rs.length = 1) ∨
   (quiet h.opcode = true ∧ quietGet h.opcode = false ∧ rs.length ≤ 1 ∧ ∀ r ∈ rs, r.status ≠ 0) ∨
   (quietGet h.opcode = true ∧ rs.length ≤ 1 ∧ ∀ r ∈ rs, r.status ≠ 1) ∨
   (h.opcode = 0x10 ∧ rs.length = 1 ∧ ∀ r ∈ rs, r.status ≠ 0) ∨
   (h.opcode = 0x10 ∧ ∃ l t, rs = l ++ [t] ∧ t.body = [] ∧ t.keylen = 0 ∧ ∀ r ∈ rs, r.status = 0))

/-- What may stand in a request: the possible lengths of its extras, is there a key, is there a value
(include/memcached/protocol_binary.h 286-753, and the names of its fields). -/
structure Shape where
  exts : List Nat
  key : Option Bool
  value : Bool

/-- The shapes of the requests as include/memcached/protocol_binary.h declares them (lines 286-753): the size of the structure `body`; a key for everything that
names one; a value for everything that stores one or looks for one. For `key`, `none` means "may be there". -/
def shape : Cmd → Shape
  | .get | .getk | .delete => ⟨[0], some true, false⟩
  | .set | .add | .replace => ⟨[8], some true, true⟩
  | .append | .prepend => ⟨[0], some true, true⟩
  | .incr | .decr => ⟨[20], some true, false⟩
  | .quit | .noop | .version | .saslList => ⟨[0], some false, false⟩
  | .flush => ⟨[0, 4], some false, false⟩
  | .flushPrefix => ⟨[0, 4], some true, false⟩
  | .stat => ⟨[0], none, false⟩
  | .saslAuth | .saslStep => ⟨[0], some true, true⟩
  | .getattr => ⟨[0], some true, false⟩
  | .setattr => ⟨[44], some true, false⟩
  | .lopCreate | .sopCreate | .bopCreate => ⟨[16], some true, false⟩
  | .lopInsert => ⟨[20], some true, true⟩
  | .lopDelete | .lopGet => ⟨[12], some true, false⟩
  | .sopInsert => ⟨[16], some true, true⟩
  | .sopDelete => ⟨[4], some true, true⟩
  | .sopExist => ⟨[0], some true, true⟩
  | .sopGet => ⟨[8], some true, false⟩
  | .bopInsert | .bopUpsert => ⟨[80], some true, true⟩
  | .bopUpdate => ⟨[72], some true, true⟩
  | .bopDelete => ⟨[3209], some true, false⟩
  | .bopGet => ⟨[3213], some true, false⟩
  | .bopCount => ⟨[3201], some true, false⟩
  | .bopMget | .bopSmget => ⟨[3213], some true, true⟩
  | .other => ⟨[], none, false⟩

/-- A request has the shape that its command demands. -/
def WellFormed (c : Cmd) (h : Hdr) : Prop :=
  h.extlen ∈ (shape c).exts ∧
  ((shape c).key = some true → 0 < h.keylen) ∧ ((shape c).key = some false → h.keylen = 0) ∧
  (if (shape c).value then h.keylen + h.extlen ≤ h.bodylen else h.bodylen = h.keylen + h.extlen)

/-- The bytes of a request. -/
def encode (op : Nat) (ext key value opq : Bytes) (vb cas : Nat) : Bytes :=
  [0x80, UInt8.ofNat op] ++ toBe 2 key.length ++ [UInt8.ofNat ext.length, 0] ++ toBe 2 vb ++
  toBe 4 (ext.length + key.length + value.length) ++ opq ++ toBe 8 cas ++ ext ++ key ++ value

/-- `n` numbers of four bytes each. -/
def splitNums : Nat → Bytes → List Nat
  | 0, _ => []
  | n + 1, b => be (b.take 4) :: splitNums n (b.drop 4)

/-- Values of these lengths, one behind the other. -/
def splitVals : List Nat → Bytes → List Bytes
  | [], _ => []
  | n :: ns, b => b.take n :: splitVals ns (b.drop n)

/-- How a client takes the answer to `LOP_GET` or `SOP_GET` apart: flags, the number of the elements, their lengths, their values. -/
def decodeElems (body : Bytes) : Bytes × List Bytes :=
  let n := be (slice body 4 4)
  let lens := splitNums n (body.drop 8)
  (body.take 4, splitVals lens (body.drop (8 + 4 * n)))

/-- An engine that keeps a record of the calls and the codes it answered with. -/
def logged {σ : Type} (e : Engine σ) : Engine (σ × List (Call × Code)) :=
  { call := fun s c => let r := e.call s.1 c; ((r.1, s.2 ++ [(c, r.2.code)]), r.2) }

/-- The engine never says "not supported" when room is asked for. -/
def NoEnotsup {σ : Type} (e : Engine σ) : Prop :=
  (∀ s k n f x c, (e.call s (.alloc k n f x c)).2.code ≠ .enotsup) ∧ (∀ s c k x n, (e.call s (.elemAlloc c k x n)).2.code ≠ .enotsup)

/-- The requests of a stream hold their key and extras; no `STAT` has a value and no `BOP_UPDATE` says that it has none. -/
def Clean (inp : Bytes) : Prop :=
  ∀ p, Boundary inp p → p + 24 ≤ inp.length →
    (hdrOf (inp.drop p)).keylen + (hdrOf (inp.drop p)).extlen ≤ (hdrOf (inp.drop p)).bodylen ∧
    ((hdrOf (inp.drop p)).opcode = 0x10 → (hdrOf (inp.drop p)).bodylen = (hdrOf (inp.drop p)).keylen + (hdrOf (inp.drop p)).extlen) ∧
    ((hdrOf (inp.drop p)).opcode = 0x73 ∨ (hdrOf (inp.drop p)).opcode = 0x7e →
      byteAt (slice inp (p + 24) (hdrOf (inp.drop p)).extlen) 66 = 0)

/-- The engine answers gets and arithmetic only with the codes that the handlers know (memcached.c 3788-3833, 3958-4030). -/
def Tame {σ : Type} (e : Engine σ) : Prop :=
  (∀ s k v, getAct (e.call s (.get k v)).2.code ≠ .abort) ∧ (∀ s k i c d n x v, incrAct (e.call s (.arith k i c d n x v)).2.code ≠ .abort)

/-- Calls that only ask for room. -/
def isAlloc : Call → Bool
  | .alloc .. => true
  | .elemAlloc .. => true
  | _ => false

/-- What a handler did is told truthfully: an answer "success" means that all calls succeeded; if they did, nothing else is answered; and the
request was carried out at most once. -/
def Honest {σ : Type} : Res (σ × List (Call × Code)) → Prop
  | .done o => ((∃ r ∈ o.resps, r.status = 0) → ∀ x ∈ o.eng.2, x.2 = .success) ∧
      (o.eng.2 ≠ [] → (∀ x ∈ o.eng.2, x.2 = .success) → ∀ r ∈ o.resps, r.status = 0) ∧
      (o.eng.2.filter (fun x => !isAlloc x.1)).length ≤ 1
  | _ => True

/-- What is expected of an engine that keeps items: what was stored is given, with its flags (memcached.c 7329, 3850, 3944). -/
def Keeps {σ : Type} (e : Engine σ) : Prop :=
  ∀ (s : σ) (key flags data : Bytes) (exp vb n : Nat),
    (e.call s (.alloc key n flags exp 0)).2.code = .success →
    (e.call (e.call s (.alloc key n flags exp 0)).1 (.store .set key flags exp 0 data vb)).2.code = .success →
    let r := e.call (e.call (e.call s (.alloc key n flags exp 0)).1 (.store .set key flags exp 0 data vb)).1 (.get key vb)
    r.2.code = .success ∧ r.2.flags = flags ∧ r.2.data = data

/-- This result is no access outside an array and no `abort()`. -/
def NoFault {σ : Type} : Res σ → Prop
  | .fault => False
  | _ => True

/-- A request is refused as malformed: the answer is "invalid arguments" (0x04) and the connection is closed. -/
def Refused {σ : Type} : Res σ → Prop
  | .done o => o.next = .closing ∧ ∃ r ∈ o.resps, r.status = 0x04
  | _ => False

/-- Why a connection is closed: a `QUIT` (0x07, 0x17); a refusal as malformed, or because the client has not logged in, before the engine is
called; or, without an answer, because the engine wants it (an unknown operation code: because the engine fails). -/
def CloseReason {σ : Type} (deny : Bool) (h : Hdr) (known : Bool) : Res (σ × List (Call × Code)) → Prop
  | .done o => o.next = .closing →
      h.opcode = 0x07 ∨ h.opcode = 0x17 ∨
      (o.eng.2 = [] ∧ ∃ r, o.resps = [r] ∧ (r.status = 0x04 ∨ deny = true ∧ r.status = 0x20)) ∨
      (o.resps = [] ∧ ∃ x ∈ o.eng.2, if known then x.2 = .disconnect else x.2 ≠ .success ∧ x.2 ≠ .enotsup)
  | _ => True

/-- The calls after which an engine that says "disconnect" is to be heeded: all but a removal (`DELETE` answers with an error, the removal
after a failed `SET` is done for its effect only) and those to the SASL library. -/
def heeded : Call → Bool
  | .remove .. | .sasl .. | .mechs => false
  | _ => true

/-- If the engine says "disconnect", the connection is closed, without an answer. -/
def Obeys {σ : Type} : Res (σ × List (Call × Code)) → Prop
  | .done o => ∀ x ∈ o.eng.2, x.2 = .disconnect → heeded x.1 = true → o.next = .closing ∧ o.resps = []
  | _ => True

/-- The read buffer is what its fields say. -/
def BufOk (b : RBuf) : Prop := b.rsize = (b.cap : Int) ∧ 0 < b.cap ∧ b.cap < 2 ^ 31 ∧ b.rcurr + b.rbytes ≤ b.cap

/-- The commands that store or look for an element of a collection and bring its value along. -/
def elemCmd (c : Cmd) : Bool := match c with
  | .lopInsert | .sopInsert | .sopDelete | .sopExist | .bopInsert | .bopUpsert | .bopUpdate => true
  | _ => false

end Verif.Bin.Spec
