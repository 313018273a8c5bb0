/-
The input side of a client connection: how the bytes that arrive on a socket are gathered in the input buffer of the connection, cut into
command lines and data blocks, and handed to the command handlers (memcached.c).

What a command line *does* is a parameter here (`Handler`); the handlers of the commands with data and of pipelines are in
`Verif/Model/ConnCmd.lean`.
-/

namespace Verif.Conn

/-- What a command handler asks the connection to do next: `process_command_ascii` ends in one of the states conn_new_cmd (directly, or by
way of conn_write/conn_mwrite), conn_nread with `c->rlbytes` (or `c->rltotal`) set, conn_swallow with `c->sbytes`, an `int`, set (directly, or by way
of conn_write and `c->write_and_go`), or conn_closing (memcached.c 13561-13771; the states themselves: 14148-14501). -/
inductive Next where
  | cmd
  | nread (n : Nat)
  | swallow (n : Int)
  | close
  deriving DecidableEq, Repr

/-- The command handlers, as functions of everything else in the server (`W`): `line` is `process_command_ascii` on one line
(memcached.c 13561-13771), `data` is `complete_nread` on a data block that has arrived whole (memcached.c 7834-7844).
`none`: the handler runs into an assertion or leaves its arrays.
Simplified: `complete_nread` always returns to conn_new_cmd. -/
structure Handler (W : Type) where
  line : W → List Nat → Option (W × Next)
  data : W → List Nat → Option W

/-- The state of the connection's state machine (`c->state`, memcached.h 263, 287).  `waiting` is conn_waiting together with conn_read
(memcached.c 14148-14178), `parse` is conn_parse_cmd, `fresh` is conn_new_cmd; `nread n got` has `c->rlbytes = n` and the bytes `got`
already at their place; `swallow n` has `c->sbytes = n`.
Simplified: conn_write and conn_mwrite, which send the answer and then go on to the next state (14387-14490), are part of the handlers. -/
inductive Mode where
  | waiting
  | parse
  | fresh
  | nread (n : Nat) (got : List Nat)
  | swallow (n : Int)
  | closed
  deriving DecidableEq, Repr

/-- One connection.  The input buffer `c->rbuf` (`c->rsize` bytes) is `used ++ data ++ spare`: `c->rcurr` is at the end of `used`, and
`c->rbytes` is the length of `data` (memcached.h 293-296).  `net`: what the client has sent and the server has not read yet.
Simplified: the bytes of `used` are overwritten in part by the tokenizer (zero bytes instead of blanks and line ends, mc_util.c 238-285);
here they stay. -/
structure St (W : Type) where
  used : List Nat
  data : List Nat
  spare : List Nat
  net : List Nat
  mode : Mode
  world : W

variable {W : Type}

/-- `DATA_BUFFER_SIZE` (memcached.h 56). -/
def dataBufferSize : Nat := 2048

/-- `READ_BUFFER_HIGHWAT` (memcached.h 77). -/
def readBufferHighwat : Nat := 8192

/-- `c->rsize`. (memcached.h 295) -/
def St.rsize (s : St W) : Nat := s.used.length + s.data.length + s.spare.length

/-- `conn_new` for a client's connection (memcached.c 597-690, 14141-14143): an input buffer of `DATA_BUFFER_SIZE` bytes with unknown
contents, no bytes in it, state conn_new_cmd. -/
def St.open (w : W) (junk : Nat → Nat) : St W :=
  { used := [], data := [], spare := (List.range dataBufferSize).map junk, net := [], mode := .fresh, world := w }

/-- Where the line in the buffer ends: `memchr(c->rcurr, '\n', c->rbytes)` (memcached.c 13780), together with what lies before it and after
it. -/
def cutLine : List Nat → Option (List Nat × List Nat)
  | [] => none
  | b :: bs =>
    if b = 10 then some ([], bs)
    else match cutLine bs with
      | none => none
      | some (l, r) => some (b :: l, r)

/-- The line without the `'\r'` before its end: it is removed only when the line has more than one byte
(memcached.c 13815-13819). -/
def chomp (l : List Nat) : List Nat :=
  if 1 < l.length ∧ l.getLast? = some 13 then l.dropLast else l

/-- `while (*ptr == ' ') ++ptr;` (memcached.c 13788-13791): how many blanks are skipped.  The loop has no bound: `none` when it runs over
the end of the buffer (the argument is everything from `c->rcurr` to the end of the buffer). -/
def blanks : List Nat → Option Nat
  | [] => none
  | b :: bs => if b = 32 then (blanks bs).map (· + 1) else some 0

/-- `strncmp(ptr, "get ", 4) == 0 || strncmp(ptr, "gets ", 5) == 0` (memcached.c 13805). -/
def isGet (l : List Nat) : Bool := l.take 4 = [103, 101, 116, 32] || l.take 5 = [103, 101, 116, 115, 32]

/-- What `try_read_command_ascii` makes of a buffer without a line end in it (memcached.c 13781-13813): `some true` closes the
connection, `some false` waits for more.  `none`: the scan over the blanks leaves the buffer. -/
def tooLong (data spare : List Nat) : Option Bool :=
  if data.length ≤ 1024 then some false
  else match blanks (data ++ spare) with
    | none => none
    | some k =>
      if 100 < k then some true
      else if 24 * 1024 < data.length ∧ isGet ((data ++ spare).drop k) = false then some true
      else some false

/-- The state in which a handler leaves the connection. (memcached.c 14148-14501) -/
def Next.mode : Next → Mode
  | .cmd => .fresh
  | .nread n => .nread n []
  | .swallow n => .swallow n
  | .close => .closed

/-- `conn_parse_cmd` with `try_read_command_ascii` (memcached.c 13773-13835, 14180-14200). -/
def stepParse (h : Handler W) (s : St W) : Option (St W) :=
  if s.data = [] then some { s with mode := .waiting }
  else match cutLine s.data with
    | none =>
      match tooLong s.data s.spare with
      | none => none
      | some true => some { s with mode := .closed }
      | some false => some { s with mode := .waiting }
    | some (l, r) =>
      match h.line s.world (chomp l) with
      | none => none
      | some (w, nx) => some { s with used := s.used ++ l ++ [10], data := r, mode := nx.mode, world := w }

/-- `conn_new_cmd` with `reset_cmd_handler` and the input half of `conn_shrink` (memcached.c 959-978, 7770-7794, 14202-14227).
Simplified: `realloc` to the smaller size succeeds; the pauses in favour of other connections (`c->nevents`) only delay the step. -/
def stepFresh (s : St W) : St W :=
  let s := if readBufferHighwat < s.rsize ∧ s.data.length < dataBufferSize then
      { s with used := [], spare := ((s.data ++ (s.used ++ s.data ++ s.spare).drop s.data.length).take dataBufferSize).drop s.data.length }
    else s
  if s.data = [] then { s with mode := .waiting } else { s with mode := .parse }

/-- The bytes to the front of the buffer (memcached.c 13919-13923). -/
def toFront (s : St W) : St W :=
  { s with used := [], spare := (s.used ++ s.data ++ s.spare).drop s.data.length }

/-- The loop of `try_read_network` (memcached.c 13925-13988): `k` more enlargements of the buffer are allowed, `got` says whether anything
was read so far, and each number in the list is the most that one `read` call returns (the end of the list: nothing is there, EAGAIN).
A full read is followed by another one.
Simplified: `realloc` succeeds, and the new bytes have unknown values (`junk`); the client does not hang up (hanging up closes the
connection). -/
def readLoop (junk : Nat → Nat) (k : Nat) (s : St W) (got : Bool) : List Nat → St W × Bool
  | [] =>
    if s.spare = [] ∧ 0 < k then ({ s with spare := (List.range s.rsize).map junk }, got) else (s, got)
  | cap :: caps =>
    if s.spare = [] ∧ k = 0 then (s, got)
    else
      let (s, k) := if s.spare = [] then ({ s with spare := (List.range s.rsize).map junk }, k - 1) else (s, k)
      let res := min (min cap s.spare.length) s.net.length
      if res = 0 then (s, got)
      else
        let full := res = s.spare.length
        let s := { s with data := s.data ++ s.net.take res, spare := s.spare.drop res, net := s.net.drop res }
        if full then readLoop junk k s true caps else (s, true)

/-- `conn_waiting`, `conn_read` with `try_read_network` (memcached.c 13914-13990, 14148-14178). -/
def stepRead (junk : Nat → Nat) (caps : List Nat) (s : St W) : St W :=
  let (s, got) := readLoop junk 5 (toFront s) false caps
  { s with mode := if got then .parse else .waiting }

/-- `conn_nread` (memcached.c 14288-14385): take over what is already in the input buffer, then read the rest from the socket right to its
place; when all is there, `complete_nread`.  The first number is the most that the one `read` call returns.
Simplified: a value stored in several blocks (`c->rltotal`, `ritem_set_next`) is one block. -/
def stepNread (h : Handler W) (caps : List Nat) (n : Nat) (got : List Nat) (s : St W) : Option (St W) :=
  if n = 0 then
    match h.data s.world got with
    | none => none
    | some w => some { s with mode := .fresh, world := w }
  else
    let m := min s.data.length n
    let t := s.data.take m
    let s := { s with used := s.used ++ t, data := s.data.drop m, mode := .nread (n - m) (got ++ t) }
    if n - m = 0 then some s
    else
      let res := min (min (caps.headD 0) (n - m)) s.net.length
      some { s with net := s.net.drop res, mode := .nread (n - m - res) (got ++ t ++ s.net.take res) }

/-- `conn_swallow` (memcached.c 14229-14286): throw away what is in the input buffer, else read from the socket over the beginning of the
input buffer.  The first number is the most that the one `read` call returns.  Nothing keeps `c->sbytes` from being negative: then
`c->rcurr` moves backwards (`none` when it leaves the buffer), or `read` refuses the negative length and the connection is closed. -/
def stepSwallow (caps : List Nat) (n : Int) (s : St W) : Option (St W) :=
  if n = 0 then some { s with mode := .fresh }
  else if s.data ≠ [] then
    if n < 0 then
      if s.used.length < n.natAbs then none
      else
        let k := s.used.length - n.natAbs
        some { s with used := s.used.take k, data := s.used.drop k ++ s.data, mode := .swallow 0 }
    else
      let m := min s.data.length n.toNat
      some { s with used := s.used ++ s.data.take m, data := s.data.drop m, mode := .swallow (n - m) }
  else if n < 0 then some { s with mode := .closed }
  else
    let res := min (min (caps.headD 0) (min n.toNat s.rsize)) s.net.length
    let arr := s.net.take res ++ (s.used ++ s.spare).drop res
    some { s with used := arr.take s.used.length, spare := arr.drop s.used.length, net := s.net.drop res, mode := .swallow (n - res) }

/-- One round of `event_handler`'s loop over the states of a connection, `while (c->state(c))`
(memcached.c 14544-14546).  `caps`: what the `read` calls of this round return at most. -/
def step (h : Handler W) (junk : Nat → Nat) (caps : List Nat) (s : St W) : Option (St W) :=
  match s.mode with
  | .waiting => some (stepRead junk caps s)
  | .parse => stepParse h s
  | .fresh => some (stepFresh s)
  | .nread n got => stepNread h caps n got s
  | .swallow n => stepSwallow caps n s
  | .closed => some s

/-- What can happen to a connection: the client sends more bytes, or the server takes a step (memcached.c 14503-14547). -/
inductive Ev where
  | sends (bs : List Nat)
  | round (caps : List Nat)
  deriving DecidableEq, Repr

/-- One event. (memcached.c 14503-14547; bytes from the client queue up in the socket) -/
def event (h : Handler W) (junk : Nat → Nat) (s : St W) : Ev → Option (St W)
  | .sends bs => some { s with net := s.net ++ bs }
  | .round caps => step h junk caps s

/-- A run of events, from the opening of the connection (memcached.c 14503-14547). -/
def run (h : Handler W) (junk : Nat → Nat) (s : St W) : List Ev → Option (St W)
  | [] => some s
  | e :: es => (event h junk s e).bind fun s => run h junk s es

end Verif.Conn
