import Verif.Model.ConnIn
/-
The command handlers of the ascii protocol, as far as they decide how the bytes after a command line are taken and what is sent back when:
`noreply`, pipelines (`pipe`), and the data blocks that follow the lines of storage commands (memcached.c).

What the commands do to the data of the server is a parameter (`Engine`).
-/

namespace Verif.Conn

/-- The states of a pipeline, `PIPE_STATE_OFF` ... `PIPE_STATE_ERR_BAD` (memcached.h 111-116). -/
inductive Pipe where
  | off
  | on
  | cfull
  | mfull
  | bad
  deriving DecidableEq, Repr

/-- The part of `struct conn` that decides about answers: `c->noreply`, `c->pipe_state`, `c->pipe_count`, and the responses saved so far, in
`c->pipe_resbuf` from `PIPE_RES_HEAD_SIZE` to `c->pipe_reslen` (memcached.h 398-402, 411).
Simplified: `c->pipe_errlen` is used for a log message only. -/
structure Conn where
  noreply : Bool
  pipe : Pipe
  count : Nat
  res : List Nat
  deriving DecidableEq, Repr

/-- `PIPE_CMD_MAX_COUNT` (memcached.h 105). -/
def pipeCmdMax : Nat := 500

/-- `PIPE_RES_HEAD_SIZE` (memcached.h 107). -/
def pipeHeadSize : Nat := 20

/-- `PIPE_RES_TAIL_SIZE` (memcached.h 108). -/
def pipeTailSize : Nat := 40

/-- `PIPE_RES_MAX_SIZE` (memcached.h 109). -/
def pipeMaxSize : Nat := 500 * 40 + pipeHeadSize + pipeTailSize

/-- The two bytes that end a line sent to the client (memcached.c 1456, 1580). -/
def crlf : List Nat := [13, 10]

/-- The digits of a number, as `sprintf("%d")` writes them (memcached.c 1491); the first argument bounds the number of steps. -/
def digits : Nat → Nat → List Nat
  | 0, _ => []
  | f + 1, n => if n < 10 then [48 + n] else digits f (n / 10) ++ [48 + n % 10]

/-- `"RESPONSE %d\r\n"` (memcached.c 1491). -/
def pipeHead (n : Nat) : List Nat := [82, 69, 83, 80, 79, 78, 83, 69, 32] ++ digits (n + 1) n ++ crlf

/-- The last line of the answer to a pipeline (memcached.c 1497-1514). -/
def pipeTail : Pipe → List Nat
  | .cfull => [80, 73, 80, 69, 95, 69, 82, 82, 79, 82, 32, 99, 111, 109, 109, 97, 110, 100, 32, 111, 118, 101, 114, 102, 108, 111, 119] ++ crlf
  | .mfull => [80, 73, 80, 69, 95, 69, 82, 82, 79, 82, 32, 109, 101, 109, 111, 114, 121, 32, 111, 118, 101, 114, 102, 108, 111, 119] ++ crlf
  | .bad => [80, 73, 80, 69, 95, 69, 82, 82, 79, 82, 32, 98, 97, 100, 32, 101, 114, 114, 111, 114] ++ crlf
  | _ => [69, 78, 68] ++ crlf

/-- An answer that ends a pipeline: it begins with `CLIENT_ERROR`, `SERVER_ERROR` or `ERROR` (memcached.c 1451-1453). -/
def isError (s : List Nat) : Bool :=
  s.take 12 = [67, 76, 73, 69, 78, 84, 95, 69, 82, 82, 79, 82] || s.take 12 = [83, 69, 82, 86, 69, 82, 95, 69, 82, 82, 79, 82] || s.take 5 = [69, 82, 82, 79, 82]

/-- `pipe_state_clear` (memcached.c 1431-1435). -/
def pipeClear (c : Conn) : Conn := { c with pipe := .off, count := 0 }

/-- `pipe_response_save` (memcached.c 1437-1481); `false` for the result -1. -/
def pipeSave (c : Conn) (s : List Nat) : Conn × Bool :=
  match c.pipe with
  | .on =>
    let c := if c.count = 0 then { c with res := [] } else c
    if pipeHeadSize + c.res.length + (s.length + 2) < pipeMaxSize - pipeTailSize then
      let c := { c with res := c.res ++ s ++ crlf, count := c.count + 1 }
      if isError s then ({ c with pipe := .bad }, false)
      else if pipeCmdMax ≤ c.count ∧ c.noreply = true then ({ c with pipe := .cfull }, false)
      else (c, true)
    else ({ c with pipe := .mfull }, false)
  | _ => (pipeClear c, true)

/-- `pipe_response_done` (memcached.c 1483-1530): the whole answer.  `none`: the head does not fit in front of the saved responses
(the assertion in line 1492), or the tail with its zero byte does not fit behind them. -/
def pipeDone (c : Conn) (last : Bool) : Option (Conn × List Nat) :=
  if pipeHeadSize < (pipeHead c.count).length ∨
      pipeMaxSize < pipeHeadSize + c.res.length + (pipeTail c.pipe).length + 1 then none
  else
    let answer := pipeHead c.count ++ c.res ++ pipeTail c.pipe
    let res := c.res ++ pipeTail c.pipe
    some (if c.pipe = .on ∨ last = true then { pipeClear c with res := res } else { c with res := res }, answer)

/-- `"SERVER_ERROR output line too long"` (memcached.c 1574). -/
def tooLongLine : List Nat := [83, 69, 82, 86, 69, 82, 95, 69, 82, 82, 79, 82, 32, 111, 117, 116, 112, 117, 116, 32, 108, 105, 110, 101, 32, 116, 111, 111, 32, 108, 111, 110, 103]

/-- `out_string` (memcached.c 1532-1590): the bytes to send (state conn_write), or `none` as the second component when nothing is sent
(state conn_new_cmd).  `c->wsize` is `DATA_BUFFER_SIZE` (memcached.c 474-479). -/
def outString (c : Conn) (s : List Nat) : Option (Conn × Option (List Nat)) :=
  let original := c.noreply
  let c :=
    if c.pipe ≠ .off then
      let (c, ok) := pipeSave c s
      if ok then c else { c with noreply := false }
    else c
  if c.noreply then some ({ c with noreply := false }, none)
  else if c.pipe ≠ .off then
    match pipeDone c (!original) with
    | none => none
    | some (c, b) => some (c, some b)
  else some (c, some ((if dataBufferSize < s.length + 2 then tooLongLine else s) ++ crlf))

/-- The last word of a command line, as far as it matters here (memcached.c 7951-8012). -/
inductive Tail where
  | plain
  | noreply
  | pipe
  deriving DecidableEq, Repr

/-- `set_noreply_maybe` (memcached.c 7951-7967). -/
def setNoreply (c : Conn) (t : Tail) : Conn := { c with noreply := decide (t = .noreply) }

/-- `set_pipe_noreply_maybe` (memcached.c 7969-7993); `set_pipe_maybe` (7995-8013) is the same without `noreply`. -/
def setPipe (c : Conn) (t : Tail) : Conn :=
  match t with
  | .plain => { c with noreply := false }
  | .noreply => { c with noreply := true }
  | .pipe => { c with noreply := true, pipe := if c.pipe = .off then .on else c.pipe }

/-- `check_and_handle_pipe_state` (memcached.c 8015-8031). -/
def checkPipe (c : Conn) : Conn × Bool :=
  if c.pipe = .off ∨ c.pipe = .on then (c, true)
  else if c.noreply = true then ({ c with noreply := false }, false)
  else (pipeClear c, false)

/-- What a command line asks for.
 * `simple`: no data, no pipeline; the answer goes through `out_string` (`delete`, `incr`, `touch`, `lop create`, `version`, ...; also every
   line that is not understood).
 * `direct`: no data; the answer is sent without `out_string` (`get`, `bop get`, `stats`, ...).
 * `quick`: no data, may be part of a pipeline (`lop delete`, `bop delete`, `bop incr`, `bop update` without a value, ...).
 * `store`: `set`, `add`, `replace`, `append`, `prepend`, `cas` with the announced length (memcached.c 8735-8828).
 * `value`: `lop insert`, `sop insert`, `sop delete`, `sop exist`, `bop insert`, `bop upsert`, `bop update`, `mop insert`, `mop update` with the
   announced length (memcached.c 10820-10863, 11171-11282, 12386-12478, 12624-12799).
 * `fields`: `mop delete` with the announced length of the field list, and whether number and length of the fields are refused
   (memcached.c 12484-12540).
 * `keys`: `mget`, `mgets`, `bop mget`, `bop smget`, `mop get` with the announced length of the key list, and whether the arguments are
   refused (memcached.c 8697-8731, 12541-12590, 13006-13110).
Simplified: `sop delete` and the like have their own names for the same steps. -/
inductive Cmd where
  | simple (t : Tail)
  | direct
  | quick (t : Tail)
  | store (t : Tail) (len : Nat)
  | value (t : Tail) (len : Nat)
  | fields (t : Tail) (len : Nat) (refused : Bool)
  | keys (len : Nat) (refused : Bool)
  deriving DecidableEq, Repr

/-- An answer: a string for `out_string`, or bytes that are sent as they are. (memcached.c 1532-1590, 14408-14490) -/
inductive Ans where
  | says (s : List Nat)
  | sends (s : List Nat)
  deriving DecidableEq, Repr

/-- The rest of the server: how a line is understood (memcached.c 13561-13771), whether there is room for the data of a command (the error
message otherwise; e.g. memcached.c 10677-10681, 8783-8808), and what a command does and answers. -/
structure Engine (E : Type) where
  parse : List Nat → Cmd
  room : E → List Nat → E × Option (List Nat)
  exec : E → List Nat → List Nat → E × Ans

/-- The server as one connection sees it: the connection, everything else, all bytes sent to the client so far, the command that waits for
its data, and (for the statements only) the lines that were taken for commands so far. (memcached.h 284-411) -/
structure World (E : Type) where
  conn : Conn
  env : E
  out : List Nat
  pending : List Nat
  lines : List (List Nat)

variable {E : Type}

/-- An `int` made of an unsigned number, as in `c->sbytes = lenkeys + 2` (memcached.c 8721, 12501, 12562, 13074). -/
def toInt (n : Nat) : Int :=
  let m := n % 4294967296
  if m < 2147483648 then m else (m : Int) - 4294967296

/-- `out_string`, with the bytes sent; the second component says whether anything was sent (state conn_write).
(memcached.c 1532-1590) -/
def say (w : World E) (s : List Nat) : Option (World E × Bool) :=
  match outString w.conn s with
  | none => none
  | some (c, none) => some ({ w with conn := c }, false)
  | some (c, some b) => some ({ w with conn := c, out := w.out ++ b }, true)

/-- The answer of a command that is done. (memcached.c 1532-1590, 14408-14490) -/
def answer (w : World E) : Ans → Option (World E)
  | .says s => (say w s).map (·.1)
  | .sends s => some { w with out := w.out ++ s }

/-- A command without data. (e.g. memcached.c 8866-8930) -/
def doNow (g : Engine E) (w : World E) (l : List Nat) : Option (World E × Next) :=
  let (e, a) := g.exec w.env l []
  (answer { w with env := e } a).map fun w => (w, .cmd)

/-- `process_..._prepare_nread` with room for `n` bytes or without: then an error is sent and the data is swallowed, in both states in which
`out_string` can leave the connection (memcached.c 8813-8827, 10671-10709, 11063-11122, 11746-11829, 12240-12330). -/
def prepare (g : Engine E) (w : World E) (l : List Nat) (n : Nat) : Option (World E × Next) :=
  match g.room w.env l with
  | (e, none) => some ({ w with env := e, pending := l }, .nread n)
  | (e, some err) => (say { w with env := e } err).map fun (w, _) => (w, .swallow (toInt n))

/-- `out_string(c, "CLIENT_ERROR bad value"); c->sbytes = lenkeys + 2; c->write_and_go = conn_swallow;`
(memcached.c 8719-8724, 12498-12504, 12559-12565, 13071-13077): when nothing is sent (`noreply`), the state is conn_new_cmd and
`c->write_and_go` has no effect. -/
def refuse (g : Engine E) (w : World E) (l : List Nat) (n : Nat) : Option (World E × Next) :=
  let (e, a) := g.exec w.env l []
  match a with
  | .sends s => some ({ w with env := e, out := w.out ++ s }, .cmd)
  | .says s => (say { w with env := e } s).map fun (w, sent) => (w, if sent then .swallow (toInt n) else .cmd)

/-- `process_command_ascii` (memcached.c 13561-13771) on one line.  Announced lengths over `INT_MAX-2` (`store`, `value`: memcached.c 8769, 10829) or
`UINT_MAX-2` (`fields`, `keys`: 8711, 12493, 12552, 13022) make the line a malformed one. -/
def onLine (g : Engine E) (w : World E) (l : List Nat) : Option (World E × Next) :=
  let w := { w with lines := w.lines ++ [l] }
  match g.parse l with
  | .simple t => doNow g { w with conn := setNoreply w.conn t } l
  | .direct => doNow g w l
  | .quick t =>
    let (c, ok) := checkPipe (setPipe w.conn t)
    if ok then doNow g { w with conn := c } l else some ({ w with conn := c }, .cmd)
  | .store t len =>
    if 2147483645 < len then doNow g { w with conn := setNoreply w.conn t } l
    else prepare g { w with conn := setNoreply w.conn t } l (len + 2)
  | .value t len =>
    if 2147483645 < len then doNow g { w with conn := setPipe w.conn t } l
    else
      let (c, ok) := checkPipe (setPipe w.conn t)
      if ok then prepare g { w with conn := c } l (len + 2) else some ({ w with conn := c }, .swallow (toInt (len + 2)))
  | .fields t len refused =>
    let w := { w with conn := setPipe w.conn t }
    if 4294967293 < len then doNow g w l
    else if refused then refuse g w l (len + 2)
    else
      let (c, ok) := checkPipe w.conn
      if ok then
        if len = 0 then doNow g { w with conn := c } l else prepare g { w with conn := c } l (len + 2)
      else if 0 < len then some ({ w with conn := c }, .swallow (toInt len))
      else some ({ w with conn := c }, .cmd)
  | .keys len refused =>
    if 4294967293 < len then doNow g w l
    else if refused then refuse g w l (len + 2)
    else if len = 0 then doNow g w l
    else prepare g w l (len + 2)

/-- `complete_nread` (memcached.c 7834-7844): the command that waited for its data. -/
def onData (g : Engine E) (w : World E) (d : List Nat) : Option (World E) :=
  let (e, a) := g.exec w.env w.pending d
  answer { w with env := e } a

/-- The handlers of a connection. (memcached.c 7834-7844, 13561-13771) -/
def handler (g : Engine E) : Handler (World E) := { line := onLine g, data := onData g }

/-- A new connection: `conn_new` (memcached.c 692-694): no pipeline, `noreply` off. -/
def World.start (e : E) : World E :=
  { conn := { noreply := false, pipe := .off, count := 0, res := [] }, env := e, out := [], pending := [], lines := [] }

end Verif.Conn
