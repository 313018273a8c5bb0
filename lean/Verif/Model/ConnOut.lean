/-
The output side of a client connection: how the pieces of a response are gathered and sent, with writes that take only part of it
(memcached.c).
-/

namespace Verif.ConnOut

/-- An entry of the list of pieces, `struct iovec`: bytes (somewhere in memory), or the place for the header of a UDP packet
(`iov_base` NULL, memcached.c 408). -/
inductive Frag where
  | bytes (l : List Nat)
  | header
  deriving DecidableEq, Repr

/-- A message, `struct msghdr`: `msg_iov` points to the entry `start` of the list of pieces as it was allocated at the time `gen`, and
`msg_iovlen` is `len`. (memcached.c 376-410) -/
structure Msg where
  gen : Nat
  start : Nat
  len : Nat
  deriving DecidableEq, Repr

/-- The output part of `struct conn` (memcached.h 326-341, 392-395): `c->iov` with `c->iovsize` entries (of which `gen` counts the allocations) and
`c->iovused`, `c->msglist` with `c->msgused` entries, `c->msgsize`, `c->msgbytes`, `c->msgcurr`; `udp` is `IS_UDP(c->transport)`, `id` is `c->request_id`. -/
structure Out where
  udp : Bool
  id : Nat
  iov : List Frag
  iovused : Nat
  gen : Nat
  msgs : List Msg
  msgsize : Nat
  msgbytes : Nat
  msgcurr : Nat
  deriving Repr

/-- `IOV_MAX` (config_static.h 118-122, and the same value in Linux's limits.h). -/
def iovMax : Nat := 1024

/-- `UDP_MAX_PAYLOAD_SIZE` (memcached.h 58). -/
def udpMax : Nat := 1400

/-- `UDP_HEADER_SIZE` (memcached.h 59). -/
def udpHeader : Nat := 8

/-- `conn_new`: lists of `IOV_LIST_INITIAL` and `MSG_LIST_INITIAL` entries (memcached.c 507-527; memcached.h 72, 75). -/
def Out.new (udp : Bool) (id : Nat) : Out :=
  { udp := udp, id := id, iov := List.replicate 400 (.bytes []), iovused := 0, gen := 0, msgs := [], msgsize := 10, msgbytes := 0, msgcurr := 0 }

/-- The loop of `ensure_iov_space` that points all messages at the new list (memcached.c 1159-1162). -/
def repoint (gen : Nat) : Nat → List Msg → List Msg
  | _, [] => []
  | n, m :: ms => { m with gen := gen, start := n } :: repoint gen (n + m.len) ms

/-- `ensure_iov_space` (memcached.c 1146-1167).
Simplified: `realloc` succeeds; it may move the list, so that older pointers are not good any more. -/
def ensureSpace (o : Out) : Out :=
  if o.iov.length ≤ o.iovused then
    { o with iov := o.iov ++ List.replicate o.iov.length (.bytes []), gen := o.gen + 1, msgs := repoint (o.gen + 1) 0 o.msgs }
  else o

/-- The length of a piece, `iov_len`. (memcached.c 408, 1216) -/
def Frag.len : Frag → Nat
  | .bytes l => l.length
  | .header => udpHeader

/-- A piece is added to the last message: the end of `add_iov` (memcached.c 1201-1202, 1213-1220, 1231-1238).  `none`: there is no message, its
pointer is not good any more, or the entry is outside the list. -/
def put (o : Out) (f : Frag) : Option Out :=
  let o := ensureSpace o
  match o.msgs.getLast? with
  | none => none
  | some m =>
    if m.gen ≠ o.gen ∨ o.iov.length ≤ m.start + m.len then none
    else some { o with iov := o.iov.set (m.start + m.len) f, msgbytes := o.msgbytes + f.len, iovused := o.iovused + 1,
                       msgs := o.msgs.dropLast ++ [{ m with len := m.len + 1 }] }

/-- `add_msghdr` (memcached.c 376-410); for UDP, with the call of `add_iov` for the header, which is in a new message neither split nor moved
to yet another one.  `none`: no room in the list of messages.
Simplified: `realloc` succeeds (else a message gets more than `IOV_MAX` pieces, and `sendmsg` fails). -/
def addMsg (o : Out) : Option Out :=
  let o := if o.msgsize = o.msgs.length then { o with msgsize := o.msgsize * 2 } else o
  if o.msgsize ≤ o.msgs.length then none
  else
    let o := { o with msgs := o.msgs ++ [{ gen := o.gen, start := o.iovused, len := 0 }], msgbytes := 0 }
    if o.udp then put o .header else some o

/-- `c->msgcurr = 0; c->msgused = 0; c->iovused = 0; add_msghdr(c);` (memcached.c 1571-1574, 3557-3560, 7748-7751, 13582-13585). -/
def start (o : Out) : Option Out := addMsg { o with msgcurr := 0, msgs := [], iovused := 0 }

/-- `add_iov` for TCP (memcached.c 1223-1238). -/
def addTcp (o : Out) (buf : List Nat) : Option Out :=
  match o.msgs.getLast? with
  | none => none
  | some m =>
    if m.len = iovMax then (addMsg o).bind fun o => put o (.bytes buf)
    else put o (.bytes buf)

/-- `add_iov` for UDP (memcached.c 1186-1221); the first argument bounds the rounds of the loop. -/
def addUdp : Nat → Out → List Nat → Option Out
  | 0, _, _ => none
  | k + 1, o, buf =>
    match o.msgs.getLast? with
    | none => none
    | some m =>
      let full := m.len = iovMax ∨ udpMax ≤ o.msgbytes
      match (if full then addMsg o else some o) with
      | none => none
      | some o =>
        let leftover := if udpMax < buf.length + o.msgbytes then buf.length + o.msgbytes - udpMax else 0
        let n := buf.length - leftover
        match put o (.bytes (buf.take n)) with
        | none => none
        | some o => if 0 < leftover then addUdp k o (buf.drop n) else some o

/-- `add_iov` (memcached.c 1180-1241). -/
def addIov (o : Out) (buf : List Nat) : Option Out :=
  if o.udp then addUdp (buf.length + 1) o buf else addTcp o buf

/-- All pieces of a response. (e.g. memcached.c 2044-2072, 3053-3060) -/
def addAll (o : Out) : List (List Nat) → Option Out
  | [] => some o
  | b :: bs => (addIov o b).bind fun o => addAll o bs

/-- `build_udp_header` (memcached.c 1412-1429): the bytes of the header. -/
def headerBytes (id cur used : Nat) : List Nat :=
  [id / 256 % 256, id % 256, cur / 256 % 256, cur % 256, used / 256 % 256, used % 256, 0, 0]

/-- The bytes of a piece. (memcached.c 1216) -/
def Frag.text : Frag → List Nat
  | .bytes l => l
  | .header => []

/-- What `sendmsg` can do: write at most `n` bytes, nothing now (EAGAIN), or fail (memcached.c 14036-14067). -/
inductive Res where
  | wrote (n : Nat)
  | again
  | fails
  deriving DecidableEq, Repr

/-- The result of `transmit`, except that an incomplete transmission and a soft error are both `more` (memcached.c 14014-14019). -/
inductive Status where
  | more
  | complete
  | closed
  deriving DecidableEq, Repr

/-- The loop over the pieces that were written, and the piece that was written in part (memcached.c 14041-14053): `len` more pieces of the message
from entry `start` on, and `res` more bytes. `none`: the list ends. -/
def consume (iov : List Frag) : Nat → Nat → Nat → Option (List Frag × Nat × Nat)
  | start, 0, res => if res = 0 then some (iov, start, 0) else none
  | start, len + 1, res =>
    match iov[start]? with
    | none => none
    | some f =>
      if f.len ≤ res then consume iov (start + 1) len (res - f.len)
      else if 0 < res then some (iov.set start (.bytes (f.text.drop res)), start, len + 1)
      else some (iov, start, len + 1)

/-- The pieces of a message. (memcached.c 14036) -/
def Out.frags (o : Out) (m : Msg) : List Frag := (o.iov.drop m.start).take m.len

/-- `transmit` (memcached.c 14020-14079): the new state, what was sent, and the result.  A UDP packet is sent whole or not at all. `none`: a
pointer is not good any more.
Simplified: the header of a UDP packet is written into its piece. -/
def transmit (o : Out) (r : Res) : Option (Out × List (List Nat) × Status) :=
  let o := match o.msgs[o.msgcurr]? with
    | some m => if m.len = 0 then { o with msgcurr := o.msgcurr + 1 } else o
    | none => o
  match o.msgs[o.msgcurr]? with
  | none => some (o, [], .complete)
  | some m =>
    if m.gen ≠ o.gen then none
    else
      let o := if o.udp = true ∧ o.iov[m.start]? = some .header then
          { o with iov := o.iov.set m.start (.bytes (headerBytes o.id o.msgcurr o.msgs.length)) }
        else o
      let text := (o.frags m).flatMap Frag.text
      match r with
      | .again => some (o, [], .more)
      | .fails => some (o, [], .closed)
      | .wrote n =>
        let res := if o.udp then text.length else min n text.length
        if res = 0 then some (o, [], .closed)
        else
          match consume o.iov m.start m.len res with
          | none => none
          | some (iov, st, len) => some ({ o with iov := iov, msgs := o.msgs.set o.msgcurr { m with start := st, len := len } }, [text.take res], .more)

/-- `conn_mwrite` again and again, until the response is sent (memcached.c 14408-14490); the third component is `more` if the list of results
ends before. -/
def sendAll (o : Out) : List Res → Option (Out × List (List Nat) × Status)
  | [] => some (o, [], .more)
  | r :: rs =>
    match transmit o r with
    | none => none
    | some (o, w, .more) => (sendAll o rs).map fun (o, w', st) => (o, w ++ w', st)
    | some (o, w, st) => some (o, w, st)

/-- The output half of `conn_shrink` (memcached.c 991-1006). -/
def shrink (o : Out) : Out :=
  if o.udp then o
  else
    let o := if 100 < o.msgsize then { o with msgsize := 10 } else o
    if 600 < o.iov.length then { o with iov := o.iov.take 400, gen := o.gen + 1 } else o

/-- One response, from its pieces and the results of `sendmsg`. (memcached.c 1571-1590, 14387-14490) -/
def respond (o : Out) (bs : List (List Nat)) (rs : List Res) : Option (Out × List (List Nat) × Status) :=
  (start o).bind fun o => (addAll o bs).bind fun o => sendAll o rs

/-- The responses of a connection, one after the other: the next one is begun when the last one is complete.
(memcached.c 14202-14227, 14408-14490) -/
def responses (o : Out) : List (List (List Nat) × List Res) → Option (List (List Nat) × Status)
  | [] => some ([], .complete)
  | (bs, rs) :: more =>
    match respond o bs rs with
    | none => none
    | some (o, w, .complete) => (responses (shrink o) more).map fun (w', st) => (w ++ w', st)
    | some (_, w, st) => some (w, st)

end Verif.ConnOut
