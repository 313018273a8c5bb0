import Verif.Model.Auth
import Verif.Model.ConnCmd
/-
Authentication data that follow a command line, and refused commands whose data follow (memcached.c, compiled with `ASCII_SASL`).
-/

namespace Verif.Auth

/-- `MAX_SASL_MECH_LEN` (sasl_defs.h 5). -/
def mechMax : Nat := 32

/-- What `sasl auth` leads to (memcached.c 4307-4345): an error in the line, no memory, `SASL_OK` without authentication (`require_sasl` is off), or
bytes that are given to the library. -/
inductive AuthAns where
  | bad | noMemory | off | given (data : List Nat)
deriving DecidableEq, Repr

/-- The word for the length, if the one for the mechanism is not too long (memcached.c 4309-4323; 10427: one or two words). -/
def authNum : List (List Nat) → Option (List Nat)
  | [mech, num] => if mechMax < mech.length then none else some num
  | [num] => some num
  | _ => none

/-- `process_ascii_sasl_auth` (memcached.c 4307-4345), reading the data (14288), and the first argument of the library in `process_sasl_auth_complete`
(3239-3252): `args` are the words after `sasl auth`, `room` if `malloc` succeeds, `stream` the bytes after the line.  `len + 2` is computed with 32
bits.  The second component are the bytes that are next taken for commands.  `none`: the library reads beyond the memory that was allocated, or a
negative number of bytes is to be swallowed (see `Verif.Conn.toInt`).
Simplified: all bytes that are asked for arrive. -/
def saslAuth (require room : Bool) (args : List (List Nat)) (stream : List Nat) : Option (AuthAns × List Nat) :=
  match authNum args with
  | none => some (.bad, stream)
  | some num =>
    match Verif.Util.safeStrtoul (num ++ [0]) with
    | some (some len) =>
      let n := (len + 2) % 4294967296
      if require = false then
        if n < 2147483648 then some (.off, stream.drop n) else none
      else if room = false then some (.noMemory, stream)
      else if len ≤ n then some (.given ((stream.take n).take len), stream.drop n)
      else none
    | _ => some (.bad, stream)

/-- `CLIENT_ERROR unauthorized` (memcached.c 8605). -/
def unauthorized : List Nat :=
  w ['C', 'L', 'I', 'E', 'N', 'T', '_', 'E', 'R', 'R', 'O', 'R', ' ', 'u', 'n', 'a', 'u', 't', 'h', 'o', 'r', 'i', 'z', 'e', 'd']

/-- The command line is refused. (memcached.c 7891-7921) -/
def refuses (c : Conn) (l : List Nat) : Bool := line true true c l == some .refused

/-- A server that checks rights: a refused command is answered and done, its form is not looked at any more, also not for the length of the data that
follow (e.g. memcached.c 8745-8750, before 8752-8773; 10806-10811, before 10820-10837). -/
def guardEngine {E : Type} (c : Conn) (g : Verif.Conn.Engine E) : Verif.Conn.Engine E where
  parse l := if refuses c l then .simple .plain else g.parse l
  room := g.room
  exec e l d := if refuses c l then (e, .says unauthorized) else g.exec e l d

end Verif.Auth
