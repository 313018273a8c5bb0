import Verif.Model.Token
import Verif.Model.Util
/-
Who may do what: the access list, authentication, and the checks of the text and the binary protocol (sasl_defs.c, sasl_auxprop.c, memcached.c).
The checks of the text protocol are compiled in with `ASCII_SASL`.
-/

namespace Verif.Auth
open Verif.Token (cstr tokenize getLoop)

/-- A text as bytes (the string literals of sasl_defs.c 176-184, memcached.c 7898, 13597-13759). -/
def w (s : List Char) : List Nat := s.map Char.toNat

/-- `AUTHZ_NONE` and the following (include/memcached/types.h 403-415). -/
def NONE : Nat := 0
/-- include/memcached/types.h 404. -/
def DELETE : Nat := 1
/-- include/memcached/types.h 405. -/
def KV : Nat := 2
/-- include/memcached/types.h 406. -/
def LIST : Nat := 4
/-- include/memcached/types.h 407. -/
def SET : Nat := 8
/-- include/memcached/types.h 408. -/
def MAP : Nat := 16
/-- include/memcached/types.h 409. -/
def BTREE : Nat := 32
/-- include/memcached/types.h 410. -/
def SCAN : Nat := 64
/-- include/memcached/types.h 411. -/
def FLUSH : Nat := 128
/-- include/memcached/types.h 412. -/
def ATTR : Nat := 256
/-- include/memcached/types.h 413. -/
def ADMIN : Nat := 512
/-- include/memcached/types.h 414. -/
def FAIL : Nat := 0x8000
/-- include/memcached/types.h 415. -/
def ALL : Nat := 0x7FFF

/-- The chain of `strcmp` for one token (sasl_defs.c 176-184). -/
def tokenFlags (t : List Nat) : Nat :=
  if t = w ['k', 'v'] then KV ||| DELETE
  else if t = w ['l', 'i', 's', 't'] then LIST ||| DELETE
  else if t = w ['s', 'e', 't'] then SET ||| DELETE
  else if t = w ['m', 'a', 'p'] then MAP ||| DELETE
  else if t = w ['b', 't', 'r', 'e', 'e'] then BTREE ||| DELETE
  else if t = w ['s', 'c', 'a', 'n'] then SCAN
  else if t = w ['f', 'l', 'u', 's', 'h'] then FLUSH
  else if t = w ['a', 't', 't', 'r'] then ATTR
  else if t = w ['a', 'd', 'm', 'i', 'n'] then ADMIN
  else 0

/-- `strtok_r(value, ",", …)` until NULL (sasl_defs.c 173-185): the parts without commas, the empty ones left out; `cur` has been read. -/
def strtok : List Nat → List Nat → List (List Nat)
  | cur, [] => if cur = [] then [] else [cur]
  | cur, b :: r =>
    if b = 44 then if cur = [] then strtok [] r else cur :: strtok [] r
    else strtok (cur ++ [b]) r

/-- The access list as it is kept in `g_sasltable`: the data of every user (sasl_auxprop.c 25-32).  Simplified: a list instead of a hash table, the
paths of users and their properties are told apart. -/
abbrev Acl := List (List Nat × List Nat)

/-- `char value[1024]` (sasl_defs.c 171). -/
def valueMax : Nat := 1024

/-- `arcus_sasl_authz(username)` (sasl_defs.c 167-198) with `arcus_getdata` (sasl_auxprop.c 204-237, 391-394): `useAcl` is `use_acl_zookeeper`, `stack` what
the array `value` held before.  The data are copied without an end mark.  `none`: `strtok_r` reads beyond the array. -/
def authz (useAcl : Bool) (acl : Acl) (user stack : List Nat) : Option Nat :=
  if useAcl = false then some ALL
  else
    match acl.lookup user with
    | none => some FAIL
    | some data =>
      if data.length ≤ valueMax then
        let value := data ++ (stack.take valueMax).drop data.length
        if 0 ∈ value then some ((strtok [] (cstr value)).foldl (fun r t => r ||| tokenFlags t) NONE) else none
      else some FAIL

/-- What the SASL library says: `SASL_OK`, `SASL_CONTINUE`, anything else (memcached.c 3248-3252, 4448-4465). -/
inductive Lib where
  | ok | continue_ | fail
deriving DecidableEq, Repr

/-- The fields of a connection for authentication (memcached.h 279-283). -/
structure Conn where
  user : List Nat
  started : Bool
  authenticated : Bool
  authorized : Nat
deriving DecidableEq, Repr

/-- A new connection (memcached.c 677-680). -/
def Conn.new : Conn := ⟨[], false, false, NONE⟩

/-- `init_sasl_conn` (memcached.c 3192-3210), also called to list the mechanisms (4258, 4352).  Simplified: the library has memory. -/
def initSasl (c : Conn) : Conn := { c with authenticated := false }

/-- `process_sasl_auth_complete` (memcached.c 3228-3308) and `process_bin_complete_sasl_auth` (4414-4520): `mech` if a mechanism was named (the binary
command SASL_AUTH), `lib` the answer of the library, `user` the name it reports.  Simplified: without the answer to the client. -/
def authDone (useAcl : Bool) (acl : Acl) (c : Conn) (mech : Bool) (lib : Lib) (user stack : List Nat) : Option Conn :=
  let c := initSasl c
  let result := if mech then lib else if c.started then lib else .fail
  let c := { c with started := if mech then (result == .ok || result == .continue_) else c.started, user := user }
  if result = .ok then
    match authz useAcl acl user stack with
    | none => none
    | some a => some { c with authorized := a, authenticated := if a = FAIL then c.authenticated else true }
  else some c

/-- The functions that carry out a command (memcached.c 13597-13761, and ascii_scrub.c); `bopKeys` is `process_bop_prepare_nread_keys` for
`bop mget` and `bop smget`, whose keys come with the data (13007-13090). -/
inductive Cmd where
  | get | mget | update | arith | delete | lop | sop | mop | bop | bopKeys | getattr | setattr | stats | flush | config | touch | zkensemble
  | version | dump | quit | help | scan | cmdlog | lqdetect | ready | sasl | shutdown | scrub
deriving DecidableEq, Repr

/-- What is carried out: the function and the keys named in the command line (memcached.c 13597-13761). -/
structure Op where
  cmd : Cmd
  keys : List (List Nat)
deriving DecidableEq, Repr

/-- What comes of a command line: it is carried out, answered with `CLIENT_ERROR unauthorized`, or answered with another error
(memcached.c 8604-8607, 13763-13770). -/
inductive Outcome where
  | run (op : Op) | refused | error
deriving DecidableEq, Repr

/-- `check_ascii_auth` (memcached.c 7891-7921); `none`: `assert(ntokens >= 2)` fails.  Simplified: without the log. -/
def check (c : Conn) (flag : Nat) (key : Option (List Nat)) (ntokens : Nat) : Option Bool :=
  let ok : Bool := decide (c.authorized &&& flag = flag) || (match key with
    | none => false
    | some k => decide (k.take 6 = w ['a', 'r', 'c', 'u', 's', ':']))
  if (ok = false ∨ c.user.head? = some 42) ∧ ntokens < 2 then none else some ok

/-- The check at the beginning of a command function (e.g. memcached.c 8603-8608), and what follows it; `require` is `settings.require_sasl`. -/
def guarded (require : Bool) (c : Conn) (flag : Nat) (key : Option (List Nat)) (ntokens : Nat) (o : Outcome) : Option Outcome :=
  if require then
    match check c flag key ntokens with
    | none => none
    | some false => some .refused
    | some true => some o
  else some o

/-- The command after the check of `process_bop_command` (memcached.c 12615-13090): `bop mget` and `bop smget` fail unless their first argument is a
number.  Simplified: other errors of the form are not told from the command. -/
def bopOp (sub : List Nat) (ntokens : Nat) (key : List Nat) : Outcome :=
  if 7 ≤ ntokens ∧ ntokens ≤ 14 ∧ (cstr sub = w ['m', 'g', 'e', 't'] ∨ cstr sub = w ['s', 'm', 'g', 'e', 't']) then
    match Verif.Util.safeStrtoul (key ++ [0]) with
    | some (some _) => .run ⟨.bopKeys, []⟩
    | _ => .error
  else .run ⟨.bop, [key]⟩

/-- `process_get_command` after the check (memcached.c 8621-8665).  With a key that is too long nothing is sent but an error. -/
def getOp (len : Nat) (ks : List (List Nat)) (rest : Option (List Nat)) : Option Outcome :=
  match getLoop (len + 1) ks rest with
  | none => none
  | some (keys, true) => some (.run ⟨.get, keys⟩)
  | some (_, false) => some .error

/-- `process_extension_command` with the extension of ascii_scrub.c loaded (memcached.c 9872-9935, ascii_scrub.c 56-65): the terminal token is not
counted. -/
def extension (require : Bool) (c : Conn) (s : List Nat) (args : List (List Nat)) : Option Outcome :=
  if args.length + 2 = Verif.Token.maxTokens then some .error
  else if s = w ['s', 'c', 'r', 'u', 'b'] ∧ (args = [] ∨ args.map cstr = [w ['s', 't', 'a', 'l', 'e']]) then
    guarded require c ADMIN none (args.length + 1) (.run ⟨.scrub, []⟩)
  else some .error

/-- `process_command_ascii` (memcached.c 13561-13771) on a line; `ext` if the extension of ascii_scrub.c is loaded.  Simplified: errors of the form that
are found after the check are not told from the command, except those of `get` and `bop mget`. -/
def line (require ext : Bool) (c : Conn) (l : List Nat) : Option Outcome :=
  let (ts, rest) := tokenize l
  match ts with
  | [] => some .error
  | name :: args =>
    let s := cstr name
    let n := args.length + 2
    if 3 ≤ n ∧ (s = w ['g', 'e', 't'] ∨ s = w ['g', 'e', 't', 's']) then
      match getOp l.length args rest with
      | none => none
      | some o => guarded require c KV args.head? n o
    else if n = 4 ∧ (s = w ['m', 'g', 'e', 't'] ∨ s = w ['m', 'g', 'e', 't', 's']) then
      guarded require c KV none n (.run ⟨.mget, []⟩)
    else if (n = 6 ∨ n = 7) ∧ (s = w ['a', 'd', 'd'] ∨ s = w ['s', 'e', 't'] ∨ s = w ['r', 'e', 'p', 'l', 'a', 'c', 'e'] ∨ s = w ['p', 'r', 'e', 'p', 'e', 'n', 'd'] ∨ s = w ['a', 'p', 'p', 'e', 'n', 'd']) then
      match args with
      | k :: _ => guarded require c KV (some k) n (.run ⟨.update, [k]⟩)
      | _ => none
    else if (n = 7 ∨ n = 8) ∧ s = w ['c', 'a', 's'] then
      match args with
      | k :: _ => guarded require c KV (some k) n (.run ⟨.update, [k]⟩)
      | _ => none
    else if (n = 4 ∨ n = 5 ∨ n = 7 ∨ n = 8) ∧ (s = w ['i', 'n', 'c', 'r'] ∨ s = w ['d', 'e', 'c', 'r']) then
      match args with
      | k :: _ => guarded require c KV (some k) n (.run ⟨.arith, [k]⟩)
      | _ => none
    else if 3 ≤ n ∧ n ≤ 5 ∧ s = w ['d', 'e', 'l', 'e', 't', 'e'] then
      match args with
      | k :: _ => guarded require c DELETE (some k) n (.run ⟨.delete, [k]⟩)
      | _ => none
    else if 5 ≤ n ∧ n ≤ 13 ∧ s = w ['l', 'o', 'p'] then
      match args with
      | _ :: k :: _ => guarded require c LIST (some k) n (.run ⟨.lop, [k]⟩)
      | _ => none
    else if 5 ≤ n ∧ n ≤ 12 ∧ s = w ['s', 'o', 'p'] then
      match args with
      | _ :: k :: _ => guarded require c SET (some k) n (.run ⟨.sop, [k]⟩)
      | _ => none
    else if 6 ≤ n ∧ n ≤ 13 ∧ s = w ['m', 'o', 'p'] then
      match args with
      | _ :: k :: _ => guarded require c MAP (some k) n (.run ⟨.mop, [k]⟩)
      | _ => none
    else if 5 ≤ n ∧ n ≤ 14 ∧ s = w ['b', 'o', 'p'] then
      match args with
      | sub :: k :: _ => guarded require c BTREE (some k) n (bopOp sub n k)
      | _ => none
    else if 3 ≤ n ∧ n ≤ 14 ∧ s = w ['g', 'e', 't', 'a', 't', 't', 'r'] then
      match args with
      | k :: _ => guarded require c ATTR (some k) n (.run ⟨.getattr, [k]⟩)
      | _ => none
    else if 4 ≤ n ∧ n ≤ 8 ∧ s = w ['s', 'e', 't', 'a', 't', 't', 'r'] then
      match args with
      | k :: _ => guarded require c ATTR (some k) n (.run ⟨.setattr, [k]⟩)
      | _ => none
    else if 2 ≤ n ∧ s = w ['s', 't', 'a', 't', 's'] then
      some (.run ⟨.stats, []⟩)
    else if 2 ≤ n ∧ n ≤ 4 ∧ s = w ['f', 'l', 'u', 's', 'h', '_', 'a', 'l', 'l'] then
      guarded require c FLUSH none n (.run ⟨.flush, []⟩)
    else if 3 ≤ n ∧ n ≤ 5 ∧ s = w ['f', 'l', 'u', 's', 'h', '_', 'p', 'r', 'e', 'f', 'i', 'x'] then
      guarded require c FLUSH none n (.run ⟨.flush, []⟩)
    else if 3 ≤ n ∧ s = w ['c', 'o', 'n', 'f', 'i', 'g'] then
      guarded require c ADMIN none n (.run ⟨.config, []⟩)
    else if 4 ≤ n ∧ n ≤ 5 ∧ s = w ['t', 'o', 'u', 'c', 'h'] then
      match args with
      | k :: _ => guarded require c KV (some k) n (.run ⟨.touch, [k]⟩)
      | _ => none
    else if 3 ≤ n ∧ s = w ['z', 'k', 'e', 'n', 's', 'e', 'm', 'b', 'l', 'e'] then
      guarded require c ADMIN none n (.run ⟨.zkensemble, []⟩)
    else if n = 2 ∧ s = w ['v', 'e', 'r', 's', 'i', 'o', 'n'] then
      some (.run ⟨.version, []⟩)
    else if 3 ≤ n ∧ s = w ['d', 'u', 'm', 'p'] then
      guarded require c ADMIN none n (.run ⟨.dump, []⟩)
    else if n = 2 ∧ s = w ['q', 'u', 'i', 't'] then
      some (.run ⟨.quit, []⟩)
    else if 2 ≤ n ∧ s = w ['h', 'e', 'l', 'p'] then
      some (.run ⟨.help, []⟩)
    else if 4 ≤ n ∧ s = w ['s', 'c', 'a', 'n'] then
      guarded require c SCAN none n (.run ⟨.scan, []⟩)
    else if 2 ≤ n ∧ s = w ['c', 'm', 'd', 'l', 'o', 'g'] then
      guarded require c ADMIN none n (.run ⟨.cmdlog, []⟩)
    else if 2 ≤ n ∧ s = w ['l', 'q', 'd', 'e', 't', 'e', 'c', 't'] then
      guarded require c ADMIN none n (.run ⟨.lqdetect, []⟩)
    else if n = 2 ∧ s = w ['r', 'e', 'a', 'd', 'y'] then
      some (.run ⟨.ready, []⟩)
    else if 3 ≤ n ∧ s = w ['s', 'a', 's', 'l'] then
      some (.run ⟨.sasl, []⟩)
    else if 2 ≤ n ∧ s = w ['s', 'h', 'u', 't', 'd', 'o', 'w', 'n'] then
      guarded require c ADMIN none n (.run ⟨.shutdown, []⟩)
    else if ext then extension require c s args
    else some .error

/-- `dispatch_bin_command` (memcached.c 6937-6948) with `authenticated` (4522-4547) on a binary request: only the commands for authentication
and `version` are carried out for a client that is not authenticated; no other check follows.  Simplified: the request is well-formed, and what it does
is named by the text command that does the same. -/
def bin (require : Bool) (c : Conn) (op : Op) : Outcome :=
  if require ∧ ¬ (op.cmd = .sasl ∨ op.cmd = .version) ∧ c.authenticated = false then .refused else .run op

/-- What happens to a connection and to the access list: authentication data arrive (memcached.c 3228, 4414), the mechanisms are listed (4255, 4350),
the access list is read again (sasl_auxprop.c 158-202). -/
inductive Ev where
  | auth (mech : Bool) (lib : Lib) (user stack : List Nat)
  | mechs
  | acl (table : Acl)

/-- One such event (memcached.c 3228, 4255, sasl_auxprop.c 180-190). -/
def step (useAcl : Bool) : Acl × Conn → Ev → Option (Acl × Conn)
  | (acl, c), .auth mech lib user stack => (authDone useAcl acl c mech lib user stack).map fun c => (acl, c)
  | (acl, c), .mechs => some (acl, initSasl c)
  | (_, c), .acl t => some (t, c)

/-- A new connection and its history (memcached.c 677-680, 3228, 4255, sasl_auxprop.c 180-190). -/
def steps (useAcl : Bool) : Acl × Conn → List Ev → Option (Acl × Conn)
  | s, [] => some s
  | s, e :: es =>
    match step useAcl s e with
    | none => none
    | some s => steps useAcl s es

end Verif.Auth
