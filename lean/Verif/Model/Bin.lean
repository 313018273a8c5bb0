/-
The binary protocol (memcached.c 3440-7768, include/memcached/protocol_binary.h): how a request is read, checked, handed to the engine and
answered, and where the next request begins.

What the engine does is a parameter (`Engine`): a machine that takes calls and returns codes and data. All bytes a client ever sends on a
connection are one list; a step that needs bytes which are not there yet does nothing (`Res.wait`), so in which pieces they arrive does not matter.

Simplified throughout: the verbose log, dtrace probes and the statistics about commands are left out; `ENGINE_EWOULDBLOCK` is turned into
`ENGINE_SUCCESS` by `CONN_CHECK_AND_SET_EWOULDBLOCK` (memcached.h) and is no code of this model; `malloc` does not fail except where the
engine says so.
-/

namespace Verif.Bin

abbrev Bytes := List UInt8

/-- A number in network byte order, `ntohs`, `ntohl`, `ntohll` (memcached.c 7735-7738). -/
def be (b : Bytes) : Nat := b.foldl (fun a x => a * 256 + x.toNat) 0

/-- The bytes `i` to `i + n` of a buffer (the fields of the packed structures in include/memcached/protocol_binary.h). -/
def slice (b : Bytes) (i n : Nat) : Bytes := (b.drop i).take n

/-- One byte of a structure (a field of type `uint8_t`, include/memcached/protocol_binary.h 488-753); 0 if there is none, which does not happen
for fields of the extras because their length is checked. -/
def byteAt (b : Bytes) (i : Nat) : Nat := be (slice b i 1)

/-- `protocol_binary_request_header` (include/memcached/protocol_binary.h 243-258). Left out: the data type, which nothing reads. -/
structure Hdr where
  magic : Nat
  opcode : Nat
  keylen : Nat
  extlen : Nat
  vbucket : Nat
  bodylen : Nat
  opq : Bytes
  cas : Nat
  deriving DecidableEq, Repr

/-- `sizeof(protocol_binary_request_header)` (include/memcached/protocol_binary.h 257). -/
def hdrLen : Nat := 24

/-- The header in the first 24 bytes of a request, in host order (memcached.c 7734-7738). The opaque field is kept as it came. -/
def hdrOf (b : Bytes) : Hdr :=
  { magic := be (slice b 0 1), opcode := be (slice b 1 1), keylen := be (slice b 2 2), extlen := be (slice b 4 1),
    vbucket := be (slice b 6 2), bodylen := be (slice b 8 4), opq := slice b 12 4, cas := be (slice b 16 8) }

/-- The commands, without their quiet forms (include/memcached/protocol_binary.h 127-228). `other` is any operation code that the dispatcher
does not know. -/
inductive Cmd where
  | get | getk | set | add | replace | delete | incr | decr | quit | flush | noop | version | append | prepend | stat
  | saslList | saslAuth | saslStep | getattr | setattr
  | lopCreate | lopInsert | lopDelete | lopGet
  | sopCreate | sopInsert | sopDelete | sopExist | sopGet
  | bopCreate | bopInsert | bopUpsert | bopUpdate | bopDelete | bopGet | bopCount | bopMget | bopSmget
  | flushPrefix | other
  deriving DecidableEq, Repr

/-- The first switch of `dispatch_bin_command`: the command and `c->noreply` (memcached.c 6959-7022). The codes are those of
include/memcached/protocol_binary.h 127-228. The three SASL codes are known only if the server was built with SASL (7230-7249). -/
def cmdOf (sasl : Bool) (op : Nat) : Cmd × Bool :=
  match op with
  | 0x00 => (.get, false)
  | 0x01 => (.set, false)
  | 0x02 => (.add, false)
  | 0x03 => (.replace, false)
  | 0x04 => (.delete, false)
  | 0x05 => (.incr, false)
  | 0x06 => (.decr, false)
  | 0x07 => (.quit, false)
  | 0x08 => (.flush, false)
  | 0x09 => (.get, true)
  | 0x0a => (.noop, false)
  | 0x0b => (.version, false)
  | 0x0c => (.getk, false)
  | 0x0d => (.getk, true)
  | 0x0e => (.append, false)
  | 0x0f => (.prepend, false)
  | 0x10 => (.stat, false)
  | 0x11 => (.set, true)
  | 0x12 => (.add, true)
  | 0x13 => (.replace, true)
  | 0x14 => (.delete, true)
  | 0x15 => (.incr, true)
  | 0x16 => (.decr, true)
  | 0x17 => (.quit, true)
  | 0x18 => (.flush, true)
  | 0x19 => (.append, true)
  | 0x1a => (.prepend, true)
  | 0x20 => (if sasl then .saslList else .other, false)
  | 0x21 => (if sasl then .saslAuth else .other, false)
  | 0x22 => (if sasl then .saslStep else .other, false)
  | 0x4e => (.getattr, false)
  | 0x4f => (.setattr, false)
  | 0x50 => (.lopCreate, false)
  | 0x51 => (.lopInsert, false)
  | 0x52 => (.lopDelete, false)
  | 0x53 => (.lopGet, false)
  | 0x54 => (.lopInsert, true)
  | 0x55 => (.lopDelete, true)
  | 0x60 => (.sopCreate, false)
  | 0x61 => (.sopInsert, false)
  | 0x62 => (.sopDelete, false)
  | 0x63 => (.sopExist, false)
  | 0x64 => (.sopGet, false)
  | 0x65 => (.sopInsert, true)
  | 0x66 => (.sopDelete, true)
  | 0x70 => (.bopCreate, false)
  | 0x71 => (.bopInsert, false)
  | 0x72 => (.bopUpsert, false)
  | 0x73 => (.bopUpdate, false)
  | 0x74 => (.bopDelete, false)
  | 0x75 => (.bopGet, false)
  | 0x76 => (.bopCount, false)
  | 0x7a => (.bopMget, false)
  | 0x7b => (.bopSmget, false)
  | 0x7c => (.bopInsert, true)
  | 0x7d => (.bopUpsert, true)
  | 0x7e => (.bopUpdate, true)
  | 0x7f => (.bopDelete, true)
  | 0x90 => (.flushPrefix, false)
  | _ => (.other, false)

/-- `sizeof(bkey_t)` (include/memcached/types.h 305-308). -/
def bkeySize : Nat := 31 + 1

/-- `sizeof(bkey_range)` (include/memcached/types.h 326-335). -/
def bkrangeSize : Nat := 31 + 31 + 1 + 1

/-- `sizeof(eflag_filter)`: a value of 31 bytes, 100 values of 31 bytes to compare with, and six single bytes
(include/memcached/types.h 292, 296, 338-347). -/
def efilterSize : Nat := 31 + 31 * 100 + 6

/-- The conditions on the header under which a command is taken (second switch of `dispatch_bin_command`, memcached.c 7024-7249). -/
def accepts (c : Cmd) (h : Hdr) : Bool :=
  let x := h.extlen
  let k := h.keylen
  let b := h.bodylen
  match c with
  | .version | .noop | .quit | .saslList => x == 0 && k == 0 && b == 0
  | .flush => k == 0 && b == x && (x == 0 || x == 4)
  | .flushPrefix => decide (0 < k) && b == x && (x == 0 || x == 4)
  | .set | .add | .replace => x == 8 && k != 0 && decide (k + 8 ≤ b)
  | .get | .getk => x == 0 && b == k && decide (0 < k)
  | .delete => decide (0 < k) && x == 0 && b == k
  | .incr | .decr => decide (0 < k) && x == 20 && b == k + x
  | .append | .prepend => decide (0 < k) && x == 0
  | .stat => x == 0
  | .getattr => decide (0 < k) && x == bkeySize + 24 && b == k + x
  | .setattr => decide (0 < k) && x == bkeySize + 12 && b == k + x
  | .lopCreate => decide (0 < k) && x == 16 && b == k + x
  | .lopInsert => decide (0 < k) && x == 20 && decide (k + x < b)
  | .lopDelete => decide (0 < k) && x == 12 && b == k + x
  | .lopGet => decide (0 < k) && x == 12 && b == k + x
  | .sopCreate => decide (0 < k) && x == 16 && b == k + x
  | .sopInsert => decide (0 < k) && x == 16 && decide (k + x < b)
  | .sopDelete => decide (0 < k) && x == 4 && decide (k + x < b)
  | .sopExist => decide (0 < k) && x == 0 && decide (k + x < b)
  | .sopGet => decide (0 < k) && x == 8 && b == k + x
  | .bopCreate => decide (0 < k) && x == 16 && b == k + x
  | .bopInsert | .bopUpsert => decide (0 < k) && x == 31 + 1 + 31 + 1 + 16 && decide (k + x < b)
  | .bopUpdate => decide (0 < k) && x == 31 + 1 + 31 + 1 + 8 && decide (k + x < b)
  | .bopDelete => decide (0 < k) && x == bkrangeSize + efilterSize + 8 && b == k + x
  | .bopGet => decide (0 < k) && x == bkrangeSize + efilterSize + 12 && b == k + x
  | .bopCount => decide (0 < k) && x == bkrangeSize + efilterSize && b == k + x
  | .bopMget | .bopSmget => decide (0 < k) && x == bkrangeSize + efilterSize + 12 && decide (k + x < b)
  | .saslAuth | .saslStep => x == 0 && k != 0
  | .other => true

/-- How many bytes behind the header are read before the handler runs: `keylen + extra` of `bin_read_key`, and the whole body for unknown
codes (memcached.c 4266-4269, 7024-7256). The `extra` of every accepted command is its `extlen`. -/
def chunkOf (c : Cmd) (h : Hdr) : Nat :=
  match c with
  | .version | .noop | .quit | .saslList => 0
  | .other => h.bodylen
  | _ => h.keylen + h.extlen

/-- `ENGINE_ERROR_CODE` (include/memcached/types.h 55-87). Left out: `ENGINE_EWOULDBLOCK` (see above). -/
inductive Code where
  | success | keyEnoent | keyEexists | enomem | notStored | einval | enotsup | e2big | wantMore | disconnect | eaccess
  | notMyVbucket | eduplicate | ebadtype | eoverflow | ebadvalue | eindexoor | ebkeyoor | elemEnoent | elemEexists
  | ebadattr | ebadbkey | ebadeflag | unreadable | prefixEname | prefixEnoent | failed
  deriving DecidableEq, Repr

/-- What a handler does with the code of the engine: the answer of success, an error with this status, the end of the connection, `abort()`. -/
inductive Act where
  | ok
  | err (status : Nat)
  | disc
  | abort
  deriving DecidableEq, Repr

/-- `handle_unexpected_errorcode_bin` (memcached.c 3724-3735): 0x83 is `NOT_SUPPORTED`, 0x84 is `EINTERNAL`. -/
def unexpected : Code → Act
  | .disconnect => .disc
  | .enotsup => .err 0x83
  | _ => .err 0x84

/-- The switch of `process_bin_get` (memcached.c 3958-4030). -/
def getAct : Code → Act
  | .success => .ok
  | .keyEnoent => .err 0x01
  | .notMyVbucket => .err 0x07
  | .ebadtype => .err 0x32
  | .disconnect => .disc
  | _ => .abort

/-- The switch of `complete_incr_bin` (memcached.c 3788-3833). -/
def incrAct : Code → Act
  | .success => .ok
  | .keyEexists => .err 0x02
  | .keyEnoent => .err 0x01
  | .prefixEname => .err 0x51
  | .enomem => .err 0x82
  | .einval => .err 0x06
  | .notStored => .err 0x05
  | .notMyVbucket => .err 0x07
  | .ebadtype => .err 0x32
  | .disconnect => .disc
  | _ => .abort

/-- `ENGINE_STORE_OPERATION` (include/memcached/types.h 100-107). -/
inductive StoreOp where
  | set | add | replace | append | prepend | cas
  deriving DecidableEq, Repr

/-- The switch of `complete_update_bin` (memcached.c 3880-3920). -/
def storeAct (op : StoreOp) : Code → Act
  | .success => .ok
  | .keyEexists => .err 0x02
  | .keyEnoent => .err 0x01
  | .notStored => match op with
    | .add => .err 0x02
    | .replace => .err 0x01
    | _ => .err 0x05
  | .prefixEname => .err 0x51
  | .enomem => .err 0x82
  | .einval => .err 0x04
  | .e2big => .err 0x03
  | .notMyVbucket => .err 0x07
  | .ebadtype => .err 0x32
  | c => unexpected c

/-- The switch of `process_bin_delete` (memcached.c 7556-7571). -/
def deleteAct : Code → Act
  | .success => .ok
  | .keyEexists => .err 0x02
  | .keyEnoent => .err 0x01
  | .notMyVbucket => .err 0x07
  | _ => .err 0x04

/-- The switches of the handlers that carry out a command with one call of the engine and of those that finish a collection command with a
value: `process_bin_flush` (memcached.c 7473-7477), `process_bin_flush_prefix` (7522-7528), `process_bin_getattr` (6706-6749),
`process_bin_setattr` (6837-6854), `process_bin_lop_create`, `_sop_create`, `_bop_create` (4597-4612, 4986-5001, 5455-5470),
`process_bin_lop_insert_complete` (4719-4742), `_lop_delete` (4795-4814), `_lop_get` (4917-4945), `_sop_insert_complete` (5137-5160),
`_sop_delete_complete` (5189-5208), `_sop_exist_complete` (5234-5258), `_sop_get` (5375-5403), `_bop_insert_complete` (5600-5628),
`_bop_update_complete` (5669-5694), `_bop_delete` (5854-5875), `_bop_get` (5999-6033), `_bop_count` (6083-6108).
Simplified: the statistics about prefixes are off, so `stats_prefix_delete` does not turn the answer to `FLUSH_PREFIX` into success (7514-7520). -/
def collAct (c : Cmd) (code : Code) : Act :=
  match c, code with
  | _, .success => .ok
  | .flushPrefix, .prefixEnoent => .err 0x52
  | .getattr, .keyEnoent => .err 0x01
  | .getattr, .ebadattr => .err 0x39
  | .setattr, .keyEnoent => .err 0x01
  | .setattr, .ebadattr => .err 0x39
  | .setattr, .ebadvalue => .err 0x34
  | .lopCreate, .keyEexists | .sopCreate, .keyEexists | .bopCreate, .keyEexists => .err 0x02
  | .lopCreate, .prefixEname | .sopCreate, .prefixEname | .bopCreate, .prefixEname => .err 0x51
  | .lopCreate, .enomem | .sopCreate, .enomem | .bopCreate, .enomem => .err 0x82
  | .lopInsert, .keyEnoent => .err 0x01
  | .lopInsert, .ebadtype => .err 0x32
  | .lopInsert, .eoverflow => .err 0x33
  | .lopInsert, .eindexoor => .err 0x35
  | .lopInsert, .prefixEname => .err 0x51
  | .lopInsert, .enomem => .err 0x82
  | .lopDelete, .elemEnoent => .err 0x35
  | .lopDelete, .keyEnoent => .err 0x01
  | .lopDelete, .ebadtype => .err 0x32
  | .lopGet, .elemEnoent => .err 0x35
  | .lopGet, .keyEnoent => .err 0x01
  | .lopGet, .unreadable => .err 0x3c
  | .lopGet, .ebadtype => .err 0x32
  | .sopInsert, .keyEnoent => .err 0x01
  | .sopInsert, .ebadtype => .err 0x32
  | .sopInsert, .eoverflow => .err 0x33
  | .sopInsert, .elemEexists => .err 0x38
  | .sopInsert, .prefixEname => .err 0x51
  | .sopInsert, .enomem => .err 0x82
  | .sopDelete, .elemEnoent => .err 0x37
  | .sopDelete, .keyEnoent => .err 0x01
  | .sopDelete, .ebadtype => .err 0x32
  | .sopExist, .keyEnoent => .err 0x01
  | .sopExist, .unreadable => .err 0x3c
  | .sopExist, .ebadtype => .err 0x32
  | .sopGet, .elemEnoent => .err 0x37
  | .sopGet, .keyEnoent => .err 0x01
  | .sopGet, .unreadable => .err 0x3c
  | .sopGet, .ebadtype => .err 0x32
  | .bopInsert, .keyEnoent | .bopUpsert, .keyEnoent => .err 0x01
  | .bopInsert, .ebadtype | .bopUpsert, .ebadtype => .err 0x32
  | .bopInsert, .ebadbkey | .bopUpsert, .ebadbkey => .err 0x3a
  | .bopInsert, .eoverflow | .bopUpsert, .eoverflow => .err 0x33
  | .bopInsert, .ebkeyoor | .bopUpsert, .ebkeyoor => .err 0x36
  | .bopInsert, .elemEexists | .bopUpsert, .elemEexists => .err 0x38
  | .bopInsert, .prefixEname | .bopUpsert, .prefixEname => .err 0x51
  | .bopInsert, .enomem | .bopUpsert, .enomem => .err 0x82
  | .bopUpdate, .elemEnoent => .err 0x37
  | .bopUpdate, .keyEnoent => .err 0x01
  | .bopUpdate, .ebadtype => .err 0x32
  | .bopUpdate, .ebadbkey => .err 0x3a
  | .bopUpdate, .ebadeflag => .err 0x3b
  | .bopUpdate, .enomem => .err 0x82
  | .bopDelete, .elemEnoent | .bopGet, .elemEnoent => .err 0x37
  | .bopDelete, .keyEnoent | .bopGet, .keyEnoent | .bopCount, .keyEnoent => .err 0x01
  | .bopDelete, .ebadtype | .bopGet, .ebadtype | .bopCount, .ebadtype => .err 0x32
  | .bopDelete, .ebadbkey | .bopGet, .ebadbkey | .bopCount, .ebadbkey => .err 0x3a
  | .bopGet, .ebkeyoor => .err 0x36
  | .bopGet, .unreadable | .bopCount, .unreadable => .err 0x3c
  | _, c => unexpected c

/-- The calls of the engine (include/memcached/engine.h) and of the SASL library that the handlers make, with what they take from the request.
Simplified: `store` carries the whole item, in the code the item that `allocate` returned; the extras of collection commands are handed on as
they came. -/
inductive Call where
  | alloc (key : Bytes) (nbytes : Nat) (flags : Bytes) (exptime : Nat) (cas : Nat)
  | store (op : StoreOp) (key flags : Bytes) (exptime : Nat) (cas : Nat) (data : Bytes) (vbucket : Nat)
  | remove (key : Bytes) (cas : Nat) (vbucket : Nat)
  | get (key : Bytes) (vbucket : Nat)
  | arith (key : Bytes) (incr create : Bool) (delta initial exptime : Nat) (vbucket : Nat)
  | flush (pre : Option Bytes) (exptime : Nat)
  | stats (key : Bytes)
  | sasl (step : Bool) (mech data : Bytes)
  | mechs
  | unknown (opcode : Nat) (body : Bytes)
  | elemAlloc (c : Cmd) (key ext : Bytes) (nbytes : Nat)
  | coll (c : Cmd) (key ext value : Bytes) (vbucket : Nat)
  deriving DecidableEq, Repr

/-- What the engine returns: its code and what goes with it, as far as the call defines it: the `cas` of the item, its flags (four bytes, in
network order) and data (with CR LF), the values of several elements (with CR LF), the pairs of a statistics, a number or status
(include/memcached/engine.h; include/memcached/types.h 185-228). -/
structure Ret where
  code : Code
  cas : Nat := 0
  flags : Bytes := []
  data : Bytes := []
  vals : List Bytes := []
  pairs : List (Bytes × Bytes) := []
  num : Nat := 0
  deriving DecidableEq, Repr

/-- An engine: any machine that answers calls (`mc_engine.v1`, include/memcached/engine.h). -/
structure Engine (σ : Type) where
  call : σ → Call → σ × Ret

/-- An answer: the fields of `protocol_binary_response_header` (include/memcached/protocol_binary.h 263-278) and the bytes that follow it. -/
structure Resp where
  opcode : Nat
  keylen : Nat
  extlen : Nat
  status : Nat
  bodylen : Nat
  opq : Bytes
  cas : Nat
  body : Bytes
  deriving DecidableEq, Repr

/-- What does not change while a server runs: was it built with SASL, the size of the write buffer (`DATA_BUFFER_SIZE`, memcached.h 56),
`max_element_bytes`, the texts of the errors (memcached.c 3597-3681) and of the version. -/
structure Cfg where
  sasl : Bool := true
  wsize : Nat := 2048
  maxElem : Nat := 16 * 1024
  text : Nat → Bytes := fun _ => []
  versionText : Bytes := []

/-- What happens to a connection after an answer: `c->write_and_go` or the new state (memcached.c 3698-3705, 4281). -/
inductive Next where
  | newCmd
  | swallow (n : Nat)
  | closing
  deriving DecidableEq, Repr

/-- The outcome of a request: bytes taken from the stream, counted from the first byte of the header, the answers, and what follows. -/
structure Out (σ : Type) where
  eng : σ
  used : Nat
  resps : List Resp
  next : Next

/-- The result of a step: more bytes are needed; an access outside an array, a failed assertion or `abort()`; an outcome. -/
inductive Res (σ : Type) where
  | wait
  | fault
  | done (o : Out σ)

/-- `add_bin_header` and the bytes behind the header (memcached.c 3552-3588). The length is stored in 32 bits. -/
def mkResp (h : Hdr) (status keylen extlen cas : Nat) (body : Bytes) : Resp :=
  { opcode := h.opcode, keylen := keylen, extlen := extlen, status := status, bodylen := body.length % 2 ^ 32, opq := h.opq,
    cas := cas, body := body }

/-- `write_bin_packet`: always an answer (memcached.c 3590-3706). Simplified: `mc_engine.v1->errinfo`, which the default engine does not have. -/
def packet (g : Cfg) (h : Hdr) (status cas : Nat) : Resp := mkResp h status 0 0 cas (g.text status)

/-- `write_bin_response`: none for the quiet form of a command other than `GET` and `GETK` (memcached.c 3709-3722). -/
def response (h : Hdr) (c : Cmd) (quiet : Bool) (cas : Nat) (body : Bytes) : List Resp :=
  if !quiet || c = .get || c = .getk then [mkResp h 0 0 0 cas body] else []

/-- The swallow argument of `write_bin_packet` (memcached.c 3698-3704). -/
def swallowOr (n : Nat) : Next := if 0 < n then .swallow n else .newCmd

/-- `handle_binary_protocol_error` (memcached.c 4272-4282). -/
def protoError {σ : Type} (g : Cfg) (h : Hdr) (s : σ) (used : Nat) : Res σ :=
  .done { eng := s, used := used, resps := [packet g h 0x04 0], next := .closing }

/-- An answer for an `Act`; `good` are the answers of success, `cas` is `c->cas` (the switches above). -/
def conclude {σ : Type} (g : Cfg) (h : Hdr) (s : σ) (used cas : Nat) (good : List Resp) (a : Act) : Res σ :=
  match a with
  | .ok => .done { eng := s, used := used, resps := good, next := .newCmd }
  | .err st => .done { eng := s, used := used, resps := [packet g h st cas], next := .newCmd }
  | .disc => .done { eng := s, used := used, resps := [], next := .closing }
  | .abort => .fault

/-- The answer when no room could be had for a value of `vlen` bytes, which have not been read (memcached.c 4689-4695, 5108-5113, 5567-5572,
5793-5798, 7358-7367, 7437-7446): for `ENGINE_ENOTSUP` nothing is swallowed (3728-3729). -/
def refuse {σ : Type} (g : Cfg) (h : Hdr) (s : σ) (used vlen : Nat) (code : Code) : Res σ :=
  let o (st n : Nat) : Res σ := .done { eng := s, used := used, resps := [packet g h st 0], next := swallowOr n }
  match code with
  | .e2big => o 0x03 vlen
  | .enomem => o 0x82 vlen
  | .disconnect => .done { eng := s, used := used, resps := [], next := .closing }
  | .enotsup => o 0x83 0
  | _ => o 0x84 vlen

/-- `"\r\n"` (memcached.c 3848-3851). -/
def crlf : Bytes := [13, 10]

/-- `INT_MAX - 2` (memcached.c 7292). -/
def maxVlen : Nat := 2 ^ 31 - 1 - 2

/-- The store operation of an update (memcached.c 7340-7349, 7424-7429). -/
def storeOpOf (c : Cmd) (cas : Nat) : StoreOp :=
  match c with
  | .append => .append
  | .prepend => .prepend
  | .add => if cas = 0 then .add else .cas
  | .replace => if cas = 0 then .replace else .cas
  | _ => if cas = 0 then .set else .cas

/-- The flags of an item that is stored: the first four bytes of the extras as they came; 0 for an append (memcached.c 7328-7332, 7416-7417). -/
def updFlags (c : Cmd) (ext : Bytes) : Bytes := if c = .append ∨ c = .prepend then [0, 0, 0, 0] else slice ext 0 4

/-- The expiration time of an item that is stored, as in the request; 0 for an append (memcached.c 7328-7332, 7416-7417). -/
def updExp (c : Cmd) (ext : Bytes) : Nat := if c = .append ∨ c = .prepend then 0 else be (slice ext 4 4)

/-- `process_bin_update` and `process_bin_append_prepend`, then `complete_update_bin` when the value is there (memcached.c 7276-7448,
3836-3931). `inp` is the stream from the header on. Simplified: `get_item_info` does not fail; while the value is awaited, the item is not yet allocated. -/
def doUpdate {σ : Type} (e : Engine σ) (g : Cfg) (s : σ) (h : Hdr) (c : Cmd) (q : Bool) (ext key inp : Bytes) : Res σ :=
  let at0 := hdrLen + h.keylen + h.extlen
  if h.bodylen < h.keylen + h.extlen then protoError g h s at0
  else
    let vlen := h.bodylen - (h.keylen + h.extlen)
    if maxVlen < vlen then protoError g h s at0
    else
      let flags := updFlags c ext
      let exp := updExp c ext
      let r := e.call s (.alloc key (vlen + 2) flags exp h.cas)
      if r.2.code = .success then
        if inp.length < at0 + vlen then .wait
        else
          let w := e.call r.1 (.store (storeOpOf c h.cas) key flags exp h.cas (slice inp at0 vlen ++ crlf) h.vbucket)
          conclude g h w.1 (at0 + vlen) w.2.cas (response h c q w.2.cas []) (storeAct (storeOpOf c h.cas) w.2.code)
      else if c = .set then
        refuse g h (e.call r.1 (.remove key h.cas h.vbucket)).1 at0 vlen r.2.code
      else refuse g h r.1 at0 vlen r.2.code

/-- `process_bin_get` (memcached.c 3933-4031). The answer to a `GETK` that misses is put together in the write buffer, behind the header: a key
for which there is no room is written past the end of it (4000-4006). -/
def doGet {σ : Type} (e : Engine σ) (g : Cfg) (s : σ) (h : Hdr) (c : Cmd) (q : Bool) (key : Bytes) : Res σ :=
  let used := hdrLen + h.keylen + h.extlen
  let r := e.call s (.get key h.vbucket)
  match getAct r.2.code with
  | .ok =>
    let val := r.2.data.take (r.2.data.length - 2)
    let k := if c = .getk then key else []
    .done { eng := r.1, used := used, resps := [mkResp h 0 k.length 4 r.2.cas (r.2.flags ++ k ++ val)], next := .newCmd }
  | .err 0x01 =>
    if q then .done { eng := r.1, used := used, resps := [], next := .newCmd }
    else if c = .getk then
      if g.wsize < hdrLen + key.length then .fault
      else .done { eng := r.1, used := used, resps := [mkResp h 0x01 key.length 0 0 key], next := .newCmd }
    else .done { eng := r.1, used := used, resps := [packet g h 0x01 0], next := .newCmd }
  | a => conclude g h r.1 used 0 [] a

/-- `n` bytes of a number in network order, `htonl`, `htonll` (memcached.c 3790, 4837). -/
def toBe : Nat → Nat → Bytes
  | 0, _ => []
  | n + 1, v => toBe n (v / 256) ++ [UInt8.ofNat (v % 256)]

/-- `complete_incr_bin` (memcached.c 3737-3834); the extras are delta, initial value and expiration. -/
def doIncr {σ : Type} (e : Engine σ) (g : Cfg) (s : σ) (h : Hdr) (c : Cmd) (q : Bool) (ext key : Bytes) : Res σ :=
  let exp := be (slice ext 16 4)
  let r := e.call s (.arith key (c = .incr) (exp != 0xffffffff) (be (slice ext 0 8)) (be (slice ext 8 8)) exp h.vbucket)
  conclude g h r.1 (hdrLen + h.keylen + h.extlen) r.2.cas (response h c q r.2.cas (toBe 8 r.2.num)) (incrAct r.2.code)

/-- `process_bin_delete` (memcached.c 7532-7572). -/
def doDelete {σ : Type} (e : Engine σ) (g : Cfg) (s : σ) (h : Hdr) (c : Cmd) (q : Bool) (key : Bytes) : Res σ :=
  let r := e.call s (.remove key h.cas h.vbucket)
  conclude g h r.1 (hdrLen + h.keylen + h.extlen) 0 (response h c q 0 []) (deleteAct r.2.code)

/-- `process_bin_flush` and `process_bin_flush_prefix` (memcached.c 7450-7530); `"<null>"` names the items without a prefix (7502-7506).
The test for a negative time never holds: the time is 64 bits wide and takes a number of 32 bits without sign (7453-7461). -/
def doFlush {σ : Type} (e : Engine σ) (g : Cfg) (s : σ) (h : Hdr) (c : Cmd) (q : Bool) (ext key : Bytes) : Res σ :=
  let exp := if h.extlen = 4 then be (slice ext 0 4) else 0
  let nul : Bytes := [60, 110, 117, 108, 108, 62]
  let pre := if c = .flush then none else some (if key = nul then [] else key)
  let r := e.call s (.flush pre exp)
  conclude g h r.1 (hdrLen + h.keylen + h.extlen) 0 (response h c q 0 []) (collAct c r.2.code)

/-- One answer of a statistics, `append_bin_stats` (memcached.c 4033-4072): a value without a key is left out. -/
def statResp (h : Hdr) (kv : Bytes × Bytes) : List Resp :=
  if kv.1.length = 0 ∧ 0 < kv.2.length then []
  else [{ opcode := 0x10, keylen := kv.1.length % 2 ^ 16, extlen := 0, status := 0, bodylen := (kv.1.length + kv.2.length) % 2 ^ 32,
          opq := h.opq, cas := 0, body := kv.1 ++ kv.2 }]

/-- The switch of `process_bin_stat` (memcached.c 4185-4210). -/
def statAct : Code → Act
  | .success => .ok
  | .enomem => .err 0x82
  | .keyEnoent => .err 0x01
  | .prefixEnoent => .err 0x52
  | .einval => .err 0x04
  | c => unexpected c

/-- `process_bin_stat` (memcached.c 4119-4211). Simplified: which statistics a name stands for is part of the call; the tests of the name with
`strncmp` may look at bytes behind it. -/
def doStat {σ : Type} (e : Engine σ) (g : Cfg) (s : σ) (h : Hdr) (key : Bytes) : Res σ :=
  let r := e.call s (.stats key)
  conclude g h r.1 (hdrLen + h.keylen + h.extlen) 0 (r.2.pairs.flatMap (statResp h) ++ statResp h ([], [])) (statAct r.2.code)

/-- `process_bin_unknown_packet` with `binary_response_handler`: the engine forms the answer, its text is in the place of the key
(memcached.c 6853-6935, engines/default/default_engine.c 1774-1820). -/
def doUnknown {σ : Type} (e : Engine σ) (g : Cfg) (s : σ) (h : Hdr) (body : Bytes) : Res σ :=
  let r := e.call s (.unknown h.opcode body)
  let used := hdrLen + h.bodylen
  match r.2.code with
  | .success => .done { eng := r.1, used := used, resps := [mkResp h r.2.num (r.2.data.length % 2 ^ 16) 0 0 r.2.data], next := .newCmd }
  | .enotsup => .done { eng := r.1, used := used, resps := [packet g h 0x81 0], next := .newCmd }
  | _ => .done { eng := r.1, used := used, resps := [], next := .closing }

/-- `MAX_SASL_MECH_LEN` (sasl_defs.h 5). -/
def maxMech : Nat := 32

/-- `process_bin_sasl_auth`, then `process_bin_complete_sasl_auth` when the data are there (memcached.c 4372-4526). The library answers with
success, "continue" (0x21, here the code `wantMore`) or a failure (0x20). -/
def doSasl {σ : Type} (e : Engine σ) (g : Cfg) (s : σ) (h : Hdr) (c : Cmd) (q : Bool) (key inp : Bytes) : Res σ :=
  let at0 := hdrLen + h.keylen + h.extlen
  if h.bodylen < h.keylen then protoError g h s at0
  else
    let vlen := h.bodylen - h.keylen
    if maxVlen < vlen then protoError g h s at0
    else if maxMech < h.keylen then .done { eng := s, used := at0, resps := [packet g h 0x04 0], next := swallowOr vlen }
    else if inp.length < at0 + vlen then .wait
    else
      let r := e.call s (.sasl (c = .saslStep) key (slice inp at0 vlen))
      match r.2.code with
      | .success => .done { eng := r.1, used := at0 + vlen, resps := response h c q 0 r.2.data, next := .newCmd }
      | .wantMore => .done { eng := r.1, used := at0 + vlen, resps := [mkResp h 0x21 0 0 0 r.2.data], next := .newCmd }
      | _ => .done { eng := r.1, used := at0 + vlen, resps := [packet g h 0x20 0], next := .newCmd }

/-- The body of the answer of success of a collection command that has no value in its request: nothing, the attributes, or the flags, the
number of the elements, their lengths and values without CR LF (memcached.c 4818-4877, 5279-5338, 6709-6742; for `BOP_COUNT` 6083-6088;
for `BOP_GET` and the lookups in several b+trees see `accepts`: no request reaches them). Simplified: the body of `GETATTR` is what the engine
gives as data. -/
def collBody (c : Cmd) (r : Ret) : Bytes :=
  match c with
  | .lopGet | .sopGet => r.flags ++ toBe 4 r.vals.length ++ r.vals.flatMap (fun v => toBe 4 (v.length - 2)) ++
      r.vals.flatMap (fun v => v.take (v.length - 2))
  | .getattr => r.data
  | .sopExist => toBe 4 r.num
  | _ => []

/-- The length of the extras of an answer to a collection command (memcached.c 4818-4877, 5279-5338; 0 for the others). -/
def collExt (c : Cmd) : Nat :=
  match c with
  | .lopGet | .sopGet => 8
  | _ => 0

/-- The answers of success of a collection command: `LOP_GET` and `SOP_GET` write them themselves (memcached.c 4818-4877, 5279-5338), the
others by `write_bin_response`. -/
def collGood (h : Hdr) (c : Cmd) (q : Bool) (r : Ret) : List Resp :=
  match c with
  | .lopGet | .sopGet => [mkResp h 0 0 (collExt c) 0 (collBody c r)]
  | _ => response h c q 0 (collBody c r)

/-- Collection commands whose request has no value: `process_bin_lop_create`, `_lop_delete`, `_lop_get`, `_sop_create`, `_sop_get`, `_bop_create`,
`process_bin_getattr`, `process_bin_setattr` (memcached.c 4550-4613, 4757-4946, 4948-5002, 5340-5404, 5406-5471, 6680-6855).
`SETATTR` copies the key range into an array of 31 bytes on the stack, with the length that the request gives: byte 39 of the extras, 255 for
none (6776-6788). -/
def doColl {σ : Type} (e : Engine σ) (g : Cfg) (s : σ) (h : Hdr) (c : Cmd) (q : Bool) (ext key : Bytes) : Res σ :=
  if c = .setattr ∧ byteAt ext 39 ≠ 255 ∧ 31 < byteAt ext 39 then .fault
  else
    let r := e.call s (.coll c key ext [] h.vbucket)
    conclude g h r.1 (hdrLen + h.keylen + h.extlen) 0 (collGood h c q r.2) (collAct c r.2.code)

/-- The copies that the preparation of a b+tree command makes, with lengths from the request (bytes 31 and 63 of the extras are the lengths of
the key and of the element flag). `BOP_INSERT` and `BOP_UPSERT` copy out of the arrays of 31 bytes in the request (memcached.c 5535-5543, when
room for the element was had); `BOP_UPDATE` copies into the arrays of 31 bytes in `struct conn` before anything else (5737-5747), also for
`EFLAG_NULL`, 255, which stands for "leave the flag" (5649). -/
def copiesOk (c : Cmd) (ext : Bytes) : Bool :=
  match c with
  | .bopInsert | .bopUpsert | .bopUpdate => decide (byteAt ext 31 ≤ 31) && decide (byteAt ext 63 ≤ 31)
  | _ => true

/-- Collection commands with a value: `process_bin_lop_prepare_nread`, `_sop_prepare_nread`, `_bop_prepare_nread`, `_bop_update_prepare_nread`,
then the completions when the value is there (memcached.c 4615-4755, 5004-5277, 5473-5800). A `BOP_UPDATE` whose byte 66 of the extras
(`novalue`) is not 0 is carried out at once, without reading the value (5759-5765).
Simplified: memory for the values of `SOP_DELETE`, `SOP_EXIST` and `BOP_UPDATE` comes from `malloc` in the code, here from `elemAlloc` as well. -/
def doCollValue {σ : Type} (e : Engine σ) (g : Cfg) (s : σ) (h : Hdr) (c : Cmd) (q : Bool) (ext key inp : Bytes) : Res σ :=
  let at0 := hdrLen + h.keylen + h.extlen
  if h.bodylen < h.keylen + h.extlen then protoError g h s at0
  else
    let vlen := h.bodylen - (h.keylen + h.extlen)
    if maxVlen < vlen then protoError g h s at0
    else if c = .bopUpdate ∧ copiesOk c ext = false then .fault
    else if c = .bopUpdate ∧ byteAt ext 66 ≠ 0 then
      let r := e.call s (.coll c key ext [] h.vbucket)
      conclude g h r.1 at0 0 (response h c q 0 []) (collAct c r.2.code)
    else if g.maxElem < vlen + 2 then refuse g h s at0 vlen .e2big
    else
      let r := e.call s (.elemAlloc c key ext (vlen + 2))
      if r.2.code = .success then
        if copiesOk c ext = false then .fault
        else if inp.length < at0 + vlen then .wait
        else
          let w := e.call r.1 (.coll c key ext (slice inp at0 vlen ++ crlf) h.vbucket)
          conclude g h w.1 (at0 + vlen) 0 (response h c q 0 (collBody c w.2)) (collAct c w.2.code)
      else refuse g h r.1 at0 vlen r.2.code

/-- `KEY_MAX_LENGTH` (memcached.h 48). -/
def keyMax : Nat := 16000

/-- `dispatch_bin_command` and, when the bytes it asks for are there, `complete_nread_binary` (memcached.c 6937-7274, 7574-7688). `deny` is
`settings.require_sasl && !authenticated(c)` (6944-6948), which may change from request to request. `inp` is the stream from the header on.
Simplified: `QUIT` in its quiet form closes at once, otherwise after the answer (7126-7134); both are `Next.closing`. -/
def handle {σ : Type} (e : Engine σ) (g : Cfg) (deny : Bool) (s : σ) (inp : Bytes) : Res σ :=
  let h := hdrOf inp
  if deny then .done { eng := s, used := hdrLen, resps := [packet g h 0x20 0], next := .closing }
  else if keyMax < h.keylen then protoError g h s hdrLen
  else
    let c := (cmdOf g.sasl h.opcode).1
    let q := (cmdOf g.sasl h.opcode).2
    if accepts c h = false then protoError g h s hdrLen
    else if inp.length < hdrLen + chunkOf c h then .wait
    else
      let ext := slice inp hdrLen h.extlen
      let key := slice inp (hdrLen + h.extlen) h.keylen
      match c with
      | .version => .done { eng := s, used := hdrLen, resps := response h c q 0 g.versionText, next := .newCmd }
      | .noop => .done { eng := s, used := hdrLen, resps := response h c q 0 [], next := .newCmd }
      | .quit => .done { eng := s, used := hdrLen, resps := response h c q 0 [], next := .closing }
      | .saslList =>
        let r := e.call s .mechs
        if r.2.code = .success then .done { eng := r.1, used := hdrLen, resps := response h c q 0 r.2.data, next := .newCmd }
        else .done { eng := r.1, used := hdrLen, resps := [packet g h 0x20 0], next := .newCmd }
      | .saslAuth | .saslStep => doSasl e g s h c q key inp
      | .set | .add | .replace | .append | .prepend => doUpdate e g s h c q ext key inp
      | .get | .getk => doGet e g s h c q key
      | .delete => doDelete e g s h c q key
      | .incr | .decr => doIncr e g s h c q ext key
      | .flush | .flushPrefix => doFlush e g s h c q ext key
      | .stat => doStat e g s h key
      | .lopInsert | .sopInsert | .sopDelete | .sopExist | .bopInsert | .bopUpsert | .bopUpdate | .bopMget | .bopSmget =>
        doCollValue e g s h c q ext key inp
      | .other => doUnknown e g s h (slice inp hdrLen h.bodylen)
      | _ => doColl e g s h c q ext key

/-- A connection that speaks the binary protocol: the state of the engine, what is still to be swallowed (`c->sbytes`), is it being closed
(memcached.h 286-361). -/
structure Conn (σ : Type) where
  eng : σ
  sw : Nat
  closed : Bool

/-- What one step did: nothing but swallow, or a request with this header. -/
inductive Ev where
  | swallowed (n : Nat)
  | badMagic
  | req (h : Hdr) (resps : List Resp) (next : Next)
  deriving DecidableEq, Repr

/-- The result of a step of a connection. -/
inductive CRes (σ : Type) where
  | wait
  | fault
  | next (c : Conn σ) (used : Nat) (ev : Ev)

/-- What remains to be swallowed after a request. -/
def Next.sw : Next → Nat
  | .swallow n => n
  | _ => 0

/-- One round of the state machine: `conn_swallow`, or `try_read_command_binary` and what follows from it (memcached.c 14229-14285, 7690-7768,
14288-14347). `inp` is the rest of the stream. A closed connection does nothing. -/
def step {σ : Type} (e : Engine σ) (g : Cfg) (deny : Bool) (c : Conn σ) (inp : Bytes) : CRes σ :=
  if c.closed then .wait
  else if 0 < c.sw then
    if inp.length = 0 then .wait
    else .next { c with sw := c.sw - min c.sw inp.length } (min c.sw inp.length) (.swallowed (min c.sw inp.length))
  else if inp.length < hdrLen then .wait
  else if (hdrOf inp).magic ≠ 0x80 then .next { c with closed := true } 0 .badMagic
  else match handle e g deny c.eng inp with
    | .wait => .wait
    | .fault => .fault
    | .done o => .next { eng := o.eng, sw := o.next.sw, closed := decide (o.next = .closing) } o.used (.req (hdrOf inp) o.resps o.next)

/-- The read buffer: how many bytes were allocated, what `c->rsize` says (an `int`), the offset of `c->rcurr`, `c->rbytes` (memcached.h 293-296). -/
structure RBuf where
  cap : Nat
  rsize : Int
  rcurr : Nat
  rbytes : Nat
  deriving DecidableEq, Repr

/-- A number stored in an `int` of 32 bits (memcached.h 295; two's complement). -/
def toInt (n : Nat) : Int := if n % 2 ^ 32 < 2 ^ 31 then (n % 2 ^ 32 : Nat) else (n % 2 ^ 32 : Nat) - (2 ^ 32 : Int)

/-- An `int` taken for a `size_t` (memcached.c 4221). -/
def toSize (i : Int) : Nat := (i % (2 ^ 64 : Int)).toNat

/-- The loop that doubles the size (memcached.c 4224-4226); the first argument bounds the number of rounds. -/
def grow : Nat → Nat → Nat → Nat
  | 0, _, nsize => nsize
  | f + 1, size, nsize => if nsize < size then grow f size (nsize * 2) else nsize

/-- `bin_read_chunk` (memcached.c 4213-4264): makes room for `chunk` bytes behind the header at `rcurr`. Simplified: `realloc` does not fail. -/
def readChunk (b : RBuf) (chunk : Nat) : RBuf :=
  let offset : Int := b.rcurr + hdrLen
  if b.rsize - offset < (chunk : Int) then
    let size := chunk + hdrLen
    let nsize := grow 64 size (toSize b.rsize)
    let b1 := if nsize ≠ toSize b.rsize then { b with cap := nsize, rsize := toInt nsize } else b
    { b1 with rcurr := 0 }
  else b

end Verif.Bin
