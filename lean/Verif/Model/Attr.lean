import Verif.Model.BTreeOps
import Verif.Model.Realtime
import Verif.Model.Resp
/-!
# Attributes of items: `setattr` and `getattr`

Model of memcached.c 13283-13505 (text commands) and 6752-6855 (binary request), of engines/default/items.c 736-856 and of the
functions `*_coll_getattr`, `*_coll_setattr`.  One key is observed: `none` is a key without item.  `none` as the result of a function is a
fault: a write outside an array or a use of memory that was never written (the fields of `item_attr attr_data` on the stack).  Not
modelled: authorization, statistics, the LRU list, the command log, waiting for the log (`EWOULDBLOCK`).
-/
namespace Verif.Attr
open Verif.BT Verif.Util

/-- `ENGINE_ITEM_ATTR`, include/memcached/types.h 173-186. -/
abbrev AttrId := Verif.Resp.AttrId

/-- `ENGINE_ITEM_TYPE`, include/memcached/types.h 152-159. -/
inductive Kind where
  | kv | list | set | map | btree
deriving DecidableEq, Repr

/-- An item with the attributes of its meta information: item_base.h `hash_item`, `coll_meta_info`, `btree_meta_info` (300-317).  `first`
and `last` are the bkeys of the first and the last element of a b+tree (coll_btree.c 4286-4289); `maxRange = none` is `BKEY_NULL`,
`bktype = none` is `BKEY_TYPE_UNKNOWN`.  Fields a type does not have are not used. -/
structure It where
  kind : Kind
  flags : Nat
  exptime : Nat
  ccnt : Nat
  mcnt : Int
  ovfl : Nat
  readable : Bool
  trimmed : Bool
  maxRange : Option BKey
  bktype : Option KType
  first : BKey
  last : BKey
deriving DecidableEq, Repr

/-- Configuration and clock: the maximum sizes (default_engine.c 121-147), the overflow action forced on this key by an environment
variable (coll_btree.c 115-173), `process_started` and `current_time`. -/
structure Cfg where
  maxList : Nat
  maxSet : Nat
  maxMap : Nat
  maxBtree : Nat
  forced : Option Nat
  started : Int
  now : Nat
deriving DecidableEq, Repr

/-- `item_attr` on the stack as `setattr` fills it (memcached.c 13402, include/memcached/types.h 387-400); `none` is memory not written. -/
structure Data where
  exptime : Option Nat
  maxcount : Option Int
  ovfl : Option Nat
  readable : Option Nat
  maxRange : Option (Option BKey)
deriving DecidableEq, Repr

/-- `attr_data` at the start, memcached.c 13402 and 6759. -/
def Data.start : Data := ⟨none, none, none, none, none⟩

/-- The maximum size of a type, coll_list.c 86, coll_set.c 154, coll_btree.c 212, coll_map.c likewise. -/
def maxSize (cfg : Cfg) : Kind → Nat
  | .kv => 0
  | .list => cfg.maxList
  | .set => cfg.maxSet
  | .map => cfg.maxMap
  | .btree => cfg.maxBtree

/-- `do_list_real_maxcount`, coll_list.c 77-90, and its copies in coll_set.c 145-158, coll_map.c, coll_btree.c 203-216; all default sizes
are 4000 (item_base.h 34-37). -/
def realMaxcount (size : Nat) (m : Int) : Int :=
  if m < 0 then -1 else if m = 0 then 4000 else if m > size then size else m

/-! ## The engine: `setattr` -/

/-- The overflow actions a type takes: coll_list.c 644-649, coll_set.c 1063-1066, coll_map.c 1038-1041, coll_btree.c 4306-4313; numbers as
in `ENGINE_OVFL_ACTION`, include/memcached/types.h 162-170. -/
def goodOvfl (k : Kind) (o : Nat) : Bool :=
  match k with
  | .kv => true
  | .list => o == 1 || o == 2 || o == 3
  | .set => o == 1
  | .map => o == 1
  | .btree => o == 1 || o == 4 || o == 5 || o == 6 || o == 7

/-- The check of a new maximum bkey range, coll_btree.c 4318-4343: is it refused? -/
def badRange (it : It) (r : BKey) : Option Bool :=
  if 0 < it.ccnt then
    if badType it.bktype r = true then some true
    else if 2 ≤ it.ccnt ∧ it.maxRange ≠ some r then
      match bkeyDiff r.nbkey it.last it.first with
      | none => none
      | some d => bkeyIs .gt d r
    else some false
  else some false

/-- One pass of the first loop of `*_coll_setattr`: coll_list.c 638-655, coll_set.c 1057-1072, coll_map.c 1032-1047, coll_btree.c
4300-4344.  `some none` is `ENGINE_EBADVALUE`; the maximum count is rewritten in `attr_data`. -/
def checkOne (cfg : Cfg) (it : It) (d : Data) (i : AttrId) : Option (Option Data) :=
  match i with
  | .maxcount =>
    match d.maxcount with
    | none => none
    | some m =>
      let r := realMaxcount (maxSize cfg it.kind) m
      if 0 < r ∧ r < it.ccnt then some none else some (some { d with maxcount := some r })
  | .ovfl =>
    match d.ovfl with
    | none => none
    | some o => if goodOvfl it.kind o = true then some (some d) else some none
  | .readable =>
    match d.readable with
    | none => none
    | some v => if v ≠ 1 then some none else some (some d)
  | .maxrange =>
    if it.kind = .btree then
      match d.maxRange with
      | none => none
      | some none => some (some d)
      | some (some r) =>
        match badRange it r with
        | none => none
        | some true => some none
        | some false => some (some d)
    else some (some d)
  | _ => some (some d)

/-- The first loop of `*_coll_setattr` (lines as above). -/
def checkLoop (cfg : Cfg) (it : It) : Data → List AttrId → Option (Option Data)
  | d, [] => some (some d)
  | d, i :: is =>
    match checkOne cfg it d i with
    | none => none
    | some none => some none
    | some (some d) => checkLoop cfg it d is

/-- The assignment of a maximum bkey range, coll_btree.c 4358-4380. -/
def setRange (it : It) (r : Option BKey) : It :=
  match r with
  | none =>
    if it.maxRange = none then it
    else { it with maxRange := none, bktype := if it.ccnt = 0 then none else it.bktype }
  | some r => { it with maxRange := some r, bktype := if it.ccnt = 0 then some r.type else it.bktype }

/-- One pass of the second loop of `*_coll_setattr`: coll_list.c 658-666, coll_set.c 1075-1083, coll_map.c 1050-1058, coll_btree.c
4347-4381 with `_setif_forced_btree_overflow_action`, 166-173. -/
def setOne (cfg : Cfg) (d : Data) (it : It) (i : AttrId) : Option It :=
  match i with
  | .maxcount =>
    match d.maxcount with
    | none => none
    | some m => some { it with mcnt := m }
  | .ovfl =>
    match d.ovfl with
    | none => none
    | some o =>
      if it.kind = .btree then
        some { it with trimmed := if it.ovfl ≠ o then false else it.trimmed, ovfl := match cfg.forced with | some f => f | none => o }
      else some { it with ovfl := o }
  | .readable => some { it with readable := true }
  | .maxrange =>
    if it.kind = .btree then
      match d.maxRange with
      | none => none
      | some r => some (setRange it r)
    else some it
  | _ => some it

/-- The second loop of `*_coll_setattr` (lines as above). -/
def setLoop (cfg : Cfg) (d : Data) : It → List AttrId → Option It
  | it, [] => some it
  | it, i :: is =>
    match setOne cfg d it i with
    | none => none
    | some it => setLoop cfg d it is

/-- The expire time of sticky items, `(rel_time_t)-1`, items.c 809-810. -/
def sticky : Nat := 2 ^ 32 - 1

/-- Replies of `setattr`, memcached.c 13409, 13490-13504 and 6837-6854. -/
inductive Rep where
  | ok | notFound | badAttr | badValue | format
deriving DecidableEq, Repr

/-- The new expire time, items.c 839-852 (`some none`: not given). -/
def setExptime (it : It) (e : Option Nat) : It :=
  match e with
  | none => it
  | some e => { it with exptime := e }

/-- Would the expire time make a sticky item not sticky or the other way round?  items.c 805-819. -/
def toggles (it : It) (e : Option Nat) : Bool :=
  match e with
  | none => false
  | some x => decide ((it.exptime = sticky) ≠ (x = sticky))

/-- `do_item_setattr`, items.c 799-856. -/
def doSetattr (cfg : Cfg) (it : It) (ids : List AttrId) (d : Data) : Option (It × Rep) :=
  match (if .exptime ∈ ids then d.exptime.map some else some none) with
  | none => none
  | some e =>
    if toggles it e = true then some (it, .badValue)
    else if it.kind = .kv then some (setExptime it e, .ok)
    else
      match checkLoop cfg it d ids with
      | none => none
      | some none => some (it, .badValue)
      | some (some d) =>
        match setLoop cfg d it ids with
        | none => none
        | some it => some (setExptime it e, .ok)

/-- `item_setattr`, items.c 858-880, with the replies of memcached.c 13490-13504. -/
def itemSetattr (cfg : Cfg) (s : Option It) (ids : List AttrId) (d : Data) : Option (Option It × Rep) :=
  match s with
  | none => some (none, .notFound)
  | some it =>
    match doSetattr cfg it ids d with
    | none => none
    | some (it, r) => some (some it, r)

/-! ## The text command `setattr` -/

/-- Characters of a C string constant, memcached.c 13415-13457. -/
def str (s : String) : List Nat := s.toList.map Char.toNat

/-- `strchr(tokens[i].value, '=')` with the parts before and behind, memcached.c 13407-13413. -/
def splitEq : List Nat → Option (List Nat × List Nat)
  | [] => none
  | c :: r =>
    if c = 61 then some ([], r)
    else
      match splitEq r with
      | none => none
      | some (a, b) => some (c :: a, b)

/-- `attr_ids[attr_count++] = i`, memcached.c 13401 and 13417: the array has `ATTR_END` entries. -/
def push (ids : List AttrId) (i : AttrId) : Option (List AttrId) :=
  if ids.length < Verif.Resp.attrEnd then some (ids ++ [i]) else none

/-- The names of overflow actions, memcached.c 13431-13448. -/
def ovflOf (v : List Nat) : Option Nat :=
  if v = str "error" then some 1
  else if v = str "head_trim" then some 2
  else if v = str "tail_trim" then some 3
  else if v = str "smallest_trim" then some 4
  else if v = str "largest_trim" then some 5
  else if v = str "smallest_silent_trim" then some 6
  else if v = str "largest_silent_trim" then some 7
  else none

/-- `get_bkey_from_str`, memcached.c 12056-12068; `some none` is -1. -/
def bkeyFromStr (v : List Nat) : Option (Option BKey) :=
  if is0x v = true then
    match safeStrtohexa (v.drop 2) 31 with
    | none => some none
    | some b => some (some (.bin b))
  else
    match safeStrtoull (v ++ [0]) with
    | none => none
    | some none => some none
    | some (some n) => some (some (.num n))

/-- Outcome of reading arguments of `setattr`. -/
inductive Parsed where
  | format
  | badValue
  | badAttr
  | ok (ids : List AttrId) (d : Data)
deriving DecidableEq, Repr

/-- One pass of the loop over the arguments, memcached.c 13406-13476. -/
def parseTok (cfg : Cfg) (ids : List AttrId) (d : Data) (t : List Nat) : Option Parsed :=
  match splitEq t with
  | none => some .format
  | some (name, value) =>
    if name = str "expiretime" then
      match push ids .exptime, safeStrtoll (value ++ [0]) with
      | some ids, some (some e) => some (.ok ids { d with exptime := some (Verif.Item.realtime cfg.started cfg.now e) })
      | some _, some none => some .badValue
      | _, _ => none
    else if name = str "maxcount" then
      match push ids .maxcount, safeStrtol (value ++ [0]) with
      | some ids, some (some m) => some (.ok ids { d with maxcount := some m })
      | some _, some none => some .badValue
      | _, _ => none
    else if name = str "overflowaction" then
      match push ids .ovfl, ovflOf value with
      | some ids, some o => some (.ok ids { d with ovfl := some o })
      | some _, none => some .badValue
      | none, _ => none
    else if name = str "readable" then
      match push ids .readable with
      | none => none
      | some ids => if value = str "on" then some (.ok ids { d with readable := some 1 }) else some .badValue
    else if name = str "maxbkeyrange" then
      match bkeyFromStr value with
      | none => none
      | some none => some .badValue
      | some (some r) =>
        match push ids .maxrange with
        | none => none
        | some ids => some (.ok ids { d with maxRange := some (if r = .num 0 then none else some r) })
    else some .badAttr

/-- The loop over the arguments, memcached.c 13406-13479. -/
def parseLoop (cfg : Cfg) : List AttrId → Data → List (List Nat) → Option Parsed
  | ids, d, [] => some (.ok ids d)
  | ids, d, t :: ts =>
    match parseTok cfg ids d t with
    | some (.ok ids d) => parseLoop cfg ids d ts
    | r => r

/-- `process_setattr_command`, memcached.c 13380-13505; `toks` are the arguments behind the key: 1 to 5 (memcached.c 13672). -/
def setattrCmd (cfg : Cfg) (s : Option It) (toks : List (List Nat)) : Option (Option It × Rep) :=
  match parseLoop cfg [] Data.start toks with
  | none => none
  | some .format => some (s, .format)
  | some .badValue => some (s, .badValue)
  | some .badAttr => some (s, .badAttr)
  | some (.ok ids d) => itemSetattr cfg s ids d

/-! ## The binary request -/

/-- The body of a binary `setattr` request, include/memcached/protocol_binary.h 491-499; `rval` are the 31 bytes of the bkey, `rlen` its
length byte (255 is `BKEY_NULL`). -/
structure BinReq where
  exptimeF : Nat
  exptime : Int
  maxcountF : Nat
  maxcount : Int
  rlen : Nat
  rval : List Nat
  ovfl : Nat
  readable : Nat
deriving DecidableEq, Repr

/-- A number in network byte order (`ntohll`), memcached.c 6780-6783. -/
def beVal (b : List Nat) : Nat := b.foldl (fun n x => 256 * n + x) 0

/-- The bkey of the request, memcached.c 6776-6788: `memcpy` of `len` bytes into `val[31]` (include/memcached/types.h 305-308). -/
def binRange (q : BinReq) : Option (Option BKey) :=
  if q.rlen = 255 then some none
  else if q.rlen = 0 then some (some (.num (beVal (q.rval.take 8))))
  else if 31 < q.rlen then none
  else some (some (.bin (q.rval.take q.rlen)))

/-- `process_bin_setattr`, memcached.c 6752-6855. -/
def binSetattr (cfg : Cfg) (s : Option It) (q : BinReq) : Option (Option It × Rep) :=
  match binRange q with
  | none => none
  | some r =>
    let ids := (if q.exptimeF ≠ 0 then [.exptime] else []) ++ (if q.maxcountF ≠ 0 then [.maxcount] else []) ++
      (if r ≠ none then [.maxrange] else []) ++ (if q.ovfl ≠ 0 then [.ovfl] else []) ++ (if q.readable ≠ 0 then [.readable] else [])
    let d : Data := {
      exptime := if q.exptimeF ≠ 0 then some (Verif.Item.realtime cfg.started cfg.now q.exptime) else none
      maxcount := if q.maxcountF ≠ 0 then some q.maxcount else none
      maxRange := match r with | none => none | some k => some (some k)
      ovfl := if q.ovfl ≠ 0 then some q.ovfl else none
      readable := if q.readable ≠ 0 then some q.readable else none }
    itemSetattr cfg s ids d

/-! ## `getattr` -/

/-- `item_attr` as `do_item_getattr` leaves it (items.c 736-773); `none` is memory not written.  For the range, `some none` is `BKEY_NULL`. -/
structure Out where
  kind : Kind
  flags : Nat
  exptime : Nat
  count : Option Nat
  maxcount : Option Int
  ovfl : Option Nat
  readable : Option Bool
  maxRange : Option (Option BKey)
  minb : Option BKey
  maxb : Option BKey
  trimmed : Option Bool
deriving DecidableEq, Repr

/-- The names a type refuses: items.c 763-770, coll_list.c 617-622, coll_set.c and coll_map.c likewise; a b+tree refuses none. -/
def refused (k : Kind) (i : AttrId) : Bool :=
  match k, i with
  | .kv, .count => true
  | .kv, .maxcount => true
  | .kv, .ovfl => true
  | .kv, .readable => true
  | .kv, .maxrange => true
  | .kv, .trimmed => true
  | .list, .maxrange => true
  | .list, .trimmed => true
  | .set, .maxrange => true
  | .set, .trimmed => true
  | .map, .maxrange => true
  | .map, .trimmed => true
  | _, _ => false

/-- `do_item_getattr`, items.c 736-773, with `list_coll_getattr`, coll_list.c 612-630, its copies in coll_set.c 1031-1049 and coll_map.c
1006-1024, and `btree_coll_getattr`, coll_btree.c 4272-4292; `none` is `ENGINE_EBADATTR`. -/
def doGetattr (cfg : Cfg) (it : It) (ids : List AttrId) : Option Out :=
  if ids.any (refused it.kind) = true then none
  else
    let o : Out := ⟨it.kind, it.flags, it.exptime, none, none, none, none, none, none, none, none⟩
    if it.kind = .kv then some o
    else
      let o := { o with
        count := some it.ccnt
        maxcount := some (if 0 < it.mcnt then it.mcnt else (maxSize cfg it.kind : Int))
        ovfl := some it.ovfl
        readable := some it.readable }
      if it.kind = .btree then
        some { o with
          trimmed := some it.trimmed
          maxRange := some it.maxRange
          minb := if 0 < it.ccnt then some it.first else none
          maxb := if 0 < it.ccnt then some it.last else none }
      else some o

/-- What a line of the reply shows; the expire time is kept as the engine has it (`lefttime`, memcached.c 13211, is not modelled), `none`
as a bkey is the text `-1`, as a range the text `0`. -/
inductive Val where
  | type (k : Kind)
  | num (n : Int)
  | flag (b : Bool)
  | ovfl (o : Nat)
  | bkey (k : Option BKey)
deriving DecidableEq, Repr

/-- The value `attr_to_printable_buffer` prints, memcached.c 13204-13281 (the text itself is in `Verif.Resp`); `none`: it is memory not
written. -/
def attrVal (o : Out) (i : AttrId) : Option Val :=
  match i with
  | .type => some (.type o.kind)
  | .flags => some (.num o.flags)
  | .exptime => some (.num o.exptime)
  | .count => o.count.map fun n => .num n
  | .maxcount => o.maxcount.map fun n => .num n
  | .ovfl => o.ovfl.map .ovfl
  | .readable => o.readable.map .flag
  | .maxrange => o.maxRange.map .bkey
  | .minbkey => o.count.bind fun n => if 0 < n then o.minb.map fun k => .bkey (some k) else some (.bkey none)
  | .maxbkey => o.count.bind fun n => if 0 < n then o.maxb.map fun k => .bkey (some k) else some (.bkey none)
  | .trimmed => o.trimmed.map .flag

/-- The attributes of `getattr` without names, memcached.c 13348-13364. -/
def allAttrs (k : Kind) : List AttrId :=
  [.type, .flags, .exptime] ++ (if k ≠ .kv then [.count, .maxcount, .ovfl, .readable] else []) ++
    (if k = .btree then [.maxrange, .minbkey, .maxbkey, .trimmed] else [])

/-- Replies of `getattr`, memcached.c 13335-13377. -/
inductive GetRep where
  | notFound
  | badAttr
  | attrs (l : List (AttrId × Val))
deriving DecidableEq, Repr

/-- The loop over the lines, memcached.c 13344-13364. -/
def linesOf (o : Out) : List AttrId → Option (List (AttrId × Val))
  | [] => some []
  | i :: is =>
    match attrVal o i, linesOf o is with
    | some v, some l => some ((i, v) :: l)
    | _, _ => none

/-- The names of `getattr`, memcached.c 13309-13323. -/
def nameOf (t : List Nat) : Option AttrId :=
  if t = str "flags" then some .flags
  else if t = str "expiretime" then some .exptime
  else if t = str "type" then some .type
  else if t = str "count" then some .count
  else if t = str "maxcount" then some .maxcount
  else if t = str "overflowaction" then some .ovfl
  else if t = str "readable" then some .readable
  else if t = str "maxbkeyrange" then some .maxrange
  else if t = str "minbkey" then some .minbkey
  else if t = str "maxbkey" then some .maxbkey
  else if t = str "trimmed" then some .trimmed
  else none

/-- The loop over the names, memcached.c 13307-13325; `some none` is `ENGINE_EBADATTR`. -/
def namesLoop : List AttrId → List (List Nat) → Option (Option (List AttrId))
  | ids, [] => some (some ids)
  | ids, t :: ts =>
    match nameOf t with
    | none => some none
    | some i =>
      match push ids i with
      | none => none
      | some ids => namesLoop ids ts

/-- `process_getattr_command`, memcached.c 13283-13378; up to 11 names (memcached.c 13668). -/
def getattrCmd (cfg : Cfg) (s : Option It) (toks : List (List Nat)) : Option GetRep :=
  match namesLoop [] toks with
  | none => none
  | some none => some .badAttr
  | some (some ids) =>
    match s with
    | none => some .notFound
    | some it =>
      match doGetattr cfg it ids with
      | none => some .badAttr
      | some o =>
        match linesOf o (if 0 < ids.length then ids else allAttrs o.kind) with
        | none => none
        | some l => some (.attrs l)

end Verif.Attr
