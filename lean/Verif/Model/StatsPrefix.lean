/-
Model of the statistics by prefix: /repo/stats_prefix.c, as compiled with NESTED_PREFIX and
PREFIX_MAX_DEPTH 1 (include/memcached/types.h 36, stats_prefix.c 115).

With a depth of 1 no entry has a parent or a child (`parent_stat` is always NULL,
`child_prefixes` 0), so both are left out.  malloc and calloc are taken to succeed.
`none` stands for a failed assertion or an access outside of a buffer.
-/
import Verif.Model.Util

namespace Verif.StatsPrefix

/-- A counter of `struct _prefix_stats` (stats_prefix.c 40-98). -/
inductive Fld where
  | gets | hits | sets | deletes | incrs | decrs | lopCreates | lopInserts | lopInsertHits |
   lopDeletes | lopDeleteHits | lopGets | lopGetHits | sopCreates | sopInserts | sopInsertHits |
   sopDeletes | sopDeleteHits | sopGets | sopGetHits | sopExists | sopExistHits | mopCreates |
   mopInserts | mopInsertHits | mopUpdates | mopUpdateHits | mopDeletes | mopDeleteHits |
   mopGets | mopGetHits | bopCreates | bopInserts | bopInsertHits | bopUpdates | bopUpdateHits |
   bopDeletes | bopDeleteHits | bopIncrs | bopIncrHits | bopDecrs | bopDecrHits | bopGets |
   bopGetHits | bopCounts | bopCountHits | bopPositions | bopPositionHits | bopPwgs | bopPwgHits |
   bopGbps | bopGbpHits | getattrs | setattrs
deriving DecidableEq, Repr

/-- The functions `stats_prefix_record_…` (stats_prefix.c 451-1172). -/
inductive Op where
  | get | delete | set | incr | decr | lopCreate | lopInsert | lopDelete | lopGet | sopCreate |
   sopInsert | sopDelete | sopGet | sopExist | mopCreate | mopInsert | mopUpdate | mopDelete |
   mopGet | bopCreate | bopInsert | bopUpdate | bopDelete | bopIncr | bopDecr | bopGet |
   bopCount | bopPosition | bopPwg | bopGbp | getattr | setattr
deriving DecidableEq, Repr

/-- The counter that is always incremented (stats_prefix.c 451-1172). -/
def Op.main : Op → Fld
  | .get => .gets
  | .delete => .deletes
  | .set => .sets
  | .incr => .incrs
  | .decr => .decrs
  | .lopCreate => .lopCreates
  | .lopInsert => .lopInserts
  | .lopDelete => .lopDeletes
  | .lopGet => .lopGets
  | .sopCreate => .sopCreates
  | .sopInsert => .sopInserts
  | .sopDelete => .sopDeletes
  | .sopGet => .sopGets
  | .sopExist => .sopExists
  | .mopCreate => .mopCreates
  | .mopInsert => .mopInserts
  | .mopUpdate => .mopUpdates
  | .mopDelete => .mopDeletes
  | .mopGet => .mopGets
  | .bopCreate => .bopCreates
  | .bopInsert => .bopInserts
  | .bopUpdate => .bopUpdates
  | .bopDelete => .bopDeletes
  | .bopIncr => .bopIncrs
  | .bopDecr => .bopDecrs
  | .bopGet => .bopGets
  | .bopCount => .bopCounts
  | .bopPosition => .bopPositions
  | .bopPwg => .bopPwgs
  | .bopGbp => .bopGbps
  | .getattr => .getattrs
  | .setattr => .setattrs

/-- The counter that is incremented if `is_hit` (stats_prefix.c 451-1172). -/
def Op.hit : Op → Option Fld
  | .get => some .hits
  | .lopInsert => some .lopInsertHits
  | .lopDelete => some .lopDeleteHits
  | .lopGet => some .lopGetHits
  | .sopInsert => some .sopInsertHits
  | .sopDelete => some .sopDeleteHits
  | .sopGet => some .sopGetHits
  | .sopExist => some .sopExistHits
  | .mopInsert => some .mopInsertHits
  | .mopUpdate => some .mopUpdateHits
  | .mopDelete => some .mopDeleteHits
  | .mopGet => some .mopGetHits
  | .bopInsert => some .bopInsertHits
  | .bopUpdate => some .bopUpdateHits
  | .bopDelete => some .bopDeleteHits
  | .bopIncr => some .bopIncrHits
  | .bopDecr => some .bopDecrHits
  | .bopGet => some .bopGetHits
  | .bopCount => some .bopCountHits
  | .bopPosition => some .bopPositionHits
  | .bopPwg => some .bopPwgHits
  | .bopGbp => some .bopGbpHits
  | _ => none

/-- The order of the counters in `do_stats_prefix_write_buffer` (stats_prefix.c 1174-1206). -/
def writeOrder : List Fld :=
  [.gets, .hits, .sets, .deletes, .incrs, .decrs, .lopCreates, .lopInserts, .lopInsertHits,
   .lopDeletes, .lopDeleteHits, .lopGets, .lopGetHits, .sopCreates, .sopInserts, .sopInsertHits,
   .sopDeletes, .sopDeleteHits, .sopGets, .sopGetHits, .sopExists, .sopExistHits, .mopCreates,
   .mopInserts, .mopInsertHits, .mopUpdates, .mopUpdateHits, .mopDeletes, .mopDeleteHits,
   .mopGets, .mopGetHits, .bopCreates, .bopInserts, .bopInsertHits, .bopUpdates, .bopUpdateHits,
   .bopDeletes, .bopDeleteHits, .bopIncrs, .bopIncrHits, .bopDecrs, .bopDecrHits, .bopGets,
   .bopGetHits, .bopCounts, .bopCountHits, .bopPositions, .bopPositionHits, .bopPwgs, .bopPwgHits,
   .bopGbps, .bopGbpHits, .getattrs, .setattrs]

/-- The words of `format`, each followed by a number (stats_prefix.c 1214-1224). -/
def fmtWords : List String :=
  ["get", "hit", "set", "del", "inc", "dec", "lcs", "lis", "lih", "lds", "ldh", "lgs", "lgh",
   "scs", "sis", "sih", "sds", "sdh", "sgs", "sgh", "ses", "seh", "mcs", "mis", "mih", "mus",
   "muh", "mds", "mdh", "mgs", "mgh", "bcs", "bis", "bih", "bus", "buh", "bds", "bdh", "bps",
   "bph", "bms", "bmh", "bgs", "bgh", "bns", "bnh", "pfs", "pfh", "pgs", "pgh", "gps", "gph",
   "gas", "sas"]

/-- `strlen(format)` (stats_prefix.c 1214-1224). -/
def fmtLen : Nat := 497

/-- Bytes. -/
abbrev Text := List Nat

/-- The bytes of a literal. -/
def str (s : String) : Text := s.toList.map Char.toNat

/-- `%llu`. -/
def dec (n : Nat) : Text := (Nat.toDigits 10 n).map Char.toNat

/-- `struct _prefix_stats` (stats_prefix.c 40-103); `prefix_len` is the length of `name`. -/
structure Entry where
  name : Text
  num : Fld → Nat

/-- What does not change: `mc_hash` and `prefix_delimiter` (stats_prefix.c 123). -/
structure Cfg where
  hash : Text → Nat
  delim : Nat

/-- `prefix_stats`, `num_prefixes`, `total_prefix_size` (stats_prefix.c 118-121) and
    `settings.detail_enabled`. -/
structure St where
  tab : List (List Entry)
  num : Nat
  total : Nat
  on : Bool

/-- At the start (stats_prefix.c 125-131, memcached.c 353). -/
def init : St := { tab := List.replicate 1024 [], num := 0, total := 0, on := false }

/-- `stats_prefix_clear` (stats_prefix.c 137-151). -/
def clear (s : St) : St := { s with tab := s.tab.map (fun _ => []), num := 0, total := 0 }

/-- `strncmp(a, b, n) == 0`; the end of a list is a NUL. -/
def strncmpEq : Nat → Text → Text → Bool
  | 0, _, _ => true
  | n + 1, a :: as, b :: bs => a == b && (a == 0 || strncmpEq n as bs)
  | _ + 1, [], b :: _ => b == 0
  | _ + 1, a :: _, [] => a == 0
  | _ + 1, [], [] => true

/-- The test of an entry against the first `n` bytes of a key (stats_prefix.c 192-193, 338, 353,
    428, 1287-1288). -/
def matches_ (e : Entry) (key : Text) (n : Nat) : Bool :=
  e.name.length == n && (n == 0 || strncmpEq n e.name key)

/-- The bucket of the first `n` bytes of a key (stats_prefix.c 189, 237, 334, 424, 1285). -/
def slot (g : Cfg) (key : Text) (n : Nat) : Nat := g.hash (key.take n) % 1024

/-- A bucket. -/
def bucket (s : St) (i : Nat) : List Entry := s.tab.getD i []

/-- `do_stats_prefix_insert` (stats_prefix.c 158-289); the entry is given by the length of its
    prefix.  `func_when_prefix_overflow` is `disable_stats_detail` (memcached.c 279-284, 299).
    strncpy (232) copies the prefix as it is, since a valid name has no NUL. -/
def insert (g : Cfg) (s : St) (key : Text) (nprefix : Nat) : Option (St × Option Nat) :=
  if s.num ≥ 10000 then some ({ s with on := false }, none)
  else
    let len :=
      if nprefix > 0 then
        match ((key.take nprefix).drop 1).findIdx? (· == g.delim) with
        | some i => i + 1
        | none => nprefix
      else 0
    let b := slot g key len
    if (bucket s b).any (fun e => matches_ e key len) then some (s, some len)
    else
      match Verif.Util.isValidName key len with
      | none => none
      | some false => some (s, none)
      | some true =>
        let e : Entry := { name := key.take len, num := fun _ => 0 }
        let s : St := { s with
          tab := s.tab.set b (e :: bucket s b), num := s.num + 1,
          total := s.total + (if len > 0 then len else 6) }
        if s.num ≥ 10000 then some ({ s with on := false }, none) else some (s, some len)

/-- `stats_prefix_find` (stats_prefix.c 400-446); `none` for an empty key, for which memchr would
    search without end. -/
def find (g : Cfg) (s : St) (key : Text) : Option (St × Option Nat) :=
  if key = [] then none
  else
    let length :=
      match (key.drop 1).findIdx? (· == g.delim) with
      | some i => i + 1
      | none => 0
    if (bucket s (slot g key length)).any (fun e => matches_ e key length) then some (s, some length)
    else insert g s key length

/-- The increments of an entry (stats_prefix.c 451-1172), which wrap at 64 bits. -/
def Entry.add (e : Entry) (o : Op) (hit : Bool) : Entry :=
  { e with num := fun f =>
      let n := if f = o.main then (e.num f + 1) % 18446744073709551616 else e.num f
      if hit ∧ o.hit = some f then (n + 1) % 18446744073709551616 else n }

/-- The first entry that matches is incremented. -/
def bump (o : Op) (hit : Bool) (key : Text) (n : Nat) : List Entry → List Entry
  | [] => []
  | e :: es => if matches_ e key n then e.add o hit :: es else e :: bump o hit key n es

/-- `stats_prefix_record_…` (stats_prefix.c 451-1172). -/
def record (g : Cfg) (s : St) (o : Op) (key : Text) (hit : Bool) : Option St :=
  match find g s key with
  | none => none
  | some (s, none) => some s
  | some (s, some n) =>
    let b := slot g key n
    some { s with tab := s.tab.set b (bump o hit key n (bucket s b)) }

/-- Take the first entry that matches out of a bucket (stats_prefix.c 351-358). -/
def unlink (key : Text) (n : Nat) : List Entry → List Entry
  | [] => []
  | e :: es => if matches_ e key n then es else e :: unlink key n es

/-- `do_stats_prefix_delete` (stats_prefix.c 331-382). -/
def delete (g : Cfg) (s : St) (p : Text) : St :=
  let b := slot g p p.length
  if (bucket s b).any (fun e => matches_ e p p.length) then
    { s with tab := s.tab.set b (unlink p p.length (bucket s b)), num := s.num - 1,
             total := s.total - (if p.length = 0 then 6 else p.length) }
  else s

/-- What may happen: `stats detail on|off` (memcached.c 8057-8064), `stats reset`
    (memcached.c 302-312), `flush_prefix` with "<null>" taken for the empty prefix (memcached.c
    7505-7520, 9043-9050), and an operation on a key that is counted if details are enabled. -/
inductive Event where
  | on
  | off
  | reset
  | flush (p : Text)
  | op (o : Op) (key : Text) (hit : Bool)

/-- One event. -/
def step (g : Cfg) (s : St) : Event → Option St
  | .on => some { s with on := true }
  | .off => some { s with on := false }
  | .reset => some (clear s)
  | .flush p => some (if s.on then delete g s p else s)
  | .op o key hit => if s.on then record g s o key hit else some s

/-- A sequence of events. -/
def run (g : Cfg) (s : St) : List Event → Option St
  | [] => some s
  | e :: es =>
    match step g s e with
    | none => none
    | some s => run g s es

/-- The text of one entry (stats_prefix.c 1174-1206, 1214-1224). -/
def lineText (e : Entry) : Text :=
  str "PREFIX " ++ (if e.name.length = 0 then str "<null>" else e.name)
    ++ (List.zip fmtWords (writeOrder.map e.num)).flatMap (fun x => str " " ++ str x.1 ++ str " " ++ dec x.2)
    ++ str "\r\n"

/-- The lines are written one after another, with an assertion after each
    (stats_prefix.c 1267-1268, 1292-1293). -/
def writeAll (size : Nat) : List Entry → Text → Option Text
  | [], out => some out
  | e :: es, out =>
    let out := out ++ lineText e
    if out.length < size then writeAll size es out else none

/-- The size of the buffer (stats_prefix.c 1250-1253). -/
def dumpSize (names n : Nat) : Nat := fmtLen + names + n * (fmtLen - 2 + 54 * 16) + 6

/-- The end of the dump (stats_prefix.c 1299-1300). -/
def finish (size : Nat) : Option Text → Option Text
  | none => none
  | some out =>
    let out := out ++ str "END\r\n"
    if out.length < size then some out else none

/-- `stats_prefix_dump(NULL, 0, …)` (stats_prefix.c 1212-1304). -/
def dumpAll (s : St) : Option Text :=
  let size := dumpSize s.total s.num
  finish size (writeAll size s.tab.flatten [])

/-- The entry of a token (stats_prefix.c 1278-1290). -/
def lookup (g : Cfg) (s : St) (t : Text) : Option Entry :=
  let p := if t = str "<null>" then [] else t
  (bucket s (slot g p p.length)).find? (fun e => matches_ e p p.length)

/-- `stats_prefix_dump(tokens, …)` (stats_prefix.c 1212-1304). -/
def dumpSome (g : Cfg) (s : St) (ts : List Text) : Option Text :=
  let size := dumpSize (ts.map List.length).sum ts.length
  finish size (writeAll size (ts.filterMap (lookup g s)) [])

end Verif.StatsPrefix
