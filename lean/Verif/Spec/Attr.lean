import Verif.Model.Attr
import Verif.Spec.BTree
import Verif.Spec.Util
/-!
# What `setattr` and `getattr` should do
-/
namespace Verif.Attr.Spec
open Verif.BT Verif.BT.Spec Verif.Util.Spec

/-- An attribute a client asks to set.  `range none` asks to remove the limit. -/
inductive Req where
  | exptime (e : Int)
  | maxcount (m : Int)
  | ovfl (o : Nat)
  | readable (v : Nat)
  | range (r : Option BKey)
deriving DecidableEq, Repr

/-- The attribute a request is for. -/
def idOf : Req → AttrId
  | .exptime _ => .exptime
  | .maxcount _ => .maxcount
  | .ovfl _ => .ovfl
  | .readable _ => .readable
  | .range _ => .maxrange

/-- The documented words of overflow actions. -/
def words : List (String × Nat) :=
  [("error", 1), ("head_trim", 2), ("tail_trim", 3), ("smallest_trim", 4), ("largest_trim", 5), ("smallest_silent_trim", 6),
   ("largest_silent_trim", 7)]

/-- The token `t` of a `setattr` command asks for `r`. -/
inductive Asks : List Nat → Req → Prop where
  | exptime {v neg n} : 0 ∉ v → Number v neg n → -(2 ^ 63) ≤ (if neg then -(n : Int) else n) → (if neg then -(n : Int) else n) < (2 ^ 63 : Int) →
      Asks (str "expiretime=" ++ v) (.exptime (if neg then -(n : Int) else n))
  | maxcount {v neg n} : 0 ∉ v → Number v neg n → -(2 ^ 31) ≤ (if neg then -(n : Int) else n) → (if neg then -(n : Int) else n) < (2 ^ 31 : Int) →
      Asks (str "maxcount=" ++ v) (.maxcount (if neg then -(n : Int) else n))
  | ovfl {w o} : (w, o) ∈ words → Asks (str "overflowaction=" ++ str w) (.ovfl o)
  | readable : Asks (str "readable=on") (.readable 1)
  | number {v n} : 0 ∉ v → 45 ∉ v → Number v false n → n < 2 ^ 64 → n ≠ 0 → Asks (str "maxbkeyrange=" ++ v) (.range (some (.num n)))
  | remove {v} : 0 ∉ v → 45 ∉ v → Number v false 0 → Asks (str "maxbkeyrange=" ++ v) (.range none)
  | bytes {v b} : HexString v b → 1 ≤ b.length → b.length ≤ 31 → Asks (str "maxbkeyrange=0x" ++ v) (.range (some (.bin b)))

/-- The tokens ask for the requests, one for one. -/
inductive AsksAll : List (List Nat) → List Req → Prop where
  | nil : AsksAll [] []
  | cons {t r ts rs} : Asks t r → AsksAll ts rs → AsksAll (t :: ts) (r :: rs)

/-- The values asked for; of several for the same attribute the last one counts. -/
def exptimeOf (l : List Req) : Option Int := (l.filterMap fun r => match r with | .exptime e => some e | _ => none).getLast?
/-- See `exptimeOf`. -/
def maxcountOf (l : List Req) : Option Int := (l.filterMap fun r => match r with | .maxcount e => some e | _ => none).getLast?
/-- See `exptimeOf`. -/
def ovflOf (l : List Req) : Option Nat := (l.filterMap fun r => match r with | .ovfl e => some e | _ => none).getLast?
/-- See `exptimeOf`. -/
def readableOf (l : List Req) : Option Nat := (l.filterMap fun r => match r with | .readable e => some e | _ => none).getLast?
/-- See `exptimeOf`. -/
def rangeOf (l : List Req) : Option (Option BKey) := (l.filterMap fun r => match r with | .range e => some e | _ => none).getLast?

/-- The documented overflow actions of a type. -/
def actions : Kind → List Nat
  | .kv => []
  | .list => [1, 2, 3]
  | .set => [1]
  | .map => [1]
  | .btree => [1, 4, 5, 6, 7]

/-- The largest number of elements a collection may have. -/
def limit (cfg : Cfg) (k : Kind) : Nat :=
  match k with
  | .kv => 0
  | .list => cfg.maxList
  | .set => cfg.maxSet
  | .map => cfg.maxMap
  | .btree => cfg.maxBtree

/-- The expire time an item gets (the argument as in all commands). -/
def timeOf (cfg : Cfg) (e : Int) : Nat := Verif.Item.realtime cfg.started cfg.now e

/-- The expire time of sticky items. -/
def Sticky (t : Nat) : Prop := t = 4294967295

/-- A maximum bkey range fits the elements: the same sort of keys, and the keys are not further apart (or it is the range in force). -/
def RangeFits (it : It) (r : BKey) : Prop := 0 < it.ccnt → SameKind r it.first ∧ (it.maxRange = some r ∨ ¬ Wide r it.last it.first)

/-- The requests can be granted: stickiness does not change, and for collections the elements there are fit the new limits. -/
structure Allowed (cfg : Cfg) (it : It) (l : List Req) : Prop where
  exptime : ∀ e, exptimeOf l = some e → (Sticky it.exptime ↔ Sticky (timeOf cfg e))
  maxcount : it.kind ≠ .kv → ∀ m, maxcountOf l = some m →
    m < 0 ∨ (m = 0 ∧ it.ccnt ≤ 4000) ∨ (0 < m ∧ (it.ccnt : Int) ≤ m ∧ it.ccnt ≤ limit cfg it.kind)
  ovfl : it.kind ≠ .kv → ∀ o, ovflOf l = some o → o ∈ actions it.kind
  readable : it.kind ≠ .kv → ∀ v, readableOf l = some v → v = 1
  range : it.kind = .btree → ∀ r, rangeOf l = some (some r) → RangeFits it r

/-- The item with the requests granted.  An overflow action forced by the operator stays; another action makes a b+tree forget that it
was trimmed; the range of an empty b+tree fixes the sort of its keys. -/
def after (cfg : Cfg) (it : It) (l : List Req) : It :=
  { it with
    exptime := match exptimeOf l with | none => it.exptime | some e => timeOf cfg e
    mcnt := if it.kind = .kv then it.mcnt else
      match maxcountOf l with
      | none => it.mcnt
      | some m => if m < 0 then -1 else if m = 0 then 4000 else min m (limit cfg it.kind)
    readable := if it.kind = .kv then it.readable else it.readable || (readableOf l).isSome
    ovfl := if it.kind = .kv then it.ovfl else
      match ovflOf l with
      | none => it.ovfl
      | some o => if it.kind = .btree then cfg.forced.getD o else o
    trimmed := if it.kind = .btree then
        match ovflOf l with
        | none => it.trimmed
        | some o => it.trimmed && decide (it.ovfl = o)
      else it.trimmed
    maxRange := if it.kind = .btree then
        match rangeOf l with
        | none => it.maxRange
        | some r => r
      else it.maxRange
    bktype := if it.kind = .btree ∧ it.ccnt = 0 then
        match rangeOf l with
        | none => it.bktype
        | some none => if it.maxRange = none then it.bktype else none
        | some (some (.num _)) => some .u64
        | some (some (.bin _)) => some .bin
      else it.bktype }

/-- A request names a value: bkeys are those clients can write. -/
def ReqOk : Req → Prop
  | .range (some r) => ValidKey r
  | _ => True

/-- The state of an item between commands.  For b+trees (see C12 and the following): first and last element are valid keys of the sort
noted, in order, the same if there is one element only; an overflow action forced by the operator is in force. -/
structure ItOk (cfg : Cfg) (it : It) : Prop where
  keys : it.kind = .btree → 0 < it.ccnt → ValidKey it.first ∧ ValidKey it.last ∧ SameKind it.first it.last ∧
    it.bktype = some it.first.type ∧ (KLt it.first it.last ∨ it.first = it.last)
  forced : it.kind = .btree → ∀ f, cfg.forced = some f → it.ovfl = f
  one : it.kind = .btree → it.ccnt = 1 → it.first = it.last

/-- The configuration: sizes are at least 10000 (default_engine.c 121-147). -/
def CfgOk (cfg : Cfg) : Prop := 10000 ≤ cfg.maxList ∧ 10000 ≤ cfg.maxSet ∧ 10000 ≤ cfg.maxMap ∧ 10000 ≤ cfg.maxBtree

/-- The attributes an item of a type has. -/
def Has (k : Kind) (i : AttrId) : Prop :=
  match i with
  | .type => True
  | .flags => True
  | .exptime => True
  | .count => k ≠ .kv
  | .maxcount => k ≠ .kv
  | .ovfl => k ≠ .kv
  | .readable => k ≠ .kv
  | _ => k = .btree

/-- The value of an attribute of an item. -/
def valueOf (cfg : Cfg) (it : It) : AttrId → Val
  | .type => .type it.kind
  | .flags => .num it.flags
  | .exptime => .num it.exptime
  | .count => .num it.ccnt
  | .maxcount => .num (if 0 < it.mcnt then it.mcnt else (limit cfg it.kind : Int))
  | .ovfl => .ovfl it.ovfl
  | .readable => .flag it.readable
  | .maxrange => .bkey it.maxRange
  | .minbkey => .bkey (if it.ccnt = 0 then none else some it.first)
  | .maxbkey => .bkey (if it.ccnt = 0 then none else some it.last)
  | .trimmed => .flag it.trimmed

/-- The name of an attribute in the protocol. -/
def nameText : AttrId → List Nat
  | .type => str "type"
  | .flags => str "flags"
  | .exptime => str "expiretime"
  | .count => str "count"
  | .maxcount => str "maxcount"
  | .ovfl => str "overflowaction"
  | .readable => str "readable"
  | .maxrange => str "maxbkeyrange"
  | .minbkey => str "minbkey"
  | .maxbkey => str "maxbkey"
  | .trimmed => str "trimmed"

/-- The token `t` names the attribute of `r`, with `=` behind it; if `t` is well-formed, it asks for `r`; for an overflow action and for
`readable` it is well-formed (numbers may have text behind blanks and the like, see C42). -/
def For (t : List Nat) (r : Req) : Prop :=
  (∃ v, t = nameText (idOf r) ++ 61 :: v) ∧ ((∃ r', Asks t r') → Asks t r) ∧ (idOf r = .ovfl ∨ idOf r = .readable → Asks t r)

/-- The tokens are for the requests, one for one. -/
inductive ForAll : List (List Nat) → List Req → Prop where
  | nil : ForAll [] []
  | cons {t r ts rs} : For t r → ForAll ts rs → ForAll (t :: ts) (r :: rs)

/-- What a binary request asks for. -/
def binReqs (q : BinReq) : List Req :=
  (if q.exptimeF = 0 then [] else [.exptime q.exptime]) ++ (if q.maxcountF = 0 then [] else [.maxcount q.maxcount]) ++
  (if q.rlen = 255 then [] else if q.rlen = 0 then [.range (some (.num (val (q.rval.take 8))))] else [.range (some (.bin (q.rval.take q.rlen)))]) ++
  (if q.ovfl = 0 then [] else [.ovfl q.ovfl]) ++ (if q.readable = 0 then [] else [.readable q.readable])

/-- The bytes of a binary request: 31 of them for the bkey, as the structure has it. -/
def BinOk (q : BinReq) : Prop := q.rval.length = 31 ∧ (∀ x ∈ q.rval, x < 256) ∧ q.rlen < 256

end Verif.Attr.Spec
