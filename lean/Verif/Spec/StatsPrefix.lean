/-
What the statistics by prefix should say, in terms of the history of events alone (newest
first).
-/
import Verif.Model.StatsPrefix

namespace Verif.StatsPrefix.Spec

open Verif.StatsPrefix (Text Op Event str)

/-- The word under which an operation is counted. -/
def word : Op → String
  | .get => "get"
  | .delete => "del"
  | .set => "set"
  | .incr => "inc"
  | .decr => "dec"
  | .lopCreate => "lcs"
  | .lopInsert => "lis"
  | .lopDelete => "lds"
  | .lopGet => "lgs"
  | .sopCreate => "scs"
  | .sopInsert => "sis"
  | .sopDelete => "sds"
  | .sopGet => "sgs"
  | .sopExist => "ses"
  | .mopCreate => "mcs"
  | .mopInsert => "mis"
  | .mopUpdate => "mus"
  | .mopDelete => "mds"
  | .mopGet => "mgs"
  | .bopCreate => "bcs"
  | .bopInsert => "bis"
  | .bopUpdate => "bus"
  | .bopDelete => "bds"
  | .bopIncr => "bps"
  | .bopDecr => "bms"
  | .bopGet => "bgs"
  | .bopCount => "bns"
  | .bopPosition => "pfs"
  | .bopPwg => "pgs"
  | .bopGbp => "gps"
  | .getattr => "gas"
  | .setattr => "sas"

/-- The word under which its hits are counted. -/
def hitWord : Op → Option String
  | .get => some "hit"
  | .lopInsert => some "lih"
  | .lopDelete => some "ldh"
  | .lopGet => some "lgh"
  | .sopInsert => some "sih"
  | .sopDelete => some "sdh"
  | .sopGet => some "sgh"
  | .sopExist => some "seh"
  | .mopInsert => some "mih"
  | .mopUpdate => some "muh"
  | .mopDelete => some "mdh"
  | .mopGet => some "mgh"
  | .bopInsert => some "bih"
  | .bopUpdate => some "buh"
  | .bopDelete => some "bdh"
  | .bopIncr => some "bph"
  | .bopDecr => some "bmh"
  | .bopGet => some "bgh"
  | .bopCount => some "bnh"
  | .bopPosition => some "pfh"
  | .bopPwg => some "pgh"
  | .bopGbp => some "gph"
  | _ => none

/-- The words in the order of a line. -/
def words : List String :=
  ["get", "hit", "set", "del", "inc", "dec", "lcs", "lis", "lih", "lds", "ldh", "lgs", "lgh",
   "scs", "sis", "sih", "sds", "sdh", "sgs", "sgh", "ses", "seh", "mcs", "mis", "mih", "mus",
   "muh", "mds", "mdh", "mgs", "mgh", "bcs", "bis", "bih", "bus", "buh", "bds", "bdh", "bps",
   "bph", "bms", "bmh", "bgs", "bgh", "bns", "bnh", "pfs", "pfh", "pgs", "pgh", "gps", "gph",
   "gas", "sas"]

/-- A number. -/
def num (n : Nat) : Text := (Nat.toDigits 10 n).map Char.toNat

/-- How a prefix is called. -/
def title (p : Text) : Text := if p = [] then str "<null>" else p

/-- One line. -/
def line (p : Text) (f : String → Nat) : Text :=
  str "PREFIX " ++ title p ++ words.flatMap (fun w => str " " ++ str w ++ str " " ++ num (f w)) ++ str "\r\n"

/-- A dump. -/
def dump (L : List (Text × (String → Nat))) : Text := L.flatMap (fun x => line x.1 x.2) ++ str "END\r\n"

/-- Letters, digits, and four more. -/
def nameChar (c : Nat) : Bool :=
  (97 ≤ c && c ≤ 122) || (65 ≤ c && c ≤ 90) || (48 ≤ c && c ≤ 57) || c == 95 || c == 45 || c == 43 || c == 46

/-- A prefix may be empty; it must not begin with a hyphen. -/
def valid (p : Text) : Bool := p.all nameChar && p.head? != some 45

/-- The prefix of a key: what comes before the delimiter, unless that begins the key. -/
def pre (delim : Nat) : Text → Text
  | [] => []
  | c :: cs => if delim ∈ cs then c :: cs.takeWhile (fun x => x != delim) else []

/-- Details are enabled. -/
def on : List Event → Bool
  | [] => false
  | .on :: _ => true
  | .off :: _ => false
  | _ :: h => on h

/-- The prefixes that are listed, newest first. -/
def known (delim : Nat) : List Event → List Text
  | [] => []
  | .reset :: _ => []
  | .flush p :: h => if on h then (known delim h).filter (fun q => q != p) else known delim h
  | .op _ key _ :: h =>
    let p := pre delim key
    if on h ∧ valid p ∧ p ∉ known delim h then p :: known delim h else known delim h
  | _ :: h => known delim h

/-- What one operation adds. -/
def adds (o : Op) (hit : Bool) (w : String) : Nat :=
  (if word o = w then 1 else 0) + (if hit ∧ hitWord o = some w then 1 else 0)

/-- What was counted for a prefix under a word. -/
def count (delim : Nat) (p : Text) (w : String) : List Event → Nat
  | [] => 0
  | .reset :: _ => 0
  | .flush q :: h => if on h ∧ q = p then 0 else count delim p w h
  | .op o key hit :: h =>
    count delim p w h + (if on h ∧ pre delim key = p then adds o hit w else 0)
  | _ :: h => count delim p w h

/-- There were never 10000 prefixes, keys are not empty, and a key without a prefix does not begin
    with a hyphen. -/
def Good (delim : Nat) : List Event → Prop
  | [] => True
  | e :: h => Good delim h ∧ (known delim (e :: h)).length < 10000 ∧
    ∀ o k b, e = .op o k b → k ≠ [] ∧ (pre delim k = [] → k.head? ≠ some 45)

/-- The prefix that is meant in a request. -/
def token (t : Text) : Text := if t = str "<null>" then [] else t

/-- The dump of the prefixes of a list after a history. -/
def listed (delim : Nat) (ps : List Text) (h : List Event) : Text :=
  dump (ps.map (fun p => (p, fun w => count delim p w h)))

/-- Keys are not empty. -/
def OkEvent : Event → Prop
  | .op _ k _ => k ≠ []
  | _ => True

end Verif.StatsPrefix.Spec
