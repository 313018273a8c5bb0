/-
What the top keys statistics should say, in terms of the sequence of counted operations
alone.  Sequences are given newest first.
-/
import Verif.Model.TopKeys

namespace Verif.TopKeys.Spec

open Verif.TopKeys (Key Use Mem)

/-- calloc gives only addresses that are not in use, and not that of the head. -/
def Malloc (al : Nat → Mem → Option Nat) : Prop :=
  ∀ i m a, al i m = some a → a ≠ 0 ∧ TopKeys.get m a = none

/-- calloc never fails. -/
def Enough (al : Nat → Mem → Option Nat) : Prop := ∀ i m, al i m ≠ none

/-- The different keys used, the most recently used first. -/
def recent (h : List Use) : List Key := (h.map (·.key)).eraseDups

/-- The `n` most recently used keys. -/
def top (n : Nat) (h : List Use) : List Key := (recent h).take n

/-- How often operation `op` was counted for `k` since `k` last came to be among the `n`
    most recently used keys. -/
def uses (n : Nat) (k : Key) (op : Nat) : List Use → Nat
  | [] => 0
  | u :: h => (if u.key = k ∧ u.op = op then 1 else 0) + (if k ∈ top n h then uses n k op h else 0)

/-- When `k` last came to be among the `n` most recently used keys. -/
def entered (n : Nat) (k : Key) : List Use → Nat
  | [] => 0
  | u :: h => if k ∈ top n h then entered n k h else u.now

/-- When `k` was last used. -/
def lastUse (k : Key) : List Use → Nat
  | [] => 0
  | u :: h => if u.key = k then u.now else lastUse k h

/-- Text `name=value` for each pair, separated by commas. -/
def fields (l : List (String × Nat)) : List Char :=
  List.intercalate [','] (l.map (fun p => p.1.toList ++ '=' :: Nat.toDigits 10 p.2))

/-- The names of the printed counters, in order. -/
def names : List String :=
  ["get_hits", "get_misses", "cmd_set", "incr_hits", "incr_misses", "decr_hits",
   "decr_misses", "delete_hits", "delete_misses", "evictions", "cas_hits", "cas_misses",
   "cas_badval"]

/-- The value that `stats topkeys` should show for `k` at time `now`: the counts, the time
    since it entered, and `last`, the time since some moment. -/
def line (n : Nat) (h : List Use) (now last : Nat) (k : Key) : List Char :=
  fields ((names.zipIdx.map (fun p => (p.1, uses n k p.2 h)))
    ++ [("ctime", now - entered n k h), ("atime", now - last)])

/-- An operation that can be counted: a key that is not empty, one of the 78 counters. -/
def Ok (u : Use) : Prop := u.key ≠ [] ∧ u.op < 78

end Verif.TopKeys.Spec
