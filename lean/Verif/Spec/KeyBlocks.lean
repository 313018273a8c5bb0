/-!
# What a list of keys means
-/
namespace Verif.Keys.Spec

/-- The pieces between delimiters. -/
def pieces (d : Nat) : List Nat → List (List Nat)
  | [] => [[]]
  | c :: cs =>
    if c = d then [] :: pieces d cs
    else
      match pieces d cs with
      | [] => [[c]]
      | p :: ps => (c :: p) :: ps

/-- A list of keys as it should be: the number promised, none empty, none too long, no spaces in them. -/
structure Valid (d : Nat) (str : List Nat) (keycnt maxk : Nat) : Prop where
  count : (pieces d str).length = keycnt
  each : ∀ p ∈ pieces d str, p ≠ [] ∧ p.length ≤ maxk ∧ 32 ∉ p

/-- The request ends as it should: the keys, followed by carriage return and line feed. -/
def Ends (body str : List Nat) : Prop := body = str ++ [13, 10]

/-- The keys of a request: separated by spaces; if this does not give a valid list and old clients are served, by commas. -/
def Keys (compat : Bool) (body : List Nat) (keycnt maxk : Nat) (keys : List (List Nat)) : Prop :=
  ∃ str, Ends body str ∧
    ((Valid 32 str keycnt maxk ∧ keys = pieces 32 str) ∨
     (compat = true ∧ ¬ Valid 32 str keycnt maxk ∧ Valid 44 str keycnt maxk ∧ keys = pieces 44 str))

/-- The keys promised are followed by more, and the first delimiter behind them is the last byte of a block or the first of a later one. -/
def Border (bl d : Nat) (str : List Nat) (keycnt : Nat) : Prop :=
  ∃ a b, str = a ++ d :: b ∧ (pieces d a).length = keycnt ∧ (a.length % bl = bl - 1 ∨ (a.length % bl = 0 ∧ a ≠ []))

/-- The last block holds nothing but a delimiter. -/
def Lone (bl d : Nat) (str : List Nat) : Prop := ∃ a, str = a ++ [d] ∧ a ≠ [] ∧ a.length % bl = 0

end Verif.Keys.Spec
