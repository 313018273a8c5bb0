/-
The words of a command line.
-/

namespace Verif.Token.Spec

/-- `ws` are the words of the line: the longest pieces without blanks, in order. -/
inductive Words : List Nat → List (List Nat) → Prop where
  | nil (b : List Nat) : (∀ x ∈ b, x = 32) → Words b []
  | cons (b w rest : List Nat) (ws : List (List Nat)) : (∀ x ∈ b, x = 32) → w ≠ [] → 32 ∉ w → (∀ x, rest.head? = some x → x = 32) →
      Words rest ws → Words (b ++ w ++ rest) (w :: ws)

end Verif.Token.Spec
