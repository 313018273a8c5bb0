/-!
# Specifications for the utility functions: glob language, decimal and hexadecimal notation
-/
namespace Verif.Util.Spec

/-- Meaning of one pattern character: `*`, `?`, `\c` and ordinary characters. -/
inductive Tok where
  | star
  | any
  | lit (c : Nat)
  | never            -- a backslash with nothing after it
deriving Repr, DecidableEq

/-- Reading a pattern: `*` = 42, `?` = 63, backslash = 92 makes the next character ordinary. -/
def toks : List Nat → List Tok
  | [] => []
  | [c] => if c = 92 then [.never] else if c = 42 then [.star] else if c = 63 then [.any] else [.lit c]
  | c :: d :: r =>
    if c = 92 then .lit d :: toks r
    else if c = 42 then .star :: toks (d :: r)
    else if c = 63 then .any :: toks (d :: r)
    else .lit c :: toks (d :: r)

/-- The glob language: `Denotes ts text` means that the pattern `ts` matches the whole `text`. -/
inductive Denotes : List Tok → List Nat → Prop where
  | nil : Denotes [] []
  | lit (c : Nat) {ts text} : Denotes ts text → Denotes (.lit c :: ts) (c :: text)
  | any (c : Nat) {ts text} : Denotes ts text → Denotes (.any :: ts) (c :: text)
  | star (pre : List Nat) {ts text} : Denotes ts text → Denotes (.star :: ts) (pre ++ text)

end Verif.Util.Spec

namespace Verif.Util.Spec

/-- White space of the C locale. -/
def Space (c : Nat) : Prop := c = 32 ∨ c = 9 ∨ c = 10 ∨ c = 11 ∨ c = 12 ∨ c = 13

/-- ASCII decimal digit. -/
def Digit (c : Nat) : Prop := 48 ≤ c ∧ c ≤ 57

/-- Value of a decimal digit string, most significant digit first. -/
def decVal : List Nat → Nat
  | [] => 0
  | d :: ds => (d - 48) * 10 ^ ds.length + decVal ds

/-- The token `t` denotes the number with sign `neg` and magnitude `n`: optional sign, at least one
digit, then the end of the token or white space. -/
def Number (t : List Nat) (neg : Bool) (n : Nat) : Prop :=
  ∃ sign ds tail, t = sign ++ ds ++ tail ∧
    ((neg = false ∧ (sign = [] ∨ sign = [43])) ∨ (neg = true ∧ sign = [45])) ∧
    ds ≠ [] ∧ (∀ d ∈ ds, Digit d) ∧ decVal ds = n ∧
    (tail = [] ∨ ∃ c r, tail = c :: r ∧ Space c)

/-- Value of one hexadecimal digit (either case). -/
def HexDigit (c v : Nat) : Prop :=
  (48 ≤ c ∧ c ≤ 57 ∧ v = c - 48) ∨ (65 ≤ c ∧ c ≤ 70 ∧ v = c - 55) ∨ (97 ≤ c ∧ c ≤ 102 ∧ v = c - 87)

/-- `HexString s bs`: the string `s` is a hexadecimal notation of the bytes `bs`. -/
inductive HexString : List Nat → List Nat → Prop where
  | nil : HexString [] []
  | cons {a b x y s bs} : HexDigit a x → HexDigit b y → HexString s bs →
      HexString (a :: b :: s) ((16 * x + y) :: bs)

end Verif.Util.Spec
