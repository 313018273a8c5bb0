import Verif.Lemmas.Glob
import Verif.Lemmas.Parse
/-!
# Properties C42 (number parsing), C43 (glob matching), C44 (hexadecimal strings)

A token `t` of the protocol is a C string without NUL bytes; in memory it is `t ++ 0 :: rest` where
`rest` is whatever follows.
-/
namespace Verif.Util.Props
open Verif.Util Verif.Util.Spec

/-! ## C42 -/

/-- Full claim of C42 for the unsigned 64-bit parser; **false**, see `C42_strtoull_blank` and
`C42_strtoull_wrap`. -/
def C42_strtoull_full : Prop := ∀ t rest : List Nat, 0 ∉ t → ∀ v,
  safeStrtoull (t ++ 0 :: rest) = some (some v) ↔ (Number t false v ∧ v < 2 ^ 64)

/-- Signed 64-bit: a token not starting with white space is accepted exactly when it denotes a number
in range, with that number as the result, and nothing outside the token influences the result. -/
theorem C42_strtoll_partial (t rest : List Nat) (h0 : 0 ∉ t) (hns : ∀ c r, t = c :: r → ¬ Space c) :
    (∀ v : Int, safeStrtoll (t ++ 0 :: rest) = some (some v) ↔
      ∃ neg n, Number t neg n ∧ v = (if neg then -(n : Int) else n) ∧ -(2 ^ 63) ≤ v ∧ v < 2 ^ 63) ∧
    safeStrtoll (t ++ 0 :: rest) ≠ none := by
  obtain ⟨s, hs, hnum, -⟩ := scan_token t rest h0 hns
  unfold safeStrtoll; rw [hs]; simp only [digitsVal_eq]
  generalize hV : (if s.neg = true then -(decVal s.digits : Int) else (decVal s.digits : Int)) = V
  constructor
  · intro v
    constructor
    · intro h
      split at h
      · simp at h
      · split at h
        · next h1 h2 =>
          simp only [Option.some.injEq] at h
          refine ⟨s.neg, decVal s.digits, (hnum _ _).mpr ⟨h2, rfl, rfl⟩, by rw [hV, h], ?_, ?_⟩ <;> omega
        · simp at h
    · rintro ⟨neg, n, hN, hv, hlo, hhi⟩
      obtain ⟨e1, e2, e3⟩ := (hnum _ _).mp hN
      rw [e2, e3, ← hv] at hV; subst hV
      rw [if_neg (by omega), if_pos e1]
  · repeat' split
    all_goals simp

/-- Signed 32-bit parser, same statement with the 32-bit range. -/
theorem C42_strtol_partial (t rest : List Nat) (h0 : 0 ∉ t) (hns : ∀ c r, t = c :: r → ¬ Space c) :
    (∀ v : Int, safeStrtol (t ++ 0 :: rest) = some (some v) ↔
      ∃ neg n, Number t neg n ∧ v = (if neg then -(n : Int) else n) ∧ -(2 ^ 31) ≤ v ∧ v < 2 ^ 31) ∧
    safeStrtol (t ++ 0 :: rest) ≠ none := by
  obtain ⟨s, hs, hnum, -⟩ := scan_token t rest h0 hns
  unfold safeStrtol; rw [hs]; simp only [digitsVal_eq]
  generalize hV : (if s.neg = true then -(decVal s.digits : Int) else (decVal s.digits : Int)) = V
  constructor
  · intro v
    constructor
    · intro h
      split at h
      · simp at h
      · split at h
        · simp at h
        · split at h
          · next h1 h2 h3 =>
            simp only [Option.some.injEq] at h
            refine ⟨s.neg, decVal s.digits, (hnum _ _).mpr ⟨h3, rfl, rfl⟩, by rw [hV, h], ?_, ?_⟩ <;> omega
          · simp at h
    · rintro ⟨neg, n, hN, hv, hlo, hhi⟩
      obtain ⟨e1, e2, e3⟩ := (hnum _ _).mp hN
      rw [e2, e3, ← hv] at hV; subst hV
      rw [if_neg (by omega), if_neg (by omega), if_pos e1]
  · repeat' split
    all_goals simp

/-- Unsigned 64-bit: a token not starting with white space and without a minus sign is accepted
exactly when it denotes a number below 2^64, with that number as the result. -/
theorem C42_strtoull_partial (t rest : List Nat) (h0 : 0 ∉ t) (hns : ∀ c r, t = c :: r → ¬ Space c)
    (hm : 45 ∉ t) :
    (∀ v, safeStrtoull (t ++ 0 :: rest) = some (some v) ↔ (Number t false v ∧ v < 2 ^ 64)) ∧
    safeStrtoull (t ++ 0 :: rest) ≠ none := by
  obtain ⟨s, hs, hnum, hneg⟩ := scan_token t rest h0 hns
  unfold safeStrtoull; rw [hs, strchrMinus_no t rest hm h0]; simp only [digitsVal_eq]
  have hn : endOk s = true → s.neg = false := by
    intro h; by_cases hh : s.neg = true
    · exact absurd (hneg h hh) hm
    · simpa using hh
  constructor
  · intro v
    constructor
    · intro h
      split at h
      · simp at h
      · split at h
        · next h1 h2 =>
          have h3 := hn h2
          simp only [h3, Bool.false_eq_true, if_false] at h
          have : decVal s.digits = v := by split at h <;> simpa using h
          refine ⟨(hnum _ _).mpr ⟨h2, h3, this⟩, by omega⟩
        · simp at h
    · rintro ⟨hN, hv⟩
      obtain ⟨e1, e2, e3⟩ := (hnum _ _).mp hN
      rw [e2, e3, if_neg (by omega), if_pos e1]
      simp
  · repeat' split
    all_goals simp

/-- Unsigned 32-bit: same with the bound 2^32. -/
theorem C42_strtoul_partial (t rest : List Nat) (h0 : 0 ∉ t) (hns : ∀ c r, t = c :: r → ¬ Space c)
    (hm : 45 ∉ t) :
    (∀ v, safeStrtoul (t ++ 0 :: rest) = some (some v) ↔ (Number t false v ∧ v < 2 ^ 32)) ∧
    safeStrtoul (t ++ 0 :: rest) ≠ none := by
  obtain ⟨s, hs, hnum, hneg⟩ := scan_token t rest h0 hns
  unfold safeStrtoul; rw [hs]; simp only [digitsVal_eq]
  have hn : endOk s = true → s.neg = false := by
    intro h; by_cases hh : s.neg = true
    · exact absurd (hneg h hh) hm
    · simpa using hh
  generalize hV : (if s.neg = true then (2 ^ 64 - decVal s.digits) % 2 ^ 64 else decVal s.digits) = L
  constructor
  · intro v
    constructor
    · intro h
      split at h
      · simp at h
      · split at h
        · simp at h
        · split at h
          · next h1 h2 h3 =>
            have h4 := hn h3
            simp only [h4, Bool.false_eq_true, if_false] at hV
            have : L = v := by simpa using h
            refine ⟨(hnum _ _).mpr ⟨h3, h4, by omega⟩, by omega⟩
          · simp at h
    · rintro ⟨hN, hv⟩
      obtain ⟨e1, e2, e3⟩ := (hnum _ _).mp hN
      simp only [e2, e3, Bool.false_eq_true, if_false] at hV
      rw [e3, if_neg (by omega), if_neg (by omega), if_pos e1, hV]
  · repeat' split
    all_goals simp

/-- Counterexample 1 to the full claim: a token starting with a tab and containing no digits at all
(`"\tabc"`) is accepted as the number 0 by every one of the parsers (util.c 37: `isspace(*endptr)` is
tested although nothing was converted). -/
theorem C42_strtoull_blank : ¬ C42_strtoull_full := by
  intro h
  have h1 : safeStrtoull ([9, 97, 98, 99] ++ 0 :: []) = some (some 0) := by decide
  obtain ⟨⟨sign, ds, tail, e1, e2, e3, e4, -, -⟩, -⟩ := (h [9, 97, 98, 99] [] (by decide) 0).mp h1
  cases ds with
  | nil => exact e3 rfl
  | cons d ds =>
    have := e4 d List.mem_cons_self
    unfold Digit at this
    rcases e2 with ⟨-, rfl | rfl⟩ | ⟨h, -⟩
    · simp at e1; omega
    · simp at e1
    · simp at h

/-- The token `-18446744073709551615`. -/
def minusMax : List Nat := [45,49,56,52,52,54,55,52,52,48,55,51,55,48,57,53,53,49,54,49,53]

/-- Counterexample 2 to the full claim: `-18446744073709551615` is accepted as 1. -/
theorem C42_strtoull_wrap : safeStrtoull (minusMax ++ 0 :: []) = some (some 1) ∧
    ¬ Number minusMax false 1 := by
  refine ⟨by decide, ?_⟩
  rintro ⟨sign, ds, tail, e1, e2, e3, e4, -, -⟩
  cases ds with
  | nil => exact e3 rfl
  | cons d ds =>
    have := e4 d List.mem_cons_self
    unfold Digit at this
    rcases e2 with ⟨-, rfl | rfl⟩ | ⟨h, -⟩
    · simp [minusMax] at e1; omega
    · simp [minusMax] at e1
    · simp at h

-- hypotheses are met: the token "18446744073709551615" (2^64-1)
example : safeStrtoull ([49,56,52,52,54,55,52,52,48,55,51,55,48,57,53,53,49,54,49,53] ++ 0 :: [45]) =
    some (some (2 ^ 64 - 1)) := by decide
example : safeStrtol ([45,50,49,52,55,52,56,51,54,52,56] ++ 0 :: [45]) = some (some (-(2 ^ 31))) := by decide
example : ∀ c r, [49, 50] = c :: r → ¬ Space c := by
  intro c r h; injection h with h _; subst h; simp [Space]

/-! ## C43 -/

/-- Full claim of C43; **false** when both pattern and text contain backslashes, see
`C43_glob_escape`. -/
def C43_full : Prop := ∀ text pattern : List Nat, 0 ∉ text → 0 ∉ pattern →
  ∃ b, globMatch text pattern = some b ∧ (b = true ↔ Denotes (toks pattern) text)

/-- For every text and pattern without NUL bytes, not both containing a backslash, the matcher never
reads outside the pattern and answers true exactly when the pattern denotes the text. -/
theorem C43_glob_partial (text pattern : List Nat) (ht : 0 ∉ text) (hp : 0 ∉ pattern)
    (hb : 92 ∉ pattern ∨ 92 ∉ text) :
    ∃ b, globMatch text pattern = some b ∧ (b = true ↔ Denotes (toks pattern) text) := by
  unfold globMatch
  obtain ⟨b, h1, h2⟩ := globLoop_spec text (pattern ++ [0]) none (by intro x hx; cases hx)
    pattern rfl hp ht hb (by intro x hx; cases hx)
  exact ⟨b, h1, h2⟩

/-- Counterexample: the pattern `\*` should only match the text `*`, but it matches `\ab`. -/
theorem C43_glob_escape : ¬ C43_full := by
  intro h
  obtain ⟨b, h1, h2⟩ := h [92, 97, 98] [92, 42] (by decide) (by decide)
  have : globMatch [92, 97, 98] [92, 42] = some true := by
    simp [globMatch, globLoop]
  rw [this] at h1; injection h1 with h1
  have := h2.mp h1.symm
  simp [toks] at this; cases this

-- a non-trivial instance: "*a?b*" matches "xxaabyy" (needs backtracking)
example : globMatch [120, 120, 97, 97, 98, 121] [42, 97, 63, 98, 42] = some true := by
  simp [globMatch, globLoop]
example : Denotes (toks [42, 97, 63, 98, 42]) [120, 97, 97, 98, 121] := by
  simp only [toks]
  exact .star [120] (.lit 97 (.any 97 (.lit 98 (.star [121] .nil))))

/-! ## C44 -/

/-- Decoding accepts exactly the hexadecimal notations of 1 to `size` bytes. -/
theorem C44_decode_iff (s bs : List Nat) (size : Nat) :
    safeStrtohexa s size = some bs ↔ (HexString s bs ∧ 1 ≤ bs.length ∧ bs.length ≤ size) := by
  have hlen : ∀ s bs, HexString s bs → s.length = 2 * bs.length := by
    intro s bs h; induction h with
    | nil => rfl
    | cons _ _ _ ih => simp [ih]; omega
  unfold safeStrtohexa
  constructor
  · intro h
    split at h
    · simp at h
    · have h' := (hexLoop_iff s bs).mp h
      have := hlen s bs h'
      exact ⟨h', by omega, by omega⟩
  · rintro ⟨h1, h2, h3⟩
    have := hlen s bs h1
    rw [if_neg (by omega)]; exact (hexLoop_iff s bs).mpr h1

/-- Round trip: what the server prints for a byte string reads back as the same byte string. -/
theorem C44_roundtrip (bs : List Nat) (size : Nat) (hb : ∀ b ∈ bs, b < 256) (h1 : 1 ≤ bs.length)
    (h2 : bs.length ≤ size) : safeStrtohexa (safeHexatostr bs) size = some bs :=
  (C44_decode_iff _ _ _).mpr ⟨hexString_hexatostr bs hb, h1, h2⟩

example : safeHexatostr [0, 171, 255] = [48, 48, 65, 66, 70, 70] ∧
    safeStrtohexa [48, 48, 97, 98, 70, 70] 31 = some [0, 171, 255] := by decide

end Verif.Util.Props
