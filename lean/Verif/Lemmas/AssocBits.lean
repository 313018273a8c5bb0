import Verif.Spec.Assoc
/-! # Table numbers in the order of reversed bits -/
namespace Verif.Assoc
open Spec (RevLt)

theorem swapBits_get (s : Nat) (m v : BitVec 32) (i : Nat) :
    (swapBits s m v).getLsbD i = ((v.getLsbD (s + i) && m.getLsbD i) || (decide (i < 32) && !decide (i < s) && v.getLsbD (i - s) && !m.getLsbD i)) := by
  unfold swapBits
  rw [BitVec.getLsbD_or, BitVec.getLsbD_and, BitVec.getLsbD_and, BitVec.getLsbD_ushiftRight, BitVec.getLsbD_shiftLeft, BitVec.getLsbD_not]
  by_cases hi : i < 32 <;> by_cases hs : i < s <;> simp [hi, hs]

theorem reverseBits_get (v : BitVec 32) : ∀ i, i < 32 → (reverseBits v).getLsbD i = v.getLsbD (31 - i) := by
  have h1 : (BitVec.allOnes 32 ^^^ (BitVec.allOnes 32 <<< 16)) = 0x0000FFFF#32 := by decide
  have h2 : (0x0000FFFF#32 ^^^ (0x0000FFFF#32 <<< 8)) = 0x00FF00FF#32 := by decide
  have h3 : (0x00FF00FF#32 ^^^ (0x00FF00FF#32 <<< 4)) = 0x0F0F0F0F#32 := by decide
  have h4 : (0x0F0F0F0F#32 ^^^ (0x0F0F0F0F#32 <<< 2)) = 0x33333333#32 := by decide
  have h5 : (0x33333333#32 ^^^ (0x33333333#32 <<< 1)) = 0x55555555#32 := by decide
  intro i hi
  simp only [reverseBits, h1, h2, h3, h4, h5]
  have h : i = 0 ∨ i = 1 ∨ i = 2 ∨ i = 3 ∨ i = 4 ∨ i = 5 ∨ i = 6 ∨ i = 7 ∨ i = 8 ∨ i = 9 ∨ i = 10 ∨ i = 11 ∨ i = 12 ∨ i = 13 ∨ i = 14 ∨
    i = 15 ∨ i = 16 ∨ i = 17 ∨ i = 18 ∨ i = 19 ∨ i = 20 ∨ i = 21 ∨ i = 22 ∨ i = 23 ∨ i = 24 ∨ i = 25 ∨ i = 26 ∨ i = 27 ∨ i = 28 ∨ i = 29 ∨
    i = 30 ∨ i = 31 := by omega
  rcases h with h | h | h | h | h | h | h | h | h | h | h | h | h | h | h | h | h | h | h | h | h | h | h | h | h | h | h | h | h | h | h | h <;>
    (subst h; simp [swapBits_get, -BitVec.getLsbD_eq_getElem])

theorem bit_eq_of_mod {x t n i : Nat} (h : x % 2 ^ n = t % 2 ^ n) (hi : i < n) : x.testBit i = t.testBit i := by
  have h1 := congrArg (fun a => a.testBit i) h
  simpa [Nat.testBit_mod_two_pow, hi] using h1

theorem mod_eq_of_bit {x t n : Nat} (h : ∀ i, i < n → x.testBit i = t.testBit i) : x % 2 ^ n = t % 2 ^ n := by
  apply Nat.eq_of_testBit_eq
  intro i
  simp only [Nat.testBit_mod_two_pow]
  by_cases hi : i < n
  · simp [hi, h i hi]
  · simp [hi]

/-- The first bit where two numbers differ. -/
theorem first_diff (x t n : Nat) :
    x % 2 ^ n = t % 2 ^ n ∨ ∃ i, i < n ∧ x % 2 ^ i = t % 2 ^ i ∧ x.testBit i ≠ t.testBit i := by
  induction n with
  | zero => left; simp [Nat.mod_one]
  | succ n ih =>
    rcases ih with h | ⟨i, h1, h2, h3⟩
    · by_cases hb : x.testBit n = t.testBit n
      · left
        apply mod_eq_of_bit
        intro i hi
        rcases Nat.lt_or_ge i n with h1 | h1
        · exact bit_eq_of_mod h h1
        · have : i = n := by omega
          subst this; exact hb
      · exact .inr ⟨n, by omega, h, hb⟩
    · exact .inr ⟨i, by omega, h2, h3⟩

/-- The last bit below `r` that is 0. -/
theorem last_zero (t r : Nat) :
    (∀ i, i < r → t.testBit i = true) ∨ ∃ j, j < r ∧ t.testBit j = false ∧ ∀ i, j < i → i < r → t.testBit i = true := by
  induction r with
  | zero => left; intro i hi; omega
  | succ r ih =>
    cases hb : t.testBit r with
    | false => exact .inr ⟨r, by omega, hb, fun i h1 h2 => by omega⟩
    | true =>
      rcases ih with h | ⟨j, h1, h2, h3⟩
      · left
        intro i hi
        rcases Nat.lt_or_ge i r with h1 | h1
        · exact h i h1
        · have : i = r := by omega
          subst this; exact hb
      · refine .inr ⟨j, by omega, h2, ?_⟩
        intro i h4 h5
        rcases Nat.lt_or_ge i r with h6 | h6
        · exact h3 i h4 h6
        · have : i = r := by omega
          subst this; exact hb

/-- The bits of the number that `nextTab` counts up. -/
theorem ored_get {r t i : Nat} (hr : r ≤ 15) (hi : i < 32) :
    (BitVec.ofNat 32 t ||| ~~~ (BitVec.ofNat 32 (2 ^ r - 1))).getLsbD i = if i < r then t.testBit i else true := by
  have h1 : (2 ^ r - 1).testBit i = decide (i < r) := Nat.testBit_two_pow_sub_one r i
  rw [BitVec.getLsbD_or, BitVec.getLsbD_not, BitVec.getLsbD_ofNat, BitVec.getLsbD_ofNat, h1]
  by_cases hlt : i < r <;> simp [hi, hlt]

theorem testBit_add_one {x k : Nat} (h : ∀ i, i < k → x.testBit i = true) (hk : x.testBit k = false) (i : Nat) :
    (x + 1).testBit i = if i < k then false else if i = k then true else x.testBit i := by
  have h1 : x % 2 ^ (k + 1) = 2 ^ k - 1 := by
    have h2 : x % 2 ^ (k + 1) = (2 ^ k - 1) % 2 ^ (k + 1) := by
      apply mod_eq_of_bit
      intro i hi
      rw [Nat.testBit_two_pow_sub_one]
      rcases Nat.lt_or_ge i k with h3 | h3
      · simp [h i h3, h3]
      · have : i = k := by omega
        subst this; simp [hk]
    rw [h2, Nat.mod_eq_of_lt]
    have := Nat.two_pow_pos k
    rw [Nat.pow_succ]; omega
  have hpos := Nat.two_pow_pos k
  have h4 : x + 1 = 2 ^ (k + 1) * (x / 2 ^ (k + 1)) + 2 ^ k := by
    have := Nat.div_add_mod x (2 ^ (k + 1))
    omega
  have hlt : 2 ^ k < 2 ^ (k + 1) := by rw [Nat.pow_succ]; omega
  rw [h4, Nat.testBit_two_pow_mul_add _ hlt]
  by_cases h5 : i < k + 1
  · rw [if_pos h5, Nat.testBit_two_pow]
    by_cases h6 : i < k
    · rw [if_pos h6]; simp; omega
    · have : i = k := by omega
      subst this; simp
  · rw [if_neg h5, if_neg (by omega), if_neg (by omega), Nat.testBit_div_two_pow]
    congr 1
    omega

/-- All bits are 1: the next table number is 0. -/
theorem nextTab_full {r t : Nat} (hr : r ≤ 15) (ht : t < 2 ^ r) (h : ∀ i, i < r → t.testBit i = true) : nextTab r t = 0 := by
  unfold nextTab
  by_cases h0 : 0 < 2 ^ r - 1
  · rw [if_pos h0]
    have h1 : reverseBits (BitVec.ofNat 32 t ||| ~~~ (BitVec.ofNat 32 (2 ^ r - 1))) = BitVec.allOnes 32 := by
      apply BitVec.eq_of_getLsbD_eq
      intro i hi
      rw [reverseBits_get _ i hi, ored_get hr (by omega), BitVec.getLsbD_allOnes]
      by_cases h2 : 31 - i < r
      · rw [if_pos h2, h _ h2]; simp [hi]
      · rw [if_neg h2]; simp [hi]
    rw [h1]
    decide
  · rw [if_neg h0]
    have := Nat.two_pow_pos r
    omega

/-- Otherwise the bits behind the last 0 become 0 and that bit becomes 1. -/
theorem nextTab_step {r t j : Nat} (hr : r ≤ 15) (hj : j < r) (hz : t.testBit j = false)
    (h : ∀ i, j < i → i < r → t.testBit i = true) : nextTab r t = t % 2 ^ j + 2 ^ j := by
  unfold nextTab
  have hpj := Nat.two_pow_pos j
  have h0 : 0 < 2 ^ r - 1 := by
    have : 2 ^ 1 ≤ 2 ^ r := Nat.pow_le_pow_right (by decide) (by omega)
    omega
  rw [if_pos h0]
  -- the number to be increased
  have hx : ∀ i, i < 32 → (reverseBits (BitVec.ofNat 32 t ||| ~~~ (BitVec.ofNat 32 (2 ^ r - 1)))).toNat.testBit i =
      if 31 - i < r then t.testBit (31 - i) else true := by
    intro i hi
    have := reverseBits_get (BitVec.ofNat 32 t ||| ~~~ (BitVec.ofNat 32 (2 ^ r - 1))) i hi
    rw [ored_get hr (by omega)] at this
    exact this
  generalize hX : reverseBits (BitVec.ofNat 32 t ||| ~~~ (BitVec.ofNat 32 (2 ^ r - 1))) = X at hx ⊢
  have hone : ∀ i, i < 31 - j → X.toNat.testBit i = true := by
    intro i hi
    rw [hx i (by omega)]
    by_cases h2 : 31 - i < r
    · rw [if_pos h2]; exact h _ (by omega) h2
    · rw [if_neg h2]
  have hzero : X.toNat.testBit (31 - j) = false := by
    rw [hx _ (by omega), show 31 - (31 - j) = j by omega, if_pos hj, hz]
  have hadd := testBit_add_one hone hzero
  have hlt : X.toNat + 1 < 2 ^ 32 := by
    rcases Nat.lt_or_ge (X.toNat + 1) (2 ^ 32) with h2 | h2
    · exact h2
    · exfalso
      have h3 := X.isLt
      have h4 : X.toNat = 2 ^ 32 - 1 := by omega
      rw [h4, Nat.testBit_two_pow_sub_one] at hzero
      simp at hzero
      omega
  have hX1 : (X + 1).toNat = X.toNat + 1 := by
    rw [BitVec.toNat_add]
    exact Nat.mod_eq_of_lt hlt
  apply Nat.eq_of_testBit_eq
  intro i
  have hres : ∀ i, (t % 2 ^ j + 2 ^ j).testBit i = if i < j then t.testBit i else decide (i = j) := by
    intro i
    have : t % 2 ^ j + 2 ^ j = 2 ^ j * 1 + t % 2 ^ j := by omega
    rw [this, Nat.testBit_two_pow_mul_add _ (Nat.mod_lt _ hpj)]
    by_cases hi : i < j
    · rw [if_pos hi, if_pos hi, Nat.testBit_mod_two_pow]; simp [hi]
    · rw [if_neg hi, if_neg hi]
      have : (1 : Nat).testBit (i - j) = decide (i - j = 0) := by
        rw [show (1 : Nat) = 2 ^ 0 from rfl, Nat.testBit_two_pow]
        apply decide_eq_decide.mpr
        exact eq_comm
      rw [this]
      apply decide_eq_decide.mpr
      omega
  rw [hres]
  by_cases hi : i < 32
  · have h2 := reverseBits_get (X + 1) i hi
    have h3 : (reverseBits (X + 1)).toNat.testBit i = (X + 1).toNat.testBit (31 - i) := h2
    rw [h3, hX1, hadd]
    by_cases h4 : i < j
    · rw [if_pos h4, if_neg (by omega), if_neg (by omega), hx _ (by omega), show 31 - (31 - i) = i by omega, if_pos (by omega)]
    · rw [if_neg h4]
      by_cases h5 : i = j
      · subst h5; rw [if_neg (by omega), if_pos rfl]; simp
      · rw [if_pos (by omega)]; simp [h5]
  · rw [if_neg (by omega)]
    have h2 : (reverseBits (X + 1)).toNat.testBit i = false :=
      Nat.testBit_lt_two_pow (Nat.lt_of_lt_of_le (reverseBits (X + 1)).isLt (Nat.pow_le_pow_right (by decide) (by omega)))
    rw [h2]
    simp; omega

/-- The end of a bucket is reached when everything comes before or at this table. -/
theorem nextTab_end {r t : Nat} (hr : r ≤ 15) (ht : t < 2 ^ r) (h : nextTab r t = 0) (x : Nat) : RevLt x t ∨ x % 2 ^ r = t := by
  rcases last_zero t r with h1 | ⟨j, h1, h2, h3⟩
  · rcases first_diff x t r with h2 | ⟨i, h2, h3, h4⟩
    · right; rw [h2, Nat.mod_eq_of_lt ht]
    · left
      refine ⟨i, h3, ?_, h1 i h2⟩
      rw [h1 i h2] at h4
      simpa using h4
  · rw [nextTab_step hr h1 h2 h3] at h
    have := Nat.two_pow_pos j
    omega

/-- Otherwise exactly the numbers of this table are added. -/
theorem nextTab_next {r t : Nat} (hr : r ≤ 15) (ht : t < 2 ^ r) (h : nextTab r t ≠ 0) (x : Nat) :
    nextTab r t < 2 ^ r ∧ (RevLt x (nextTab r t) ↔ RevLt x t ∨ x % 2 ^ r = t) := by
  rcases last_zero t r with h1 | ⟨j, h1, h2, h3⟩
  · exact absurd (nextTab_full hr ht h1) h
  · rw [nextTab_step hr h1 h2 h3]
    have hpj := Nat.two_pow_pos j
    have hml := Nat.mod_lt t hpj
    have hres : ∀ i, (t % 2 ^ j + 2 ^ j).testBit i = if i < j then t.testBit i else decide (i = j) := by
      intro i
      have : t % 2 ^ j + 2 ^ j = 2 ^ j * 1 + t % 2 ^ j := by omega
      rw [this, Nat.testBit_two_pow_mul_add _ (Nat.mod_lt _ hpj)]
      by_cases hi : i < j
      · rw [if_pos hi, if_pos hi, Nat.testBit_mod_two_pow]; simp [hi]
      · rw [if_neg hi, if_neg hi]
        have : (1 : Nat).testBit (i - j) = decide (i - j = 0) := by
          rw [show (1 : Nat) = 2 ^ 0 from rfl, Nat.testBit_two_pow]
          apply decide_eq_decide.mpr
          exact eq_comm
        rw [this]
        apply decide_eq_decide.mpr
        omega
    have hle : 2 ^ (j + 1) ≤ 2 ^ r := Nat.pow_le_pow_right (by decide) (by omega)
    rw [Nat.pow_succ] at hle
    refine ⟨by omega, ?_⟩
    constructor
    · rintro ⟨i, k1, k2, k3⟩
      rw [hres] at k3
      have hi : i ≤ j := by
        rcases Nat.lt_or_ge i j with h4 | h4
        · omega
        · rw [if_neg (by omega)] at k3; simp at k3; omega
      have hagree : ∀ k, k < i → x.testBit k = t.testBit k := by
        intro k hk
        rw [bit_eq_of_mod k1 hk, hres, if_pos (by omega)]
      rcases Nat.lt_or_ge i j with h4 | h4
      · left
        rw [if_pos h4] at k3
        exact ⟨i, mod_eq_of_bit hagree, k2, k3⟩
      · have hij : i = j := by omega
        subst hij
        rcases first_diff x t r with h5 | ⟨m, h5, h6, h7⟩
        · right; rw [h5, Nat.mod_eq_of_lt ht]
        · left
          have hm : i < m := by
            rcases Nat.lt_or_ge i m with h8 | h8
            · exact h8
            · exfalso
              rcases Nat.lt_or_ge m i with h9 | h9
              · exact h7 (hagree m h9)
              · have : m = i := by omega
                subst this
                exact h7 (k2.trans h2.symm)
          refine ⟨m, h6, ?_, h3 m hm h5⟩
          rw [h3 m hm h5] at h7
          simpa using h7
    · rintro (⟨i, k1, k2, k3⟩ | hx)
      · rcases Nat.lt_or_ge i j with h4 | h4
        · refine ⟨i, mod_eq_of_bit ?_, k2, by rw [hres, if_pos h4]; exact k3⟩
          intro k hk
          rw [hres, if_pos (by omega)]
          exact bit_eq_of_mod k1 hk
        · have h5 : x.testBit j = false := by
            rcases Nat.lt_or_ge j i with h6 | h6
            · rw [bit_eq_of_mod k1 h6, h2]
            · have : i = j := by omega
              subst this; exact k2
          refine ⟨j, mod_eq_of_bit ?_, h5, by rw [hres, if_neg (Nat.lt_irrefl _)]; simp⟩
          intro k hk
          rw [hres, if_pos hk]
          exact bit_eq_of_mod k1 (by omega)
      · have hagree : ∀ k, k < r → x.testBit k = t.testBit k := by
          intro k hk
          apply bit_eq_of_mod _ hk
          rw [hx, Nat.mod_eq_of_lt ht]
        refine ⟨j, mod_eq_of_bit ?_, by rw [hagree j h1, h2], by rw [hres, if_neg (Nat.lt_irrefl _)]; simp⟩
        intro k hk
        rw [hres, if_pos hk]
        exact hagree k (by omega)

/-- While the table grows, tables come in pairs. -/
theorem nextTab_pair {r t : Nat} (hr : r + 1 ≤ 15) (ht : t < 2 ^ r) : nextTab (r + 1) t = t + 2 ^ r := by
  rw [nextTab_step hr (Nat.lt_succ_self r) (Nat.testBit_lt_two_pow ht) (fun i h1 h2 => by omega), Nat.mod_eq_of_lt ht]

theorem nextTab_pair' {r t : Nat} (hr : r + 1 ≤ 15) (ht : t < 2 ^ r) : nextTab (r + 1) (t + 2 ^ r) < 2 ^ r := by
  have hbit : (t + 2 ^ r).testBit r = true := by
    rw [Nat.add_comm, Nat.testBit_two_pow_add_eq, Nat.testBit_lt_two_pow ht]; rfl
  rcases last_zero (t + 2 ^ r) (r + 1) with h1 | ⟨j, h1, h2, h3⟩
  · rw [nextTab_full hr (by rw [Nat.pow_succ]; omega) h1]; exact Nat.two_pow_pos _
  · rw [nextTab_step hr h1 h2 h3]
    have hj : j < r := by
      rcases Nat.lt_or_ge j r with h4 | h4
      · exact h4
      · have : j = r := by omega
        subst this; rw [hbit] at h2; cases h2
    have hle : 2 ^ (j + 1) ≤ 2 ^ r := Nat.pow_le_pow_right (by decide) hj
    rw [Nat.pow_succ] at hle
    have := Nat.mod_lt (t + 2 ^ r) (Nat.two_pow_pos j)
    omega

end Verif.Assoc
