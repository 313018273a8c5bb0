import Verif.Model.Util
import Verif.Spec.Util
/-! Helper lemmas for the number parsers and the hexadecimal conversions. -/
namespace Verif.Util
open Spec

theorem isspace_iff (c : Nat) : isspace c = true ↔ Space c := by
  simp [isspace, Space]; omega

theorem isdigit_iff (c : Nat) : isdigit c = true ↔ Digit c := by
  simp [isdigit, Digit]

theorem foldl_digits (ds : List Nat) : ∀ a, ds.foldl (fun a d => a * 10 + (d - 48)) a =
    a * 10 ^ ds.length + decVal ds := by
  induction ds with
  | nil => simp [decVal]
  | cons d ds ih => intro a; simp only [List.foldl_cons, ih, decVal, List.length_cons]; grind

theorem digitsVal_eq (ds : List Nat) : digitsVal ds = decVal ds := by
  simp [digitsVal, foldl_digits]

theorem dropWhile_stop (p : Nat → Bool) (z : Nat) (hz : p z = false) (l r : List Nat) :
    (l ++ z :: r).dropWhile p = l.dropWhile p ++ z :: r := by
  induction l with
  | nil => simp [hz]
  | cons a l ih => by_cases h : p a <;> simp [h, ih]

theorem takeWhile_stop (p : Nat → Bool) (z : Nat) (hz : p z = false) (l r : List Nat) :
    (l ++ z :: r).takeWhile p = l.takeWhile p := by
  induction l with
  | nil => simp [hz]
  | cons a l ih => by_cases h : p a <;> simp [h, ih]

theorem takeWhile_all (p : Nat → Bool) (l : List Nat) : ∀ x ∈ l.takeWhile p, p x = true := by
  induction l with
  | nil => simp
  | cons a l ih => by_cases h : p a <;> simp [h]; exact ih

theorem dropWhile_head (p : Nat → Bool) (l : List Nat) :
    ∀ c r, l.dropWhile p = c :: r → p c = false := by
  induction l with
  | nil => simp
  | cons a l ih =>
    intro c r h
    by_cases hp : p a
    · simp [hp] at h; exact ih c r h
    · simp [hp] at h; rw [← h.1]; simpa using hp

theorem takeWhile_split (p : Nat → Bool) (ds e : List Nat) (hd : ∀ d ∈ ds, p d = true)
    (he : ∀ c r, e = c :: r → p c = false) :
    (ds ++ e).takeWhile p = ds ∧ (ds ++ e).dropWhile p = e := by
  induction ds with
  | nil =>
    cases e with
    | nil => simp
    | cons c r => simp [he c r rfl]
  | cons d ds ih =>
    have := ih (fun x hx => hd x (List.mem_cons_of_mem _ hx))
    simp [hd d (List.mem_cons_self), this]

/-- What the libc scan does on a token not starting with white space. -/
theorem scan_token (t rest : List Nat) (h0 : 0 ∉ t) (hns : ∀ c r, t = c :: r → ¬ Space c) :
    ∃ s, scanNum (t ++ 0 :: rest) = some s ∧
      (∀ neg n, Number t neg n ↔ (endOk s = true ∧ s.neg = neg ∧ decVal s.digits = n)) ∧
      (endOk s = true → s.neg = true → 45 ∈ t) := by
  have hsp : (t ++ 0 :: rest).dropWhile isspace = t ++ 0 :: rest := by
    rw [dropWhile_stop isspace 0 rfl]
    cases t with
    | nil => rfl
    | cons c r =>
      have : isspace c = false := by
        have := hns c r rfl
        rw [← isspace_iff] at this; simpa using this
      simp [this]
  -- sign part
  obtain ⟨neg, sg, r, hsign, ht, hsg⟩ : ∃ neg sg r, signPart (t ++ 0 :: rest) = some (neg, r ++ 0 :: rest) ∧
      t = sg ++ r ∧ ((neg = false ∧ sg = [43]) ∨ (neg = true ∧ sg = [45]) ∨
        (neg = false ∧ sg = [] ∧ ∀ c l, r = c :: l → c ≠ 43 ∧ c ≠ 45)) := by
    unfold signPart; rw [hsp]
    cases t with
    | nil => exact ⟨false, [], [], by simp, rfl, by simp⟩
    | cons c r =>
      by_cases h1 : c = 45
      · exact ⟨true, [45], r, by simp [h1], by simp [h1], by simp⟩
      · by_cases h2 : c = 43
        · exact ⟨false, [43], r, by simp [h2], by simp [h2], by simp⟩
        · refine ⟨false, [], c :: r, by simp [h1, h2], by simp, Or.inr (Or.inr ⟨rfl, rfl, ?_⟩)⟩
          intro d l h; injection h with h _; subst h; exact ⟨h2, h1⟩
  have hdig : (r ++ 0 :: rest).takeWhile isdigit = r.takeWhile isdigit := takeWhile_stop _ _ rfl _ _
  have hend : (r ++ 0 :: rest).dropWhile isdigit = r.dropWhile isdigit ++ 0 :: rest := dropWhile_stop _ _ rfl _ _
  have hrsplit : r = r.takeWhile isdigit ++ r.dropWhile isdigit := (List.takeWhile_append_dropWhile).symm
  have h0r : 0 ∉ r := fun h => h0 (by rw [ht]; simp [h])
  refine ⟨if (r.takeWhile isdigit).isEmpty then ⟨neg, [], t ++ 0 :: rest⟩
      else ⟨neg, r.takeWhile isdigit, r.dropWhile isdigit ++ 0 :: rest⟩, ?_, ?_, ?_⟩
  · unfold scanNum; rw [hsign]; simp only [hdig, hend]
    split
    · next h => simp at h
    · split <;> rfl
  · intro neg' n
    have uniq : ∀ sign ds tail, t = sign ++ ds ++ tail →
        ((neg' = false ∧ (sign = [] ∨ sign = [43])) ∨ (neg' = true ∧ sign = [45])) →
        ds ≠ [] → (∀ d ∈ ds, Digit d) → (tail = [] ∨ ∃ c r, tail = c :: r ∧ Space c) →
        neg' = neg ∧ ds = r.takeWhile isdigit ∧ tail = r.dropWhile isdigit := by
      intro sign ds tail e1 e2 e3 e4 e5
      have hs : sign = sg ∧ neg' = neg := by
        cases ds with
        | nil => exact absurd rfl e3
        | cons d ds =>
          have hd := e4 d List.mem_cons_self
          unfold Digit at hd
          rw [ht] at e1
          rcases hsg with ⟨rfl, rfl⟩ | ⟨rfl, rfl⟩ | ⟨rfl, rfl, hh⟩
          · rcases e2 with ⟨rfl, rfl | rfl⟩ | ⟨rfl, rfl⟩ <;> simp at e1 ⊢; omega
          · rcases e2 with ⟨rfl, rfl | rfl⟩ | ⟨rfl, rfl⟩ <;> simp at e1 ⊢; omega
          · rcases e2 with ⟨rfl, rfl | rfl⟩ | ⟨rfl, rfl⟩
            · simp
            · simp at e1; have := hh _ _ e1; omega
            · simp at e1; have := hh _ _ e1; omega
      refine ⟨hs.2, ?_⟩
      rw [hs.1, ht, List.append_assoc] at e1
      have hr : r = ds ++ tail := List.append_cancel_left e1
      have := takeWhile_split isdigit ds tail (fun d hd => (isdigit_iff d).mpr (e4 d hd))
        (by
          intro c l h
          rcases e5 with e5 | ⟨c', r', e5, e6⟩
          · simp [h] at e5
          · rw [h] at e5; injection e5 with e5 _; subst e5
            simp [isdigit]; unfold Space at e6; omega)
      rw [hr]; exact ⟨this.1.symm, this.2.symm⟩
    constructor
    · rintro ⟨sign, ds, tail, e1, e2, e3, e4, e5, e6⟩
      obtain ⟨f1, f2, f3⟩ := uniq sign ds tail e1 e2 e3 e4 e6
      have hne : (r.takeWhile isdigit).isEmpty = false := by rw [← f2]; simpa using e3
      simp only [hne, Bool.false_eq_true, if_false]
      refine ⟨?_, f1.symm, by rw [← f2, e5]⟩
      unfold endOk; simp only [← f3, ← f2]
      rcases e6 with rfl | ⟨c, r', rfl, hc⟩
      · simp; exact Or.inr e3
      · simp [(isspace_iff c).mpr hc]
    · rintro ⟨f1, f2, f3⟩
      by_cases hne : (r.takeWhile isdigit).isEmpty
      · exfalso
        simp only [hne, if_true] at f1
        cases t with
        | nil => simp [endOk, isspace] at f1
        | cons c l =>
          simp only [endOk, List.cons_append, List.isEmpty_nil, Bool.not_true, Bool.and_false,
            Bool.or_false] at f1
          exact hns c l rfl ((isspace_iff c).mp f1)
      · simp only [hne, Bool.false_eq_true, if_false] at f1 f2 f3
        subst f2
        refine ⟨sg, r.takeWhile isdigit, r.dropWhile isdigit, ?_, ?_, ?_, ?_, f3, ?_⟩
        · rw [List.append_assoc, ← hrsplit]; exact ht
        · rcases hsg with ⟨h1, h2⟩ | ⟨h1, h2⟩ | ⟨h1, h2, -⟩ <;> simp [h1, h2]
        · simpa using hne
        · intro d hd; exact (isdigit_iff d).mp (takeWhile_all _ _ d hd)
        · unfold endOk at f1
          cases he : r.dropWhile isdigit with
          | nil => exact Or.inl rfl
          | cons c l =>
            right; refine ⟨c, l, rfl, ?_⟩
            simp only [he, List.cons_append, Bool.or_eq_true, Bool.and_eq_true, beq_iff_eq] at f1
            rcases f1 with f1 | ⟨f1, -⟩
            · exact (isspace_iff c).mp f1
            · exfalso; apply h0r
              rw [hrsplit, he, f1]; simp
  · intro _ hneg
    have : neg = true := by split at hneg <;> exact hneg
    rcases hsg with ⟨h1, h2⟩ | ⟨h1, h2⟩ | ⟨h1, h2, -⟩
    · simp [h1] at this
    · rw [ht, h2]; simp
    · simp [h1] at this

theorem strchrMinus_no (t rest : List Nat) (h : 45 ∉ t) (h0 : 0 ∉ t) :
    strchrMinus (t ++ 0 :: rest) = some false := by
  induction t with
  | nil => simp [strchrMinus]
  | cons a t ih =>
    simp only [List.mem_cons, not_or] at h h0
    have := ih h.2 h0.2
    simp only [List.cons_append, strchrMinus]
    rw [if_neg (by simpa using fun e => h.1 e.symm), if_neg (by simpa using fun e => h0.1 e.symm)]
    exact this

/-! decimal printing -/

theorem decVal_append (a b : List Nat) : decVal (a ++ b) = decVal a * 10 ^ b.length + decVal b := by
  induction a with
  | nil => simp [decVal]
  | cons d a ih => simp only [List.cons_append, decVal, ih, List.length_append]; grind

theorem showNat_spec (n : Nat) : decVal (showNat n) = n ∧ (∀ d ∈ showNat n, Digit d) ∧ showNat n ≠ [] := by
  fun_induction showNat n with
  | case1 n h => simp [decVal, Digit]; omega
  | case2 n h ih =>
    obtain ⟨h1, h2, h3⟩ := ih
    refine ⟨?_, ?_, by simp⟩
    · rw [decVal_append, h1]; simp [decVal]; omega
    · intro d hd
      rcases List.mem_append.mp hd with hd | hd
      · exact h2 d hd
      · simp at hd; subst hd; simp [Digit]; omega

/-! hexadecimal -/

theorem hexVal_iff (c v : Nat) : hexVal c = some v ↔ HexDigit c v := by
  unfold hexVal HexDigit
  split
  · simp; omega
  · split
    · simp; omega
    · split
      · simp; omega
      · simp; omega

theorem hexLoop_iff (s bs : List Nat) : hexLoop s = some bs ↔ HexString s bs := by
  fun_induction hexLoop s generalizing bs with
  | case1 => simp; constructor <;> (intro h; cases h); exact .nil; rfl
  | case2 a => constructor <;> (intro h; cases h)
  | case3 a b r x y bs' h3 h2 h1 ih =>
    rw [hexVal_iff] at h1 h2
    have h3' := (ih bs').mp h3
    constructor
    · intro h; simp at h; subst h
      have := HexString.cons h1 h2 h3'
      rw [Nat.mul_comm] at this; exact this
    · intro h
      cases h with
      | cons g1 g2 g3 =>
        rw [← hexVal_iff] at g1 g2 h1 h2
        rw [h1] at g1; rw [h2] at g2
        injection g1 with g1; injection g2 with g2
        have := (ih _).mpr g3; rw [h3] at this; injection this with this
        simp [g1, g2, this, Nat.mul_comm]
  | case4 a b r hn ih =>
    constructor
    · intro h; simp at h
    · intro h
      cases h with
      | cons g1 g2 g3 =>
        exact absurd ((ih _).mpr g3) (hn _ _ _ ((hexVal_iff _ _).mpr g1) ((hexVal_iff _ _).mpr g2))

theorem hexDigit_spec (n : Nat) (h : n < 16) : HexDigit (hexDigit n) n := by
  unfold hexDigit HexDigit; split <;> omega

theorem hexString_hexatostr (bs : List Nat) (h : ∀ b ∈ bs, b < 256) : HexString (safeHexatostr bs) bs := by
  induction bs with
  | nil => exact .nil
  | cons b bs ih =>
    have hb := h b List.mem_cons_self
    have := HexString.cons (hexDigit_spec (b / 16) (by omega)) (hexDigit_spec (b % 16) (by omega))
      (ih (fun x hx => h x (List.mem_cons_of_mem _ hx)))
    have e : 16 * (b / 16) + b % 16 = b := by omega
    rw [e] at this
    simpa [safeHexatostr] using this

end Verif.Util
