import Verif.Lemmas.Resp
/-!
# The client reads what was printed
-/
namespace Verif.Resp
open Verif.Util (showNat safeHexatostr showNat_spec hexDigit)
open Verif.BT (BKey)
open Verif.Resp.Spec

theorem line_app {w r : List Nat} (h : 10 ∉ w) : line (w ++ 13 :: 10 :: r) = some (w, r) := by
  induction w with
  | nil => simp [line]
  | cons b w ih =>
    simp only [List.mem_cons, not_or] at h
    have ih := ih h.2
    rw [List.cons_append]
    cases w with
    | nil => simp [line]
    | cons c w =>
      simp only [List.mem_cons, not_or] at h
      rw [List.cons_append] at ih ⊢
      rw [line, ih]
      · rfl
      · intro r' _ e; simp only [List.cons.injEq] at e; exact h.2.1 e.1.symm

theorem word_app {w r : List Nat} (h : 32 ∉ w) : word (w ++ 32 :: r) = some (w, r) := by
  induction w with
  | nil => simp [word]
  | cons b w ih =>
    simp only [List.mem_cons, not_or] at h
    simp only [List.cons_append, word, if_neg (Ne.symm h.1), ih h.2, Option.map_some]

theorem words_one {w : List Nat} (h : 32 ∉ w) : words w = [w] := by
  induction w with
  | nil => rfl
  | cons b w ih =>
    simp only [List.mem_cons, not_or] at h
    simp only [words, if_neg (Ne.symm h.1), ih h.2]

theorem words_app {w r : List Nat} (h : 32 ∉ w) : words (w ++ 32 :: r) = w :: words r := by
  induction w with
  | nil => simp [words]
  | cons b w ih =>
    simp only [List.mem_cons, not_or] at h
    simp only [List.cons_append, words, if_neg (Ne.symm h.1), ih h.2]

theorem showNat_digits (n : Nat) : ∀ d ∈ showNat n, 48 ≤ d ∧ d ≤ 57 := fun d h => (showNat_spec n).2.1 d h

theorem number_showNat (n : Nat) : number (showNat n) = some n := by
  obtain ⟨h1, h2, h3⟩ := showNat_spec n
  rw [number, if_pos, h1]
  refine ⟨h3, ?_⟩
  rw [List.all_eq_true]
  intro d hd
  have := h2 d hd
  simp only [Verif.Util.Spec.Digit] at this
  simp; omega

theorem showNat_not {n c : Nat} (h : c < 48 ∨ 57 < c) : c ∉ showNat n := fun hc => by
  have := showNat_digits n c hc; omega

theorem hexDigit_range {n : Nat} (h : n < 16) : 48 ≤ hexDigit n ∧ hexDigit n ≤ 70 := by
  unfold hexDigit; split <;> omega

theorem hex_cons (x : Nat) (b : List Nat) : safeHexatostr (x :: b) = hexDigit (x / 16) :: hexDigit (x % 16) :: safeHexatostr b := rfl

theorem hex_not {b : List Nat} (hb : ∀ x ∈ b, x < 256) {c : Nat} (h : c < 48 ∨ 70 < c) : c ∉ safeHexatostr b := by
  induction b with
  | nil => simp [safeHexatostr]
  | cons x b ih =>
    have hx := hb x List.mem_cons_self
    have h1 := hexDigit_range (n := x / 16) (by omega)
    have h2 := hexDigit_range (n := x % 16) (by omega)
    rw [hex_cons]
    simp only [List.mem_cons, not_or]
    exact ⟨by omega, by omega, ih fun y hy => hb y (List.mem_cons_of_mem _ hy)⟩

theorem digit_hexDigit {n : Nat} (h : n < 16) : digit (hexDigit n) = some n := by
  unfold hexDigit digit
  split
  · rw [if_pos (by omega)]; simp
  · rw [if_neg (by omega), if_pos (by omega)]; simp

theorem hex_read {b : List Nat} (hb : ∀ x ∈ b, x < 256) : hex (safeHexatostr b) = some b := by
  induction b with
  | nil => rfl
  | cons x b ih =>
    have hx := hb x List.mem_cons_self
    rw [hex_cons, hex, digit_hexDigit (by omega), digit_hexDigit (by omega), ih fun y hy => hb y (List.mem_cons_of_mem _ hy)]
    simp; omega

/-- The text of a number is not taken for `0x…`. -/
theorem showNat_ne_hex (n : Nat) (h : List Nat) : showNat n ≠ 48 :: 120 :: h := by
  intro e
  have := showNat_digits n 120 (by rw [e]; simp)
  omega

theorem bkey_read {k : BKey} (h : BkeyOk k) : bkey (bkeyText k) = some k := by
  cases k with
  | num v =>
    simp only [bkeyText]
    rw [bkey, number_showNat]
    · rfl
    · exact fun h' e => showNat_ne_hex v h' e
  | bin b => simp only [bkeyText, List.cons_append, List.nil_append, bkey, hex_read h.2.2, Option.map_some]

theorem bkeyText_not {k : BKey} (h : BkeyOk k) {c : Nat} (hc : c < 48 ∨ 120 < c) : c ∉ bkeyText k := by
  cases k with
  | num v => exact showNat_not (by omega)
  | bin b =>
    simp only [bkeyText, List.mem_append, List.mem_cons, List.not_mem_nil, or_false, not_or]
    exact ⟨by omega, hex_not h.2.2 (by omega)⟩

theorem bkeyText_len {k : BKey} (h : BkeyOk k) : (bkeyText k).length ≤ 64 := by
  cases k with
  | num v => have := showNat_len 19 v (Nat.lt_trans h (by decide)); simp only [bkeyText]; omega
  | bin b => simp only [bkeyText, List.length_append, hex_length, List.length_cons, List.length_nil]; have := h.2.1; omega

theorem eflagText_len {f : List Nat} (h : f.length ≤ 31) : (eflagText f).length ≤ 65 := by
  unfold eflagText
  split
  · simp only [List.length_append, hex_length, List.length_cons, List.length_nil]; omega
  · simp

theorem block_app {d r : List Nat} : block d.length (d ++ ([13, 10] ++ r)) = some (d, r) := by
  rw [block, if_pos (by simp)]
  rw [List.drop_append_of_le_length (Nat.le_refl _), List.drop_length, List.nil_append]
  simp

theorem vlen_eq {e : Elem} {d : List Nat} (h : DataOk e d) : vlen e = d.length := by
  rw [vlen, minus2, h.2.1, if_pos (by omega)]; omega

theorem lenText_len {e : Elem} {d : List Nat} (h : DataOk e d) : (showNat (vlen e)).length ≤ 5 := by
  rw [vlen_eq h]; exact showNat_len 4 _ (by have := h.2.2; omega)

theorem sized_read {e : Elem} {d r : List Nat} (h : DataOk e d) :
    sized (showNat (vlen e) ++ 32 :: (e.value ++ e.addnl.flatten ++ r)) = some (d, r) := by
  rw [sized, word_app (showNat_not (by omega))]
  simp only [Option.bind_eq_bind, Option.bind_some, number_showNat, h.1, vlen_eq h, List.append_assoc]
  exact block_app

theorem lelem_read {e : Elem} {d r : List Nat} (h : DataOk e d) : sized (lopAll e ++ r) = some (d, r) := by
  rw [← sized_read (r := r) h]
  simp [lopAll]

theorem melem_read {e : Elem} {x : MElem} {r : List Nat} (h : StoredM e x) : melem (mopAll e ++ r) = some (x, r) := by
  obtain ⟨h1, h2, h3, h4⟩ := h
  have e1 : mopAll e ++ r = x.1 ++ 32 :: (showNat (vlen e) ++ 32 :: (e.value ++ e.addnl.flatten ++ r)) := by
    simp [mopAll, lenText, h1]
  rw [melem, e1, word_app h3.2.1]
  simp only [Option.bind_eq_bind, Option.bind_some, sized_read h2]

theorem belem_read {e : Elem} {x : BElem} {r : List Nat} (h : Stored e x) : belem (bopAll e ++ r) = some (x, r) := by
  obtain ⟨h1, h2, h3, h4, h5, h6⟩ := h
  obtain ⟨k, f, d⟩ := x
  simp only at h1 h2 h3 h4 h5 h6
  by_cases hf : 0 < f.length
  · have e1 : bopAll e ++ r = bkeyText k ++ 32 :: ((48 :: 120 :: safeHexatostr f) ++ 32 :: (showNat (vlen e) ++ 32 :: (e.value ++ e.addnl.flatten ++ r))) := by
      simp [bopAll, bopText, lenText, eflagText, h1, h2, hf]
    rw [belem, e1, word_app (bkeyText_not h4 (by omega))]
    simp only [Option.bind_eq_bind, Option.bind_some, bkey_read h4]
    rw [word_app (by simp [hex_not h6])]
    simp only [Option.bind_some, hex_read h6, sized_read h3]
  · have hf' : f = [] := List.eq_nil_of_length_eq_zero (by omega)
    subst hf'
    have e1 : bopAll e ++ r = bkeyText k ++ 32 :: (showNat (vlen e) ++ 32 :: (e.value ++ e.addnl.flatten ++ r)) := by
      simp [bopAll, bopText, lenText, eflagText, h1, h2]
    rw [belem, e1, word_app (bkeyText_not h4 (by omega))]
    simp only [Option.bind_eq_bind, Option.bind_some, bkey_read h4]
    rw [word_app (showNat_not (by omega))]
    simp only [Option.bind_some]
    split
    · rename_i h' e'; exact absurd e' (showNat_ne_hex _ _)
    · simp only [Option.bind_some, number_showNat, h3.1, vlen_eq h3, List.append_assoc]
      rw [block_app]; rfl

theorem times_read {α β : Type} {R : α → β → Prop} {tx : α → List Nat} {p : List Nat → Option (β × List Nat)}
    (hp : ∀ a b r, R a b → p (tx a ++ r) = some (b, r)) {as : List α} {bs : List β} (h : Each R as bs) (r : List Nat) :
    times p as.length (as.flatMap tx ++ r) = some (bs, r) := by
  induction h with
  | nil => rfl
  | cons h1 _ ih =>
    rw [List.length_cons, List.flatMap_cons, List.append_assoc, times, hp _ _ _ h1]
    simp only [Option.bind_eq_bind, Option.bind_some, ih]

theorem each_forall {α β : Type} {R : α → β → Prop} {P : α → Prop} (hp : ∀ a b, R a b → P a) {as : List α} {bs : List β} (h : Each R as bs) :
    ∀ a ∈ as, P a := by
  induction h with
  | nil => intro a ha; cases ha
  | cons h1 _ ih =>
    intro a ha
    rcases List.mem_cons.mp ha with rfl | ha
    · exact hp _ _ h1
    · exact ih a ha

theorem each_length {α β : Type} {R : α → β → Prop} {as : List α} {bs : List β} (h : Each R as bs) : as.length = bs.length := by
  induction h with
  | nil => rfl
  | cons _ _ ih => simp [ih]

/-- The sizes of the printed texts. -/
theorem bopText_len {e : Elem} {x : BElem} (h : Stored e x) : (bopText e).length ≤ 136 := by
  obtain ⟨h1, h2, h3, h4, h5, h6⟩ := h
  have a := bkeyText_len h4
  have b := eflagText_len h5
  have c := lenText_len h3
  simp only [bopText, lenText, List.length_append, List.length_cons, List.length_nil, h1, h2]; omega

theorem mopText_len {e : Elem} {x : MElem} (h : StoredM e x) : (e.field ++ lenText e).length ≤ 257 := by
  obtain ⟨h1, h2, h3, h4⟩ := h
  have c := lenText_len h2
  simp only [lenText, List.length_append, List.length_cons, List.length_nil, h1]; omega

theorem lopText_len {e : Elem} {d : List Nat} (h : DataOk e d) : (showNat (vlen e) ++ [32]).length ≤ 6 := by
  have c := lenText_len h
  simp only [List.length_append, List.length_cons, List.length_nil]; omega

end Verif.Resp
