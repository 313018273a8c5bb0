import Verif.Spec.Checkpoint
import Verif.Lemmas.Parse
/-! # Lemmas on the files of checkpoints -/
namespace Verif.Checkpoint
open Verif.Util Verif.Util.Spec Spec

theorem showNat_inj {a b : Nat} (h : showNat a = showNat b) : a = b := by
  rw [← (showNat_spec a).1, ← (showNat_spec b).1, h]

theorem fileName_inj {p : Name} {a b : Nat} (h : fileName p a = fileName p b) : a = b :=
  showNat_inj (List.append_cancel_left h)

/-- Digits and the terminator. -/
theorem scan_show (n : Nat) : scanNum (showNat n ++ [0]) = some ⟨false, showNat n, [0]⟩ := by
  obtain ⟨_, hd, hn⟩ := showNat_spec n
  have hdig : ∀ d ∈ showNat n, isdigit d = true := fun d h => (isdigit_iff d).2 (hd d h)
  cases hs : showNat n with
  | nil => exact absurd hs hn
  | cons c r =>
    have hc : Digit c := hd c (by rw [hs]; simp)
    have hsp : isspace c = false := by
      unfold isspace; unfold Digit at hc
      simp only [Bool.or_eq_false_iff, beq_eq_false_iff_ne, Bool.and_eq_false_iff, decide_eq_false_iff_not]
      omega
    have hsign : signPart (c :: r ++ [0]) = some (false, c :: r ++ [0]) := by
      unfold signPart
      simp only [List.cons_append, List.dropWhile_cons, hsp, Bool.false_eq_true, if_false]
      unfold Digit at hc
      have h1 : (c == 45) = false := by simp; omega
      have h2 : (c == 43) = false := by simp; omega
      rw [h1, h2]; simp
    unfold scanNum
    rw [hsign]
    rw [hs] at hdig
    obtain ⟨ht, hdr⟩ : (c :: r ++ [0]).takeWhile isdigit = c :: r ∧
        (c :: r ++ [0]).dropWhile isdigit = [0] := by
      constructor
      · rw [List.takeWhile_append_of_pos hdig]; simp [isdigit]
      · rw [List.dropWhile_append_of_pos hdig]; simp [isdigit]
    simp only [ht, hdr]
    simp

theorem strtoll_show {n : Nat} (h : n < 9223372036854775808) :
    strtoll (showNat n ++ [0]) = some (n : Int) := by
  unfold strtoll
  rw [scan_show]
  simp only [Bool.false_eq_true, if_false, digitsVal_eq, (showNat_spec n).1]
  rw [if_neg (by omega), if_neg (by omega)]

theorem atoi_show {n : Nat} (h : n < 9223372036854775808) :
    atoi (showNat n ++ [0]) = some (Int.bmod n 4294967296) := by
  unfold atoi
  rw [strtoll_show h]; rfl

theorem spared_own {p : Name} {t n : Nat} (h : n < 9223372036854775808) :
    spared p t (fileName p n) = some (decide ((t : Int) = Int.bmod n 4294967296)) := by
  unfold spared fileName
  rw [if_pos (List.isPrefixOf_iff_prefix.2 (List.prefix_append _ _)), List.drop_left, atoi_show h]
  rfl

/-! ## Directories -/

theorem get_mem {d : Dir} {n : Name} {c : Option Nat} (h : d.get n = some c) : (n, c) ∈ d := by
  unfold Dir.get at h
  simp only [Option.map_eq_some_iff] at h
  obtain ⟨e, he, hc⟩ := h
  have h1 := List.find?_some he
  have h2 := List.mem_of_find?_eq_some he
  simp only [decide_eq_true_eq] at h1
  subst h1; subst hc
  exact h2

theorem get_none {d : Dir} {n : Name} (h : ∀ e ∈ d, e.1 ≠ n) : d.get n = none := by
  unfold Dir.get
  rw [Option.map_eq_none_iff, List.find?_eq_none]
  intro e he
  simpa using h e he

theorem get_append_new {d : Dir} {n : Name} {c : Option Nat} (h : d.get n = none) :
    Dir.get (d ++ [(n, c)]) n = some c := by
  unfold Dir.get at *
  rw [Option.map_eq_none_iff] at h
  rw [List.find?_append, h]
  simp

theorem get_append_old {d : Dir} {n n' : Name} {c x : Option Nat} (h : d.get n = some x) :
    Dir.get (d ++ [(n', c)]) n = some x := by
  unfold Dir.get at *
  simp only [Option.map_eq_some_iff] at h
  obtain ⟨e, he, hx⟩ := h
  rw [List.find?_append, he]
  simp [hx]

theorem get_create_old {d : Dir} {n n' : Name} {c x : Option Nat} (h : d.get n = some x) :
    (d.create n' c).get n = some x := by
  unfold Dir.create
  split
  · exact h
  · exact get_append_old h

theorem get_create_new {d : Dir} {n : Name} {c : Option Nat} (h : d.get n = none) :
    (d.create n c).get n = some c := by
  unfold Dir.create
  rw [if_neg (by rw [h]; simp)]
  exact get_append_new h

theorem create_present {d : Dir} {n : Name} {c x : Option Nat} (h : d.get n = some x) :
    d.create n c = d := by
  unfold Dir.create
  rw [if_pos (by rw [h]; rfl)]

theorem mem_create {d : Dir} {n : Name} {c : Option Nat} {e : Name × Option Nat}
    (h : e ∈ d.create n c) : e ∈ d ∨ e = (n, c) := by
  unfold Dir.create at h
  split at h
  · exact .inl h
  · rcases List.mem_append.1 h with h | h
    · exact .inl h
    · exact .inr (List.mem_singleton.1 h)

theorem get_write_other {d : Dir} {n n' : Name} {c : Option Nat} (hn : n ≠ n') :
    (d.write n' c).get n = d.get n := by
  unfold Dir.write Dir.get
  induction d with
  | nil => rfl
  | cons e d ih =>
    simp only [List.map_cons, List.find?_cons]
    by_cases h : e.1 = n'
    · rw [if_pos h]
      have h1 : decide (n' = n) = false := by simpa using fun x => hn x.symm
      have h2 : decide (e.1 = n) = false := by rw [h]; exact h1
      simp only [h1, h2]
      exact ih
    · rw [if_neg h]
      cases hd : decide (e.1 = n) with
      | true => rfl
      | false => exact ih

theorem get_write_self {d : Dir} {n : Name} {c x : Option Nat} (h : d.get n = some x) :
    (d.write n c).get n = some c := by
  unfold Dir.write Dir.get at *
  induction d with
  | nil => simp at h
  | cons e d ih =>
    simp only [List.map_cons, List.find?_cons] at h ⊢
    by_cases he : e.1 = n
    · rw [if_pos he]; simp
    · rw [if_neg he]
      have h1 : decide (e.1 = n) = false := by simpa using he
      simp only [h1] at h ⊢
      exact ih h

theorem mem_write {d : Dir} {n : Name} {c : Option Nat} {e : Name × Option Nat}
    (h : e ∈ d.write n c) : (e ∈ d ∧ e.1 ≠ n) ∨ (e = (n, c) ∧ ∃ x, (n, x) ∈ d) := by
  unfold Dir.write at h
  obtain ⟨a, ha, he⟩ := List.mem_map.1 h
  by_cases hn : a.1 = n
  · rw [if_pos hn] at he
    exact .inr ⟨he.symm, a.2, by rw [← hn]; exact ha⟩
  · rw [if_neg hn] at he
    subst he
    exact .inl ⟨ha, hn⟩

theorem get_remove_other {d : Dir} {n n' : Name} (hn : n ≠ n') : (d.remove n').get n = d.get n := by
  unfold Dir.remove Dir.get
  congr 1
  rw [List.find?_filter]
  congr 1
  funext e
  by_cases h : e.1 = n
  · subst h; simp [hn]
  · simp [h]

theorem mem_remove {d : Dir} {n : Name} {e : Name × Option Nat} (h : e ∈ d.remove n) : e ∈ d :=
  (List.mem_filter.1 h).1

/-! ## Names in alphabetical order -/

theorem nameLe_refl (a : Name) : nameLe a a = true := by
  induction a with
  | nil => rfl
  | cons x a ih => simp [nameLe, ih]

theorem nameLe_trans : ∀ {a b c : Name}, nameLe a b = true → nameLe b c = true → nameLe a c = true := by
  intro a
  induction a with
  | nil => intro b c _ _; rfl
  | cons x a ih =>
    intro b c h1 h2
    cases b with
    | nil => simp [nameLe] at h1
    | cons y b =>
      cases c with
      | nil => simp [nameLe] at h2
      | cons z c =>
        simp only [nameLe] at h1 h2 ⊢
        by_cases hxy : x < y
        · by_cases hyz : y < z
          · rw [if_pos (by omega)]
          · rw [if_neg hyz] at h2
            by_cases hyz' : y = z
            · rw [if_pos (by omega)]
            · rw [if_neg hyz'] at h2; simp at h2
        · rw [if_neg hxy] at h1
          by_cases hxy' : x = y
          · rw [if_pos hxy'] at h1
            subst hxy'
            by_cases hyz : x < z
            · rw [if_pos hyz]
            · rw [if_neg hyz] at h2 ⊢
              by_cases hyz' : x = z
              · rw [if_pos hyz'] at h2 ⊢
                exact ih h1 h2
              · rw [if_neg hyz'] at h2; simp at h2
          · rw [if_neg hxy'] at h1; simp at h1

theorem nameLe_total : ∀ (a b : Name), nameLe a b = true ∨ nameLe b a = true := by
  intro a
  induction a with
  | nil => intro b; exact .inl rfl
  | cons x a ih =>
    intro b
    cases b with
    | nil => exact .inr rfl
    | cons y b =>
      simp only [nameLe]
      by_cases h1 : x < y
      · left; rw [if_pos h1]
      · by_cases h2 : y < x
        · right; rw [if_pos h2]
        · have : x = y := by omega
          subst this
          simp only [Nat.lt_irrefl, if_false, if_true]
          exact ih b

theorem nameLe_append (p a b : Name) : nameLe (p ++ a) (p ++ b) = nameLe a b := by
  induction p with
  | nil => rfl
  | cons x p ih => simp [nameLe, ih]

/-- Strings of digits of the same length are in the order of the numbers. -/
theorem nameLe_digits : ∀ {a b : Name}, a.length = b.length → (∀ d ∈ a, Digit d) → (∀ d ∈ b, Digit d) →
    (nameLe a b = true ↔ decVal a ≤ decVal b) := by
  intro a
  induction a with
  | nil =>
    intro b hl _ _
    cases b with
    | nil => simp [nameLe, decVal]
    | cons y b => simp at hl
  | cons x a ih =>
    intro b hl ha hb
    cases b with
    | nil => simp at hl
    | cons y b =>
      simp only [List.length_cons, Nat.add_right_cancel_iff] at hl
      have hx := ha x (by simp)
      have hy := hb y (by simp)
      have ih := ih hl (fun d h => ha d (by simp [h])) (fun d h => hb d (by simp [h]))
      have bound : ∀ l : Name, (∀ d ∈ l, Digit d) → decVal l < 10 ^ l.length := by
        intro l
        induction l with
        | nil => intro _; simp [decVal]
        | cons z l ih =>
          intro h
          have hz := h z (by simp)
          have := ih (fun d hd => h d (by simp [hd]))
          simp only [decVal, List.length_cons, Nat.pow_succ]
          unfold Digit at hz
          have : (z - 48) * 10 ^ l.length ≤ 9 * 10 ^ l.length := Nat.mul_le_mul_right _ (by omega)
          omega
      have ba := bound a (fun d h => ha d (by simp [h]))
      have bb := bound b (fun d h => hb d (by simp [h]))
      simp only [nameLe, decVal]
      rw [← hl] at bb ⊢
      unfold Digit at hx hy
      by_cases h1 : x < y
      · rw [if_pos h1]
        have : (x - 48 + 1) * 10 ^ a.length ≤ (y - 48) * 10 ^ a.length :=
          Nat.mul_le_mul_right _ (by omega)
        rw [Nat.add_mul, Nat.one_mul] at this
        constructor
        · intro _; omega
        · intro _; rfl
      · rw [if_neg h1]
        by_cases h2 : x = y
        · subst h2
          rw [if_pos rfl, ih]
          omega
        · rw [if_neg h2]
          have : (y - 48 + 1) * 10 ^ a.length ≤ (x - 48) * 10 ^ a.length :=
            Nat.mul_le_mul_right _ (by omega)
          rw [Nat.add_mul, Nat.one_mul] at this
          constructor
          · intro h; simp at h
          · intro h; omega

theorem showNat_length : ∀ (d n : Nat), 10 ^ d ≤ n → n < 10 ^ (d + 1) → (showNat n).length = d + 1 := by
  intro d
  induction d with
  | zero =>
    intro n h1 h2
    rw [showNat, if_pos (by omega)]; rfl
  | succ d ih =>
    intro n h1 h2
    rw [Nat.pow_succ] at h1 h2
    have h0 : 1 ≤ 10 ^ d := Nat.pow_pos (by decide)
    rw [showNat, if_neg (by omega), List.length_append, ih (n / 10) (by omega) (by omega)]
    rfl

theorem dated_length {t : Nat} (h : Dated t) : (showNat t).length = 14 :=
  showNat_length 13 t h.1 h.2

theorem dated_le {a b : Nat} (ha : Dated a) (hb : Dated b) :
    nameLe (fileName snapPrefix a) (fileName snapPrefix b) = true ↔ a ≤ b := by
  unfold fileName
  rw [nameLe_append, nameLe_digits ((dated_length ha).trans (dated_length hb).symm)
    (showNat_spec a).2.1 (showNat_spec b).2.1, (showNat_spec a).1, (showNat_spec b).1]

/-! ## The choice of recovery -/

theorem newest_none {d : Dir} (h : ∀ e ∈ d, e.2 = none) : newest d = none := by
  induction d with
  | nil => rfl
  | cons e d ih =>
    have ih := ih (fun x hx => h x (by simp [hx]))
    simp only [newest, h e (by simp), ih]
    split <;> rfl

theorem newest_some {d : Dir} {n : Name} {i : Nat} (h : newest d = some (n, i)) :
    (n, some i) ∈ d ∧ ∀ e ∈ d, snapPrefix.isPrefixOf e.1 = true → e.2 ≠ none → nameLe e.1 n = true := by
  induction d generalizing n i with
  | nil => simp [newest] at h
  | cons e d ih =>
    simp only [newest] at h
    by_cases hp : snapPrefix.isPrefixOf e.1 = true
    · rw [if_pos hp] at h
      cases he : e.2 with
      | none =>
        rw [he] at h
        obtain ⟨h1, h2⟩ := ih h
        refine ⟨by simp [h1], ?_⟩
        intro x hx hxp hxn
        rcases List.mem_cons.1 hx with rfl | hx
        · exact absurd he hxn
        · exact h2 x hx hxp hxn
      | some j =>
        rw [he] at h
        cases hn : newest d with
        | none =>
          rw [hn] at h
          simp only [Option.some.injEq, Prod.mk.injEq] at h
          obtain ⟨rfl, rfl⟩ := h
          refine ⟨by rw [← he]; simp, ?_⟩
          intro x hx hxp hxn
          rcases List.mem_cons.1 hx with rfl | hx
          · exact nameLe_refl _
          · exfalso
            exact newest_complete hn x hx hxp hxn
        | some m =>
          obtain ⟨m, k⟩ := m
          rw [hn] at h
          simp only at h
          obtain ⟨h1, h2⟩ := ih hn
          by_cases hle : nameLe e.1 m = true
          · rw [if_pos hle] at h
            simp only [Option.some.injEq, Prod.mk.injEq] at h
            obtain ⟨rfl, rfl⟩ := h
            refine ⟨by simp [h1], ?_⟩
            intro x hx hxp hxn
            rcases List.mem_cons.1 hx with rfl | hx
            · exact hle
            · exact h2 x hx hxp hxn
          · rw [if_neg hle] at h
            simp only [Option.some.injEq, Prod.mk.injEq] at h
            obtain ⟨rfl, rfl⟩ := h
            refine ⟨by rw [← he]; simp, ?_⟩
            intro x hx hxp hxn
            rcases List.mem_cons.1 hx with rfl | hx
            · exact nameLe_refl _
            · have := h2 x hx hxp hxn
              rcases nameLe_total e.1 m with h | h
              · exact absurd h hle
              · exact nameLe_trans this h
    · rw [if_neg hp] at h
      obtain ⟨h1, h2⟩ := ih h
      refine ⟨by simp [h1], ?_⟩
      intro x hx hxp hxn
      rcases List.mem_cons.1 hx with rfl | hx
      · exact absurd hxp hp
      · exact h2 x hx hxp hxn
where
  newest_complete {d : Dir} (h : newest d = none) : ∀ e ∈ d, snapPrefix.isPrefixOf e.1 = true →
      e.2 ≠ none → False := by
    induction d with
    | nil => intro e he; simp at he
    | cons x d ih =>
      simp only [newest] at h
      intro e he hp hn
      rcases List.mem_cons.1 he with rfl | he
      · rw [if_pos hp] at h
        cases hc : e.2 with
        | none => exact hn hc
        | some i =>
          rw [hc] at h
          cases hd : newest d with
          | none => rw [hd] at h; simp at h
          | some m =>
            rw [hd] at h
            simp only at h
            split at h <;> simp at h
      · by_cases hx : snapPrefix.isPrefixOf x.1 = true
        · rw [if_pos hx] at h
          cases hc : x.2 with
          | none => rw [hc] at h; exact ih h e he hp hn
          | some i =>
            rw [hc] at h
            cases hd : newest d with
            | none => rw [hd] at h; simp at h
            | some m =>
              rw [hd] at h
              simp only at h
              split at h <;> simp at h
        · rw [if_neg hx] at h; exact ih h e he hp hn

theorem newest_ne {d : Dir} {e : Name × Option Nat} (he : e ∈ d)
    (hp : snapPrefix.isPrefixOf e.1 = true) (hn : e.2 ≠ none) : newest d ≠ none :=
  fun h => newest_some.newest_complete h e he hp hn

theorem snap_prefix (t : Nat) : snapPrefix.isPrefixOf (fileName snapPrefix t) = true :=
  List.isPrefixOf_iff_prefix.2 (List.prefix_append _ _)

theorem behindBar_snap (t : Nat) : behindBar (fileName snapPrefix t) = some (showNat t) := rfl

end Verif.Checkpoint
