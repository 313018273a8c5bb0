import Verif.Spec.BKey
import Verif.Lemmas.Parse
/-!
# Lemmas on bkey comparisons, differences and filters
-/
namespace Verif.BT
open Verif.BT.Spec

/-! ## Order -/

theorem firstDiff_some {v1 v2 : List Nat} {a b : Nat} (h : firstDiff v1 v2 = some (a, b)) :
    a ≠ b ∧ v1 ≠ v2 ∧ (a < b → List.Lex (· < ·) v1 v2) ∧ (b < a → List.Lex (· < ·) v2 v1) := by
  induction v1 generalizing v2 with
  | nil => simp [firstDiff] at h
  | cons x xs ih =>
    cases v2 with
    | nil => simp [firstDiff] at h
    | cons y ys =>
      simp only [firstDiff] at h
      split at h
      · rename_i e
        subst e
        obtain ⟨h1, h2, h3, h4⟩ := ih h
        exact ⟨h1, fun e => h2 (by injection e), fun hl => .cons (h3 hl), fun hl => .cons (h4 hl)⟩
      · rename_i e
        injection h with h
        injection h with ha hb
        subst ha; subst hb
        exact ⟨e, fun e' => e (by injection e'), fun hl => .rel hl, fun hl => .rel hl⟩

theorem firstDiff_none {v1 v2 : List Nat} (h : firstDiff v1 v2 = none) :
    (v1.length = v2.length → v1 = v2) ∧ (v1.length < v2.length → List.Lex (· < ·) v1 v2) ∧
    (v2.length < v1.length → List.Lex (· < ·) v2 v1) := by
  induction v1 generalizing v2 with
  | nil =>
    cases v2 with
    | nil => simp
    | cons y ys => simp [List.Lex.nil]
  | cons x xs ih =>
    cases v2 with
    | nil => simp [List.Lex.nil]
    | cons y ys =>
      simp only [firstDiff] at h
      split at h
      · rename_i e
        subst e
        obtain ⟨h1, h2, h3⟩ := ih h
        refine ⟨fun hl => by rw [h1 (by simpa using hl)], fun hl => .cons (h2 (by simpa using hl)),
          fun hl => .cons (h3 (by simpa using hl))⟩
      · cases h

theorem lex_irrefl (v : List Nat) : ¬ List.Lex (· < ·) v v := by
  induction v with
  | nil => intro h; cases h
  | cons x xs ih =>
    intro h
    cases h with
    | rel h => omega
    | cons h => exact ih h

theorem lex_trans {a b c : List Nat} (h1 : List.Lex (· < ·) a b) (h2 : List.Lex (· < ·) b c) : List.Lex (· < ·) a c := by
  induction h1 generalizing c with
  | nil => cases h2 <;> exact .nil
  | rel h =>
    cases h2 with
    | rel h' => exact .rel (Nat.lt_trans h h')
    | cons _ => exact .rel h
  | cons _ ih =>
    cases h2 with
    | rel h' => exact .rel h'
    | cons h' => exact .cons (ih h')

theorem lex_asymm {a b : List Nat} (h1 : List.Lex (· < ·) a b) (h2 : List.Lex (· < ·) b a) : False :=
  lex_irrefl a (lex_trans h1 h2)

/-- The three outcomes of a byte string comparison. -/
theorem binComp_spec {v1 v2 : List Nat} (h1 : v1 ≠ []) (h2 : v2 ≠ []) :
    (binComp v1 v2 = some .lt ∧ List.Lex (· < ·) v1 v2) ∨ (binComp v1 v2 = some .eq ∧ v1 = v2) ∨
    (binComp v1 v2 = some .gt ∧ List.Lex (· < ·) v2 v1) := by
  have l1 := List.length_pos_iff.mpr h1
  have l2 := List.length_pos_iff.mpr h2
  unfold binComp
  rw [if_neg (by omega)]
  cases hf : firstDiff v1 v2 with
  | none =>
    obtain ⟨k1, k2, k3⟩ := firstDiff_none hf
    simp only []
    by_cases e : v1.length = v2.length
    · rw [if_pos e]; exact Or.inr (Or.inl ⟨rfl, k1 e⟩)
    · rw [if_neg e]
      by_cases e2 : v1.length < v2.length
      · rw [if_pos e2]; exact Or.inl ⟨rfl, k2 e2⟩
      · rw [if_neg e2]; exact Or.inr (Or.inr ⟨rfl, k3 (by omega)⟩)
  | some p =>
    obtain ⟨a, b⟩ := p
    obtain ⟨k1, k2, k3, k4⟩ := firstDiff_some hf
    simp only []
    by_cases e : a < b
    · rw [if_pos e]; exact Or.inl ⟨rfl, k3 e⟩
    · rw [if_neg e]; exact Or.inr (Or.inr ⟨rfl, k4 (by omega)⟩)

/-- Key usable in a comparison: a byte string has at least one byte. -/
def NonEmpty : BKey → Prop
  | .num _ => True
  | .bin b => b ≠ []

theorem ValidKey.nonEmpty {k : BKey} (h : ValidKey k) : NonEmpty k := by
  cases k with
  | num v => trivial
  | bin b => intro e; simp [e, ValidKey] at h

theorem klt_irrefl (a : BKey) : ¬ KLt a a := by
  cases a with
  | num v => simp [KLt]
  | bin b => exact lex_irrefl b

theorem klt_trans {a b c : BKey} (h1 : KLt a b) (h2 : KLt b c) : KLt a c := by
  cases a <;> cases b <;> cases c <;> simp only [KLt] at * <;> first | omega | exact lex_trans h1 h2 | contradiction

theorem klt_asymm {a b : BKey} (h1 : KLt a b) (h2 : KLt b a) : False := klt_irrefl a (klt_trans h1 h2)

theorem klt_same {a b : BKey} (h : KLt a b) : SameKind a b := by
  cases a <;> cases b <;> simp_all [KLt, SameKind]

theorem _root_.Verif.BT.Spec.SameKind.symm {a b : BKey} (h : SameKind a b) : SameKind b a := by
  cases a <;> cases b <;> simp_all [SameKind]

theorem _root_.Verif.BT.Spec.SameKind.trans {a b c : BKey} (h : SameKind a b) (h2 : SameKind b c) : SameKind a c := by
  cases a <;> cases b <;> cases c <;> simp_all [SameKind]

theorem _root_.Verif.BT.Spec.SameKind.refl (a : BKey) : SameKind a a := by cases a <;> simp [SameKind]

/-- The three outcomes of a bkey comparison. -/
theorem bkeyComp_spec {a b : BKey} (hs : SameKind a b) (h1 : NonEmpty a) (h2 : NonEmpty b) :
    (bkeyComp a b = some .lt ∧ KLt a b) ∨ (bkeyComp a b = some .eq ∧ a = b) ∨ (bkeyComp a b = some .gt ∧ KLt b a) := by
  cases a with
  | num x =>
    cases b with
    | num y =>
      simp only [bkeyComp, u64Comp, KLt]
      by_cases e : x = y
      · simp [e]
      · by_cases e2 : x < y
        · simp [e, e2]
        · simp [e, e2]; omega
    | bin y => cases hs
  | bin x =>
    cases b with
    | num y => cases hs
    | bin y =>
      rcases binComp_spec h1 h2 with h | ⟨h, e⟩ | h
      · exact Or.inl h
      · exact Or.inr (Or.inl ⟨h, by rw [e]⟩)
      · exact Or.inr (Or.inr h)

theorem bkeyComp_lt {a b : BKey} (h1 : NonEmpty a) (h2 : NonEmpty b) (h : KLt a b) : bkeyComp a b = some .lt := by
  rcases bkeyComp_spec (klt_same h) h1 h2 with ⟨k, -⟩ | ⟨-, k⟩ | ⟨-, k⟩
  · exact k
  · subst k; exact absurd h (klt_irrefl _)
  · exact (klt_asymm h k).elim

theorem bkeyComp_gt {a b : BKey} (h1 : NonEmpty a) (h2 : NonEmpty b) (h : KLt b a) : bkeyComp a b = some .gt := by
  rcases bkeyComp_spec (klt_same h).symm h1 h2 with ⟨-, k⟩ | ⟨-, k⟩ | ⟨k, -⟩
  · exact (klt_asymm h k).elim
  · subst k; exact absurd h (klt_irrefl _)
  · exact k

theorem bkeyComp_refl {a : BKey} (h1 : NonEmpty a) : bkeyComp a a = some .eq := by
  rcases bkeyComp_spec (SameKind.refl a) h1 h1 with ⟨-, k⟩ | ⟨k, -⟩ | ⟨-, k⟩
  · exact absurd k (klt_irrefl _)
  · exact k
  · exact absurd k (klt_irrefl _)

/-! ## The six operators -/

theorem allEq_iff (v1 v2 : List Nat) (h : v1.length = v2.length) : allEq v1 v2 = true ↔ v1 = v2 := by
  induction v1 generalizing v2 with
  | nil =>
    cases v2 with
    | nil => simp [allEq]
    | cons _ _ => simp at h
  | cons x xs ih =>
    cases v2 with
    | nil => simp at h
    | cons y ys =>
      simp only [allEq]
      by_cases e : x = y
      · subst e; simp; exact ih ys (by simpa using h)
      · simp [e]

/-- Byte string operators agree with the order. -/
theorem binIs_spec (op : CmpOp) {v1 v2 : List Nat} (h1 : v1 ≠ []) (h2 : v2 ≠ []) :
    ∃ b, binIs op v1 v2 = some b ∧ (b = true ↔ CmpOp.Holds (List.Lex (· < ·)) op v1 v2) := by
  have l1 := List.length_pos_iff.mpr h1
  have l2 := List.length_pos_iff.mpr h2
  have hirr := lex_irrefl
  unfold binIs
  rw [if_neg (by omega)]
  have hd : ∀ (c1 c2 : Nat → Nat → Prop) [∀ a b, Decidable (c1 a b)] [∀ a b, Decidable (c2 a b)] (P : Prop),
      (∀ a b, firstDiff v1 v2 = some (a, b) → (c1 a b ↔ P)) → (firstDiff v1 v2 = none → (c2 v1.length v2.length ↔ P)) →
      ∃ b, (match firstDiff v1 v2 with
        | some (a, b) => some (decide (c1 a b))
        | none => some (decide (c2 v1.length v2.length))) = some b ∧ (b = true ↔ P) := by
    intro c1 c2 _ _ P k1 k2
    cases hf : firstDiff v1 v2 with
    | none => exact ⟨_, rfl, by simpa using k2 hf⟩
    | some p => exact ⟨_, rfl, by simpa using k1 _ _ hf⟩
  cases op with
  | eq =>
    refine ⟨_, rfl, ?_⟩
    simp only [CmpOp.Holds]
    by_cases e : v1.length = v2.length
    · simp [e, allEq_iff v1 v2 e]
    · simp [e]; intro h; exact e (by rw [h])
  | ne =>
    refine ⟨_, rfl, ?_⟩
    simp only [CmpOp.Holds]
    by_cases e : v1.length = v2.length
    · have := allEq_iff v1 v2 e
      simp [e]
      cases hq : allEq v1 v2 <;> simp_all
    · simp [e]; intro h; exact e (by rw [h])
  | lt =>
    simp only [CmpOp.Holds]
    refine hd (fun a b => a < b) (fun a b => a < b) _ (fun a b hf => ?_) fun hf => ?_
    · obtain ⟨k1, k2, k3, k4⟩ := firstDiff_some hf
      refine ⟨k3, fun hl => ?_⟩
      by_cases e : a < b
      · exact e
      · exact (lex_asymm hl (k4 (by omega))).elim
    · obtain ⟨k1, k2, k3⟩ := firstDiff_none hf
      refine ⟨k2, fun hl => ?_⟩
      by_cases e : v1.length < v2.length
      · exact e
      · by_cases e2 : v1.length = v2.length
        · rw [k1 e2] at hl; exact absurd hl (hirr _)
        · exact (lex_asymm hl (k3 (by omega))).elim
  | le =>
    simp only [CmpOp.Holds]
    refine hd (fun a b => a < b) (fun a b => a ≤ b) _ (fun a b hf => ?_) fun hf => ?_
    · obtain ⟨k1, k2, k3, k4⟩ := firstDiff_some hf
      refine ⟨fun h => Or.inl (k3 h), fun hl => ?_⟩
      by_cases e : a < b
      · exact e
      · rcases hl with hl | hl
        · exact (lex_asymm hl (k4 (by omega))).elim
        · exact absurd hl k2
    · obtain ⟨k1, k2, k3⟩ := firstDiff_none hf
      refine ⟨fun h => ?_, fun hl => ?_⟩
      · by_cases e2 : v1.length = v2.length
        · exact Or.inr (k1 e2)
        · exact Or.inl (k2 (by omega))
      · by_cases e : v1.length ≤ v2.length
        · exact e
        · rcases hl with hl | hl
          · exact (lex_asymm hl (k3 (by omega))).elim
          · rw [hl] at e; omega
  | gt =>
    simp only [CmpOp.Holds]
    refine hd (fun a b => a > b) (fun a b => a > b) _ (fun a b hf => ?_) fun hf => ?_
    · obtain ⟨k1, k2, k3, k4⟩ := firstDiff_some hf
      refine ⟨k4, fun hl => ?_⟩
      by_cases e : a > b
      · exact e
      · exact (lex_asymm hl (k3 (by omega))).elim
    · obtain ⟨k1, k2, k3⟩ := firstDiff_none hf
      refine ⟨k3, fun hl => ?_⟩
      by_cases e : v1.length > v2.length
      · exact e
      · by_cases e2 : v1.length = v2.length
        · rw [k1 e2] at hl; exact absurd hl (hirr _)
        · exact (lex_asymm hl (k2 (by omega))).elim
  | ge =>
    simp only [CmpOp.Holds]
    refine hd (fun a b => a > b) (fun a b => a ≥ b) _ (fun a b hf => ?_) fun hf => ?_
    · obtain ⟨k1, k2, k3, k4⟩ := firstDiff_some hf
      refine ⟨fun h => Or.inl (k4 h), fun hl => ?_⟩
      by_cases e : a > b
      · exact e
      · rcases hl with hl | hl
        · exact (lex_asymm hl (k3 (by omega))).elim
        · exact absurd hl k2
    · obtain ⟨k1, k2, k3⟩ := firstDiff_none hf
      refine ⟨fun h => ?_, fun hl => ?_⟩
      · by_cases e2 : v1.length = v2.length
        · exact Or.inr (k1 e2)
        · exact Or.inl (k3 (by omega))
      · by_cases e : v1.length ≥ v2.length
        · exact e
        · rcases hl with hl | hl
          · exact (lex_asymm hl (k2 (by omega))).elim
          · rw [hl] at e; omega

/-- Bkey operators agree with the order. -/
theorem bkeyIs_spec (op : CmpOp) {a b : BKey} (hs : SameKind a b) (h1 : NonEmpty a) (h2 : NonEmpty b) :
    ∃ r, bkeyIs op a b = some r ∧ (r = true ↔ CmpOp.Holds KLt op a b) := by
  cases a with
  | num x =>
    cases b with
    | num y =>
      refine ⟨_, rfl, ?_⟩
      cases op <;> simp [u64Is, CmpOp.Holds, KLt] <;> omega
    | bin y => cases hs
  | bin x =>
    cases b with
    | num y => cases hs
    | bin y =>
      obtain ⟨r, k1, k2⟩ := binIs_spec op h1 h2
      refine ⟨r, k1, k2.trans ?_⟩
      cases op <;> simp [CmpOp.Holds, KLt]

/-! ## Filters -/

theorem readN_some {m : List Nat} {n : Nat} (h : n ≤ m.length) : readN m n = some (m.take n) := by
  simp [readN]; omega

theorem anyEq_spec {f : EFilter} {s : Filter} (hh : Holds f s) (hv : s.Valid) {o : List Nat} (ho : s.len ≤ o.length) :
    ∀ fuel i, i + fuel = s.values.length →
      ∃ b, anyEq f o fuel i = some b ∧ (b = true ↔ o.take s.len ∈ s.values.drop i) := by
  intro fuel
  induction fuel with
  | zero =>
    intro i hi
    exact ⟨false, rfl, by rw [List.drop_eq_nil_of_le (by omega)]; simp⟩
  | succ n ih =>
    intro i hi
    have hlt : i < s.values.length := by omega
    obtain ⟨k1, k2⟩ := hh.vals i hlt
    have hpos := hv.2.2.2.1
    simp only [anyEq]
    rw [readN_some (m := o) (by rw [hh.ncomp]; exact ho)]
    have hr : readAt f.compval (i * f.ncompval) f.ncompval = some s.values[i] := by
      unfold readAt
      rw [readN_some (by simp; omega), k1]
    rw [hr]
    simp only []
    have hne : s.values[i] ≠ [] := by
      intro e
      have := hv.2.2.1 _ (List.getElem_mem hlt)
      rw [e] at this; simp at this; omega
    obtain ⟨b, h1, h2⟩ := binIs_spec .eq (v1 := o.take f.ncompval) (v2 := s.values[i])
      (by intro e; have := congrArg List.length e; rw [hh.ncomp, List.length_take] at this; simp only [List.length_nil] at this; omega) hne
    rw [h1]
    cases b with
    | true =>
      simp only []
      refine ⟨true, rfl, ?_⟩
      have := h2.mp rfl
      simp only [CmpOp.Holds] at this
      rw [hh.ncomp] at this
      rw [List.drop_eq_getElem_cons hlt]
      exact ⟨fun _ => by rw [this]; exact List.mem_cons_self, fun _ => rfl⟩
    | false =>
      simp only []
      obtain ⟨b, h3, h4⟩ := ih (i + 1) (by omega)
      refine ⟨b, h3, h4.trans ?_⟩
      have : ¬ (o.take f.ncompval = s.values[i]) := fun e => by simpa using h2.mpr e
      rw [hh.ncomp] at this
      rw [List.drop_eq_getElem_cons hlt, List.mem_cons]
      exact ⟨Or.inr, fun h => h.resolve_left this⟩

/-- The bitwise operators work bit by bit. -/
theorem app_bits (op : BitOp) : op.app = Nat.bitwise (onBits op) := by
  cases op <;> rfl

/-- The filter code decides what the filter means, on any memory. -/
theorem elemFilter_spec {f : EFilter} {s : Filter} (hh : Holds f s) (hv : s.Valid) (eflag rest : List Nat) :
    ∃ b, elemFilter f eflag rest = some b ∧ (b = true ↔ s.Keeps eflag) := by
  obtain ⟨v1, v2, v3, v4, v5, v6, v7⟩ := hv
  unfold elemFilter Filter.Keeps
  rw [hh.offset, hh.ncomp, hh.op]
  by_cases hc : s.offset + s.len ≤ eflag.length
  · rw [if_neg (by omega), if_pos hc]
    have hop : ∃ o, filterOperand f ((eflag ++ rest).drop s.offset) = some o ∧ s.len ≤ o.length ∧
        o.take s.len = s.operand eflag := by
      unfold filterOperand
      have htake : ((eflag ++ rest).drop s.offset).take s.len = (eflag.drop s.offset).take s.len := by
        rw [List.drop_append_of_le_length (by omega), List.take_append_of_le_length (by simp; omega)]
      cases hb : s.bitw with
      | none =>
        rw [hh.nobit hb]
        refine ⟨_, rfl, by simp; omega, ?_⟩
        simp only [Filter.operand, hb]
        exact htake
      | some p =>
        obtain ⟨op, b⟩ := p
        obtain ⟨q1, q2, q3, q4⟩ := hh.bit op b hb
        rw [q1, if_pos v4, if_neg (by simp [maxEflag]; omega), readN_some (by simp; omega), readN_some q4]
        refine ⟨_, rfl, by simp; omega, ?_⟩
        rw [htake, q3, q2]
        simp only [Filter.operand, hb]
        rw [app_bits op]
        apply List.take_of_length_le
        simp
        omega
    obtain ⟨o, ho1, ho2, ho3⟩ := hop
    rw [ho1]
    simp only []
    have hone : o.take s.len ≠ [] := by
      intro e; have := congrArg List.length e; rw [List.length_take] at this; simp only [List.length_nil] at this; omega
    rw [hh.cnt]
    by_cases hmany : s.values.length > 1
    · rw [if_pos hmany]
      have hen : s.op = .eq ∨ s.op = .ne := by
        cases hq : s.op <;> first | exact Or.inl rfl | exact Or.inr rfl | exact absurd (v7 (by simp [hq]) (by simp [hq])) (by omega)
      rw [if_neg (by rcases hen with h | h <;> simp [h])]
      obtain ⟨b, h1, h2⟩ := anyEq_spec hh ⟨v1, v2, v3, v4, v5, v6, v7⟩ ho2 s.values.length 0 (by omega)
      rw [h1]
      simp only [List.drop_zero] at h2
      rw [ho3] at h2
      refine ⟨_, rfl, ?_⟩
      rcases hen with h | h
      · rw [h]
        cases b <;> simp_all
      · rw [h]
        cases b <;> simp_all
    · rw [if_neg hmany]
      obtain ⟨v, hval⟩ : ∃ v, s.values = [v] := by
        match hq : s.values, v1 with
        | [v], _ => exact ⟨v, rfl⟩
        | a :: b :: l, _ => rw [hq] at hmany; simp at hmany
      have h0 : (0 : Nat) < s.values.length := by rw [hval]; simp
      obtain ⟨k1, k2⟩ := hh.vals 0 h0
      simp only [Nat.zero_mul, List.drop_zero, Nat.zero_add] at k1 k2
      rw [readN_some ho2, readN_some (by rw [← hh.ncomp]; exact k2), ← hh.ncomp, k1, hh.ncomp, ho3]
      simp only []
      have hvv : s.values[0] = v := by simp [hval]
      rw [hvv]
      have hvne : v ≠ [] := by
        intro e
        have := v3 v (by rw [hval]; simp)
        rw [e] at this; simp at this; omega
      obtain ⟨b, h1, h2⟩ := binIs_spec s.op (v1 := s.operand eflag) (v2 := v) (by rw [← ho3]; exact hone) hvne
      refine ⟨b, h1, h2.trans ?_⟩
      rw [hval]
      cases hq : s.op <;> simp [CmpOp.Holds]
  · rw [if_pos (by omega), if_neg hc]
    exact ⟨_, rfl, by simp⟩

end Verif.BT
