import Verif.Lemmas.BTreeColl
/-!
# Lemmas on the arithmetic of bkeys
-/
namespace Verif.BT
open Verif.BT.Spec

theorem val_foldl (l : List Nat) (n : Nat) : l.foldl (fun n x => 256 * n + x) n = n * 256 ^ l.length + val l := by
  induction l generalizing n with
  | nil => simp [val]
  | cons x l ih =>
    rw [val, List.foldl_cons, List.foldl_cons, ih, ih (256 * 0 + x), List.length_cons, Nat.pow_succ, Nat.add_mul]
    have : 256 * n * 256 ^ l.length = n * (256 ^ l.length * 256) := by
      rw [Nat.mul_comm 256 n, Nat.mul_assoc, Nat.mul_comm 256]
    rw [this, Nat.mul_zero, Nat.zero_add, Nat.add_assoc]

theorem val_cons (x : Nat) (l : List Nat) : val (x :: l) = x * 256 ^ l.length + val l := by
  have := val_foldl l x
  rw [val, List.foldl_cons, Nat.mul_zero, Nat.zero_add]
  exact this

theorem val_lt {l : List Nat} (h : ∀ x ∈ l, x < 256) : val l < 256 ^ l.length := by
  induction l with
  | nil => simp [val]
  | cons x l ih =>
    have h1 := ih fun y hy => h y (by simp [hy])
    have h2 := h x (by simp)
    rw [val_cons, List.length_cons, Nat.pow_succ]
    have : x * 256 ^ l.length + 256 ^ l.length ≤ 256 * 256 ^ l.length := by
      rw [← Nat.succ_mul]
      exact Nat.mul_le_mul_right _ (by omega)
    omega

/-- A byte string filled up or cut off. -/
def fit : Nat → List Nat → List Nat
  | 0, _ => []
  | w + 1, [] => 0 :: fit w []
  | w + 1, x :: b => x :: fit w b

theorem fit_length (w : Nat) (b : List Nat) : (fit w b).length = w := by
  induction w generalizing b with
  | zero => rfl
  | succ w ih => cases b <;> simp [fit, ih]

theorem fit_bytes {w : Nat} {b : List Nat} (h : ∀ x ∈ b, x < 256) : ∀ x ∈ fit w b, x < 256 := by
  induction w generalizing b with
  | zero => intro x hx; cases hx
  | succ w ih =>
    cases b with
    | nil =>
      intro x hx
      rcases List.mem_cons.mp hx with rfl | hx
      · omega
      · exact ih (b := []) (by simp) x hx
    | cons y b =>
      intro x hx
      rcases List.mem_cons.mp hx with rfl | hx
      · exact h _ (by simp)
      · exact ih (fun z hz => h z (by simp [hz])) x hx

theorem fit_eq (w k : Nat) (b : List Nat) (h : w ≤ b.length + k) : (b ++ List.replicate k 0).take w = fit w b := by
  induction w generalizing b k with
  | zero => simp [fit]
  | succ w ih =>
    cases b with
    | nil =>
      cases k with
      | zero => simp at h
      | succ k =>
        rw [fit, List.nil_append, List.replicate_succ, List.take_succ_cons, ← ih k [] (by simp at h ⊢; omega), List.nil_append]
    | cons x b =>
      rw [fit, List.cons_append, List.take_succ_cons, ih k b (by simp at h; omega)]

theorem fit_self {w : Nat} {b : List Nat} (h : b.length = w) : fit w b = b := by
  have := fit_eq w 0 b (by omega)
  simp only [List.replicate_zero, List.append_nil] at this
  rw [← this, List.take_of_length_le (by omega)]

theorem padTo_bin (w : Nat) (b : List Nat) : padTo w (.bin b) = fit w b := by
  rw [padTo]; exact fit_eq _ _ _ (by omega)

theorem value_bin (w : Nat) (b : List Nat) : Value w (.bin b) = val (fit w b) := by
  rw [Value, fit_eq _ _ _ (by omega)]

theorem fit_mono {w : Nat} {a b : List Nat} (ha : ∀ x ∈ a, x < 256) (h : List.Lex (· < ·) a b) : val (fit w a) ≤ val (fit w b) := by
  induction w generalizing a b with
  | zero => simp [fit]
  | succ w ih =>
    cases h with
    | nil =>
      rename_i y b
      rw [fit, fit, val_cons, val_cons, Nat.zero_mul, Nat.zero_add]
      have h1 : val (fit w []) = 0 := by
        clear ih ha
        induction w with
        | zero => rfl
        | succ w ih => rw [fit, val_cons, ih]; simp
      omega
    | rel h =>
      rename_i x a y b
      rw [fit, fit, val_cons, val_cons, fit_length, fit_length]
      have h1 := val_lt (fit_bytes (w := w) (b := a) fun z hz => ha z (by simp [hz]))
      rw [fit_length] at h1
      have h2 : x * 256 ^ w + 256 ^ w ≤ y * 256 ^ w := by
        rw [← Nat.succ_mul]; exact Nat.mul_le_mul_right _ h
      omega
    | cons h =>
      rename_i x a b
      rw [fit, fit, val_cons, val_cons, fit_length, fit_length]
      have := ih (fun z hz => ha z (by simp [hz])) h
      omega

theorem value_mono {w : Nat} {a b : BKey} (ha : ValidKey a) (h : KLt a b) : Value w a ≤ Value w b := by
  cases a <;> cases b <;> simp only [KLt] at h
  · simp only [Value]; omega
  · rw [value_bin, value_bin]; exact fit_mono ha.2.2 h

theorem value_lt {w : Nat} {a b : BKey} (ha : ValidKey a) (hb : ValidKey b) (hs : SameKind a b) (h : Value w a < Value w b) : KLt a b := by
  rcases bkeyComp_spec hs (ValidKey.nonEmpty ha) (ValidKey.nonEmpty hb) with ⟨-, k⟩ | ⟨-, k⟩ | ⟨-, k⟩
  · exact k
  · rw [k] at h; omega
  · have := value_mono (w := w) hb k; omega

/-- Keys of the full width are ordered like their values. -/
theorem value_lt_iff {w : Nat} {a b : BKey} (ha : ValidKey a) (hb : ValidKey b) (hs : SameKind a b) (h1 : size a = w) (h2 : size b = w) :
    KLt a b ↔ Value w a < Value w b := by
  refine ⟨?_, value_lt ha hb hs⟩
  intro h
  cases a <;> cases b <;> simp only [KLt] at h
  · simpa only [Value] using h
  · rename_i a b
    simp only [size] at h1 h2
    rw [value_bin, value_bin, fit_self h1, fit_self h2]
    have hab : a.length = b.length := by omega
    clear hs h1 h2 hb
    obtain ⟨-, -, ha⟩ := ha
    induction h with
    | nil => simp at hab
    | rel h =>
      rename_i x a y b
      rw [val_cons, val_cons]
      have h1 := val_lt (l := a) fun z hz => ha z (by simp [hz])
      simp only [List.length_cons, Nat.add_right_cancel_iff] at hab
      rw [← hab]
      have h2 : x * 256 ^ a.length + 256 ^ a.length ≤ y * 256 ^ a.length := by
        rw [← Nat.succ_mul]; exact Nat.mul_le_mul_right _ h
      omega
    | cons h ih =>
      rename_i x a b
      simp only [List.length_cons, Nat.add_right_cancel_iff] at hab
      have := ih hab (fun z hz => ha z (by simp [hz]))
      rw [val_cons, val_cons, hab]
      omega

theorem diffLoop_spec {a b : List Nat} (hl : a.length = b.length) (ha : ∀ x ∈ a, x < 256) (hb : ∀ x ∈ b, x < 256) :
    (diffLoop a b).1.length = a.length ∧ (∀ x ∈ (diffLoop a b).1, x < 256) ∧
    val (diffLoop a b).1 + val b = val a + (if (diffLoop a b).2 then 256 ^ a.length else 0) := by
  induction a generalizing b with
  | nil =>
    cases b with
    | nil => simp [diffLoop, val]
    | cons _ _ => simp at hl
  | cons x a ih =>
    cases b with
    | nil => simp at hl
    | cons y b =>
      simp only [List.length_cons, Nat.add_right_cancel_iff] at hl
      obtain ⟨h1, h2, h3⟩ := ih hl (fun z hz => ha z (by simp [hz])) (fun z hz => hb z (by simp [hz]))
      have hx := ha x (by simp)
      have hy := hb y (by simp)
      rw [diffLoop]
      generalize hr : diffLoop a b = r at *
      obtain ⟨l, c⟩ := r
      simp only at h1 h2 h3 ⊢
      have hmul : ∀ p q s t : Nat, p + q = s + t → p * 256 ^ a.length + q * 256 ^ a.length = s * 256 ^ a.length + t * 256 ^ a.length := by
        intro p q s t h
        rw [← Nat.add_mul, ← Nat.add_mul, h]
      have hpow : 256 ^ (a.length + 1) = 256 * 256 ^ a.length := by rw [Nat.pow_succ, Nat.mul_comm]
      cases c with
      | false =>
        simp only [if_true, Bool.false_eq_true, if_false, Nat.add_zero] at h3 ⊢
        by_cases hxy : x ≥ y
        · rw [if_pos hxy]
          refine ⟨by simp [h1], ?_, ?_⟩
          · intro z hz
            rcases List.mem_cons.mp hz with rfl | hz
            · omega
            · exact h2 z hz
          · simp only [Bool.false_eq_true, if_false, Nat.add_zero]
            rw [val_cons, val_cons, val_cons, h1, ← hl]
            have := hmul (x - y) y x 0 (by omega)
            omega
        · rw [if_neg hxy]
          refine ⟨by simp [h1], ?_, ?_⟩
          · intro z hz
            rcases List.mem_cons.mp hz with rfl | hz
            · omega
            · exact h2 z hz
          · simp only [if_true]
            rw [val_cons, val_cons, val_cons, h1, ← hl, List.length_cons, hpow]
            have := hmul (255 - y + x + 1) y x 256 (by omega)
            omega
      | true =>
        simp only [Bool.true_eq_false, if_true, if_false] at h3 ⊢
        by_cases hxy : x > y
        · rw [if_pos hxy]
          refine ⟨by simp [h1], ?_, ?_⟩
          · intro z hz
            rcases List.mem_cons.mp hz with rfl | hz
            · omega
            · exact h2 z hz
          · simp only [Bool.false_eq_true, if_false, Nat.add_zero]
            rw [val_cons, val_cons, val_cons, h1, ← hl]
            have := hmul (x - y - 1) (y + 1) x 0 (by omega)
            rw [Nat.add_mul] at this
            omega
        · rw [if_neg hxy]
          refine ⟨by simp [h1], ?_, ?_⟩
          · intro z hz
            rcases List.mem_cons.mp hz with rfl | hz
            · omega
            · exact h2 z hz
          · simp only [if_true]
            rw [val_cons, val_cons, val_cons, h1, ← hl, List.length_cons, hpow]
            have := hmul (255 - y + x) (y + 1) x 256 (by omega)
            rw [Nat.add_mul y] at this
            omega

theorem decrLoop_spec {b : List Nat} (hb : ∀ x ∈ b, x < 256) :
    (decrLoop b).1.length = b.length ∧ (∀ x ∈ (decrLoop b).1, x < 256) ∧
    ((decrLoop b).2 = true → val (decrLoop b).1 + 1 = val b) ∧ ((decrLoop b).2 = false → val b = 0) := by
  induction b with
  | nil => simp [decrLoop, val]
  | cons x b ih =>
    obtain ⟨h1, h2, h3, h4⟩ := ih fun z hz => hb z (by simp [hz])
    have hx := hb x (by simp)
    have hbytes : ∀ {y : Nat}, y < 256 → ∀ z ∈ y :: (decrLoop b).1, z < 256 := by
      intro y hy z hz
      rcases List.mem_cons.mp hz with rfl | hz
      · exact hy
      · exact h2 z hz
    rw [decrLoop]
    by_cases hc : (decrLoop b).2 = true
    · rw [if_pos hc]
      refine ⟨by simp [h1], hbytes hx, fun _ => ?_, by simp⟩
      rw [val_cons, val_cons, h1]
      have := h3 hc; omega
    · rw [if_neg hc]
      have hc' : (decrLoop b).2 = false := by simpa using hc
      have h0 := h4 hc'
      -- below, all bytes were zero and are now 255
      have hfull : ∀ {b : List Nat}, (∀ x ∈ b, x < 256) → (decrLoop b).2 = false → val (decrLoop b).1 + 1 = 256 ^ b.length := by
        intro b
        induction b with
        | nil => intro _ _; simp [decrLoop, val]
        | cons y b ih =>
          intro hb hd
          rw [decrLoop] at hd ⊢
          by_cases hc : (decrLoop b).2 = true
          · rw [if_pos hc] at hd; cases hd
          · rw [if_neg hc] at hd ⊢
            by_cases hy : y > 0
            · rw [if_pos hy] at hd; cases hd
            · rw [if_neg hy]
              have := ih (fun z hz => hb z (by simp [hz])) (by simpa using hc)
              have hl : ∀ b : List Nat, (decrLoop b).1.length = b.length := by
                intro b
                induction b with
                | nil => rfl
                | cons z b ih => rw [decrLoop]; split <;> (try split) <;> simp [ih]
              rw [val_cons, hl, List.length_cons, Nat.pow_succ]
              omega
      have hf := hfull (fun z hz => hb z (by simp [hz])) hc'
      by_cases hx0 : x > 0
      · rw [if_pos hx0]
        refine ⟨by simp [h1], hbytes (by omega), fun _ => ?_, by simp⟩
        rw [val_cons, val_cons, h1, h0]
        have : (x - 1) * 256 ^ b.length + 256 ^ b.length = x * 256 ^ b.length := by
          rw [← Nat.succ_mul]; congr 1; omega
        omega
      · rw [if_neg hx0]
        refine ⟨by simp [h1], hbytes (by omega), by simp, fun _ => ?_⟩
        rw [val_cons, h0]
        have : x = 0 := by omega
        subst this; simp

theorem nbkey_size (k : BKey) : k.nbkey = size k := by cases k <;> rfl

/-- `BKEY_DIFF` where it does not wrap. -/
theorem bkeyDiff_spec {mr a b : BKey} (hm : ValidKey mr) (ha : ValidKey a) (hb : ValidKey b) (h1 : SameKind a mr) (h2 : SameKind b mr)
    (hle : Value (size mr) b ≤ Value (size mr) a) :
    ∃ d, bkeyDiff mr.nbkey a b = some d ∧ ValidKey d ∧ SameKind d mr ∧ size d = size mr ∧
      Value (size mr) d = Value (size mr) a - Value (size mr) b := by
  cases mr with
  | num m =>
    cases a <;> cases b <;> simp only [SameKind] at h1 h2
    rename_i a b
    simp only [Value] at hle
    simp only [ValidKey] at ha
    simp only [BKey.nbkey, bkeyDiff, if_true]
    rw [if_neg (by omega)]
    exact ⟨_, rfl, by simp only [ValidKey]; omega, trivial, rfl, rfl⟩
  | bin m =>
    cases a <;> cases b <;> simp only [SameKind] at h1 h2
    rename_i a b
    obtain ⟨m1, m2, m3⟩ := hm
    simp only [size] at hle ⊢
    rw [value_bin, value_bin] at hle
    rw [value_bin, value_bin]
    rw [show bkeyDiff (BKey.bin m).nbkey (.bin a) (.bin b) =
      if m.length = 0 then none else some (BKey.bin (diffLoop (padTo m.length (.bin a)) (padTo m.length (.bin b))).1) from rfl,
      if_neg (by omega), padTo_bin, padTo_bin]
    obtain ⟨d1, d2, d3⟩ := diffLoop_spec (a := fit m.length a) (b := fit m.length b) (by rw [fit_length, fit_length]) (fit_bytes ha.2.2)
      (fit_bytes hb.2.2)
    rw [fit_length] at d1 d3
    have hv := val_lt d2
    rw [d1] at hv
    have hno : ¬ (diffLoop (fit m.length a) (fit m.length b)).2 = true := by
      intro h
      rw [if_pos h] at d3
      have hbv := val_lt (fit_bytes (w := m.length) hb.2.2)
      rw [fit_length] at hbv
      omega
    rw [if_neg hno] at d3
    refine ⟨_, rfl, ⟨by omega, by omega, d2⟩, trivial, d1, ?_⟩
    rw [value_bin, fit_self d1]
    omega

theorem bkeyDecr_spec {d : BKey} (hd : ValidKey d) (hpos : 0 < Value (size d) d) :
    ∃ d', bkeyDecr d = some d' ∧ ValidKey d' ∧ SameKind d' d ∧ size d' = size d ∧ Value (size d) d' + 1 = Value (size d) d := by
  cases d with
  | num v =>
    simp only [Value] at hpos
    simp only [ValidKey] at hd
    rw [bkeyDecr, if_pos hpos]
    exact ⟨_, rfl, by simp only [ValidKey]; omega, trivial, rfl, by simp only [Value]; omega⟩
  | bin b =>
    obtain ⟨m1, m2, m3⟩ := hd
    simp only [size] at hpos ⊢
    rw [value_bin, fit_self rfl] at hpos ⊢
    obtain ⟨d1, d2, d3, d4⟩ := decrLoop_spec m3
    have ht : (decrLoop b).2 = true := by
      cases h : (decrLoop b).2
      · have := d4 h; omega
      · rfl
    rw [bkeyDecr, if_neg (by omega), if_pos ht]
    refine ⟨_, rfl, ⟨by omega, by omega, d2⟩, trivial, d1, ?_⟩
    rw [value_bin, fit_self d1]
    exact d3 ht

/-- The range check of two keys. -/
theorem wide_check {mr a b : BKey} (hm : ValidKey mr) (ha : ValidKey a) (hb : ValidKey b) (h1 : SameKind a mr) (h2 : SameKind b mr)
    (hle : Value (size mr) b ≤ Value (size mr) a) :
    ∃ d r, bkeyDiff mr.nbkey a b = some d ∧ bkeyIs .gt d mr = some r ∧ (r = true ↔ Wide mr a b) := by
  obtain ⟨d, d1, d2, d3, d4, d5⟩ := bkeyDiff_spec hm ha hb h1 h2 hle
  obtain ⟨r, r1, r2⟩ := bkeyIs_spec .gt d3 (ValidKey.nonEmpty d2) (ValidKey.nonEmpty hm)
  refine ⟨d, r, d1, r1, ?_⟩
  rw [r2, CmpOp.Holds, value_lt_iff hm d2 d3.symm rfl d4, d5, Wide]

end Verif.BT
