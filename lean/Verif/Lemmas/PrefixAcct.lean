import Verif.Spec.Prefix
/-! # Counters and sums -/
namespace Verif.Prefix
open Spec (Itm under owner figures S GoodName NameByte internalName place record)

/-- Sum of a weight over a list of items. -/
def wsum (f : Itm → Nat) (l : List Itm) : Nat := (l.map f).sum

theorem wsum_cons (f : Itm → Nat) (x : Itm) (l : List Itm) : wsum f (x :: l) = f x + wsum f l := by simp [wsum]

theorem wsum_split (f : Itm → Nat) {l : List Itm} {x : Itm} (hn : (l.map Itm.id).Nodup) (hx : x ∈ l) :
    wsum f l = f x + wsum f (l.filter fun y => decide (y.id ≠ x.id)) := by
  induction l with
  | nil => simp at hx
  | cons y l ih =>
    simp only [List.map_cons, List.nodup_cons] at hn
    rw [List.mem_cons] at hx
    rcases hx with rfl | hx
    · have : l.filter (fun y => decide (y.id ≠ x.id)) = l := by
        rw [List.filter_eq_self]
        intro z hz
        have : z.id ≠ x.id := fun e => hn.1 (e ▸ List.mem_map_of_mem hz)
        simpa using this
      rw [List.filter_cons_of_neg (by simp), this, wsum_cons]
    · have hne : y.id ≠ x.id := fun e => hn.1 (e ▸ List.mem_map_of_mem hx)
      rw [wsum_cons, ih hn.2 hx, List.filter_cons_of_pos (by simpa using hne), wsum_cons]
      omega

/-- The weights of the four kinds of counters. -/
def wcnt (t : Nat) (x : Itm) : Nat := if x.ty = t then 1 else 0
def wbyt (t : Nat) (x : Itm) : Nat := if x.ty = t then x.size else 0

/-- The counters a prefix with the given items should have. -/
def acctOf (l : List Itm) : Acct :=
  ⟨fun t => wsum (wcnt t) l % w64, fun t => wsum (wbyt t) l % w64, wsum (fun _ => 1) l % w64, wsum Itm.size l % w64⟩

theorem wsum_one (l : List Itm) : wsum (fun _ => 1) l = l.length := by
  induction l with
  | nil => rfl
  | cons x l ih => rw [wsum_cons, ih, List.length_cons]; omega

theorem wsum_cnt (t : Nat) (l : List Itm) : wsum (wcnt t) l = (l.filter fun x => decide (x.ty = t)).length := by
  induction l with
  | nil => rfl
  | cons x l ih =>
    rw [wsum_cons, ih, List.filter_cons]
    by_cases h : x.ty = t
    · simp [wcnt, h]; omega
    · simp [wcnt, h]

theorem wsum_byt (t : Nat) (l : List Itm) : wsum (wbyt t) l = ((l.filter fun x => decide (x.ty = t)).map Itm.size).sum := by
  induction l with
  | nil => rfl
  | cons x l ih =>
    rw [wsum_cons, ih, List.filter_cons]
    by_cases h : x.ty = t
    · simp [wbyt, h]
    · simp [wbyt, h]

theorem wsum_le {f g : Itm → Nat} (h : ∀ x, f x ≤ g x) (l : List Itm) : wsum f l ≤ wsum g l := by
  induction l with
  | nil => exact Nat.le_refl _
  | cons x l ih => rw [wsum_cons, wsum_cons]; have := h x; omega

theorem wsum_filter_le (f : Itm → Nat) (p : Itm → Bool) (l : List Itm) : wsum f (l.filter p) ≤ wsum f l := by
  induction l with
  | nil => exact Nat.le_refl _
  | cons x l ih =>
    rw [List.filter_cons]
    split
    · rw [wsum_cons, wsum_cons]; omega
    · rw [wsum_cons]; omega

theorem wsum_size_le {l : List Itm} (h : ∀ x ∈ l, x.size < w32) : wsum Itm.size l ≤ l.length * w32 := by
  induction l with
  | nil => simp [wsum]
  | cons x l ih =>
    rw [wsum_cons]
    have h1 := h x (by simp)
    have h2 := ih fun y hy => h y (by simp [hy])
    rw [List.length_cons, Nat.add_mul]
    omega

/-- With fewer than 2^31 items of less than 2^32 bytes nothing wraps. -/
theorem wsum_lt {l : List Itm} (h : ∀ x ∈ l, x.size < w32) (hl : l.length < 2 ^ 31) : wsum Itm.size l < w64 := by
  have h1 := wsum_size_le h
  have h2 : l.length * w32 ≤ (2 ^ 31 - 1) * w32 := Nat.mul_le_mul_right _ (by omega)
  have h3 : (2 ^ 31 - 1) * w32 < w64 := by decide
  omega

theorem acct_figures {l : List Itm} (h : ∀ x ∈ l, x.size < w32) (hl : l.length < 2 ^ 31) :
    (((acctOf l).tcnt, five (acctOf l).cnt), ((acctOf l).tbyt, five (acctOf l).byt)) = figures l := by
  have hb := wsum_lt h hl
  have hw : (2 : Nat) ^ 31 < w64 := by decide
  have h1 : ∀ t, wsum (wcnt t) l < w64 := by
    intro t
    rw [wsum_cnt]
    have : (l.filter fun x => decide (x.ty = t)).length ≤ l.length := List.length_filter_le _ _
    omega
  have h2 : ∀ t, wsum (wbyt t) l < w64 := by
    intro t
    have : wsum (wbyt t) l ≤ wsum Itm.size l := wsum_le (fun x => by unfold wbyt; split <;> omega) l
    omega
  unfold figures five acctOf
  have e1 : (fun t => wsum (wcnt t) l % w64) = fun t => (l.filter fun x => decide (x.ty = t)).length :=
    funext fun t => by rw [Nat.mod_eq_of_lt (h1 t), wsum_cnt]
  have e2 : (fun t => wsum (wbyt t) l % w64) = fun t => ((l.filter fun x => decide (x.ty = t)).map Itm.size).sum :=
    funext fun t => by rw [Nat.mod_eq_of_lt (h2 t), wsum_byt]
  simp only [e1, e2, Nat.mod_eq_of_lt hb, wsum_one]
  rw [Nat.mod_eq_of_lt (by omega)]
  rfl

theorem add64_mod (a b : Nat) : add64 (a % w64) b = (b + a) % w64 := by
  unfold add64; rw [Nat.mod_add_mod, Nat.add_comm]

theorem sub64_mod (a b : Nat) : sub64 ((b + a) % w64) b = a % w64 := by
  unfold sub64
  rw [Nat.mod_add_mod]
  have h : b % w64 < w64 := Nat.mod_lt _ (by decide)
  have h1 : b + a + (w64 - b % w64) = a + w64 * (b / w64 + 1) := by
    have := Nat.div_add_mod b w64
    rw [Nat.mul_add]
    omega
  rw [h1, Nat.add_mul_mod_self_left]

theorem Acct.ext' {a b : Acct} (h1 : ∀ t, a.cnt t = b.cnt t) (h2 : ∀ t, a.byt t = b.byt t) (h3 : a.tcnt = b.tcnt) (h4 : a.tbyt = b.tbyt) :
    a = b := by
  cases a; cases b
  simp only [Acct.mk.injEq]
  exact ⟨funext h1, funext h2, h3, h4⟩

theorem acctOf_congr {l l' : List Itm} (h : ∀ f, wsum f l = wsum f l') : acctOf l = acctOf l' := by
  unfold acctOf; simp [h]

/-- An item comes. -/
theorem incr_acct (x : Itm) (l : List Itm) : (acctOf l).incr x.ty x.size = acctOf (x :: l) := by
  apply Acct.ext'
  · intro t
    simp only [Acct.incr, acctOf, wsum_cons, wcnt]
    by_cases h : t = x.ty
    · rw [if_pos h, if_pos h.symm, add64_mod]
    · rw [if_neg h, if_neg (Ne.symm h), Nat.zero_add]
  · intro t
    simp only [Acct.incr, acctOf, wsum_cons, wbyt]
    by_cases h : t = x.ty
    · rw [if_pos h, if_pos h.symm, add64_mod]
    · rw [if_neg h, if_neg (Ne.symm h), Nat.zero_add]
  · simp only [Acct.incr, acctOf, wsum_cons, add64_mod]
  · simp only [Acct.incr, acctOf, wsum_cons, add64_mod]

/-- An item goes. -/
theorem decr_acct (x : Itm) (l : List Itm) : (acctOf (x :: l)).decr x.ty x.size = acctOf l := by
  apply Acct.ext'
  · intro t
    simp only [Acct.decr, acctOf, wsum_cons, wcnt]
    by_cases h : t = x.ty
    · rw [if_pos h, if_pos h.symm, sub64_mod]
    · rw [if_neg h, if_neg (Ne.symm h), Nat.zero_add]
  · intro t
    simp only [Acct.decr, acctOf, wsum_cons, wbyt]
    by_cases h : t = x.ty
    · rw [if_pos h, if_pos h.symm, sub64_mod]
    · rw [if_neg h, if_neg (Ne.symm h), Nat.zero_add]
  · simp only [Acct.decr, acctOf, wsum_cons, sub64_mod]
  · simp only [Acct.decr, acctOf, wsum_cons, sub64_mod]

/-- An item grows. -/
theorem more_acct {x y : Itm} {n : Nat} (l : List Itm) (ht : y.ty = x.ty) (hs : y.size = x.size + n) :
    (acctOf (x :: l)).more x.ty n = acctOf (y :: l) := by
  apply Acct.ext'
  · intro t
    simp only [Acct.more, acctOf, wsum_cons, wcnt, ht]
  · intro t
    simp only [Acct.more, acctOf, wsum_cons, wbyt, ht, hs]
    by_cases h : t = x.ty
    · rw [if_pos h, if_pos h.symm, if_pos h.symm, add64_mod]; congr 1; omega
    · rw [if_neg h, if_neg (Ne.symm h), if_neg (Ne.symm h)]
  · simp only [Acct.more, acctOf, wsum_cons]
  · simp only [Acct.more, acctOf, wsum_cons, add64_mod, hs]; congr 1; omega

/-- An item shrinks. -/
theorem less_acct {x y : Itm} {n : Nat} (l : List Itm) (ht : y.ty = x.ty) (hs : x.size = y.size + n) :
    (acctOf (x :: l)).less x.ty n = acctOf (y :: l) := by
  have e : ∀ a, x.size + a = n + (y.size + a) := by intro a; omega
  apply Acct.ext'
  · intro t
    simp only [Acct.less, acctOf, wsum_cons, wcnt, ht]
  · intro t
    simp only [Acct.less, acctOf, wsum_cons, wbyt, ht]
    by_cases h : t = x.ty
    · rw [if_pos h, if_pos h.symm, if_pos h.symm, e, sub64_mod]
    · rw [if_neg h, if_neg (Ne.symm h), if_neg (Ne.symm h)]
  · simp only [Acct.less, acctOf, wsum_cons]
  · simp only [Acct.less, acctOf, wsum_cons, e, sub64_mod]

/-- An item is replaced. -/
theorem swap_acct {x y : Itm} (l : List Itm) (ht : y.ty = x.ty) (hx : x.size < w32) (hy : y.size < w32) :
    (acctOf (x :: l)).swap x.ty x.size y.size = acctOf (y :: l) := by
  unfold Acct.swap
  split
  · rw [Nat.mod_eq_of_lt (by omega)]
    exact more_acct l ht (by omega)
  · split
    · rw [Nat.mod_eq_of_lt (by omega)]
      exact less_acct l ht (by omega)
    · have hs : y.size = x.size := by omega
      apply Acct.ext'
      · intro t; simp only [acctOf, wsum_cons, wcnt, ht]
      · intro t; simp only [acctOf, wsum_cons, wbyt, ht, hs]
      · simp only [acctOf, wsum_cons]
      · simp only [acctOf, wsum_cons, hs]

theorem acctOf_nil : acctOf [] = Acct.zero := by
  apply Acct.ext' <;> intros <;> rfl

theorem acct_empty {l : List Itm} (hl : l.length < 2 ^ 31) : (acctOf l).tcnt = 0 ↔ l = [] := by
  have hw : (2 : Nat) ^ 31 < w64 := by decide
  simp only [acctOf, wsum_one]
  rw [Nat.mod_eq_of_lt (by omega)]
  exact List.length_eq_zero_iff

/-! ## Digits -/

theorem digits_le (n : Nat) : ∀ k, n < 10 ^ (k + 1) → digits n ≤ k + 1 := by
  induction n using Nat.strongRecOn with
  | ind n ih =>
    intro k hk
    rw [digits]
    split
    · omega
    · rename_i h
      cases k with
      | zero => simp at hk; omega
      | succ k =>
        have h1 : n / 10 < 10 ^ (k + 1) := by
          rw [Nat.pow_succ] at hk
          exact Nat.div_lt_of_lt_mul (by rw [Nat.mul_comm]; exact hk)
        have := ih (n / 10) (by omega) k h1
        omega

theorem digits_w64 {n : Nat} (h : n < w64) : digits n ≤ 20 := by
  apply digits_le n 19
  have : w64 < 10 ^ 20 := by decide
  omega

theorem lineLen_le {nm : List Nat} {a : Acct} (h1 : ∀ t, a.cnt t < w64) (h2 : ∀ t, a.byt t < w64) (h3 : a.tcnt < w64) (h4 : a.tbyt < w64) :
    lineLen nm a ≤ nm.length + 339 := by
  have e : five a.cnt = [a.cnt 0, a.cnt 1, a.cnt 2, a.cnt 3, a.cnt 4] := rfl
  have e' : five a.byt = [a.byt 0, a.byt 1, a.byt 2, a.byt 3, a.byt 4] := rfl
  unfold lineLen
  rw [e, e']
  simp only [List.cons_append, List.map_cons, List.nil_append, List.map_nil, List.sum_cons, List.sum_nil]
  have a0 := digits_w64 (h1 0); have a1 := digits_w64 (h1 1); have a2 := digits_w64 (h1 2)
  have a3 := digits_w64 (h1 3); have a4 := digits_w64 (h1 4)
  have b0 := digits_w64 (h2 0); have b1 := digits_w64 (h2 1); have b2 := digits_w64 (h2 2)
  have b3 := digits_w64 (h2 3); have b4 := digits_w64 (h2 4)
  have c := digits_w64 h3; have d := digits_w64 h4
  omega

theorem lineLen_acctOf (nm : List Nat) (l : List Itm) : lineLen nm (acctOf l) ≤ nm.length + 339 := by
  have hw : 0 < w64 := by decide
  exact lineLen_le (fun _ => Nat.mod_lt _ hw) (fun _ => Nat.mod_lt _ hw) (Nat.mod_lt _ hw) (Nat.mod_lt _ hw)

theorem writeLines_fits {buflen : Nat} : ∀ {l : List (List Nat × Acct)} {pos : Nat},
    (∀ x ∈ l, lineLen x.1 x.2 ≤ x.1.length + 339) → pos + (l.map fun x => x.1.length).sum + l.length * 339 + 5 < buflen →
    ∃ n, writeLines buflen pos l = some n := by
  intro l
  induction l with
  | nil => intro pos _ h; simp at h; exact ⟨pos + 5, by simp [writeLines, h]⟩
  | cons x l ih =>
    intro pos hl h
    obtain ⟨nm, a⟩ := x
    have h1 := hl (nm, a) (by simp)
    simp only [List.map_cons, List.sum_cons, List.length_cons, Nat.add_mul] at h h1
    obtain ⟨n, hn⟩ := ih (pos := pos + lineLen nm a) (fun x hx => hl x (by simp [hx])) (by omega)
    exact ⟨n, by rw [writeLines, if_pos (by omega)]; exact hn⟩

end Verif.Prefix
