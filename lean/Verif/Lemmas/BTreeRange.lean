import Verif.Lemmas.BTreeFirst
import Verif.Spec.BTree
/-!
# Lemmas on ranges: what the walks deliver in terms of the specification
-/
namespace Verif.BT
open Verif.BT.Spec

/-! ## Types of ranges -/

theorem kle_refl (a : BKey) : KLe a a := .inr rfl

theorem klt_kle {a b c : BKey} (h1 : KLt a b) (h2 : KLe b c) : KLt a c := by
  rcases h2 with h2 | rfl
  · exact klt_trans h1 h2
  · exact h1

theorem kle_klt {a b c : BKey} (h1 : KLe a b) (h2 : KLt b c) : KLt a c := by
  rcases h1 with h1 | rfl
  · exact klt_trans h1 h2
  · exact h2

theorem not_kle {a b : BKey} (h : KLt a b) : ¬ KLe b a := by
  rintro (h2 | rfl)
  · exact klt_asymm h h2
  · exact klt_irrefl _ h

theorem kle_iff {a b : BKey} (hs : SameKind a b) (h1 : NonEmpty a) (h2 : NonEmpty b) : KLe a b ↔ ¬ KLt b a := by
  constructor
  · intro h h3; exact not_kle h3 h
  · intro h
    rcases bkeyComp_spec hs h1 h2 with ⟨-, k⟩ | ⟨-, k⟩ | ⟨-, k⟩
    · exact .inl k
    · exact .inr k
    · exact absurd k h

/-- What the type of a range means. -/
def Typed (r : Range) (rt : RType) (to : BKey) : Prop :=
  match rt with
  | .sin => to = r.lo ∧ ¬ Descending r ∧ ¬ Ascending r ∧ ∀ k, Spec.InRange r k ↔ k = r.lo
  | .asc => r.hi = some to ∧ KLt r.lo to ∧ ¬ Descending r ∧ Ascending r ∧ ∀ k, Spec.InRange r k ↔ (KLe r.lo k ∧ KLe k to)
  | .dsc => r.hi = some to ∧ KLt to r.lo ∧ Descending r ∧ ¬ Ascending r ∧ ∀ k, Spec.InRange r k ↔ (KLe to k ∧ KLe k r.lo)

theorem rangeType_spec {r : Range} (h : RangeOk r) : ∃ rt to, rangeType r = some (rt, to) ∧ Typed r rt to ∧ SameKind r.lo to ∧ ValidKey to := by
  obtain ⟨lo, hi⟩ := r
  obtain ⟨h1, h2⟩ := h
  simp only at h1 h2
  cases hi with
  | none =>
    refine ⟨.sin, lo, rfl, ⟨rfl, ?_, ?_, fun k => Iff.rfl⟩, SameKind.refl _, h1⟩
    · rintro ⟨h, h3, -⟩; cases h3
    · rintro ⟨h, h3, -⟩; cases h3
  | some k =>
    obtain ⟨h3, h4⟩ := h2 k rfl
    simp only [rangeType]
    rcases bkeyComp_spec h4 (ValidKey.nonEmpty h1) (ValidKey.nonEmpty h3) with ⟨k1, k2⟩ | ⟨k1, k2⟩ | ⟨k1, k2⟩
    · refine ⟨.asc, k, by rw [k1], ⟨rfl, k2, ?_, ⟨k, rfl, k2⟩, ?_⟩, h4, h3⟩
      · rintro ⟨x, hx, h5⟩; cases hx; exact klt_asymm k2 h5
      · intro y
        simp only [Spec.InRange]
        constructor
        · rintro (h5 | ⟨h5, h6⟩)
          · exact h5
          · rcases h6 with h6 | rfl
            · exact absurd h5 (not_kle (klt_trans h6 k2))
            · exact absurd h5 (not_kle k2)
        · exact .inl
    · subst k2
      refine ⟨.sin, lo, by rw [k1], ⟨rfl, ?_, ?_, ?_⟩, h4, h3⟩
      · rintro ⟨x, hx, h5⟩; cases hx; exact klt_irrefl _ h5
      · rintro ⟨x, hx, h5⟩; cases hx; exact klt_irrefl _ h5
      · intro y
        simp only [Spec.InRange]
        have hone : ∀ a b : BKey, KLe a b → KLe b a → a = b := by
          intro a b h5 h6
          rcases h5 with h5 | h5
          · exact absurd h6 (not_kle h5)
          · exact h5
        constructor
        · rintro (⟨h5, h6⟩ | ⟨h5, h6⟩)
          · exact (hone _ _ h5 h6).symm
          · exact (hone _ _ h5 h6).symm
        · rintro rfl; exact .inl ⟨kle_refl _, kle_refl _⟩
    · refine ⟨.dsc, k, by rw [k1], ⟨rfl, k2, ⟨k, rfl, k2⟩, ?_, ?_⟩, h4, h3⟩
      · rintro ⟨x, hx, h5⟩; cases hx; exact klt_asymm k2 h5
      · intro y
        simp only [Spec.InRange]
        constructor
        · rintro (⟨h5, h6⟩ | h5)
          · rcases h6 with h6 | rfl
            · exact absurd h5 (not_kle (klt_trans h6 k2))
            · exact absurd h5 (not_kle k2)
          · exact h5
        · exact .inr

/-! ## Filters -/

open Classical in
/-- Does the filter let the element through? -/
noncomputable def pass (f : Option EFilter) (e : Elem) : Bool := decide (Passes f e.eflag)

theorem pass_iff {f : Option EFilter} {e : Elem} : pass f e = true ↔ Passes f e.eflag := by
  classical
  rw [pass, decide_eq_true_iff]

theorem keep_spec {f : Option EFilter} (hf : FilterOk f) (e : Elem) : keep f e = some (pass f e) := by
  cases f with
  | none =>
    have : pass none e = true := pass_iff.mpr trivial
    rw [this]; rfl
  | some g =>
    obtain ⟨s, h1, h2⟩ := hf g rfl
    obtain ⟨b, b1, b2⟩ := elemFilter_spec h1 h2 e.eflag e.value
    simp only [keep, b1, pass, Passes]
    have : (∃ s : Filter, Holds g s ∧ s.Valid ∧ s.Keeps e.eflag) ↔ b = true := by
      constructor
      · rintro ⟨s', h3, h4, h5⟩
        obtain ⟨b', b3, b4⟩ := elemFilter_spec h3 h4 e.eflag e.value
        rw [b1] at b3
        cases b3
        exact b4.mpr h5
      · intro h; exact ⟨s, h1, h2, b2.mp h⟩
    cases b <;> simp [this]

/-! ## The walk in terms of the specification -/

/-- The elements in the direction of the walk. -/
def ordF (forward : Bool) (l : List Elem) : List Elem := if forward then l else l.reverse

/-- The elements the walk leaves behind. -/
def preF (forward : Bool) (l : List Elem) (m : Nat) : List Elem := if forward then l.take m else (l.drop (m + 1)).reverse

theorem ordF_split (forward : Bool) (l : List Elem) (m : Nat) : ordF forward l = preF forward l m ++ seq forward l m := by
  cases forward with
  | true => simp [ordF, preF, seq]
  | false =>
    simp only [ordF, preF, seq, Bool.false_eq_true, if_false]
    rw [← List.reverse_append, List.take_append_drop]

theorem mem_ordF {forward : Bool} {l : List Elem} {e : Elem} : e ∈ ordF forward l ↔ e ∈ l := by
  cases forward <;> simp [ordF]

open Classical in
theorem within_filter {forward : Bool} {to : BKey} {l : List Elem} (hs : l.Pairwise fun a b => Before forward a.bkey b.bkey) :
    within' forward to l = l.filter fun x => decide (¬ Before forward to x.bkey) := by
  induction l with
  | nil => rfl
  | cons x xs ih =>
    obtain ⟨h1, h2⟩ := List.pairwise_cons.mp hs
    by_cases hb : Before forward to x.bkey
    · rw [within_nil]
      · symm
        rw [List.filter_eq_nil_iff]
        intro y hy
        rcases List.mem_cons.mp hy with rfl | hy
        · simp [hb]
        · have := before_trans hb (h1 y hy)
          simp [this]
      · intro y hy
        rcases List.mem_cons.mp hy with rfl | hy
        · exact hb
        · exact before_trans hb (h1 y hy)
    · rw [within', List.takeWhile_cons, List.filter_cons]
      simp only [hb, not_false_eq_true, decide_true, if_true]
      rw [← ih h2, within']

/-- The direction of a range. -/
def fwd (rt : RType) : Bool := rt == .asc

theorem matching_eq {r : Range} {rt : RType} {to : BKey} (ht : Typed r rt to) (hne : rt ≠ .sin) (f : Option EFilter) {l : List Elem}
    (hlo : Fits r.lo l) (hto : Fits to l) :
    matching r f l = ((ordF (fwd rt) l).filter fun x => by
      classical exact decide (¬ Before (fwd rt) x.bkey r.lo ∧ ¬ Before (fwd rt) to x.bkey)).filter (pass f) := by
  classical
  rw [matching, List.filter_filter]
  have hkle : ∀ e ∈ l, (KLe r.lo e.bkey ↔ ¬ KLt e.bkey r.lo) ∧ (KLe e.bkey r.lo ↔ ¬ KLt r.lo e.bkey) ∧
      (KLe to e.bkey ↔ ¬ KLt e.bkey to) ∧ (KLe e.bkey to ↔ ¬ KLt to e.bkey) := by
    intro e he
    have h1 := hlo.2 e he
    have h2 := hto.2 e he
    exact ⟨kle_iff h1.1 hlo.1 h1.2, kle_iff h1.1.symm h1.2 hlo.1, kle_iff h2.1 hto.1 h2.2, kle_iff h2.1.symm h2.2 hto.1⟩
  cases rt with
  | sin => exact absurd rfl hne
  | asc =>
    obtain ⟨-, -, h1, -, h2⟩ := ht
    rw [if_neg h1]
    simp only [fwd, ordF, show (RType.asc == RType.asc) = true from rfl, if_true, Before]
    apply List.filter_congr
    intro e he
    obtain ⟨a1, a2, a3, a4⟩ := hkle e he
    simp only [pass, h2, a1, a4]
    rw [Bool.eq_iff_iff]; simp [and_comm]
  | dsc =>
    obtain ⟨-, -, h1, -, h2⟩ := ht
    rw [if_pos h1]
    simp only [fwd, ordF, show (RType.dsc == RType.asc) = false from rfl, Bool.false_eq_true, if_false, Before]
    apply List.filter_congr
    intro e he
    rw [List.mem_reverse] at he
    obtain ⟨a1, a2, a3, a4⟩ := hkle e he
    simp only [pass, h2, a2, a3]
    rw [Bool.eq_iff_iff]; simp [and_comm]

/-- The walk from number `m` finds what the specification asks for. -/
theorem matching_seq {r : Range} {rt : RType} {to : BKey} (ht : Typed r rt to) (hne : rt ≠ .sin) (f : Option EFilter) {l : List Elem}
    (hlo : Fits r.lo l) (hto : Fits to l) (hs : Sorted l) {m : Nat} {e : Elem} {rest : List Elem}
    (hq : seq (fwd rt) l m = e :: rest) (hpre : ∀ x ∈ preF (fwd rt) l m, Before (fwd rt) x.bkey r.lo)
    (he : ¬ Before (fwd rt) e.bkey r.lo) (het : ¬ Before (fwd rt) to e.bkey) :
    matching r f l = (e :: within' (fwd rt) to rest).filter (pass f) := by
  classical
  have hp := seq_sorted (forward := fwd rt) hs m
  rw [hq] at hp
  obtain ⟨p1, p2⟩ := List.pairwise_cons.mp hp
  have hnil : (preF (fwd rt) l m).filter (fun x => decide (¬ Before (fwd rt) x.bkey r.lo ∧ ¬ Before (fwd rt) to x.bkey)) = [] := by
    rw [List.filter_eq_nil_iff]
    intro x hx
    simp [hpre x hx]
  rw [matching_eq ht hne f hlo hto, ordF_split _ _ m, List.filter_append, hq, hnil, List.nil_append, within_filter p2]
  · congr 1
    rw [List.filter_cons_of_pos (by simp [he, het])]
    congr 1
    apply List.filter_congr
    intro x hx
    have : ¬ Before (fwd rt) x.bkey r.lo := fun h => he (before_trans (p1 x hx) h)
    simp [this]

/-- Nothing in the range. -/
theorem matching_none {r : Range} {rt : RType} {to : BKey} (ht : Typed r rt to) (hne : rt ≠ .sin) (f : Option EFilter) {l : List Elem}
    (hlo : Fits r.lo l) (hto : Fits to l) (h : ∀ x ∈ l, Before (fwd rt) x.bkey r.lo ∨ Before (fwd rt) to x.bkey) :
    matching r f l = [] := by
  classical
  have hnil : (ordF (fwd rt) l).filter (fun x => decide (¬ Before (fwd rt) x.bkey r.lo ∧ ¬ Before (fwd rt) to x.bkey)) = [] := by
    rw [List.filter_eq_nil_iff]
    intro x hx
    rw [mem_ordF] at hx
    rcases h x hx with h | h <;> simp [h]
  rw [matching_eq ht hne f hlo hto, hnil]; rfl

theorem matching_sin {r : Range} {to : BKey} (ht : Typed r .sin to) (f : Option EFilter) {l : List Elem} (hs : Sorted l) {e : Elem}
    (he : e ∈ l) (hk : e.bkey = r.lo) : matching r f l = [e].filter (pass f) := by
  classical
  obtain ⟨-, h1, -, h2⟩ := ht
  rw [matching, if_neg h1]
  simp only [h2]
  obtain ⟨m, hm, hme⟩ := List.getElem_of_mem he
  obtain ⟨a, b, rfl, -⟩ := split_at (List.getElem?_eq_some_iff.mpr ⟨hm, hme⟩)
  have hs' : (a ++ e :: b).Pairwise fun a b => KLt a.bkey b.bkey := hs
  obtain ⟨p1, p2, p3⟩ := List.pairwise_append.mp hs'
  obtain ⟨p4, p5⟩ := List.pairwise_cons.mp p2
  rw [List.filter_append, List.filter_cons, List.filter_eq_nil_iff.mpr, List.filter_eq_nil_iff.mpr]
  · simp [hk, pass, List.filter_cons]
  · intro x hx
    have := p4 x hx
    simp only [decide_eq_true_eq, not_and]
    intro hxk; rw [hxk, hk] at this; exact absurd this (klt_irrefl _)
  · intro x hx
    have := p3 x hx e (by simp)
    simp only [decide_eq_true_eq, not_and]
    intro hxk; rw [hxk, hk] at this; exact absurd this (klt_irrefl _)

theorem matching_sin_none {r : Range} {to : BKey} (ht : Typed r .sin to) (f : Option EFilter) {l : List Elem}
    (h : ∀ x ∈ l, x.bkey ≠ r.lo) : matching r f l = [] := by
  classical
  obtain ⟨-, h1, -, h2⟩ := ht
  rw [matching, if_neg h1, List.filter_eq_nil_iff]
  intro x hx
  simp [h2, h x hx]

end Verif.BT
