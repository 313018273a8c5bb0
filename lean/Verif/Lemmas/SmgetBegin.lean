import Verif.Lemmas.SmgetScan
/-!
# Sort-merge get: what one key contributes
-/
namespace Verif.Smget
open Verif.BT Verif.BT.Spec Verif.Smget.Spec

/-- The elements wanted of a collection, from the element where the walk starts. -/
theorem matching_up {r : Range} {rt : RType} {to : BKey} (hd : Dir r rt to) (f : Option EFilter) {l : List Elem}
    (hlo : Fits r.lo l) (hs : Sorted l) {m : Nat} {e : Elem} {rest : List Elem}
    (hq : seq (up rt) l m = e :: rest) (hpre : ∀ x ∈ preF (up rt) l m, Before (up rt) x.bkey r.lo)
    (he : ¬ Before (up rt) e.bkey r.lo) (het : ¬ Before (up rt) to e.bkey) :
    matching r f l = (e :: within' (up rt) to rest).filter (pass f) := by
  classical
  have hp := seq_sorted (forward := up rt) hs m
  rw [hq] at hp
  have hord : (if Descending r then l.reverse else l) = ordF (up rt) l := by
    unfold ordF
    by_cases h : Descending r
    · rw [if_pos h, hd.desc.mp h]; rfl
    · have : up rt = true := by
        cases hu : up rt with
        | true => rfl
        | false => exact absurd (hd.desc.mpr hu) h
      rw [if_neg h, this]; rfl
  have hkin : ∀ x ∈ l, Kin r.lo x.bkey := fun x hx => hlo.2 x hx
  rw [matching, hord, ordF_split _ _ m, hq, List.filter_append]
  have hnil : (preF (up rt) l m).filter (fun x => decide (BT.Spec.InRange r x.bkey ∧ Passes f x.eflag)) = [] := by
    rw [List.filter_eq_nil_iff]
    intro x hx
    have hxl : x ∈ l := by
      have : x ∈ ordF (up rt) l := by rw [ordF_split _ _ m]; exact List.mem_append_left _ hx
      exact mem_ordF.mp this
    simp only [hd.range _ (hkin x hxl), hpre x hx, not_true_eq_false, false_and, decide_false, Bool.false_eq_true, not_false_eq_true]
  rw [hnil, List.nil_append]
  have hw : e :: within' (up rt) to rest = within' (up rt) to (e :: rest) := (within_cons_in het).symm
  rw [hw, within_filter hp, List.filter_filter]
  apply List.filter_congr
  intro x hx
  have hxl : x ∈ l := mem_seq (d := up rt) (m := m) (by rw [hq]; exact hx)
  have hxlo : ¬ Before (up rt) x.bkey r.lo := by
    rcases List.mem_cons.mp hx with rfl | hx
    · exact he
    · intro h; exact he (before_trans ((List.pairwise_cons.mp hp).1 x hx) h)
  rw [pass]
  simp only [hd.range _ (hkin x hxl), hxlo, not_false_eq_true, true_and]
  by_cases h1 : Before (up rt) to x.bkey <;> by_cases h2 : Passes f x.eflag <;> simp [h1, h2]

theorem matching_out {r : Range} (f : Option EFilter) {l : List Elem} (h : ∀ x ∈ l, ¬ BT.Spec.InRange r x.bkey) : matching r f l = [] := by
  classical
  rw [matching, List.filter_eq_nil_iff]
  intro x hx
  have hxl : x ∈ l := by split at hx <;> simpa using hx
  simp [h x hxl]

theorem mem_matching {r : Range} {f : Option EFilter} {l : List Elem} {x : Elem} (h : x ∈ matching r f l) : x ∈ l := by
  classical
  rw [matching, List.mem_filter] at h
  have := h.1
  split at this <;> simpa using this

/-- The last element in the direction of the range. -/
theorem last_ord {d : Bool} {l : List Elem} {m : Nat} {e : Elem} {rest : List Elem} (hq : seq d l m = e :: rest) :
    (if d = true then l.getLast? else l.head?) = some ((e :: rest).getLast (List.cons_ne_nil _ _)) := by
  have h : (ordF d l).getLast? = some ((e :: rest).getLast (List.cons_ne_nil _ _)) := by
    rw [ordF_split _ _ m, hq, List.getLast?_append, List.getLast?_eq_some_getLast (List.cons_ne_nil _ _)]; rfl
  cases d with
  | true => simpa [ordF] using h
  | false => simpa [ordF] using h

theorem getLast_max {d : Bool} {e : Elem} {rest : List Elem} (hp : (e :: rest).Pairwise fun a b => Before d a.bkey b.bkey) {x : Elem}
    (hx : x ∈ e :: rest) : x = (e :: rest).getLast (List.cons_ne_nil _ _) ∨ Before d x.bkey (lastB e rest) := by
  induction rest generalizing e x with
  | nil => left; simpa using hx
  | cons y ys ih =>
    rw [List.getLast_cons_cons, lastB_cons]
    obtain ⟨h1, h2⟩ := List.pairwise_cons.mp hp
    rcases List.mem_cons.mp hx with rfl | hx
    · right
      rcases ih h2 List.mem_cons_self with h | h
      · have := h1 y List.mem_cons_self
        rw [h] at this; exact this
      · exact before_trans (h1 y List.mem_cons_self) h
    · exact ih h2 hx

/-- When the walk runs into trimmed space, in the words of the specification. -/
theorem cutOff_iff {c : C} {r : Range} {rt : RType} {to : BKey} (hd : Dir r rt to) (hlo : Fits r.lo c.elems)
    (hs : Sorted c.elems) {m : Nat} {e : Elem} {rest : List Elem}
    (hq : seq (up rt) c.elems m = e :: rest) (hpre : ∀ x ∈ preF (up rt) c.elems m, Before (up rt) x.bkey r.lo)
    (he : ¬ Before (up rt) e.bkey r.lo) (het : ¬ Before (up rt) to e.bkey) (hT : Taken r c) (b : BKey) :
    CutOff c r b ↔ RunsOff to (up rt) false rest ∧ c.trimmed = true ∧ c.ovfl = ahead (up rt) ∧ b = lastB e rest := by
  have hp := seq_sorted (forward := up rt) hs m
  rw [hq] at hp
  have hlast := last_ord hq
  have hkin : ∀ x ∈ c.elems, Kin r.lo x.bkey := fun x hx => hlo.2 x hx
  have hmem : ∀ x ∈ e :: rest, x ∈ c.elems := fun x hx => mem_seq (d := up rt) (m := m) (by rw [hq]; exact hx)
  have hem : e ∈ c.elems := hmem e List.mem_cons_self
  have hein : BT.Spec.InRange r e.bkey := (hd.range _ (hkin e hem)).mpr ⟨he, het⟩
  have hlastm : (e :: rest).getLast (List.cons_ne_nil _ _) ∈ c.elems := hmem _ (List.getLast_mem _)
  have hLlo : ∀ x ∈ e :: rest, ¬ Before (up rt) x.bkey r.lo := by
    intro x hx
    rcases List.mem_cons.mp hx with rfl | hx
    · exact he
    · intro h; exact he (before_trans ((List.pairwise_cons.mp hp).1 x hx) h)
  have core : (BT.Spec.InRange r (lastB e rest) ∧
      (lastB e rest ≠ to ∨ ∀ x ∈ c.elems, BT.Spec.InRange r x.bkey → x = (e :: rest).getLast (List.cons_ne_nil _ _))) ↔
      RunsOff to (up rt) false rest := by
    constructor
    · rintro ⟨h1, h2⟩
      have h1' := (hd.range _ (hkin _ hlastm)).mp h1
      refine ⟨?_, fun _ => rfl, ?_⟩
      · intro x hx hb
        rcases getLast_max hp (List.mem_cons_of_mem _ hx) with h | h
        · rw [h] at hb; exact h1'.2 hb
        · exact h1'.2 (before_trans hb h)
      · intro x hx
        cases rest with
        | nil => cases hx
        | cons y ys =>
          have hxl : (e :: y :: ys).getLast (List.cons_ne_nil _ _) = x := by
            rw [List.getLast_cons_cons]
            rw [List.getLast?_eq_some_getLast (List.cons_ne_nil _ _)] at hx
            exact Option.some.inj hx
          have hxb : x.bkey = lastB e (y :: ys) := by rw [lastB, hxl]
          rcases h2 with h2 | h2
          · rw [hxb]; exact h2
          · have hee := h2 e hem hein
            have hbm := (List.pairwise_cons.mp hp).1 ((e :: y :: ys).getLast (List.cons_ne_nil _ _)) (by
              rw [List.getLast_cons_cons]; exact List.getLast_mem _)
            rw [← hee] at hbm
            exact absurd hbm before_irrefl
    · rintro ⟨h1, -, h3⟩
      have hlt : ¬ Before (up rt) to (lastB e rest) := by
        have := List.getLast_mem (List.cons_ne_nil e rest)
        rcases List.mem_cons.mp this with h | h
        · unfold lastB; rw [h]; exact het
        · exact h1 _ h
      refine ⟨(hd.range _ (hkin _ hlastm)).mpr ⟨hLlo _ (List.getLast_mem _), hlt⟩, ?_⟩
      cases rest with
      | nil =>
        right
        intro x hx hin
        have hin' := (hd.range _ (hkin x hx)).mp hin
        have : x ∈ ordF (up rt) c.elems := mem_ordF.mpr hx
        rw [ordF_split _ _ m, hq, List.mem_append] at this
        rcases this with h | h
        · exact absurd (hpre x h) hin'.1
        · simpa using h
      | cons y ys =>
        left
        have := h3 ((y :: ys).getLast (List.cons_ne_nil _ _)) (List.getLast?_eq_some_getLast (List.cons_ne_nil _ _))
        rw [lastB_cons]; exact this
  rw [← core]
  unfold CutOff
  simp only [hd.ends]
  constructor
  · rintro ⟨-, h1, x, rfl, h2, h3, h4⟩
    have hx : x = (e :: rest).getLast (List.cons_ne_nil _ _) ∧ c.ovfl = ahead (up rt) := by
      rcases h3 with ⟨g1, g2, g3⟩ | ⟨g1, g2, g3⟩
      · have hu : up rt = true := by
          cases hu : up rt with
          | true => rfl
          | false => exact absurd (hd.desc.mpr hu) g1
        rw [hu, if_pos rfl, g3] at hlast
        exact ⟨Option.some.inj hlast, by rw [g2, hu]; rfl⟩
      · have hu := hd.desc.mp g1
        rw [hu, if_neg (by decide), g3] at hlast
        exact ⟨Option.some.inj hlast, by rw [g2, hu]; rfl⟩
    obtain ⟨rfl, ho⟩ := hx
    exact ⟨⟨h2, h4⟩, h1, ho, rfl⟩
  · rintro ⟨⟨h2, h4⟩, h1, ho, rfl⟩
    refine ⟨hT, h1, _, rfl, h2, ?_, h4⟩
    cases hu : up rt with
    | true =>
      left
      rw [hu, if_pos rfl] at hlast
      refine ⟨fun h => ?_, by rw [ho, hu]; rfl, hlast⟩
      rw [hd.desc.mp h] at hu; cases hu
    | false =>
      right
      rw [hu, if_neg (by decide)] at hlast
      exact ⟨hd.desc.mpr hu, by rw [ho, hu]; rfl, hlast⟩

theorem cutOff_mem {c : C} {r : Range} {b : BKey} (h : CutOff c r b) : ∃ e ∈ c.elems, e.bkey = b ∧ BT.Spec.InRange r b := by
  obtain ⟨-, -, e, h1, h2, h3, -⟩ := h
  rcases h3 with ⟨-, -, h⟩ | ⟨-, -, h⟩
  · exact ⟨e, List.mem_of_getLast? h, h1, h2⟩
  · exact ⟨e, List.mem_of_head? h, h1, h2⟩

/-- No element lies beyond the one where the walk runs into trimmed space. -/
theorem cutOff_last {c : C} {r : Range} {rt : RType} {to : BKey} (hd : Dir r rt to) (hs : Sorted c.elems) {b : BKey} (h : CutOff c r b) :
    ∀ x ∈ c.elems, ¬ Before (up rt) b x.bkey := by
  obtain ⟨-, -, e, rfl, -, h3, -⟩ := h
  intro x hx
  rcases h3 with ⟨g1, -, g3⟩ | ⟨g1, -, g3⟩
  · have hu : up rt = true := by
      cases hu : up rt with
      | true => rfl
      | false => exact absurd (hd.desc.mpr hu) g1
    rw [hu]
    obtain ⟨ys, hy⟩ := List.getLast?_eq_some_iff.mp g3
    rw [hy] at hs hx
    rcases List.mem_append.mp hx with hx | hx
    · intro h; exact klt_asymm h ((List.pairwise_append.mp hs).2.2 x hx e (by simp))
    · simp only [List.mem_singleton] at hx; subst hx; exact before_irrefl
  · rw [hd.desc.mp g1]
    cases hc : c.elems with
    | nil => rw [hc] at hx; cases hx
    | cons y ys =>
      rw [hc] at hs hx g3
      simp only [List.head?_cons, Option.some.injEq] at g3
      subst g3
      rcases List.mem_cons.mp hx with rfl | hx
      · exact before_irrefl
      · intro h; exact klt_asymm h ((List.pairwise_cons.mp hs).1 x hx)

/-- What a key that holds a collection contributes. -/
theorem begin_tree {c : C} {info : Info} (R : Rel c info) {r : Range} (hr : RangeOk r) {f : Option EFilter} (hf : FilterOk f)
    {rt : RType} {to : BKey} (hrt : rangeType r = some (rt, to)) {db : List Nat → Entry} {key : List Nat} (hdb : db key = .tree info)
    (kidx : Nat) :
    (c.readable = false → begin_ ⟨rt, r.lo, to, f⟩ db kidx key = some (.miss .unreadable)) ∧
    (c.readable = true → c.elems ≠ [] ∧ c.Alien r.lo → begin_ ⟨rt, r.lo, to, f⟩ db kidx key = some (.err .badBkey)) ∧
    (c.readable = true → ¬ (c.elems ≠ [] ∧ c.Alien r.lo) → Behind c r → begin_ ⟨rt, r.lo, to, f⟩ db kidx key = some (.miss .bkeyoor)) ∧
    (c.readable = true → ¬ (c.elems ≠ [] ∧ c.Alien r.lo) → ¬ Behind c r →
      (begin_ ⟨rt, r.lo, to, f⟩ db kidx key = some .empty ∧ matching r f c.elems = [] ∧ ∀ b, ¬ CutOff c r b) ∨
      (∃ t b, begin_ ⟨rt, r.lo, to, f⟩ db kidx key = some (.scan (.out t b)) ∧ matching r f c.elems = [] ∧
        ∀ b', CutOff c r b' ↔ t = true ∧ b' = b) ∨
      (∃ s l t, begin_ ⟨rt, r.lo, to, f⟩ db kidx key = some (.scan (.at s)) ∧ s.kidx = kidx ∧ s.key = key ∧ s.info = info ∧
        Str ⟨rt, r.lo, to, f⟩ s l t ∧ matching r f c.elems = s.elem :: l ∧ ∀ b, CutOff c r b ↔ t = some b)) := by
  obtain ⟨rt', to', g1, ht, hsk, hvt⟩ := rangeType_spec hr
  rw [hrt] at g1
  simp only [Option.some.injEq, Prod.mk.injEq] at g1
  obtain ⟨rfl, rfl⟩ := g1
  have hd := dir_of hr hrt ht
  generalize hB : begin_ ⟨rt, r.lo, to, f⟩ db kidx key = B
  rw [begin_, hdb] at hB
  simp only at hB
  refine ⟨fun h => ?_, fun h h2 => ?_, ?_⟩
  · rw [← hB, ← R.readable, h, if_pos rfl]
  · rw [← hB, ← R.readable, h, if_neg (by decide), R.good.ccnt, ← R.elems,
      if_neg (by have := List.length_pos_iff.mpr h2.1; omega), if_pos ((R.alien hr.1).mpr h2.2)]
  by_cases hrd : c.readable = false
  · exact ⟨fun h => absurd (hrd.symm.trans h) (by decide), fun h => absurd (hrd.symm.trans h) (by decide)⟩
  have hrd : c.readable = true := by simpa using hrd
  by_cases hbad : c.elems ≠ [] ∧ c.Alien r.lo
  · exact ⟨fun _ h => absurd hbad h, fun _ h => absurd hbad h⟩
  by_cases hne : c.elems = []
  · refine ⟨fun _ _ h => absurd hne h.1, fun _ _ _ => .inl ⟨?_, ?_, ?_⟩⟩
    · rw [← hB, ← R.readable, hrd, if_neg (by decide), R.good.ccnt, ← R.elems, hne, if_pos (show ([] : List Elem).length = 0 from rfl)]
    · rw [hne]; classical simp [matching]
    · intro b h
      obtain ⟨e, he, -⟩ := cutOff_mem h
      rw [hne] at he; cases he
  have hal : ¬ c.Alien r.lo := fun h => hbad ⟨hne, h⟩
  have hflo : Fits r.lo info.tree.leaves.flatten := R.fits hr.1 hal
  have hfto : Fits to info.tree.leaves.flatten := Typed.fits R hsk hvt hal
  have hlen : c.elems.length ≠ 0 := by have := List.length_pos_iff.mpr hne; omega
  have hflat : info.tree.leaves.flatten ≠ [] := by rw [← R.elems]; exact hne
  have hleaf : info.tree.leaves ≠ [] := by intro h; rw [h] at hflat; exact hflat rfl
  rw [← R.readable, hrd, if_neg (by decide), R.good.ccnt, ← R.elems, if_neg hlen,
    if_neg (by rw [R.alien hr.1]; exact hal), if_neg hleaf] at hB
  have hwf := R.good.wf.full
  obtain ⟨-, hu, ha⟩ := hwf hleaf
  have hn := R.good.wf.nodes
  have hbehind : Behind c r ↔ c.trimmed = true ∧ Back info.ovfl r.lo info.tree.leaves.flatten := by
    unfold Behind Back Under Over
    rw [R.elems, R.ovfl]
    exact ⟨fun h => h.2, fun h => ⟨hflat, h⟩⟩
  rcases first_spec ht hd hn hu ha hflo hfto R.good.sorted hflat info.ovfl with
    ⟨pos, p, h1, h2, h3⟩ | ⟨m, n, i, e, rest, b, p, h1, h2, h3, h4, h5, h6, h7, h8⟩
  · rw [h1] at hB
    simp only at hB
    rw [← R.elems] at h2
    refine ⟨fun _ _ h => ?_, fun _ _ h => .inl ⟨?_, matching_out f h2, ?_⟩⟩
    · have := hbehind.mp h
      rw [← hB, if_pos]
      rw [← R.trimmed, this.1, Bool.true_and]; exact h3.mpr this.2
    · rw [← hB, if_neg]
      intro hh
      rw [Bool.and_eq_true, ← R.trimmed] at hh
      exact h (hbehind.mpr ⟨hh.1, h3.mp hh.2⟩)
    · intro b hb
      obtain ⟨e, he, rfl, hin⟩ := cutOff_mem hb
      exact h2 e he hin
  · rw [h1] at hB
    simp only at hB
    have hcond : (!b && info.trimmed && overlapped info.ovfl info.tree.leaves (.pos n i) rt) = true ↔ Behind c r := by
      rw [hbehind, R.trimmed, ← h8]
      cases b <;> cases info.trimmed <;> simp
    refine ⟨fun _ _ h => ?_, fun _ _ h => ?_⟩
    · rw [← hB, if_pos (hcond.mpr h)]
    · rw [if_neg (fun hh => h (hcond.mp hh))] at hB
      have hem : e ∈ info.tree.leaves.flatten := List.mem_of_getElem? h3
      have hkeep : ∀ x ∈ info.tree.leaves.flatten, keep f x = some (pass f x) := fun x _ => keep_spec hf x
      rw [hkeep e hem] at hB
      have cx : Ctx ⟨rt, r.lo, to, f⟩ info (pass f) := ⟨fun c hc => (hn c hc).1, hfto, R.good.sorted, hkeep⟩
      have hst : Stand ⟨rt, r.lo, to, f⟩ info ⟨kidx, key, info, n, i, false, e⟩ m rest := ⟨rfl, h2, h4, by simp⟩
      have hmat : matching r f c.elems = (e :: within' (up rt) to rest).filter (pass f) := by
        rw [R.elems]; exact matching_up hd f hflo R.good.sorted h4 h5 h6 h7
      have hcut : ∀ b, CutOff c r b ↔ RunsOff to (up rt) false rest ∧ c.trimmed = true ∧ c.ovfl = ahead (up rt) ∧ b = lastB e rest := by
        intro b
        have e1 := R.elems
        rw [← e1] at hflo h4 h5
        exact cutOff_iff hd hflo (by rw [e1]; exact R.good.sorted) h4 h5 h6 h7 ⟨hrd, h⟩ b
      cases hp : pass f e with
      | true =>
        rw [hp] at hB
        simp only at hB
        obtain ⟨t, t1, t2⟩ := str_of_stand cx rest.length rest m _ (Nat.le_refl _) hst
        refine .inr (.inr ⟨_, _, t, hB.symm, rfl, rfl, rfl, t1, ?_, ?_⟩)
        · rw [hmat, List.filter_cons, if_pos hp]; rfl
        · intro b
          rw [hcut, t2, R.trimmed, R.ovfl]; exact Iff.rfl
      | false =>
        rw [hp] at hB
        simp only at hB
        have hmat' : matching r f c.elems = (within' (up rt) to rest).filter (pass f) := by
          rw [hmat, List.filter_cons, if_neg (by rw [hp]; decide)]
        rcases move_spec cx rest m _ _ hst hst.room with ⟨t, b, k1, k2, k3, k4⟩ | ⟨s', m', rest', k1, k2, k3, k4, k5, k6, k7, k8, k9⟩
        · refine .inr (.inl ⟨t, b, ?_, hmat'.trans k2, ?_⟩)
          · rw [← hB, move]; simp only [k1, Option.map_some]
          · intro b'
            rw [hcut, R.trimmed, R.ovfl]
            constructor
            · rintro ⟨g1, g2, g3, g4⟩
              have htt := k3.mpr ⟨g1, g2, g3⟩
              exact ⟨htt, by rw [g4, k4 htt]⟩
            · rintro ⟨g1, g2⟩
              obtain ⟨q1, q2, q3⟩ := k3.mp g1
              exact ⟨q1, q2, q3, by rw [g2, k4 g1]⟩
        · obtain ⟨t, t1, t2⟩ := str_of_stand cx rest'.length rest' m' s' (Nat.le_refl _) k2
          refine .inr (.inr ⟨s', _, t, ?_, k3, k4, k2.same, t1, hmat'.trans k5, ?_⟩)
          · rw [← hB, move]; simp only [k1, Option.map_some]
          · intro b
            rw [hcut, t2, R.trimmed, R.ovfl]
            rw [← k6, ← k7]; exact Iff.rfl

end Verif.Smget
