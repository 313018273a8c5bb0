import Verif.Lemmas.BTreeCheck
/-!
# Lemmas on the insertion of a b+tree element
-/
namespace Verif.BT
open Verif.BT.Spec

/-! ## Trimming -/

theorem overflowTrim_low {c : C} {info : Info} (R : Rel c info) (e : Elem) (ht : TrimsLow c.ovfl) {a : Elem} {l : List Elem}
    (hl : c.elems = a :: l) :
    ∃ info', overflowTrim info e .count = some (info', some a) ∧
      Rel { c with elems := l, trimmed := c.trimmed || decide (c.ovfl = .smallest) } info' := by
  obtain ⟨h1, t, h2, info', h3, R'⟩ := trimFirst_spec R hl
  have h0 : ¬ (info.ovfl = .error ∨ info.ovfl = .other) := by
    rw [← R.ovfl]; rcases ht with h | h <;> rw [h] <;> simp
  have ht' : info.ovfl = .smallest ∨ info.ovfl = .smallestSilent := by rw [← R.ovfl]; exact ht
  rw [overflowTrim, if_neg h0, if_pos ht', h1, h2]
  rotate_left
  · intro h; cases h
  simp only [h3, Option.map_some]
  refine ⟨_, rfl, ?_⟩
  have h4 : info'.trimmed = c.trimmed := R'.trimmed.symm
  have h5 : (info.ovfl == Ovfl.smallest) = decide (c.ovfl = .smallest) := by rw [← R.ovfl]; cases c.ovfl <;> rfl
  rw [h4, h5]
  exact R'.settrim _

theorem overflowTrim_high {c : C} {info : Info} (R : Rel c info) (e : Elem) (ht : TrimsHigh c.ovfl) {a : Elem} {l : List Elem}
    (hl : c.elems = l ++ [a]) :
    ∃ info', overflowTrim info e .count = some (info', some a) ∧
      Rel { c with elems := l, trimmed := c.trimmed || decide (c.ovfl = .largest) } info' := by
  obtain ⟨cl, p, t, h1, h2, h3, h4, info', h5, R'⟩ := trimLast_spec R hl
  have h0 : ¬ (info.ovfl = .error ∨ info.ovfl = .other) := by
    rw [← R.ovfl]; rcases ht with h | h <;> rw [h] <;> simp
  have ht' : ¬ (info.ovfl = .smallest ∨ info.ovfl = .smallestSilent) := by
    rw [← R.ovfl]; rcases ht with h | h <;> rw [h] <;> simp
  rw [overflowTrim, if_neg h0, if_neg ht', h1, h2]
  rotate_left
  · intro h; cases h
  simp only
  rw [h3, h4]
  simp only [h5, Option.map_some]
  refine ⟨_, rfl, ?_⟩
  have h6 : info'.trimmed = c.trimmed := R'.trimmed.symm
  have h7 : (info.ovfl == Ovfl.largest) = decide (c.ovfl = .largest) := by rw [← R.ovfl]; cases c.ovfl <;> rfl
  rw [h6, h7]
  exact R'.settrim _

theorem mem_select_all {r : Range} {l : List Elem} {x : Elem} : x ∈ select r none 0 0 l ↔ x ∈ l ∧ Spec.InRange r x.bkey := by
  classical
  rw [select_all, matching, List.mem_filter, decide_eq_true_iff]
  have : Passes none x.eflag := trivial
  split <;> simp [this]

open Classical in
theorem overflowTrim_range {c : C} {info : Info} (R : Rel c info) {e : Elem} {r : Range} (hr : trimRange info e = some r) (hok : RangeOk r)
    (hk : ∀ x ∈ c.elems, SameKind r.lo x.bkey) (ho : c.ovfl ≠ .error)
    (hdel : ∃ x ∈ c.elems, Spec.InRange r x.bkey) (hkeep : ∃ x ∈ c.elems, ¬ Spec.InRange r x.bkey) :
    ∃ info', overflowTrim info e .range = some (info', none) ∧
      Rel { c with elems := c.elems.filter (fun x => decide (¬ Spec.InRange r x.bkey)),
                   trimmed := c.trimmed && decide (c.ovfl ≠ .smallest ∧ c.ovfl ≠ .largest) } info' := by
  have h0 : ¬ (info.ovfl = .error ∨ info.ovfl = .other) := by
    rw [← R.ovfl]; rintro (h | h)
    · exact ho h
    · exact R.action h
  obtain ⟨rt, to, t1, t2, t3, t4⟩ := rangeType_spec hok
  have hlo : Fits r.lo info.tree.leaves.flatten := by
    refine ⟨ValidKey.nonEmpty hok.1, fun x hx => ?_⟩
    rw [← R.elems] at hx
    exact ⟨hk x hx, ValidKey.nonEmpty (R.key hx).1⟩
  have hto : Fits to info.tree.leaves.flatten := by
    refine ⟨ValidKey.nonEmpty t4, fun x hx => ?_⟩
    rw [← R.elems] at hx
    exact ⟨t3.symm.trans (hk x hx), ValidKey.nonEmpty (R.key hx).1⟩
  obtain ⟨info', d1, d2⟩ := elemDelete_spec t2 (f := none) (by intro g h; cases h) 0 0 R.good hlo hto
  have hflat : info'.tree.leaves.flatten = c.elems.filter (fun x => decide (¬ Spec.InRange r x.bkey)) := by
    rw [d2.flat, without, ← R.elems]
    apply List.filter_congr
    intro x hx
    rw [decide_eq_decide, mem_select_all]
    simp [hx]
  have hz : ¬ ((select r none 0 0 info.tree.leaves.flatten).length = 0 ∨ info'.ccnt = 0) := by
    rintro (h | h)
    · obtain ⟨x, hx, hi⟩ := hdel
      have : x ∈ select r none 0 0 info.tree.leaves.flatten := mem_select_all.mpr ⟨by rw [← R.elems]; exact hx, hi⟩
      rw [List.length_eq_zero_iff.mp h] at this; cases this
    · obtain ⟨x, hx, hi⟩ := hkeep
      rw [d2.good.ccnt] at h
      have : x ∈ info'.tree.leaves.flatten := by rw [hflat, List.mem_filter]; exact ⟨hx, decide_eq_true hi⟩
      rw [List.length_eq_zero_iff.mp h] at this; cases this
  rw [overflowTrim, if_neg h0]
  simp only [hr, t1, d1]
  rw [if_neg hz]
  refine ⟨_, rfl, ?_⟩
  have R' := R.tree d2.good d2.rest hflat (fun x hx => (List.mem_filter.mp hx).1)
  have htr : (if info.ovfl = .smallest ∨ info.ovfl = .largest then false else info'.trimmed) =
      (c.trimmed && decide (c.ovfl ≠ .smallest ∧ c.ovfl ≠ .largest)) := by
    have h4 : info'.trimmed = c.trimmed := R'.trimmed.symm
    rw [h4, ← R.ovfl]
    cases c.ovfl <;> simp
  rw [htr]
  exact R'.settrim _

theorem over_place {c : C} {e : Elem} (h : Over c e.bkey) : place e c.elems = c.elems ++ [e] := by
  have := place_eq (e := e) (a := c.elems) (b := []) h (by simp)
  rwa [List.append_nil] at this

theorem under_place {c : C} {e : Elem} (h : Under c e.bkey) : place e c.elems = e :: c.elems :=
  place_eq (e := e) (a := []) (b := c.elems) (by simp) h

open Classical in
/-- Trimming the lower end of the range. -/
theorem trimRange_low {c : C} {e : Elem} {info : Info} (R : Rel { c with elems := place e c.elems } info)
    (hs : Sorted c.elems) {mr : BKey} (h : HighOver c e mr) (ht : TrimsLow c.ovfl) :
    ∃ info' to a, overflowTrim info e .range = some (info', none) ∧ c.elems.head? = some a ∧ ValidKey to ∧ SameKind to mr ∧
      size to = size mr ∧ Value (size mr) to + Value (size mr) mr + 1 = Value (size mr) e.bkey ∧
      Rel { c with elems := (place e c.elems).filter (fun x => decide (KLt to x.bkey ∧ x ≠ a)),
                   trimmed := c.trimmed && decide (c.ovfl ≠ .smallest) } info' := by
  obtain ⟨h1, h2, a, h3, h4⟩ := h
  obtain ⟨l, hl⟩ := head_split h3
  have hp := over_place h2
  have km := (R.range mr h1).1
  have hmem : ∀ {x}, x ∈ place e c.elems ↔ x ∈ c.elems ∨ x = e := by
    intro x; rw [hp]; simp
  have hae : a ∈ place e c.elems := hmem.mpr (.inl (List.mem_of_head? h3))
  have hee : e ∈ place e c.elems := hmem.mpr (.inr rfl)
  have ke := (R.key hee).1
  have ka := (R.key hae).1
  have kind : ∀ {x}, x ∈ place e c.elems → SameKind x.bkey mr := fun hx => R.elemRange h1 hx
  rw [Wide] at h4
  obtain ⟨d, d1, d2, d3, d4, d5⟩ := bkeyDiff_spec km ke km (kind hee) (SameKind.refl _) (by omega)
  have d5' : Value (size d) d = Value (size mr) e.bkey - Value (size mr) mr := by rw [d4]; exact d5
  obtain ⟨to, t1, t2, t3, t4, t5⟩ := bkeyDecr_spec d2 (by omega)
  rw [d4] at t4 t5
  have htm : SameKind to mr := t3.trans d3
  have hn := R.good.wf.nodes
  have ht' : info.ovfl = .smallest ∨ info.ovfl = .smallestSilent := by
    have := R.ovfl; simp only at this; rw [← this]; exact ht
  have hmr : info.maxRange = some mr := by have := R.maxRange; simp only at this; rw [← this]; exact h1
  have hel : info.tree.leaves.flatten = place e c.elems := by have := R.elems; simp only at this; exact this.symm
  have hr : trimRange info e = some ⟨a.bkey, some to⟩ := by
    rw [trimRange, hmr]
    simp only
    rw [if_pos ht', firstElem_spec hn, hel, hp, hl, d1]
    simp only [List.cons_append, List.head?_cons, t1]
  have hx : ∀ x ∈ place e c.elems, x = a ∨ KLt a.bkey x.bkey := by
    intro x hx
    rw [hmem, hl, List.mem_cons] at hx
    rcases hx with (hx | hx) | rfl
    · exact .inl hx
    · rw [hl] at hs; exact .inr ((List.pairwise_cons.mp hs).1 x hx)
    · exact .inr (h2 a (List.mem_of_head? h3))
  have hto : ∀ x ∈ place e c.elems, KLt to x.bkey ∨ to = x.bkey ∨ KLt x.bkey to := by
    intro x hx
    rcases bkeyComp_spec (htm.trans (kind hx).symm) (ValidKey.nonEmpty t2) (ValidKey.nonEmpty (R.key hx).1) with ⟨-, k⟩ | ⟨-, k⟩ | ⟨-, k⟩
    · exact .inl k
    · exact .inr (.inl k)
    · exact .inr (.inr k)
  have hin : ∀ x ∈ place e c.elems, (¬ Spec.InRange ⟨a.bkey, some to⟩ x.bkey ↔ KLt to x.bkey ∧ x ≠ a) := by
    intro x hxm
    rw [Spec.InRange]
    simp only
    constructor
    · intro hni
      have hax : KLe a.bkey x.bkey := by
        rcases hx x hxm with h | h
        · rw [h]; exact .inr rfl
        · exact .inl h
      rcases hto x hxm with k | k | k
      · refine ⟨k, ?_⟩
        rintro rfl
        exact hni (.inr ⟨.inl k, .inr rfl⟩)
      · exact absurd (.inl ⟨hax, .inr k.symm⟩) hni
      · exact absurd (.inl ⟨hax, .inl k⟩) hni
    · rintro ⟨k1, k2⟩ (⟨-, h⟩ | ⟨-, h⟩)
      · exact not_kle k1 h
      · rcases hx x hxm with h' | h'
        · exact k2 h'
        · exact not_kle h' h
  have hve : KLt to e.bkey := value_lt (w := size mr) t2 ke (htm.trans (kind hee).symm) (by omega)
  have hea : e ≠ a := by
    rintro rfl
    exact klt_irrefl _ (h2 e (List.mem_of_head? h3))
  obtain ⟨info', o1, o2⟩ := overflowTrim_range R hr ⟨ka, by rintro h' h''; cases h''; exact ⟨t2, (kind hae).trans htm.symm⟩⟩
    (fun x hx => (kind hae).trans (kind hx).symm) (by show c.ovfl ≠ _; rcases ht with h | h <;> rw [h] <;> simp)
    ⟨a, hae, by
      refine Classical.byContradiction fun h => ?_
      exact ((hin a hae).mp h).2 rfl⟩
    ⟨e, hee, (hin e hee).mpr ⟨hve, hea⟩⟩
  refine ⟨info', to, a, o1, h3, t2, htm, t4, by omega, ?_⟩
  have e1 : (c.trimmed && decide (c.ovfl ≠ .smallest ∧ c.ovfl ≠ .largest)) = (c.trimmed && decide (c.ovfl ≠ .smallest)) := by
    rcases ht with h | h <;> rw [h] <;> simp
  have e2 : (place e c.elems).filter (fun x => decide (KLt to x.bkey ∧ x ≠ a)) =
      (place e c.elems).filter (fun x => decide (¬ Spec.InRange ⟨a.bkey, some to⟩ x.bkey)) := by
    apply List.filter_congr
    intro x hx
    rw [decide_eq_decide]; exact (hin x hx).symm
  rw [← e1, e2]
  exact o2

open Classical in
/-- Trimming the upper end of the range. -/
theorem trimRange_high {c : C} {e : Elem} {info : Info} (R : Rel { c with elems := place e c.elems } info)
    (hs : Sorted c.elems) {mr : BKey} (h : LowOver c e mr) (ht : TrimsHigh c.ovfl) :
    ∃ info' from_ b, overflowTrim info e .range = some (info', none) ∧ c.elems.getLast? = some b ∧ ValidKey from_ ∧ SameKind from_ mr ∧
      size from_ = size mr ∧ Value (size mr) from_ = Value (size mr) e.bkey + Value (size mr) mr + 1 ∧
      Rel { c with elems := (place e c.elems).filter (fun x => decide (KLt x.bkey from_ ∧ x ≠ b)),
                   trimmed := c.trimmed && decide (c.ovfl ≠ .largest) } info' := by
  obtain ⟨h1, h2, b, h3, h4⟩ := h
  obtain ⟨l, hl⟩ := last_split h3
  have hp := under_place h2
  have km := (R.range mr h1).1
  have hmem : ∀ {x}, x ∈ place e c.elems ↔ x ∈ c.elems ∨ x = e := by
    intro x; rw [hp, List.mem_cons]; exact Or.comm
  have hbe : b ∈ place e c.elems := hmem.mpr (.inl (List.mem_of_getLast? h3))
  have hee : e ∈ place e c.elems := hmem.mpr (.inr rfl)
  have ke := (R.key hee).1
  have kb := (R.key hbe).1
  have kind : ∀ {x}, x ∈ place e c.elems → SameKind x.bkey mr := fun hx => R.elemRange h1 hx
  rw [Wide] at h4
  obtain ⟨d, d1, d2, d3, d4, d5⟩ := bkeyDiff_spec km kb ke (kind hbe) (kind hee) (by omega)
  obtain ⟨f, f1, f2, f3, f4, f5⟩ := bkeyDiff_spec km d2 km d3 (SameKind.refl _) (by omega)
  have f5' : Value (size f) f = Value (size mr) d - Value (size mr) mr := by rw [f4]; exact f5
  obtain ⟨g, g1, g2, g3, g4, g5⟩ := bkeyDecr_spec f2 (by omega)
  rw [f4] at g4 g5
  obtain ⟨fr, t1, t2, htm, t4, t5⟩ := bkeyDiff_spec km kb g2 (kind hbe) (g3.trans f3) (by omega)
  have hn := R.good.wf.nodes
  have ht' : ¬ (info.ovfl = .smallest ∨ info.ovfl = .smallestSilent) := by
    have := R.ovfl; simp only at this; rw [← this]; rcases ht with h | h <;> rw [h] <;> simp
  have hmr : info.maxRange = some mr := by have := R.maxRange; simp only at this; rw [← this]; exact h1
  have hel : info.tree.leaves.flatten = place e c.elems := by have := R.elems; simp only at this; exact this.symm
  have hlast : (place e c.elems).getLast? = some b := by
    rw [hp, hl, ← List.cons_append, List.getLast?_concat]
  have hr : trimRange info e = some ⟨fr, some b.bkey⟩ := by
    rw [trimRange, hmr]
    simp only
    rw [if_neg ht', lastElem_spec hn, hel, hlast]
    simp only [d1, f1, g1, t1]
  have hx : ∀ x ∈ place e c.elems, x = b ∨ KLt x.bkey b.bkey := by
    intro x hx
    rw [hmem, hl, List.mem_append, List.mem_singleton] at hx
    rcases hx with (hx | hx) | rfl
    · rw [hl, Sorted, List.pairwise_append] at hs; exact .inr (hs.2.2 x hx b (by simp))
    · exact .inl hx
    · exact .inr (h2 b (List.mem_of_getLast? h3))
  have hto : ∀ x ∈ place e c.elems, KLt fr x.bkey ∨ fr = x.bkey ∨ KLt x.bkey fr := by
    intro x hx
    rcases bkeyComp_spec (htm.trans (kind hx).symm) (ValidKey.nonEmpty t2) (ValidKey.nonEmpty (R.key hx).1) with ⟨-, k⟩ | ⟨-, k⟩ | ⟨-, k⟩
    · exact .inl k
    · exact .inr (.inl k)
    · exact .inr (.inr k)
  have hin : ∀ x ∈ place e c.elems, (¬ Spec.InRange ⟨fr, some b.bkey⟩ x.bkey ↔ KLt x.bkey fr ∧ x ≠ b) := by
    intro x hxm
    rw [Spec.InRange]
    simp only
    constructor
    · intro hni
      have hax : KLe x.bkey b.bkey := by
        rcases hx x hxm with h | h
        · rw [h]; exact .inr rfl
        · exact .inl h
      rcases hto x hxm with k | k | k
      · exact absurd (.inl ⟨.inl k, hax⟩) hni
      · exact absurd (.inl ⟨.inr k, hax⟩) hni
      · refine ⟨k, ?_⟩
        rintro rfl
        exact hni (.inr ⟨.inr rfl, .inl k⟩)
    · rintro ⟨k1, k2⟩ (⟨h, -⟩ | ⟨h, -⟩)
      · exact not_kle k1 h
      · rcases hx x hxm with h' | h'
        · exact k2 h'
        · exact not_kle h' h
  have hve : KLt e.bkey fr := value_lt (w := size mr) ke t2 ((kind hee).trans htm.symm) (by omega)
  have hea : e ≠ b := by
    rintro rfl
    exact klt_irrefl _ (h2 e (List.mem_of_getLast? h3))
  obtain ⟨info', o1, o2⟩ := overflowTrim_range R hr ⟨t2, by rintro h' h''; cases h''; exact ⟨kb, htm.trans (kind hbe).symm⟩⟩
    (fun x hx => htm.trans (kind hx).symm) (by show c.ovfl ≠ _; rcases ht with h | h <;> rw [h] <;> simp)
    ⟨b, hbe, by
      refine Classical.byContradiction fun h => ?_
      exact ((hin b hbe).mp h).2 rfl⟩
    ⟨e, hee, (hin e hee).mpr ⟨hve, hea⟩⟩
  refine ⟨info', fr, b, o1, h3, t2, htm, t4, by omega, ?_⟩
  have e1 : (c.trimmed && decide (c.ovfl ≠ .smallest ∧ c.ovfl ≠ .largest)) = (c.trimmed && decide (c.ovfl ≠ .largest)) := by
    rcases ht with h | h <;> rw [h] <;> simp
  have e2 : (place e c.elems).filter (fun x => decide (KLt x.bkey fr ∧ x ≠ b)) =
      (place e c.elems).filter (fun x => decide (¬ Spec.InRange ⟨fr, some b.bkey⟩ x.bkey)) := by
    apply List.filter_congr
    intro x hx
    rw [decide_eq_decide]; exact (hin x hx).symm
  rw [← e1, e2]
  exact o2

/-! ## Linking -/

/-- The collection with the new element, before trimming. -/
theorem insert_rel {c : C} {info : Info} (R : Rel c info) {e : Elem} (hv : ValidKey e.bkey) (hval : ValueOk e.value)
    (ha : c.elems ≠ [] ∨ c.maxRange ≠ none → ¬ c.Alien e.bkey) {k : Nat} (hg : Slot e c.elems k) {t : Tree} (hw : Wf t)
    (hf : t.leaves.flatten = c.elems.take k ++ e :: c.elems.drop k) :
    Rel { c with elems := place e c.elems, kind := some (kindOf e.bkey) }
      { info with tree := t, ccnt := info.ccnt + 1, bktype := some e.bkey.type } := by
  rw [← hg.place] at hf
  refine ⟨⟨hw, ?_, ?_, ?_⟩, hf.symm, R.count, R.ovfl, R.trimmed, R.readable, R.sticky, ?_, R.maxRange, R.flags, R.action, ?_, ?_⟩
  · simp only [hf]; exact hg.sorted R.sorted
  · simp only [hf]; rw [hg.length, R.ccnt]
  · simp only [hf]
    intro x hx
    rcases hg.mem.mp hx with rfl | hx
    · exact ⟨hv, rfl⟩
    · refine ⟨(R.key hx).1, ?_⟩
      have hne : c.elems ≠ [] := fun h => by rw [h] at hx; cases hx
      rw [type_same.mpr (R.same (ha (.inl hne)) hx)]
  · simp only [type_kind]
  · intro r hr
    simp only at hr ⊢
    refine ⟨(R.range r hr).1, ?_⟩
    rw [not_alien (ha (.inr (by rw [hr]; simp))) (R.range r hr).2]
  · intro x hx
    rcases hg.mem.mp hx with rfl | hx
    · exact hval
    · exact R.values x hx

theorem linkNew_spec (cfg : Cfg) {c : C} {info : Info} (R : Rel c info) (hne : c.elems ≠ []) {e : Elem} (hv : ValidKey e.bkey)
    (hval : ValueOk e.value) {full : Bool} (had : Admits c e full) {n i : Nat} {p : List Posi} {cl : List Elem}
    (hcl : info.tree.leaves[n]? = some cl) (hi : i ≤ cl.length) (h32 : cl.length < 32) (hp : PathTo info.tree.upper n p)
    (hg : Slot e c.elems (off info.tree.leaves n + i)) (replace : Bool) (mem : Nat) :
    ∃ info' o c', linkNew cfg info n i p e = some (info', o) ∧ Insert cfg.maxSize c e replace mem full o c' ∧ Rel c' info' := by
  have hal : ¬ c.Alien e.bkey := fun h => had.1 ⟨.inl hne, h⟩
  have hpos : 0 < info.ccnt := by rw [R.ccnt]; exact List.length_pos_iff.mpr hne
  have hln : info.tree.leaves ≠ [] := by intro h; rw [h] at hcl; simp at hcl
  obtain ⟨n1, n2, n3⟩ := R.good.wf.full hln
  have hup : info.tree.upper.length ≤ 6 := by
    rcases R.good.wf with ⟨h, -⟩ | ⟨-, -, -, h⟩
    · exact absurd h hln
    · exact h
  have hkind : c.kind = some (kindOf e.bkey) := by
    obtain ⟨x, -, -, -, hx, -⟩ := ends hne
    rw [not_alien hal (R.key hx).2]; exact (R.key hx).2
  -- the insertion
  have hins : ∃ t, insertAt info.tree n i p e = some t ∧ Rel { c with elems := place e c.elems }
      { info with tree := t, ccnt := info.ccnt + 1, trimmed := info.trimmed,
                  bktype := if 0 < info.ccnt then info.bktype else some e.bkey.type } := by
    obtain ⟨t, t1, t2, t3, t4⟩ := insertAt_spec e hcl h32 hi hp (fun j x hx _ => (n1 x (List.mem_of_getElem? hx)).1)
      ⟨fun x hx => (n1 x hx).2, n2, n3, hup⟩
    rw [← R.elems] at t4
    have := insert_rel R hv hval (fun _ => hal) hg t2 t4
    refine ⟨t, t1, ?_⟩
    rw [if_pos hpos, ← R.kind, hkind]
    rw [type_kind, ← hkind] at this
    rw [← hkind]
    exact this
  obtain ⟨t, t1, R1⟩ := hins
  have htr : info.trimmed = c.trimmed := R.trimmed.symm
  rw [linkNew, if_pos hpos, overflowCheck]
  obtain ⟨ck, r1, r2⟩ := rangeCheck_spec R hne hv hal
  rw [r1]
  rcases r2 with ⟨rfl, hnear⟩ | ⟨mr, hlo, ⟨rfl, ht⟩ | ⟨rfl, ht⟩⟩ | ⟨mr, hhi, ⟨rfl, ht⟩ | ⟨rfl, ht⟩⟩
  · -- within the range
    simp only
    obtain ⟨ck, tr, k1, k2⟩ := countCheck_spec cfg R hne hv hal
    rw [k1]
    rcases k2 with ⟨rfl, rfl, hlt⟩ | ⟨hcap, ⟨rfl, rfl, ho⟩ | ⟨rfl, ht, hu, rfl⟩ | ⟨rfl, ht, hu, rfl⟩ | ⟨rfl, ht, hu, rfl⟩ | ⟨rfl, ht, hu, rfl⟩⟩
    · simp only [t1, if_true, ← htr]
      exact ⟨_, _, _, rfl, .new had hne hnear hlt, R1⟩
    · simp only [← htr]
      exact ⟨_, _, _, rfl, .overflow had hne hnear hcap ho, R⟩
    · simp only
      exact ⟨_, _, _, rfl, .underTrimmed had hne hnear hcap ht hu, R.settrim _⟩
    · simp only
      exact ⟨_, _, _, rfl, .overTrimmed had hne hnear hcap ht hu, R.settrim _⟩
    · simp only [t1, ← htr]
      rw [if_neg (by simp)]
      have hpl : place e c.elems ≠ [] := by intro h; have := hg.length; rw [h] at this; simp at this
      obtain ⟨a, l, hal⟩ := List.exists_cons_of_ne_nil hpl
      obtain ⟨info', o1, o2⟩ := overflowTrim_low R1 e ht hal
      rw [o1]
      exact ⟨_, _, _, rfl, .trimLow a l had hne hnear hcap ht hu hal, o2⟩
    · simp only [t1, ← htr]
      rw [if_neg (by simp)]
      have hpl : place e c.elems ≠ [] := by intro h; have := hg.length; rw [h] at this; simp at this
      obtain ⟨-, a, -, ha, -, -⟩ := ends hpl
      obtain ⟨l, hal⟩ := last_split ha
      obtain ⟨info', o1, o2⟩ := overflowTrim_high R1 e ht hal
      rw [o1]
      exact ⟨_, _, _, rfl, .trimHigh a l had hne hnear hcap ht hu hal, o2⟩
  · simp only [t1]
    rw [if_neg (by simp)]
    obtain ⟨info', fr, b, o1, o2, o3, o4, o5, o6, o7⟩ := trimRange_high R1 R.sorted hlo ht
    rw [o1]
    exact ⟨_, _, _, rfl, .rangeHigh mr fr b had hlo ht o2 o3 o4 o5 o6, o7⟩
  · simp only
    exact ⟨_, _, _, rfl, .tooLow mr had hlo ht, R⟩
  · simp only [t1]
    rw [if_neg (by simp)]
    obtain ⟨info', to, a, o1, o2, o3, o4, o5, o6, o7⟩ := trimRange_low R1 R.sorted hhi ht
    rw [o1]
    exact ⟨_, _, _, rfl, .rangeLow mr to a had hhi ht o2 o3 o4 o5 o6, o7⟩
  · simp only
    exact ⟨_, _, _, rfl, .tooHigh mr had hhi ht, R⟩

/-- Replacing one element. -/
theorem put_set {l : List Elem} (hs : Sorted l) {m : Nat} {e old : Elem} (hm : l[m]? = some old) (hk : old.bkey = e.bkey) :
    l.set m e = l.map fun x => if x.bkey = e.bkey then e else x := by
  obtain ⟨a, b, rfl, rfl⟩ := split_at hm
  rw [set_mid, List.map_append, List.map_cons]
  rw [Sorted, List.pairwise_append] at hs
  obtain ⟨-, h2, h3⟩ := hs
  congr 1
  · symm
    rw [List.map_eq_iff]
    intro j
    cases hj : a[j]? with
    | none => rfl
    | some x =>
      have := h3 x (List.mem_of_getElem? hj) old (by simp)
      simp only [Option.map_some]
      rw [if_neg]
      intro h; rw [h, hk] at this; exact klt_irrefl _ this
  · rw [if_pos hk]
    congr 1
    symm
    rw [List.map_eq_iff]
    intro j
    cases hj : b[j]? with
    | none => rfl
    | some x =>
      have := (List.pairwise_cons.mp h2).1 x (List.mem_of_getElem? hj)
      simp only [Option.map_some]
      rw [if_neg]
      intro h; rw [h, hk] at this; exact klt_irrefl _ this

theorem sorted_set {l : List Elem} (hs : Sorted l) {m : Nat} {e old : Elem} (hm : l[m]? = some old) (hk : old.bkey = e.bkey) :
    Sorted (l.set m e) := by
  obtain ⟨a, b, rfl, rfl⟩ := split_at hm
  rw [set_mid]
  rw [Sorted, List.pairwise_append] at hs ⊢
  obtain ⟨h1, h2, h3⟩ := hs
  rw [List.pairwise_cons] at h2
  refine ⟨h1, List.pairwise_cons.mpr ⟨fun x hx => by rw [← hk]; exact h2.1 x hx, h2.2⟩, ?_⟩
  intro x hx y hy
  rcases List.mem_cons.mp hy with rfl | hy
  · rw [← hk]; exact h3 x hx old (by simp)
  · exact h3 x hx y (by simp [hy])

theorem Rel.replace {c : C} {info : Info} (R : Rel c info) {m n i : Nat} {e old : Elem} (hat : At info.tree.leaves m n i)
    (hm : info.tree.leaves.flatten[m]? = some old) (hk : old.bkey = e.bkey) (hval : ValueOk e.value) :
    ∃ t, replaceAt info.tree n i e = some t ∧ Rel { c with elems := put e c.elems } { info with tree := t } := by
  obtain ⟨t, t1, t2, t3⟩ := replaceAt_spec e hat R.good.wf
  refine ⟨t, t1, ?_⟩
  have hput : put e c.elems = t.leaves.flatten := by
    rw [t3, put_set R.good.sorted hm hk, R.elems]; rfl
  have hmem : ∀ x ∈ t.leaves.flatten, x = e ∨ x ∈ info.tree.leaves.flatten := by
    intro x hx
    rw [t3] at hx
    rcases List.mem_or_eq_of_mem_set hx with h | h
    · exact .inr h
    · exact .inl h
  have hold := List.mem_of_getElem? hm
  refine ⟨⟨t2, ?_, ?_, ?_⟩, hput, R.count, R.ovfl, R.trimmed, R.readable, R.sticky, R.kind, R.maxRange, R.flags, R.action, R.range, ?_⟩
  · simp only [t3]; exact sorted_set R.good.sorted hm hk
  · simp only [t3, List.length_set]; exact R.good.ccnt
  · intro x hx
    rcases hmem x hx with rfl | h
    · rw [← hk]; exact R.good.keys old hold
    · exact R.good.keys x h
  · intro x hx
    have hx' : x ∈ t.leaves.flatten := by rw [← hput]; exact hx
    rcases hmem x hx' with rfl | h
    · exact hval
    · exact R.values x (by rw [R.elems]; exact h)

theorem elemLink_spec (cfg : Cfg) {c : C} {info : Info} (R : Rel c info) (hne : c.elems ≠ []) {e : Elem} (hv : ValidKey e.bkey)
    (hval : ValueOk e.value) (hal : ¬ c.Alien e.bkey) (replace : Bool) (mem : Nat) (full : Bool) :
    (elemLink cfg info e replace mem full = none ∧ Deep info.tree ∧ ∀ x ∈ c.elems, x.bkey ≠ e.bkey) ∨
    ∃ info' o c', elemLink cfg info e replace mem full = some (info', o) ∧ Insert cfg.maxSize c e replace mem full o c' ∧ Rel c' info' := by
  have hln : info.tree.leaves ≠ [] := by intro h; have := R.elems; rw [h] at this; exact hne this
  obtain ⟨n1, n2, n3⟩ := R.good.wf.full hln
  have hb : badType info.bktype e.bkey = false := by
    cases h : badType info.bktype e.bkey
    · rfl
    · exact absurd ((R.alien hv).mp h) hal
  obtain ⟨n, p, h, f1, f2, f3⟩ := findPosi_spec n1 n2 n3 (R.good.fits hv hb) (inc_iff.mpr R.good.sorted)
  rw [elemLink, f1]
  have hna : ¬ ((c.elems ≠ [] ∨ c.maxRange ≠ none) ∧ c.Alien e.bkey) := fun h => hal h.2
  cases h with
  | missing i =>
    obtain ⟨⟨cl, g1, g2⟩, hg⟩ := hit_slot f3
    rw [← R.elems] at hg
    have hnew : ∀ x ∈ c.elems, x.bkey ≠ e.bkey := fun x hx => hg.new hx
    simp only
    by_cases hst : info.sticky = true ∧ full = true
    · rw [if_pos hst]
      exact .inr ⟨_, _, _, rfl, .stickyFull (by rw [R.sticky]; exact hst.1) hst.2 hnew hna, R⟩
    · rw [if_neg hst]
      have had : Admits c e full := ⟨hna, hnew, by rw [R.sticky]; exact hst⟩
      have hroom := makeRoom_spec mem R.good.wf g1 g2 f2
      rw [← R.good.ccnt] at hroom
      cases hm : makeRoom info.tree info.ccnt n i p mem with
      | none =>
        rw [hm] at hroom
        exact .inl ⟨rfl, hroom, hnew⟩
      | some s =>
        rw [hm] at hroom
        cases s with
        | nomem => exact .inr ⟨_, _, _, rfl, .nomem hroom had, R⟩
        | ok leaves upper q p' =>
          obtain ⟨n', i'⟩ := q
          obtain ⟨r1, r2, r3, r4, r5, c', r6, r7, r8⟩ := hroom
          right
          rw [← r5] at hg
          exact linkNew_spec cfg (R.retree r1 r3) hne hv hval had r6 r7 r8 r4 hg replace mem
  | found i =>
    obtain ⟨m, old, hat, hm, hk⟩ := f3
    have hold : old ∈ c.elems := by rw [R.elems]; exact List.mem_of_getElem? hm
    simp only
    right
    cases replace with
    | false => exact ⟨_, _, _, rfl, .dup old hold hk rfl, R⟩
    | true =>
      simp only [if_true]
      have hel : elemAt info.tree.leaves n i = some old := by
        obtain ⟨cl, hcl, hi⟩ := hat.1
        rw [elemAt, hcl]
        simp only
        rw [← hat.get hcl, hm]
      rw [hel]
      simp only
      by_cases hst : info.sticky = true ∧ full = true ∧ old.eflag.length + old.value.length < e.eflag.length + e.value.length
      · rw [if_pos hst]
        exact ⟨_, _, _, rfl, .replFull old hold hk rfl (by rw [R.sticky]; exact hst.1) hst.2.1 hst.2.2, R⟩
      · rw [if_neg hst]
        obtain ⟨t, t1, R1⟩ := R.replace hat hm hk hval
        rw [t1]
        exact ⟨_, _, _, rfl, .repl old hold hk rfl (by rw [R.sticky]; exact hst), R1⟩

theorem elemInsert_spec (cfg : Cfg) {c : C} {info : Info} (R : Rel c info) {e : Elem} (hv : ValidKey e.bkey)
    (hval : ValueOk e.value) (replace : Bool) (mem : Nat) (full : Bool) :
    (elemInsert cfg info e replace mem full = none ∧ Deep info.tree ∧ ∀ x ∈ c.elems, x.bkey ≠ e.bkey) ∨
    ∃ info' o c', elemInsert cfg info e replace mem full = some (info', o) ∧ Insert cfg.maxSize c e replace mem full o c' ∧ Rel c' info' := by
  rw [elemInsert]
  by_cases hb : (0 < info.ccnt ∨ info.maxRange ≠ none) ∧ badType info.bktype e.bkey = true
  · rw [if_pos hb]
    refine .inr ⟨_, _, _, rfl, .alien ?_ ((R.alien hv).mp hb.2), R⟩
    rcases hb.1 with h | h
    · left; intro h'; rw [R.ccnt, h'] at h; simp at h
    · right; rw [R.maxRange]; exact h
  · rw [if_neg hb]
    have hna : ¬ ((c.elems ≠ [] ∨ c.maxRange ≠ none) ∧ c.Alien e.bkey) := by
      rintro ⟨h1, h2⟩
      refine hb ⟨?_, (R.alien hv).mpr h2⟩
      rcases h1 with h | h
      · left; rw [R.ccnt]; exact List.length_pos_iff.mpr h
      · right; rw [← R.maxRange]; exact h
    rw [linkRoot]
    by_cases hl : info.tree.leaves = []
    · right
      rw [if_pos hl]
      have he : c.elems = [] := by rw [R.elems, hl]; rfl
      have hnew : ∀ x ∈ c.elems, x.bkey ≠ e.bkey := by rw [he]; intro x hx; cases hx
      have hup : info.tree = ⟨[], []⟩ := by
        have := R.good.wf
        obtain ⟨tree, _, _, _, _, _, _, _, _, _⟩ := info
        obtain ⟨leaves, upper⟩ := tree
        simp only at hl this ⊢
        subst hl
        rcases this with ⟨-, h⟩ | ⟨-, h2, h3, -⟩
        · simp only at h; rw [h]
        · exact absurd rfl (ends_path h3 h2).1
      have hc0 : info.ccnt = 0 := by rw [R.ccnt, he]; rfl
      by_cases hst : info.sticky = true ∧ full = true
      · have hins : Insert cfg.maxSize c e replace mem full (.refused .enomem) c :=
          .stickyFull (by rw [R.sticky]; exact hst.1) hst.2 hnew hna
        by_cases hm : mem = 0
        · rw [if_pos hm]; exact ⟨_, _, _, rfl, hins, R⟩
        · rw [if_neg hm]
          have : elemLink cfg { info with tree := ⟨[[]], []⟩ } e replace (mem - 1) full =
              some ({ info with tree := ⟨[[]], []⟩ }, .refused .enomem) := by
            rw [elemLink, show findPosi e.bkey ⟨[[]], []⟩ = some (0, [], .missing 0) from rfl]
            simp only
            rw [if_pos hst]
          rw [this]
          refine ⟨_, _, _, rfl, hins, ?_⟩
          simp only
          rw [← hup]; exact R
      · have had : Admits c e full := ⟨hna, hnew, by rw [R.sticky]; exact hst⟩
        by_cases hm : mem = 0
        · rw [if_pos hm]; exact ⟨_, _, _, rfl, .nomem (by omega) had, R⟩
        · rw [if_neg hm]
          obtain ⟨t, t1, t2, -, t4⟩ := insertAt_spec (t := ⟨[[]], []⟩) (n := 0) (i := 0) (p := []) (c := []) e rfl (by simp) (by simp) rfl
            (by
              intro j x hx hj
              cases j with
              | zero => exact absurd rfl hj
              | succ j => simp at hx)
            ⟨by simp, fun r hr => (List.not_mem_nil hr).elim, rfl, by simp⟩
          have hlink : elemLink cfg { info with tree := ⟨[[]], []⟩ } e replace (mem - 1) full =
              some ({ info with tree := t, ccnt := info.ccnt + 1, bktype := some e.bkey.type }, .linked none) := by
            rw [elemLink, show findPosi e.bkey ⟨[[]], []⟩ = some (0, [], .missing 0) from rfl]
            simp only
            rw [if_neg hst]
            have : makeRoom ⟨[[]], []⟩ info.ccnt 0 0 [] (mem - 1) = some (.ok [[]] [] (0, 0) []) := rfl
            rw [this]
            simp only
            rw [linkNew]
            have h0 : ¬ 0 < info.ccnt := by omega
            simp only [h0, if_false, t1, if_true]
          rw [hlink]
          refine ⟨_, _, _, rfl, .first had he, ?_⟩
          have hg : Slot e c.elems 0 := ⟨by rw [he]; simp, by rw [he]; simp⟩
          have R1 := insert_rel R hv hval (fun h h' => hna ⟨h, h'⟩) hg t2 (by rw [t4, he]; rfl)
          have hpl : place e c.elems = [e] := by rw [hg.place, he]; rfl
          rw [hpl] at R1
          exact R1
    · rw [if_neg hl]
      have hne : c.elems ≠ [] := by
        rw [R.elems]; intro h; exact hl ((flat_nil R.good.wf.nodes).mpr h)
      exact elemLink_spec cfg R hne hv hval (fun h => hna ⟨.inl hne, h⟩) replace mem full

end Verif.BT
