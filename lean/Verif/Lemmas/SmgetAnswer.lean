import Verif.Lemmas.SmgetTrim
/-!
# Sort-merge get: the answer
-/
namespace Verif.Smget
open Verif.BT Verif.BT.Spec Verif.Smget.Spec

theorem sooner_iff {r : Range} {rt : RType} {to : BKey} (hd : Dir r rt to) (x y : BKey) : Smget.Spec.Sooner r x y ↔ Before (up rt) x y := by
  unfold Smget.Spec.Sooner
  cases hu : up rt with
  | true =>
    have hn : ¬ Descending r := by rw [hd.desc, hu]; decide
    exact ⟨fun h => h.elim (fun h => absurd h.1 hn) (·.2), fun h => .inr ⟨hn, h⟩⟩
  | false =>
    have hn : Descending r := by rw [hd.desc, hu]
    exact ⟨fun h => h.elim (·.2) (fun h => absurd hn h.1), fun h => .inl ⟨hn, h⟩⟩

theorem earlier_iff {r : Range} {rt : RType} {to : BKey} (hd : Dir r rt to) (x y : Got) : Earlier r x y ↔ Lt (up rt) x y := by
  unfold Earlier Lt
  rw [sooner_iff hd]
  refine or_congr Iff.rfl (and_congr_right fun _ => ?_)
  cases hu : up rt with
  | true =>
    have hn : ¬ Descending r := by rw [hd.desc, hu]; decide
    exact ⟨fun h => h.elim (fun h => absurd h.1 hn) (·.2), fun h => .inr ⟨hn, h⟩⟩
  | false =>
    have hn : Descending r := by rw [hd.desc, hu]
    exact ⟨fun h => h.elim (·.2) (fun h => absurd hn h.1), fun h => .inl ⟨hn, h⟩⟩

section
variable {view : List Nat → View} {db : List Nat → Entry} {keys : List (List Nat)} {r : Range} {f : Option EFilter}

/-- The offered elements form a finite list. -/
theorem offered_list (view : List Nat → View) (keys : List (List Nat)) (r : Range) (f : Option EFilter) :
    ∃ A : List Got, ∀ x, x ∈ A ↔ Offered view keys r f x := by
  classical
  refine ⟨keys.zipIdx.flatMap fun p => match view p.1 with
    | .coll c => if Taken r c then (matching r f c.elems).map fun e => ⟨p.2, p.1, c.flags, e⟩ else []
    | _ => [], fun x => ?_⟩
  rw [List.mem_flatMap]
  constructor
  · rintro ⟨⟨k, i⟩, hm, hx⟩
    have hki : keys[i]? = some k := List.mem_zipIdx_iff_getElem?.mp hm
    simp only at hx
    cases hv : view k with
    | absent => rw [hv] at hx; cases hx
    | other => rw [hv] at hx; cases hx
    | coll c =>
      rw [hv] at hx
      simp only at hx
      split at hx
      · next ht =>
        obtain ⟨e, he, rfl⟩ := List.mem_map.mp hx
        exact ⟨c, hki, hv, ht, rfl, he⟩
      · cases hx
  · rintro ⟨c, h1, h2, h3, h4, h5⟩
    refine ⟨(x.key, x.kidx), List.mem_zipIdx_iff_getElem?.mpr h1, ?_⟩
    simp only [h2, h3, if_true]
    refine List.mem_map.mpr ⟨x.elem, h5, ?_⟩
    obtain ⟨a, b, c', d⟩ := x
    simp only at h4
    rw [h4]

theorem kin_of (hv : Sees view db) (hr : RangeOk r) {k : List Nat} (he : errOf r (view k) = none) {c : C} (hc : view k = .coll c)
    (ht : c.readable = true) {e : Elem} (hm : e ∈ c.elems) : Kin r.lo e.bkey := by
  rcases hv k with ⟨v1, -⟩ | ⟨v1, -⟩ | ⟨c', info, v1, v2, R⟩
  · rw [v1] at hc; cases hc
  · rw [v1] at hc; cases hc
  · rw [v1] at hc; cases hc
    rw [v1] at he
    have hne : c.elems ≠ [] := List.ne_nil_of_mem hm
    have hal : ¬ c.Alien r.lo := by
      intro ha
      simp only [errOf] at he
      rw [if_pos ⟨ht, hne, ha⟩] at he
      cases he
    have := R.fits hr.1 hal
    rw [R.elems] at hm
    exact this.2 e hm

theorem offered_fine (hv : Sees view db) (hr : RangeOk r) (hz : ∀ k ∈ keys, 0 ∉ k) (he : ∀ k ∈ keys, errOf r (view k) = none) {x : Got}
    (hx : Offered view keys r f x) : Fine r.lo x := by
  obtain ⟨c, h1, h2, h3, -, h5⟩ := hx
  have hm := List.mem_of_getElem? h1
  exact ⟨kin_of hv hr (he _ hm) h2 h3.1 (mem_matching h5), hz _ hm⟩

theorem offered_ext (hv : Sees view db) (hn : keys.Nodup) {x y : Got} (hx : Offered view keys r f x) (hy : Offered view keys r f y)
    (hb : x.elem.bkey = y.elem.bkey) (hk : x.key = y.key) : x = y := by
  obtain ⟨c, h1, h2, h3, h4, h5⟩ := hx
  obtain ⟨c', g1, g2, g3, g4, g5⟩ := hy
  rw [hk] at h1 h2
  rw [h2] at g2
  cases g2
  have hi := nodup_idx hn h1 g1
  have hs : Sorted c.elems := by
    rcases hv y.key with ⟨v1, -⟩ | ⟨v1, -⟩ | ⟨c', info, v1, v2, R⟩
    · rw [v1] at h2; cases h2
    · rw [v1] at h2; cases h2
    · rw [v1] at h2; cases h2
      rw [R.elems]; exact R.good.sorted
  have hel : x.elem = y.elem := by
    obtain ⟨i, hi⟩ := List.getElem?_of_mem (mem_matching h5)
    obtain ⟨j, hj⟩ := List.getElem?_of_mem (mem_matching g5)
    obtain ⟨hi1, hi2⟩ := List.getElem?_eq_some_iff.mp hi
    obtain ⟨hj1, hj2⟩ := List.getElem?_eq_some_iff.mp hj
    have hp := List.pairwise_iff_getElem.mp hs
    rcases Nat.lt_trichotomy i j with g | g | g
    · have := hp i j hi1 hj1 g
      rw [hi2, hj2, hb] at this
      exact absurd this (klt_irrefl _)
    · subst g; rw [← hi2, ← hj2]
    · have := hp j i hj1 hi1 g
      rw [hi2, hj2, hb] at this
      exact absurd this (klt_irrefl _)
  obtain ⟨a1, a2, a3, a4⟩ := x
  obtain ⟨b1, b2, b3, b4⟩ := y
  simp only at hi hk h4 g4 hel
  rw [hi, hk, h4, g4, hel]

theorem offered_total (hv : Sees view db) (hr : RangeOk r) (hn : keys.Nodup) (hz : ∀ k ∈ keys, 0 ∉ k) (he : ∀ k ∈ keys, errOf r (view k) = none)
    (asc : Bool) {x y : Got} (hx : Offered view keys r f x) (hy : Offered view keys r f y) : Lt asc x y ∨ x = y ∨ Lt asc y x := by
  rcases fine_total (asc := asc) (offered_fine hv hr hz he hx) (offered_fine hv hr hz he hy) with g | g | g
  · exact .inl g
  · exact .inr (.inl (offered_ext hv hn hx hy g.1 g.2))
  · exact .inr (.inr g)

end

/-- The call answers as specified; the references it took are given back. -/
theorem smget_spec {view : List Nat → View} {db : List Nat → Entry} (hv : Sees view db) {keys : List (List Nat)} {r : Range}
    {f : Option EFilter} {offset count : Nat} (hfair : Fair keys r f offset count) (unique : Bool) :
    ∃ rep refs, smget db keys r f offset count unique = some (rep, refs) ∧ Reply view keys r f offset count unique rep ∧
      refs.held = [] ∧ (unique = false → refs.over = []) ∧ ((∃ e, rep = .err e) → refs.over = []) := by
  classical
  have hfair' := hfair
  obtain ⟨hnd, hz, hr, hfo, hcnt, hsum⟩ := hfair'
  obtain ⟨rt, to, hrt, hty, -, -⟩ := rangeType_spec hr
  have hd := dir_of hr hrt hty
  unfold smget
  rw [hrt]
  simp only
  have hreq : u32 (offset + count) = offset + count := Nat.mod_eq_of_lt hsum
  rw [hreq]
  have hwork : work db keys = (keys.map (weight db)).sum + 2 := rfl
  have h0 : Inv1 ⟨rt, r.lo, to, f⟩ r.lo unique (offset + count) keys 0 0 (PoolN view keys r f 0) (TkN view keys r 0) ⟨[], none, [], [], ⟨[], []⟩⟩ [] [] :=
    { sort := rfl
      ok := by intro E hE; cases hE
      ord := List.Pairwise.nil
      named := by intro E hE; cases hE
      ids := List.Pairwise.nil
      below := by intro i hi; cases hi
      len := Nat.zero_le _
      size := Nat.le_refl _
      room := Nat.le_refl _
      sub := by intro x hx; cases hx
      sup := by intro x hx; exact absurd hx.1 (Nat.not_lt_zero _)
      tsub := by
        intro p hp
        rcases hp with hp | ⟨E, hE, -⟩
        · cases hp
        · cases hE
      tsup := by intro p hp; exact absurd hp.1 (Nat.not_lt_zero _)
      held := List.Perm.refl _
      over := rfl
      slot := fun _ => rfl }
  rcases scanSort_spec hv hfair hrt (unique := unique) (req := offset + count) (by omega) (fuel := work db keys) keys 0 0 _ [] rfl (Nat.zero_le _) h0
      (by omega) with ⟨i, key, e, k1, k2, k3, k4⟩ | ⟨k1, st, In, k2, h, k4⟩
  · rw [k4]
    exact ⟨_, _, rfl, .inl ⟨i, key, e, k1, k2, fun j k => k3 j k (Nat.zero_le _), rfl⟩, rfl, fun _ => rfl, fun _ => rfl⟩
  rw [k2]
  simp only
  have hoff : ∀ x, PoolN view keys r f keys.length x ↔ Offered view keys r f x := by
    intro x
    refine ⟨fun h => h.2, fun h => ⟨?_, h⟩⟩
    obtain ⟨c, h1, -⟩ := h
    exact (List.getElem?_eq_some_iff.mp h1).1
  have htot := fun (x y : Got) (hx : Offered view keys r f x) (hy : Offered view keys r f y) => offered_total hv hr hnd hz k1 (up rt) hx hy
  have hbagoff : ∀ x ∈ bag In, Offered view keys r f x := fun x hx => (hoff x).mp (h.sub x hx)
  obtain ⟨L, hL, hLm⟩ := exists_sorted (asc := up rt) (bag In) fun x hx y hy => htot x y (hbagoff x hx) (hbagoff y hy)
  have hLoff : ∀ x ∈ L, Offered view keys r f x := fun x hx => hbagoff x ((hLm x).mp hx)
  have hLlen : L.length < work db keys := by
    have h1 := (sorted_nodup hL).length_le_of_subset fun x hx => (hLm x).mp hx
    have h2 := h.size
    simp only [List.nil_append, Nat.zero_add] at h2
    omega
  have h2 : Inv2 ⟨rt, r.lo, to, f⟩ r.lo keys.length st.miss.length ⟨st.sort, none, 0, [], false, st.trim⟩ In :=
    ⟨h.sort, h.ok, h.ord.plain, h.keys hnd, h.ids, h.room⟩
  obtain ⟨P, Es', p1, p2, p3, p4, p5, p6⟩ := elemSort_spec (unique := unique) (offset := offset) (count := count) L (work db keys) _ In h2 hLlen hL
    hLm (by intro p hp; cases hp) hcnt hL (by intro y hy; cases hy) (fun _ => rfl) (by simp)
  rw [p1]
  simp only
  simp only [List.nil_append, Nat.sub_zero, List.length_nil] at p4
  -- the lists to compare
  obtain ⟨A0, hA0⟩ := offered_list view keys r f
  obtain ⟨OL, hOL, hOLm⟩ := exists_sorted (asc := up rt) A0 fun x hx y hy => htot x y ((hA0 x).mp hx) ((hA0 y).mp hy)
  have hOLm : ∀ x, x ∈ OL ↔ Offered view keys r f x := fun x => (hOLm x).trans (hA0 x)
  let LW := OL.filter fun x => decide (Wanted view keys r f unique x)
  have hLW : LW.Pairwise (Lt (up rt)) := hOL.sublist List.filter_sublist
  have hLWm : ∀ x, x ∈ LW ↔ Wanted view keys r f unique x := by
    intro x
    show x ∈ OL.filter _ ↔ _
    rw [List.mem_filter, decide_eq_true_eq, hOLm]
    exact ⟨fun h => h.2, fun h => ⟨h.1, h⟩⟩
  have hA : (dd unique none L).Pairwise (Lt (up rt)) := hL.sublist (dd_sublist L none)
  have hAm : ∀ x, x ∈ dd unique none L ↔ x ∈ L ∧ (unique = true → ∀ y ∈ L, y.elem.bkey = x.elem.bkey → y = x ∨ Lt (up rt) x y) := by
    intro x
    rw [mem_dd (asc := up rt) L none hL (by intro p hp; cases hp) x]
    refine and_congr_right fun _ => ⟨fun h hu => (h hu).2, fun h hu => ⟨(by intro h; cases h), h hu⟩⟩
  have hwant : ∀ x, Wanted view keys r f unique x ↔ Offered view keys r f x ∧
      (unique = true → ∀ y, Offered view keys r f y → y.elem.bkey = x.elem.bkey → y = x ∨ Lt (up rt) x y) := by
    intro x
    unfold Wanted
    simp only [earlier_iff hd]
  let Q : Got → Bool := fun x => decide (¬ Full (up rt) (offset + count) In x)
  have hQd : ∀ x y, Lt (up rt) x y → Q y = true → Q x = true := by
    intro x y hxy hy
    simp only [Q, decide_eq_true_eq] at hy ⊢
    exact fun hf => hy ⟨hf.1, fun F hF => lt_trans (hf.2 F hF) hxy⟩
  have hQQ : (dd unique none L).filter Q = LW.filter Q := by
    refine sorted_ext (asc := up rt) (hA.sublist List.filter_sublist) (hLW.sublist List.filter_sublist) fun x => ?_
    rw [List.mem_filter, List.mem_filter, hAm, hLWm, hwant]
    simp only [Q, decide_eq_true_eq]
    constructor
    · rintro ⟨⟨g1, g2⟩, g3⟩
      refine ⟨⟨hLoff x g1, fun hu y hy hb => ?_⟩, g3⟩
      obtain ⟨y0, e1, e2, e3, e4⟩ := exists_least hOL ((hOLm y).mpr hy)
      have hy0 := (hOLm y0).mp e1
      rcases htot y x hy (hLoff x g1) with t | t | t
      · exfalso
        have hlt : Lt (up rt) y0 x := by
          rcases e3 with rfl | e3
          · exact t
          · exact lt_trans e3 t
        rcases h.sup y0 ((hoff y0).mpr hy0) (fun _ z hz hzb => e4 z ((hOLm z).mpr ((hoff z).mp hz)) (hzb.trans e2)) with s | s
        · rcases g2 hu y0 ((hLm y0).mpr s) (e2.trans hb) with q | q
          · rw [q] at hlt; exact lt_irrefl hlt
          · exact lt_asymm hlt q
        · exact g3 ⟨s.1, fun F hF => lt_trans (s.2 F hF) hlt⟩
      · exact .inl t
      · exact .inr t
    · rintro ⟨⟨g1, g2⟩, g3⟩
      have hx : x ∈ L := by
        rw [hLm]
        rcases h.sup x ((hoff x).mpr g1) (fun hu y hy hb hlt => by
            rcases g2 hu y ((hoff y).mp hy) hb with q | q
            · rw [q] at hlt; exact lt_irrefl hlt
            · exact lt_asymm hlt q) with s | s
        · exact s
        · exact absurd s g3
      exact ⟨⟨hx, fun hu y hy => g2 hu y (hLoff y hy)⟩, g3⟩
  have hheadL : ∀ E ∈ In, E.s.got ∈ L := fun E hE => (hLm _).mpr (mem_bag.mpr ⟨E, hE, E.head_mem⟩)
  have hheadQ : ∀ E ∈ In, Q E.s.got = true := by
    intro E hE
    simp only [Q, decide_eq_true_eq]
    exact fun hf => lt_irrefl (hf.2 E hE)
  have hQlen : In.length = offset + count → offset + count ≤ ((dd unique none L).filter Q).length := by
    intro hfull
    rw [← hfull]
    cases hu : unique with
    | false =>
      have hn : (In.map fun E => E.s.got).Nodup := by
        have : (In.map fun E => E.s.got).Pairwise (Lt (up rt)) := by
          rw [List.pairwise_map]; exact h.ord.imp fun h => h.1
        exact sorted_nodup this
      have := hn.length_le_of_subset (l₂ := (dd false none L).filter Q) (by
        intro x hx
        obtain ⟨E, hE, rfl⟩ := List.mem_map.mp hx
        rw [List.mem_filter]
        refine ⟨?_, hheadQ E hE⟩
        rw [← hu, hAm]
        exact ⟨hheadL E hE, fun h => by rw [hu] at h; cases h⟩)
      simpa using this
    | true =>
      have hn : (In.map fun E => E.s.elem.bkey).Nodup := by
        have := ordered_unique_iff.mp (hu ▸ h.ord)
        refine List.Pairwise.imp ?_ this
        intro x y hxy he
        exact before_irrefl (he ▸ hxy)
      have := hn.length_le_of_subset (l₂ := ((dd true none L).filter Q).map fun g => g.elem.bkey) (by
        intro x hx
        obtain ⟨E, hE, rfl⟩ := List.mem_map.mp hx
        obtain ⟨y0, e1, e2, e3, e4⟩ := exists_least hL (hheadL E hE)
        refine List.mem_map.mpr ⟨y0, ?_, e2⟩
        rw [List.mem_filter]
        constructor
        · rw [← hu, hAm]
          refine ⟨e1, fun _ y hy hb => ?_⟩
          rcases htot y y0 (hLoff y hy) (hLoff y0 e1) with t | t | t
          · exact absurd t (e4 y hy (hb.trans e2))
          · exact .inl t
          · exact .inr t
        · rcases e3 with e3 | e3
          · rw [e3]; exact hheadQ E hE
          · exact hQd _ _ e3 (hheadQ E hE))
      simpa using this
  have hQall : In.length ≠ offset + count → ∀ (X : List Got), X.filter Q = X := by
    intro hne X
    rw [List.filter_eq_self]
    intro x _
    simp only [Q, decide_eq_true_eq]
    exact fun hf => hne hf.1
  have htake : ∀ (X : List Got), X.Pairwise (Lt (up rt)) → X.filter Q = (dd unique none L).filter Q →
      X.take (offset + count) = ((dd unique none L).filter Q).take (offset + count) := by
    intro X hX he
    by_cases hfull : In.length = offset + count
    · rw [down_split hX Q hQd, List.take_append_of_le_length (by rw [he]; exact hQlen hfull), he]
    · rw [← he, hQall hfull X]
  have hslice : ∀ (X : List Got), (X.drop offset).take count = (X.take (offset + count)).drop offset := by
    intro X; rw [List.drop_take]; congr 1; omega
  have helems : P.elems = (LW.drop offset).take count := by
    rw [p4, hslice, hslice, htake _ hA rfl, htake _ hLW hQQ.symm]
  have hPlen : P.elems.length ≤ count := by rw [p4]; simp; omega
  -- the trimmed keys
  have htk : ∀ p, TkN view keys r keys.length p → Kin r.lo p.2 := by
    rintro p ⟨-, k, c, g1, g2, g3⟩
    obtain ⟨e, e1, e2, -⟩ := cutOff_mem g3
    rw [← e2]
    exact kin_of hv hr (k1 k (List.mem_of_getElem? g1)) g2 g3.1.1 e1
  have hPtk : ∀ p ∈ P.trim, TkN view keys r keys.length p := fun p hp => h.tsub p ((p3 p).mp (.inl hp))
  have hPfine : ∀ x ∈ P.elems, x ∈ L := by
    intro x hx
    rw [p4] at hx
    exact (dd_sublist L none).subset (List.mem_of_mem_drop (List.mem_of_mem_take hx))
  have htail : ∀ t, (if P.elems.length = count then P.elems.getLast?.map (·.elem.bkey) else none) = some t → Kin r.lo t := by
    intro t ht
    split at ht
    · obtain ⟨x, hx, rfl⟩ := Option.map_eq_some_iff.mp ht
      exact (offered_fine hv hr hz k1 (hLoff x (hPfine x (List.mem_of_getLast? hx)))).1
    · cases ht
  obtain ⟨out, o1, o2, o3⟩ := adjustTrim_spec (asc := up rt) htail P.trim.reverse [] (by
    intro x hx; exact htk x (hPtk x (List.mem_reverse.mp hx))) (by intro x hx; cases hx) List.Pairwise.nil
  rw [show (rt != RType.dsc) = up rt from rfl, o1]
  simp only [List.nil_append] at o3
  have hmiss : st.miss = keys.zipIdx.filterMap fun p => (missOf r (view p.1)).map fun m => (p.2, m) := by rw [k4]; rfl
  have hrefs : giveAll st.refs (st.sort.map Scan.kidx ++ st.slot.toList) = ⟨[], st.slot.toList⟩ := by
    have h1 : giveAll st.refs (st.sort.map Scan.kidx) = ⟨[], []⟩ := by
      refine giveAll_perm ?_ h.over
      rw [h.sort, List.map_map]
      exact h.held
    rw [giveAll, List.foldl_append, show List.foldl Refs.give st.refs (st.sort.map Scan.kidx) = ⟨[], []⟩ from h1]
    cases st.slot <;> rfl
  have hvalid : ∀ b, Valid (up rt) (if P.elems.length = count then P.elems.getLast?.map (·.elem.bkey) else none) b ↔
      (P.elems.length < count ∨ ∃ t, P.elems.getLast? = some t ∧ Smget.Spec.Sooner r b t.elem.bkey) := by
    intro b
    unfold Valid
    split
    · next he =>
      have hne : P.elems ≠ [] := by intro h0; rw [h0] at he; simp only [List.length_nil] at he; omega
      rw [List.getLast?_eq_some_getLast hne]
      simp only [Option.map_some, Option.some.injEq, forall_eq', exists_eq_left', sooner_iff hd, he, Nat.lt_irrefl, false_or]
    · next he =>
      simp only [reduceCtorEq, false_implies, implies_true, true_iff]
      exact .inl (by omega)
  refine ⟨_, _, rfl, .inr ⟨k1, _, rfl, ?_⟩, by rw [hrefs], fun hu => by rw [hrefs, h.slot hu]; rfl, fun ⟨e, he⟩ => by cases he⟩
  refine ⟨⟨LW, ?_, hLWm, helems⟩, hmiss, ?_, ?_, ?_, p5⟩
  · exact hLW.imp fun h => (earlier_iff hd _ _).mpr h
  · intro i b
    rw [o3.mem_iff, List.mem_filter, List.mem_reverse, decide_eq_true_eq]
    simp only [hvalid]
    constructor
    · rintro ⟨g1, g2⟩
      exact ⟨(hPtk _ g1).2, g2⟩
    · rintro ⟨⟨key, c, g1, g2, g3⟩, g4⟩
      refine ⟨?_, g4⟩
      have ht : TkN view keys r keys.length (i, b) := ⟨(List.getElem?_eq_some_iff.mp g1).1, key, c, g1, g2, g3⟩
      rcases h.tsup _ ht with s | s
      · rcases (p3 _).mpr s with q | ⟨E, hE, q1, q2⟩
        · exact q
        · exfalso
          rcases p6 with p6 | ⟨e1, x, e2, e3⟩
          · rw [p6] at hE; cases hE
          · rcases g4 with g4 | ⟨t, g4, g5⟩
            · omega
            · rw [e2] at g4; cases g4
              exact e3 E hE b q2 ((sooner_iff hd _ _).mp g5)
      · exfalso
        obtain ⟨s1, s2⟩ := s
        have hPel : P.elems = (((dd unique none L).filter Q).take (offset + count)).drop offset := by
          rw [p4, hslice, htake _ hA rfl]
        have hlen : P.elems.length = count := by
          rw [hPel, List.length_drop, List.length_take]
          have := hQlen s1
          omega
        rcases g4 with g4 | ⟨t, g4, g5⟩
        · omega
        · have htm : t ∈ (dd unique none L).filter Q := by
            have := List.mem_of_getLast? g4
            rw [hPel] at this
            exact List.mem_of_mem_take (List.mem_of_mem_drop this)
          rw [List.mem_filter] at htm
          simp only [Q, decide_eq_true_eq] at htm
          apply htm.2
          refine ⟨s1, fun F hF => ?_⟩
          have hb := (sooner_iff hd _ _).mp g5
          rcases htot F.s.got t (hLoff _ (hheadL F hF)) (hLoff _ ((dd_sublist L none).subset htm.1)) with q | q | q
          · exact q
          · exfalso; exact s2 F hF (show Before (up rt) b F.s.got.elem.bkey from q ▸ hb)
          · exfalso
            rcases q with q | ⟨q, -⟩
            · exact s2 F hF (before_trans hb q)
            · exact s2 F hF (show Before (up rt) b F.s.got.elem.bkey from q ▸ hb)
  · have hn : (P.trim.map Prod.fst).Nodup := (List.nodup_append.mp p2.ids).1
    refine (o3.map Prod.fst).nodup_iff.mpr ?_
    refine List.Nodup.sublist (List.Sublist.map _ List.filter_sublist) ?_
    rw [List.map_reverse]
    exact (List.reverse_perm _).nodup_iff.mpr hn
  · exact o2.imp fun h h' => h ((sooner_iff hd _ _).mp h')

end Verif.Smget
