import Verif.Lemmas.BTreeRoom
/-!
# Lemmas on the overflow checks of the b+tree
-/
namespace Verif.BT
open Verif.BT.Spec

/-- The collection the client sees and the one in memory. -/
structure Rel (c : C) (info : Info) : Prop where
  good : Good info
  elems : c.elems = info.tree.leaves.flatten
  count : (c.maxcount = none ∧ info.mcnt = -1) ∨ ∃ k : Nat, c.maxcount = some k ∧ 0 < k ∧ info.mcnt = k
  ovfl : c.ovfl = info.ovfl
  trimmed : c.trimmed = info.trimmed
  readable : c.readable = info.readable
  sticky : c.sticky = info.sticky
  kind : c.kind = info.bktype
  maxRange : c.maxRange = info.maxRange
  flags : c.flags = info.flags
  action : c.ovfl ≠ .other
  range : ∀ r, c.maxRange = some r → ValidKey r ∧ c.kind = some (kindOf r)
  values : ∀ e ∈ c.elems, ValueOk e.value

theorem Rel.cap {c : C} {info : Info} (R : Rel c info) (cfg : Cfg) : realCap cfg info = c.cap cfg.maxSize := by
  rcases R.count with ⟨h1, h2⟩ | ⟨k, h1, h2, h3⟩
  · rw [realCap, C.cap, h1, h2]; rfl
  · rw [realCap, C.cap, h1, h3, if_pos (by omega)]; simp

theorem Rel.alien {c : C} {info : Info} (R : Rel c info) {k : BKey} (hv : ValidKey k) : badType info.bktype k = true ↔ c.Alien k := by
  rw [badType_iff hv, C.Alien, R.kind]

theorem Rel.ccnt {c : C} {info : Info} (R : Rel c info) : info.ccnt = c.elems.length := by rw [R.good.ccnt, R.elems]

theorem Rel.retree {c : C} {info : Info} (R : Rel c info) {t : Tree} (hw : Wf t) (hf : t.leaves.flatten = info.tree.leaves.flatten) :
    Rel c { info with tree := t } := by
  refine { R with good := ⟨hw, ?_, ?_, ?_⟩, elems := ?_ }
  · simp only [hf]; exact R.good.sorted
  · simp only [hf]; exact R.good.ccnt
  · simp only [hf]; exact R.good.keys
  · simp only [hf]; exact R.elems

theorem Rel.sorted {c : C} {info : Info} (R : Rel c info) : Sorted c.elems := by rw [R.elems]; exact R.good.sorted

theorem Rel.key {c : C} {info : Info} (R : Rel c info) {x : Elem} (hx : x ∈ c.elems) : ValidKey x.bkey ∧ c.kind = some (kindOf x.bkey) := by
  rw [R.elems] at hx
  have := R.good.keys x hx
  rw [type_kind] at this
  exact ⟨this.1, by rw [R.kind]; exact this.2⟩

theorem kindOf_same {a b : BKey} (h : kindOf a = kindOf b) : SameKind a b := by
  rw [← type_same, type_kind, type_kind]; exact h

/-- A key that is not alien is of the kind of all others. -/
theorem not_alien {c : C} {k : BKey} {t : KType} (h : ¬ c.Alien k) (hk : c.kind = some t) : kindOf k = t := by
  cases hd : decide (kindOf k = t) with
  | true => exact of_decide_eq_true hd
  | false => exact absurd ⟨t, hk, fun h => of_decide_eq_false hd h.symm⟩ h

theorem Rel.same {c : C} {info : Info} (R : Rel c info) {k : BKey} (h : ¬ c.Alien k) {x : Elem} (hx : x ∈ c.elems) : SameKind k x.bkey :=
  kindOf_same (not_alien h (R.key hx).2)

theorem Rel.sameRange {c : C} {info : Info} (R : Rel c info) {r : BKey} (hr : c.maxRange = some r) {k : BKey} (h : ¬ c.Alien k) : SameKind k r :=
  kindOf_same (not_alien h (R.range r hr).2)

theorem Rel.elemRange {c : C} {info : Info} (R : Rel c info) {r : BKey} (hr : c.maxRange = some r) {x : Elem} (hx : x ∈ c.elems) :
    SameKind x.bkey r := by
  have h1 := (R.key hx).2
  have h2 := (R.range r hr).2
  rw [h1] at h2
  exact kindOf_same (Option.some.inj h2)

/-! ## The ends of the list -/

theorem under_iff {c : C} (hs : Sorted c.elems) {a : Elem} (ha : c.elems.head? = some a) (k : BKey) : Under c k ↔ KLt k a.bkey := by
  obtain ⟨l, hl⟩ : ∃ l, c.elems = a :: l := by
    cases h : c.elems with
    | nil => rw [h] at ha; cases ha
    | cons x l => rw [h] at ha; cases ha; exact ⟨l, rfl⟩
  rw [Under]
  rw [hl] at hs ⊢
  constructor
  · intro h; exact h a (by simp)
  · intro h x hx
    rcases List.mem_cons.mp hx with rfl | hx
    · exact h
    · exact klt_trans h ((List.pairwise_cons.mp hs).1 x hx)

theorem last_split {l : List Elem} {b : Elem} (h : l.getLast? = some b) : ∃ l', l = l' ++ [b] := by
  rcases List.eq_nil_or_concat l with h' | ⟨l', x, h'⟩
  · rw [h'] at h; cases h
  · rw [List.concat_eq_append] at h'
    rw [h', List.getLast?_concat] at h
    cases h
    exact ⟨l', h'⟩

theorem head_split {l : List Elem} {a : Elem} (h : l.head? = some a) : ∃ l', l = a :: l' := by
  cases l with
  | nil => cases h
  | cons x l => cases h; exact ⟨l, rfl⟩

theorem over_iff {c : C} (hs : Sorted c.elems) {b : Elem} (hb : c.elems.getLast? = some b) (k : BKey) : Over c k ↔ KLt b.bkey k := by
  obtain ⟨l, hl⟩ := last_split hb
  rw [Over]
  rw [hl] at hs ⊢
  rw [Sorted, List.pairwise_append] at hs
  constructor
  · intro h; exact h b (by simp)
  · intro h x hx
    rcases List.mem_append.mp hx with hx | hx
    · exact klt_trans (hs.2.2 x hx b (by simp)) h
    · rw [List.mem_singleton] at hx; subst hx; exact h

theorem ends {l : List Elem} (h : l ≠ []) : ∃ a b, l.head? = some a ∧ l.getLast? = some b ∧ a ∈ l ∧ b ∈ l := by
  cases l with
  | nil => exact absurd rfl h
  | cons a l =>
    obtain ⟨b, hb⟩ : ∃ b, (a :: l).getLast? = some b := by
      cases hg : (a :: l).getLast? with
      | none => rw [List.getLast?_eq_none_iff] at hg; cases hg
      | some b => exact ⟨b, rfl⟩
    exact ⟨a, b, rfl, hb, by simp, List.mem_of_getLast? hb⟩

/-! ## The checks -/

theorem bkeyIs_lt {a b : BKey} (hs : SameKind a b) (h1 : ValidKey a) (h2 : ValidKey b) :
    ∃ r, bkeyIs .lt a b = some r ∧ (r = true ↔ KLt a b) :=
  bkeyIs_spec .lt hs (ValidKey.nonEmpty h1) (ValidKey.nonEmpty h2)

theorem bkeyIs_gt {a b : BKey} (hs : SameKind a b) (h1 : ValidKey a) (h2 : ValidKey b) :
    ∃ r, bkeyIs .gt a b = some r ∧ (r = true ↔ KLt b a) :=
  bkeyIs_spec .gt hs (ValidKey.nonEmpty h1) (ValidKey.nonEmpty h2)

/-- Step 1 of the check. -/
theorem rangeCheck_spec {c : C} {info : Info} (R : Rel c info) (hne : c.elems ≠ []) {e : Elem} (hv : ValidKey e.bkey) (ha : ¬ c.Alien e.bkey) :
    ∃ ck, rangeCheck info e = some ck ∧
      ((ck = .none_ ∧ Spec.Near c e) ∨
       (∃ mr, LowOver c e mr ∧ ((ck = .range ∧ TrimsHigh c.ovfl) ∨ (ck = .ebkeyoor ∧ ¬ TrimsHigh c.ovfl))) ∨
       (∃ mr, HighOver c e mr ∧ ((ck = .range ∧ TrimsLow c.ovfl) ∨ (ck = .ebkeyoor ∧ ¬ TrimsLow c.ovfl)))) := by
  rw [rangeCheck, ← R.maxRange]
  cases hm : c.maxRange with
  | none =>
    refine ⟨.none_, rfl, .inl ⟨rfl, ?_⟩⟩
    intro mr
    constructor
    · rintro ⟨h, -⟩; rw [hm] at h; cases h
    · rintro ⟨h, -⟩; rw [hm] at h; cases h
  | some mr =>
    obtain ⟨a, b, h1, h2, h3, h4⟩ := ends hne
    have hn := R.good.wf.nodes
    simp only
    rw [firstElem_spec hn, lastElem_spec hn, ← R.elems, h1, h2]
    simp only
    have ka := R.key h3
    have kb := R.key h4
    have km := R.range mr hm
    obtain ⟨x, x1, x2⟩ := bkeyIs_lt (R.same ha h3) hv ka.1
    obtain ⟨y, y1, y2⟩ := bkeyIs_gt (R.same ha h4) hv kb.1
    have hmr : ∀ mr', c.maxRange = some mr' → mr' = mr := by
      intro mr' h; rw [hm] at h; cases h; rfl
    have hab : KLe a.bkey b.bkey := by
      obtain ⟨l, hl⟩ := head_split h1
      rw [hl] at h4
      rcases List.mem_cons.mp h4 with h | h
      · rw [h]; exact .inr rfl
      · have := R.sorted; rw [hl] at this; exact .inl ((List.pairwise_cons.mp this).1 b h)
    rw [x1, y1]
    cases x with
    | true =>
      have hlt := x2.mp rfl
      have hul : Under c e.bkey := (under_iff R.sorted h1 _).mpr hlt
      have hno : ¬ Over c e.bkey := by
        rw [over_iff R.sorted h2]
        intro h
        exact klt_asymm (klt_kle hlt hab) h
      have heb : KLt e.bkey b.bkey := klt_kle hlt hab
      obtain ⟨d, r, d1, d2, d3⟩ := wide_check km.1 kb.1 hv (R.elemRange hm h4) (R.sameRange hm ha) (value_mono hv heb)
      simp only [d1, d2]
      cases r with
      | true =>
        have hlo : LowOver c e mr := ⟨hm, hul, b, h2, d3.mp rfl⟩
        rw [← R.ovfl]
        by_cases ht : c.ovfl = .largest ∨ c.ovfl = .largestSilent
        · exact ⟨_, by rw [if_pos ht], .inr (.inl ⟨mr, hlo, .inl ⟨rfl, ht⟩⟩)⟩
        · exact ⟨_, by rw [if_neg ht], .inr (.inl ⟨mr, hlo, .inr ⟨rfl, ht⟩⟩)⟩
      | false =>
        refine ⟨_, rfl, .inl ⟨rfl, ?_⟩⟩
        intro mr'
        constructor
        · rintro ⟨q1, q2, b', q3, q4⟩
          rw [h2] at q3; cases q3
          rw [hmr mr' q1] at q4
          have := d3.mpr q4; cases this
        · rintro ⟨q1, q2, -⟩; exact hno q2
    | false =>
      have hnl : ¬ Under c e.bkey := by rw [under_iff R.sorted h1]; intro h; have := x2.mpr h; cases this
      cases y with
      | true =>
        have hlt := y2.mp rfl
        have hov : Over c e.bkey := (over_iff R.sorted h2 _).mpr hlt
        have hea : KLt a.bkey e.bkey := kle_klt hab hlt
        obtain ⟨d, r, d1, d2, d3⟩ := wide_check km.1 hv ka.1 (R.sameRange hm ha) (R.elemRange hm h3) (value_mono ka.1 hea)
        simp only [d1, d2]
        cases r with
        | true =>
          have hhi : HighOver c e mr := ⟨hm, hov, a, h1, d3.mp rfl⟩
          rw [← R.ovfl]
          by_cases ht : c.ovfl = .smallest ∨ c.ovfl = .smallestSilent
          · exact ⟨_, by rw [if_pos ht], .inr (.inr ⟨mr, hhi, .inl ⟨rfl, ht⟩⟩)⟩
          · exact ⟨_, by rw [if_neg ht], .inr (.inr ⟨mr, hhi, .inr ⟨rfl, ht⟩⟩)⟩
        | false =>
          refine ⟨_, rfl, .inl ⟨rfl, ?_⟩⟩
          intro mr'
          constructor
          · rintro ⟨q1, q2, -⟩; exact hnl q2
          · rintro ⟨q1, q2, a', q3, q4⟩
            rw [h1] at q3; cases q3
            rw [hmr mr' q1] at q4
            have := d3.mpr q4; cases this
      | false =>
        refine ⟨_, rfl, .inl ⟨rfl, ?_⟩⟩
        intro mr'
        constructor
        · rintro ⟨q1, q2, -⟩; exact hnl q2
        · rintro ⟨q1, q2, -⟩
          rw [over_iff R.sorted h2] at q2
          have := y2.mpr q2; cases this

/-- Step 2 of the check. -/
theorem countCheck_spec (cfg : Cfg) {c : C} {info : Info} (R : Rel c info) (hne : c.elems ≠ []) {e : Elem} (hv : ValidKey e.bkey)
    (ha : ¬ c.Alien e.bkey) :
    ∃ ck tr, countCheck cfg info e = some (ck, tr) ∧
      ((ck = .none_ ∧ tr = c.trimmed ∧ c.elems.length < c.cap cfg.maxSize) ∨
       (c.cap cfg.maxSize ≤ c.elems.length ∧
        ((ck = .eoverflow ∧ tr = c.trimmed ∧ c.ovfl = .error) ∨
         (ck = .ebkeyoor ∧ TrimsLow c.ovfl ∧ Under c e.bkey ∧ tr = (c.trimmed || decide (c.ovfl = .smallest))) ∨
         (ck = .ebkeyoor ∧ TrimsHigh c.ovfl ∧ Over c e.bkey ∧ tr = (c.trimmed || decide (c.ovfl = .largest))) ∨
         (ck = .count ∧ TrimsLow c.ovfl ∧ ¬ Under c e.bkey ∧ tr = c.trimmed) ∨
         (ck = .count ∧ TrimsHigh c.ovfl ∧ ¬ Over c e.bkey ∧ tr = c.trimmed)))) := by
  rw [countCheck, R.cap, R.ccnt]
  by_cases hc : c.cap cfg.maxSize ≤ c.elems.length
  · rw [if_pos hc]
    obtain ⟨a, b, h1, h2, h3, h4⟩ := ends hne
    have hn := R.good.wf.nodes
    rw [firstElem_spec hn, lastElem_spec hn, ← R.elems, h1, h2, ← R.ovfl, ← R.trimmed]
    have ka := R.key h3
    have kb := R.key h4
    obtain ⟨x, x1, x2⟩ := bkeyIs_lt (R.same ha h3) hv ka.1
    obtain ⟨y, y1, y2⟩ := bkeyIs_gt (R.same ha h4) hv kb.1
    rw [← under_iff R.sorted h1] at x2
    rw [← over_iff R.sorted h2] at y2
    have hact := R.action
    simp only [x1, y1]
    cases ho : c.ovfl with
    | error => exact ⟨_, _, rfl, .inr ⟨hc, .inl ⟨rfl, rfl, rfl⟩⟩⟩
    | other => exact absurd ho hact
    | smallest =>
      cases x with
      | true => exact ⟨_, _, rfl, .inr ⟨hc, .inr (.inl ⟨rfl, .inl rfl, x2.mp rfl, rfl⟩)⟩⟩
      | false =>
        exact ⟨_, _, rfl, .inr ⟨hc, .inr (.inr (.inr (.inl ⟨rfl, .inl rfl, fun h => Bool.false_ne_true (x2.mpr h), rfl⟩)))⟩⟩
    | smallestSilent =>
      cases x with
      | true => exact ⟨_, _, rfl, .inr ⟨hc, .inr (.inl ⟨rfl, .inr rfl, x2.mp rfl, rfl⟩)⟩⟩
      | false =>
        exact ⟨_, _, rfl, .inr ⟨hc, .inr (.inr (.inr (.inl ⟨rfl, .inr rfl, fun h => Bool.false_ne_true (x2.mpr h), rfl⟩)))⟩⟩
    | largest =>
      cases y with
      | true => exact ⟨_, _, rfl, .inr ⟨hc, .inr (.inr (.inl ⟨rfl, .inl rfl, y2.mp rfl, rfl⟩))⟩⟩
      | false =>
        exact ⟨_, _, rfl, .inr ⟨hc, .inr (.inr (.inr (.inr ⟨rfl, .inl rfl, fun h => Bool.false_ne_true (y2.mpr h), rfl⟩)))⟩⟩
    | largestSilent =>
      cases y with
      | true => exact ⟨_, _, rfl, .inr ⟨hc, .inr (.inr (.inl ⟨rfl, .inr rfl, y2.mp rfl, rfl⟩))⟩⟩
      | false =>
        exact ⟨_, _, rfl, .inr ⟨hc, .inr (.inr (.inr (.inr ⟨rfl, .inr rfl, fun h => Bool.false_ne_true (y2.mpr h), rfl⟩)))⟩⟩
  · rw [if_neg hc]
    exact ⟨_, _, rfl, .inl ⟨rfl, R.trimmed.symm, by omega⟩⟩

/-! ## Trimming -/

theorem Rel.tree {c : C} {info info' : Info} {l : List Elem} (R : Rel c info) (g : Good info')
    (hr : info' = { info with tree := info'.tree, ccnt := info'.ccnt }) (hl : info'.tree.leaves.flatten = l)
    (hsub : ∀ x ∈ l, x ∈ c.elems) : Rel { c with elems := l } info' := by
  have h := R
  refine ⟨g, hl.symm, ?_, ?_, ?_, ?_, ?_, ?_, ?_, ?_, R.action, R.range, fun e he => R.values e (hsub e he)⟩
  all_goals rw [hr]
  · exact R.count
  · exact R.ovfl
  · exact R.trimmed
  · exact R.readable
  · exact R.sticky
  · exact R.kind
  · exact R.maxRange
  · exact R.flags

theorem Rel.settrim {c : C} {info : Info} (R : Rel c info) (tr : Bool) : Rel { c with trimmed := tr } { info with trimmed := tr } :=
  ⟨⟨R.good.wf, R.good.sorted, R.good.ccnt, R.good.keys⟩, R.elems, R.count, R.ovfl, rfl, R.readable, R.sticky, R.kind, R.maxRange, R.flags,
    R.action, R.range, R.values⟩

/-- Taking away the first or the last element. -/
theorem trimFirst_spec {c : C} {info : Info} (R : Rel c info) {a : Elem} {l : List Elem} (hl : c.elems = a :: l) :
    firstElem info.tree = some a ∧ ∃ t, unlinkAt info.tree 0 0 (firstPath info.tree.upper) = some t ∧
      ∃ info', withTree info t 1 = some info' ∧ Rel { c with elems := l } info' := by
  have hw := R.good.wf
  have hne : info.tree.leaves ≠ [] := by
    intro h
    have := R.elems
    rw [h, hl] at this; cases this
  obtain ⟨h1, h2, h3⟩ := hw.full hne
  have hf : info.tree.leaves.flatten = a :: l := by rw [← R.elems, hl]
  refine ⟨by rw [firstElem_spec h1, hf]; rfl, ?_⟩
  obtain ⟨-, p1, -⟩ := ends_path h3 h2
  have hat : At info.tree.leaves 0 0 0 := by
    obtain ⟨x, r, hx⟩ := List.exists_cons_of_ne_nil hne
    rw [hx]
    exact ⟨⟨x, rfl, (h1 x (by rw [hx]; simp)).1⟩, by simp [off]⟩
  obtain ⟨t, t1, t2, t3⟩ := unlinkAt_spec hat p1 hw
  have hg : info.tree.leaves.flatten[0]? = some a := by rw [hf]; rfl
  rw [without_erase (sorted_nodup R.good.sorted) hg] at t3
  obtain ⟨w1, w2⟩ := R.good.remove (s := [a]) t2 (by simp) (by simp [hf]) t3
  refine ⟨t, t1, _, w1, R.tree w2 rfl ?_ ?_⟩
  · show t.leaves.flatten = l
    rw [t3, ← without_erase (sorted_nodup R.good.sorted) hg, hf]; rfl
  · intro x hx; rw [hl]; simp [hx]

theorem trimLast_spec {c : C} {info : Info} (R : Rel c info) {b : Elem} {l : List Elem} (hl : c.elems = l ++ [b]) :
    ∃ cl p t, info.tree.leaves.getLast? = some cl ∧ lastPath info.tree.upper = some p ∧ cl.getLast? = some b ∧
      unlinkAt info.tree (info.tree.leaves.length - 1) (cl.length - 1) p = some t ∧
      ∃ info', withTree info t 1 = some info' ∧ Rel { c with elems := l } info' := by
  have hw := R.good.wf
  have hne : info.tree.leaves ≠ [] := by
    intro h
    have := R.elems
    rw [h, hl] at this; simp at this
  obtain ⟨h1, h2, h3⟩ := hw.full hne
  have hf : info.tree.leaves.flatten = l ++ [b] := by rw [← R.elems, hl]
  obtain ⟨-, -, p, p1, p2⟩ := ends_path h3 h2
  rw [List.length_map] at p2
  rcases List.eq_nil_or_concat info.tree.leaves with h | ⟨r, cl, h⟩
  · exact absurd h hne
  rw [List.concat_eq_append] at h
  have hcl := (h1 cl (by rw [h]; simp)).1
  have hlast : cl.getLast? = some b := by
    have : info.tree.leaves.flatten.getLast? = some b := by rw [hf]; simp
    rw [h, List.flatten_append, List.getLast?_append, List.flatten_cons, List.flatten_nil, List.append_nil] at this
    cases hg : cl.getLast? with
    | none => rw [List.getLast?_eq_none_iff] at hg; rw [hg] at hcl; simp at hcl
    | some x => rw [hg] at this; simpa using this
  have hlen : info.tree.leaves.length - 1 = r.length := by rw [h]; simp
  have hat : At info.tree.leaves (r.flatten.length + (cl.length - 1)) (info.tree.leaves.length - 1) (cl.length - 1) := by
    rw [hlen]; exact At.mk' h (by omega)
  obtain ⟨t, t1, t2, t3⟩ := unlinkAt_spec hat p2 hw
  have hm : r.flatten.length + (cl.length - 1) = l.length := by
    have := congrArg List.length hf
    rw [h, List.flatten_append, List.length_append, List.flatten_cons, List.flatten_nil, List.append_nil, List.length_append,
      List.length_singleton] at this
    omega
  rw [hm] at t3
  have hg : info.tree.leaves.flatten[l.length]? = some b := by rw [hf]; simp
  have t4 := t3
  rw [without_erase (sorted_nodup R.good.sorted) hg] at t4
  obtain ⟨w1, w2⟩ := R.good.remove (s := [b]) t2 (by simp) (by simp [hf]) t4
  refine ⟨cl, p, t, by rw [h]; simp, p1, hlast, t1, _, w1, R.tree w2 rfl ?_ ?_⟩
  · show t.leaves.flatten = l
    rw [t3, hf, List.eraseIdx_append_of_length_le (Nat.le_refl _)]; simp
  · intro x hx; rw [hl]; simp [hx]

end Verif.BT
