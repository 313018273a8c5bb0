import Verif.Lemmas.BTreeFind
/-!
# Lemmas on changing single elements of the tree
-/
namespace Verif.BT

theorem bump_lens {α : Type} (a b : Row α) (c c' : List α) (f : Nat → Nat) (h : c'.length = f c.length) :
    bump f ((a ++ c :: b).map List.length) a.length = (a ++ c' :: b).map List.length := by
  have := bump_mid f (a.map List.length) (b.map List.length) c.length
  simp only [List.length_map] at this
  simp only [List.map_append, List.map_cons, this, h]

theorem insertIdx_eq {α : Type} (l : List α) (i : Nat) (x : α) (h : i ≤ l.length) : l.insertIdx i x = l.take i ++ x :: l.drop i := by
  have := insertIdx_mid (l.take i) (l.drop i) x
  rw [List.take_append_drop, List.length_take, Nat.min_eq_left h] at this
  exact this

theorem take_mid {α : Type} (a c b : List α) (i : Nat) (h : i ≤ c.length) : (a ++ (c ++ b)).take (a.length + i) = a ++ c.take i := by
  rw [List.take_append, List.take_of_length_le (l := a) (by omega), Nat.add_sub_cancel_left, List.take_append_of_le_length h]

theorem drop_mid {α : Type} (a c b : List α) (i : Nat) (h : i ≤ c.length) : (a ++ (c ++ b)).drop (a.length + i) = c.drop i ++ b := by
  rw [List.drop_append, List.drop_eq_nil_of_le (as := a) (by omega), Nat.add_sub_cancel_left, List.drop_append_of_le_length h]
  rfl

theorem insertAt_spec {t : Tree} {n i : Nat} {p : List Posi} {c : List Elem} (e : Elem) (hc : t.leaves[n]? = some c)
    (hl : c.length < 32) (hi : i ≤ c.length) (hp : PathTo t.upper n p) (hr : ∀ j x, t.leaves[j]? = some x → j ≠ n → 0 < x.length)
    (hm : Mid t) :
    ∃ t', insertAt t n i p e = some t' ∧ Wf t' ∧ t'.leaves ≠ [] ∧
      t'.leaves.flatten = t.leaves.flatten.take (off t.leaves n + i) ++ e :: t.leaves.flatten.drop (off t.leaves n + i) := by
  obtain ⟨leaves, upper⟩ := t
  obtain ⟨m1, m2, m3, m4⟩ := hm
  simp only at *
  obtain ⟨u, u1, u2, u3⟩ := addPath_spec m3 hp
  have h1 : ¬ (c.length < i ∨ itemCount ≤ c.length) := by simp only [itemCount]; omega
  rw [insertAt]
  simp only [hc, if_neg h1, u1]
  obtain ⟨a, b, rfl, rfl⟩ := split_at hc
  refine ⟨_, rfl, .inr ⟨?_, AllNodes.congr u3 m2, ?_, ?_⟩, ?_, ?_⟩
  · simp only
    rw [set_mid]
    intro x hx
    rw [List.mem_append, List.mem_cons] at hx
    rcases hx with hx | rfl | hx
    · obtain ⟨j, hj, rfl⟩ := List.mem_iff_getElem.mp hx
      refine ⟨hr j _ ?_ (by omega), m1 _ (by simp)⟩
      rw [List.getElem?_append_left hj, List.getElem?_eq_getElem hj]
    · rw [List.length_insertIdx_of_le_length hi]; omega
    · obtain ⟨j, hj, rfl⟩ := List.mem_iff_getElem.mp hx
      refine ⟨hr (a.length + 1 + j) _ ?_ (by omega), m1 _ (by simp)⟩
      rw [List.getElem?_append_right (by omega), show a.length + 1 + j - a.length = j + 1 by omega, List.getElem?_cons_succ,
        List.getElem?_eq_getElem hj]
  · simp only
    rw [set_mid, ← bump_lens a b c (c.insertIdx i e) (· + 1) (by rw [List.length_insertIdx_of_le_length hi])]
    exact u2
  · simp only
    have := congrArg List.length u3
    simp only [shape, List.length_map] at this
    omega
  · simp only; rw [set_mid]; simp
  · simp only
    rw [set_mid, off_mid, insertIdx_eq c i e hi]
    simp only [List.flatten_append, List.flatten_cons]
    rw [take_mid _ _ _ _ hi, drop_mid _ _ _ _ hi]
    simp only [List.append_assoc, List.cons_append]

theorem replaceAt_spec {t : Tree} {m n i : Nat} (e : Elem) (h : At t.leaves m n i) (hw : Wf t) :
    ∃ t', replaceAt t n i e = some t' ∧ Wf t' ∧ t'.leaves.flatten = t.leaves.flatten.set m e := by
  obtain ⟨leaves, upper⟩ := t
  obtain ⟨a, c, b, hrow, rfl, hi, rfl⟩ := h.split
  simp only at hrow
  subst hrow
  rw [replaceAt]
  simp only [get_mid, if_pos hi]
  refine ⟨_, rfl, ?_, ?_⟩
  · rcases hw with ⟨h, -⟩ | ⟨w1, w2, w3, w4⟩
    · simp at h
    · have hlen : (a ++ c.set i e :: b).map List.length = (a ++ c :: b).map List.length := by simp
      refine .inr ⟨?_, w2, ?_, w4⟩
      · simp only [set_mid]; exact w1.congr hlen
      · simp only [set_mid]; rw [hlen]; exact w3
  · simp only [set_mid, List.flatten_append, List.flatten_cons]
    rw [List.set_append_right _ _ (by omega), Nat.add_sub_cancel_left, List.set_append_left _ _ hi]

theorem unlinkAt_spec {t : Tree} {m n i : Nat} {p : List Posi} (h : At t.leaves m n i) (hp : PathTo t.upper n p) (hw : Wf t) :
    ∃ t', unlinkAt t n i p = some t' ∧ Wf t' ∧ t'.leaves.flatten = t.leaves.flatten.eraseIdx m := by
  obtain ⟨leaves, upper⟩ := t
  obtain ⟨a, c, b, hrow, rfl, hi, rfl⟩ := h.split
  simp only at hrow hp
  subst hrow
  rcases hw with ⟨h, -⟩ | ⟨w1, w2, w3, w4⟩
  · simp at h
  simp only at w1 w2 w3 w4
  obtain ⟨u, u1, u2, u3⟩ := subPath_spec (k := 1) (e := c.length) w3 hp (by simp) (by omega)
  have hlu : u.length = upper.length := by
    have := congrArg List.length u3
    simpa only [shape, List.length_map] using this
  have hcm := w1 c (by simp)
  have hle : (c.eraseIdx i).length = c.length - 1 := by rw [List.length_eraseIdx_of_lt hi]
  have hal : Aligned u ((a ++ c.eraseIdx i :: b).map List.length) := by
    rw [← bump_lens a b c (c.eraseIdx i) (· - 1) hle]; exact u2
  have hfl : (a ++ c.eraseIdx i :: b).flatten = (a ++ c :: b).flatten.eraseIdx (a.flatten.length + i) := by
    simp only [List.flatten_append, List.flatten_cons]
    rw [List.eraseIdx_append_of_length_le (by omega), Nat.add_sub_cancel_left, List.eraseIdx_append_of_lt_length hi]
  have hmem : ∀ x ∈ a ++ c.eraseIdx i :: b, x ∈ a ++ c :: b ∨ x = c.eraseIdx i := by
    intro x hx
    simp only [List.mem_append, List.mem_cons] at hx ⊢
    rcases hx with hx | hx | hx <;> simp [hx]
  rw [unlinkAt]
  simp only [get_mid, if_neg (show ¬ c.length ≤ i by omega), u1, set_mid]
  by_cases hs : c.length - 1 < itemCount / 2
  · rw [if_pos hs]
    obtain ⟨t', r1, r2, r3⟩ := merge_spec true (cur := 1) (t := ⟨a ++ c.eraseIdx i :: b, u⟩) (n := a.length) (p := p)
      ⟨by
        intro x hx
        rcases hmem x hx with hx | rfl
        · exact (w1 x hx).2
        · omega, AllNodes.congr u3 w2, hal, by simp only; omega⟩ (hp.congr u3) (by simp) (by omega)
        ⟨by simp, by simp⟩ (by
          intro j hj
          simp only at hj
          by_cases hja : j = a.length
          · simp [visits, hja]
          · exfalso
            have : (a ++ c :: b)[j]? = some [] := by
              rw [← hj, ← set_mid a b c (c.eraseIdx i), List.getElem?_set]
              rw [if_neg (by omega)]
            have := (w1 [] (List.mem_of_getElem? this)).1
            simp at this)
    exact ⟨t', r1, r2, by rw [r3]; exact hfl⟩
  · rw [if_neg hs]
    refine ⟨_, rfl, .inr ⟨?_, AllNodes.congr u3 w2, hal, by simp only; omega⟩, hfl⟩
    intro x hx
    rcases hmem x hx with hx | rfl
    · exact w1 x hx
    · simp only [itemCount] at hs; omega

/-! ## Removing a selection of elements -/

theorem eraseIdxs_filter_aux (c : List Elem) (G : List Nat) (P : List Elem) (k : Nat)
    (h : ∀ (i : Nat) (e : Elem), c[i]? = some e → (k + i ∈ G ↔ e ∈ P)) :
    ((c.zipIdx k).filterMap fun e => if e.2 ∈ G then none else some e.1) = c.filter fun e => decide (e ∉ P) := by
  induction c generalizing k with
  | nil => rfl
  | cons x c ih =>
    have h0 := h 0 x rfl
    rw [Nat.add_zero] at h0
    have ih' := ih (k + 1) (fun i e he => by
      have := h (i + 1) e (by rw [List.getElem?_cons_succ]; exact he)
      rwa [show k + (i + 1) = k + 1 + i by omega] at this)
    rw [List.zipIdx_cons, List.filterMap_cons, List.filter_cons, ih']
    by_cases hx : x ∈ P
    · simp [hx, h0.mpr hx]
    · simp [hx, mt h0.mp hx]

theorem eraseIdxs_filter {c : List Elem} {G : List Nat} {P : List Elem}
    (h : ∀ (i : Nat) (e : Elem), c[i]? = some e → (i ∈ G ↔ e ∈ P)) : eraseIdxs c G = c.filter fun e => decide (e ∉ P) :=
  eraseIdxs_filter_aux c G P 0 (by simpa using h)

theorem eraseIdxs_length_aux {α : Type} (c : List α) (G : List Nat) (k : Nat) :
    ((c.zipIdx k).filterMap fun e => if e.2 ∈ G then none else some e.1).length =
      (List.range' k c.length).countP fun i => decide (i ∉ G) := by
  induction c generalizing k with
  | nil => rfl
  | cons x c ih =>
    rw [List.zipIdx_cons, List.filterMap_cons, List.length_cons, List.range'_succ, List.countP_cons]
    by_cases hx : k ∈ G
    · simp [hx, ih]
    · simp [hx, ih]

theorem eraseIdxs_length {α : Type} {c : List α} {G : List Nat} (hn : G.Nodup) (hl : ∀ i ∈ G, i < c.length) :
    (eraseIdxs c G).length + G.length = c.length := by
  have h1 : (eraseIdxs c G).length = (List.range c.length).countP fun i => decide (i ∉ G) := by
    rw [eraseIdxs, eraseIdxs_length_aux, List.range_eq_range']
  have h2 := List.length_eq_countP_add_countP (fun i => decide (i ∈ G)) (l := List.range c.length)
  rw [List.length_range] at h2
  have h3 : (List.range c.length).countP (fun i => decide (i ∈ G)) = G.length := by
    rw [List.countP_eq_length_filter]
    apply List.Perm.length_eq
    rw [List.perm_ext_iff_of_nodup (List.nodup_range.filter _) hn]
    intro i
    simp only [List.mem_filter, List.mem_range, decide_eq_true_eq]
    exact ⟨fun h => h.2, fun h => ⟨hl i h, h⟩⟩
  have h4 : (List.range c.length).countP (fun i => decide (i ∉ G)) =
      (List.range c.length).countP (fun i => decide ¬ (decide (i ∈ G) = true)) := by
    congr 1; funext i; simp
  rw [h1, h4]
  omega

theorem eraseIdxs_nil {α : Type} (c : List α) : eraseIdxs c [] = c := by
  rw [eraseIdxs]
  simp only [List.not_mem_nil, if_false]
  have : ∀ (c : List α) (k : Nat), ((c.zipIdx k).filterMap fun e => some e.1) = c := by
    intro c
    induction c with
    | nil => intro; rfl
    | cons x c ih => intro k; rw [List.zipIdx_cons, List.filterMap_cons]; simp [ih]
  exact this c 0

theorem removePicks_spec (forward : Bool) (G : Nat → List Nat) (cnt : Nat) {leaves : Row Elem} {upper : List (Row Nat)} {n : Nat}
    {p : List Posi} (ha : Aligned upper (leaves.map List.length)) (hn : AllNodes upper) (hp : PathTo upper n p)
    (hr : InRange forward cnt n leaves.length)
    (hG : ∀ j ∈ visits forward cnt n, ∀ c, leaves[j]? = some c → (G j).Nodup ∧ ∀ i ∈ G j, i < c.length) :
    ∃ leaves' upper', removePicks forward ((visits forward cnt n).map G) leaves upper n p = some (leaves', upper') ∧
      Aligned upper' (leaves'.map List.length) ∧ shape upper' = shape upper ∧ leaves'.length = leaves.length ∧
      ∀ j c, leaves[j]? = some c → leaves'[j]? = some (if j ∈ visits forward cnt n then eraseIdxs c (G j) else c) := by
  induction cnt generalizing leaves upper n p with
  | zero =>
    refine ⟨leaves, upper, by rw [visits]; simp [removePicks], ha, rfl, rfl, ?_⟩
    intro j c h
    rw [if_neg (by simp [visits])]; exact h
  | succ cnt ih =>
    have hnl := hr.1
    obtain ⟨c, hc⟩ : ∃ c, leaves[n]? = some c := ⟨_, List.getElem?_eq_getElem hnl⟩
    obtain ⟨g1, g2⟩ := hG n (by simp [visits]) c hc
    have hlen := eraseIdxs_length g1 g2
    obtain ⟨u, u1, u2, u3⟩ : ∃ u, (if (G n).length = 0 then some upper else subPath (G n).length upper p) = some u ∧
        Aligned u ((leaves.set n (eraseIdxs c (G n))).map List.length) ∧ shape u = shape upper := by
      obtain ⟨a, b, rfl, rfl⟩ := split_at hc
      rw [set_mid]
      by_cases h0 : (G a.length).length = 0
      · rw [if_pos h0]
        refine ⟨upper, rfl, ?_, rfl⟩
        have : (a ++ eraseIdxs c (G a.length) :: b).map List.length = (a ++ c :: b).map List.length := by
          simp only [List.map_append, List.map_cons]; rw [show (eraseIdxs c (G a.length)).length = c.length by omega]
        rw [this]; exact ha
      · rw [if_neg h0]
        obtain ⟨u, u1, u2, u3⟩ := subPath_spec (k := (G a.length).length) (e := c.length) ha hp (by simp) (by omega)
        refine ⟨u, u1, ?_, u3⟩
        rw [← bump_lens a b c _ (· - (G a.length).length) (by omega)]
        exact u2
    rw [visits, List.map_cons, removePicks]
    simp only [hc, u1]
    have hset : ∀ j, (leaves.set n (eraseIdxs c (G n)))[j]? = if n = j then some (eraseIdxs c (G n)) else leaves[j]? := by
      intro j
      rw [List.getElem?_set]
      by_cases h : n = j
      · rw [if_pos h, if_pos h, if_pos hnl]
      · rw [if_neg h, if_neg h]
    cases cnt with
    | zero =>
      rw [if_pos (by simp [visits])]
      refine ⟨_, _, rfl, u2, u3, by simp, ?_⟩
      intro j x hx
      rw [hset]
      by_cases h : n = j
      · subst h; rw [hc] at hx; cases hx; simp
      · have hj : ¬ (j ∈ n :: visits forward 0 (towards forward n)) := by
          simp only [visits, List.mem_singleton]; exact fun e => h e.symm
        rw [if_neg h, if_neg hj]; exact hx
    | succ cnt =>
      have hne : ¬ ((visits forward (cnt + 1) (towards forward n)).map G = []) := by simp [visits]
      rw [if_neg hne]
      have hwl : (leaves.map List.length).length = leaves.length := List.length_map _
      have hu : ¬ upper = [] := by
        rintro rfl
        have h1 : (leaves.map List.length).length = 1 := ha
        have h2 := hr.2
        cases forward <;> simp only [if_true, Bool.false_eq_true, if_false] at h2 <;> omega
      rw [if_neg hu]
      obtain ⟨p', s1, s2⟩ := stepPath_spec forward (AllNodes.congr u3 hn) u2 (hp.congr u3) (by
        have h2 := hr.2
        rw [List.length_map, List.length_set]
        cases forward <;> simp only [if_true, Bool.false_eq_true, if_false] at h2 ⊢ <;> omega)
      simp only [s1]
      have hn0 : ¬ (n = 0 ∧ forward = false) := by
        rintro ⟨rfl, rfl⟩
        have h2 := hr.2
        simp only [Bool.false_eq_true, if_false] at h2
        omega
      rw [if_neg hn0]
      have hto : (if forward then n + 1 else n - 1) = towards forward n := rfl
      have hnm : n ∉ visits forward (cnt + 1) (towards forward n) := by
        have := visits_nodup hr
        rw [visits, List.nodup_cons] at this
        exact this.1
      obtain ⟨l', up', r1, r2, r3, r4, r5⟩ := ih (leaves := leaves.set n (eraseIdxs c (G n))) (upper := u) (n := towards forward n) (p := p')
        u2 (AllNodes.congr u3 hn) s2 (by rw [List.length_set]; exact hr.step) (by
          intro j hj x hx
          rw [hset] at hx
          have : n ≠ j := by rintro rfl; exact hnm hj
          rw [if_neg this] at hx
          exact hG j (by rw [visits]; exact List.mem_cons_of_mem _ hj) x hx)
      rw [hto]
      refine ⟨l', up', r1, r2, by rw [r3, u3], by rw [r4, List.length_set], ?_⟩
      intro j x hx
      by_cases h : n = j
      · subst h
        rw [hc] at hx; cases hx
        rw [r5 n (eraseIdxs c (G n)) (by rw [hset, if_pos rfl]), if_neg hnm, if_pos (by simp)]
      · rw [r5 j x (by rw [hset, if_neg h]; exact hx)]
        have : (j ∈ n :: visits forward (cnt + 1) (towards forward n)) ↔ j ∈ visits forward (cnt + 1) (towards forward n) := by
          rw [List.mem_cons]
          exact ⟨fun h' => h'.elim (fun e => absurd e.symm h) id, .inr⟩
        by_cases hj : j ∈ visits forward (cnt + 1) (towards forward n)
        · rw [if_pos hj, if_pos (this.mpr hj)]
        · rw [if_neg hj, if_neg (mt this.mp hj)]

theorem filter_flatten (leaves leaves' : Row Elem) (q : Elem → Bool) (hl : leaves'.length = leaves.length)
    (h : ∀ (j : Nat) (c : List Elem), leaves[j]? = some c → leaves'[j]? = some (c.filter q)) : leaves'.flatten = leaves.flatten.filter q := by
  have : leaves' = leaves.map fun c => c.filter q := by
    apply List.ext_getElem?
    intro j
    rw [List.getElem?_map]
    cases hc : leaves[j]? with
    | none =>
      rw [List.getElem?_eq_none_iff] at hc
      rw [Option.map_none, List.getElem?_eq_none_iff]; omega
    | some c => rw [h j c hc]; rfl
  rw [this, List.filter_flatten]

/-- Removal of the elements `P`, found at the indexes `G j` of the leaves visited, and the merge that follows. -/
theorem removeMerge_spec (forward : Bool) (G : Nat → List Nat) (P : List Elem) {cnt : Nat} {t : Tree} {n : Nat} {p : List Posi}
    (hw : Wf t) (hne : t.leaves ≠ []) (hp : PathTo t.upper n p) (hc : 0 < cnt) (hr : InRange forward cnt n t.leaves.length)
    (hG : ∀ j ∈ visits forward cnt n, (G j).Nodup ∧ ∀ i ∈ G j, ∃ c, t.leaves[j]? = some c ∧ i < c.length)
    (hP : ∀ (j i : Nat) (c : List Elem) (e : Elem), t.leaves[j]? = some c → c[i]? = some e →
      ((j ∈ visits forward cnt n ∧ i ∈ G j) ↔ e ∈ P)) :
    ∃ leaves' upper' t', removePicks forward ((visits forward cnt n).map G) t.leaves t.upper n p = some (leaves', upper') ∧
      merge forward cnt ⟨leaves', upper'⟩ p = some t' ∧ Wf t' ∧
      t'.leaves.flatten = t.leaves.flatten.filter fun e => decide (e ∉ P) := by
  rcases hw with ⟨h, -⟩ | ⟨w1, w2, w3, w4⟩
  · exact absurd h hne
  obtain ⟨l', u', r1, r2, r3, r4, r5⟩ := removePicks_spec forward G cnt w3 w2 hp hr (by
    intro j hj c hc
    refine ⟨(hG j hj).1, ?_⟩
    intro i hi
    obtain ⟨c', h1, h2⟩ := (hG j hj).2 i hi
    rw [hc] at h1; cases h1; exact h2)
  have hf : ∀ (j : Nat) (c : List Elem), t.leaves[j]? = some c → l'[j]? = some (c.filter fun e => decide (e ∉ P)) := by
    intro j c hc
    rw [r5 j c hc]
    by_cases hj : j ∈ visits forward cnt n
    · rw [if_pos hj, eraseIdxs_filter (P := P) (fun i e he => ⟨fun h => (hP j i c e hc he).mp ⟨hj, h⟩, fun h => ((hP j i c e hc he).mpr h).2⟩)]
    · rw [if_neg hj]
      congr 1
      symm
      rw [List.filter_eq_self]
      intro e he
      obtain ⟨i, hi, rfl⟩ := List.mem_iff_getElem.mp he
      rw [decide_eq_true_eq]
      intro hm
      exact hj ((hP j i c _ hc (List.getElem?_eq_getElem hi)).mpr hm).1
  have hlu : u'.length = t.upper.length := by
    have := congrArg List.length r3
    simpa only [shape, List.length_map] using this
  obtain ⟨t', m1, m2, m3⟩ := merge_spec forward (cur := cnt) (t := ⟨l', u'⟩) (n := n) (p := p) ⟨by
      intro x hx
      obtain ⟨j, hj, rfl⟩ := List.mem_iff_getElem.mp hx
      have hj' : j < t.leaves.length := by simp only at hj; omega
      have h1 := hf j _ (List.getElem?_eq_getElem hj')
      rw [List.getElem?_eq_getElem hj, Option.some.injEq] at h1
      rw [h1]
      have h2 := List.length_filter_le (fun e => decide (e ∉ P)) t.leaves[j]
      have h3 := (w1 t.leaves[j] (List.getElem_mem hj')).2
      omega, AllNodes.congr r3 w2, r2, by simp only; omega⟩ (hp.congr r3) (by simp only; rw [r4]; exact hr.1) hc
      (by simp only; rw [r4]; exact hr) (by
        intro j hj
        simp only at hj
        have hjl : j < t.leaves.length := by
          have := (List.getElem?_eq_some_iff.mp hj).1
          omega
        by_cases hv : j ∈ visits forward cnt n
        · exact hv
        · exfalso
          have h1 := r5 j _ (List.getElem?_eq_getElem hjl)
          rw [if_neg hv, hj, Option.some.injEq] at h1
          have h2 := (w1 t.leaves[j] (List.getElem_mem hjl)).1
          rw [← h1] at h2
          simp at h2)
  exact ⟨l', u', t', r1, m1, m2, by rw [m3]; exact filter_flatten _ _ _ r4 hf⟩

end Verif.BT
