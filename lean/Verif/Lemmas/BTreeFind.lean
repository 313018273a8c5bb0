import Verif.Lemmas.BTreeMerge
import Verif.Lemmas.BKey
/-!
# Lemmas on searching a key in the tree
-/
namespace Verif.BT
open Verif.BT.Spec

/-- Keys ascend along the list. -/
def Inc (l : List Elem) : Prop := ∀ (i j : Nat) (a b : Elem), i < j → l[i]? = some a → l[j]? = some b → KLt a.bkey b.bkey

/-- A key that can be compared with all keys of a list. -/
def Fits (key : BKey) (l : List Elem) : Prop := NonEmpty key ∧ ∀ e ∈ l, SameKind key e.bkey ∧ NonEmpty e.bkey

theorem bsearch_spec (cmp : Nat → Option Ordering) (fuel l r : Nat) (hf : r < fuel + l) (hlr : l ≤ r)
    (hc : ∀ j, l ≤ j → j < r → cmp j ≠ none)
    (hlt : ∀ j k, l ≤ j → j < k → k < r → cmp j = some .lt → cmp k = some .lt)
    (hgt : ∀ j k, l ≤ j → j < k → k < r → cmp k = some .gt → cmp j = some .gt) :
    (∃ i, bsearch cmp fuel l r = some (.found i) ∧ l ≤ i ∧ i < r ∧ cmp i = some .eq) ∨
    (∃ k, bsearch cmp fuel l r = some (.missing k) ∧ l ≤ k ∧ k ≤ r ∧ (∀ j, l ≤ j → j < k → cmp j = some .gt) ∧
      (∀ j, k ≤ j → j < r → cmp j = some .lt)) := by
  induction fuel generalizing l r with
  | zero => omega
  | succ fuel ih =>
    rw [bsearch]
    by_cases h : l < r
    · rw [if_pos h]
      simp only
      have hm1 : l ≤ (l + r - 1) / 2 := by omega
      have hm2 : (l + r - 1) / 2 < r := by omega
      generalize hmid : (l + r - 1) / 2 = mid at hm1 hm2
      cases hcm : cmp mid with
      | none => exact absurd hcm (hc mid hm1 hm2)
      | some o =>
        cases o with
        | eq => exact .inl ⟨mid, rfl, hm1, hm2, hcm⟩
        | lt =>
          have hlt' : ∀ j, mid ≤ j → j < r → cmp j = some .lt := by
            intro j h1 h2
            rcases Nat.eq_or_lt_of_le h1 with rfl | h1
            · exact hcm
            · exact hlt mid j hm1 h1 h2 hcm
          rcases ih l mid (by omega) hm1 (fun j a b => hc j a (by omega)) (fun j k a b c => hlt j k a b (by omega))
            (fun j k a b c => hgt j k a b (by omega)) with ⟨i, i1, i2, i3, i4⟩ | ⟨k, i1, i2, i3, i4, i5⟩
          · exact .inl ⟨i, i1, i2, by omega, i4⟩
          · refine .inr ⟨k, i1, i2, by omega, i4, ?_⟩
            intro j a b
            rcases Nat.lt_or_ge j mid with h' | h'
            · exact i5 j a h'
            · exact hlt' j h' b
        | gt =>
          have hgt' : ∀ j, l ≤ j → j ≤ mid → cmp j = some .gt := by
            intro j h1 h2
            rcases Nat.eq_or_lt_of_le h2 with rfl | h2
            · exact hcm
            · exact hgt j mid h1 h2 hm2 hcm
          rcases ih (mid + 1) r (by omega) (by omega) (fun j a b => hc j (by omega) b)
            (fun j k a b c => hlt j k (by omega) b c) (fun j k a b c => hgt j k (by omega) b c)
            with ⟨i, i1, i2, i3, i4⟩ | ⟨k, i1, i2, i3, i4, i5⟩
          · exact .inl ⟨i, i1, by omega, i3, i4⟩
          · refine .inr ⟨k, i1, by omega, i3, ?_, i5⟩
            intro j a b
            rcases Nat.lt_or_ge mid j with h' | h'
            · exact i4 j h' b
            · exact hgt' j a h'
    · rw [if_neg h]
      exact .inr ⟨l, rfl, Nat.le_refl _, hlr, fun j a b => by omega, fun j a b => by omega⟩

theorem cmpAt_spec {key : BKey} {l : List Elem} (hf : Fits key l) {j : Nat} {e : Elem} (he : l[j]? = some e) :
    (cmpAt key l j = some .lt ∧ KLt key e.bkey) ∨ (cmpAt key l j = some .eq ∧ key = e.bkey) ∨
      (cmpAt key l j = some .gt ∧ KLt e.bkey key) := by
  rw [cmpAt, he]
  have := hf.2 e (List.mem_of_getElem? he)
  exact bkeyComp_spec this.1 hf.1 this.2

/-- A search in the part `[lo, lo+len)` of an ascending list. -/
theorem search_spec {key : BKey} {l : List Elem} (hf : Fits key l) (hi : Inc l) (lo s len : Nat) (hs : s ≤ len) (h32 : len ≤ 32)
    (hlen : lo + len ≤ l.length) :
    (∃ i e, bsearch (fun j => cmpAt key l (lo + j)) 33 s len = some (.found i) ∧ s ≤ i ∧ i < len ∧
      l[lo + i]? = some e ∧ e.bkey = key) ∨
    (∃ k, bsearch (fun j => cmpAt key l (lo + j)) 33 s len = some (.missing k) ∧ s ≤ k ∧ k ≤ len ∧
      (∀ j e, s ≤ j → j < k → l[lo + j]? = some e → KLt e.bkey key) ∧
      (∀ j e, k ≤ j → j < len → l[lo + j]? = some e → KLt key e.bkey)) := by
  have hget : ∀ j, j < len → ∃ e, l[lo + j]? = some e := fun j hj => ⟨l[lo + j], List.getElem?_eq_getElem (by omega)⟩
  have := bsearch_spec (fun j => cmpAt key l (lo + j)) 33 s len (by omega) hs ?_ ?_ ?_
  · rcases this with ⟨i, i1, i2, i3, i4⟩ | ⟨k, i1, i2, i3, i4, i5⟩
    · obtain ⟨e, he⟩ := hget i i3
      rcases cmpAt_spec hf he with ⟨c, -⟩ | ⟨-, c⟩ | ⟨c, -⟩
      · rw [c] at i4; cases i4
      · exact .inl ⟨i, e, i1, i2, i3, he, c.symm⟩
      · rw [c] at i4; cases i4
    · refine .inr ⟨k, i1, i2, i3, ?_, ?_⟩
      · intro j e h1 h2 he
        have := i4 j h1 h2
        rcases cmpAt_spec hf he with ⟨c, -⟩ | ⟨c, -⟩ | ⟨-, c⟩
        · rw [c] at this; cases this
        · rw [c] at this; cases this
        · exact c
      · intro j e h1 h2 he
        have := i5 j h1 h2
        rcases cmpAt_spec hf he with ⟨-, c⟩ | ⟨c, -⟩ | ⟨c, -⟩
        · exact c
        · rw [c] at this; cases this
        · rw [c] at this; cases this
  · intro j _ hj
    obtain ⟨e, he⟩ := hget j hj
    rcases cmpAt_spec hf he with ⟨c, -⟩ | ⟨c, -⟩ | ⟨c, -⟩ <;> rw [c] <;> simp
  · intro j k _ hjk hk hc
    obtain ⟨e, he⟩ := hget j (by omega)
    obtain ⟨e', he'⟩ := hget k hk
    have hlt := hi _ _ _ _ (show lo + j < lo + k by omega) he he'
    rcases cmpAt_spec hf he with ⟨-, c⟩ | ⟨c, -⟩ | ⟨c, -⟩
    · have hk' := klt_trans c hlt
      rw [cmpAt, he']
      exact bkeyComp_lt hf.1 (hf.2 _ (List.mem_of_getElem? he')).2 hk'
    · rw [c] at hc; cases hc
    · rw [c] at hc; cases hc
  · intro j k _ hjk hk hc
    obtain ⟨e, he⟩ := hget j (by omega)
    obtain ⟨e', he'⟩ := hget k hk
    have hlt := hi _ _ _ _ (show lo + j < lo + k by omega) he he'
    rcases cmpAt_spec hf he' with ⟨c, -⟩ | ⟨c, -⟩ | ⟨-, c⟩
    · rw [c] at hc; cases hc
    · rw [c] at hc; cases hc
    · have hk' := klt_trans hlt c
      rw [cmpAt, he]
      exact bkeyComp_gt hf.1 (hf.2 _ (List.mem_of_getElem? he)).2 hk'

theorem nodeFirsts_spec {β : Type} {row : Row Nat} {f : List β} (hn : Nodes row) (hl : row.flatten.length = f.length) :
    ∃ f', nodeFirsts row f = some f' ∧ f'.length = row.length ∧ ∀ n, n < row.length → f'[n]? = f[off row n]? := by
  induction row generalizing f with
  | nil => exact ⟨[], rfl, rfl, fun n h => by simp at h⟩
  | cons node row ih =>
    have hnl := hn node (by simp)
    rw [List.flatten_cons, List.length_append] at hl
    cases f with
    | nil => simp only [List.length_nil] at hl; omega
    | cons e f =>
      obtain ⟨f', i1, i2, i3⟩ := ih (f := (e :: f).drop node.length) (fun c hc => hn c (by simp [hc])) (by
        rw [List.length_drop]; omega)
      refine ⟨e :: f', by rw [nodeFirsts]; simp only [i1], by simp [i2], ?_⟩
      intro n hlt
      cases n with
      | zero => simp [off]
      | succ n =>
        rw [List.getElem?_cons_succ, i3 n (by simpa using hlt), List.getElem?_drop]
        rfl

theorem leafFirsts_spec {leaves : Row Elem} (hn : Nodes leaves) :
    ∃ f', leafFirsts leaves = some f' ∧ f'.length = leaves.length ∧ ∀ n, n < leaves.length → f'[n]? = leaves.flatten[off leaves n]? := by
  induction leaves with
  | nil => exact ⟨[], rfl, rfl, fun n h => by simp at h⟩
  | cons node row ih =>
    have hnl := hn node (by simp)
    obtain ⟨f', i1, i2, i3⟩ := ih (fun c hc => hn c (by simp [hc]))
    cases node with
    | nil => simp at hnl
    | cons e node =>
      refine ⟨e :: f', by rw [leafFirsts]; simp only [i1], by simp [i2], ?_⟩
      intro n hlt
      cases n with
      | zero => simp [off]
      | succ n =>
        rw [List.getElem?_cons_succ, i3 n (by simpa using hlt), List.flatten_cons]
        have : off ((e :: node) :: row) (n + 1) = (e :: node).length + off row n := by simp [off]
        rw [this, List.getElem?_append_right (by omega), Nat.add_sub_cancel_left]

theorem off_lt_mono {α : Type} {row : Row α} (hn : ∀ c ∈ row, 0 < c.length) {n n' : Nat} (h : n < n') (h' : n' < row.length) :
    off row n < off row n' := by
  have hg : row[n]? = some row[n] := List.getElem?_eq_getElem (by omega)
  have h1 := off_succ hg
  have h2 := off_mono row (show n + 1 ≤ n' from h)
  have h3 := hn row[n] (List.getElem_mem (by omega))
  omega

/-- First items of the nodes of an ascending level ascend. -/
theorem firsts_inc {α : Type} {row : Row α} {l f : List Elem} (hn : Nodes row) (hlen : f.length = row.length)
    (hf : ∀ n, n < row.length → f[n]? = l[off row n]?) (hi : Inc l) : Inc f := by
  intro i j a b hij ha hb
  have hj : j < row.length := by rw [← hlen]; exact (List.getElem?_eq_some_iff.mp hb).1
  rw [hf i (by omega)] at ha
  rw [hf j hj] at hb
  exact hi _ _ _ _ (off_lt_mono (fun c hc => (hn c hc).1) hij hj) ha hb

theorem firsts_fits {α : Type} {key : BKey} {row : Row α} {l f : List Elem} (hlen : f.length = row.length)
    (hf : ∀ n, n < row.length → f[n]? = l[off row n]?) (hk : Fits key l) : Fits key f := by
  refine ⟨hk.1, ?_⟩
  intro e he
  obtain ⟨n, hn⟩ := List.getElem?_of_mem he
  rw [hf n (by rw [← hlen]; exact (List.getElem?_eq_some_iff.mp hn).1)] at hn
  exact hk.2 e (List.mem_of_getElem? hn)

/-- The node reached: its first key is the one searched, or the search goes on in it. -/
def Reach (key : BKey) (f : List Elem) (m : Nat) (found : Bool) : Prop :=
  if found then ∃ e, f[m]? = some e ∧ e.bkey = key
  else (∀ e, 0 < m → f[m]? = some e → KLt e.bkey key) ∧ (∀ j e, m < j → f[j]? = some e → KLt key e.bkey)

theorem descend_spec {key : BKey} {rows : List (Row Nat)} {ws : List Nat} {f : List Elem} (hn : AllNodes rows)
    (ha : Aligned rows ws) (hw : ws.length = f.length) (hk : Fits key f) (hi : Inc f) :
    ∃ m p found, descend key rows f = some (m, p, found) ∧ PathTo rows m p ∧ Reach key f m found := by
  induction rows generalizing ws f with
  | nil =>
    have h1 : ws.length = 1 := ha
    refine ⟨0, [], false, rfl, rfl, ?_⟩
    simp only [Reach, Bool.false_eq_true, if_false]
    refine ⟨fun e h => by omega, ?_⟩
    intro j e h he
    have := (List.getElem?_eq_some_iff.mp he).1
    omega
  | cons row rows ih =>
    have hnr := hn row (by simp)
    have hfl : row.flatten.length = f.length := by rw [ha.1, hw]
    obtain ⟨f', f1, f2, f3⟩ := nodeFirsts_spec hnr hfl
    obtain ⟨n, p, found, d1, d2, d3⟩ := ih (fun r hr => hn r (by simp [hr])) ha.2 (by rw [List.length_map, f2])
      (firsts_fits f2 f3 hk) (firsts_inc hnr f2 f3 hi)
    have hnl : n < row.length := by
      have := Aligned.path_lt ha.2 d2
      rwa [List.length_map] at this
    have hg : row[n]? = some row[n] := List.getElem?_eq_getElem hnl
    generalize hnode : row[n] = node at hg
    have hnn := hnr node (List.mem_of_getElem? hg)
    rw [descend, f1]
    simp only [d1, hg]
    have hoff := off_succ hg
    have hoff' := off_le row (n + 1)
    cases found with
    | true =>
      rw [if_pos rfl]
      refine ⟨_, _, _, rfl, ⟨⟨⟨node, hg, hnn.1⟩, by omega⟩, d2⟩, ?_⟩
      simp only [Reach, if_true] at d3 ⊢
      obtain ⟨e, e1, e2⟩ := d3
      exact ⟨e, by rw [← f3 n hnl]; exact e1, e2⟩
    | false =>
      rw [if_neg (by simp)]
      simp only [Reach, Bool.false_eq_true, if_false] at d3
      have hnext : ∀ e, off row (n + 1) < f.length → f[off row (n + 1)]? = some e → KLt key e.bkey := by
        intro e hlt he
        have hn1 : n + 1 < row.length := by
          rcases Nat.lt_or_ge (n + 1) row.length with h | h
          · exact h
          · exfalso
            have : off row (n + 1) = row.flatten.length := by
              rw [off, List.take_of_length_le h, List.length_flatten]
            omega
        exact d3.2 (n + 1) e (by omega) (by rw [f3 _ hn1]; exact he)
      rcases search_spec hk hi (off row n) 1 node.length (by omega) (by omega) (by omega) with
        ⟨i, e, s1, s2, s3, s4, s5⟩ | ⟨k, s1, s2, s3, s4, s5⟩
      · rw [s1]
        refine ⟨_, _, _, rfl, ⟨⟨⟨node, hg, s3⟩, rfl⟩, d2⟩, ?_⟩
        simp only [Reach, if_true]
        exact ⟨e, s4, s5⟩
      · rw [s1]
        refine ⟨_, _, _, rfl, ⟨⟨⟨node, hg, by omega⟩, rfl⟩, d2⟩, ?_⟩
        simp only [Reach, Bool.false_eq_true, if_false]
        have hone : ∀ e, f[off row n + (k - 1) + 1]? = some e → KLt key e.bkey := by
          intro e he
          rcases Nat.lt_or_ge k node.length with h | h
          · exact s5 k e (Nat.le_refl _) h (by rw [← he]; congr 1; omega)
          · refine hnext e ?_ (by rw [← he]; congr 1; omega)
            have := (List.getElem?_eq_some_iff.mp he).1
            omega
        refine ⟨?_, ?_⟩
        · intro e h0 he
          by_cases hk1 : k = 1
          · subst hk1
            simp only [Nat.sub_self, Nat.add_zero] at h0 he
            have hn0 : 0 < n := by
              rcases Nat.eq_zero_or_pos n with h | h
              · subst h; simp [off] at h0
              · exact h
            exact d3.1 e hn0 (by rw [f3 n hnl]; exact he)
          · exact s4 (k - 1) e (by omega) (by omega) he
        · intro j e hj he
          rcases Nat.eq_or_lt_of_le (show off row n + (k - 1) + 1 ≤ j from hj) with h | h
          · exact hone e (by rw [h]; exact he)
          · have hlt := (List.getElem?_eq_some_iff.mp he).1
            have hg1 : f[off row n + (k - 1) + 1]? = some f[off row n + (k - 1) + 1] := List.getElem?_eq_getElem (by omega)
            exact klt_trans (hone _ hg1) (hi _ _ _ _ h hg1 he)

/-- Outcome of a search in the whole tree, in terms of the list of elements. -/
def HitOk (key : BKey) (leaves : Row Elem) (n : Nat) : Hit → Prop
  | .found i => ∃ m e, At leaves m n i ∧ leaves.flatten[m]? = some e ∧ e.bkey = key
  | .missing l => ∃ c, leaves[n]? = some c ∧ l ≤ c.length ∧
      (∀ j e, leaves.flatten[j]? = some e → j < off leaves n + l → KLt e.bkey key) ∧
      (∀ j e, leaves.flatten[j]? = some e → off leaves n + l ≤ j → KLt key e.bkey) ∧ (l = 0 → n = 0)

theorem findPosi_spec {key : BKey} {t : Tree} (hn : Nodes t.leaves) (hu : AllNodes t.upper)
    (ha : Aligned t.upper (t.leaves.map List.length)) (hk : Fits key t.leaves.flatten) (hi : Inc t.leaves.flatten) :
    ∃ n p h, findPosi key t = some (n, p, h) ∧ PathTo t.upper n p ∧ HitOk key t.leaves n h := by
  obtain ⟨f, f1, f2, f3⟩ := leafFirsts_spec hn
  have hleaf : ∃ n p found, findLeaf key t = some (n, p, found) ∧ PathTo t.upper n p ∧ Reach key f n found := by
    have hd := descend_spec hu ha (by rw [List.length_map, f2]) (firsts_fits f2 f3 hk) (firsts_inc hn f2 f3 hi)
    obtain ⟨leaves, upper⟩ := t
    simp only at *
    cases upper with
    | nil =>
      obtain ⟨m, p, found, d1, d2, d3⟩ := hd
      rw [descend] at d1
      cases d1
      exact ⟨0, [], false, rfl, rfl, d3⟩
    | cons r rs =>
      obtain ⟨m, p, found, d1, d2, d3⟩ := hd
      exact ⟨m, p, found, by rw [findLeaf]; simp only [f1, d1], d2, d3⟩
  obtain ⟨n, p, found, d1, d2, d3⟩ := hleaf
  have hnl : n < t.leaves.length := by
    have := Aligned.path_lt ha d2
    rwa [List.length_map] at this
  have hg : t.leaves[n]? = some t.leaves[n] := List.getElem?_eq_getElem hnl
  generalize hnode : t.leaves[n] = node at hg
  have hnn := hn node (List.mem_of_getElem? hg)
  have hoff := off_succ hg
  have hoff' := off_le t.leaves (n + 1)
  rw [findPosi, d1]
  simp only
  cases found with
  | true =>
    rw [if_pos rfl]
    simp only [Reach, if_true] at d3
    obtain ⟨e, e1, e2⟩ := d3
    exact ⟨n, p, .found 0, rfl, d2, off t.leaves n, e, ⟨⟨node, hg, hnn.1⟩, by omega⟩, by rw [← f3 n hnl]; exact e1, e2⟩
  | false =>
    rw [if_neg (by simp)]
    simp only [hg]
    simp only [Reach, Bool.false_eq_true, if_false] at d3
    have hin : ∀ j, j < node.length → node[j]? = t.leaves.flatten[off t.leaves n + j]? := by
      intro j hj
      exact (At.get (m := off t.leaves n + j) ⟨⟨node, hg, hj⟩, rfl⟩ hg).symm
    have hcmp : bsearch (cmpAt key node) 33 0 node.length = bsearch (fun j => cmpAt key t.leaves.flatten (off t.leaves n + j)) 33 0 node.length := by
      have : ∀ fuel l r, r ≤ node.length → bsearch (cmpAt key node) fuel l r =
          bsearch (fun j => cmpAt key t.leaves.flatten (off t.leaves n + j)) fuel l r := by
        intro fuel
        induction fuel with
        | zero => intros; rfl
        | succ fuel ih =>
          intro l r hr
          rw [bsearch, bsearch]
          by_cases h : l < r
          · rw [if_pos h, if_pos h]
            simp only
            have e1 : cmpAt key node ((l + r - 1) / 2) = cmpAt key t.leaves.flatten (off t.leaves n + (l + r - 1) / 2) := by
              rw [cmpAt, cmpAt, hin _ (by omega)]
            rw [e1]
            cases cmpAt key t.leaves.flatten (off t.leaves n + (l + r - 1) / 2) with
            | none => rfl
            | some o =>
              cases o with
              | eq => rfl
              | lt => exact ih _ _ (by omega)
              | gt => exact ih _ _ hr
          · rw [if_neg h, if_neg h]
      exact this 33 0 node.length (Nat.le_refl _)
    rw [hcmp]
    rcases search_spec hk hi (off t.leaves n) 0 node.length (by omega) (by omega) (by omega) with
      ⟨i, e, s1, s2, s3, s4, s5⟩ | ⟨k, s1, s2, s3, s4, s5⟩
    · rw [s1]
      exact ⟨n, p, .found i, rfl, d2, _, e, ⟨⟨node, hg, s3⟩, rfl⟩, s4, s5⟩
    · rw [s1]
      have hk0 : k = 0 → n = 0 := by
        intro h
        rcases Nat.eq_zero_or_pos n with h0 | h0
        · exact h0
        · exfalso
          have hlt : off t.leaves n < t.leaves.flatten.length := by omega
          have he : t.leaves.flatten[off t.leaves n]? = some t.leaves.flatten[off t.leaves n] := List.getElem?_eq_getElem hlt
          have h1 := d3.1 _ h0 (by rw [f3 n hnl]; exact he)
          have h2 := s5 0 _ (by omega) hnn.1 he
          exact klt_asymm h1 h2
      refine ⟨n, p, .missing k, rfl, d2, node, hg, s3, ?_, ?_, hk0⟩
      · intro j e he hj
        by_cases h0 : k = 0
        · have hn0 := hk0 h0
          subst hn0
          subst h0
          simp [off] at hj
        · have hlt : off t.leaves n + (k - 1) < t.leaves.flatten.length := by omega
          have he' : t.leaves.flatten[off t.leaves n + (k - 1)]? = some t.leaves.flatten[off t.leaves n + (k - 1)] := List.getElem?_eq_getElem hlt
          have h1 := s4 (k - 1) _ (by omega) (by omega) he'
          rcases Nat.eq_or_lt_of_le (show j ≤ off t.leaves n + (k - 1) by omega) with h | h
          · rw [h, he'] at he; cases he; exact h1
          · exact klt_trans (hi _ _ _ _ h he he') h1
      · intro j e he hj
        have hjl := (List.getElem?_eq_some_iff.mp he).1
        have hlt : off t.leaves n + k < t.leaves.flatten.length := by omega
        have he' : t.leaves.flatten[off t.leaves n + k]? = some t.leaves.flatten[off t.leaves n + k] := List.getElem?_eq_getElem hlt
        have h1 : KLt key t.leaves.flatten[off t.leaves n + k].bkey := by
          rcases Nat.lt_or_ge k node.length with h | h
          · exact s5 k _ (Nat.le_refl _) h he'
          · have hn1 : n + 1 < t.leaves.length := by
              rcases Nat.lt_or_ge (n + 1) t.leaves.length with h' | h'
              · exact h'
              · exfalso
                have : off t.leaves (n + 1) = t.leaves.flatten.length := by
                  rw [off, List.take_of_length_le h', List.length_flatten]
                omega
            refine d3.2 (n + 1) _ (by omega) ?_
            rw [f3 _ hn1, ← he']
            congr 1
            omega
        rcases Nat.eq_or_lt_of_le hj with h | h
        · rw [← h, he'] at he; cases he; exact h1
        · exact klt_trans h1 (hi _ _ _ _ h he' he)

end Verif.BT
