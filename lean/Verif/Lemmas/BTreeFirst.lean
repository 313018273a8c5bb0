import Verif.Lemmas.BTreeWalk
/-!
# Lemmas on the start of a walk
-/
namespace Verif.BT
open Verif.BT.Spec

/-- The place of a key that is not in the list. -/
def Gap (key : BKey) (l : List Elem) (k : Nat) : Prop :=
  k ≤ l.length ∧ (∀ (j : Nat) (e : Elem), l[j]? = some e → j < k → KLt e.bkey key) ∧
  ∀ (j : Nat) (e : Elem), l[j]? = some e → k ≤ j → KLt key e.bkey

/-- Outcome when the key is not in the list. -/
def Missed (rt : RType) (to : BKey) (t : Tree) (k : Nat) (r : Option First) : Prop :=
  match rt with
  | .sin => ∃ pos p, r = some ⟨none, pos, false, p⟩ ∧ (k = 0 → pos = .before) ∧ (k = t.leaves.flatten.length → pos = .past) ∧
      (0 < k → k < t.leaves.flatten.length → ∃ n i, pos = .pos n i)
  | .asc => (k = t.leaves.flatten.length ∧ ∃ p, r = some ⟨none, .past, false, p⟩) ∨
      ∃ e n i p, t.leaves.flatten[k]? = some e ∧ At t.leaves k n i ∧ PathTo t.upper n p ∧
        ((KLt to e.bkey ∧ r = some ⟨none, .pos n i, false, p⟩) ∨ (¬ KLt to e.bkey ∧ r = some ⟨some e, .pos n i, false, p⟩))
  | .dsc => (k = 0 ∧ ∃ p, r = some ⟨none, .before, false, p⟩) ∨
      ∃ e n i p, 0 < k ∧ t.leaves.flatten[k - 1]? = some e ∧ At t.leaves (k - 1) n i ∧ PathTo t.upper n p ∧
        ((KLt e.bkey to ∧ r = some ⟨none, .pos n i, false, p⟩) ∨ (¬ KLt e.bkey to ∧ r = some ⟨some e, .pos n i, false, p⟩))

theorem off_last {α : Type} {row : Row α} {n : Nat} {c : List α} (hc : row[n]? = some c) (hl : n + 1 = row.length) :
    off row n + c.length = row.flatten.length := by
  obtain ⟨a, b, rfl, rfl⟩ := split_at hc
  have : b = [] := by
    apply List.eq_nil_of_length_eq_zero
    simp only [List.length_append, List.length_cons] at hl; omega
  subst this
  rw [off_mid]; simp [List.flatten_append]

theorem nextLeaf_spec {t : Tree} {n : Nat} {p : List Posi} {c : List Elem} (hc : t.leaves[n]? = some c) (hn : Nodes t.leaves)
    (hu : AllNodes t.upper) (ha : Aligned t.upper (t.leaves.map List.length)) (hp : PathTo t.upper n p) :
    (off t.leaves n + c.length = t.leaves.flatten.length ∧ nextLeaf t n p = some (.past, p)) ∨
    ∃ p', nextLeaf t n p = some (.pos (n + 1) 0, p') ∧ At t.leaves (off t.leaves n + c.length) (n + 1) 0 ∧ PathTo t.upper (n + 1) p' := by
  rw [nextLeaf]
  have hlt := (List.getElem?_eq_some_iff.mp hc).1
  by_cases h : n + 1 < t.leaves.length
  · rw [if_pos h]
    obtain ⟨p', h1, h2⟩ := stepPath_spec true hu ha hp (by simp only [if_true, List.length_map]; exact h)
    refine .inr ⟨p', by rw [h1], ⟨⟨_, List.getElem?_eq_getElem h, (hn _ (List.getElem_mem h)).1⟩, ?_⟩, h2⟩
    rw [off_succ hc]; rfl
  · rw [if_neg h]
    exact .inl ⟨off_last hc (by omega), rfl⟩

theorem prevLeaf_spec {t : Tree} {n : Nat} {p : List Posi} (hlt : n < t.leaves.length) (hn : Nodes t.leaves)
    (hu : AllNodes t.upper) (ha : Aligned t.upper (t.leaves.map List.length)) (hp : PathTo t.upper n p) :
    (n = 0 ∧ prevLeaf t n p = some (.before, p)) ∨
    ∃ i p', 0 < n ∧ prevLeaf t n p = some (.pos (n - 1) i, p') ∧ At t.leaves (off t.leaves n - 1) (n - 1) i ∧ 0 < off t.leaves n ∧
      PathTo t.upper (n - 1) p' := by
  rw [prevLeaf]
  by_cases h : n = 0
  · rw [if_pos h]; exact .inl ⟨h, rfl⟩
  · rw [if_neg h]
    have hlt' : n - 1 < t.leaves.length := by omega
    obtain ⟨p', h1, h2⟩ := stepPath_spec false hu ha hp (by
      simp only [Bool.false_eq_true, if_false, List.length_map]; omega)
    have hc := List.getElem?_eq_getElem hlt'
    have hpos := (hn _ (List.getElem_mem hlt')).1
    have ho := off_succ hc
    rw [show n - 1 + 1 = n by omega] at ho
    simp only [hc, h1]
    rw [if_neg (by omega)]
    simp only [towards, Bool.false_eq_true, if_false] at h2
    exact .inr ⟨_, p', by omega, rfl, ⟨⟨_, hc, by omega⟩, by omega⟩, by omega, h2⟩

theorem within_gt {leaves : Row Elem} {to : BKey} {m n i : Nat} {p : List Posi} {e : Elem} (h : At leaves m n i)
    (he : leaves.flatten[m]? = some e) (ht : Fits to leaves.flatten) :
    (KLt to e.bkey ∧ within leaves .gt to (.pos n i, p) = some ⟨none, .pos n i, false, p⟩) ∨
    (¬ KLt to e.bkey ∧ within leaves .gt to (.pos n i, p) = some ⟨some e, .pos n i, false, p⟩) := by
  have hm := ht.2 e (List.mem_of_getElem? he)
  obtain ⟨r, r1, r2⟩ := bkeyIs_spec .gt hm.1.symm hm.2 ht.1
  simp only [within, elemAt_at h he, r1]
  simp only [CmpOp.Holds] at r2
  cases r with
  | true => exact .inl ⟨r2.mp rfl, rfl⟩
  | false => exact .inr ⟨fun h => by simpa using r2.mpr h, rfl⟩

theorem within_lt {leaves : Row Elem} {to : BKey} {m n i : Nat} {p : List Posi} {e : Elem} (h : At leaves m n i)
    (he : leaves.flatten[m]? = some e) (ht : Fits to leaves.flatten) :
    (KLt e.bkey to ∧ within leaves .lt to (.pos n i, p) = some ⟨none, .pos n i, false, p⟩) ∨
    (¬ KLt e.bkey to ∧ within leaves .lt to (.pos n i, p) = some ⟨some e, .pos n i, false, p⟩) := by
  have hm := ht.2 e (List.mem_of_getElem? he)
  obtain ⟨r, r1, r2⟩ := bkeyIs_spec .lt hm.1.symm hm.2 ht.1
  simp only [within, elemAt_at h he, r1]
  simp only [CmpOp.Holds] at r2
  cases r with
  | true => exact .inl ⟨r2.mp rfl, rfl⟩
  | false => exact .inr ⟨fun h => by simpa using r2.mpr h, rfl⟩

theorem findFirst_spec {rt : RType} {from_ to : BKey} {t : Tree} (hn : Nodes t.leaves) (hu : AllNodes t.upper)
    (ha : Aligned t.upper (t.leaves.map List.length)) (hf : Fits from_ t.leaves.flatten) (ht : Fits to t.leaves.flatten)
    (hs : Sorted t.leaves.flatten) :
    (∃ m n i e p, findFirst rt from_ to t = some ⟨some e, .pos n i, true, p⟩ ∧ At t.leaves m n i ∧ t.leaves.flatten[m]? = some e ∧
      e.bkey = from_ ∧ PathTo t.upper n p) ∨
    ∃ k, Gap from_ t.leaves.flatten k ∧ Missed rt to t k (findFirst rt from_ to t) := by
  obtain ⟨n, p, h, h1, h2, h3⟩ := findPosi_spec hn hu ha hf (inc_iff.mpr hs)
  cases h with
  | found i =>
    obtain ⟨m, e, k1, k2, k3⟩ := h3
    refine .inl ⟨m, n, i, e, p, ?_, k1, k2, k3, h2⟩
    rw [findFirst, h1]
    simp only [elemAt_at k1 k2]
  | missing l =>
    obtain ⟨c, c1, c2, c3, c4, c5⟩ := h3
    have hlt := (List.getElem?_eq_some_iff.mp c1).1
    have hcl := (hn c (List.mem_of_getElem? c1)).1
    have hole : off t.leaves n + c.length ≤ t.leaves.flatten.length := by
      rw [← off_succ c1]; exact off_le _ _
    have hgap : Gap from_ t.leaves.flatten (off t.leaves n + l) := ⟨by omega, c3, c4⟩
    refine .inr ⟨off t.leaves n + l, hgap, ?_⟩
    rw [findFirst, h1]
    simp only [c1]
    have hin : l < c.length → ∃ e, t.leaves.flatten[off t.leaves n + l]? = some e ∧ At t.leaves (off t.leaves n + l) n l := by
      intro hl
      have hat : At t.leaves (off t.leaves n + l) n l := ⟨⟨c, c1, hl⟩, rfl⟩
      exact ⟨_, List.getElem?_eq_getElem hat.lt, hat⟩
    cases rt with
    | sin =>
      simp only [Missed]
      by_cases hl : 0 < l ∧ l < c.length
      · rw [if_pos hl]
        exact ⟨_, _, rfl, fun h => by omega, fun h => by omega, fun _ _ => ⟨_, _, rfl⟩⟩
      · rw [if_neg hl]
        by_cases hl2 : c.length ≤ l
        · rw [if_pos hl2]
          have hl3 : l = c.length := by omega
          subst hl3
          rcases nextLeaf_spec c1 hn hu ha h2 with ⟨e1, e2⟩ | ⟨p', e1, e2, e3⟩
          · rw [e2]
            exact ⟨_, _, rfl, fun h => by omega, fun _ => rfl, fun _ h => by omega⟩
          · rw [e1]
            have := e2.lt
            exact ⟨_, _, rfl, fun h => by omega, fun h => by omega, fun _ _ => ⟨_, _, rfl⟩⟩
        · rw [if_neg hl2]
          have hl0 : l = 0 := by omega
          have hn0 := c5 hl0
          subst hl0 hn0
          have ho : off t.leaves 0 = 0 := by simp [off]
          rcases prevLeaf_spec hlt hn hu ha h2 with ⟨e1, e2⟩ | ⟨i, p', e0, -⟩
          · rw [e2]
            exact ⟨_, _, rfl, fun _ => rfl, fun h => by omega, fun h => by omega⟩
          · omega
    | asc =>
      simp only [Missed]
      by_cases hl : l < c.length
      · rw [if_pos hl]
        obtain ⟨e, i1, i2⟩ := hin hl
        exact .inr ⟨e, n, l, p, i1, i2, h2, within_gt i2 i1 ht⟩
      · rw [if_neg hl]
        have hl3 : l = c.length := by omega
        subst hl3
        rcases nextLeaf_spec c1 hn hu ha h2 with ⟨e1, e2⟩ | ⟨p', e1, e2, e3⟩
        · rw [e2]; exact .inl ⟨e1, p, rfl⟩
        · rw [e1]
          have hg := List.getElem?_eq_getElem e2.lt
          exact .inr ⟨_, _, _, p', hg, e2, e3, within_gt e2 hg ht⟩
    | dsc =>
      simp only [Missed]
      by_cases hl : 0 < l
      · rw [if_pos hl]
        have hat : At t.leaves (off t.leaves n + l - 1) n (l - 1) := ⟨⟨c, c1, by omega⟩, by omega⟩
        have hg := List.getElem?_eq_getElem hat.lt
        exact .inr ⟨_, n, l - 1, p, by omega, hg, hat, h2, within_lt hat hg ht⟩
      · rw [if_neg hl]
        have hl0 : l = 0 := by omega
        have hn0 := c5 hl0
        subst hl0 hn0
        have ho : off t.leaves 0 = 0 := by simp [off]
        rcases prevLeaf_spec hlt hn hu ha h2 with ⟨e1, e2⟩ | ⟨i, p', e0, -⟩
        · rw [e2]; exact .inl ⟨by omega, p, rfl⟩
        · omega

end Verif.BT
