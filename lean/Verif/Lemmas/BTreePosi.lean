import Verif.Lemmas.BTreeColl
/-!
# Lemmas on positions in a b+tree
-/
namespace Verif.BT
open Verif.BT.Spec

theorem posiFromPath_spec {upper : List (Row Nat)} {ws : List Nat} {n : Nat} {p : List Posi} (i : Nat) (ha : Aligned upper ws)
    (hp : PathTo upper n p) : posiFromPath upper p i = some ((ws.take n).sum + i) := by
  induction upper generalizing ws n p with
  | nil =>
    cases p with
    | cons _ _ => exact absurd hp (by simp [PathTo])
    | nil =>
      simp only [PathTo] at hp
      subst hp
      simp [posiFromPath]
  | cons row rows ih =>
    cases p with
    | nil => exact absurd hp (by simp [PathTo])
    | cons q p =>
      obtain ⟨n', j⟩ := q
      obtain ⟨h1, h2⟩ := hp
      obtain ⟨rfl, h3⟩ := ha
      obtain ⟨a, c, b, rfl, rfl, hj, rfl⟩ := h1.split
      rw [posiFromPath]
      simp only [get_mid, ih h3 h2]
      congr 1
      have e1 : ((a ++ c :: b).map List.sum).take a.length = a.map List.sum := by
        rw [List.map_append, List.take_append_of_le_length (by simp), List.take_of_length_le (by simp)]
      have e2 : (a ++ c :: b).flatten.take (a.flatten.length + j) = a.flatten ++ c.take j := by
        rw [List.flatten_append, List.take_length_add_append, List.flatten_cons, List.take_append_of_le_length (by omega)]
      have e3 : (a.map List.sum).sum = a.flatten.sum := by
        clear e1 e2 ih h1 h2 h3
        induction a with
        | nil => rfl
        | cons x a ih => simp only [List.map_cons, List.sum_cons, List.flatten_cons, List.sum_append, ih]
      rw [e1, e2, List.sum_append, e3]
      omega

theorem pickCount_spec {node : List Nat} (hp : ∀ w ∈ node, 0 < w) {r : Nat} (hr : r < node.sum) :
    ∃ i r' w, pickCount node r = some (i, r') ∧ node[i]? = some w ∧ r' < w ∧ r = (node.take i).sum + r' := by
  induction node generalizing r with
  | nil => simp at hr
  | cons e es ih =>
    have he := hp e (by simp)
    rw [pickCount, if_neg (by omega)]
    by_cases h : r < e
    · rw [if_pos h]
      exact ⟨0, r, e, rfl, rfl, h, by simp⟩
    · rw [if_neg h]
      rw [List.sum_cons] at hr
      obtain ⟨i, r', w, h1, h2, h3, h4⟩ := ih (fun w hw => hp w (by simp [hw])) (r := r - e) (by omega)
      rw [h1]
      exact ⟨i + 1, r', w, rfl, h2, h3, by rw [List.take_succ_cons, List.sum_cons]; omega⟩

theorem posiDown_spec {upper : List (Row Nat)} {ws : List Nat} (ha : Aligned upper ws) (hu : AllNodes upper) (hp : ∀ w ∈ ws, 0 < w)
    {idx : Nat} (hi : idx < ws.sum) :
    ∃ n r w, posiDown upper idx = some (n, r) ∧ ws[n]? = some w ∧ r < w ∧ idx = (ws.take n).sum + r := by
  induction upper generalizing ws with
  | nil =>
    simp only [Aligned] at ha
    obtain ⟨w, rfl⟩ := List.length_eq_one_iff.mp ha
    exact ⟨0, idx, w, rfl, rfl, by simpa using hi, by simp⟩
  | cons row rows ih =>
    obtain ⟨rfl, h3⟩ := ha
    have hrow : Nodes row := hu row (by simp)
    have hsum : ∀ a : Row Nat, (a.map List.sum).sum = a.flatten.sum := by
      intro a
      induction a with
      | nil => rfl
      | cons x a ih => simp only [List.map_cons, List.sum_cons, List.flatten_cons, List.sum_append, ih]
    have hpos : ∀ w ∈ row.map List.sum, 0 < w := by
      intro w hw
      obtain ⟨c, hc, rfl⟩ := List.mem_map.mp hw
      have := (hrow c hc).1
      cases c with
      | nil => simp at this
      | cons x c =>
        have := hp x (List.mem_flatten.mpr ⟨_, hc, by simp⟩)
        rw [List.sum_cons]; omega
    obtain ⟨n, r, w, h4, h5, h6, h7⟩ := ih h3 (fun r hr => hu r (by simp [hr])) hpos (by rw [hsum]; exact hi)
    rw [posiDown, h4]
    rw [List.getElem?_map] at h5
    cases hc : row[n]? with
    | none => rw [hc] at h5; cases h5
    | some c =>
      rw [hc] at h5
      cases h5
      obtain ⟨a, b, rfl, rfl⟩ := split_at hc
      obtain ⟨i, r', w, p1, p2, p3, p4⟩ := pickCount_spec (node := c)
        (fun w hw => hp w (List.mem_flatten.mpr ⟨c, by simp, hw⟩)) h6
      simp only [get_mid, p1]
      have hic := (List.getElem?_eq_some_iff.mp p2).1
      refine ⟨_, _, w, rfl, ?_, p3, ?_⟩
      · rw [off_mid, (At.mk' (row := a ++ c :: b) rfl hic).get (get_mid a b c)]; exact p2
      · have e1 : ((a ++ c :: b).map List.sum).take a.length = a.map List.sum := by
          rw [List.map_append, List.take_append_of_le_length (by simp), List.take_of_length_le (by simp)]
        have e2 : (a ++ c :: b).flatten.take (a.flatten.length + i) = a.flatten ++ c.take i := by
          rw [List.flatten_append, List.take_length_add_append, List.flatten_cons, List.take_append_of_le_length (by omega)]
        rw [e1, hsum] at h7
        rw [off_mid, e2, List.sum_append]
        omega

theorem batchGet_spec {leaves : Row Elem} (forward : Bool) (hn : ∀ c ∈ leaves, 0 < c.length) (count : Nat) {m n i : Nat}
    {e : Elem} {rest : List Elem} (h : At leaves m n i) (hs : seq forward leaves.flatten m = e :: rest) :
    batchGet leaves forward count n i = some (rest.take count) := by
  induction count generalizing m n i e rest with
  | zero => simp [batchGet]
  | succ count ih =>
    rw [batchGet]
    cases rest with
    | nil =>
      have hend := seq_end h.lt hs
      cases forward with
      | true =>
        have := (incrPosi_spec hn h).2 (by simpa using hend)
        simp only [stepPosi, if_true, this, List.take_nil]
      | false =>
        have := (decrPosi_spec hn h).2 (by simpa using hend)
        simp only [stepPosi, Bool.false_eq_true, if_false, this, List.take_nil]
    | cons x xs =>
      obtain ⟨h1, h2⟩ := seq_step h.lt hs
      obtain ⟨n', i', h3, h4, -⟩ := stepPosi_spec forward hn h h1
      have hx : leaves.flatten[towards forward m]? = some x := by
        have hlt := h4.lt
        have := seq_get (forward := forward) (List.getElem?_eq_getElem hlt)
        rw [h2] at this
        cases this
        exact List.getElem?_eq_getElem hlt
      simp only [h3, elemAt_at h4 hx, ih h4 h2, List.take_succ_cons]

theorem take_rev {l : List Elem} {a : Nat} (ha : a < l.length) (k : Nat) :
    ((l.take (a + 1)).reverse).take k = ((l.drop (a + 1 - k)).take (min k (a + 1))).reverse := by
  rw [List.take_reverse]
  congr 1
  rw [List.drop_take, List.length_take, Nat.min_eq_left (by omega)]
  congr 1
  omega

theorem seq_ordF {desc : Bool} {l : List Elem} {m : Nat} (h : m < l.length) (forward : Bool) :
    seq forward l (if desc then l.length - m - 1 else m) = seq (forward != desc) (ordF (!desc) l) m := by
  cases desc with
  | false => cases forward <;> simp [ordF]
  | true =>
    simp only [ordF, if_true, Bool.not_true, Bool.false_eq_true, if_false]
    cases forward with
    | true =>
      simp only [seq, if_true, bne_self_eq_false, Bool.false_eq_true, if_false]
      rw [List.take_reverse, List.reverse_reverse]
      congr 1
    | false =>
      simp only [seq, Bool.false_eq_true, if_false, show (false != true) = true from rfl, if_true]
      rw [List.drop_reverse]
      congr 2
      omega

/-- The elements around a position. -/
theorem slice_around {l : List Elem} {b count : Nat} {e : Elem} (he : l[b]? = some e) :
    (((l.take b).reverse).take (min b count)).reverse ++ e :: (l.drop (b + 1)).take count = slice l (b - count) (b + count) := by
  obtain ⟨hb, rfl⟩ := List.getElem?_eq_some_iff.mp he
  have h0 : ((l.take b).reverse).take (min b count) = ((l.take b).drop (b - min b count)).reverse := by
    rw [List.take_reverse, List.length_take, Nat.min_eq_left (a := b) (by omega)]
  rw [slice, if_pos (by omega), h0, List.reverse_reverse]
  have h1 : l.drop (b - count) = (l.take b).drop (b - count) ++ l.drop b := by
    conv => lhs; rw [← List.take_append_drop b l]
    rw [List.drop_append_of_le_length (by rw [List.length_take]; omega)]
  have h2 : b - min b count = b - count := by omega
  have h3 : ((l.take b).drop (b - count)).length = b - (b - count) := by
    rw [List.length_drop, List.length_take, Nat.min_eq_left (by omega)]
  have h4 : b + count - (b - count) + 1 = b - (b - count) + (count + 1) := by omega
  rw [h2, h1, h4, ← h3, List.take_length_add_append, List.drop_eq_getElem_cons hb, List.take_succ_cons]

/-- `do_btree_posi_find` and `do_btree_posi_find_with_get`. -/
theorem posiFind_spec {info : Info} (g : Good info) (hl : info.tree.leaves ≠ []) {key : BKey} (hk : Fits key info.tree.leaves.flatten)
    (desc : Bool) (count : Nat) :
    ((∀ x ∈ info.tree.leaves.flatten, x.bkey ≠ key) ∧ posiFind info key desc count = some none) ∨
    ∃ (b : Nat) (e : Elem), (ordF (!desc) info.tree.leaves.flatten)[b]? = some e ∧ e.bkey = key ∧
      posiFind info key desc count =
        some (some (b, slice (ordF (!desc) info.tree.leaves.flatten) (b - count) (b + count), min b count)) := by
  obtain ⟨hn, hu, ha⟩ := g.wf.full hl
  have hn' : ∀ c ∈ info.tree.leaves, 0 < c.length := fun c hc => (hn c hc).1
  rw [posiFind, if_neg hl]
  rcases findFirst_spec (rt := .sin) hn hu ha hk hk g.sorted with ⟨m, n, i, e, p, e1, e2, e3, e4, e5⟩ | ⟨j, ⟨g1, g2, g3⟩, pos, p, e1, -⟩
  · right
    have hm := e2.lt
    have hb : posiFromPath info.tree.upper p i = some m := by
      rw [posiFromPath_spec i ha e5, ← off_eq]
      exact congrArg some e2.2.symm
    have ho : orderPosi info.ccnt desc m = some (if desc then info.tree.leaves.flatten.length - m - 1 else m) := by
      rw [orderPosi, g.ccnt]
      cases desc
      · rfl
      · simp only [if_true]; rw [if_pos hm]
    generalize hB : (if desc then info.tree.leaves.flatten.length - m - 1 else m) = B at ho
    have hBl : B < info.tree.leaves.flatten.length := by
      cases desc
      · simp only [Bool.false_eq_true, if_false] at hB; omega
      · simp only [if_true] at hB; omega
    have hmB : (if desc then info.tree.leaves.flatten.length - B - 1 else B) = m := by
      cases desc
      · simp only [Bool.false_eq_true, if_false] at hB ⊢; omega
      · simp only [if_true] at hB ⊢; omega
    have hol : (ordF (!desc) info.tree.leaves.flatten).length = info.tree.leaves.flatten.length := by
      rw [ordF]; split
      · rfl
      · rw [List.length_reverse]
    have hO : (ordF (!desc) info.tree.leaves.flatten)[B]? = some e := by
      cases desc with
      | false => simp at hB; subst hB; simpa [ordF] using e3
      | true =>
        simp only [if_true] at hB
        simp only [ordF, Bool.not_true, Bool.false_eq_true, if_false]
        rw [List.getElem?_reverse (by omega), show info.tree.leaves.flatten.length - 1 - B = m by omega]
        exact e3
    have s1 : seq desc info.tree.leaves.flatten m = e :: ((ordF (!desc) info.tree.leaves.flatten).take B).reverse := by
      have := seq_ordF (desc := desc) hBl desc
      rw [hmB] at this
      rw [this, bne_self_eq_false, seq_get hO]
      simp
    have s2 : seq (!desc) info.tree.leaves.flatten m = e :: (ordF (!desc) info.tree.leaves.flatten).drop (B + 1) := by
      have := seq_ordF (desc := desc) hBl (!desc)
      rw [hmB] at this
      have hx : ((!desc) != desc) = true := by cases desc <;> rfl
      rw [this, hx, seq_get hO]
      simp
    have hmin : (if B < count then B else count) = min B count := by split <;> omega
    refine ⟨B, e, hO, e4, ?_⟩
    simp only [e1, Bool.true_eq_false, if_false, hb, ho, batchGet_spec desc hn' _ e2 s1, batchGet_spec (!desc) hn' _ e2 s2, hmin]
    rw [if_neg, slice_around hO]
    rw [List.length_take, List.length_reverse, List.length_take, hol]
    omega
  · left
    refine ⟨?_, by simp only [e1]⟩
    intro x hx hxk
    obtain ⟨y, hy, hyx⟩ := List.getElem_of_mem hx
    have hyx' : info.tree.leaves.flatten[y]? = some x := List.getElem?_eq_some_iff.mpr ⟨hy, hyx⟩
    rcases Nat.lt_or_ge y j with h | h
    · have := g2 y x hyx' h; rw [hxk] at this; exact klt_irrefl _ this
    · have := g3 y x hyx' h; rw [hxk] at this; exact klt_irrefl _ this

/-- `do_btree_elem_get_by_posi`. -/
theorem elemByPosi_spec {info : Info} (g : Good info) (hl : info.tree.leaves ≠ []) {m : Nat}
    (hm : m < info.tree.leaves.flatten.length) (k : Nat) (forward : Bool) :
    elemByPosi info m (k + 1) forward = some ((seq forward info.tree.leaves.flatten m).take (k + 1)) := by
  obtain ⟨hn, hu, ha⟩ := g.wf.full hl
  have hn' : ∀ c ∈ info.tree.leaves, 0 < c.length := fun c hc => (hn c hc).1
  obtain ⟨n, r, w, h1, h2, h3, h4⟩ := posiDown_spec ha hu (by
    intro w hw
    obtain ⟨c, hc, rfl⟩ := List.mem_map.mp hw
    exact hn' c hc) (idx := m) (by rw [← List.length_flatten]; exact hm)
  rw [List.getElem?_map] at h2
  cases hc : info.tree.leaves[n]? with
  | none => rw [hc] at h2; cases h2
  | some c =>
    rw [hc] at h2
    cases h2
    have hat : At info.tree.leaves m n r := ⟨⟨c, hc, h3⟩, by rw [off_eq]; exact h4⟩
    have hs := seq_get (forward := forward) (List.getElem?_eq_getElem hm)
    rw [elemByPosi]
    simp only [h1, elemAt_at hat (List.getElem?_eq_getElem hm), Nat.add_sub_cancel, batchGet_spec forward hn' k hat hs]
    rw [hs, List.take_succ_cons]

theorem byPosition_slice {l : List Elem} {desc : Bool} {a b : Nat} (ha : a < l.length) (hb : b < l.length) :
    let a' := if desc then l.length - a - 1 else a
    let b' := if desc then l.length - b - 1 else b
    let n := if a' ≤ b' then b' - a' + 1 else a' - b' + 1
    (seq (decide (a' ≤ b')) l a').take n = slice (ordF (!desc) l) a b := by
  intro a' b' n
  have hol : (ordF (!desc) l).length = l.length := by
    rw [ordF]; split
    · rfl
    · rw [List.length_reverse]
  have h1 := seq_ordF (desc := desc) ha (decide (a' ≤ b'))
  rw [h1]
  generalize hO : ordF (!desc) l = O at *
  have up : (seq true O a).take (b - a + 1) = (O.drop a).take (b - a + 1) := by simp [seq]
  have down : b ≤ a → (seq false O a).take (a - b + 1) = ((O.drop b).take (a - b + 1)).reverse := by
    intro h
    simp only [seq, Bool.false_eq_true, if_false]
    rw [take_rev (by omega)]
    congr 2
    · omega
    · congr 1; omega
  have one : (seq false O a).take 1 = (O.drop a).take 1 := by
    have := down
    simp only [seq, Bool.false_eq_true, if_false]
    rw [take_rev (by omega)]
    rw [show a + 1 - 1 = a by omega, show min 1 (a + 1) = 1 by omega, List.drop_eq_getElem_cons (by omega), List.take_succ_cons, List.take_zero]
    rfl
  rw [slice]
  cases desc with
  | false =>
    simp only [Bool.false_eq_true, if_false, a', b', n]
    by_cases h : a ≤ b
    · rw [if_pos h, if_pos h]; simp only [h, decide_true]; exact up
    · rw [if_neg h, if_neg h]; simp only [h, decide_false]; exact down (by omega)
  | true =>
    simp only [if_true, a', b', n]
    by_cases h : l.length - a - 1 ≤ l.length - b - 1
    · simp only [h, decide_true, if_true, bne_self_eq_false]
      by_cases h' : a ≤ b
      · have hab : a = b := by omega
        subst hab
        simp only [Nat.le_refl, if_true, Nat.sub_self, Nat.zero_add]
        exact one
      · rw [if_neg h', show l.length - b - 1 - (l.length - a - 1) + 1 = a - b + 1 by omega]
        exact down (by omega)
    · simp only [h, decide_false, if_false, show (false != true) = true from rfl]
      rw [if_pos (by omega : a ≤ b), show l.length - a - 1 - (l.length - b - 1) + 1 = b - a + 1 by omega]
      exact up

end Verif.BT
