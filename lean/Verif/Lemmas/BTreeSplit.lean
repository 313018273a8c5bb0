import Verif.Lemmas.BTreeShape
/-!
# Splits keep the sequence of elements, the counts and the paths
-/
namespace Verif.BT

/-! ## Occupancy -/

/-- No two neighbours have both less than 16 items. -/
def Occ : List Nat → Prop
  | x :: y :: r => (16 ≤ x ∨ 16 ≤ y) ∧ Occ (y :: r)
  | _ => True

/-- On all levels. -/
def OccAll (s : List (List Nat)) : Prop := ∀ ls ∈ s, Occ ls

theorem occ_mid (a b : List Nat) (x : Nat) : Occ (a ++ x :: b) ↔ Occ (a ++ [x]) ∧ Occ (x :: b) := by
  induction a with
  | nil => simp [Occ]
  | cons y a ih =>
    cases a with
    | nil => simp only [List.cons_append, List.nil_append, Occ]; simp
    | cons z a =>
      simp only [List.cons_append, Occ] at ih ⊢
      rw [ih, and_assoc]

theorem occ_last_big (a : List Nat) {x y : Nat} (h : 16 ≤ y) (ho : Occ (a ++ [x])) : Occ (a ++ [y]) := by
  induction a with
  | nil => trivial
  | cons z a ih =>
    cases a with
    | nil => simp only [List.cons_append, List.nil_append, Occ]; exact ⟨.inr h, trivial⟩
    | cons u a =>
      simp only [List.cons_append, Occ] at ih ho ⊢
      exact ⟨ho.1, ih ho.2⟩

theorem occ_head_big (b : List Nat) {x y : Nat} (h : 16 ≤ y) (ho : Occ (x :: b)) : Occ (y :: b) := by
  cases b with
  | nil => trivial
  | cons z b => exact ⟨.inl h, ho.2⟩

theorem occ_le (ls : List Nat) (m : Nat) (f : Nat → Nat) (hf : ∀ x, x ≤ f x) (ho : Occ ls) : Occ (bump f ls m) := by
  induction ls generalizing m with
  | nil => cases m <;> trivial
  | cons x ls ih =>
    cases ls with
    | nil => cases m <;> trivial
    | cons y ls =>
      cases m with
      | zero =>
        simp only [bump, Occ] at ho ⊢
        have := hf x
        exact ⟨by omega, ho.2⟩
      | succ m =>
        have h2 := ih m ho.2
        cases m with
        | zero =>
          simp only [bump] at h2 ⊢
          have := hf y
          have := ho.1
          exact ⟨by omega, h2⟩
        | succ m => exact ⟨ho.1, h2⟩

/-! ## Weights and moved items -/

section weights
variable {α : Type} (w : α → Nat)

theorem weight_append (a b : List α) : weight w (a ++ b) = weight w a + weight w b := by simp [weight]

theorem weight_nil : weight w [] = 0 := rfl

theorem weight_split (c : List α) (k : Nat) : weight w (c.take k) + weight w (c.drop k) = weight w c := by
  rw [← weight_append, List.take_append_drop]

end weights

theorem move_next (A M B : List Nat) (x y k : Nat) :
    move (A ++ x :: (M ++ y :: B)) A.length (A.length + 1 + M.length) k = A ++ (x - k) :: (M ++ (y + k) :: B) := by
  rw [move, bump_mid]
  have := bump_mid (· + k) (A ++ (x - k) :: M) B y
  simp only [List.length_append, List.length_cons, List.append_assoc, List.cons_append] at this
  rw [show A.length + 1 + M.length = A.length + (M.length + 1) by omega]
  exact this

theorem move_prev (A M B : List Nat) (x y k : Nat) :
    move (A ++ y :: (M ++ x :: B)) (A.length + 1 + M.length) A.length k = A ++ (y + k) :: (M ++ (x - k) :: B) := by
  have := bump_mid (· - k) (A ++ y :: M) B x
  simp only [List.length_append, List.length_cons, List.append_assoc, List.cons_append] at this
  rw [move, show A.length + 1 + M.length = A.length + (M.length + 1) by omega, this, bump_mid]

section items
variable {α : Type}

theorem get_mid2 (a M b : List α) (c t : α) : (a ++ c :: (M ++ t :: b))[a.length + 1 + M.length]? = some t := by
  have := get_mid (a ++ c :: M) b t
  simp only [List.length_append, List.length_cons, List.append_assoc, List.cons_append] at this
  rw [show a.length + 1 + M.length = a.length + (M.length + 1) by omega]
  exact this

theorem set_mid2 (a M b : List α) (c t x : α) :
    (a ++ c :: (M ++ t :: b)).set (a.length + 1 + M.length) x = a ++ c :: (M ++ x :: b) := by
  have := set_mid (a ++ c :: M) b t x
  simp only [List.length_append, List.length_cons, List.append_assoc, List.cons_append] at this
  rw [show a.length + 1 + M.length = a.length + (M.length + 1) by omega]
  exact this

theorem itemMove_next (a M b : Row α) (c t : List α) (mc : Nat) (h1 : 0 < mc) (h2 : mc ≤ c.length)
    (h3 : t.length + mc ≤ 32) :
    itemMove (a ++ c :: (M ++ t :: b)) a.length (a.length + 1 + M.length) true mc =
      some (a ++ c.take (c.length - mc) :: (M ++ (c.drop (c.length - mc) ++ t) :: b)) := by
  rw [itemMove, get_mid, get_mid2]
  simp only
  rw [if_neg (by simp only [itemCount]; omega)]
  simp only [if_true]
  rw [set_mid, set_mid2]

theorem itemMove_prev (a M b : Row α) (c t : List α) (mc : Nat) (h1 : 0 < mc) (h2 : mc ≤ c.length)
    (h3 : t.length + mc ≤ 32) :
    itemMove (a ++ t :: (M ++ c :: b)) (a.length + 1 + M.length) a.length false mc =
      some (a ++ (t ++ c.take mc) :: (M ++ c.drop mc :: b)) := by
  rw [itemMove, get_mid, get_mid2]
  simp only
  rw [if_neg (by simp only [itemCount]; omega)]
  simp only [Bool.false_eq_true, if_false]
  rw [set_mid2, set_mid]

end items

/-! ## Balancing a full node with a neighbour -/

/-- Number of items moved out of a full node. -/
def moveCount (t : Nat) (edge : Bool) : Nat := if 0 < t then (32 - t) / 2 else if edge then 3 else 16

theorem moveCount_bounds {t : Nat} (h : t < 16) (edge : Bool) : 3 ≤ moveCount t edge ∧ moveCount t edge ≤ 16 ∧
    t + moveCount t edge < 32 ∧ (t + moveCount t edge < 16 → t = 0 ∧ edge = true) := by
  rw [moveCount]
  by_cases ht : 0 < t
  · rw [if_pos ht]; omega
  · rw [if_neg ht]; cases edge <;> simp <;> omega

/-- How `sbalance` changes a level. -/
inductive Balanced {α : Type} : Row α → Nat → Row α → Prop where
  | next (a : Row α) (c t : List α) (b : Row α) : c.length = 32 → t.length < 16 →
      (∀ x ∈ a.getLast?, t.length < x.length) →
      Balanced (a ++ c :: t :: b) a.length
        (a ++ c.take (32 - moveCount t.length b.isEmpty) :: (c.drop (32 - moveCount t.length b.isEmpty) ++ t) :: b)
  | prev (a : Row α) (t c : List α) (b : Row α) : c.length = 32 → t.length < 16 →
      (∀ x ∈ b.head?, t.length ≤ x.length) →
      Balanced (a ++ t :: c :: b) (a.length + 1)
        (a ++ (t ++ c.take (moveCount t.length a.isEmpty)) :: c.drop (moveCount t.length a.isEmpty) :: b)

theorem Balanced.flatten {α : Type} {row row' : Row α} {n : Nat} (h : Balanced row n row') : row'.flatten = row.flatten := by
  cases h with
  | next a c t b hc ht hm =>
    simp only [List.flatten_append, List.flatten_cons]
    rw [List.append_assoc, ← List.append_assoc (List.take _ c), List.take_append_drop]
  | prev a t c b hc ht hm =>
    simp only [List.flatten_append, List.flatten_cons]
    rw [List.append_assoc, ← List.append_assoc (List.take _ c), List.take_append_drop]

theorem Balanced.nodes {α : Type} {row row' : Row α} {n : Nat} (h : Balanced row n row')
    (hn : ∀ x ∈ row, x.length ≤ 32)
    (h0 : ∀ j x, row[j]? = some x → x.length = 0 → (row.filter fun x => x.length = 0).length = 1 ∧ (j + 1 = n ∨ j = n + 1)) :
    Nodes row' := by
  cases h with
  | next a c t b hc ht hm =>
    have hb := moveCount_bounds ht b.isEmpty
    have key : ∀ x ∈ a ++ b, 0 < x.length ∧ x.length ≤ 32 := by
      intro x hx
      refine ⟨?_, (hn x (by simp only [List.mem_append, List.mem_cons] at hx ⊢; rcases hx with h | h <;> simp [h]))⟩
      rcases Nat.eq_zero_or_pos x.length with hx0 | hx0
      · exfalso
        rcases List.mem_append.mp hx with hxa | hxb
        · obtain ⟨j, hj, rfl⟩ := List.mem_iff_getElem.mp hxa
          have h1 := h0 j a[j] (by rw [List.getElem?_append_left hj, List.getElem?_eq_getElem hj]) hx0
          have h2 : j + 1 = a.length := by omega
          have h3 := hm a[j] (by
            rw [List.getLast?_eq_getElem?, show a.length - 1 = j by omega, List.getElem?_eq_getElem hj]; rfl)
          omega
        · obtain ⟨j, hj, rfl⟩ := List.mem_iff_getElem.mp hxb
          have h1 := h0 (a.length + 1 + (j + 1)) b[j] (by
            rw [List.getElem?_append_right (by omega), show a.length + 1 + (j + 1) - a.length = j + 2 by omega]
            simp [List.getElem?_eq_getElem hj]) hx0
          omega
      · exact hx0
    intro x hx
    simp only [List.mem_append, List.mem_cons] at hx
    rcases hx with hx | hx | hx | hx
    · exact key x (by simp [hx])
    · subst hx; rw [List.length_take]; omega
    · subst hx; rw [List.length_append, List.length_drop]; omega
    · exact key x (by simp [hx])
  | prev a t c b hc ht hm =>
    have hb := moveCount_bounds ht a.isEmpty
    have key : ∀ x ∈ a ++ b, 0 < x.length ∧ x.length ≤ 32 := by
      intro x hx
      refine ⟨?_, (hn x (by simp only [List.mem_append, List.mem_cons] at hx ⊢; rcases hx with h | h <;> simp [h]))⟩
      rcases Nat.eq_zero_or_pos x.length with hx0 | hx0
      · exfalso
        rcases List.mem_append.mp hx with hxa | hxb
        · obtain ⟨j, hj, rfl⟩ := List.mem_iff_getElem.mp hxa
          have h1 := h0 j a[j] (by rw [List.getElem?_append_left hj, List.getElem?_eq_getElem hj]) hx0
          omega
        · obtain ⟨j, hj, rfl⟩ := List.mem_iff_getElem.mp hxb
          have h1 := h0 (a.length + 1 + (j + 1)) b[j] (by
            rw [List.getElem?_append_right (by omega), show a.length + 1 + (j + 1) - a.length = j + 2 by omega]
            simp [List.getElem?_eq_getElem hj]) hx0
          have hj0 : j = 0 := by omega
          subst hj0
          have h3 := hm b[0] (by rw [List.head?_eq_getElem?, List.getElem?_eq_getElem hj]; rfl)
          have h4 : t.length = 0 := by omega
          have h5 := (h0 a.length t (by simp) h4).1
          cases b with
          | nil => simp at hj
          | cons z b =>
            simp only [List.getElem_cons_zero] at hx0
            simp only [List.filter_append, List.filter_cons, h4, hx0, decide_true, if_true] at h5
            have : ¬ (c.length = 0) := by omega
            simp only [this, decide_false, Bool.false_eq_true, if_false, List.length_append, List.length_cons] at h5
            omega
      · exact hx0
    intro x hx
    simp only [List.mem_append, List.mem_cons] at hx
    rcases hx with hx | hx | hx | hx
    · exact key x (by simp [hx])
    · subst hx; rw [List.length_append, List.length_take]; omega
    · subst hx; rw [List.length_drop]; omega
    · exact key x (by simp [hx])

/-- What is known of a position after a split. -/
structure Placed {α : Type} (w : α → Nat) (row : Row α) (n i : Nat) (row' : Row α) (above' : List (Row Nat)) (n' i' : Nat)
    (p' : List Posi) : Prop where
  path : PathTo above' n' p'
  aligned : Aligned above' (row'.map (weight w))
  node : ∃ c', row'[n']? = some c' ∧ i' ≤ c'.length ∧ (i < 32 → i' < c'.length) ∧ c'.length < 32
  same : off row' n' + i' = off row n + i

theorem prevOf_concat {α : Type} (a b : Row α) (t : List α) : prevOf (a ++ t :: b) (a.length + 1) = some t := by
  rw [prevOf, if_neg (by omega), Nat.add_sub_cancel, get_mid]

theorem prevOf_eq {α : Type} (a b : Row α) : prevOf (a ++ b) a.length = a.getLast? := by
  rcases List.eq_nil_or_concat a with rfl | ⟨a', s, rfl⟩
  · rfl
  · rw [List.concat_eq_append, List.length_append, List.append_assoc]
    have := prevOf_concat a' b s
    simp only [List.length_cons, List.length_nil, Nat.zero_add, List.cons_append, List.nil_append] at this ⊢
    rw [this]; simp

theorem next_eq {α : Type} (a b : Row α) (c : List α) : (a ++ c :: b)[a.length + 1]? = b.head? := by
  rw [List.getElem?_append_right (by omega), Nat.add_sub_cancel_left, List.head?_eq_getElem?]; rfl

theorem sbalCount_eq {t : Nat} (h : t < 16) (edge : Bool) : sbalCount 32 t edge = moveCount t edge := by
  rw [sbalCount, moveCount]
  by_cases h0 : 0 < t
  · simp only [h0, if_true]; rw [if_neg (by omega)]
  · simp only [h0, if_false]; cases edge <;> rfl

theorem sbalance_spec {α : Type} (w : α → Nat) {row : Row α} {above : List (Row Nat)} {n i : Nat} {p : List Posi}
    {c : List α} (hc : row[n]? = some c) (hcl : c.length = 32) (hi : i ≤ 32) (hs : smallNeighbour row n = true)
    (hp : PathTo above n p) (ha : Aligned above (row.map (weight w))) (hn : AllNodes above) :
    ∃ row' above' n' i' p', sbalance w row above n i p = some (row', above', (n', i'), p') ∧ Balanced row n row' ∧
      shape above' = shape above ∧ Placed w row n i row' above' n' i' p' := by
  obtain ⟨a, b, rfl, rfl⟩ := split_at hc
  -- the direction
  have hdir : (∃ t b', b = t :: b' ∧ t.length < 16 ∧ (∀ x ∈ a.getLast?, t.length < x.length)) ∧
      sbalNext (a ++ c :: b) a.length = true ∨
      (∃ a' t, a = a' ++ [t] ∧ t.length < 16 ∧ (∀ x ∈ b.head?, t.length ≤ x.length)) ∧
      sbalNext (a ++ c :: b) a.length = false := by
    rw [smallNeighbour, prevOf_eq, next_eq] at hs
    rw [sbalNext, prevOf_eq, next_eq]
    rcases List.eq_nil_or_concat a with rfl | ⟨a', s, rfl⟩
    · cases b with
      | nil => simp at hs
      | cons t b =>
        simp only [List.head?_cons, List.getLast?_nil, Bool.or_false, decide_eq_true_eq] at hs
        exact .inl ⟨⟨t, b, rfl, hs, by simp⟩, rfl⟩
    · have e1 : (a'.concat s).getLast? = some s := by simp
      rw [e1] at hs ⊢
      cases b with
      | nil =>
        simp only [List.head?_nil, Bool.false_or, decide_eq_true_eq] at hs
        exact .inr ⟨⟨a', s, by simp, hs, by simp⟩, rfl⟩
      | cons t b =>
        simp only [List.head?_cons, Bool.or_eq_true, decide_eq_true_eq, itemCount] at hs
        by_cases hts : t.length < s.length
        · refine .inl ⟨⟨t, b, rfl, by omega, ?_⟩, by simpa using hts⟩
          simp only [Option.mem_def, Option.some.injEq]
          rintro x rfl; exact hts
        · refine .inr ⟨⟨a', s, by simp, by omega, ?_⟩, by simpa using hts⟩
          simp only [List.head?_cons, Option.mem_def, Option.some.injEq]
          rintro x rfl; omega
  rcases hdir with ⟨⟨t, b, rfl, ht, hmin⟩, hd⟩ | ⟨⟨a, t, rfl, ht, hmin⟩, hd⟩
  · -- to the right
    have hb := moveCount_bounds ht b.isEmpty
    generalize hmc : moveCount t.length b.isEmpty = mc at hb
    have hrow' : itemMove (a ++ c :: t :: b) a.length (a.length + 1) true mc =
        some (a ++ c.take (c.length - mc) :: ((c.drop (c.length - mc) ++ t) :: b)) := by
      have := itemMove_next a [] b c t mc (by omega) (by omega) (by omega)
      simpa using this
    have hw : (a ++ c.take (c.length - mc) :: ((c.drop (c.length - mc) ++ t) :: b)).map (weight w) =
        move ((a ++ c :: t :: b).map (weight w)) a.length (a.length + 1) (weight w (c.drop (c.length - mc))) := by
      have := move_next (a.map (weight w)) [] (b.map (weight w)) (weight w c) (weight w t) (weight w (c.drop (c.length - mc)))
      simp only [List.length_map, List.nil_append, List.length_nil, Nat.add_zero] at this
      simp only [List.map_append, List.map_cons]
      rw [this, weight_append]
      have := weight_split w c (c.length - mc)
      congr 2
      · omega
      · congr 1; omega
    have hwn : ((a ++ c :: t :: b).map (weight w))[a.length]? = some (weight w c) := by simp
    obtain ⟨above', m1, m2, m3⟩ := ecntMoveSplit_spec true hn ha hp hwn
      (k := weight w (c.drop (c.length - mc))) (by have := weight_split w c (c.length - mc); omega) (by simp)
    rw [show towards true a.length = a.length + 1 from rfl, ← hw] at m2
    have hB : Balanced (a ++ c :: t :: b) a.length (a ++ c.take (c.length - mc) :: ((c.drop (c.length - mc) ++ t) :: b)) := by
      have := Balanced.next a c t b hcl ht hmin
      rw [hmc] at this
      rw [hcl]; exact this
    have hpre : sbalance w (a ++ c :: t :: b) above a.length i p =
        (if i ≥ c.length - mc then
          match stepPath true above' p with
          | none => none
          | some p' => some (a ++ c.take (c.length - mc) :: ((c.drop (c.length - mc) ++ t) :: b), above', (a.length + 1, i - (c.length - mc)), p')
        else some (a ++ c.take (c.length - mc) :: ((c.drop (c.length - mc) ++ t) :: b), above', (a.length, i), p)) := by
      have hedge : decide (a.length + 2 = (a ++ c :: t :: b).length) = b.isEmpty := by
        cases b <;> simp <;> omega
      rw [sbalance, get_mid]
      simp only [hd, if_true, next_eq, List.head?_cons, hedge]
      rw [if_neg (by omega)]
      simp only [hcl, sbalCount_eq ht, hmc] at hrow' m1 ⊢
      simp only [hrow', m1]
      cases stepPath true above' p <;> rfl
    rw [hpre]
    by_cases hge : i ≥ c.length - mc
    · obtain ⟨p', s1, s2⟩ := stepPath_spec true (hn.congr m3) m2 (hp.congr m3) (by simp)
      refine ⟨_, above', a.length + 1, i - (c.length - mc), p', by rw [if_pos hge, s1], hB, m3, s2, m2, ?_, ?_⟩
      · refine ⟨c.drop (c.length - mc) ++ t, ?_, ?_, ?_, ?_⟩
        · rw [List.getElem?_append_right (by omega), Nat.add_sub_cancel_left]; rfl
        · simp; omega
        · intro _; simp; omega
        · simp; omega
      · have e : a ++ c.take (c.length - mc) :: ((c.drop (c.length - mc) ++ t) :: b) =
            (a ++ [c.take (c.length - mc)]) ++ (c.drop (c.length - mc) ++ t) :: b := by simp
        rw [off_mid, e, show a.length + 1 = (a ++ [c.take (c.length - mc)]).length by simp, off_mid]
        simp; omega
    · refine ⟨_, above', a.length, i, p, by rw [if_neg hge], hB, m3, hp.congr m3, m2, ?_, ?_⟩
      · exact ⟨c.take (c.length - mc), by simp, by simp; omega, by intro _; simp; omega, by simp; omega⟩
      · rw [off_mid, off_mid]
  · -- to the left
    have hb := moveCount_bounds ht a.isEmpty
    generalize hmc : moveCount t.length a.isEmpty = mc at hb
    have eL : (a ++ [t]).length = a.length + 1 := by simp
    have eR : a ++ [t] ++ c :: b = a ++ t :: c :: b := by simp
    rw [eL] at hp hc hs hd ⊢
    rw [eR] at hc hs ha hd ⊢
    have hrow' : itemMove (a ++ t :: c :: b) (a.length + 1) a.length false mc =
        some (a ++ (t ++ c.take mc) :: (c.drop mc :: b)) := by
      have := itemMove_prev a [] b c t mc (by omega) (by omega) (by omega)
      simpa using this
    have hw : (a ++ (t ++ c.take mc) :: (c.drop mc :: b)).map (weight w) =
        move ((a ++ t :: c :: b).map (weight w)) (a.length + 1) a.length (weight w (c.take mc)) := by
      have := move_prev (a.map (weight w)) [] (b.map (weight w)) (weight w c) (weight w t) (weight w (c.take mc))
      simp only [List.length_map, List.nil_append, List.length_nil, Nat.add_zero] at this
      simp only [List.map_append, List.map_cons]
      rw [this, weight_append]
      have := weight_split w c mc
      congr 3
      omega
    have hwn : ((a ++ t :: c :: b).map (weight w))[a.length + 1]? = some (weight w c) := by
      rw [List.getElem?_map, hc]; rfl
    obtain ⟨above', m1, m2, m3⟩ := ecntMoveSplit_spec false hn ha hp hwn
      (k := weight w (c.take mc)) (by have := weight_split w c mc; omega) (by simp)
    rw [show towards false (a.length + 1) = a.length from rfl, ← hw] at m2
    have hB : Balanced (a ++ t :: c :: b) (a.length + 1) (a ++ (t ++ c.take mc) :: (c.drop mc :: b)) := by
      have := Balanced.prev a t c b hcl ht hmin
      rw [hmc] at this
      exact this
    have hpre : sbalance w (a ++ t :: c :: b) above (a.length + 1) i p =
        (if i < mc then
          match stepPath false above' p with
          | none => none
          | some p' => some (a ++ (t ++ c.take mc) :: (c.drop mc :: b), above', (a.length, i + t.length), p')
        else some (a ++ (t ++ c.take mc) :: (c.drop mc :: b), above', (a.length + 1, i - mc), p)) := by
      have hedge : decide (a.length + 1 = 1) = a.isEmpty := by
        cases a <;> simp
      rw [sbalance, hc]
      simp only [hd, Bool.false_eq_true, if_false, prevOf_concat, hedge]
      rw [if_neg (by omega)]
      simp only [hcl, sbalCount_eq ht, hmc, Nat.add_sub_cancel] at hrow' m1 ⊢
      simp only [hrow', m1]
      cases stepPath false above' p <;> rfl
    rw [hpre]
    by_cases hlt : i < mc
    · obtain ⟨p', s1, s2⟩ := stepPath_spec false (hn.congr m3) m2 (hp.congr m3) (by simp)
      refine ⟨_, above', a.length, i + t.length, p', by rw [if_pos hlt, s1], hB, m3, s2, m2, ?_, ?_⟩
      · refine ⟨t ++ c.take mc, by simp, ?_, ?_, ?_⟩
        · simp; omega
        · intro _; simp; omega
        · simp; omega
      · rw [off_mid, ← eR, ← eL, off_mid]
        simp; omega
    · refine ⟨_, above', a.length + 1, i - mc, p, by rw [if_neg hlt], hB, m3, hp.congr m3, m2, ?_, ?_⟩
      · refine ⟨c.drop mc, ?_, by simp; omega, by intro _; simp; omega, by simp; omega⟩
        rw [List.getElem?_append_right (by omega), Nat.add_sub_cancel_left]; rfl
      · have e : a ++ (t ++ c.take mc) :: (c.drop mc :: b) = (a ++ [t ++ c.take mc]) ++ c.drop mc :: b := by simp
        rw [e, show a.length + 1 = (a ++ [t ++ c.take mc]).length by simp, off_mid, ← eR,
          show (a ++ [t ++ c.take mc]).length = (a ++ [t]).length by simp, off_mid]
        simp; omega

/-! ## Links -/

theorem insertIdx_mid {α : Type} (a b : List α) (x : α) : (a ++ b).insertIdx a.length x = a ++ x :: b := by
  induction a with
  | nil => simp
  | cons y a ih => simp [List.insertIdx_succ_cons, ih]

/-- Lengths of the nodes of a level. -/
abbrev lens {α : Type} (row : Row α) : List Nat := row.map List.length

/-- The root has 32 items. -/
def TopFull (rows : List (Row Nat)) : Prop := ∃ node, rows.getLast? = some [node] ∧ node.length = 32

/-- What is known after room was made at a node. -/
def RoomOk (d : Nat) (rows : List (Row Nat)) (ws : List Nat) (m : Nat) : Option Room → Prop
  | none => 7 ≤ d + rows.length ∧ (rows ≠ [] → TopFull rows)
  | some .nomem => True
  | some (.ok rows' p') => Aligned rows' ws ∧ AllNodes rows' ∧ PathTo rows' m p' ∧
      (∃ row rest n i q node, rows' = row :: rest ∧ p' = (n, i) :: q ∧ row[n]? = some node ∧ node.length < 32) ∧
      (d + rows.length ≤ 7 → d + rows'.length ≤ 7) ∧ (OccAll (shape rows) → OccAll (shape rows'))

/-- What is known after a split. -/
def SplitOk {α : Type} (w : α → Nat) (d : Nat) (row : Row α) (above : List (Row Nat)) (n i : Nat) : Option (Split α) → Prop
  | none => 7 ≤ d + above.length ∧ (above ≠ [] → TopFull above)
  | some .nomem => True
  | some (.ok row' above' (n', i') p') => row'.flatten = row.flatten ∧ Nodes row' ∧ AllNodes above' ∧
      Placed w row n i row' above' n' i' p' ∧ (d + above.length ≤ 7 → d + above'.length ≤ 7) ∧
      (OccAll (lens row :: shape above) → OccAll (lens row' :: shape above'))

theorem occAll_cons (ls : List Nat) (s : List (List Nat)) : OccAll (ls :: s) ↔ Occ ls ∧ OccAll s := by
  simp [OccAll]

/-- Balancing with a small neighbour that exists already. -/
theorem Balanced.occ {α : Type} {row row' : Row α} {n : Nat} (h : Balanced row n row') (hn : ∀ x ∈ row, 0 < x.length)
    (ho : Occ (lens row)) : Occ (lens row') := by
  cases h with
  | next a c t b hc ht hm =>
    have hb := moveCount_bounds ht b.isEmpty
    have h0 := hn t (by simp)
    simp only [lens, List.map_append, List.map_cons, List.length_take, List.length_append, List.length_drop] at ho ⊢
    rw [occ_mid] at ho ⊢
    refine ⟨occ_last_big _ (by omega) ho.1, .inl (by omega), occ_head_big _ (by omega) ho.2.2⟩
  | prev a t c b hc ht hm =>
    have hb := moveCount_bounds ht a.isEmpty
    have h0 := hn t (by simp)
    simp only [lens, List.map_append, List.map_cons, List.length_take, List.length_append, List.length_drop] at ho ⊢
    rw [occ_mid] at ho ⊢
    refine ⟨occ_last_big _ (by omega) ho.1, .inl (by omega), occ_head_big _ (by omega) ho.2.2⟩

theorem Balanced.occ_linkNext {α : Type} {a b row' : Row α} {c : List α} (h : Balanced (a ++ c :: [] :: b) a.length row')
    (ha : ∀ x ∈ a, 0 < x.length) (hcl : c.length = 32)
    (ho : Occ (a.map List.length ++ [c.length]) ∧ Occ (c.length :: b.map List.length)) : Occ (lens row') := by
  generalize hR : a ++ c :: [] :: b = R at h
  generalize hN : a.length = N at h
  cases h with
  | next a' c' t b' hc' ht hm =>
    obtain ⟨rfl, e⟩ := List.append_inj hR hN
    simp only [List.cons.injEq] at e
    obtain ⟨rfl, rfl, rfl⟩ := e
    simp only [lens, List.map_append, List.map_cons, List.length_take, List.length_append, List.length_drop, List.length_nil]
    cases b with
    | nil =>
      have e : moveCount 0 (List.isEmpty ([] : Row α)) = 3 := rfl
      rw [e, occ_mid]
      exact ⟨occ_last_big _ (by omega) ho.1, .inl (by omega), trivial⟩
    | cons y b =>
      have e : moveCount 0 (List.isEmpty (y :: b)) = 16 := rfl
      rw [e, occ_mid]
      exact ⟨occ_last_big _ (by omega) ho.1, .inl (by omega), occ_head_big _ (by omega) ho.2⟩
  | prev a' t c' b' hc' ht hm =>
    exfalso
    rw [show a' ++ t :: c' :: b' = (a' ++ [t]) ++ c' :: b' by simp] at hR
    obtain ⟨rfl, e⟩ := List.append_inj hR (by simp [hN])
    simp only [List.cons.injEq] at e
    obtain ⟨rfl, rfl⟩ := e
    have h1 := hm [] rfl
    have h2 := ha t (by simp)
    simp only [List.length_nil] at h1
    omega

theorem Balanced.occ_linkPrev {α : Type} {a b row' : Row α} {c : List α} (h : Balanced (a ++ [] :: c :: b) (a.length + 1) row')
    (ha : ∀ x ∈ a, 0 < x.length) (hcl : c.length = 32)
    (ho : Occ (a.map List.length ++ [c.length]) ∧ Occ (c.length :: b.map List.length)) : Occ (lens row') := by
  generalize hR : a ++ [] :: c :: b = R at h
  generalize hN : a.length + 1 = N at h
  cases h with
  | next a' c' t b' hc' ht hm =>
    exfalso
    rw [show a ++ [] :: c :: b = (a ++ [[]]) ++ c :: b by simp] at hR
    obtain ⟨rfl, e⟩ := List.append_inj hR (by simp [hN])
    have h1 := hm [] (by simp)
    simp at h1
  | prev a' t c' b' hc' ht hm =>
    obtain ⟨rfl, e⟩ := List.append_inj hR (by omega)
    simp only [List.cons.injEq] at e
    obtain ⟨rfl, rfl, rfl⟩ := e
    simp only [lens, List.map_append, List.map_cons, List.length_take, List.length_append, List.length_drop, List.length_nil]
    cases a with
    | nil =>
      have e : moveCount 0 (List.isEmpty ([] : Row α)) = 3 := rfl
      rw [e]
      exact ⟨.inr (by omega), occ_head_big _ (by omega) ho.2⟩
    | cons y a =>
      have e : moveCount 0 (List.isEmpty (y :: a)) = 16 := rfl
      rw [e, occ_mid]
      exact ⟨occ_last_big _ (by omega) ho.1, .inl (by omega), occ_head_big _ (by omega) ho.2⟩

theorem splitStep_spec {α : Type} (w : α → Nat) (d : Nat) {row : Row α} {above : List (Row Nat)} {n i : Nat} {p : List Posi}
    {c : List α} (mem : Nat) (room : Nat → Option Room)
    (hc : row[n]? = some c) (hcl : c.length = 32) (hi : i ≤ 32)
    (hp : PathTo above n p) (ha : Aligned above (row.map (weight w))) (hn : AllNodes above) (hnr : Nodes row)
    (hroom : ∀ mem, RoomOk d above (row.map (weight w)) n (room mem)) :
    SplitOk w d row above n i (splitStep w row above n i p mem room) := by
  rw [splitStep]
  by_cases hs : smallNeighbour row n = true
  · rw [if_pos hs]
    obtain ⟨row', above', n', i', p', h1, h2, h3, h4⟩ := sbalance_spec w hc hcl hi hs hp ha hn
    rw [h1]
    have hpos : ∀ x ∈ row, 0 < x.length := fun x hx => (hnr x hx).1
    refine ⟨h2.flatten, h2.nodes (fun x hx => (hnr x hx).2) ?_, hn.congr h3, h4, ?_, ?_⟩
    · intro j x hx h0
      exfalso
      have := hpos x (List.mem_of_getElem? hx)
      omega
    · intro hd
      have : above'.length = above.length := by have := congrArg List.length h3; simpa [shape] using this
      omega
    · rw [occAll_cons, occAll_cons, h3]
      rintro ⟨o1, o2⟩
      exact ⟨h2.occ hpos o1, o2⟩
  · rw [if_neg hs]
    by_cases hm : mem = 0
    · rw [if_pos hm]; trivial
    · rw [if_neg hm]
      have hr := hroom (mem - 1)
      cases hroomv : room (mem - 1) with
      | none => rw [hroomv] at hr; exact hr
      | some r =>
        rw [hroomv] at hr
        cases r with
        | nomem => trivial
        | ok rows' p' =>
          obtain ⟨r1, r2, r3, ⟨prow, rest, pn, pi, q, node, rfl, rfl, r4, r5⟩, r6, r7⟩ := hr
          simp only
          obtain ⟨hat, hq⟩ := r3
          obtain ⟨a, b, hrow, hlen⟩ := split_at hc
          obtain ⟨pa, pc, pb, hprow, hpn, hpi, hnm⟩ := hat.split
          have hpc : pc = node := by
            rw [hprow, ← hpn, get_mid] at r4
            exact Option.some.inj r4
          subst hpc
          -- the neighbours are not small
          have hsn : (∀ x ∈ b.head?, 16 ≤ x.length) ∧ (∀ x ∈ a.getLast?, 16 ≤ x.length) := by
            rw [hrow, ← hlen, smallNeighbour, prevOf_eq, next_eq] at hs
            constructor
            · intro x hx
              rw [Option.mem_def] at hx
              rw [hx] at hs
              simp only [Bool.or_eq_true, decide_eq_true_eq, itemCount, not_or] at hs
              omega
            · intro x hx
              rw [Option.mem_def] at hx
              rw [hx] at hs
              simp only [Bool.or_eq_true, decide_eq_true_eq, itemCount, not_or] at hs
              omega
          have hdiv : pc = pc.take pi ++ pc[pi] :: pc.drop (pi + 1) := by
            rw [← List.drop_eq_getElem_cons hpi, List.take_append_drop]
          have hcp := r2 prow (by simp) pc (List.mem_of_getElem? r4)
          generalize hnext : (if row.length = 1 then decide (itemCount / 2 ≤ i) else decide (0 < n)) = next
          -- the entry in the parent and the node in the level
          have hj : (if next = true then pi + 1 else pi) ≤ pc.length := by cases next <;> simp <;> omega
          have hlink : linkEntry prow pn (if next = true then pi + 1 else pi) =
              some (prow.set pn (pc.insertIdx (if next = true then pi + 1 else pi) 0)) := by
            rw [linkEntry, r4]
            simp only
            rw [if_neg (by simp only [itemCount]; omega)]
          rw [hlink]
          simp only
          have hoff : off prow pn + (if next = true then pi + 1 else pi) = if next = true then n + 1 else n := by
            have := hat.2
            cases next <;> simp <;> omega
          rw [hoff]
          -- shape of the results
          generalize hj2 : (if next = true then pi + 1 else pi) = j at hj hlink hoff ⊢
          have hset : prow.set pn (pc.insertIdx j 0) = pa ++ pc.insertIdx j 0 :: pb := by rw [hprow, ← hpn, set_mid]
          rw [hset]
          have hinsl : (pc.insertIdx j 0).length = pc.length + 1 := by rw [List.length_insertIdx]; simp [hj]
          have hinss : (pc.insertIdx j 0).sum = pc.sum := by
            have e : pc.insertIdx j 0 = pc.take j ++ 0 :: pc.drop j := by
              have := insertIdx_mid (pc.take j) (pc.drop j) 0
              rw [List.take_append_drop, List.length_take, Nat.min_eq_left hj] at this
              exact this
            rw [e, List.sum_append, List.sum_cons, Nat.zero_add, ← List.sum_append, List.take_append_drop]
          have hflat : (pa ++ pc.insertIdx j 0 :: pb).flatten = prow.flatten.insertIdx (pa.flatten.length + j) 0 := by
            have e : pc.insertIdx j 0 = pc.take j ++ 0 :: pc.drop j := by
              have := insertIdx_mid (pc.take j) (pc.drop j) 0
              rw [List.take_append_drop, List.length_take, Nat.min_eq_left hj] at this
              exact this
            have := insertIdx_mid (pa.flatten ++ pc.take j) (pc.drop j ++ pb.flatten) 0
            rw [List.length_append, List.length_take, Nat.min_eq_left hj] at this
            rw [hprow, e]
            simp only [List.flatten_append, List.flatten_cons, List.append_assoc, List.cons_append] at this ⊢
            rw [← this]
            congr 2
            rw [← List.append_assoc (pc.take j), List.take_append_drop]
          have hrow1 : row.insertIdx (if next = true then n + 1 else n) [] =
              if next = true then a ++ c :: [] :: b else a ++ [] :: c :: b := by
            rw [hrow, ← hlen]
            cases next
            · simp only [Bool.false_eq_true, if_false]; exact insertIdx_mid a (c :: b) []
            · simp only [if_true]
              have := insertIdx_mid (a ++ [c]) b []
              simpa using this
          have hal : Aligned ((pa ++ pc.insertIdx j 0 :: pb) :: rest)
              ((row.insertIdx (if next = true then n + 1 else n) []).map (weight w)) := by
            refine ⟨?_, ?_⟩
            · rw [hflat, r1.1, show pa.flatten.length + j = if next = true then n + 1 else n by
                rw [← hj2]; cases next <;> simp only [if_true, Bool.false_eq_true, if_false] <;> omega]
              rw [hrow1, hrow, ← hlen]
              cases next
              · simp only [Bool.false_eq_true, if_false, List.map_append, List.map_cons, weight_nil]
                have := insertIdx_mid (a.map (weight w)) (weight w c :: b.map (weight w)) 0
                rw [List.length_map] at this
                exact this
              · simp only [if_true, List.map_append, List.map_cons, weight_nil]
                have := insertIdx_mid (a.map (weight w) ++ [weight w c]) (b.map (weight w)) 0
                simpa using this
            · have := r1.2
              rw [hprow] at this
              simp only [List.map_append, List.map_cons] at this ⊢
              rw [hinss]; exact this
          have hnodes1 : AllNodes ((pa ++ pc.insertIdx j 0 :: pb) :: rest) := by
            intro r hr
            rcases List.mem_cons.mp hr with rfl | hr
            · have hp0 := r2 prow (by simp)
              rw [hprow] at hp0
              intro x hx
              simp only [List.mem_append, List.mem_cons] at hx
              rcases hx with hx | hx | hx
              · exact hp0 x (by simp [hx])
              · subst hx; omega
              · exact hp0 x (by simp [hx])
            · exact r2 r (by simp [hr])
          have hpath1 : PathTo ((pa ++ pc.insertIdx j 0 :: pb) :: rest) (if next = true then n else n + 1)
              ((pn, if next = true then pi else pi + 1) :: q) := by
            refine ⟨?_, hq⟩
            have := At.mk' (row := pa ++ pc.insertIdx j 0 :: pb) rfl (i := if next = true then pi else pi + 1)
              (by cases next <;> simp only [if_true, Bool.false_eq_true, if_false] <;> omega)
            rw [hpn] at this
            rw [show (if next = true then n else n + 1) = pa.flatten.length + (if next = true then pi else pi + 1) by
              cases next <;> simp only [if_true, Bool.false_eq_true, if_false] <;> omega]
            exact this
          have hc1 : (row.insertIdx (if next = true then n + 1 else n) [])[if next = true then n else n + 1]? = some c := by
            rw [hrow1, ← hlen]
            cases next
            · simp only [Bool.false_eq_true, if_false]
              have := get_mid (a ++ [[]]) b c
              simpa using this
            · simp
          have hs1 : smallNeighbour (row.insertIdx (if next = true then n + 1 else n) []) (if next = true then n else n + 1) = true := by
            rw [hrow1, ← hlen, smallNeighbour]
            cases next
            · simp only [Bool.false_eq_true, if_false, prevOf_concat, List.length_nil]
              rw [show decide (0 < itemCount / 2) = true from rfl, Bool.or_true]
            · simp only [if_true, next_eq, List.head?_cons, List.length_nil]
              rw [show decide (0 < itemCount / 2) = true from rfl, Bool.true_or]
          obtain ⟨row2, above2, n2, i2, p2, h1, h2, h3, h4⟩ := sbalance_spec w hc1 hcl hi hs1 hpath1 hal hnodes1
          rw [h1]
          simp only
          have hpos : ∀ x ∈ a ++ b, 0 < x.length := by
            intro x hx
            apply (hnr x _).1
            rw [hrow]
            simp only [List.mem_append, List.mem_cons] at hx ⊢
            rcases hx with h | h <;> simp [h]
          have hfl1 : (row.insertIdx (if next = true then n + 1 else n) []).flatten = row.flatten := by
            rw [hrow1, hrow]; cases next <;> simp
          have hoffn : off (row.insertIdx (if next = true then n + 1 else n) []) (if next = true then n else n + 1) = off row n := by
            rw [hrow1]
            conv => rhs; rw [hrow, ← hlen, off_mid]
            rw [← hlen]
            cases next
            · simp only [Bool.false_eq_true, if_false]
              have := off_mid (a ++ [[]]) b c
              simpa using this
            · simp only [if_true, off_mid]
          refine ⟨by rw [h2.flatten, hfl1], ?_, hnodes1.congr h3, ⟨h4.path, h4.aligned, h4.node, by rw [h4.same, hoffn]⟩, ?_, ?_⟩
          · apply h2.nodes
            · intro x hx
              rw [hrow1] at hx
              have : x = [] ∨ x ∈ row := by
                rw [hrow]
                cases next <;> simp at hx ⊢ <;> rcases hx with h | h | h | h <;> simp [h]
              rcases this with rfl | h
              · simp
              · exact (hnr x h).2
            · intro j' x hx h0
              have hf : ∀ l : Row α, (∀ x ∈ l, 0 < x.length) → l.filter (fun x => decide (x.length = 0)) = [] := by
                intro l hl
                rw [List.filter_eq_nil_iff]
                intro y hy
                have := hl y hy
                simp only [decide_eq_true_eq]; omega
              have hfa := hf a (fun x hx => hpos x (by simp [hx]))
              have hfb := hf b (fun x hx => hpos x (by simp [hx]))
              have hc0 : ¬ c.length = 0 := by omega
              rw [hrow1] at hx ⊢
              rw [← hlen]
              cases next
              · simp only [Bool.false_eq_true, if_false] at hx ⊢
                refine ⟨by simp only [List.filter_append, List.filter_cons, hfa, hfb, hc0, List.length_nil, decide_true, decide_false, if_true,
                  Bool.false_eq_true, if_false, List.nil_append, List.length_cons], .inl ?_⟩
                rcases Nat.lt_trichotomy j' a.length with h | h | h
                · rw [List.getElem?_append_left h] at hx
                  have := hpos x (by simp [List.mem_of_getElem? hx])
                  omega
                · omega
                · rw [List.getElem?_append_right (by omega)] at hx
                  obtain ⟨k, hk⟩ : ∃ k, j' - a.length = k + 1 := ⟨j' - a.length - 1, by omega⟩
                  rw [hk, List.getElem?_cons_succ] at hx
                  have := List.mem_of_getElem? hx
                  rcases List.mem_cons.mp this with rfl | h'
                  · omega
                  · have := hpos x (by simp [h']); omega
              · simp only [if_true] at hx ⊢
                refine ⟨by simp only [List.filter_append, List.filter_cons, hfa, hfb, hc0, List.length_nil, decide_true, decide_false, if_true,
                  Bool.false_eq_true, if_false, List.nil_append, List.length_cons], .inr ?_⟩
                rcases Nat.lt_trichotomy j' (a.length + 1) with h | h | h
                · rw [show a ++ c :: [] :: b = (a ++ [c]) ++ [] :: b by simp, List.getElem?_append_left (by simp; omega)] at hx
                  have := List.mem_of_getElem? hx
                  rcases List.mem_append.mp this with h' | h'
                  · have := hpos x (by simp [h']); omega
                  · simp at h'; subst h'; omega
                · omega
                · rw [List.getElem?_append_right (by omega)] at hx
                  obtain ⟨k, hk⟩ : ∃ k, j' - a.length = k + 2 := ⟨j' - a.length - 2, by omega⟩
                  rw [hk, List.getElem?_cons_succ, List.getElem?_cons_succ] at hx
                  have := hpos x (by simp [List.mem_of_getElem? hx]); omega
          · intro hd
            have e1 : above2.length = rest.length + 1 := by
              have := congrArg List.length h3
              simpa [shape] using this
            have := r6 hd
            simp only [List.length_cons] at this
            omega
          · rw [occAll_cons, occAll_cons, h3]
            rintro ⟨o1, o2⟩
            have o3 := r7 o2
            rw [shape_cons, occAll_cons] at o3 ⊢
            refine ⟨?_, ?_, o3.2⟩
            · -- the level itself
              rw [hrow] at o1
              simp only [lens, List.map_append, List.map_cons] at o1
              rw [occ_mid] at o1
              have hpa : ∀ x ∈ a, 0 < x.length := fun x hx => hpos x (by simp [hx])
              cases next with
              | true =>
                rw [hrow1, ← hlen] at h2
                exact h2.occ_linkNext hpa hcl o1
              | false =>
                rw [hrow1, ← hlen] at h2
                exact h2.occ_linkPrev hpa hcl o1
            · rw [hprow] at o3
              have := occ_le _ pa.length (· + 1) (fun x => by omega) o3.1
              simp only [List.map_append, List.map_cons] at this ⊢
              have e := bump_mid (· + 1) (pa.map List.length) (pb.map List.length) pc.length
              rw [List.length_map] at e
              rw [e] at this
              rw [hinsl]; exact this

theorem weight_id (row : Row Nat) : row.map (weight id) = row.map List.sum := by
  apply List.map_congr_left
  intro x _
  simp [weight]

theorem sum_flatten' (row : Row Nat) : row.flatten.sum = (row.map List.sum).sum := by
  induction row with
  | nil => rfl
  | cons c row ih => simp [ih]

theorem weight_one {α : Type} (row : Row α) : row.map (weight fun _ => 1) = lens row := by
  apply List.map_congr_left
  intro x hx
  clear hx
  induction x with
  | nil => rfl
  | cons y x ih =>
    simp only [weight, List.map_cons, List.sum_cons, List.length_cons] at ih ⊢
    omega

theorem room_spec (tot : Nat) (d : Nat) {rows : List (Row Nat)} {ws : List Nat} {m : Nat} {p : List Posi} (mem : Nat)
    (hn : AllNodes rows) (ha : Aligned rows ws) (hp : PathTo rows m p) (hw : ws.sum = tot)
    (hdl : d + rows.length ≤ 7) :
    RoomOk d rows ws m (room tot d rows p mem) := by
  induction rows generalizing d ws m p mem with
  | nil =>
    cases p with
    | cons _ _ => exact hp.elim
    | nil =>
      have h1 : ws.length = 1 := ha
      have h2 : m = 0 := hp
      rw [room]
      by_cases hd : maxDepth ≤ d
      · rw [if_pos hd]
        exact ⟨by simpa using hd, fun h => absurd rfl h⟩
      · rw [if_neg hd]
        by_cases hm : mem = 0
        · rw [if_pos hm]; trivial
        · rw [if_neg hm]
          obtain ⟨x, rfl⟩ : ∃ x, ws = [x] := by
            cases ws with
            | nil => simp at h1
            | cons x ws => cases ws with
              | nil => exact ⟨x, rfl⟩
              | cons _ _ => simp at h1
          simp only [List.sum_cons, List.sum_nil, Nat.add_zero] at hw
          subst hw
          subst h2
          refine ⟨⟨rfl, rfl⟩, ?_, ⟨⟨⟨[x], rfl, by simp⟩, rfl⟩, rfl⟩, ⟨[[x]], [], 0, 0, [], [x], rfl, rfl, rfl, by simp⟩, ?_, ?_⟩
          · intro r hr
            simp only [List.mem_singleton] at hr
            subst hr
            intro c hc
            simp only [List.mem_singleton] at hc
            subst hc
            simp
          · intro _; simp only [maxDepth] at hd; simp only [List.length_cons, List.length_nil]; omega
          · intro _ ls hls
            simp only [shape, List.map_cons, List.map_nil, List.mem_singleton] at hls
            subst hls
            trivial
  | cons row rows ih =>
    cases p with
    | nil => exact hp.elim
    | cons q p =>
      obtain ⟨n, i⟩ := q
      obtain ⟨hat, hp'⟩ := hp
      obtain ⟨⟨node, hnode, hi⟩, hmn⟩ := hat
      have hnr := hn row (by simp)
      have hnl := hnr node (List.mem_of_getElem? hnode)
      have hn' : AllNodes rows := fun r hr => hn r (by simp [hr])
      have hsum : (row.map List.sum).sum = tot := by rw [← hw, ← ha.1, sum_flatten']
      rw [room]
      by_cases hd : maxDepth ≤ d
      · simp only [maxDepth] at hd
        simp only [List.length_cons] at hdl
        omega
      · rw [if_neg hd, hnode]
        simp only
        by_cases hl : node.length < itemCount
        · rw [if_pos hl]
          exact ⟨ha, hn, ⟨⟨⟨node, hnode, hi⟩, hmn⟩, hp'⟩, ⟨row, rows, n, i, p, node, rfl, rfl, hnode, hl⟩, id, id⟩
        · rw [if_neg hl]
          simp only [itemCount] at hl
          have hS := splitStep_spec id (d + 1) mem (room tot (d + 1) rows p) hnode (by omega) (i := i) (by omega) hp'
            (by rw [weight_id]; exact ha.2) hn' hnr
            (fun mem => by rw [weight_id]; exact ih (d + 1) mem hn' ha.2 hp' hsum (by simp only [List.length_cons] at hdl; omega))
          cases hres : splitStep id row rows n i p mem (room tot (d + 1) rows p) with
          | none =>
            rw [hres] at hS
            obtain ⟨s1, s2⟩ := hS
            refine ⟨by simp only [List.length_cons]; omega, fun _ => ?_⟩
            cases rows with
            | nil =>
              have h1 : (row.map List.sum).length = 1 := ha.2
              obtain ⟨x, rfl⟩ : ∃ x, row = [x] := by
                cases row with
                | nil => simp at h1
                | cons x row => cases row with
                  | nil => exact ⟨x, rfl⟩
                  | cons _ _ => simp at h1
              have hn0 : n = 0 := by
                cases p with
                | nil => exact hp'
                | cons _ _ => exact hp'.elim
              subst hn0
              rw [List.getElem?_cons_zero] at hnode
              cases hnode
              exact ⟨_, rfl, by omega⟩
            | cons r rs =>
              obtain ⟨node', t1, t2⟩ := s2 (by simp)
              exact ⟨node', by rw [List.getLast?_cons_cons]; exact t1, t2⟩
          | some r =>
            rw [hres] at hS
            cases r with
            | nomem => trivial
            | ok row' rows' posi p' =>
              obtain ⟨n', i'⟩ := posi
              obtain ⟨s1, s2, s3, s4, s5, s6⟩ := hS
              obtain ⟨c', c1, c2, c3, c4⟩ := s4.node
              refine ⟨⟨by rw [s1]; exact ha.1, ?_⟩, ?_, ⟨⟨⟨c', c1, c3 (by omega)⟩, ?_⟩, s4.path⟩,
                ⟨row', rows', n', i', p', c', rfl, rfl, c1, c4⟩, ?_, ?_⟩
              · have := s4.aligned
                rw [weight_id] at this
                exact this
              · intro r hr
                rcases List.mem_cons.mp hr with rfl | hr
                · exact s2
                · exact s3 r hr
              · rw [hmn, s4.same]
              · intro h
                simp only [List.length_cons] at h ⊢
                have := s5 (by omega)
                omega
              · rw [shape_cons, shape_cons]; exact s6

/-- Splitting a full leaf. -/
theorem splitLeaf_spec {t : Tree} {n i : Nat} {p : List Posi} {c : List Elem} (mem : Nat) (hc : t.leaves[n]? = some c)
    (hcl : c.length = 32) (hi : i ≤ 32) (hp : PathTo t.upper n p) (ha : Aligned t.upper (lens t.leaves))
    (hn : AllNodes t.upper) (hnr : Nodes t.leaves) (hdl : t.upper.length ≤ 6) :
    SplitOk (fun _ => 1) 1 t.leaves t.upper n i (splitLeaf t t.leaves.flatten.length n i p mem) := by
  have hw := weight_one t.leaves
  apply splitStep_spec (fun _ => 1) 1 mem _ hc hcl hi hp (by rw [hw]; exact ha) hn hnr
  intro mem
  rw [hw]
  exact room_spec _ 1 mem hn ha hp (by rw [List.length_flatten]) (by omega)

end Verif.BT
