import Verif.Model.Lru
/-! Queues with their marks. -/
namespace Verif.Lru

theorem prevOf_none : ∀ (l : List Id) (i : Id), i ∉ l.tail → prevOf l i = none
  | [], _, _ => rfl
  | [_], _, _ => rfl
  | a :: b :: l, i, h => by
    have hb : ¬ b = i := by intro hb; exact h (by simp [hb])
    have := prevOf_none (b :: l) i (by intro hm; exact h (by simp at hm ⊢; exact .inr hm))
    simp only [prevOf, if_neg hb]
    exact this

theorem prevOf_split : ∀ (u : List Id) (i : Id) (v : List Id), (u ++ i :: v).Nodup → prevOf (u ++ i :: v) i = u.getLast?
  | [], i, v, h => by
    rw [List.nil_append, prevOf_none _ _ (by simp at h ⊢; exact h.1)]
    rfl
  | [a], i, v, h => by
    simp [prevOf]
  | a :: b :: u, i, v, h => by
    have hb : ¬ b = i := by
      intro hb
      simp [hb] at h
    have := prevOf_split (b :: u) i v (List.nodup_cons.1 h).2
    simp only [List.cons_append] at this ⊢
    simp only [prevOf, if_neg hb]
    rw [this]
    simp

theorem prevOf_last {l : List Id} {i : Id} (hn : l.Nodup) (hl : l.getLast? = some i) : prevOf l i = (l.erase i).getLast? ∧ l = l.erase i ++ [i] := by
  have he : l = l.dropLast ++ [i] := by
    cases l with
    | nil => cases hl
    | cons a l =>
      have := List.dropLast_concat_getLast (l := a :: l) (by simp)
      rw [List.getLast?_eq_some_getLast (by simp)] at hl
      injection hl with hl
      rw [hl] at this
      exact this.symm
  have hd : i ∉ l.dropLast := by
    rw [he] at hn
    have := List.nodup_append.1 hn
    intro hm
    exact this.2.2 i hm i (by simp) rfl
  have h2 : l.erase i = l.dropLast := by
    conv => lhs; rw [he]
    rw [List.erase_append_right _ hd]
    simp
  constructor
  · rw [h2]
    have := prevOf_split l.dropLast i [] (he ▸ hn)
    rw [← he] at this
    exact this
  · rw [h2]
    exact he

theorem prevOf_mem {l : List Id} {i p : Id} (hn : l.Nodup) (hi : i ∈ l) (hp : prevOf l i = some p) : p ∈ l ∧ p ≠ i := by
  obtain ⟨u, v, rfl⟩ := List.append_of_mem hi
  rw [prevOf_split u i v hn] at hp
  have hm := List.mem_of_getLast? hp
  refine ⟨List.mem_append_left _ hm, ?_⟩
  intro h
  subst h
  exact (List.nodup_append.1 hn).2.2 p hm p (by simp) rfl

/-- The marks are in their queue, and `curMK` is not below `lowMK`. -/
structure Marks (st : Bool) (l : List Id) (low cur : Option Id) : Prop where
  low_in : ∀ y, low = some y → y ∈ l
  cur_in : ∀ x, cur = some x → x ∈ l
  order : st = false → ∀ x, cur = some x → ∃ y a b, low = some y ∧ l = a ++ y :: b ∧ (x ∈ a ∨ x = y)
  stk : st = true → low = none

theorem Marks.cons {st l low cur} (h : Marks st l low cur) (i : Id) : Marks st (i :: l) low cur where
  low_in y hy := List.mem_cons_of_mem _ (h.low_in y hy)
  cur_in x hx := List.mem_cons_of_mem _ (h.cur_in x hx)
  order hs x hx := by
    obtain ⟨y, a, b, h1, h2, h3⟩ := h.order hs x hx
    exact ⟨y, i :: a, b, h1, by simp [h2], by rcases h3 with h3 | h3 <;> simp [h3]⟩
  stk := h.stk

theorem Marks.first (l : List Id) (i : Id) : Marks false (i :: l) (some i) (some i) where
  low_in y hy := by injection hy with hy; simp [hy]
  cur_in x hx := by injection hx with hx; simp [hx]
  order _ x hx := by injection hx with hx; exact ⟨i, [], l, rfl, by simp, .inr hx.symm⟩
  stk h := by cases h

theorem Marks.curUp {st l low} {i : Id} (hn : l.Nodup) (h : Marks st l low (some i)) : Marks st l low (prevOf l i) where
  low_in := h.low_in
  cur_in x hx := (prevOf_mem hn (h.cur_in i rfl) hx).1
  order hs x hx := by
    obtain ⟨y, a, b, h1, h2, h3⟩ := h.order hs i rfl
    refine ⟨y, a, b, h1, h2, .inl ?_⟩
    rcases h3 with h3 | h3
    · obtain ⟨u, v, rfl⟩ := List.append_of_mem h3
      have h2' : l = u ++ i :: (v ++ y :: b) := by simp [h2]
      subst h2'
      rw [prevOf_split u i _ hn] at hx
      exact List.mem_append_left _ (List.mem_of_getLast? hx)
    · subst h3
      subst h2
      rw [prevOf_split a i b hn] at hx
      exact List.mem_of_getLast? hx
  stk := h.stk

theorem Marks.lowUp {l cur} {i : Id} (hn : l.Nodup) (h : Marks false l (some i) cur) (hc : cur ≠ some i) : Marks false l (prevOf l i) cur where
  low_in y hy := (prevOf_mem hn (h.low_in i rfl) hy).1
  cur_in := h.cur_in
  order hs x hx := by
    obtain ⟨y, a, b, h1, h2, h3⟩ := h.order hs x hx
    injection h1 with h1
    subst h1
    rcases h3 with h3 | h3
    · subst h2
      rw [prevOf_split a i b hn]
      have ha : a ≠ [] := by intro ha; rw [ha] at h3; cases h3
      refine ⟨a.getLast ha, a.dropLast, i :: b, List.getLast?_eq_some_getLast ha, ?_, ?_⟩
      · conv => lhs; rw [← List.dropLast_concat_getLast ha]
        simp
      · rw [← List.dropLast_concat_getLast ha] at h3
        simp at h3
        exact h3
    · subst h3
      exact absurd hx hc
  stk h := by cases h

theorem Marks.tail (l : List Id) : Marks false l l.getLast? l.getLast? where
  low_in y hy := List.mem_of_getLast? hy
  cur_in x hx := List.mem_of_getLast? hx
  order _ x hx := by
    have hne : l ≠ [] := by intro h; rw [h] at hx; cases hx
    have h2 := List.getLast?_eq_some_getLast hne
    rw [h2] at hx
    injection hx with hx
    exact ⟨l.getLast hne, l.dropLast, [], h2, (List.dropLast_concat_getLast hne).symm, .inr hx.symm⟩
  stk h := by cases h

theorem Marks.tailS {l low cur} (h : Marks true l low cur) : Marks true l low l.getLast? where
  low_in := h.low_in
  cur_in x hx := List.mem_of_getLast? hx
  order h := by cases h
  stk := h.stk

theorem Marks.again {l low cur} (h : Marks false l low cur) : Marks false l low low where
  low_in := h.low_in
  cur_in := h.low_in
  order _ x hx := by
    obtain ⟨a, b, hab⟩ := List.append_of_mem (h.low_in x hx)
    exact ⟨x, a, b, hx, hab, .inr rfl⟩
  stk h := by cases h

theorem erase_split {u v : List Id} {i : Id} (hn : (u ++ i :: v).Nodup) : (u ++ i :: v).erase i = u ++ v := by
  have : i ∉ u := by
    intro hm
    exact (List.nodup_append.1 hn).2.2 i hm i (by simp) rfl
  rw [List.erase_append_right _ this]
  simp

theorem mem_of_last {u : List Id} {x : Id} (h : u.getLast? = some x) : ∃ u', u = u' ++ [x] := by
  have hne : u ≠ [] := by intro hu; rw [hu] at h; cases h
  rw [List.getLast?_eq_some_getLast hne] at h
  injection h with h
  exact ⟨u.dropLast, by rw [← h]; exact (List.dropLast_concat_getLast hne).symm⟩

theorem split_unique : ∀ (u v a b : List Id) (i : Id), (u ++ i :: v).Nodup → u ++ i :: v = a ++ i :: b → u = a ∧ v = b
  | [], v, [], b, i, _, h => ⟨rfl, by injection h⟩
  | [], v, c :: a, b, i, hn, h => by
    simp only [List.nil_append, List.cons_append] at h hn
    injection h with h1 h2
    subst h2
    exact absurd (by simp) (List.nodup_cons.1 hn).1
  | c :: u, v, [], b, i, hn, h => by
    simp only [List.nil_append, List.cons_append] at h hn
    injection h with h1 h2
    subst h1
    exact absurd (by simp) (List.nodup_cons.1 hn).1
  | c :: u, v, d :: a, b, i, hn, h => by
    simp only [List.cons_append] at h hn
    injection h with h1 h2
    have := split_unique u v a b i (List.nodup_cons.1 hn).2 h2
    exact ⟨by rw [h1, this.1], this.2⟩

theorem Marks.erase {st l low cur} {i : Id} (hn : l.Nodup) (hi : i ∈ l) (h : Marks st l low cur) :
    Marks st (l.erase i) (lowAfter l low i) (curAfter l low cur i) := by
  obtain ⟨u, v, rfl⟩ := List.append_of_mem hi
  have he := erase_split hn
  have hp := prevOf_split u i v hn
  have hiu : i ∉ u := fun hm => (List.nodup_append.1 hn).2.2 i hm i (by simp) rfl
  have hiv : i ∉ v := (List.nodup_cons.1 (List.nodup_append.1 hn).2.1).1
  have huv : ∀ x, x ∈ u → x ∉ v := fun x hu hv => (List.nodup_append.1 hn).2.2 x hu x (by simp [hv]) rfl
  have hlow : ∀ y, lowAfter (u ++ i :: v) low i = some y → y ∈ u ++ v := by
    intro y hy
    rw [lowAfter, hp] at hy
    split at hy
    · exact List.mem_append_left _ (List.mem_of_getLast? hy)
    · rename_i hne
      have := h.low_in y hy
      have hyi : y ≠ i := by intro h; subst h; exact hne hy
      simp [hyi] at this ⊢
      exact this
  refine ⟨?_, ?_, ?_, ?_⟩
  · rw [he]; exact hlow
  · intro x hx
    rw [he]
    rw [curAfter, hp] at hx
    split at hx
    · cases hu : u.getLast? with
      | none => rw [hu] at hx; exact hlow x hx
      | some z =>
        rw [hu] at hx
        injection hx with hx
        subst hx
        exact List.mem_append_left _ (List.mem_of_getLast? hu)
    · rename_i hne
      have := h.cur_in x hx
      have hxi : x ≠ i := by intro h; subst h; exact hne hx
      simp [hxi] at this ⊢
      exact this
  · intro hs x hx
    rw [he]
    by_cases hc : cur = some i
    · -- the mark itself is taken off
      obtain ⟨y, a, b, h1, h2, h3⟩ := h.order hs i hc
      rw [curAfter, if_pos hc, hp] at hx
      by_cases hyi : y = i
      · subst hyi
        have hl : lowAfter (u ++ y :: v) low y = u.getLast? := by rw [lowAfter, if_pos h1, hp]
        rw [hl] at hx ⊢
        have hx' : u.getLast? = some x := by
          cases hu : u.getLast? with
          | none => rw [hu] at hx; cases hx
          | some z => rw [hu] at hx; exact hx
        obtain ⟨u', rfl⟩ := mem_of_last hx'
        exact ⟨x, u', v, hx', by simp, .inr rfl⟩
      · -- lowMK is below
        have hl : lowAfter (u ++ i :: v) low i = some y := by
          rw [lowAfter, if_neg (by rw [h1]; simpa using hyi), h1]
        have hyv : y ∈ v := by
          have hya : i ∈ a := by
            rcases h3 with h3 | h3
            · exact h3
            · exact absurd h3.symm hyi
          obtain ⟨a1, a2, rfl⟩ := List.append_of_mem hya
          have hdup : (u ++ i :: v) = a1 ++ i :: (a2 ++ y :: b) := by simp [h2]
          have hc2 := split_unique u v a1 (a2 ++ y :: b) i hn hdup
          rw [hc2.2]
          simp
        obtain ⟨v1, v2, rfl⟩ := List.append_of_mem hyv
        rw [hl] at hx ⊢
        cases hu : u.getLast? with
        | none =>
          rw [hu] at hx
          injection hx with hx
          exact ⟨y, u ++ v1, v2, rfl, by simp, .inr hx.symm⟩
        | some z =>
          rw [hu] at hx
          injection hx with hx
          subst hx
          exact ⟨y, u ++ v1, v2, rfl, by simp, .inl (List.mem_append_left _ (List.mem_of_getLast? hu))⟩
    · rw [curAfter, if_neg hc] at hx
      obtain ⟨y, a, b, h1, h2, h3⟩ := h.order hs x hx
      have hxi : x ≠ i := by intro h; subst h; exact hc hx
      by_cases hyi : y = i
      · subst hyi
        have hab : a = u ∧ b = v := by
          have := split_unique u v a b y hn h2
          exact ⟨this.1.symm, this.2.symm⟩
        obtain ⟨rfl, rfl⟩ := hab
        rcases h3 with h3 | h3
        · rw [lowAfter, if_pos h1, hp]
          have ha : a ≠ [] := by intro ha; rw [ha] at h3; cases h3
          have hg := List.getLast?_eq_some_getLast ha
          obtain ⟨u', hu'⟩ := mem_of_last hg
          refine ⟨a.getLast ha, u', b, hg, ?_, ?_⟩
          · conv => lhs; rw [hu']
            simp
          · rw [hu'] at h3; simp at h3; exact h3
        · exact absurd h3 hxi
      · have hl : lowAfter (u ++ i :: v) low i = some y := by
          rw [lowAfter, if_neg (by rw [h1]; simpa using hyi), h1]
        rw [hl]
        -- erase i from a ++ y :: b
        have hn2 : (a ++ y :: b).Nodup := h2 ▸ hn
        have hi2 : i ∈ a ++ y :: b := h2 ▸ hi
        have key : u ++ v = (a ++ y :: b).erase i := by rw [← h2, he]
        rw [key]
        by_cases hia : i ∈ a
        · refine ⟨y, a.erase i, b, rfl, by rw [List.erase_append_left _ hia], ?_⟩
          rcases h3 with h3 | h3
          · exact .inl ((List.mem_erase_of_ne hxi).2 h3)
          · exact .inr h3
        · refine ⟨y, a, b.erase i, rfl, ?_, h3⟩
          rw [List.erase_append_right _ hia]
          have : (y :: b).erase i = y :: b.erase i := by
            rw [List.erase_cons, if_neg (by simpa using hyi)]
          rw [this]
  · intro hs
    have := h.stk hs
    rw [lowAfter, this, if_neg (by simp)]

end Verif.Lru
