import Verif.Lemmas.SlabRel
/-!
# The slots fill the blocks
-/
namespace Verif.Slabs

theorem Geo.left_to {S : List Slot} {L : List Nat} (h : Geo S L) {a : Nat} (ha : 32 ≤ a % 262144) : ∀ (n : Nat) {x : Slot}, x.adr ≤ n → x ∈ S →
    x.adr / 262144 = a / 262144 → ∃ y ∈ S, y.adr ≤ a ∧ y.adr / 262144 = a / 262144
  | 0, x, hn, hx, hb => ⟨x, hx, by omega, hb⟩
  | n + 1, x, hn, hx, hb => by
    by_cases hxa : x.adr ≤ a
    · exact ⟨x, hx, hxa, hb⟩
    · rcases h.lft x hx with h1 | ⟨t, ht, h1⟩
      · omega
      · have := h.al t ht
        have := h.ins t ht
        have := h.ins x hx
        exact h.left_to ha n (x := t) (by omega) ht (by omega)

theorem Geo.right_to {S : List Slot} {L : List Nat} (h : Geo S L) {a : Nat} : ∀ (n : Nat) {x : Slot}, a - x.adr ≤ n → x ∈ S →
    x.adr ≤ a → x.adr / 262144 = a / 262144 → ∃ y ∈ S, y.adr ≤ a ∧ a < y.adr + y.len ∧ y.adr / 262144 = a / 262144
  | n, x, hn, hx, hxa, hb => by
    by_cases he : a < x.adr + x.len
    · exact ⟨x, hx, hxa, he, hb⟩
    · have := h.al x hx
      have := h.ins x hx
      rcases h.rgt x hx with h1 | ⟨t, ht, h1⟩
      · omega
      · have := h.al t ht
        have := h.ins t ht
        match n with
        | 0 => omega
        | n + 1 => exact h.right_to n (x := t) (by omega) ht (by omega) (by omega)

/-- Every place of a block in use lies in a slot. -/
theorem Geo.cover {S : List Slot} {L : List Nat} (h : Geo S L) {c a : Nat} (hc : c ∈ L) (ha : a / 262144 = c + 1) (ha2 : 32 ≤ a % 262144) :
    ∃ y ∈ S, y.adr ≤ a ∧ a < y.adr + y.len ∧ y.adr / 262144 = c + 1 := by
  obtain ⟨x, hx, hxc⟩ := h.fil c hc
  have := h.ins x hx
  obtain ⟨y, hy, h1, h2⟩ := h.left_to ha2 x.adr (Nat.le_refl _) hx (by omega)
  obtain ⟨z, hz, h3, h4, h5⟩ := h.right_to (a - y.adr) (Nat.le_refl _) hy h1 h2
  exact ⟨z, hz, h3, h4, by omega⟩

/-- A stretch with nothing used in it lies in one free slot. -/
theorem Geo.gap {S : List Slot} {L : List Nat} (h : Geo S L) (ht : ∀ x ∈ S, x.kind ≠ .loose) {c a n : Nat} (hc : c ∈ L) (hn : 0 < n)
    (ha : a / 262144 = c + 1) (ha2 : 32 ≤ a % 262144) (he : a % 262144 + n ≤ 262144)
    (hd : ∀ x ∈ S, x.kind = .used → a + n ≤ x.adr ∨ x.adr + x.len ≤ a) :
    ∃ y ∈ S, y.kind = .free ∧ y.adr ≤ a ∧ a + n ≤ y.adr + y.len := by
  obtain ⟨y, hy, h1, h2, h3⟩ := h.cover hc ha ha2
  have hk : y.kind = .free := by
    cases hk : y.kind with
    | free => rfl
    | used => have := hd y hy hk; omega
    | loose => exact absurd hk (ht y hy)
  refine ⟨y, hy, hk, h1, ?_⟩
  by_cases hle : a + n ≤ y.adr + y.len
  · exact hle
  · exfalso
    have := h.ins y hy
    rcases h.rgt y hy with h4 | ⟨t, htS, h4⟩
    · omega
    · have := h.al t htS
      cases hk2 : t.kind with
      | free => exact h.adj y hy t htS hk hk2 h4.symm
      | used => have := hd t htS hk2; omega
      | loose => exact ht t htS hk2

/-- Every block in use has a used slot. -/
theorem Geo.busy {S : List Slot} {L : List Nat} (h : Geo S L) (ht : ∀ x ∈ S, x.kind ≠ .loose) {c : Nat} (hc : c ∈ L) :
    ∃ x ∈ S, x.kind = .used ∧ x.adr / 262144 = c + 1 := by
  apply Classical.byContradiction
  intro hno
  obtain ⟨y, hy, hk, h1, h2⟩ := h.gap ht (c := c) (a := (c + 1) * 262144 + 32) (n := 262112) hc (by omega) (by omega) (by omega) (by omega) (by
    intro x hx hk
    have := h.ins x hx
    have : ¬ x.adr / 262144 = c + 1 := fun hh => hno ⟨x, hx, hk, hh⟩
    omega)
  have := h.who y hy hk
  have := h.ins y hy
  omega

/-! ## Sums -/

theorem wsum_one {S : List Slot} {L : List Nat} (h : Geo S L) {x : Slot} (hx : x ∈ S) : wsum (fun y => decide (y.adr = x.adr)) S = x.len := by
  have hp := List.perm_cons_erase hx
  rw [wsum_perm hp]
  simp only [wsum, decide_true, if_true]
  rw [wsum_zero]
  · rfl
  · intro y hy
    have hd := (h.perm hp).head y hy
    have := h.al x hx
    have := h.al y (List.mem_of_mem_erase hy)
    unfold Dis at hd
    simp only [decide_eq_false_iff_not]
    omega

theorem Geo.tail_sum {S : List Slot} {L : List Nat} (h : Geo S L) {c : Nat} : ∀ (n : Nat) {x : Slot}, x ∈ S → x.adr / 262144 = c + 1 →
    (c + 2) * 262144 - x.adr ≤ n →
    wsum (fun y => decide (y.adr / 262144 = c + 1 ∧ x.adr ≤ y.adr)) S = (c + 2) * 262144 - x.adr
  | n, x, hx, hb, hn => by
    have hal := h.al x hx
    have hin := h.ins x hx
    have e1 : wsum (fun y => decide (y.adr / 262144 = c + 1 ∧ x.adr ≤ y.adr)) S = wsum (fun y => decide (y.adr = x.adr)) S +
        wsum (fun y => decide (y.adr / 262144 = c + 1 ∧ x.adr + x.len ≤ y.adr)) S := by
      refine wsum_split (fun y hy => ?_)
      have := h.al y hy
      have hd : y = x ∨ Dis y x := h.cases hy hx
      have hd' : y.adr = x.adr ∨ y.adr + y.len ≤ x.adr ∨ x.adr + x.len ≤ y.adr := by
        rcases hd with rfl | hd
        · exact .inl rfl
        · unfold Dis at hd; omega
      simp only [decide_eq_true_eq]
      omega
    rw [e1, wsum_one h hx]
    rcases h.rgt x hx with h4 | ⟨t, htS, h4⟩
    · rw [wsum_zero]
      · omega
      · intro y hy
        simp only [decide_eq_false_iff_not]
        omega
    · have hti := h.ins t htS
      rw [← h4]
      match n with
      | 0 => omega
      | n + 1 =>
        rw [h.tail_sum n htS (by omega) (by omega)]
        omega

theorem Geo.block_sum {S : List Slot} {L : List Nat} (h : Geo S L) {c : Nat} (hc : c ∈ L) :
    wsum (fun y => decide (y.adr / 262144 = c + 1)) S = 262112 := by
  obtain ⟨x, hx, h1, h2, h3⟩ := h.cover hc (a := (c + 1) * 262144 + 32) (by omega) (by omega)
  have hin := h.ins x hx
  have := h.tail_sum _ hx h3 (Nat.le_refl _)
  rw [wsum_congr (q := fun y => decide (y.adr / 262144 = c + 1 ∧ x.adr ≤ y.adr)), this]
  · omega
  · intro y hy
    have := h.ins y hy
    simp only [decide_eq_decide]
    omega

theorem Geo.blocks_sum {S : List Slot} {L : List Nat} (h : Geo S L) : ∀ {M : List Nat}, M.Nodup → (∀ c ∈ M, c ∈ L) →
    wsum (fun y => decide (y.adr / 262144 - 1 ∈ M)) S = M.length * 262112
  | [], _, _ => by rw [wsum_zero]; · simp
                   · intro y _; simp
  | c :: M, hn, hs => by
    have hn' := List.nodup_cons.mp hn
    rw [wsum_split (q := fun y => decide (y.adr / 262144 = c + 1)) (r := fun y => decide (y.adr / 262144 - 1 ∈ M)),
      h.block_sum (hs c (List.mem_cons_self ..)), h.blocks_sum hn'.2 (fun d hd => hs d (List.mem_cons_of_mem _ hd))]
    · rw [List.length_cons]; omega
    · intro y hy
      have := h.ins y hy
      simp only [decide_eq_true_eq, List.mem_cons]
      constructor
      · constructor
        · rintro (h1 | h1)
          · left; omega
          · exact .inr h1
        · rintro (h1 | h1)
          · left; omega
          · exact .inr h1
      · rintro ⟨h1, h2⟩
        have : y.adr / 262144 - 1 = c := by omega
        exact hn'.1 (this ▸ h2)

/-- The slots fill the blocks, no byte is lost. -/
theorem Geo.sum {S : List Slot} {L : List Nat} (h : Geo S L) (hn : L.Nodup) : wsum (fun _ => true) S = L.length * 262112 := by
  rw [← h.blocks_sum hn (fun _ hc => hc)]
  refine wsum_congr (fun y hy => ?_)
  simp [h.blk y hy]

/-- No more blocks than used slots. -/
theorem Geo.blocks_le {S : List Slot} {L : List Nat} (h : Geo S L) (ht : ∀ x ∈ S, x.kind ≠ .loose) (hn : L.Nodup) : L.length ≤ (usedOf S).length := by
  have := hn.length_le_of_subset (l₂ := (usedOf S).map (fun x => x.adr / 262144 - 1)) (by
    intro c hc
    obtain ⟨x, hx, hk, h1⟩ := h.busy ht hc
    exact List.mem_map.mpr ⟨x, mem_usedOf.mpr ⟨hx, hk⟩, by omega⟩)
  simpa using this

/-- A list of so many different numbers below `n` has all of them. -/
theorem full_of_nodup {l : List Nat} {n k : Nat} (h1 : l.Nodup) (h2 : ∀ c ∈ l, c < n) (h3 : l.length = n) (hk : k < n) : k ∈ l := by
  apply Classical.byContradiction
  intro hno
  have := (List.nodup_cons.mpr ⟨hno, h1⟩).length_le_of_subset (l₂ := List.range n) (by
    intro c hc
    rcases List.mem_cons.mp hc with rfl | hc
    · exact List.mem_range.mpr hk
    · exact List.mem_range.mpr (h2 c hc))
  simp at this
  omega

/-- Chunks are in use, in the stack of free ones, or at the end of the last page. -/
theorem PgOk.where' {p : Pages} {L : List Nat} (h : PgOk p L) {k : Nat} (hk : k + p.endFree < p.slabs * p.perslab) (hs : k ∉ p.slots) : k ∈ L := by
  have h3 := h.cnt
  have := full_of_nodup (n := p.slabs * p.perslab - p.endFree) (k := k) h.nodup (fun c hc => by have := h.bnd c hc; omega) (by simp; omega) (by omega)
  rcases List.mem_append.mp this with h1 | h1
  · exact h1
  · exact absurd h1 hs

end Verif.Slabs
