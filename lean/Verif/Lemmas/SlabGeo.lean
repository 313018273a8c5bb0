import Verif.Lemmas.SlabList
/-!
# Slots tile the blocks
-/
namespace Verif.Slabs

/-- Two slots have no byte in common. -/
def Dis (s t : Slot) : Prop := s.adr + s.len ≤ t.adr ∨ t.adr + t.len ≤ s.adr

theorem Dis.symm {s t : Slot} (h : Dis s t) : Dis t s := Or.symm h

/-- The slots tile the bodies of the blocks `L`; no two free slots are neighbours, no block is one free slot. -/
structure Geo (S : List Slot) (L : List Nat) : Prop where
  al : ∀ s ∈ S, s.adr % 8 = 0 ∧ s.len % 8 = 0 ∧ 0 < s.len
  ins : ∀ s ∈ S, 32 ≤ s.adr % 262144 ∧ s.adr % 262144 + s.len ≤ 262144 ∧ 262144 ≤ s.adr
  usd : ∀ s ∈ S, s.kind = .used → 32 ≤ s.len
  dis : S.Pairwise Dis
  lft : ∀ s ∈ S, s.adr % 262144 = 32 ∨ ∃ t ∈ S, t.adr + t.len = s.adr
  rgt : ∀ s ∈ S, s.adr % 262144 + s.len = 262144 ∨ ∃ t ∈ S, t.adr = s.adr + s.len
  adj : ∀ s ∈ S, ∀ t ∈ S, s.kind = .free → t.kind = .free → s.adr + s.len ≠ t.adr
  who : ∀ s ∈ S, s.kind = .free → s.len < 262112
  blk : ∀ s ∈ S, s.adr / 262144 - 1 ∈ L
  fil : ∀ c ∈ L, ∃ s ∈ S, s.adr / 262144 - 1 = c

theorem Geo.perm {S S' : List Slot} {L : List Nat} (h : Geo S L) (hp : S.Perm S') : Geo S' L where
  al := fun s hs => h.al s (hp.mem_iff.mpr hs)
  ins := fun s hs => h.ins s (hp.mem_iff.mpr hs)
  usd := fun s hs => h.usd s (hp.mem_iff.mpr hs)
  dis := (hp.pairwise_iff (fun h => Dis.symm h)).mp h.dis
  lft := fun s hs => by
    rcases h.lft s (hp.mem_iff.mpr hs) with h | ⟨t, ht, h⟩
    · exact .inl h
    · exact .inr ⟨t, hp.mem_iff.mp ht, h⟩
  rgt := fun s hs => by
    rcases h.rgt s (hp.mem_iff.mpr hs) with h | ⟨t, ht, h⟩
    · exact .inl h
    · exact .inr ⟨t, hp.mem_iff.mp ht, h⟩
  adj := fun s hs t ht => h.adj s (hp.mem_iff.mpr hs) t (hp.mem_iff.mpr ht)
  who := fun s hs => h.who s (hp.mem_iff.mpr hs)
  blk := fun s hs => h.blk s (hp.mem_iff.mpr hs)
  fil := fun c hc => by
    obtain ⟨s, hs, h⟩ := h.fil c hc
    exact ⟨s, hp.mem_iff.mp hs, h⟩

theorem Geo.permL {S : List Slot} {L L' : List Nat} (h : Geo S L) (hp : ∀ c, c ∈ L ↔ c ∈ L') : Geo S L' :=
  { h with
    blk := fun s hs => (hp _).mp (h.blk s hs)
    fil := fun c hc => h.fil c ((hp c).mpr hc) }

theorem Geo.head {x : Slot} {R : List Slot} {L : List Nat} (h : Geo (x :: R) L) : ∀ y ∈ R, Dis x y :=
  fun y hy => (List.pairwise_cons.mp h.dis).1 y hy

/-- The slot at the front changes its kind. -/
theorem Geo.kind {x x' : Slot} {R : List Slot} {L : List Nat} (h : Geo (x :: R) L) (ha : x'.adr = x.adr) (hl : x'.len = x.len)
    (hu : x'.kind = .used → 32 ≤ x.len)
    (hf : x'.kind = .free → x.len < 262112 ∧ ∀ y ∈ R, y.kind = .free → y.adr + y.len ≠ x.adr ∧ x.adr + x.len ≠ y.adr) :
    Geo (x' :: R) L := by
  have mem : ∀ {P : Slot → Prop}, (∀ s ∈ x :: R, P s) → (P x → P x') → ∀ s ∈ x' :: R, P s := by
    intro P h1 h2 s hs
    rcases List.mem_cons.mp hs with rfl | hs
    · exact h2 (h1 x (List.mem_cons_self ..))
    · exact h1 s (List.mem_cons_of_mem _ hs)
  have lift : ∀ {P : Nat → Nat → Prop}, (∃ t ∈ x :: R, P t.adr t.len) → ∃ t ∈ x' :: R, P t.adr t.len := by
    rintro P ⟨t, ht, hP⟩
    rcases List.mem_cons.mp ht with rfl | ht
    · exact ⟨x', List.mem_cons_self .., by rw [ha, hl]; exact hP⟩
    · exact ⟨t, List.mem_cons_of_mem _ ht, hP⟩
  refine ⟨?_, ?_, ?_, ?_, ?_, ?_, ?_, ?_, ?_, ?_⟩
  · exact mem h.al (by rw [ha, hl]; exact id)
  · exact mem h.ins (by rw [ha, hl]; exact id)
  · intro s hs hk
    rcases List.mem_cons.mp hs with rfl | hs
    · rw [hl]; exact hu hk
    · exact h.usd s (List.mem_cons_of_mem _ hs) hk
  · refine List.pairwise_cons.mpr ⟨fun y hy => ?_, (List.pairwise_cons.mp h.dis).2⟩
    have := h.head y hy
    unfold Dis at this ⊢
    rw [ha, hl]; exact this
  · refine mem (P := fun s => s.adr % 262144 = 32 ∨ ∃ t ∈ x' :: R, t.adr + t.len = s.adr) ?_ (by rw [ha]; exact id)
    intro s hs
    rcases h.lft s hs with h | h
    · exact .inl h
    · exact .inr (lift (P := fun a l => a + l = s.adr) h)
  · refine mem (P := fun s => s.adr % 262144 + s.len = 262144 ∨ ∃ t ∈ x' :: R, t.adr = s.adr + s.len) ?_ (by rw [ha, hl]; exact id)
    intro s hs
    rcases h.rgt s hs with h | h
    · exact .inl h
    · exact .inr (lift (P := fun a l => a = s.adr + s.len) h)
  · intro s hs t ht hsf htf
    have h0 := h.al x (List.mem_cons_self ..)
    rcases List.mem_cons.mp hs with hs1 | hs1 <;> rcases List.mem_cons.mp ht with ht1 | ht1
    · subst hs1; subst ht1; omega
    · subst hs1; rw [ha, hl]; exact ((hf hsf).2 t ht1 htf).2
    · subst ht1; rw [ha]; exact ((hf htf).2 s hs1 hsf).1
    · exact h.adj s (List.mem_cons_of_mem _ hs1) t (List.mem_cons_of_mem _ ht1) hsf htf
  · intro s hs hk
    rcases List.mem_cons.mp hs with rfl | hs
    · rw [hl]; exact (hf hk).1
    · exact h.who s (List.mem_cons_of_mem _ hs) hk
  · exact mem h.blk (by rw [ha]; exact id)
  · intro c hc
    exact lift (P := fun a _ => a / 262144 - 1 = c) (h.fil c hc)

/-- A loose slot is cut in two. -/
theorem Geo.split {a l n : Nat} {R : List Slot} {L : List Nat} (h : Geo (⟨a, l, .loose⟩ :: R) L) (hn : n % 8 = 0) (h0 : 0 < n) (h1 : n < l) :
    Geo (⟨a, n, .loose⟩ :: ⟨a + n, l - n, .loose⟩ :: R) L := by
  have hal := h.al _ (List.mem_cons_self ..)
  have hin := h.ins _ (List.mem_cons_self ..)
  simp only at hal hin
  refine ⟨?_, ?_, ?_, ?_, ?_, ?_, ?_, ?_, ?_, ?_⟩
  · simp only [List.mem_cons, forall_eq_or_imp]
    exact ⟨by omega, by omega, fun s hs => h.al s (List.mem_cons_of_mem _ hs)⟩
  · simp only [List.mem_cons, forall_eq_or_imp]
    exact ⟨by omega, by omega, fun s hs => h.ins s (List.mem_cons_of_mem _ hs)⟩
  · simp only [List.mem_cons, forall_eq_or_imp]
    exact ⟨fun h => by simp at h, fun h => by simp at h, fun s hs => h.usd s (List.mem_cons_of_mem _ hs)⟩
  · refine List.pairwise_cons.mpr ⟨?_, List.pairwise_cons.mpr ⟨?_, (List.pairwise_cons.mp h.dis).2⟩⟩
    · simp only [List.mem_cons, forall_eq_or_imp]
      refine ⟨.inl (by simp), fun y hy => ?_⟩
      have := h.head y hy
      unfold Dis at this ⊢
      simp only at this ⊢
      omega
    · intro y hy
      have := h.head y hy
      unfold Dis at this ⊢
      simp only at this ⊢
      omega
  · simp only [List.mem_cons, forall_eq_or_imp]
    refine ⟨?_, ?_, ?_⟩
    · rcases h.lft _ (List.mem_cons_self ..) with h | ⟨t, ht, h⟩
      · exact .inl h
      · refine .inr ⟨t, ?_, h⟩
        rcases List.mem_cons.mp ht with rfl | ht
        · simp at h; omega
        · exact .inr (.inr ht)
    · exact .inr ⟨⟨a, n, .loose⟩, .inl rfl, rfl⟩
    · intro s hs
      rcases h.lft s (List.mem_cons_of_mem _ hs) with h | ⟨t, ht, h⟩
      · exact .inl h
      · rcases List.mem_cons.mp ht with rfl | ht
        · exact .inr ⟨⟨a + n, l - n, .loose⟩, .inr (.inl rfl), by simp at h ⊢; omega⟩
        · exact .inr ⟨t, .inr (.inr ht), h⟩
  · simp only [List.mem_cons, forall_eq_or_imp]
    refine ⟨?_, ?_, ?_⟩
    · exact .inr ⟨⟨a + n, l - n, .loose⟩, .inr (.inl rfl), rfl⟩
    · rcases h.rgt _ (List.mem_cons_self ..) with h | ⟨t, ht, h⟩
      · simp only at h
        exact .inl (by omega)
      · rcases List.mem_cons.mp ht with rfl | ht
        · simp at h; omega
        · simp only at h
          exact .inr ⟨t, .inr (.inr ht), by omega⟩
    · intro s hs
      rcases h.rgt s (List.mem_cons_of_mem _ hs) with h | ⟨t, ht, h⟩
      · exact .inl h
      · rcases List.mem_cons.mp ht with rfl | ht
        · exact .inr ⟨⟨a, n, .loose⟩, .inl rfl, h⟩
        · exact .inr ⟨t, .inr (.inr ht), h⟩
  · intro s hs t ht hsf htf
    rcases List.mem_cons.mp hs with rfl | hs
    · simp at hsf
    rcases List.mem_cons.mp hs with rfl | hs
    · simp at hsf
    rcases List.mem_cons.mp ht with rfl | ht
    · simp at htf
    rcases List.mem_cons.mp ht with rfl | ht
    · simp at htf
    exact h.adj s (List.mem_cons_of_mem _ hs) t (List.mem_cons_of_mem _ ht) hsf htf
  · simp only [List.mem_cons, forall_eq_or_imp]
    exact ⟨fun h => by simp at h, fun h => by simp at h, fun s hs => h.who s (List.mem_cons_of_mem _ hs)⟩
  · have hb := h.blk _ (List.mem_cons_self ..)
    simp only [List.mem_cons, forall_eq_or_imp]
    refine ⟨hb, ?_, fun s hs => h.blk s (List.mem_cons_of_mem _ hs)⟩
    have : (a + n) / 262144 = a / 262144 := by omega
    rw [this]; exact hb
  · intro c hc
    obtain ⟨s, hs, h⟩ := h.fil c hc
    rcases List.mem_cons.mp hs with rfl | hs
    · exact ⟨⟨a, n, .loose⟩, List.mem_cons_self .., h⟩
    · exact ⟨s, List.mem_cons_of_mem _ (List.mem_cons_of_mem _ hs), h⟩

/-- Two loose neighbours become one slot. -/
theorem Geo.merge {a l n : Nat} {R : List Slot} {L : List Nat} (h : Geo (⟨a, l, .loose⟩ :: ⟨a + l, n, .loose⟩ :: R) L) :
    Geo (⟨a, l + n, .loose⟩ :: R) L := by
  have hal := h.al _ (List.mem_cons_self ..)
  have hin := h.ins _ (List.mem_cons_self ..)
  have hal2 := h.al _ (List.mem_cons_of_mem _ (List.mem_cons_self ..))
  have hin2 := h.ins _ (List.mem_cons_of_mem _ (List.mem_cons_self ..))
  simp only at hal hin hal2 hin2
  have hsub : ∀ s ∈ R, s ∈ (⟨a, l, .loose⟩ :: ⟨a + l, n, .loose⟩ :: R : List Slot) :=
    fun s hs => List.mem_cons_of_mem _ (List.mem_cons_of_mem _ hs)
  refine ⟨?_, ?_, ?_, ?_, ?_, ?_, ?_, ?_, ?_, ?_⟩
  · simp only [List.mem_cons, forall_eq_or_imp]
    exact ⟨by omega, fun s hs => h.al s (hsub s hs)⟩
  · simp only [List.mem_cons, forall_eq_or_imp]
    exact ⟨by omega, fun s hs => h.ins s (hsub s hs)⟩
  · simp only [List.mem_cons, forall_eq_or_imp]
    exact ⟨fun h => by simp at h, fun s hs => h.usd s (hsub s hs)⟩
  · obtain ⟨d1, d2⟩ := List.pairwise_cons.mp h.dis
    obtain ⟨d3, d4⟩ := List.pairwise_cons.mp d2
    refine List.pairwise_cons.mpr ⟨fun y hy => ?_, d4⟩
    have k1 := d1 y (List.mem_cons_of_mem _ hy)
    have k2 := d3 y hy
    have k3 := (h.al y (hsub y hy)).2.2
    unfold Dis at k1 k2 ⊢
    simp only at k1 k2 ⊢
    omega
  · simp only [List.mem_cons, forall_eq_or_imp]
    refine ⟨?_, ?_⟩
    · rcases h.lft _ (List.mem_cons_self ..) with h | ⟨t, ht, h⟩
      · exact .inl h
      · simp only at h
        rcases List.mem_cons.mp ht with rfl | ht
        · simp at h; omega
        rcases List.mem_cons.mp ht with rfl | ht
        · simp only at h; omega
        · exact .inr ⟨t, .inr ht, h⟩
    · intro s hs
      rcases h.lft s (hsub s hs) with h' | ⟨t, ht, h'⟩
      · exact .inl h'
      · rcases List.mem_cons.mp ht with rfl | ht
        · have := (List.pairwise_cons.mp (List.pairwise_cons.mp h.dis).2).1 s hs
          have k3 := (h.al s (hsub s hs)).2.2
          unfold Dis at this
          simp only at this h'
          omega
        rcases List.mem_cons.mp ht with rfl | ht
        · exact .inr ⟨⟨a, l + n, .loose⟩, .inl rfl, by simp only at h' ⊢; omega⟩
        · exact .inr ⟨t, .inr ht, h'⟩
  · simp only [List.mem_cons, forall_eq_or_imp]
    refine ⟨?_, ?_⟩
    · rcases h.rgt _ (List.mem_cons_of_mem _ (List.mem_cons_self ..)) with h | ⟨t, ht, h⟩
      · simp only at h
        exact .inl (by omega)
      · simp only at h
        rcases List.mem_cons.mp ht with rfl | ht
        · simp only at h; omega
        rcases List.mem_cons.mp ht with rfl | ht
        · simp only at h; omega
        · exact .inr ⟨t, .inr ht, by omega⟩
    · intro s hs
      rcases h.rgt s (hsub s hs) with h' | ⟨t, ht, h'⟩
      · exact .inl h'
      · rcases List.mem_cons.mp ht with rfl | ht
        · exact .inr ⟨⟨a, l + n, .loose⟩, .inl rfl, h'⟩
        rcases List.mem_cons.mp ht with rfl | ht
        · have := (List.pairwise_cons.mp h.dis).1 s (List.mem_cons_of_mem _ hs)
          have k3 := (h.al s (hsub s hs)).2.2
          unfold Dis at this
          simp only at this h'
          omega
        · exact .inr ⟨t, .inr ht, h'⟩
  · intro s hs t ht hsf htf
    rcases List.mem_cons.mp hs with rfl | hs
    · simp at hsf
    rcases List.mem_cons.mp ht with rfl | ht
    · simp at htf
    exact h.adj s (hsub s hs) t (hsub t ht) hsf htf
  · simp only [List.mem_cons, forall_eq_or_imp]
    exact ⟨fun h => by simp at h, fun s hs => h.who s (hsub s hs)⟩
  · simp only [List.mem_cons, forall_eq_or_imp]
    exact ⟨h.blk _ (List.mem_cons_self ..), fun s hs => h.blk s (hsub s hs)⟩
  · intro c hc
    obtain ⟨s, hs, h⟩ := h.fil c hc
    rcases List.mem_cons.mp hs with rfl | hs
    · exact ⟨_, List.mem_cons_self .., h⟩
    rcases List.mem_cons.mp hs with rfl | hs
    · refine ⟨⟨a, l + n, .loose⟩, List.mem_cons_self .., ?_⟩
      simp only at h ⊢
      have : (a + l) / 262144 = a / 262144 := by omega
      omega
    · exact ⟨s, List.mem_cons_of_mem _ hs, h⟩

/-- Another block. -/
theorem Geo.add {S : List Slot} {L : List Nat} {c : Nat} (h : Geo S L) (hc : c ∉ L) :
    Geo (⟨(c + 1) * 262144 + 32, 262112, .loose⟩ :: S) (L ++ [c]) := by
  refine ⟨?_, ?_, ?_, ?_, ?_, ?_, ?_, ?_, ?_, ?_⟩
  · simp only [List.mem_cons, forall_eq_or_imp]
    exact ⟨⟨by omega, by decide, by decide⟩, h.al⟩
  · simp only [List.mem_cons, forall_eq_or_imp]
    exact ⟨⟨by omega, by omega, by omega⟩, h.ins⟩
  · simp only [List.mem_cons, forall_eq_or_imp]
    exact ⟨fun h => by simp at h, h.usd⟩
  · refine List.pairwise_cons.mpr ⟨fun y hy => ?_, h.dis⟩
    have h1 := h.blk y hy
    have h2 := h.ins y hy
    have hne : y.adr / 262144 - 1 ≠ c := fun hh => hc (hh ▸ h1)
    unfold Dis
    simp only
    omega
  · simp only [List.mem_cons, forall_eq_or_imp]
    refine ⟨.inl (by omega), fun s hs => ?_⟩
    rcases h.lft s hs with h | ⟨t, ht, h⟩
    · exact .inl h
    · exact .inr ⟨t, .inr ht, h⟩
  · simp only [List.mem_cons, forall_eq_or_imp]
    refine ⟨.inl (by omega), fun s hs => ?_⟩
    rcases h.rgt s hs with h | ⟨t, ht, h⟩
    · exact .inl h
    · exact .inr ⟨t, .inr ht, h⟩
  · intro s hs t ht hsf htf
    rcases List.mem_cons.mp hs with rfl | hs
    · simp at hsf
    rcases List.mem_cons.mp ht with rfl | ht
    · simp at htf
    exact h.adj s hs t ht hsf htf
  · simp only [List.mem_cons, forall_eq_or_imp]
    exact ⟨fun h => by simp at h, h.who⟩
  · simp only [List.mem_cons, forall_eq_or_imp]
    refine ⟨List.mem_append_right _ ?_, fun s hs => List.mem_append_left _ (h.blk s hs)⟩
    rw [List.mem_singleton]; omega
  · intro d hd
    rcases List.mem_append.mp hd with hd | hd
    · obtain ⟨s, hs, h⟩ := h.fil d hd
      exact ⟨s, List.mem_cons_of_mem _ hs, h⟩
    · rw [List.mem_singleton] at hd
      exact ⟨_, List.mem_cons_self .., by simp only; omega⟩

/-- A block that is one loose slot goes. -/
theorem Geo.drop {a : Nat} {R : List Slot} {L : List Nat} (h : Geo (⟨a, 262112, .loose⟩ :: R) L) :
    Geo R (L.filter (fun c => decide (c ≠ a / 262144 - 1))) := by
  have hin := h.ins _ (List.mem_cons_self ..)
  simp only at hin
  have hoth : ∀ y ∈ R, y.adr / 262144 - 1 ≠ a / 262144 - 1 := by
    intro y hy
    have h1 := h.head y hy
    have h2 := h.ins y (List.mem_cons_of_mem _ hy)
    have h3 := (h.al y (List.mem_cons_of_mem _ hy)).2.2
    unfold Dis at h1
    simp only at h1
    omega
  refine ⟨fun s hs => h.al s (List.mem_cons_of_mem _ hs), fun s hs => h.ins s (List.mem_cons_of_mem _ hs),
    fun s hs => h.usd s (List.mem_cons_of_mem _ hs), (List.pairwise_cons.mp h.dis).2, ?_, ?_,
    fun s hs t ht => h.adj s (List.mem_cons_of_mem _ hs) t (List.mem_cons_of_mem _ ht),
    fun s hs => h.who s (List.mem_cons_of_mem _ hs), ?_, ?_⟩
  · intro s hs
    rcases h.lft s (List.mem_cons_of_mem _ hs) with h' | ⟨t, ht, h'⟩
    · exact .inl h'
    · rcases List.mem_cons.mp ht with rfl | ht
      · have := h.ins s (List.mem_cons_of_mem _ hs)
        simp only at h'
        omega
      · exact .inr ⟨t, ht, h'⟩
  · intro s hs
    rcases h.rgt s (List.mem_cons_of_mem _ hs) with h' | ⟨t, ht, h'⟩
    · exact .inl h'
    · rcases List.mem_cons.mp ht with rfl | ht
      · have := h.ins s (List.mem_cons_of_mem _ hs)
        simp only at h'
        have h2 := hoth s hs
        omega
      · exact .inr ⟨t, ht, h'⟩
  · intro s hs
    rw [List.mem_filter]
    exact ⟨h.blk s (List.mem_cons_of_mem _ hs), by simpa using hoth s hs⟩
  · intro c hc
    rw [List.mem_filter] at hc
    obtain ⟨s, hs, h⟩ := h.fil c hc.1
    rcases List.mem_cons.mp hs with rfl | hs
    · simp only at h
      simp [h] at hc
    · exact ⟨s, hs, h⟩

/-- The addresses of slots are different. -/
theorem Geo.inj {S : List Slot} {L : List Nat} (h : Geo S L) : S.Pairwise (fun s t => s.adr ≠ t.adr) := by
  refine h.dis.imp_of_mem ?_
  intro s t hs ht hd
  have h1 := (h.al s hs).2.2
  have h2 := (h.al t ht).2.2
  unfold Dis at hd
  omega

theorem Geo.inj' {x : Slot} {S : List Slot} {L : List Nat} (h : Geo (x :: S) L) : S.Pairwise (fun s t => s.adr ≠ t.adr) :=
  (List.pairwise_cons.mp h.inj).2

theorem Geo.nodup {S : List Slot} {L : List Nat} (h : Geo S L) : S.Nodup :=
  h.inj.imp (fun hne he => hne (by rw [he]))

theorem Geo.nil_of_no_used {S : List Slot} {L : List Nat} (h : Geo S L) (hu : ∀ s ∈ S, s.kind = .free) : S = [] := by
  cases S with
  | nil => rfl
  | cons s S =>
    exfalso
    have h1 := hu s (List.mem_cons_self ..)
    have h2 := h.who s (List.mem_cons_self ..) h1
    rcases h.lft s (List.mem_cons_self ..) with h3 | ⟨t, ht, h3⟩
    · rcases h.rgt s (List.mem_cons_self ..) with h4 | ⟨t, ht, h4⟩
      · omega
      · exact h.adj s (List.mem_cons_self ..) t ht h1 (hu t ht) h4.symm
    · exact h.adj t ht s (List.mem_cons_self ..) (hu t ht) h1 h3

end Verif.Slabs
