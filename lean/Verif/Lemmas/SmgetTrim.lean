import Verif.Lemmas.SmgetKeys
/-!
# Sort-merge get: sorted lists and the trimmed keys
-/
namespace Verif.Smget
open Verif.BT Verif.BT.Spec

/-- Strictly sorted lists with the same members are equal. -/
theorem sorted_ext {asc : Bool} {A : List Got} : ∀ {B : List Got}, A.Pairwise (Lt asc) → B.Pairwise (Lt asc) → (∀ x, x ∈ A ↔ x ∈ B) → A = B := by
  induction A with
  | nil =>
    intro B _ _ h
    cases B with
    | nil => rfl
    | cons y B => exact absurd ((h y).mpr List.mem_cons_self) (by simp)
  | cons x A ih =>
    intro B hA hB h
    cases B with
    | nil => exact absurd ((h x).mp List.mem_cons_self) (by simp)
    | cons y B =>
      rw [List.pairwise_cons] at hA hB
      have hxy : x = y := by
        rcases List.mem_cons.mp ((h x).mp List.mem_cons_self) with g | g
        · exact g
        · rcases List.mem_cons.mp ((h y).mpr List.mem_cons_self) with g' | g'
          · exact g'.symm
          · exact absurd (hA.1 y g') fun h' => lt_asymm h' (hB.1 x g)
      subst hxy
      rw [ih hA.2 hB.2 fun z => ?_]
      constructor
      · intro hz
        rcases List.mem_cons.mp ((h z).mp (List.mem_cons_of_mem _ hz)) with rfl | g
        · exact absurd (hA.1 z hz) lt_irrefl
        · exact g
      · intro hz
        rcases List.mem_cons.mp ((h z).mpr (List.mem_cons_of_mem _ hz)) with rfl | g
        · exact absurd (hB.1 z hz) lt_irrefl
        · exact g

/-- Elements that can be told apart can be sorted. -/
theorem exists_sorted {asc : Bool} (A : List Got) (ht : ∀ x ∈ A, ∀ y ∈ A, Lt asc x y ∨ x = y ∨ Lt asc y x) :
    ∃ L : List Got, L.Pairwise (Lt asc) ∧ ∀ x, x ∈ L ↔ x ∈ A := by
  classical
  induction A with
  | nil => exact ⟨[], List.Pairwise.nil, fun _ => Iff.rfl⟩
  | cons a A ih =>
    obtain ⟨L, h1, h2⟩ := ih fun x hx y hy => ht x (List.mem_cons_of_mem _ hx) y (List.mem_cons_of_mem _ hy)
    by_cases ha : a ∈ A
    · refine ⟨L, h1, fun x => ?_⟩
      rw [h2, List.mem_cons]
      exact ⟨.inr, fun h => h.elim (fun h => h ▸ ha) id⟩
    · have htot : ∀ y ∈ L, Lt asc y a ∨ Lt asc a y := by
        intro y hy
        have hy := (h2 y).mp hy
        rcases ht y (List.mem_cons_of_mem _ hy) a List.mem_cons_self with g | g | g
        · exact .inl g
        · exact absurd hy (g ▸ ha)
        · exact .inr g
      refine ⟨L.filter (fun y => decide (Lt asc y a)) ++ a :: L.filter (fun y => decide (¬ Lt asc y a)), ?_, ?_⟩
      · rw [List.pairwise_append, List.pairwise_cons]
        have h3 : ∀ y ∈ L.filter (fun y => decide (¬ Lt asc y a)), Lt asc a y := by
          intro y hy
          rw [List.mem_filter, decide_eq_true_eq] at hy
          exact (htot y hy.1).resolve_left hy.2
        refine ⟨h1.sublist List.filter_sublist, ⟨h3, h1.sublist List.filter_sublist⟩, ?_⟩
        intro x hx y hy
        rw [List.mem_filter, decide_eq_true_eq] at hx
        rcases List.mem_cons.mp hy with rfl | hy
        · exact hx.2
        · exact lt_trans hx.2 (h3 y hy)
      · intro x
        rw [List.mem_append, List.mem_cons, List.mem_cons, List.mem_filter, List.mem_filter, decide_eq_true_eq, decide_eq_true_eq, h2]
        constructor
        · rintro (h | h | h)
          · exact .inr h.1
          · exact .inl h
          · exact .inr h.1
        · rintro (h | h)
          · exact .inr (.inl h)
          · by_cases g : Lt asc x a
            · exact .inl ⟨h, g⟩
            · exact .inr (.inr ⟨h, g⟩)

theorem sorted_nodup {asc : Bool} {L : List Got} (h : L.Pairwise (Lt asc)) : L.Nodup := by
  refine List.Pairwise.imp ?_ h
  intro x y hxy he
  exact lt_irrefl (he ▸ hxy)

/-- A sorted list begins with what a downward closed property selects. -/
theorem down_split {asc : Bool} {L : List Got} (h : L.Pairwise (Lt asc)) (Q : Got → Bool) (hQ : ∀ x y, Lt asc x y → Q y = true → Q x = true) :
    L = L.filter Q ++ L.filter fun x => !Q x := by
  induction L with
  | nil => rfl
  | cons x L ih =>
    rw [List.pairwise_cons] at h
    cases hx : Q x with
    | true =>
      rw [List.filter_cons_of_pos hx, List.filter_cons_of_neg (by simp [hx]), List.cons_append, ← ih h.2]
    | false =>
      have hn : L.filter Q = [] := by
        rw [List.filter_eq_nil_iff]
        intro y hy hq
        rw [hQ x y (h.1 y hy) hq] at hx; cases hx
      have ha : L.filter (fun x => !Q x) = L := by
        rw [List.filter_eq_self]
        intro y hy
        rw [List.filter_eq_nil_iff] at hn
        have := hn y hy
        simpa using this
      rw [List.filter_cons_of_neg (by simp [hx]), List.filter_cons_of_pos (by simp [hx]), hn, ha]; rfl

/-- In each group of one bkey there is a first element. -/
theorem exists_least {asc : Bool} {P : List Got} (h : P.Pairwise (Lt asc)) {y : Got} (hy : y ∈ P) :
    ∃ y0 ∈ P, y0.elem.bkey = y.elem.bkey ∧ (y0 = y ∨ Lt asc y0 y) ∧ ∀ z ∈ P, z.elem.bkey = y.elem.bkey → ¬ Lt asc z y0 := by
  induction P with
  | nil => cases hy
  | cons x P ih =>
    rw [List.pairwise_cons] at h
    by_cases hx : x.elem.bkey = y.elem.bkey
    · refine ⟨x, List.mem_cons_self, hx, ?_, ?_⟩
      · rcases List.mem_cons.mp hy with rfl | hy
        · exact .inl rfl
        · exact .inr (h.1 y hy)
      · intro z hz _ hlt
        rcases List.mem_cons.mp hz with rfl | hz
        · exact lt_irrefl hlt
        · exact lt_asymm hlt (h.1 z hz)
    · rcases List.mem_cons.mp hy with rfl | hy
      · exact absurd rfl hx
      · obtain ⟨y0, g1, g2, g3, g4⟩ := ih h.2 hy
        refine ⟨y0, List.mem_cons_of_mem _ g1, g2, g3, ?_⟩
        intro z hz hzb
        rcases List.mem_cons.mp hz with rfl | hz
        · exact absurd hzb hx
        · exact g4 z hz hzb

/-- What unique mode keeps. -/
theorem mem_dd {asc unique : Bool} (L : List Got) : ∀ (prev : Option BKey), L.Pairwise (Lt asc) →
    (∀ p, prev = some p → ∀ y ∈ L, ¬ Before asc y.elem.bkey p) → ∀ x,
    (x ∈ dd unique prev L ↔ x ∈ L ∧ (unique = true → prev ≠ some x.elem.bkey ∧ ∀ y ∈ L, y.elem.bkey = x.elem.bkey → y = x ∨ Lt asc x y)) := by
  induction L with
  | nil => intro prev _ _ x; simp [dd]
  | cons z L ih =>
    intro prev h hp x
    have h0 := h
    rw [List.pairwise_cons] at h
    have hz : ∀ p, some z.elem.bkey = some p → ∀ y ∈ L, ¬ Before asc y.elem.bkey p := by
      intro p hp' y hy hb
      cases hp'
      rcases h.1 y hy with g | ⟨g, -⟩
      · exact before_asymm g hb
      · rw [g] at hb; exact before_irrefl hb
    have ih := ih (some z.elem.bkey) h.2 hz
    rw [dd]
    split
    · next hc =>
      rw [ih x]
      constructor
      · rintro ⟨g1, g2⟩
        refine ⟨List.mem_cons_of_mem _ g1, fun hu => ?_⟩
        obtain ⟨g3, g4⟩ := g2 hu
        refine ⟨by rw [hc.2]; exact g3, ?_⟩
        intro y hy hb
        rcases List.mem_cons.mp hy with rfl | hy
        · exact absurd (congrArg some hb) g3
        · exact g4 y hy hb
      · rintro ⟨g1, g2⟩
        obtain ⟨g3, g4⟩ := g2 hc.1
        rw [hc.2] at g3
        rcases List.mem_cons.mp g1 with rfl | g1
        · exact absurd rfl g3
        · exact ⟨g1, fun _ => ⟨g3, fun y hy => g4 y (List.mem_cons_of_mem _ hy)⟩⟩
    · next hc =>
      rw [List.mem_cons, ih x]
      constructor
      · rintro (rfl | ⟨g1, g2⟩)
        · refine ⟨List.mem_cons_self, fun hu => ⟨fun he => hc ⟨hu, he⟩, ?_⟩⟩
          intro y hy _
          rcases List.mem_cons.mp hy with rfl | hy
          · exact .inl rfl
          · exact .inr (h.1 y hy)
        · refine ⟨List.mem_cons_of_mem _ g1, fun hu => ?_⟩
          obtain ⟨g3, g4⟩ := g2 hu
          refine ⟨?_, ?_⟩
          · intro he
            have hb := hp _ he z List.mem_cons_self
            rcases h.1 x g1 with g | ⟨g, -⟩
            · exact hb g
            · exact g3 (congrArg some g)
          · intro y hy hb
            rcases List.mem_cons.mp hy with rfl | hy
            · exact absurd (congrArg some hb) g3
            · exact g4 y hy hb
      · rintro ⟨g1, g2⟩
        rcases List.mem_cons.mp g1 with rfl | g1
        · exact .inl rfl
        · refine .inr ⟨g1, fun hu => ?_⟩
          obtain ⟨g3, g4⟩ := g2 hu
          refine ⟨?_, fun y hy => g4 y (List.mem_cons_of_mem _ hy)⟩
          intro he
          have hb : z.elem.bkey = x.elem.bkey := Option.some.inj he
          rcases g4 z List.mem_cons_self hb with g | g
          · rw [g] at h; exact lt_irrefl (h.1 x g1)
          · exact lt_asymm g (h.1 x g1)

theorem dd_sublist {unique : Bool} (L : List Got) : ∀ (prev : Option BKey), (dd unique prev L).Sublist L := by
  induction L with
  | nil => intro prev; exact List.Sublist.refl _
  | cons z L ih =>
    intro prev
    rw [dd]
    split
    · exact (ih _).cons _
    · exact (ih _).cons_cons _

/-- What the adjustment keeps. -/
def Valid (asc : Bool) (tail : Option BKey) (b : BKey) : Prop := ∀ t, tail = some t → Before asc b t

theorem trimValid_spec {asc : Bool} {k0 : BKey} {tail : Option BKey} (ht : ∀ t, tail = some t → Kin k0 t) {b : BKey} (hb : Kin k0 b) :
    (trimValid asc tail b = some true ∧ Valid asc tail b) ∨ (trimValid asc tail b = some false ∧ ¬ Valid asc tail b) := by
  cases tail with
  | none => exact .inl ⟨rfl, fun t h => by cases h⟩
  | some t =>
    have hmap : trimValid asc (some t) b = ((bkeyComp b t).map (dir asc)).map (· == .lt) := by
      rw [trimValid, Option.map_map]; rfl
    rw [hmap]
    rcases comp_dir (asc := asc) hb (ht t rfl) with ⟨h, k⟩ | ⟨h, k⟩ | ⟨h, k⟩ <;> rw [h]
    · exact .inl ⟨rfl, fun t' h => by cases h; exact k⟩
    · exact .inr ⟨rfl, fun h => before_irrefl (k ▸ h t rfl)⟩
    · exact .inr ⟨rfl, fun h => before_asymm k (h t rfl)⟩

/-- Not falling in the direction of the range. -/
def TSorted (asc : Bool) (l : List (Nat × BKey)) : Prop := l.Pairwise fun x y => ¬ Before asc y.2 x.2

theorem tsorted_get {asc : Bool} {l : List (Nat × BKey)} (h : TSorted asc l) {i j : Nat} (hij : i < j) {x y : Nat × BKey}
    (hx : l[i]? = some x) (hy : l[j]? = some y) : ¬ Before asc y.2 x.2 := by
  obtain ⟨hi, rfl⟩ := List.getElem?_eq_some_iff.mp hx
  obtain ⟨hj, rfl⟩ := List.getElem?_eq_some_iff.mp hy
  exact List.pairwise_iff_getElem.mp h i j hi hj hij

theorem trimPos_spec {asc : Bool} {k0 : BKey} {l : List (Nat × BKey)} (hk : ∀ x ∈ l, Kin k0 x.2) (hs : TSorted asc l) {b : BKey} (hb : Kin k0 b) :
    ∃ j, trimPos asc l b = some j ∧ j ≤ l.length ∧ (∀ (i : Nat) (x : Nat × BKey), l[i]? = some x → i < j → ¬ Before asc b x.2) ∧
      (∀ (i : Nat) (x : Nat × BKey), l[i]? = some x → j ≤ i → ¬ Before asc x.2 b) := by
  have hcmp : ∀ (j : Nat) (x : Nat × BKey), l[j]? = some x →
      (match l[j]? with | none => none | some c => (bkeyComp b c.2).map (dir asc)) = (bkeyComp b x.2).map (dir asc) := by
    intro j x h; rw [h]
  have htri : ∀ (j : Nat) (x : Nat × BKey), l[j]? = some x →
      ((bkeyComp b x.2).map (dir asc) = some .lt ∧ Before asc b x.2) ∨ ((bkeyComp b x.2).map (dir asc) = some .eq ∧ b = x.2) ∨
      ((bkeyComp b x.2).map (dir asc) = some .gt ∧ Before asc x.2 b) := by
    intro j x h
    exact comp_dir (asc := asc) hb (hk x (List.mem_of_getElem? h))
  have hex : ∀ j, j < l.length → ∃ x, l[j]? = some x := fun j hj => ⟨_, List.getElem?_eq_getElem hj⟩
  -- keys of one kind that are not before each other are equal
  have htot : ∀ x ∈ l, ∀ y ∈ l, ¬ Before asc x.2 y.2 → y.2 = x.2 ∨ Before asc y.2 x.2 := by
    intro x hx y hy hn
    rcases comp_dir (asc := asc) (hk x hx) (hk y hy) with ⟨-, g⟩ | ⟨-, g⟩ | ⟨-, g⟩
    · exact absurd g hn
    · exact .inl g.symm
    · exact .inr g
  rcases bsearch_spec (fun j => match l[j]? with | none => none | some c => (bkeyComp b c.2).map (dir asc))
      (l.length + 1) 0 l.length (by omega) (by omega) (by
        intro j _ hj
        obtain ⟨x, hx⟩ := hex j hj
        rw [hcmp j x hx]
        rcases htri j x hx with ⟨h, -⟩ | ⟨h, -⟩ | ⟨h, -⟩ <;> rw [h] <;> simp) (by
        intro j k _ hjk hk' h
        obtain ⟨x, hx⟩ := hex j (by omega)
        obtain ⟨y, hy⟩ := hex k hk'
        rw [hcmp j x hx] at h
        rw [hcmp k y hy]
        have hbx : Before asc b x.2 := by
          rcases htri j x hx with ⟨-, g⟩ | ⟨g, -⟩ | ⟨g, -⟩
          · exact g
          · rw [h] at g; cases g
          · rw [h] at g; cases g
        have hby : Before asc b y.2 := by
          rcases htot y (List.mem_of_getElem? hy) x (List.mem_of_getElem? hx) (tsorted_get hs hjk hx hy) with g | g
          · rw [← g]; exact hbx
          · exact before_trans hbx g
        rcases htri k y hy with ⟨g, -⟩ | ⟨-, g⟩ | ⟨-, g⟩
        · exact g
        · rw [← g] at hby; exact absurd hby before_irrefl
        · exact absurd g fun g => before_asymm g hby) (by
        intro j k _ hjk hk' h
        obtain ⟨x, hx⟩ := hex j (by omega)
        obtain ⟨y, hy⟩ := hex k hk'
        rw [hcmp k y hy] at h
        rw [hcmp j x hx]
        have hyb : Before asc y.2 b := by
          rcases htri k y hy with ⟨g, -⟩ | ⟨g, -⟩ | ⟨-, g⟩
          · rw [h] at g; cases g
          · rw [h] at g; cases g
          · exact g
        have hxb : Before asc x.2 b := by
          rcases htot y (List.mem_of_getElem? hy) x (List.mem_of_getElem? hx) (tsorted_get hs hjk hx hy) with g | g
          · rw [g]; exact hyb
          · exact before_trans g hyb
        rcases htri j x hx with ⟨-, g⟩ | ⟨-, g⟩ | ⟨g, -⟩
        · exact absurd g fun g => before_asymm g hxb
        · rw [← g] at hxb; exact absurd hxb before_irrefl
        · exact g) with ⟨i, h1, -, h2, h3⟩ | ⟨j, h1, -, h2, h3, h4⟩
  · obtain ⟨y, hy⟩ := hex i h2
    rw [hcmp i y hy] at h3
    have hby : b = y.2 := by
      rcases htri i y hy with ⟨g, -⟩ | ⟨-, g⟩ | ⟨g, -⟩
      · rw [h3] at g; cases g
      · exact g
      · rw [h3] at g; cases g
    refine ⟨i + 1, by
      rw [trimPos]
      generalize hb' : bsearch _ _ _ _ = B
      have hB : B = some (.found i) := hb'.symm.trans h1
      subst hB; rfl, by omega, ?_, ?_⟩
    · intro k x hx hk' hbef
      rcases Nat.lt_succ_iff_lt_or_eq.mp hk' with g | rfl
      · exact tsorted_get hs g hx hy (hby ▸ hbef)
      · rw [hx] at hy; cases hy
        rw [← hby] at hbef; exact before_irrefl hbef
    · intro k x hx hk' hbef
      exact tsorted_get hs (show i < k by omega) hy hx (hby ▸ hbef)
  · refine ⟨j, by
      rw [trimPos]
      generalize hb' : bsearch _ _ _ _ = B
      have hB : B = some (.missing j) := hb'.symm.trans h1
      subst hB; rfl, by omega, ?_, ?_⟩
    · intro k x hx hk' hbef
      have := h3 k (Nat.zero_le _) hk'
      rw [hcmp k x hx] at this
      rcases htri k x hx with ⟨g, -⟩ | ⟨g, -⟩ | ⟨-, g⟩
      · rw [this] at g; cases g
      · rw [this] at g; cases g
      · exact before_asymm g hbef
    · intro k x hx hk' hbef
      have := h4 k hk' (List.getElem?_eq_some_iff.mp hx).1
      rw [hcmp k x hx] at this
      rcases htri k x hx with ⟨-, g⟩ | ⟨g, -⟩ | ⟨g, -⟩
      · exact before_asymm g hbef
      · rw [this] at g; cases g
      · rw [this] at g; cases g

open Classical in
/-- The adjustment keeps the valid keys and sorts them. -/
theorem adjustTrim_spec {asc : Bool} {k0 : BKey} {tail : Option BKey} (ht : ∀ t, tail = some t → Kin k0 t) (l : List (Nat × BKey)) :
    ∀ (acc : List (Nat × BKey)), (∀ x ∈ l, Kin k0 x.2) → (∀ x ∈ acc, Kin k0 x.2) → TSorted asc acc →
      ∃ out, adjustTrim asc tail acc l = some out ∧ TSorted asc out ∧ out.Perm (acc ++ l.filter fun x => decide (Valid asc tail x.2)) := by
  induction l with
  | nil => intro acc _ _ h; exact ⟨acc, rfl, h, by simp⟩
  | cons x l ih =>
    intro acc hl ha hs
    have hx := hl x List.mem_cons_self
    have hl' : ∀ y ∈ l, Kin k0 y.2 := fun y hy => hl y (List.mem_cons_of_mem _ hy)
    rw [adjustTrim]
    rcases trimValid_spec (asc := asc) ht hx with ⟨h1, h2⟩ | ⟨h1, h2⟩
    · rw [h1]
      obtain ⟨j, g1, g2, g3, g4⟩ := trimPos_spec ha hs hx
      simp only [g1]
      have hperm := List.perm_insertIdx x acc g2
      obtain ⟨out, k1, k2, k3⟩ := ih (acc.insertIdx j x) hl' (by
          intro y hy
          rcases List.mem_cons.mp (hperm.mem_iff.mp hy) with rfl | hy
          · exact hx
          · exact ha y hy) (pairwise_insert g2 hs (fun i y hy hi => g3 i y hy hi) (fun i y hy hi => g4 i y hy hi))
      refine ⟨out, k1, k2, k3.trans ?_⟩
      rw [List.filter_cons_of_pos (by simpa using h2)]
      exact (hperm.append_right _).trans List.perm_middle.symm
    · rw [h1]
      obtain ⟨out, k1, k2, k3⟩ := ih acc hl' ha hs
      refine ⟨out, k1, k2, ?_⟩
      rw [List.filter_cons_of_neg (by simpa using h2)]
      exact k3

end Verif.Smget
