import Verif.Lemmas.SmgetBegin
/-!
# Sort-merge get: sorted scans with what they still deliver
-/
namespace Verif.Smget
open Verif.BT Verif.BT.Spec

theorem insertIdx_split {α : Type} {l : Nat} {xs : List α} (h : l ≤ xs.length) (x : α) : xs.insertIdx l x = xs.take l ++ x :: xs.drop l := by
  induction xs generalizing l with
  | nil => simp at h; subst h; rfl
  | cons y ys ih =>
    cases l with
    | zero => rfl
    | succ l => simp only [List.length_cons] at h; simp [List.insertIdx_succ_cons, ih (Nat.le_of_succ_le_succ h)]

theorem insertIdx_map {α β : Type} {l : Nat} {xs : List α} (h : l ≤ xs.length) (x : α) (f : α → β) :
    (xs.map f).insertIdx l (f x) = (xs.insertIdx l x).map f := by
  rw [insertIdx_split h, insertIdx_split (by simpa using h)]
  simp

theorem pairwise_insert {α : Type} {R : α → α → Prop} {l : Nat} {xs : List α} (h : l ≤ xs.length) {x : α} (hp : xs.Pairwise R)
    (h1 : ∀ (j : Nat) (y : α), xs[j]? = some y → j < l → R y x) (h2 : ∀ (j : Nat) (y : α), xs[j]? = some y → l ≤ j → R x y) :
    (xs.insertIdx l x).Pairwise R := by
  rw [insertIdx_split h]
  rw [← List.take_append_drop l xs, List.pairwise_append] at hp
  rw [List.pairwise_append]
  have ha : ∀ y ∈ xs.take l, R y x := by
    intro y hy
    obtain ⟨j, hj⟩ := List.getElem?_of_mem hy
    rw [List.getElem?_take] at hj
    split at hj
    · exact h1 j y hj (by assumption)
    · cases hj
  refine ⟨hp.1, List.pairwise_cons.mpr ⟨?_, hp.2.1⟩, ?_⟩
  · intro y hy
    obtain ⟨j, hj⟩ := List.getElem?_of_mem hy
    rw [List.getElem?_drop] at hj
    exact h2 _ y hj (by omega)
  · intro y hy z hz
    rcases List.mem_cons.mp hz with rfl | hz
    · exact ha y hy
    · exact hp.2.2 y hy z hz

/-- A scan with the elements it still delivers behind its own and where it runs into trimmed space. -/
structure Ent where
  s : Scan
  l : List Elem
  t : Option BKey

/-- Everything the scan delivers. -/
def Ent.hits (E : Ent) : List Got := (E.s.elem :: E.l).map fun e => ⟨E.s.kidx, E.s.key, E.s.info.flags, e⟩

theorem Ent.hits_eq (E : Ent) : E.hits = E.s.got :: E.l.map fun e => ⟨E.s.kidx, E.s.key, E.s.info.flags, e⟩ := rfl

theorem Ent.head_mem (E : Ent) : E.s.got ∈ E.hits := List.mem_cons_self

theorem Ent.mem_hits {E : Ent} {x : Got} : x ∈ E.hits ↔
    x.kidx = E.s.kidx ∧ x.key = E.s.key ∧ x.flags = E.s.info.flags ∧ x.elem ∈ E.s.elem :: E.l := by
  unfold Ent.hits
  rw [List.mem_map]
  constructor
  · rintro ⟨e, he, rfl⟩; exact ⟨rfl, rfl, rfl, he⟩
  · rintro ⟨h1, h2, h3, h4⟩
    obtain ⟨a, b, c, d⟩ := x
    simp only at h1 h2 h3 h4
    subst h1 h2 h3
    exact ⟨d, h4, rfl⟩

/-- Facts about a scan and its future. -/
structure EOk (a : Ask) (k0 : BKey) (E : Ent) : Prop where
  str : Str a E.s E.l E.t
  inc : (E.s.elem :: E.l).Pairwise fun x y => Before a.asc x.bkey y.bkey
  fine : ∀ x ∈ E.hits, Fine k0 x
  last : ∀ b, E.t = some b → Kin k0 b ∧ ∀ x ∈ E.s.elem :: E.l, ¬ Before a.asc b x.bkey

theorem EOk.head {a : Ask} {k0 : BKey} {E : Ent} (h : EOk a k0 E) : Fine k0 E.s.got := h.fine _ E.head_mem

/-- A scan moves: it ends, or stands on its next element. -/
theorem EOk.next {a : Ask} {k0 : BKey} {E : Ent} (h : EOk a k0 E) :
    (∃ t b, move a E.s = some (.out t b) ∧ E.l = [] ∧ E.t = if t = true then some b else none) ∨
    (∃ s' l', move a E.s = some (.at s') ∧ E.l = s'.elem :: l' ∧ s'.kidx = E.s.kidx ∧ s'.key = E.s.key ∧
      EOk a k0 ⟨s', l', E.t⟩ ∧ E.hits = E.s.got :: (Ent.mk s' l' E.t).hits ∧ Lt a.asc E.s.got s'.got) := by
  obtain ⟨s, l, t⟩ := E
  cases h.str with
  | @done _ t b hm => exact .inl ⟨t, b, hm, rfl, rfl⟩
  | @step _ s' l' _ hm h1 h2 h3 h4 h5 =>
    refine .inr ⟨s', l', hm, rfl, h1, h2, ?_, ?_, .inl h4⟩
    · refine ⟨h5, (List.pairwise_cons.mp h.inc).2, ?_, ?_⟩
      · intro x hx
        refine h.fine x ?_
        obtain ⟨g1, g2, g3, g4⟩ := Ent.mem_hits.mp hx
        exact Ent.mem_hits.mpr ⟨g1.trans h1, g2.trans h2, by rw [g3]; simp only [h3], List.mem_cons_of_mem _ g4⟩
      · intro b hb
        exact ⟨(h.last b hb).1, fun x hx => (h.last b hb).2 x (List.mem_cons_of_mem _ hx)⟩
    · rw [Ent.hits_eq]
      simp only [Ent.hits, h1, h2, h3]

theorem EOk.le {a : Ask} {k0 : BKey} {E : Ent} (h : EOk a k0 E) {x : Got} (hx : x ∈ E.hits) : x = E.s.got ∨ Lt a.asc E.s.got x := by
  obtain ⟨g1, g2, g3, g4⟩ := Ent.mem_hits.mp hx
  rcases List.mem_cons.mp g4 with h4 | h4
  · left
    obtain ⟨a, b, c, d⟩ := x
    simp only at g1 g2 g3 h4
    subst g1 g2 g3 h4; rfl
  · right
    exact .inl ((List.pairwise_cons.mp h.inc).1 _ h4)

/-- Everything a list of scans delivers. -/
def bag (Es : List Ent) : List Got := Es.flatMap Ent.hits

theorem mem_bag {Es : List Ent} {x : Got} : x ∈ bag Es ↔ ∃ E ∈ Es, x ∈ E.hits := by simp [bag]

theorem bag_perm {A B : List Ent} (h : A.Perm B) : ∀ x, x ∈ bag A ↔ x ∈ bag B := by
  intro x
  simp only [mem_bag]
  exact ⟨fun ⟨E, h1, h2⟩ => ⟨E, h.mem_iff.mp h1, h2⟩, fun ⟨E, h1, h2⟩ => ⟨E, h.mem_iff.mpr h1, h2⟩⟩

/-- The scans are sorted; in unique mode by bkey alone. -/
def Ordered (asc unique : Bool) (Es : List Ent) : Prop :=
  Es.Pairwise fun x y => Lt asc x.s.got y.s.got ∧ (unique = true → Before asc x.s.elem.bkey y.s.elem.bkey)

theorem Ordered.plain {asc unique : Bool} {Es : List Ent} (h : Ordered asc unique Es) : Ordered asc false Es :=
  h.imp fun h => ⟨h.1, by intro h; cases h⟩

theorem ordered_get {asc unique : Bool} {Es : List Ent} (h : Ordered asc unique Es) {i j : Nat} (hij : i < j) {x y : Ent}
    (hx : Es[i]? = some x) (hy : Es[j]? = some y) :
    Lt asc x.s.got y.s.got ∧ (unique = true → Before asc x.s.elem.bkey y.s.elem.bkey) := by
  obtain ⟨hi, rfl⟩ := List.getElem?_eq_some_iff.mp hx
  obtain ⟨hj, rfl⟩ := List.getElem?_eq_some_iff.mp hy
  exact List.pairwise_iff_getElem.mp h i j hi hj hij

/-- The search by bkey and key. -/
theorem search_full {a : Ask} {k0 : BKey} {Es : List Ent} (hok : ∀ E ∈ Es, EOk a k0 E) (ho : Ordered a.asc false Es) {s : Scan}
    (hs : Fine k0 s.got) (hk : ∀ E ∈ Es, E.s.key ≠ s.key) :
    ∃ l, bsearch (fun j => match (Es.map Ent.s)[j]? with | none => none | some c => scanComp a.asc s c)
        ((Es.map Ent.s).length + 1) 0 (Es.map Ent.s).length = some (.missing l) ∧ l ≤ Es.length ∧
      (∀ (j : Nat) (E : Ent), Es[j]? = some E → j < l → Lt a.asc E.s.got s.got) ∧
      (∀ (j : Nat) (E : Ent), Es[j]? = some E → l ≤ j → Lt a.asc s.got E.s.got) := by
  have hcmp : ∀ (j : Nat) (E : Ent), Es[j]? = some E →
      (match (Es.map Ent.s)[j]? with | none => none | some c => scanComp a.asc s c) = scanComp a.asc s E.s := by
    intro j E h; rw [List.getElem?_map, h]; rfl
  have htri : ∀ (j : Nat) (E : Ent), Es[j]? = some E →
      (scanComp a.asc s E.s = some .lt ∧ Lt a.asc s.got E.s.got) ∨ (scanComp a.asc s E.s = some .gt ∧ Lt a.asc E.s.got s.got) := by
    intro j E h
    have hm := List.mem_of_getElem? h
    rcases scanComp_spec (asc := a.asc) hs (hok E hm).head with g | g | g
    · exact .inl g
    · exact absurd g.2.2.symm (hk E hm)
    · exact .inr g
  have hex : ∀ j, j < (Es.map Ent.s).length → ∃ E, Es[j]? = some E := fun j hj => ⟨_, List.getElem?_eq_getElem (by simpa using hj)⟩
  rcases bsearch_spec (fun j => match (Es.map Ent.s)[j]? with | none => none | some c => scanComp a.asc s c)
      ((Es.map Ent.s).length + 1) 0 (Es.map Ent.s).length (by omega) (by omega) (by
        intro j _ hj
        obtain ⟨E, hE⟩ := hex j hj
        rw [hcmp j E hE]
        rcases htri j E hE with ⟨h, -⟩ | ⟨h, -⟩ <;> rw [h] <;> simp) (by
        intro j k _ hjk hk' h
        obtain ⟨E, hE⟩ := hex j (by omega)
        obtain ⟨F, hF⟩ := hex k hk'
        rw [hcmp j E hE] at h
        rw [hcmp k F hF]
        rcases htri k F hF with ⟨g, -⟩ | ⟨-, g⟩
        · exact g
        · rcases htri j E hE with ⟨-, g'⟩ | ⟨g', -⟩
          · exact absurd (lt_trans g' (ordered_get ho hjk hE hF).1) fun h' => lt_asymm h' g
          · rw [h] at g'; cases g') (by
        intro j k _ hjk hk' h
        obtain ⟨E, hE⟩ := hex j (by omega)
        obtain ⟨F, hF⟩ := hex k hk'
        rw [hcmp k F hF] at h
        rw [hcmp j E hE]
        rcases htri j E hE with ⟨-, g⟩ | ⟨g, -⟩
        · rcases htri k F hF with ⟨g', -⟩ | ⟨-, g'⟩
          · rw [h] at g'; cases g'
          · exact absurd (lt_trans g (ordered_get ho hjk hE hF).1) fun h' => lt_asymm h' g'
        · exact g) with ⟨i, h1, -, h2, h3⟩ | ⟨l, h1, -, h2, h3, h4⟩
  · obtain ⟨E, hE⟩ := hex i h2
    rw [hcmp i E hE] at h3
    rcases htri i E hE with ⟨g, -⟩ | ⟨g, -⟩ <;> rw [h3] at g <;> cases g
  · refine ⟨l, h1, by simpa using h2, ?_, ?_⟩
    · intro j E hE hj
      have := h3 j (Nat.zero_le _) hj
      rw [hcmp j E hE] at this
      rcases htri j E hE with ⟨g, -⟩ | ⟨-, g⟩
      · rw [this] at g; cases g
      · exact g
    · intro j E hE hj
      have := h4 j hj (by simpa using (List.getElem?_eq_some_iff.mp hE).1)
      rw [hcmp j E hE] at this
      rcases htri j E hE with ⟨-, g⟩ | ⟨g, -⟩
      · exact g
      · rw [this] at g; cases g

/-- The search by bkey alone. -/
theorem search_bkey {a : Ask} {k0 : BKey} {Es : List Ent} (hok : ∀ E ∈ Es, EOk a k0 E) (ho : Ordered a.asc true Es) {s : Scan}
    (hs : Fine k0 s.got) :
    (∃ j E, bsearch (fun j => match (Es.map Ent.s)[j]? with | none => none | some c => bkeyDir a.asc s c)
        ((Es.map Ent.s).length + 1) 0 (Es.map Ent.s).length = some (.found j) ∧ Es[j]? = some E ∧ s.elem.bkey = E.s.elem.bkey) ∨
    ∃ l, bsearch (fun j => match (Es.map Ent.s)[j]? with | none => none | some c => bkeyDir a.asc s c)
        ((Es.map Ent.s).length + 1) 0 (Es.map Ent.s).length = some (.missing l) ∧ l ≤ Es.length ∧
      (∀ (j : Nat) (E : Ent), Es[j]? = some E → j < l → Before a.asc E.s.elem.bkey s.elem.bkey) ∧
      (∀ (j : Nat) (E : Ent), Es[j]? = some E → l ≤ j → Before a.asc s.elem.bkey E.s.elem.bkey) := by
  have hcmp : ∀ (j : Nat) (E : Ent), Es[j]? = some E →
      (match (Es.map Ent.s)[j]? with | none => none | some c => bkeyDir a.asc s c) = bkeyDir a.asc s E.s := by
    intro j E h; rw [List.getElem?_map, h]; rfl
  have htri : ∀ (j : Nat) (E : Ent), Es[j]? = some E →
      (bkeyDir a.asc s E.s = some .lt ∧ Before a.asc s.elem.bkey E.s.elem.bkey) ∨ (bkeyDir a.asc s E.s = some .eq ∧ s.elem.bkey = E.s.elem.bkey) ∨
      (bkeyDir a.asc s E.s = some .gt ∧ Before a.asc E.s.elem.bkey s.elem.bkey) := by
    intro j E h
    exact comp_dir (asc := a.asc) hs.1 (hok E (List.mem_of_getElem? h)).head.1
  have hex : ∀ j, j < (Es.map Ent.s).length → ∃ E, Es[j]? = some E := fun j hj => ⟨_, List.getElem?_eq_getElem (by simpa using hj)⟩
  rcases bsearch_spec (fun j => match (Es.map Ent.s)[j]? with | none => none | some c => bkeyDir a.asc s c)
      ((Es.map Ent.s).length + 1) 0 (Es.map Ent.s).length (by omega) (by omega) (by
        intro j _ hj
        obtain ⟨E, hE⟩ := hex j hj
        rw [hcmp j E hE]
        rcases htri j E hE with ⟨h, -⟩ | ⟨h, -⟩ | ⟨h, -⟩ <;> rw [h] <;> simp) (by
        intro j k _ hjk hk' h
        obtain ⟨E, hE⟩ := hex j (by omega)
        obtain ⟨F, hF⟩ := hex k hk'
        rw [hcmp j E hE] at h
        rw [hcmp k F hF]
        have hb := (ordered_get ho hjk hE hF).2 rfl
        have hj : Before a.asc s.elem.bkey E.s.elem.bkey := by
          rcases htri j E hE with ⟨-, g⟩ | ⟨g, -⟩ | ⟨g, -⟩
          · exact g
          · rw [h] at g; cases g
          · rw [h] at g; cases g
        rcases htri k F hF with ⟨g, -⟩ | ⟨-, g⟩ | ⟨-, g⟩
        · exact g
        · rw [g] at hj; exact absurd hb fun h' => before_asymm h' hj
        · exact absurd (before_trans hj hb) fun h' => before_asymm h' g) (by
        intro j k _ hjk hk' h
        obtain ⟨E, hE⟩ := hex j (by omega)
        obtain ⟨F, hF⟩ := hex k hk'
        rw [hcmp k F hF] at h
        rw [hcmp j E hE]
        have hb := (ordered_get ho hjk hE hF).2 rfl
        have hk2 : Before a.asc F.s.elem.bkey s.elem.bkey := by
          rcases htri k F hF with ⟨g, -⟩ | ⟨g, -⟩ | ⟨-, g⟩
          · rw [h] at g; cases g
          · rw [h] at g; cases g
          · exact g
        rcases htri j E hE with ⟨-, g⟩ | ⟨-, g⟩ | ⟨g, -⟩
        · exact absurd (before_trans g hb) fun h' => before_asymm h' hk2
        · rw [g] at hk2; exact absurd hb fun h' => before_asymm h' hk2
        · exact g) with ⟨i, h1, -, h2, h3⟩ | ⟨l, h1, -, h2, h3, h4⟩
  · left
    obtain ⟨E, hE⟩ := hex i h2
    rw [hcmp i E hE] at h3
    refine ⟨i, E, h1, hE, ?_⟩
    rcases htri i E hE with ⟨g, -⟩ | ⟨-, g⟩ | ⟨g, -⟩
    · rw [h3] at g; cases g
    · exact g
    · rw [h3] at g; cases g
  · right
    refine ⟨l, h1, by simpa using h2, ?_, ?_⟩
    · intro j E hE hj
      have := h3 j (Nat.zero_le _) hj
      rw [hcmp j E hE] at this
      rcases htri j E hE with ⟨g, -⟩ | ⟨g, -⟩ | ⟨-, g⟩
      · rw [this] at g; cases g
      · rw [this] at g; cases g
      · exact g
    · intro j E hE hj
      have := h4 j hj (by simpa using (List.getElem?_eq_some_iff.mp hE).1)
      rw [hcmp j E hE] at this
      rcases htri j E hE with ⟨-, g⟩ | ⟨g, -⟩ | ⟨g, -⟩
      · exact g
      · rw [this] at g; cases g
      · rw [this] at g; cases g

end Verif.Smget
