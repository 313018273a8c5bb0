import Verif.Lemmas.Cluster
/-!
# Lemmas on searching the ring
-/
namespace Verif.Cluster
open Verif.Cluster.Spec Verif.BT

/-- The hash point a pointer of the continuum leads to. -/
def hp (h : Heap) (x : Nat × Nat) : Nat := match slice h x with | some sl => sl.hpoint | none => 0

theorem back_spec {h : Heap} {C : List (Nat × Nat)} {hv : Nat} (hl : ∀ x ∈ C, slice h x ≠ none)
    (hs : C.Pairwise fun x y => hp h x ≤ hp h y) : ∀ (mid : Nat) (x : Nat × Nat), C[mid]? = some x → hp h x = hv →
    ∃ i y, back h C hv mid = some i ∧ C[i]? = some y ∧ hp h y = hv ∧ ∀ (j : Nat) z, j < i → C[j]? = some z → hp h z < hv
  | 0, x, hx, hh => ⟨0, x, rfl, hx, hh, fun j z hj => absurd hj (Nat.not_lt_zero _)⟩
  | mid + 1, x, hx, hh => by
    obtain ⟨hlt, -⟩ := List.getElem?_eq_some_iff.mp hx
    have hm : C[mid]? = some C[mid] := List.getElem?_eq_getElem (by omega)
    simp only [back, hm, Option.bind_some]
    have hle := pairwise_get hs (Nat.lt_succ_self mid) hm hx
    cases hsl : slice h C[mid] with
    | none => exact absurd hsl (hl _ (List.getElem_mem ..))
    | some sl =>
      have hhp : hp h C[mid] = sl.hpoint := by simp only [hp, hsl]
      simp only
      split
      · rename_i he
        exact back_spec hl hs mid _ hm (hhp.trans he)
      · rename_i he
        refine ⟨mid + 1, x, rfl, hx, hh, ?_⟩
        intro j z hj hz
        have : hp h z ≤ hp h C[mid] := by
          rcases Nat.lt_or_eq_of_le (Nat.le_of_lt_succ hj) with hj | rfl
          · exact pairwise_get hs hj hz hm
          · rw [hm] at hz; cases hz; exact Nat.le_refl _
        omega

theorem contFind_spec {h : Heap} {C : List (Nat × Nat)} (hv : Nat) (hl : ∀ x ∈ C, slice h x ≠ none)
    (hs : C.Pairwise fun x y => hp h x ≤ hp h y) (hne : C ≠ []) :
    ∃ (i : Nat) (x : Nat × Nat) (sl : Slice), contFind h C hv = some sl ∧ C[i]? = some x ∧ slice h x = some sl ∧
      ((hv ≤ hp h x ∧ ∀ (j : Nat) z, j < i → C[j]? = some z → hp h z < hv) ∨ (i = 0 ∧ ∀ z ∈ C, hp h z < hv)) := by
  have hsl : ∀ x ∈ C, ∃ sl, slice h x = some sl ∧ sl.hpoint = hp h x := by
    intro x hx
    cases hc : slice h x with
    | none => exact absurd hc (hl x hx)
    | some sl => exact ⟨sl, rfl, by simp only [hp, hc]⟩
  unfold contFind
  generalize hcmp : (fun (j : Nat) => match C[j]?.bind (slice h) with
      | none => none
      | some sl => some (compare hv sl.hpoint)) = cmp
  have hc : ∀ (j : Nat) x, C[j]? = some x → cmp j = some (compare hv (hp h x)) := by
    intro j x hj
    subst hcmp
    obtain ⟨sl, h1, h2⟩ := hsl x (List.mem_of_getElem? hj)
    simp only [hj, Option.bind_some, h1, h2]
  have hget : ∀ (j : Nat), j < C.length → ∃ x, C[j]? = some x := fun j hj => ⟨_, List.getElem?_eq_getElem hj⟩
  have k1 : ∀ j, 0 ≤ j → j < C.length → cmp j ≠ none := by
    intro j _ hj
    obtain ⟨x, hx⟩ := hget j hj
    rw [hc j x hx]; exact fun h => by cases h
  have k2 : ∀ j k, 0 ≤ j → j < k → k < C.length → cmp j = some .lt → cmp k = some .lt := by
    intro j k _ hjk hk hlt
    obtain ⟨a, ha⟩ := hget j (by omega)
    obtain ⟨b, hb⟩ := hget k hk
    rw [hc j a ha, Option.some.injEq, Nat.compare_eq_lt] at hlt
    rw [hc k b hb, Option.some.injEq, Nat.compare_eq_lt]
    exact Nat.lt_of_lt_of_le hlt (pairwise_get hs hjk ha hb)
  have k3 : ∀ j k, 0 ≤ j → j < k → k < C.length → cmp k = some .gt → cmp j = some .gt := by
    intro j k _ hjk hk hgt
    obtain ⟨a, ha⟩ := hget j (by omega)
    obtain ⟨b, hb⟩ := hget k hk
    rw [hc k b hb, Option.some.injEq, Nat.compare_eq_gt] at hgt
    rw [hc j a ha, Option.some.injEq, Nat.compare_eq_gt]
    exact Nat.lt_of_le_of_lt (pairwise_get hs hjk ha hb) hgt
  rcases bsearch_spec cmp (C.length + 1) 0 C.length (by omega) (Nat.zero_le _) k1 k2 k3 with ⟨m, h1, -, h3, h4⟩ | ⟨k, h1, -, h3, h4, h5⟩
  · obtain ⟨x, hx⟩ := hget m h3
    rw [hc m x hx, Option.some.injEq, Nat.compare_eq_eq] at h4
    obtain ⟨i, y, b1, b2, b3, b4⟩ := back_spec (hv := hv) hl hs m x hx h4.symm
    obtain ⟨sl, s1, -⟩ := hsl y (List.mem_of_getElem? b2)
    refine ⟨i, y, sl, ?_, b2, s1, .inl ⟨by omega, b4⟩⟩
    simp only [h1, b1, b2, Option.bind_some, s1]
  · have hbelow : ∀ (j : Nat) z, j < k → C[j]? = some z → hp h z < hv := by
      intro j z hj hz
      have := h4 j (Nat.zero_le _) hj
      rw [hc j z hz, Option.some.injEq, Nat.compare_eq_gt] at this
      exact this
    by_cases hk : k < C.length
    · obtain ⟨x, hx⟩ := hget k hk
      obtain ⟨sl, s1, -⟩ := hsl x (List.mem_of_getElem? hx)
      have := h5 k (Nat.le_refl _) hk
      rw [hc k x hx, Option.some.injEq, Nat.compare_eq_lt] at this
      refine ⟨k, x, sl, ?_, hx, s1, .inl ⟨by omega, hbelow⟩⟩
      simp only [h1, hk, if_true, hx, Option.bind_some, s1]
    · obtain ⟨x, hx⟩ := hget 0 (List.length_pos_iff.mpr hne)
      obtain ⟨sl, s1, -⟩ := hsl x (List.mem_of_getElem? hx)
      refine ⟨0, x, sl, ?_, hx, s1, .inr ⟨rfl, ?_⟩⟩
      · simp only [h1, hk, if_false, hx, Option.bind_some, s1]
      · intro z hz
        obtain ⟨j, hj⟩ := List.getElem?_of_mem hz
        have hjl := (List.getElem?_eq_some_iff.mp hj).1
        exact hbelow j z (by omega) hj

/-- The array `arr` holds node items for `names`, in order, with their hash points. -/
structure Good (cfg : Cfg) (h : Heap) (arr : List Nat) (names : List (List Nat)) : Prop where
  live : ∀ id ∈ arr, ∃ node, h id = some node ∧ node.slices.map Slice.hpoint = cfg.points node.name
  sorted : (arr.map (nameOf h)).Pairwise Smaller
  perm : (arr.map (nameOf h)).Perm names

/-- The order of the continuum. -/
def RingLe (h : Heap) (x y : Nat × Nat) : Prop :=
  hp h x < hp h y ∨ (hp h x = hp h y ∧ ¬ Smaller (nameOf h y.1) (nameOf h x.1))

/-- All slices of an array of nodes. -/
def allSlices (n : Nat) (arr : List Nat) : List (Nat × Nat) := arr.flatMap fun id => (List.range n).map fun j => (id, j)

theorem mem_allSlices {n : Nat} {arr : List Nat} {x : Nat × Nat} : x ∈ allSlices n arr ↔ x.1 ∈ arr ∧ x.2 < n := by
  simp only [allSlices, List.mem_flatMap, List.mem_map, List.mem_range]
  constructor
  · rintro ⟨id, h1, j, h2, rfl⟩; exact ⟨h1, h2⟩
  · rintro ⟨h1, h2⟩; exact ⟨x.1, h1, x.2, h2, rfl⟩

/-- The continuum of an array of nodes. -/
structure Ring (cfg : Cfg) (h : Heap) (arr : List Nat) (C : List (Nat × Nat)) : Prop where
  mem : ∀ x, x ∈ C ↔ x.1 ∈ arr ∧ x.2 < cfg.n
  sorted : C.Pairwise (RingLe h)

/-- Hash points have the promised number. -/
def Sized (cfg : Cfg) : Prop := 0 < cfg.n ∧ ∀ x, (cfg.points x).length = cfg.n

theorem slice_of {cfg : Cfg} (hc : Sized cfg) {h : Heap} {arr : List Nat} {names : List (List Nat)} (hg : Good cfg h arr names)
    {id : Nat} (hid : id ∈ arr) : (∀ j, j < cfg.n → ∃ node sl, h id = some node ∧ node.slices[j]? = some sl ∧ slice h (id, j) = some sl ∧
      (cfg.points (nameOf h id))[j]? = some sl.hpoint) := by
  intro j hj
  obtain ⟨node, h1, h2⟩ := hg.live id hid
  have hlen : node.slices.length = cfg.n := by rw [← hc.2 node.name, ← h2, List.length_map]
  have hsl : node.slices[j]? = some node.slices[j] := List.getElem?_eq_getElem (by omega)
  refine ⟨node, node.slices[j], h1, hsl, by simp only [slice, h1, hsl], ?_⟩
  simp only [nameOf, h1, ← h2, List.getElem?_map, hsl, Option.map_some]

theorem at_iff {cfg : Cfg} (hc : Sized cfg) {h : Heap} {arr : List Nat} {names : List (List Nat)} (hg : Good cfg h arr names)
    {C : List (Nat × Nat)} (hr : Ring cfg h arr C) {x : List Nat} {p : Nat} :
    (x ∈ names ∧ p ∈ cfg.points x) ↔ ∃ y ∈ C, nameOf h y.1 = x ∧ hp h y = p := by
  constructor
  · rintro ⟨hx, hp'⟩
    obtain ⟨id, hid, rfl⟩ := List.mem_map.mp (hg.perm.mem_iff.mpr hx)
    obtain ⟨j, hj⟩ := List.getElem?_of_mem hp'
    have hjn : j < cfg.n := by
      have := (List.getElem?_eq_some_iff.mp hj).1
      rw [hc.2] at this; exact this
    obtain ⟨node, sl, -, -, h3, h4⟩ := slice_of hc hg hid j hjn
    refine ⟨(id, j), (hr.mem _).mpr ⟨hid, hjn⟩, rfl, ?_⟩
    rw [hj] at h4
    simp only [hp, h3]
    exact (Option.some.inj h4).symm
  · rintro ⟨y, hy, rfl, rfl⟩
    obtain ⟨h1, h2⟩ := (hr.mem y).mp hy
    obtain ⟨node, sl, -, -, h3, h4⟩ := slice_of hc hg h1 y.2 h2
    refine ⟨hg.perm.mem_iff.mp (List.mem_map.mpr ⟨y.1, h1, rfl⟩), ?_⟩
    have : hp h y = sl.hpoint := by simp only [hp, h3]
    rw [this]
    exact List.mem_of_getElem? h4

/-- A search of the ring finds a slice of the owner. -/
theorem ring_owner {cfg : Cfg} (hc : Sized cfg) {h : Heap} {arr : List Nat} {names : List (List Nat)} (hg : Good cfg h arr names)
    {C : List (Nat × Nat)} (hr : Ring cfg h arr C) (hne : names ≠ []) (hv : Nat) :
    ∃ (id j : Nat) (node : Node) (sl : Slice), id ∈ arr ∧ h id = some node ∧ node.slices[j]? = some sl ∧ contFind h C hv = some sl ∧
      Owner cfg.points names hv (nameOf h id) := by
  have hCne : C ≠ [] := by
    obtain ⟨x, hx⟩ := List.exists_mem_of_ne_nil _ hne
    obtain ⟨id, hid, -⟩ := List.mem_map.mp (hg.perm.mem_iff.mpr hx)
    exact List.ne_nil_of_mem ((hr.mem (id, 0)).mpr ⟨hid, hc.1⟩)
  have hle : C.Pairwise fun x y => hp h x ≤ hp h y := hr.sorted.imp fun hxy => by
    rcases hxy with hxy | ⟨hxy, -⟩ <;> omega
  have hl : ∀ x ∈ C, slice h x ≠ none := by
    intro x hx
    obtain ⟨h1, h2⟩ := (hr.mem x).mp hx
    obtain ⟨_, sl, -, -, h3, -⟩ := slice_of hc hg h1 x.2 h2
    rw [h3]; exact fun h => by cases h
  obtain ⟨i, x, sl, f1, f2, f3, f4⟩ := contFind_spec hv hl hle hCne
  have hx := List.mem_of_getElem? f2
  obtain ⟨h1, h2⟩ := (hr.mem x).mp hx
  obtain ⟨node, sl', g1, g2, g3, -⟩ := slice_of hc hg h1 x.2 h2
  have : sl' = sl := Option.some.inj (g3.symm.trans f3)
  subst this
  have hA : ∀ q, At cfg.points names q ↔ ∃ y ∈ C, hp h y = q := by
    intro q
    constructor
    · rintro ⟨z, hz⟩
      obtain ⟨y, hy, -, hq⟩ := (at_iff hc hg hr).mp hz
      exact ⟨y, hy, hq⟩
    · rintro ⟨y, hy, hq⟩
      exact ⟨nameOf h y.1, (at_iff hc hg hr).mpr ⟨y, hy, rfl, hq⟩⟩
  have hpx := (at_iff hc hg hr).mpr ⟨x, hx, rfl, rfl⟩
  -- what comes later in the ring
  have hafter : ∀ (k : Nat) y, C[k]? = some y → k < i ∨ y = x ∨ RingLe h x y := by
    intro k y hy
    rcases Nat.lt_trichotomy k i with hk | rfl | hk
    · exact .inl hk
    · rw [f2] at hy; cases hy; exact .inr (.inl rfl)
    · exact .inr (.inr (pairwise_get hr.sorted hk f2 hy))
  refine ⟨x.1, x.2, node, sl', h1, g1, g2, f1, hpx.1, hp h x, ⟨(hA _).mpr ⟨x, hx, rfl⟩, ?_⟩, hpx.2, ?_⟩
  · rcases f4 with ⟨f4, f5⟩ | ⟨f4, f5⟩
    · left
      refine ⟨f4, fun q hq hle => ?_⟩
      obtain ⟨y, hy, rfl⟩ := (hA q).mp hq
      obtain ⟨k, hk⟩ := List.getElem?_of_mem hy
      rcases hafter k y hk with h' | rfl | h'
      · have := f5 k y h' hk; omega
      · exact Nat.le_refl _
      · rcases h' with h' | ⟨h', -⟩ <;> omega
    · right
      refine ⟨fun q hq => ?_, fun q hq => ?_⟩
      · obtain ⟨y, hy, rfl⟩ := (hA q).mp hq
        exact f5 y hy
      · obtain ⟨y, hy, rfl⟩ := (hA q).mp hq
        obtain ⟨k, hk⟩ := List.getElem?_of_mem hy
        rcases hafter k y hk with h' | rfl | h'
        · omega
        · exact Nat.le_refl _
        · rcases h' with h' | ⟨h', -⟩ <;> omega
  · intro y hy hpy hsm
    obtain ⟨z, hz, rfl, hpz⟩ := (at_iff hc hg hr).mp ⟨hy, hpy⟩
    obtain ⟨k, hk⟩ := List.getElem?_of_mem hz
    rcases hafter k z hk with h' | rfl | h'
    · rcases f4 with ⟨f4, f5⟩ | ⟨f4, f5⟩
      · have := f5 k z h' hk; omega
      · omega
    · exact smaller_irrefl _ hsm
    · rcases h' with h' | ⟨-, h'⟩
      · omega
      · exact h' hsm

end Verif.Cluster
