import Verif.Lemmas.BTreeNum
/-!
# Lemmas on making room for a new b+tree element
-/
namespace Verif.BT
open Verif.BT.Spec

/-- The paths to the first and the last leaf. -/
theorem ends_path {rows : List (Row Nat)} {ws : List Nat} (ha : Aligned rows ws) (hn : AllNodes rows) :
    ws ≠ [] ∧ PathTo rows 0 (firstPath rows) ∧ ∃ p, lastPath rows = some p ∧ PathTo rows (ws.length - 1) p := by
  induction rows generalizing ws with
  | nil =>
    have h : ws.length = 1 := ha
    refine ⟨fun h' => ?_, rfl, [], rfl, ?_⟩
    · rw [h'] at h; simp at h
    · rw [h]; rfl
  | cons row rows ih =>
    obtain ⟨h1, h2⟩ := ha
    have hr : Nodes row := hn row (by simp)
    obtain ⟨i1, i2, p, i3, i4⟩ := ih h2 fun r hr => hn r (by simp [hr])
    have hne : row ≠ [] := fun h => i1 (by rw [h]; rfl)
    refine ⟨?_, ?_, ?_⟩
    · obtain ⟨c, l, rfl⟩ := List.exists_cons_of_ne_nil hne
      intro h
      have h3 := (hr c (by simp)).1
      rw [← h1, List.flatten_cons, List.append_eq_nil_iff] at h
      rw [h.1] at h3; simp at h3
    · obtain ⟨c, l, rfl⟩ := List.exists_cons_of_ne_nil hne
      exact ⟨⟨⟨c, rfl, (hr c (by simp)).1⟩, by simp [off]⟩, i2⟩
    · rcases List.eq_nil_or_concat row with h | ⟨l, c, h⟩
      · exact absurd h hne
      · rw [List.concat_eq_append] at h
        have hc := (hr c (by rw [h]; simp)).1
        refine ⟨(row.length - 1, c.length - 1) :: p, ?_, ?_⟩
        · rw [lastPath, i3]
          have : row.getLast? = some c := by rw [h]; simp
          rw [this]
          simp only
          rw [if_neg (by omega)]
        · refine ⟨?_, by rw [List.length_map] at i4; exact i4⟩
          have hl : row.length - 1 = l.length := by rw [h]; simp
          have hw : ws.length - 1 = l.flatten.length + (c.length - 1) := by
            rw [← h1, h, List.flatten_append, List.length_append, List.flatten_cons, List.length_append, List.flatten_nil,
              List.length_nil]
            omega
          rw [hw, hl]
          exact At.mk' h (by omega)

/-- Running out of memory means that there was little. -/
theorem splitStep_nomem {α : Type} {w : α → Nat} {row : Row α} {above : List (Row Nat)} {n i : Nat} {p : List Posi} {mem k : Nat}
    {room : Nat → Option Room} (hr : ∀ m, room m = some .nomem → m ≤ k) (h : splitStep w row above n i p mem room = some .nomem) :
    mem ≤ k + 1 := by
  rw [splitStep] at h
  by_cases hs : smallNeighbour row n = true
  · rw [if_pos hs] at h
    cases hb : sbalance w row above n i p with
    | none => rw [hb] at h; cases h
    | some x => rw [hb] at h; cases h
  · rw [if_neg hs] at h
    by_cases hm : mem = 0
    · omega
    · rw [if_neg hm] at h
      cases hroom : room (mem - 1) with
      | none => rw [hroom] at h; cases h
      | some x =>
        cases x with
        | nomem => have := hr _ hroom; omega
        | ok rows path =>
          rw [hroom] at h
          exfalso
          cases rows with
          | nil => cases h
          | cons prow rest =>
            cases path with
            | nil => cases h
            | cons q p' =>
              obtain ⟨pn, pi⟩ := q
              simp only at h
              generalize linkEntry prow pn _ = y at h
              cases y with
              | none => cases h
              | some y =>
                simp only at h
                generalize sbalance w _ _ _ _ _ = z at h
                cases z <;> cases h

theorem room_nomem {tot d : Nat} {rows : List (Row Nat)} {p : List Posi} {mem : Nat} (h : room tot d rows p mem = some .nomem) :
    mem ≤ rows.length := by
  induction rows generalizing d p mem with
  | nil =>
    cases p with
    | nil =>
      rw [room] at h
      split at h
      · cases h
      · split at h
        · simp; omega
        · cases h
    | cons _ _ => simp [room] at h
  | cons row rows ih =>
    cases p with
    | nil => simp [room] at h
    | cons q p =>
      obtain ⟨n, i⟩ := q
      rw [room] at h
      split at h
      · cases h
      · cases hc : row[n]? with
        | none => rw [hc] at h; cases h
        | some node =>
          rw [hc] at h
          simp only at h
          split at h
          · cases h
          · cases hs : splitStep id row rows n i p mem (room tot (d + 1) rows p) with
            | none => rw [hs] at h; cases h
            | some x =>
              cases x with
              | nomem => exact splitStep_nomem (fun m hm => ih hm) hs
              | ok a b c d => rw [hs] at h; cases h

theorem splitLeaf_nomem {t : Tree} {tot n i : Nat} {p : List Posi} {mem : Nat} (h : splitLeaf t tot n i p mem = some .nomem) :
    mem ≤ t.upper.length + 1 :=
  splitStep_nomem (fun _ hm => room_nomem hm) h

/-- The tree has the greatest depth the code allows for and its root is full. -/
def Deep (t : Tree) : Prop := t.upper.length = 6 ∧ TopFull t.upper

/-- Room for a new element. -/
theorem makeRoom_spec {t : Tree} {n i : Nat} {p : List Posi} {c : List Elem} (mem : Nat) (hw : Wf t) (hc : t.leaves[n]? = some c)
    (hi : i ≤ c.length) (hp : PathTo t.upper n p) :
    match makeRoom t t.leaves.flatten.length n i p mem with
    | none => Deep t
    | some .nomem => mem < 8
    | some (.ok leaves upper (n', i') p') => Wf ⟨leaves, upper⟩ ∧ leaves ≠ [] ∧ leaves.flatten = t.leaves.flatten ∧ PathTo upper n' p' ∧
        off leaves n' + i' = off t.leaves n + i ∧ ∃ c', leaves[n']? = some c' ∧ i' ≤ c'.length ∧ c'.length < 32 := by
  have hne : t.leaves ≠ [] := by intro h; rw [h] at hc; simp at hc
  have hup : t.upper.length ≤ 6 := by
    rcases hw with ⟨h, -⟩ | ⟨-, -, -, h⟩
    · exact absurd h hne
    · exact h
  obtain ⟨h1, h2, h3⟩ := hw.full hne
  rw [makeRoom, hc]
  simp only
  by_cases hl : itemCount ≤ c.length
  · rw [if_pos hl]
    have hcl : c.length = 32 := by
      have := (h1 c (List.mem_of_getElem? hc)).2
      simp only [itemCount] at hl; omega
    have hi32 : i ≤ 32 := by omega
    have hs := splitLeaf_spec mem hc hcl hi32 hp h3 h2 h1 hup
    cases hr : splitLeaf t t.leaves.flatten.length n i p mem with
    | none =>
      rw [hr] at hs
      obtain ⟨s1, s2⟩ := hs
      have h6 : t.upper.length = 6 := by omega
      exact ⟨h6, s2 (by intro h; rw [h] at h6; simp at h6)⟩
    | some x =>
      cases x with
      | nomem => have := splitLeaf_nomem hr; simp only; omega
      | ok leaves upper q p' =>
        obtain ⟨n', i'⟩ := q
        rw [hr] at hs
        obtain ⟨s1, s2, s3, ⟨s4, s5, ⟨c', s6, s7, -, s8⟩, s9⟩, s10, -⟩ := hs
        simp only
        rw [weight_one'] at s5
        refine ⟨.inr ⟨s2, s3, s5, ?_⟩, ?_, s1, s4, s9, c', s6, s7, s8⟩
        · have := s10 (by omega)
          simp only; omega
        · intro h; rw [h] at s6; simp at s6
  · rw [if_neg hl]
    refine ⟨hw, hne, rfl, hp, rfl, c, hc, hi, ?_⟩
    simp only [itemCount] at hl; omega

/-! ## The place of a new element -/

theorem place_eq {e : Elem} {a b : List Elem} (ha : ∀ x ∈ a, KLt x.bkey e.bkey) (hb : ∀ x ∈ b, KLt e.bkey x.bkey) :
    place e (a ++ b) = a ++ e :: b := by
  classical
  rw [place, List.filter_append, List.filter_append]
  have h1 : a.filter (fun x => decide (KLt x.bkey e.bkey)) = a := by
    rw [List.filter_eq_self]; intro x hx; exact decide_eq_true (ha x hx)
  have h2 : b.filter (fun x => decide (KLt x.bkey e.bkey)) = [] := by
    rw [List.filter_eq_nil_iff]; intro x hx; rw [decide_eq_true_eq]; exact fun h => klt_asymm h (hb x hx)
  have h3 : a.filter (fun x => decide (KLt e.bkey x.bkey)) = [] := by
    rw [List.filter_eq_nil_iff]; intro x hx; rw [decide_eq_true_eq]; exact fun h => klt_asymm h (ha x hx)
  have h4 : b.filter (fun x => decide (KLt e.bkey x.bkey)) = b := by
    rw [List.filter_eq_self]; intro x hx; exact decide_eq_true (hb x hx)
  rw [h1, h2, h3, h4, List.append_nil, List.nil_append]

theorem sorted_place {e : Elem} {a b : List Elem} (hs : Sorted (a ++ b)) (ha : ∀ x ∈ a, KLt x.bkey e.bkey)
    (hb : ∀ x ∈ b, KLt e.bkey x.bkey) : Sorted (a ++ e :: b) := by
  rw [Sorted, List.pairwise_append] at hs ⊢
  obtain ⟨h1, h2, h3⟩ := hs
  refine ⟨h1, List.pairwise_cons.mpr ⟨hb, h2⟩, ?_⟩
  intro x hx y hy
  rcases List.mem_cons.mp hy with rfl | hy
  · exact ha x hx
  · exact h3 x hx y hy

theorem take_mem {l : List Elem} {k : Nat} {x : Elem} (h : x ∈ l.take k) : ∃ j : Nat, j < k ∧ l[j]? = some x := by
  obtain ⟨j, hj⟩ := List.getElem?_of_mem h
  rw [List.getElem?_take] at hj
  split at hj
  · exact ⟨j, by assumption, hj⟩
  · cases hj

theorem drop_mem {l : List Elem} {k : Nat} {x : Elem} (h : x ∈ l.drop k) : ∃ j : Nat, k ≤ j ∧ l[j]? = some x := by
  obtain ⟨j, hj⟩ := List.getElem?_of_mem h
  rw [List.getElem?_drop] at hj
  exact ⟨k + j, by omega, hj⟩

/-- Where an element with a new key goes. -/
structure Slot (e : Elem) (l : List Elem) (k : Nat) : Prop where
  lo : ∀ x ∈ l.take k, KLt x.bkey e.bkey
  hi : ∀ x ∈ l.drop k, KLt e.bkey x.bkey

theorem Slot.place {e : Elem} {l : List Elem} {k : Nat} (h : Slot e l k) : place e l = l.take k ++ e :: l.drop k := by
  have := place_eq h.lo h.hi
  rwa [List.take_append_drop] at this

theorem Slot.sorted {e : Elem} {l : List Elem} {k : Nat} (h : Slot e l k) (hs : Sorted l) : Sorted (Spec.place e l) := by
  rw [h.place]
  exact sorted_place (by rwa [List.take_append_drop]) h.lo h.hi

theorem Slot.mem {e : Elem} {l : List Elem} {k : Nat} (h : Slot e l k) {x : Elem} : x ∈ Spec.place e l ↔ x = e ∨ x ∈ l := by
  rw [h.place]
  have : x ∈ l ↔ x ∈ l.take k ∨ x ∈ l.drop k := by rw [← List.mem_append, List.take_append_drop]
  rw [this]
  simp only [List.mem_append, List.mem_cons]
  constructor
  · rintro (h | h | h)
    · exact .inr (.inl h)
    · exact .inl h
    · exact .inr (.inr h)
  · rintro (h | h | h)
    · exact .inr (.inl h)
    · exact .inl h
    · exact .inr (.inr h)

theorem Slot.length {e : Elem} {l : List Elem} {k : Nat} (h : Slot e l k) : (Spec.place e l).length = l.length + 1 := by
  rw [h.place, List.length_append, List.length_cons]
  have := congrArg List.length (List.take_append_drop k l)
  rw [List.length_append] at this
  omega

theorem Slot.new {e : Elem} {l : List Elem} {k : Nat} (h : Slot e l k) {x : Elem} (hx : x ∈ l) : x.bkey ≠ e.bkey := by
  rw [← List.take_append_drop k l, List.mem_append] at hx
  intro he
  rcases hx with hx | hx
  · have := h.lo x hx; rw [he] at this; exact klt_irrefl _ this
  · have := h.hi x hx; rw [he] at this; exact klt_irrefl _ this

/-- The binary search finds the slot. -/
theorem hit_slot {e : Elem} {leaves : Row Elem} {n i : Nat} (h : HitOk e.bkey leaves n (.missing i)) :
    (∃ c, leaves[n]? = some c ∧ i ≤ c.length) ∧ Slot e leaves.flatten (off leaves n + i) := by
  obtain ⟨c, h1, h2, h3, h4, -⟩ := h
  refine ⟨⟨c, h1, h2⟩, ?_, ?_⟩
  · intro x hx
    obtain ⟨j, hj, hx⟩ := take_mem hx
    exact h3 j x hx hj
  · intro x hx
    obtain ⟨j, hj, hx⟩ := drop_mem hx
    exact h4 j x hx hj

end Verif.BT
