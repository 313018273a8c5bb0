import Verif.Spec.Cluster
import Verif.Lemmas.BTreeFind
/-!
# Lemmas on names, sorting and searching in the cluster configuration
-/
namespace Verif.Cluster
open Verif.Cluster.Spec Verif.BT

theorem strcmp_spec : ∀ a b : List Nat,
    (strcmp a b = .lt ↔ Smaller a b) ∧ (strcmp a b = .eq ↔ a = b) ∧ (strcmp a b = .gt ↔ Smaller b a)
  | [], [] => by simp [strcmp, Smaller]
  | [], _ :: _ => by simp [strcmp, Smaller]
  | _ :: _, [] => by simp [strcmp, Smaller]
  | a :: as, b :: bs => by
    obtain ⟨h1, h2, h3⟩ := strcmp_spec as bs
    unfold Smaller at *
    simp only [strcmp]
    rw [List.cons_lex_cons_iff, List.cons_lex_cons_iff]
    by_cases hab : a < b
    · simp only [hab, if_true, true_or, reduceCtorEq, false_iff, List.cons.injEq, not_and, not_or]
      refine ⟨trivial, fun h => by omega, by omega, fun h => by omega⟩
    · by_cases hba : b < a
      · simp only [hab, hba, if_true, if_false, reduceCtorEq, false_iff, List.cons.injEq, not_and, false_or, true_or]
        refine ⟨fun h => by omega, fun h => by omega, trivial⟩
      · have : a = b := by omega
        subst this
        simp only [Nat.lt_irrefl, if_false, false_or, true_and, List.cons.injEq]
        exact ⟨h1, h2, h3⟩

theorem strcmp_lt {a b : List Nat} : strcmp a b = .lt ↔ Smaller a b := (strcmp_spec a b).1
theorem strcmp_eq {a b : List Nat} : strcmp a b = .eq ↔ a = b := (strcmp_spec a b).2.1
theorem strcmp_gt {a b : List Nat} : strcmp a b = .gt ↔ Smaller b a := (strcmp_spec a b).2.2

theorem smaller_irrefl (a : List Nat) : ¬ Smaller a a := by
  intro h
  have h1 := strcmp_lt.mpr h
  rw [strcmp_eq.mpr rfl] at h1
  cases h1

theorem smaller_asymm {a b : List Nat} (h : Smaller a b) : ¬ Smaller b a := by
  intro h2
  have h1 := strcmp_lt.mpr h
  rw [strcmp_gt.mpr h2] at h1
  cases h1

theorem smaller_total (a b : List Nat) : Smaller a b ∨ a = b ∨ Smaller b a := by
  cases h : strcmp a b with
  | lt => exact .inl (strcmp_lt.mp h)
  | eq => exact .inr (.inl (strcmp_eq.mp h))
  | gt => exact .inr (.inr (strcmp_gt.mp h))

theorem smaller_trans {a b c : List Nat} (h1 : Smaller a b) (h2 : Smaller b c) : Smaller a c := by
  unfold Smaller at *
  induction h1 generalizing c with
  | nil => cases h2 with
    | rel => exact .nil
    | cons => exact .nil
  | @rel a l b l' h =>
    cases h2 with
    | rel h' => exact .rel (Nat.lt_trans h h')
    | cons h' => exact .rel h
  | @cons a l l' h ih =>
    cases h2 with
    | rel h' => exact .rel h'
    | cons h' => exact .cons (ih h')

theorem smaller_of_not {a b : List Nat} (h : ¬ Smaller a b) (h2 : a ≠ b) : Smaller b a := by
  rcases smaller_total a b with h' | h' | h'
  · exact absurd h' h
  · exact absurd h' h2
  · exact h'

theorem not_smaller_trans {a b c : List Nat} (h1 : ¬ Smaller b a) (h2 : ¬ Smaller c b) : ¬ Smaller c a := by
  intro h
  rcases smaller_total a b with h' | h' | h'
  · exact h2 (smaller_trans h h')
  · subst h'; exact h2 h
  · exact h1 h'

/-! Sorting. -/

theorem insertBy_perm {α : Type} (le : α → α → Bool) (x : α) : ∀ l, (insertBy le x l).Perm (x :: l)
  | [] => List.Perm.refl _
  | y :: ys => by
    simp only [insertBy]
    split
    · exact List.Perm.refl _
    · exact ((insertBy_perm le x ys).cons y).trans (List.Perm.swap x y ys)

theorem sortBy_perm {α : Type} (le : α → α → Bool) : ∀ l, (sortBy le l).Perm l
  | [] => List.Perm.refl _
  | x :: xs => (insertBy_perm le x _).trans ((sortBy_perm le xs).cons x)

theorem insertBy_sorted {α : Type} {le : α → α → Bool} {R : α → α → Prop} {x : α} : ∀ {l : List α}, l.Pairwise R →
    (∀ y ∈ l, le x y = true → R x y) → (∀ y ∈ l, le x y = false → R y x) → (∀ y ∈ l, ∀ z ∈ l, R x y → R y z → R x z) →
    (insertBy le x l).Pairwise R
  | [], _, _, _, _ => by simp [insertBy]
  | y :: ys, h, h1, h2, h3 => by
    simp only [insertBy]
    obtain ⟨hy, hys⟩ := List.pairwise_cons.mp h
    split
    · rename_i hle
      refine List.pairwise_cons.mpr ⟨?_, h⟩
      intro z hz
      have hxy := h1 y (List.mem_cons_self ..) hle
      rcases List.mem_cons.mp hz with rfl | hz
      · exact hxy
      · exact h3 y (List.mem_cons_self ..) z (List.mem_cons_of_mem _ hz) hxy (hy z hz)
    · rename_i hle
      have hle' : le x y = false := by simpa using hle
      refine List.pairwise_cons.mpr ⟨?_, insertBy_sorted hys (fun z hz => h1 z (List.mem_cons_of_mem _ hz))
        (fun z hz => h2 z (List.mem_cons_of_mem _ hz))
        (fun z hz w hw => h3 z (List.mem_cons_of_mem _ hz) w (List.mem_cons_of_mem _ hw))⟩
      intro z hz
      rcases List.mem_cons.mp ((insertBy_perm le x ys).mem_iff.mp hz) with rfl | hz
      · exact h2 y (List.mem_cons_self ..) hle'
      · exact hy z hz

theorem sortBy_sorted {α : Type} {le : α → α → Bool} {R : α → α → Prop} : ∀ {l : List α},
    (∀ x ∈ l, ∀ y ∈ l, le x y = true → R x y) → (∀ x ∈ l, ∀ y ∈ l, le x y = false → R y x) →
    (∀ x ∈ l, ∀ y ∈ l, ∀ z ∈ l, R x y → R y z → R x z) → (sortBy le l).Pairwise R
  | [], _, _, _ => List.Pairwise.nil
  | x :: xs, h1, h2, h3 => by
    have hm : ∀ y, y ∈ sortBy le xs → y ∈ x :: xs := fun y hy => List.mem_cons_of_mem _ ((sortBy_perm le xs).mem_iff.mp hy)
    have hx : x ∈ x :: xs := List.mem_cons_self ..
    refine insertBy_sorted (sortBy_sorted (fun a ha b hb => h1 a (List.mem_cons_of_mem _ ha) b (List.mem_cons_of_mem _ hb))
      (fun a ha b hb => h2 a (List.mem_cons_of_mem _ ha) b (List.mem_cons_of_mem _ hb))
      (fun a ha b hb c hc => h3 a (List.mem_cons_of_mem _ ha) b (List.mem_cons_of_mem _ hb) c (List.mem_cons_of_mem _ hc)))
      (fun y hy => h1 x hx y (hm y hy)) (fun y hy => h2 x hx y (hm y hy)) (fun y hy z hz => h3 x hx y (hm y hy) z (hm z hz))

/-! Arrays of nodes. -/

/-- The name of a node item. -/
def nameOf (h : Heap) (id : Nat) : List Nat := match h id with | some node => node.name | none => []

theorem pairwise_get {α : Type} {R : α → α → Prop} {l : List α} (h : l.Pairwise R) {i j : Nat} {x y : α} (hij : i < j)
    (hi : l[i]? = some x) (hj : l[j]? = some y) : R x y := by
  obtain ⟨hi', rfl⟩ := List.getElem?_eq_some_iff.mp hi
  obtain ⟨hj', rfl⟩ := List.getElem?_eq_some_iff.mp hj
  exact List.pairwise_iff_getElem.mp h i j hi' hj' hij

theorem find_spec {h : Heap} {arr : List Nat} (name : List Nat) (hl : ∀ id ∈ arr, h id ≠ none)
    (hs : (arr.map (nameOf h)).Pairwise Smaller) :
    (∃ j id, find h arr name = some (some j) ∧ arr[j]? = some id ∧ nameOf h id = name) ∨
    (find h arr name = some none ∧ name ∉ arr.map (nameOf h)) := by
  unfold find
  generalize hcmp : (fun (j : Nat) => match arr[j]? with
      | none => none
      | some id => match h id with
        | none => none
        | some node => some (strcmp name node.name)) = cmp
  have hc : ∀ (j id : Nat), arr[j]? = some id → cmp j = some (strcmp name (nameOf h id)) := by
    intro j id hj
    subst hcmp
    simp only [hj]
    have := hl id (List.mem_of_getElem? hj)
    unfold nameOf
    cases hh : h id with
    | none => exact absurd hh this
    | some node => rfl
  have hget : ∀ (j : Nat), j < arr.length → ∃ id, arr[j]? = some id := fun j hj => ⟨_, List.getElem?_eq_getElem hj⟩
  have hsm : ∀ (j k a b : Nat), j < k → arr[j]? = some a → arr[k]? = some b → Smaller (nameOf h a) (nameOf h b) := by
    intro j k a b hjk ha hb
    exact pairwise_get hs hjk (by rw [List.getElem?_map, ha]; rfl) (by rw [List.getElem?_map, hb]; rfl)
  have k1 : ∀ j, 0 ≤ j → j < arr.length → cmp j ≠ none := by
    intro j _ hj
    obtain ⟨id, hid⟩ := hget j hj
    rw [hc j id hid]; exact fun h => by cases h
  have k2 : ∀ j k, 0 ≤ j → j < k → k < arr.length → cmp j = some .lt → cmp k = some .lt := by
    intro j k _ hjk hk hlt
    obtain ⟨a, ha⟩ := hget j (by omega)
    obtain ⟨b, hb⟩ := hget k hk
    rw [hc j a ha] at hlt
    rw [hc k b hb]
    exact congrArg some (strcmp_lt.mpr (smaller_trans (strcmp_lt.mp (Option.some.inj hlt)) (hsm j k a b hjk ha hb)))
  have k3 : ∀ j k, 0 ≤ j → j < k → k < arr.length → cmp k = some .gt → cmp j = some .gt := by
    intro j k _ hjk hk hgt
    obtain ⟨a, ha⟩ := hget j (by omega)
    obtain ⟨b, hb⟩ := hget k hk
    rw [hc k b hb] at hgt
    rw [hc j a ha]
    exact congrArg some (strcmp_gt.mpr (smaller_trans (hsm j k a b hjk ha hb) (strcmp_gt.mp (Option.some.inj hgt))))
  rcases bsearch_spec cmp (arr.length + 1) 0 arr.length (by omega) (Nat.zero_le _) k1 k2 k3 with ⟨j, h1, -, h3, h4⟩ | ⟨k, h1, -, -, h4, h5⟩
  · left
    obtain ⟨id, hid⟩ := hget j h3
    refine ⟨j, id, by rw [h1], hid, ?_⟩
    rw [hc j id hid] at h4
    exact (strcmp_eq.mp (Option.some.inj h4)).symm
  · right
    refine ⟨by rw [h1], ?_⟩
    intro hm
    obtain ⟨id, hid, rfl⟩ := List.mem_map.mp hm
    obtain ⟨j, hj⟩ := List.getElem?_of_mem hid
    have hjl := (List.getElem?_eq_some_iff.mp hj).1
    have hcj := hc j id hj
    rw [strcmp_eq.mpr rfl] at hcj
    rcases Nat.lt_or_ge j k with hk | hk
    · rw [h4 j (Nat.zero_le _) hk] at hcj; cases hcj
    · rw [h5 j hk hjl] at hcj; cases hcj

/-! Numbers of nodes. -/

theorem rank_perm {a b : List (List Nat)} (h : a.Perm b) (x : List Nat) : rank a x = rank b x := by
  unfold rank; exact (h.filter _).length_eq

theorem rank_sorted {l : List (List Nat)} (h : l.Pairwise Smaller) {i : Nat} {x : List Nat} (hi : l[i]? = some x) : rank l x = i := by
  classical
  induction l generalizing i with
  | nil => simp at hi
  | cons y ys ih =>
    obtain ⟨hy, hys⟩ := List.pairwise_cons.mp h
    cases i with
    | zero =>
      simp only [List.getElem?_cons_zero, Option.some.injEq] at hi
      subst hi
      unfold rank
      rw [List.length_eq_zero_iff, List.filter_eq_nil_iff]
      intro z hz
      simp only [decide_eq_true_eq]
      rcases List.mem_cons.mp hz with rfl | hz
      · exact smaller_irrefl _
      · exact smaller_asymm (hy z hz)
    | succ i =>
      rw [List.getElem?_cons_succ] at hi
      have := ih hys hi
      unfold rank at *
      rw [List.filter_cons_of_pos (by simpa using hy x (List.mem_of_getElem? hi)), List.length_cons, this]

theorem sorted_nodup {l : List (List Nat)} (h : l.Pairwise Smaller) : l.Nodup :=
  h.imp fun hab he => by subst he; exact smaller_irrefl _ hab

end Verif.Cluster
