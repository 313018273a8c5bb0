import Verif.Model.KeyBlocks
import Verif.Spec.KeyBlocks

/-!
# Pieces of key strings
-/
namespace Verif.Keys
open Spec

theorem pieces_ne (d : Nat) (a : List Nat) : pieces d a ≠ [] := by
  cases a with
  | nil => simp [pieces]
  | cons c cs =>
    simp only [pieces]
    split
    · simp
    · split <;> simp

theorem pieces_cons (d : Nat) (a : List Nat) : ∃ p ps, pieces d a = p :: ps := by
  have := pieces_ne d a
  cases h : pieces d a with
  | nil => exact absurd h this
  | cons p ps => exact ⟨p, ps, rfl⟩

theorem pieces_delim (d : Nat) (a b : List Nat) : pieces d (a ++ d :: b) = pieces d a ++ pieces d b := by
  induction a with
  | nil => simp [pieces]
  | cons c cs ih =>
    simp only [List.cons_append, pieces]
    split
    · rw [ih]; rfl
    · rw [ih]
      obtain ⟨p, ps, h⟩ := pieces_cons d cs
      simp [h]

theorem pieces_prefix {d : Nat} {a : List Nat} (b : List Nat) (ha : d ∉ a) {p : List Nat} {ps : List (List Nat)}
    (hb : pieces d b = p :: ps) : pieces d (a ++ b) = (a ++ p) :: ps := by
  induction a with
  | nil => simpa using hb
  | cons c cs ih =>
    have h1 : c ≠ d := fun h => ha (by simp [h])
    have h2 : d ∉ cs := fun h => ha (by simp [h])
    simp only [List.cons_append, pieces, if_neg h1, ih h2]

theorem pieces_self {d : Nat} {a : List Nat} (ha : d ∉ a) : pieces d a = [a] := by
  have := pieces_prefix (d := d) (a := a) [] ha (p := []) (ps := []) (by simp [pieces])
  simpa using this

theorem pieces_no {d : Nat} {a : List Nat} : ∀ p ∈ pieces d a, d ∉ p := by
  induction a with
  | nil => simp [pieces]
  | cons c cs ih =>
    simp only [pieces]
    obtain ⟨p, ps, h⟩ := pieces_cons d cs
    rw [h] at ih
    split
    · rename_i hc
      intro q hq
      rcases List.mem_cons.mp hq with hq | hq
      · subst hq; simp
      · exact ih q (by rw [← h]; exact hq)
    · rename_i hc
      rw [h]
      intro q hq
      rcases List.mem_cons.mp hq with hq | hq
      · subst hq
        intro hd
        rcases List.mem_cons.mp hd with hd | hd
        · exact hc hd.symm
        · exact ih p (by simp) hd
      · exact ih q (by simp [hq])

theorem pieces_suffix {d : Nat} {a : List Nat} (b : List Nat) {q : List (List Nat)} {p : List Nat}
    (ha : pieces d a = q ++ [p]) : pieces d (a ++ b) = q ++ pieces d (p ++ b) := by
  induction a generalizing q p with
  | nil =>
    simp only [pieces] at ha
    cases q with
    | nil => simp at ha; subst ha; rfl
    | cons x xs => simp at ha
  | cons c cs ih =>
    simp only [pieces] at ha
    simp only [List.cons_append, pieces]
    by_cases hc : c = d
    · rw [if_pos hc] at ha ⊢
      cases q with
      | nil => simp at ha; exact absurd ha.2 (pieces_ne _ _)
      | cons x xs =>
        simp at ha
        rw [ih ha.2, ← ha.1]; rfl
    · rw [if_neg hc] at ha ⊢
      obtain ⟨x, xs, h⟩ := pieces_cons d cs
      rw [h] at ha
      cases q with
      | nil =>
        simp at ha
        obtain ⟨ha1, ha2⟩ := ha
        subst ha1; subst ha2
        have := ih (q := []) (by rw [h]; rfl)
        rw [this]
        simp [pieces, hc]
      | cons y ys =>
        simp at ha
        obtain ⟨ha1, ha2⟩ := ha
        subst ha1; subst ha2
        have := ih (q := x :: ys) (by rw [h]; rfl)
        rw [this]
        simp

theorem pieces_single {d : Nat} {a p : List Nat} (h : pieces d a = [p]) : a = p ∧ d ∉ a := by
  have hno : d ∉ a := by
    intro hd
    obtain ⟨s, t, rfl⟩ := List.append_of_mem hd
    rw [pieces_delim] at h
    obtain ⟨x, xs, h1⟩ := pieces_cons d s
    obtain ⟨y, ys, h2⟩ := pieces_cons d t
    rw [h1, h2] at h
    simp at h
  rw [pieces_self hno] at h
  simp at h
  exact ⟨h, hno⟩

/-- A piece of a part lies in a piece of the whole. -/
theorem pieces_sub {d : Nat} (a b : List Nat) : ∀ p ∈ pieces d a, ∃ q ∈ pieces d (a ++ b), p <+: q := by
  intro p hp
  have hne := pieces_ne d a
  have hsplit : pieces d a = (pieces d a).dropLast ++ [(pieces d a).getLast hne] := (List.dropLast_concat_getLast hne).symm
  rw [pieces_suffix b hsplit]
  rw [hsplit] at hp
  rcases List.mem_append.mp hp with hp | hp
  · exact ⟨p, List.mem_append_left _ hp, List.prefix_refl _⟩
  · simp at hp
    obtain ⟨x, xs, hx⟩ := pieces_cons d b
    have hno : d ∉ p := pieces_no p (by rw [hsplit, hp]; simp)
    have := pieces_prefix b hno hx
    refine ⟨p ++ x, List.mem_append_right _ ?_, List.prefix_append _ _⟩
    rw [← hp, this]; simp

theorem pieces_len {d : Nat} (a b : List Nat) : (pieces d a).length ≤ (pieces d (a ++ b)).length := by
  have hne := pieces_ne d a
  have hsplit : pieces d a = (pieces d a).dropLast ++ [(pieces d a).getLast hne] := (List.dropLast_concat_getLast hne).symm
  rw [pieces_suffix b hsplit, List.length_append]
  have h1 : 0 < (pieces d ((pieces d a).getLast hne ++ b)).length := List.length_pos_iff.mpr (pieces_ne _ _)
  simp
  omega

theorem pieces_mem {d : Nat} {a : List Nat} {c : Nat} (hc : c ∈ a) (hd : c ≠ d) : ∃ p ∈ pieces d a, c ∈ p := by
  induction a with
  | nil => simp at hc
  | cons x xs ih =>
    simp only [pieces]
    obtain ⟨p, ps, h⟩ := pieces_cons d xs
    rcases List.mem_cons.mp hc with hc | hc
    · subst hc
      rw [if_neg hd, h]
      exact ⟨c :: p, by simp, by simp⟩
    · obtain ⟨q, hq, hq'⟩ := ih hc
      split
      · exact ⟨q, List.mem_cons_of_mem _ hq, hq'⟩
      · rw [h] at hq ⊢
        rcases List.mem_cons.mp hq with hq | hq
        · subst hq; exact ⟨x :: q, by simp, by simp [hq']⟩
        · exact ⟨q, by simp [hq], hq'⟩

/-- A piece that cannot be a key. -/
def Wrong (p : List Nat) : Prop := p = [] ∨ 32 ∈ p

/-- What the scan of a part of a block finds. -/
theorem scan_spec (d : Nat) (full : List Nat) (cnt : Nat) : ∀ (xs pre a : List Nat) (s : Nat) (_ : full = pre ++ xs) (_ : pre.drop s = a)
    (_ : s ≤ pre.length) (_ : d ∉ a) (_ : 32 ∉ a),
    (∀ qs, scan d cnt s pre.length xs = some qs →
      qs.map (fun q => (full.drop q.1).take q.2) = pieces d (a ++ xs) ∧ (∀ q ∈ qs, q.1 + q.2 ≤ full.length) ∧
      (∀ p ∈ pieces d (a ++ xs), ¬ Wrong p) ∧ qs.length ≤ cnt) ∧
    (scan d cnt s pre.length xs = none → cnt < (pieces d (a ++ xs)).length ∨ ∃ p ∈ pieces d (a ++ xs), Wrong p) := by
  intro xs
  induction xs generalizing cnt with
  | nil =>
    intro pre a s hf ha hs hd h32
    have hfp : full = pre := by simpa using hf
    have hlen : a.length = pre.length - s := by rw [← ha]; simp
    cases cnt with
    | zero =>
      refine ⟨fun qs h => by simp [scan] at h, fun _ => ?_⟩
      left
      exact List.length_pos_iff.mpr (pieces_ne _ _)
    | succ cnt =>
      simp only [scan, List.append_nil, pieces_self hd]
      by_cases he : s = pre.length
      · have : a = [] := by
          apply List.length_eq_zero_iff.mp; omega
        simp [he, this, Wrong]
      · rw [if_neg he]
        refine ⟨fun qs h => ?_, fun h => by simp at h⟩
        simp at h
        subst h
        have hane : a ≠ [] := by
          intro h0; rw [h0] at hlen; simp at hlen; omega
        refine ⟨?_, ?_, ?_, ?_⟩
        · simp [hfp, ha, ← hlen]
        · simp [hfp]; omega
        · simp [Wrong, hane, h32]
        · simp
  | cons c rest ih =>
    intro pre a s hf ha hs hd h32
    have hlen : a.length = pre.length - s := by rw [← ha]; simp
    cases cnt with
    | zero =>
      refine ⟨fun qs h => by simp [scan] at h, fun _ => ?_⟩
      left
      exact List.length_pos_iff.mpr (pieces_ne _ _)
    | succ cnt =>
      simp only [scan]
      by_cases hc : c = d
      · subst hc
        rw [if_pos rfl, pieces_delim, pieces_self hd]
        by_cases he : s = pre.length
        · have h0 : a = [] := by
            apply List.length_eq_zero_iff.mp; omega
          rw [if_pos he]
          refine ⟨fun qs h => (by cases h), fun _ => Or.inr ⟨a, by simp, Or.inl h0⟩⟩
        · rw [if_neg he]
          have hane : a ≠ [] := by
            intro h0; rw [h0] at hlen; simp at hlen; omega
          have := ih cnt (pre ++ [c]) [] (pre.length + 1) (by simp [hf]) (by simp) (by simp) (by simp) (by simp)
          simp only [List.length_append, List.length_singleton, List.nil_append] at this
          obtain ⟨i1, i2⟩ := this
          refine ⟨fun qs h => ?_, fun h => ?_⟩
          · cases hsc : scan c cnt (pre.length + 1) (pre.length + 1) rest with
            | none => rw [hsc] at h; simp at h
            | some qs' =>
              rw [hsc] at h
              simp at h
              subst h
              obtain ⟨j1, j2, j3, j4⟩ := i1 qs' hsc
              refine ⟨?_, ?_, ?_, ?_⟩
              · simp only [List.map_cons, j1, List.singleton_append]
                congr 1
                have : full.drop s = a ++ c :: rest := by
                  rw [hf, List.drop_append_of_le_length hs, ha]
                rw [this, ← hlen]
                simp
              · intro q hq
                rcases List.mem_cons.mp hq with hq | hq
                · subst hq; simp [hf]; omega
                · exact j2 q hq
              · intro p hp
                simp at hp
                rcases hp with hp | hp
                · subst hp
                  simp [Wrong, hane, h32]
                · exact j3 p hp
              · simp; omega
          · have hn : scan c cnt (pre.length + 1) (pre.length + 1) rest = none := by
              cases hsc : scan c cnt (pre.length + 1) (pre.length + 1) rest with
              | none => rfl
              | some qs' => rw [hsc] at h; simp at h
            rcases i2 hn with h1 | ⟨p, hp, hw⟩
            · left; simp; omega
            · right; exact ⟨p, by simp [hp], hw⟩
      · rw [if_neg hc]
        by_cases h3 : c = 32
        · rw [if_pos h3]
          refine ⟨fun qs h => (by cases h), fun _ => Or.inr ?_⟩
          have : (32 : Nat) ∈ a ++ c :: rest := by simp [h3]
          obtain ⟨p, hp, hp'⟩ := pieces_mem (d := d) this (by rw [← h3]; exact hc)
          exact ⟨p, hp, Or.inr hp'⟩
        · rw [if_neg h3]
          have := ih (cnt + 1) (pre ++ [c]) (a ++ [c]) s (by simp [hf])
            (by rw [List.drop_append_of_le_length hs, ha]) (by simp; omega)
            (by simp [hd]; exact fun h => hc h.symm) (by simp [h32]; exact fun h => h3 h.symm)
          simp only [List.length_append, List.length_singleton, List.append_assoc, List.singleton_append] at this
          exact this

/-- The scan of a whole part. -/
theorem scan_some {d cnt : Nat} {xs : List Nat} {qs : List (Nat × Nat)} (h : scan d cnt 0 0 xs = some qs) :
    qs.map (fun q => (xs.drop q.1).take q.2) = pieces d xs ∧ (∀ q ∈ qs, q.1 + q.2 ≤ xs.length) ∧
      (∀ p ∈ pieces d xs, ¬ Wrong p) ∧ qs.length ≤ cnt := by
  have := (scan_spec d xs cnt xs [] [] 0 rfl rfl (Nat.le_refl _) (by simp) (by simp)).1 qs h
  simpa using this

theorem scan_none {d cnt : Nat} {xs : List Nat} (h : scan d cnt 0 0 xs = none) :
    cnt < (pieces d xs).length ∨ ∃ p ∈ pieces d xs, Wrong p := by
  have := (scan_spec d xs cnt xs [] [] 0 rfl rfl (Nat.le_refl _) (by simp) (by simp)).2 h
  simpa using this

end Verif.Keys
