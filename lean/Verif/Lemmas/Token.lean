import Verif.Model.Token
import Verif.Spec.Token
/-
Splitting a line into tokens, with or without a limit for their number.
-/

namespace Verif.Token
open Spec

/-- All words, after `cur` has been read. -/
def wordsFrom : List Nat → List Nat → List (List Nat)
  | cur, [] => if cur = [] then [] else [cur]
  | cur, b :: r =>
    if b = 32 then if cur = [] then wordsFrom [] r else cur :: wordsFrom [] r
    else wordsFrom (cur ++ [b]) r

/-- The words that are left. -/
def restWords : Option (List Nat) → List (List Nat)
  | none => []
  | some r => wordsFrom [] r

theorem tokLoop_words (l : List Nat) (h0 : 0 ∉ l) (k : Nat) (cur : List Nat) (hk : 0 < k) :
    wordsFrom cur l = (tokLoop k cur l).1 ++ restWords (tokLoop k cur l).2 ∧
      (∀ r, (tokLoop k cur l).2 = some r → r.length < l.length ∧ 0 ∉ r ∧ r ≠ []) := by
  induction l generalizing k cur with
  | nil => exact ⟨by simp [wordsFrom, tokLoop, restWords], fun r h => by simp [tokLoop] at h⟩
  | cons b r ih =>
    have h0' : 0 ∉ r := fun h => h0 (by simp [h])
    unfold wordsFrom tokLoop
    by_cases hb : b = 32
    · rw [if_pos hb, if_pos hb]
      by_cases hc : cur = []
      · rw [if_pos hc, if_pos hc]
        obtain ⟨h1, h2⟩ := ih h0' k [] hk
        exact ⟨h1, fun r' h => by have := h2 r' h; simp only [List.length_cons]; exact ⟨by omega, this.2⟩⟩
      · rw [if_neg hc, if_neg hc]
        by_cases hk1 : k = 1
        · rw [if_pos hk1]
          cases r with
          | nil => exact ⟨by simp [wordsFrom, restWords], fun r h => by simp at h⟩
          | cons c r' =>
            have hc0 : c ≠ 0 := fun h => h0' (by simp [h])
            simp only [if_neg hc0, restWords, List.singleton_append, true_and]
            intro x hx
            cases hx
            exact ⟨by simp, h0', by simp⟩
        · rw [if_neg hk1]
          obtain ⟨h1, h2⟩ := ih h0' (k - 1) [] (by omega)
          refine ⟨by rw [h1]; rfl, fun r' h => ?_⟩
          have := h2 r' h
          simp only [List.length_cons]
          exact ⟨by omega, this.2⟩
    · rw [if_neg hb, if_neg hb]
      obtain ⟨h1, h2⟩ := ih h0' k (cur ++ [b]) hk
      exact ⟨h1, fun r' h => by have := h2 r' h; simp only [List.length_cons]; exact ⟨by omega, this.2⟩⟩

/-- What is left is left for want of room. -/
theorem tokLoop_full (l : List Nat) (k : Nat) (cur : List Nat) (hk : 0 < k) (h : (tokLoop k cur l).2 ≠ none) : (tokLoop k cur l).1.length = k := by
  induction l generalizing k cur with
  | nil => simp [tokLoop] at h
  | cons b r ih =>
    unfold tokLoop at h ⊢
    by_cases hb : b = 32
    · rw [if_pos hb] at h ⊢
      by_cases hc : cur = []
      · rw [if_pos hc] at h ⊢
        exact ih k [] hk h
      · rw [if_neg hc] at h ⊢
        by_cases hk1 : k = 1
        · rw [if_pos hk1]; simp [hk1]
        · rw [if_neg hk1] at h ⊢
          have := ih (k - 1) [] (by omega) h
          simp only [List.length_cons, this]
          omega
    · rw [if_neg hb] at h ⊢
      exact ih k (cur ++ [b]) hk h

/-- A blank in front changes nothing. -/
theorem Spec.Words.blank {l : List Nat} {ws : List (List Nat)} (h : Words l ws) : Words (32 :: l) ws := by
  cases h with
  | nil _ hb =>
    refine .nil _ (fun x hx => ?_)
    rcases List.mem_cons.1 hx with e | hx
    · exact e
    · exact hb x hx
  | cons b w rest ws h1 h2 h3 h4 h5 =>
    have := Words.cons (32 :: b) w rest ws (fun x hx => by
      rcases List.mem_cons.1 hx with e | hx
      · exact e
      · exact h1 x hx) h2 h3 h4 h5
    simpa using this

/-- A line of words that have begun. -/
theorem wordsFrom_spec (l : List Nat) (cur : List Nat) (hc : 32 ∉ cur) :
    (cur = [] → Words l (wordsFrom [] l)) ∧
      (cur ≠ [] → ∃ w rest ws, wordsFrom cur l = (cur ++ w) :: ws ∧ l = w ++ rest ∧ 32 ∉ w ∧ (∀ x, rest.head? = some x → x = 32) ∧ Words rest ws) := by
  induction l generalizing cur with
  | nil =>
    refine ⟨fun _ => by simpa [wordsFrom] using Words.nil [] (by simp), fun h => ⟨[], [], [], by simp [wordsFrom, h], rfl, by simp, by simp, .nil [] (by simp)⟩⟩
  | cons b r ih =>
    by_cases hb : b = 32
    · subst hb
      have ih0 := (ih [] (by simp)).1 rfl
      refine ⟨fun _ => ?_, fun h => ?_⟩
      · simp only [wordsFrom, if_true]
        exact ih0.blank
      · exact ⟨[], 32 :: r, wordsFrom [] r, by simp [wordsFrom, h], rfl, by simp, by simp, ih0.blank⟩
    · have hb' : ¬ (32 = b) := fun h => hb h.symm
      refine ⟨fun hcur => ?_, fun h => ?_⟩
      · obtain ⟨w, rest, ws, e1, e2, e3, e4, e5⟩ := (ih [b] (by simp [hb'])).2 (by simp)
        have : wordsFrom [] (b :: r) = ([b] ++ w) :: ws := by simp only [wordsFrom, if_neg hb, List.nil_append]; exact e1
        rw [this, e2]
        have := Words.cons [] ([b] ++ w) rest ws (by simp) (by simp) (by simp [hb', e3]) e4 e5
        simpa using this
      · obtain ⟨w, rest, ws, e1, e2, e3, e4, e5⟩ := (ih (cur ++ [b]) (by simp [hc, hb'])).2 (by simp)
        refine ⟨b :: w, rest, ws, ?_, by rw [e2]; rfl, by simp [hb', e3], e4, e5⟩
        simp only [wordsFrom, if_neg hb]
        rw [e1]; simp

theorem words_unique {l : List Nat} {ws : List (List Nat)} (h : Words l ws) : ws = wordsFrom [] l := by
  have skip : ∀ b : List Nat, (∀ x ∈ b, x = 32) → ∀ r, wordsFrom [] (b ++ r) = wordsFrom [] r := by
    intro b hb r
    induction b with
    | nil => rfl
    | cons x b ih =>
      rw [hb x (by simp), List.cons_append]
      simp only [wordsFrom, if_true]
      exact ih (fun x hx => hb x (by simp [hx]))
  have read : ∀ w : List Nat, 32 ∉ w → ∀ cur r, wordsFrom cur (w ++ r) = wordsFrom (cur ++ w) r := by
    intro w hw
    induction w with
    | nil => intro cur r; simp
    | cons x w ih =>
      intro cur r
      have hx : x ≠ 32 := fun h => hw (by simp [h])
      rw [List.cons_append]
      simp only [wordsFrom, if_neg hx]
      rw [ih (fun h => hw (by simp [h]))]
      simp
  induction h with
  | nil b hb => have := skip b hb []; rw [List.append_nil] at this; rw [this]; rfl
  | cons b w rest ws h1 h2 h3 h4 h5 ih =>
    rw [List.append_assoc, skip b h1, read w h3, List.nil_append]
    cases rest with
    | nil => rw [ih]; simp [wordsFrom, h2]
    | cons x r =>
      have := h4 x rfl
      subst this
      rw [ih]
      simp [wordsFrom, h2]

theorem lookUp_short (ts : List (List Nat)) (h : ∀ t ∈ ts, t.length ≤ keyMax) : lookUp ts = (ts, true) := by
  induction ts with
  | nil => rfl
  | cons t ts ih =>
    have := h t (by simp)
    simp only [lookUp, if_neg (by omega : ¬ keyMax < t.length), ih (fun t ht => h t (by simp [ht]))]

theorem lookUp_long (ts : List (List Nat)) (h : ∃ t ∈ ts, keyMax < t.length) :
    ∃ a t b, ts = a ++ t :: b ∧ (∀ x ∈ a, x.length ≤ keyMax) ∧ keyMax < t.length ∧ lookUp ts = (a, false) := by
  induction ts with
  | nil => obtain ⟨t, ht, _⟩ := h; simp at ht
  | cons t ts ih =>
    by_cases ht : keyMax < t.length
    · exact ⟨[], t, ts, rfl, by simp, ht, by simp [lookUp, ht]⟩
    · obtain ⟨x, hx, hl⟩ := h
      have hx' : x ∈ ts := by
        rcases List.mem_cons.1 hx with rfl | hx
        · exact absurd hl ht
        · exact hx
      obtain ⟨a, t', b, e1, e2, e3, e4⟩ := ih ⟨x, hx', hl⟩
      refine ⟨t :: a, t', b, by rw [e1]; rfl, ?_, e3, by simp only [lookUp, if_neg ht, e4]⟩
      intro y hy
      rcases List.mem_cons.1 hy with rfl | hy
      · omega
      · exact e2 y hy

theorem getLoop_ok (f : Nat) (ts : List (List Nat)) (rest : Option (List Nat)) (h0 : ∀ r, rest = some r → 0 ∉ r ∧ r.length < f) (hf : 0 < f) :
    ∃ ks ok, getLoop f ts rest = some (ks, ok) ∧
      ((∀ t ∈ ts ++ restWords rest, t.length ≤ keyMax) → ok = true ∧ ks = ts ++ restWords rest) ∧
      ((∃ t ∈ ts ++ restWords rest, keyMax < t.length) → ok = false ∧ ∃ t b, ts ++ restWords rest = ks ++ t :: b ∧ (∀ k ∈ ks, k.length ≤ keyMax) ∧ keyMax < t.length) := by
  induction f generalizing ts rest with
  | zero => omega
  | succ f ih =>
    by_cases hts : ∃ t ∈ ts, keyMax < t.length
    · obtain ⟨a, t, b, e1, e2, e3, e4⟩ := lookUp_long ts hts
      unfold getLoop
      simp only [e4, if_true]
      refine ⟨a, false, rfl, fun h => ?_, fun _ => ⟨rfl, t, b ++ restWords rest, by rw [e1]; simp, e2, e3⟩⟩
      have := h t (by rw [e1]; simp)
      omega
    · have hs : ∀ t ∈ ts, t.length ≤ keyMax := fun t ht => by
        by_cases hx : keyMax < t.length
        · exact absurd ⟨t, ht, hx⟩ hts
        · omega
      have hl := lookUp_short ts hs
      unfold getLoop
      simp only [hl, Bool.true_eq_false, if_false]
      cases rest with
      | none =>
        refine ⟨ts, true, rfl, fun _ => ⟨rfl, by simp [restWords]⟩, fun h => ?_⟩
        simp only [restWords, List.append_nil] at h
        exact absurd h hts
      | some r =>
        obtain ⟨hr0, hrl⟩ := h0 r rfl
        obtain ⟨w1, w2⟩ := tokLoop_words r hr0 (maxTokens - 1) [] (by decide)
        simp only
        have htok : tokenize r = tokLoop (maxTokens - 1) [] r := rfl
        rw [htok]
        by_cases hend : (tokLoop (maxTokens - 1) [] r).1 = [] ∧ (tokLoop (maxTokens - 1) [] r).2 = none
        · rw [if_pos hend]
          have : restWords (some r) = [] := by
            show wordsFrom [] r = []
            rw [w1, hend.1, hend.2]; rfl
          rw [this, List.append_nil]
          exact ⟨ts, true, rfl, fun _ => ⟨rfl, rfl⟩, fun h => absurd h hts⟩
        · rw [if_neg hend]
          have hfpos : 0 < f := by
            have : 0 < r.length ∨ r = [] := by
              cases r with
              | nil => exact .inr rfl
              | cons _ _ => exact .inl (by simp)
            rcases this with h | h
            · omega
            · subst h
              exact absurd (by simp [tokLoop]) hend
          obtain ⟨ks, ok, e, p1, p2⟩ := ih (tokLoop (maxTokens - 1) [] r).1 (tokLoop (maxTokens - 1) [] r).2 (fun x hx => by
            have := w2 x hx
            exact ⟨this.2.1, by omega⟩) hfpos
          rw [← w1] at p1 p2
          rw [e]
          refine ⟨ts ++ ks, ok, rfl, fun h => ?_, fun h => ?_⟩
          · obtain ⟨a, b⟩ := p1 (fun t ht => h t (by simp only [restWords]; simp [ht]))
            exact ⟨a, by rw [b]; rfl⟩
          · obtain ⟨t, ht, hlt⟩ := h
            rcases List.mem_append.1 ht with ht | ht
            · exact absurd ⟨t, ht, hlt⟩ hts
            · obtain ⟨a, t', b, e', hs', hb⟩ := p2 ⟨t, ht, hlt⟩
              refine ⟨a, t', b, by simp only [restWords]; rw [e']; simp, fun k hk => ?_, hb⟩
              rcases List.mem_append.1 hk with hk | hk
              · exact hs k hk
              · exact hs' k hk

/-- The first round of a line of at least two words. -/
theorem getParts (l : List Nat) (h0 : 0 ∉ l) (name k : List Nat) (ks : List (List Nat)) (h : wordsFrom [] l = name :: k :: ks) :
    ∃ ts rest, tokenize l = (name :: k :: ts, rest) ∧ ks = ts ++ restWords rest ∧ ∀ r, rest = some r → r.length < l.length ∧ 0 ∉ r := by
  obtain ⟨w1, w2⟩ := tokLoop_words l h0 (maxTokens - 1) [] (by decide)
  have hfew := tokLoop_full l (maxTokens - 1) [] (by decide)
  have htok : tokenize l = tokLoop (maxTokens - 1) [] l := rfl
  rw [htok]
  rw [h] at w1
  generalize hr : tokLoop (maxTokens - 1) [] l = r at w1 w2 hfew
  obtain ⟨ts, rest⟩ := r
  simp only at w1 w2 hfew
  cases rest with
  | none =>
    simp only [restWords, List.append_nil] at w1
    subst w1
    exact ⟨ks, none, rfl, by simp [restWords], fun r hr => by cases hr⟩
  | some r =>
    have := hfew (by simp)
    cases ts with
    | nil => simp [maxTokens] at this
    | cons t ts =>
      cases ts with
      | nil => simp [maxTokens] at this
      | cons t' ts =>
        simp only [List.cons_append, List.cons.injEq] at w1
        obtain ⟨rfl, rfl, rfl⟩ := w1
        exact ⟨ts, some r, rfl, rfl, fun x hx => ⟨(w2 x hx).1, (w2 x hx).2.1⟩⟩

theorem firstLong_unique {a b a' : List (List Nat)} {t : List Nat} {l : List (List Nat)} (h : l = a ++ t :: b) (ha : ∀ k ∈ a, k.length ≤ keyMax)
    (ht : keyMax < t.length) (h' : ∃ t' b', l = a' ++ t' :: b' ∧ (∀ k ∈ a', k.length ≤ keyMax) ∧ keyMax < t'.length) : a' = a := by
  obtain ⟨t', b', e, ha', ht'⟩ := h'
  subst h
  induction a generalizing a' with
  | nil =>
    cases a' with
    | nil => rfl
    | cons x a' =>
      simp only [List.nil_append, List.cons_append, List.cons.injEq] at e
      have := ha' x (by simp)
      rw [← e.1] at this
      omega
  | cons x a ih =>
    cases a' with
    | nil =>
      simp only [List.nil_append, List.cons_append, List.cons.injEq] at e
      have := ha x (by simp)
      rw [e.1] at this
      omega
    | cons y a' =>
      simp only [List.cons_append, List.cons.injEq] at e
      rw [e.1, ih (fun k hk => ha k (by simp [hk])) (fun k hk => ha' k (by simp [hk])) e.2]

end Verif.Token
