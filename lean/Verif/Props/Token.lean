import Verif.Lemmas.Token
/-
A `get` command looks up the keys it names (C69).
-/

namespace Verif.Token.Props
open Spec

/-- The names of the commands. -/
def Get (name : List Nat) : Prop := name = [103, 101, 116] ∨ name = [103, 101, 116, 115]

/-- The full claim of C69.  It does not hold, see `C69_false`. -/
def C69_Full : Prop :=
  ∀ (l name : List Nat) (keys : List (List Nat)), Words l (name :: keys) → Get name → keys ≠ [] → (∀ k ∈ keys, k.length ≤ 16000) →
    get l = some (keys, true)

/-- C69 (partial: the line has no byte 0).  A `get` with any number of keys looks up all the keys it names, in their order and no others; if one
is too long, it looks up those before the first such key and answers with an error. -/
theorem C69_partial (l name : List Nat) (keys : List (List Nat)) (h0 : 0 ∉ l) (hw : Words l (name :: keys)) (hn : Get name) (hk : keys ≠ []) :
    ((∀ k ∈ keys, k.length ≤ 16000) → get l = some (keys, true)) ∧
    ∀ a t b, keys = a ++ t :: b → (∀ k ∈ a, k.length ≤ 16000) → 16000 < t.length → get l = some (a, false) := by
  have hu := words_unique hw
  obtain ⟨k, ks, rfl⟩ := List.exists_cons_of_ne_nil hk
  have hg := getParts l h0 name k ks hu.symm
  obtain ⟨ts, rest, e1, e2, e3⟩ := hg
  have hcs : cstr name = name := by rcases hn with rfl | rfl <;> rfl
  have hget : get l = getLoop (l.length + 1) (k :: ts) rest := by
    simp only [get, e1, hcs]
    rw [if_pos (show name = [103, 101, 116] ∨ name = [103, 101, 116, 115] from hn)]
  obtain ⟨r, ok, g1, g2, g3⟩ := getLoop_ok (l.length + 1) (k :: ts) rest (fun r hr => ⟨(e3 r hr).2, by have := (e3 r hr).1; omega⟩) (by omega)
  rw [hget, g1]
  have e4 : k :: ts ++ restWords rest = k :: ks := by rw [e2]; rfl
  rw [e4] at g2 g3
  refine ⟨fun h => ?_, fun a t b hab ha ht => ?_⟩
  · obtain ⟨rfl, rfl⟩ := g2 h
    rfl
  · obtain ⟨p1, p2⟩ := g3 ⟨t, by rw [hab]; simp, ht⟩
    have := firstLong_unique hab ha ht p2
    rw [p1, this]

/-- Thirty keys, more than the tokens of one round. -/
def many : List Nat := [103, 101, 116] ++ (List.range 30).flatMap (fun i => [32, 97 + i])

-- thirty keys: 27 of them in the first round
example : get many = some ((List.range 30).map (fun i => [97 + i]), true) := by decide +kernel
-- the hypotheses of `C69_partial` are met
example : Words [103, 101, 116, 32, 32, 97, 32, 98] [[103, 101, 116], [97], [98]] :=
  .cons [] [103, 101, 116] _ _ (by simp) (by simp) (by simp) (by simp) (.cons [32, 32] [97] _ _ (by simp) (by simp) (by simp) (by simp)
    (.cons [32] [98] [] _ (by simp) (by simp) (by simp) (by simp) (.nil [] (by simp))))
example : 0 ∉ [103, 101, 116, 32, 32, 97, 32, 98] := by decide

/-- Twenty-eight keys, then a key that begins with the byte 0, and one more. -/
def zeroLine : List Nat := [103, 101, 116] ++ (List.range 28).flatMap (fun i => [32, 97 + i]) ++ [32, 0, 32, 120]

/-- C69 does not hold as such: if the thirtieth word of the line begins with a byte 0, it and the words behind it are not looked up. -/
theorem C69_false : ¬ C69_Full := by
  intro h
  have hw : Words zeroLine (wordsFrom [] zeroLine) := (wordsFrom_spec zeroLine [] (by simp)).1 rfl
  have e : wordsFrom [] zeroLine = [103, 101, 116] :: ((List.range 28).map (fun i => [97 + i]) ++ [[0], [120]]) := by decide +kernel
  rw [e] at hw
  have := h zeroLine [103, 101, 116] _ hw (.inl rfl) (by simp) (by decide)
  have hg : get zeroLine = some ((List.range 28).map (fun i => [97 + i]), true) := by decide +kernel
  rw [hg] at this
  simp at this

end Verif.Token.Props
