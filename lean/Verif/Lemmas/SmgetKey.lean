import Verif.Spec.Smget
import Verif.Lemmas.BTreeStep
/-!
# Sort-merge get: comparisons
-/
namespace Verif.Smget
open Verif.BT Verif.BT.Spec

theorem strncmp_spec (a b : List Nat) (n : Nat) (ha : n ≤ a.length) (hb : n ≤ b.length) (h0 : 0 ∉ a) :
    (strncmp a b n = some .lt ∧ List.Lex (· < ·) a b) ∨ (strncmp a b n = some .eq ∧ a.take n = b.take n) ∨
    (strncmp a b n = some .gt ∧ List.Lex (· < ·) b a) := by
  induction n generalizing a b with
  | zero => exact .inr (.inl ⟨by simp [strncmp], by simp⟩)
  | succ n ih =>
    cases a with
    | nil => simp at ha
    | cons x xs =>
      cases b with
      | nil => simp at hb
      | cons y ys =>
        have hx : x ≠ 0 := fun h => h0 (h ▸ List.mem_cons_self)
        rw [strncmp]
        by_cases h1 : x < y
        · rw [if_pos h1]; exact .inl ⟨rfl, .rel h1⟩
        · rw [if_neg h1]
          by_cases h2 : y < x
          · rw [if_pos h2]; exact .inr (.inr ⟨rfl, .rel h2⟩)
          · have hxy : x = y := by omega
            subst hxy
            rw [if_neg h2, if_neg hx]
            simp only [List.length_cons] at ha hb
            rcases ih xs ys (by omega) (by omega) (fun h => h0 (List.mem_cons_of_mem _ h)) with ⟨h, k⟩ | ⟨h, k⟩ | ⟨h, k⟩
            · exact .inl ⟨h, .cons k⟩
            · exact .inr (.inl ⟨h, by simp [k]⟩)
            · exact .inr (.inr ⟨h, .cons k⟩)

theorem lex_prefix {a b : List Nat} (h : a.length < b.length) (ht : a = b.take a.length) : List.Lex (· < ·) a b := by
  induction a generalizing b with
  | nil =>
    cases b with
    | nil => simp at h
    | cons => exact .nil
  | cons x xs ih =>
    cases b with
    | nil => simp at h
    | cons y ys =>
      simp only [List.length_cons, List.take_succ_cons, List.cons.injEq] at ht h
      obtain ⟨rfl, ht⟩ := ht
      exact .cons (ih (by omega) ht)

/-- The three outcomes of a comparison of keys. -/
theorem compHkey_spec {a b : List Nat} (h0 : 0 ∉ a) :
    (compHkey a b = some .lt ∧ List.Lex (· < ·) a b) ∨ (compHkey a b = some .eq ∧ a = b) ∨
    (compHkey a b = some .gt ∧ List.Lex (· < ·) b a) := by
  unfold compHkey
  by_cases h1 : a.length = b.length
  · rw [if_pos h1]
    rcases strncmp_spec a b a.length (by omega) (by omega) h0 with h | ⟨h, k⟩ | h
    · exact .inl h
    · refine .inr (.inl ⟨h, ?_⟩)
      rw [List.take_of_length_le (by omega), List.take_of_length_le (by omega)] at k
      exact k
    · exact .inr (.inr h)
  · rw [if_neg h1]
    by_cases h2 : a.length < b.length
    · rw [if_pos h2]
      rcases strncmp_spec a b a.length (by omega) (by omega) h0 with ⟨h, k⟩ | ⟨h, k⟩ | ⟨h, k⟩
      · rw [h]; exact .inl ⟨rfl, k⟩
      · rw [h]
        rw [List.take_of_length_le (Nat.le_refl _)] at k
        exact .inl ⟨rfl, lex_prefix h2 k⟩
      · rw [h]; exact .inr (.inr ⟨rfl, k⟩)
    · rw [if_neg h2]
      rcases strncmp_spec a b b.length (by omega) (by omega) h0 with ⟨h, k⟩ | ⟨h, k⟩ | ⟨h, k⟩
      · rw [h]; exact .inl ⟨rfl, k⟩
      · rw [h]
        rw [List.take_of_length_le (Nat.le_refl b.length)] at k
        exact .inr (.inr ⟨rfl, lex_prefix (by omega) k.symm⟩)
      · rw [h]; exact .inr (.inr ⟨rfl, k⟩)

/-- Lexicographic order in a direction. -/
def LexD (asc : Bool) (a b : List Nat) : Prop := if asc then List.Lex (· < ·) a b else List.Lex (· < ·) b a

theorem lexD_irrefl {asc : Bool} {a : List Nat} : ¬ LexD asc a a := by cases asc <;> exact lex_irrefl a

theorem lexD_trans {asc : Bool} {a b c : List Nat} (h1 : LexD asc a b) (h2 : LexD asc b c) : LexD asc a c := by
  cases asc
  · exact lex_trans (show List.Lex (· < ·) c b from h2) h1
  · exact lex_trans (show List.Lex (· < ·) a b from h1) h2

/-- The order of the answer in a direction. -/
def Lt (asc : Bool) (x y : Got) : Prop :=
  Before asc x.elem.bkey y.elem.bkey ∨ (x.elem.bkey = y.elem.bkey ∧ LexD asc x.key y.key)

theorem lt_irrefl {asc : Bool} {x : Got} : ¬ Lt asc x x := by
  rintro (h | ⟨-, h⟩)
  · exact before_irrefl h
  · exact lexD_irrefl h

theorem lt_trans {asc : Bool} {x y z : Got} (h1 : Lt asc x y) (h2 : Lt asc y z) : Lt asc x z := by
  rcases h1 with h1 | ⟨e1, h1⟩ <;> rcases h2 with h2 | ⟨e2, h2⟩
  · exact .inl (before_trans h1 h2)
  · exact .inl (e2 ▸ h1)
  · exact .inl (e1 ▸ h2)
  · exact .inr ⟨e1.trans e2, lexD_trans h1 h2⟩

theorem lt_asymm {asc : Bool} {x y : Got} (h1 : Lt asc x y) (h2 : Lt asc y x) : False := lt_irrefl (lt_trans h1 h2)

/-- A bkey that can be compared with those of the request. -/
def Kin (k0 : BKey) (k : BKey) : Prop := SameKind k0 k ∧ NonEmpty k

/-- What can be compared: bkeys of one kind, keys without zero bytes. -/
def Fine (k0 : BKey) (x : Got) : Prop := Kin k0 x.elem.bkey ∧ 0 ∉ x.key

theorem comp_dir {asc : Bool} {k0 a b : BKey} (ha : Kin k0 a) (hb : Kin k0 b) :
    ((bkeyComp a b).map (dir asc) = some .lt ∧ Before asc a b) ∨ ((bkeyComp a b).map (dir asc) = some .eq ∧ a = b) ∨
    ((bkeyComp a b).map (dir asc) = some .gt ∧ Before asc b a) := by
  rcases bkeyComp_spec (ha.1.symm.trans hb.1) ha.2 hb.2 with ⟨h, k⟩ | ⟨h, k⟩ | ⟨h, k⟩ <;> rw [h] <;> cases asc
  · exact .inr (.inr ⟨rfl, k⟩)
  · exact .inl ⟨rfl, k⟩
  · exact .inr (.inl ⟨rfl, k⟩)
  · exact .inr (.inl ⟨rfl, k⟩)
  · exact .inl ⟨rfl, k⟩
  · exact .inr (.inr ⟨rfl, k⟩)

theorem hkey_dir {asc : Bool} {a b : List Nat} (h0 : 0 ∉ a) :
    ((compHkey a b).map (dir asc) = some .lt ∧ LexD asc a b) ∨ ((compHkey a b).map (dir asc) = some .eq ∧ a = b) ∨
    ((compHkey a b).map (dir asc) = some .gt ∧ LexD asc b a) := by
  rcases compHkey_spec (b := b) h0 with ⟨h, k⟩ | ⟨h, k⟩ | ⟨h, k⟩ <;> rw [h] <;> cases asc
  · exact .inr (.inr ⟨rfl, k⟩)
  · exact .inl ⟨rfl, k⟩
  · exact .inr (.inl ⟨rfl, k⟩)
  · exact .inr (.inl ⟨rfl, k⟩)
  · exact .inl ⟨rfl, k⟩
  · exact .inr (.inr ⟨rfl, k⟩)

theorem scanComp_eq (asc : Bool) (x y : Scan) :
    scanComp asc x y = match (bkeyComp x.elem.bkey y.elem.bkey).map (dir asc) with
      | none => none
      | some .eq => (compHkey x.key y.key).map (dir asc)
      | some o => some o := by
  unfold scanComp
  cases bkeyComp x.elem.bkey y.elem.bkey with
  | none => rfl
  | some o => cases o <;> cases asc <;> rfl

/-- The three outcomes of a comparison of scans. -/
theorem scanComp_spec {asc : Bool} {k0 : BKey} {x y : Scan} (hx : Fine k0 x.got) (hy : Fine k0 y.got) :
    (scanComp asc x y = some .lt ∧ Lt asc x.got y.got) ∨
    (scanComp asc x y = some .eq ∧ x.elem.bkey = y.elem.bkey ∧ x.key = y.key) ∨
    (scanComp asc x y = some .gt ∧ Lt asc y.got x.got) := by
  rw [scanComp_eq]
  rcases comp_dir (asc := asc) hx.1 hy.1 with ⟨h, k⟩ | ⟨h, k⟩ | ⟨h, k⟩ <;> simp only [Scan.got] at h k <;> rw [h]
  · exact .inl ⟨rfl, .inl k⟩
  · rcases hkey_dir (asc := asc) (b := y.key) hx.2 with ⟨h', k'⟩ | ⟨h', k'⟩ | ⟨h', k'⟩ <;> simp only [Scan.got] at h' k'
    · exact .inl ⟨h', .inr ⟨k, k'⟩⟩
    · exact .inr (.inl ⟨h', k, k'⟩)
    · exact .inr (.inr ⟨h', .inr ⟨k.symm, k'⟩⟩)
  · exact .inr (.inr ⟨rfl, .inl k⟩)

theorem fine_total {asc : Bool} {k0 : BKey} {x y : Got} (hx : Fine k0 x) (hy : Fine k0 y) :
    Lt asc x y ∨ (x.elem.bkey = y.elem.bkey ∧ x.key = y.key) ∨ Lt asc y x := by
  rcases comp_dir (asc := asc) hx.1 hy.1 with ⟨-, k⟩ | ⟨-, k⟩ | ⟨-, k⟩
  · exact .inl (.inl k)
  · rcases hkey_dir (asc := asc) (b := y.key) hx.2 with ⟨-, k'⟩ | ⟨-, k'⟩ | ⟨-, k'⟩
    · exact .inl (.inr ⟨k, k'⟩)
    · exact .inr (.inl ⟨k, k'⟩)
    · exact .inr (.inr (.inr ⟨k.symm, k'⟩))
  · exact .inr (.inr (.inl k))

end Verif.Smget
