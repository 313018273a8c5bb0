/-
Lemmas about the options of an engine: accesses stay within strings and buffers.
-/
import Verif.Lemmas.Config

namespace Verif.Config

open Verif.Util (isspace)
open Verif.Util.Spec (Space)

theorem copy_end {size lim stop : Nat} : ∀ (L : Text) (i : Nat) (d : Text), L ≠ [] →
    ∃ k, 0 < k ∧ (copyLoop size lim stop L i d).1 = i + k ∧ (copyLoop size lim stop L i d).2.2 = L.drop k ∧
      (i + k = size ∨ i + k ≥ lim ∨ (L.drop k).head? = some stop ∨ L.drop k = [])
  | [], _, _, h => absurd rfl h
  | c :: rest, i, d, _ => by
    rw [copyLoop]
    split
    · rename_i h
      refine ⟨1, by omega, rfl, by simp, ?_⟩
      rw [List.drop_succ_cons, List.drop_zero]
      rcases h with h | h | h | h
      · exact Or.inl h
      · exact Or.inr (Or.inl h)
      · exact Or.inr (Or.inr (Or.inl h.1))
      · exact Or.inr (Or.inr (Or.inr h))
    · rename_i h
      have hr : rest ≠ [] := fun hh => h (Or.inr (Or.inr (Or.inr hh)))
      obtain ⟨k, h1, h2, h3, h4⟩ := copy_end (size := size) (lim := lim) (stop := stop) rest (i + 1)
        (if (c == 92) = true then d else d ++ [c]) hr
      refine ⟨k + 1, by omega, by rw [h2]; omega, by rw [h3, List.drop_succ_cons], ?_⟩
      rw [List.drop_succ_cons, show i + (k + 1) = i + 1 + k by omega]
      exact h4

theorem copy_grows {size lim stop : Nat} : ∀ (L : Text) (i : Nat) (d : Text), d ≠ [] →
    (copyLoop size lim stop L i d).2.1 ≠ []
  | [], _, _, h => h
  | c :: rest, i, d, h => by
    rw [copyLoop]
    have : (if (c == 92) = true then d else d ++ [c]) ≠ [] := by split <;> simp [h]
    split
    · exact this
    · exact copy_grows rest (i + 1) _ this

theorem copy_some {size lim stop : Nat} {L : Text} (i : Nat) (d : Text) (hL : L ≠ []) (h : 92 ∉ L) :
    (copyLoop size lim stop L i d).2.1 ≠ [] := by
  cases L with
  | nil => exact absurd rfl hL
  | cons c rest =>
    have hc : (c == 92) = false := by
      have : c ≠ 92 := fun hh => h (by rw [hh]; exact List.mem_cons_self ..)
      simpa using this
    rw [copyLoop]
    simp only [hc, Bool.false_eq_true, if_false]
    split
    · simp
    · exact copy_grows rest (i + 1) _ (by simp)

/-- Reading a key stops at `=`. -/
theorem copy_key {size lim : Nat} : ∀ (b w : Text) (i : Nat) (d : Text), b ≠ [] → 92 ∉ b →
    i + b.length < lim →
    (copyLoop size lim 61 (b ++ 61 :: w) i d).1 = size ∨
      (copyLoop size lim 61 (b ++ 61 :: w) i d).2.2.head? = some 61
  | [], _, _, _, h, _, _ => absurd rfl h
  | c :: b, w, i, d, _, h92, hl => by
    have hc : (c == 92) = false := by
      have : c ≠ 92 := fun hh => h92 (by rw [hh]; exact List.mem_cons_self ..)
      simpa using this
    rw [List.length_cons] at hl
    rw [List.cons_append, copyLoop]
    simp only [hc, Bool.false_eq_true, if_false]
    by_cases h1 : i + 1 = size
    · rw [if_pos (Or.inl h1)]; exact Or.inl h1
    · by_cases h2 : (b ++ 61 :: w).head? = some 61
      · rw [if_pos (Or.inr (Or.inr (Or.inl ⟨h2, trivial⟩)))]; exact Or.inr h2
      · rw [if_neg]
        · apply copy_key b w (i + 1) _ _ (fun hh => h92 (List.mem_cons_of_mem _ hh)) (by omega)
          rintro rfl
          exact h2 rfl
        · rintro (h | h | h | h)
          · exact h1 h
          · omega
          · exact h2 h.1
          · simp at h

/-- The text after the limit is white space. -/
theorem after_limit {t : Text} (h92 : 92 ∉ t) {k : Nat} (hk : limit t ≤ k) : ∀ c ∈ t.drop k, Space c := by
  have hsplit : t = (t.reverse.dropWhile isspace).reverse ++ (t.reverse.takeWhile isspace).reverse := by
    rw [← List.reverse_append, List.takeWhile_append_dropWhile, List.reverse_reverse]
  have hlim : limit t = (t.reverse.dropWhile isspace).reverse.length := by
    unfold limit
    simp only
    rw [if_neg, List.length_reverse]
    intro hh
    have h1 : 92 ∈ t.reverse.dropWhile isspace := List.mem_of_head? hh
    have h2 := (List.dropWhile_suffix isspace (l := t.reverse)).subset h1
    exact h92 (List.mem_reverse.mp h2)
  intro c hc
  rw [hsplit, List.drop_append] at hc
  rw [hlim] at hk
  rw [List.drop_eq_nil_of_le hk, List.nil_append] at hc
  have := List.mem_of_mem_drop hc
  rw [List.mem_reverse] at this
  exact isspace_iff.mp (List.mem_takeWhile_imp this)

theorem not92_suffix {a b : Text} (h : a <:+ b) (hb : 92 ∉ b) : 92 ∉ a := fun hh => hb (h.subset hh)

theorem trim_safe {size stop : Nat} {src : Text} (h92 : 92 ∉ src) :
    ∃ b t e, trimCopy size src stop = some (b, t, e) ∧
      (b = true → e <:+ src ∧ e.length < src.length ∧ (e.head? = some stop ∨ ∀ c ∈ e, Space c)) := by
  unfold trimCopy
  have hsuf : src.dropWhile isspace <:+ src := List.dropWhile_suffix _
  have h92' := not92_suffix hsuf h92
  simp only
  generalize src.dropWhile isspace = s at hsuf h92' ⊢
  by_cases hs : s = []
  · rw [if_pos hs]; exact ⟨_, _, _, rfl, (fun h => by cases h)⟩
  · rw [if_neg hs]
    obtain ⟨k, hk, h1, h2, h3⟩ := copy_end (size := size) (lim := limit s) (stop := stop) s 0 [] hs
    have h4 := copy_some (size := size) (lim := limit s) (stop := stop) 0 [] hs h92'
    by_cases hn : (copyLoop size (limit s) stop s 0 []).1 = size
    · rw [if_pos hn, if_neg h4]
      exact ⟨_, _, _, rfl, (fun h => by cases h)⟩
    · rw [if_neg hn]
      refine ⟨_, _, _, rfl, fun _ => ?_⟩
      rw [h2]
      have hpos : 0 < s.length := List.length_pos_iff.mpr hs
      refine ⟨(List.drop_suffix _ _).trans hsuf, ?_, ?_⟩
      · have := hsuf.length_le
        rw [List.length_drop]; omega
      · rcases h3 with h | h | h | h
        · rw [h1] at hn; exact absurd h hn
        · right; exact after_limit h92' (by omega)
        · exact Or.inl h
        · right; rw [h]; intro c hc; cases hc

theorem suffix_split {e w : Text} : ∀ {a : Text}, e <:+ a ++ w → e <:+ w ∨ ∃ a', e = a' ++ w
  | [], h => Or.inl h
  | c :: a, h => by
    rcases List.suffix_cons_iff.mp h with h | h
    · exact Or.inr ⟨c :: a, h⟩
    · exact suffix_split h

theorem dropSpace_form {x : Nat} (hx : ¬ Space x) (v : Text) : ∀ (a : Text),
    ∃ a', (a ++ x :: v).dropWhile isspace = a' ++ x :: v
  | [] => ⟨[], by
      rw [List.nil_append, List.dropWhile_cons_of_neg (fun h => hx (isspace_iff.mp h))]⟩
  | c :: a => by
    rw [List.cons_append]
    by_cases hc : isspace c = true
    · rw [List.dropWhile_cons_of_pos hc]; exact dropSpace_form hx v a
    · rw [List.dropWhile_cons_of_neg hc]; exact ⟨c :: a, rfl⟩

/-- Where the parser may stand. -/
def Fine (x : Nat) (v ptr : Text) : Prop := (∃ a, ptr = a ++ x :: 61 :: v) ∨ ∀ c ∈ ptr, Space c

theorem loop_safe {g : Cfg} {file : Text → Stored → Option (Int × Stored)}
    (hfile : ∀ z ∈ g.items, z.2 ≠ .file) {x : Nat} {v : Text} (hx : ¬ Space x) (hx59 : x ≠ 59) (hv : 59 ∉ v) :
    ∀ {fuel : Nat} {ptr : Text} {ret : Int} {st : Stored}, 92 ∉ ptr → Fine x v ptr → ptr.length < fuel →
      parseLoop g file fuel ptr ret st ≠ none
  | 0, _, _, _, _, _, hf => by omega
  | fuel + 1, ptr, ret, st, h92, hp, hf => by
    rw [parseLoop]
    by_cases h0 : ptr = []
    · rw [if_pos h0]; simp
    · rw [if_neg h0]
      have hsuf : ptr.dropWhile isspace <:+ ptr := List.dropWhile_suffix _
      have h92s := not92_suffix hsuf h92
      simp only
      by_cases h1 : ptr.dropWhile isspace = []
      · rw [if_pos h1]; simp
      · rw [if_neg h1]
        have hform : ∃ a, ptr.dropWhile isspace = a ++ x :: 61 :: v := by
          rcases hp with ⟨a, rfl⟩ | hp
          · exact dropSpace_form hx _ a
          · exfalso
            apply h1
            rw [List.dropWhile_eq_nil_iff]
            exact fun c hc => isspace_iff.mpr (hp c hc)
        obtain ⟨a, hform⟩ := hform
        have hlen := hsuf.length_le
        have hidem : (ptr.dropWhile isspace).dropWhile isspace = ptr.dropWhile isspace := by
          apply dropSpace
          intro c hc hh
          have := List.head?_dropWhile_not isspace ptr
          rw [hc] at this
          simp only [isspace_iff.mpr hh] at this
          cases this
        generalize hs : ptr.dropWhile isspace = s at *
        clear hs
        -- the key
        have hkey : ∃ b t e, trimCopy 80 s 61 = some (b, t, e) ∧
            (b = true → e <:+ s ∧ e.length < s.length ∧ e.head? = some 61) := by
          obtain ⟨b, t, e, h2, h3⟩ := trim_safe (size := 80) (stop := 61) h92s
          refine ⟨b, t, e, h2, fun hb => ?_⟩
          obtain ⟨h4, h5, _⟩ := h3 hb
          refine ⟨h4, h5, ?_⟩
          unfold trimCopy at h2
          simp only [hidem, if_neg h1] at h2
          have hl : 0 + (a ++ [x]).length < limit s := by
            apply Nat.lt_of_not_le
            intro hle
            have := after_limit h92s hle 61 (by
              rw [hform, show a ++ x :: 61 :: v = (a ++ [x]) ++ 61 :: v by simp, Nat.zero_add,
                List.drop_append_of_le_length (Nat.le_refl _), List.drop_length, List.nil_append]
              exact List.mem_cons_self ..)
            unfold Space at this; omega
          have h92a : 92 ∉ a ++ [x] := by
            intro hh; apply h92s; rw [hform]
            rcases List.mem_append.mp hh with hh | hh
            · exact List.mem_append_left _ hh
            · apply List.mem_append_right; rw [List.mem_singleton.mp hh]; exact List.mem_cons_self ..
          have hk := copy_key (size := 80) (lim := limit s) (a ++ [x]) v 0 [] (by simp) h92a hl
          rw [show (a ++ [x]) ++ 61 :: v = s by rw [hform]; simp] at hk
          by_cases hn : (copyLoop 80 (limit s) 61 s 0 []).1 = 80
          · rw [if_pos hn] at h2
            split at h2
            · cases h2
            · cases h2; cases hb
          · rw [if_neg hn] at h2
            cases h2
            exact hk.resolve_left hn
        obtain ⟨b, t, e, h2, h3⟩ := hkey
        rw [h2]
        cases b with
        | false => simp
        | true =>
          obtain ⟨h4, h5, h6⟩ := h3 rfl
          cases e with
          | nil => cases h6
          | cons c0 p1 =>
            simp only [List.head?_cons, Option.some.injEq] at h6
            subst h6
            simp only
            have h92p : 92 ∉ p1 := fun hh => not92_suffix h4 h92s (List.mem_cons_of_mem _ hh)
            rw [List.length_cons] at h5
            -- where the value begins
            have hp1 : (∃ a, p1 = a ++ x :: 61 :: v) ∨ 59 ∉ p1 := by
              have hno : 59 ∉ x :: 61 :: v := by
                intro hh
                rcases List.mem_cons.mp hh with hh | hh
                · exact hx59 hh.symm
                · rcases List.mem_cons.mp hh with hh | hh
                  · omega
                  · exact hv hh
              rw [hform] at h4
              rcases suffix_split h4 with h | ⟨a', h⟩
              · right; exact fun hh => hno (h.subset (List.mem_cons_of_mem _ hh))
              · cases a' with
                | nil =>
                  right
                  rw [List.nil_append] at h
                  intro hh
                  exact hno (by rw [← h]; exact List.mem_cons_of_mem _ hh)
                | cons y a' =>
                  rw [List.cons_append] at h
                  left; exact ⟨a', (List.cons.inj h).2⟩
            obtain ⟨b, t2, e2, h7, h8⟩ := trim_safe (size := 1024) (stop := 59) h92p
            rw [h7]
            cases b with
            | false => simp
            | true =>
              obtain ⟨h9, h10, h11⟩ := h8 rfl
              have hnext : 92 ∉ (if e2.head? = some 59 then e2.drop 1 else e2) ∧
                  Fine x v (if e2.head? = some 59 then e2.drop 1 else e2) ∧
                  (if e2.head? = some 59 then e2.drop 1 else e2).length ≤ e2.length := by
                by_cases h59 : e2.head? = some 59
                · rw [if_pos h59]
                  refine ⟨not92_suffix ((List.drop_suffix _ _).trans h9) h92p, ?_, by rw [List.length_drop]; omega⟩
                  have hmem : 59 ∈ e2 := List.mem_of_head? h59
                  rcases hp1 with ⟨a1, hp1⟩ | hp1
                  · rw [hp1] at h9
                    rcases suffix_split h9 with h | ⟨a', h⟩
                    · exfalso
                      rcases List.mem_cons.mp (h.subset hmem) with hh | hh
                      · exact hx59 hh.symm
                      · rcases List.mem_cons.mp hh with hh | hh
                        · omega
                        · exact hv hh
                    · cases a' with
                      | nil =>
                        rw [h] at h59
                        simp only [List.nil_append, List.head?_cons, Option.some.injEq] at h59
                        exact absurd h59 hx59
                      | cons y a' =>
                        left
                        refine ⟨a', ?_⟩
                        rw [h, List.cons_append, List.drop_succ_cons, List.drop_zero]
                  · exact absurd (h9.subset hmem) hp1
                · rw [if_neg h59]
                  exact ⟨not92_suffix h9 h92p, Or.inr (h11.resolve_left h59), Nat.le_refl _⟩
              simp only
              generalize (if e2.head? = some 59 then e2.drop 1 else e2) = ptr2 at hnext ⊢
              obtain ⟨n1, n2, n3⟩ := hnext
              have hrec : ∀ ret st, parseLoop g file fuel ptr2 ret st ≠ none :=
                fun ret st => loop_safe hfile hx hx59 hv n1 n2 (by omega)
              cases hfd : find g.items t with
              | none => exact hrec 1 st
              | some dt =>
                have hdt : dt ≠ .file := by
                  unfold find at hfd
                  obtain ⟨z, hz, rfl⟩ := Option.map_eq_some_iff.mp hfd
                  exact hfile z (List.mem_of_find?_eq_some hz)
                cases hval : value g.strtof dt t2 with
                | none =>
                  cases dt with
                  | file => exact absurd rfl hdt
                  | _ => simp only [hval]; simp
                | some y =>
                  cases dt with
                  | file => exact absurd rfl hdt
                  | _ => simp only [hval]; exact hrec ret _

end Verif.Config
