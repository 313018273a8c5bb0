import Verif.Spec.ConnIn
/-
Lemmas about the input side of a connection: the state machine takes exactly the steps of the specification along the client's stream.
-/

namespace Verif.Conn
open Spec

variable {W : Type}

theorem cutLine_some {d l r : List Nat} : cutLine d = some (l, r) ↔ d = l ++ 10 :: r ∧ 10 ∉ l := by
  induction d generalizing l r with
  | nil => simp [cutLine]
  | cons b bs ih =>
    unfold cutLine
    by_cases hb : b = 10
    · subst hb
      simp only [if_true]
      constructor
      · rintro h; cases h; simp
      · rintro ⟨h, hn⟩
        cases l with
        | nil => simp at h; simp [h]
        | cons x l => simp at h hn; exact absurd h.1 hn.1
    · simp only [if_neg hb]
      cases hc : cutLine bs with
      | none =>
        simp only [reduceCtorEq, false_iff]
        rintro ⟨h, hn⟩
        cases l with
        | nil => simp at h; exact hb h.1
        | cons x l =>
          simp at h hn
          have := (ih (l := l) (r := r)).2 ⟨h.2, hn.2⟩
          rw [hc] at this; cases this
      | some p =>
        obtain ⟨l1, r1⟩ := p
        have h1 := (ih (l := l1) (r := r1)).1 hc
        simp only [Option.some.injEq, Prod.mk.injEq]
        constructor
        · rintro ⟨rfl, rfl⟩
          exact ⟨by rw [h1.1]; rfl, by simp [h1.2]; exact fun h => hb h.symm⟩
        · rintro ⟨h, hn⟩
          cases l with
          | nil => simp at h; exact absurd h.1 hb
          | cons x l =>
            simp at h hn
            have := (ih (l := l) (r := r)).2 ⟨h.2, hn.2⟩
            rw [hc] at this
            simp only [Option.some.injEq, Prod.mk.injEq] at this
            exact ⟨by rw [h.1, this.1], this.2⟩

theorem cutLine_none {d : List Nat} : cutLine d = none ↔ 10 ∉ d := by
  induction d with
  | nil => simp [cutLine]
  | cons b bs ih =>
    unfold cutLine
    by_cases hb : b = 10
    · simp [hb]
    · simp only [if_neg hb]
      cases hc : cutLine bs with
      | none => simp only [true_iff]; simp [ih.1 hc]; exact fun h => hb h.symm
      | some p =>
        simp only [reduceCtorEq, false_iff]
        intro hn
        simp at hn
        rw [ih.2 hn.2] at hc; cases hc

theorem chomp_text (l : List Nat) : Text l (chomp l) := by
  unfold chomp
  by_cases h : 1 < l.length ∧ l.getLast? = some 13
  · rw [if_pos h]
    obtain ⟨h1, h2⟩ := h
    have hne : l ≠ [] := by rintro rfl; simp at h1
    have e : l = l.dropLast ++ [13] := by
      have h3 := List.dropLast_concat_getLast hne
      rw [List.getLast?_eq_some_getLast hne] at h2
      simp only [Option.some.injEq] at h2
      rw [h2] at h3
      exact h3.symm
    have hd : l.dropLast ≠ [] := by
      intro hd
      have := congrArg List.length hd
      simp at this; omega
    have := Text.crlf l.dropLast hd
    rw [← e] at this; exact this
  · rw [if_neg h]
    by_cases h2 : l.getLast? = some 13
    · have h1 : ¬ 1 < l.length := fun h1 => h ⟨h1, h2⟩
      match l, h1, h2 with
      | [], _, h2 => simp at h2
      | [x], _, h2 => simp at h2; subst h2; exact .cr
      | _ :: _ :: _, h1, _ => simp at h1
    · exact .lf l h2

theorem text_unique {raw t t' : List Nat} (h : Text raw t) (h' : Text raw t') : t = t' := by
  cases h with
  | crlf t hne =>
    generalize hr : t ++ [13] = r at h'
    cases h' with
    | crlf t' _ => exact (List.append_inj' hr rfl).1
    | lf t' hl => subst hr; simp at hl
    | cr =>
      have := (List.append_inj' (s₁ := t) (s₂ := []) hr rfl).1
      exact absurd this hne
  | lf t hl =>
    cases h' with
    | crlf t' _ => simp at hl
    | lf => rfl
    | cr => simp at hl
  | cr =>
    generalize hr : [13] = r at h'
    cases h' with
    | crlf t' hne =>
      have := (List.append_inj' (s₁ := []) (s₂ := t') hr rfl).1
      exact absurd this.symm hne
    | lf t' hl => rfl
    | cr => rfl

/-! ### The specification is deterministic -/

theorem line_inj {a b r r' : List Nat} (ha : 10 ∉ a) (hb : 10 ∉ b) (e : a ++ 10 :: r = b ++ 10 :: r') : a = b ∧ r = r' := by
  have h1 := (cutLine_some (d := a ++ 10 :: r)).2 ⟨rfl, ha⟩
  have h2 := (cutLine_some (d := a ++ 10 :: r)).2 ⟨e, hb⟩
  rw [h1] at h2
  simpa using h2

theorem takes_det {h : Handler W} {x y z : W × At × List Nat} (hy : Takes h x y) (hz : Takes h x z) : y = z := by
  cases hy with
  | line w w' raw t rest nx hn ht hh hp =>
    generalize hx : (w, At.cmd, raw ++ 10 :: rest) = x at hz
    cases hz with
    | line w1 w1' raw1 t1 rest1 nx1 hn1 ht1 hh1 hp1 =>
      simp only [Prod.mk.injEq, true_and] at hx
      obtain ⟨rfl, e⟩ := hx
      obtain ⟨rfl, rfl⟩ := line_inj hn hn1 e
      have := text_unique ht ht1; subst this
      rw [hh] at hh1; cases hh1; rfl
    | data => simp at hx
    | skip => simp at hx
    | skipped => simp at hx
  | data w w' d rest hh =>
    generalize hx : (w, At.want d.length, d ++ rest) = x at hz
    cases hz with
    | line => simp at hx
    | data w1 w1' d1 rest1 hh1 =>
      simp only [Prod.mk.injEq, At.want.injEq] at hx
      obtain ⟨rfl, hl, e⟩ := hx
      obtain ⟨rfl, rfl⟩ := List.append_inj e hl
      rw [hh] at hh1; cases hh1; rfl
    | skip => simp at hx
    | skipped => simp at hx
  | skip w n b rest =>
    cases hz with
    | skip => rfl
  | skipped w rest =>
    cases hz with
    | skipped => rfl

theorem takes_not_spent {h : Handler W} {w : W} {a : At} {r : List Nat} {y : W × At × List Nat} (ht : Takes h (w, a, r) y) :
    ¬ Spent a r := by
  generalize hx : (w, a, r) = x at ht
  cases ht with
  | line w w' raw t rest nx hn _ hh _ => cases hx; simp [Spent]
  | data w w' d rest hh => cases hx; simp [Spent]
  | skip => cases hx; simp [Spent]
  | skipped => cases hx; simp [Spent]

theorem reads_trans {h : Handler W} {x y z : W × At × List Nat} (h1 : Reads h x y) (h2 : Reads h y z) : Reads h x z := by
  induction h2 with
  | refl => exact h1
  | tail _ ht ih => exact .tail ih ht

theorem reads_head {h : Handler W} {x y : W × At × List Nat} (hr : Reads h x y) : x = y ∨ ∃ z, Takes h x z ∧ Reads h z y := by
  induction hr with
  | refl => exact .inl rfl
  | tail _ ht ih =>
    right
    rcases ih with rfl | ⟨z, h1, h2⟩
    · exact ⟨_, ht, .refl _⟩
    · exact ⟨z, h1, .tail h2 ht⟩

theorem reads_spent {h : Handler W} {x y : W × At × List Nat} {w : W} {a : At} {r : List Nat}
    (h1 : Reads h x (w, a, r)) (hs : Spent a r) (h2 : Reads h x y) : Reads h y (w, a, r) := by
  induction h2 with
  | refl => exact h1
  | tail _ ht ih =>
    rcases reads_head ih with rfl | ⟨z', h3, h4⟩
    · exact absurd hs (takes_not_spent ht)
    · rw [takes_det ht h3]; exact h4

theorem serves_unique {h : Handler W} {w w1 w2 : W} {st : List Nat} (h1 : Serves h w st w1) (h2 : Serves h w st w2) : w1 = w2 := by
  obtain ⟨a1, r1, hr1, hs1⟩ := h1
  obtain ⟨a2, r2, hr2, hs2⟩ := h2
  have := reads_spent hr1 hs1 hr2
  rcases reads_head this with e | ⟨z, ht, _⟩
  · cases e; rfl
  · exact absurd hs2 (takes_not_spent ht)

/-! ### Longer streams -/

theorem takes_append {h : Handler W} {w w' : W} {a a' : At} {r r' : List Nat} (bs : List Nat) (ht : Takes h (w, a, r) (w', a', r')) :
    Takes h (w, a, r ++ bs) (w', a', r' ++ bs) := by
  generalize hx : (w, a, r) = x at ht
  generalize hy : (w', a', r') = y at ht
  cases ht with
  | line w w' raw t rest nx hn htx hh hp =>
    cases hx; cases hy
    rw [List.append_assoc, List.cons_append]
    exact .line _ _ _ _ _ _ hn htx hh hp
  | data w w' d rest hh =>
    cases hx; cases hy
    rw [List.append_assoc]
    exact .data _ _ _ _ hh
  | skip w n b rest => cases hx; cases hy; exact .skip _ _ _ _
  | skipped w rest => cases hx; cases hy; exact .skipped _ _

theorem reads_append {h : Handler W} {w w' : W} {a a' : At} {r r' : List Nat} (bs : List Nat) (ht : Reads h (w, a, r) (w', a', r')) :
    Reads h (w, a, r ++ bs) (w', a', r' ++ bs) := by
  generalize hx : (w, a, r) = x at ht
  generalize hy : (w', a', r') = y at ht
  induction ht generalizing w' a' r' with
  | refl => subst hx; cases hy; exact .refl _
  | @tail y1 z1 _ ht ih =>
    obtain ⟨w1, a1, r1⟩ := y1
    subst hy
    exact .tail (ih rfl) (takes_append bs ht)

theorem modest_prefix {h : Handler W} {w : W} {st bs : List Nat} (hm : Modest h w (st ++ bs)) : Modest h w st := by
  intro w' rest hr p hp hn
  exact hm w' (rest ++ bs) (reads_append bs hr) p (hp.trans (List.prefix_append _ _)) hn

theorem sound_prefix {h : Handler W} {w : W} {st bs : List Nat} (hm : Sound h w (st ++ bs)) : Sound h w st := by
  intro w' a rest hr
  rcases hm w' a (rest ++ bs) (reads_append bs hr) with hs | ⟨z, hz⟩
  · left
    cases a with
    | cmd => simp only [Spent, List.mem_append, not_or] at hs ⊢; exact hs.1
    | want n => simp only [Spent, List.length_append] at hs ⊢; omega
    | skip n => simp only [Spent, List.append_eq_nil_iff] at hs ⊢; exact ⟨hs.1.1, hs.2⟩
    | closed => trivial
  · generalize hx : (w', a, rest ++ bs) = x at hz
    cases hz with
    | line w1 w2 raw t r nx hn ht hh hp =>
      simp only [Prod.mk.injEq] at hx
      obtain ⟨rfl, rfl, e⟩ := hx
      by_cases h10 : 10 ∈ rest
      · right
        obtain ⟨l, r1, hl⟩ : ∃ l r1, cutLine rest = some (l, r1) := by
          cases hc : cutLine rest with
          | none => exact absurd h10 (cutLine_none.1 hc)
          | some p => exact ⟨p.1, p.2, rfl⟩
        obtain ⟨e1, hn1⟩ := cutLine_some.1 hl
        rw [e1, List.append_assoc, List.cons_append] at e
        obtain ⟨rfl, _⟩ := line_inj hn1 hn e
        rw [e1]
        exact ⟨_, .line _ _ _ _ _ _ hn ht hh hp⟩
      · exact .inl h10
    | data w1 w2 d r hh =>
      simp only [Prod.mk.injEq] at hx
      obtain ⟨rfl, rfl, e⟩ := hx
      by_cases hl : rest.length < d.length
      · exact .inl hl
      · right
        have e1 : rest = d ++ rest.drop d.length := by
          have := congrArg (List.take rest.length) e
          rw [List.take_left, List.take_append] at this
          rw [List.take_of_length_le (by omega)] at this
          rw [this, List.drop_left]
        rw [e1]
        exact ⟨_, .data _ _ _ _ hh⟩
    | skip w1 n b r =>
      simp only [Prod.mk.injEq] at hx
      obtain ⟨rfl, rfl, e⟩ := hx
      cases rest with
      | nil => exact .inl ⟨rfl, by omega⟩
      | cons x xs => exact .inr ⟨_, .skip _ _ _ _⟩
    | skipped w1 r =>
      simp only [Prod.mk.injEq] at hx
      obtain ⟨rfl, rfl, e⟩ := hx
      exact .inr ⟨_, .skipped _ _⟩

/-! ### The scan over the blanks -/

theorem blanks_eq (d sp : List Nat) (hd : d.takeWhile (· == 32) ≠ d) :
    blanks (d ++ sp) = some (d.takeWhile (· == 32)).length ∧
      (d ++ sp).drop (d.takeWhile (· == 32)).length = d.dropWhile (· == 32) ++ sp := by
  induction d with
  | nil => simp at hd
  | cons b bs ih =>
    by_cases hb : b = 32
    · subst hb
      have hd' : bs.takeWhile (· == 32) ≠ bs := by
        intro e; apply hd; simp [e]
      obtain ⟨h1, h2⟩ := ih hd'
      simp [blanks, h1, h2]
    · have : (b == 32) = false := by simp [hb]
      simp [blanks, hb]

theorem isGet_append {x : List Nat} (sp : List Nat) (hx : 5 ≤ x.length) : isGet (x ++ sp) = isGet x := by
  unfold isGet
  rw [List.take_append_of_le_length (by omega), List.take_append_of_le_length (by omega)]

theorem takeWhile_replicate (d : List Nat) : d.takeWhile (· == 32) = List.replicate (d.takeWhile (· == 32)).length 32 := by
  apply List.eq_replicate_iff.2
  refine ⟨rfl, fun b hb => ?_⟩
  have : (b == 32) = true := by
    induction d with
    | nil => simp at hb
    | cons x xs ih =>
      rw [List.takeWhile_cons] at hb
      split at hb
      · rcases List.mem_cons.1 hb with rfl | hb
        · assumption
        · exact ih hb
      · simp at hb
  simpa using this

theorem tooLong_modest {d : List Nat} (sp : List Nat) (h : ¬ Excessive d) : tooLong d sp = some false := by
  unfold tooLong
  by_cases hl : d.length ≤ 1024
  · rw [if_pos hl]
  · rw [if_neg hl]
    have h1 : ¬ List.replicate 101 32 <+: d := fun hp => h ⟨by omega, .inl hp⟩
    have h2 : (d.takeWhile (· == 32)).length ≤ 100 := by
      by_cases hc : (d.takeWhile (· == 32)).length ≤ 100
      · exact hc
      · exfalso
        apply h1
        have hp : d.takeWhile (· == 32) <+: d := List.takeWhile_prefix _
        rw [takeWhile_replicate d] at hp
        refine List.IsPrefix.trans ?_ hp
        exact ⟨List.replicate ((d.takeWhile (· == 32)).length - 101) 32, by
          rw [← List.replicate_append_replicate.symm]; congr 1; omega⟩
    have hne : d.takeWhile (· == 32) ≠ d := by
      intro e; rw [e] at h2; omega
    obtain ⟨e1, e2⟩ := blanks_eq d sp hne
    rw [e1]
    simp only
    rw [if_neg (by omega), e2]
    have hlen : (d.takeWhile (· == 32)).length + (d.dropWhile (· == 32)).length = d.length := by
      rw [← List.length_append, List.takeWhile_append_dropWhile]
    rw [isGet_append _ (by omega)]
    rw [if_neg]
    rintro ⟨h3, h4⟩
    exact h ⟨by omega, .inr ⟨h3, h4⟩⟩

end Verif.Conn
