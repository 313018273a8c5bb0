import Verif.Model.Util
import Verif.Spec.Util
/-! Helper lemmas for the glob matcher. -/
namespace Verif.Util
open Spec

theorem toks_nil : toks [] = [] := rfl

theorem toks_star (p) : toks (42 :: p) = .star :: toks p := by
  cases p <;> simp [toks]

theorem toks_any (p) : toks (63 :: p) = .any :: toks p := by
  cases p <;> simp [toks]

theorem toks_lit (c p) (h1 : c ≠ 92) (h2 : c ≠ 42) (h3 : c ≠ 63) : toks (c :: p) = .lit c :: toks p := by
  cases p <;> simp [toks, *]

theorem toks_esc (c p) : toks (92 :: c :: p) = .lit c :: toks p := by simp [toks]

/-- star-free token lists -/
def NoStar (q : List Tok) : Prop := Tok.star ∉ q

theorem den_append {q r : List Tok} (hq : NoStar q) : ∀ {s}, Denotes (q ++ r) s →
    ∃ u s', s = u ++ s' ∧ u.length = q.length ∧ Denotes r s' := by
  induction q with
  | nil => intro s h; exact ⟨[], s, rfl, rfl, h⟩
  | cons a q ih =>
    intro s h
    have hq' : NoStar q := fun hh => hq (List.mem_cons_of_mem _ hh)
    cases h with
    | lit c h => obtain ⟨u, s', h1, h2, h3⟩ := ih hq' h; exact ⟨c :: u, s', by simp [h1], by simp [h2], h3⟩
    | any c h => obtain ⟨u, s', h1, h2, h3⟩ := ih hq' h; exact ⟨c :: u, s', by simp [h1], by simp [h2], h3⟩
    | star pre h => exact absurd (List.mem_cons_self) hq

theorem den_star_suffix {r : List Tok} {x t : List Nat} (h : Denotes (.star :: r) t) :
    Denotes (.star :: r) (x ++ t) := by
  cases h with
  | star pre h => rw [← List.append_assoc]; exact .star _ h

theorem den_star_iff {r : List Tok} {t : List Nat} :
    Denotes (.star :: r) t ↔ ∃ pre s, t = pre ++ s ∧ Denotes r s := by
  constructor
  · intro h; cases h with | star pre h => exact ⟨pre, _, rfl, h⟩
  · rintro ⟨pre, s, rfl, h⟩; exact .star _ h

/-- matched star-free segment between a backup and the current position -/
def Seg (p t pb tb : List Nat) : Prop :=
  ∃ q u, toks pb = q ++ toks p ∧ NoStar q ∧ tb = u ++ t ∧ u.length = q.length

/-- what the loop decides when it holds a backup -/
def BkDen (p t : List Nat) : Option (List Nat × List Nat) → Prop
  | none => Denotes (toks p) t
  | some (tb, pb) => Denotes (toks p) t ∨
      ∃ x s, x ≠ [] ∧ tb = x ++ s ∧ Denotes (toks pb.dropLast) s

theorem dropWhile_star_iff (p : List Nat) (hp : 0 ∉ p) :
    ((p ++ [0]).dropWhile (· == 42) = [0]) ↔ Denotes (toks p) [] := by
  induction p with
  | nil => simp [toks, Denotes.nil]
  | cons a p ih =>
    have hp' : 0 ∉ p := fun h => hp (List.mem_cons_of_mem _ h)
    by_cases h : a = 42
    · subst h
      simp only [List.cons_append, toks_star]
      rw [List.dropWhile_cons_of_pos (by simp), ih hp', den_star_iff]
      constructor
      · intro h; exact ⟨[], [], rfl, h⟩
      · rintro ⟨pre, s, h1, h2⟩
        have := List.append_eq_nil_iff.mp h1.symm
        rw [this.2] at h2; exact h2
    · simp only [List.cons_append]
      rw [List.dropWhile_cons_of_neg (by simpa using h)]
      constructor
      · intro h; simp at h
      · intro hd
        exfalso
        cases p with
        | nil => simp [toks, h] at hd; split at hd <;> (try split at hd) <;> cases hd
        | cons b p => simp [toks, h] at hd; split at hd <;> (try split at hd) <;> cases hd

theorem no_match (c : Nat) (t' : List Nat) (a : Nat) (p' pp : List Nat) (hp : a :: p' = pp ++ [0])
    (ha : ¬(a = 92 ∧ p' = [])) (hb : ¬(a = 92 ∧ p'.head? = some c)) (h42 : ¬a = 42)
    (hac : ¬(a = 63 ∨ a = c)) (h0 : 0 ∉ pp) (h92 : 92 ∉ pp ∨ 92 ∉ c :: t') :
    ¬ Denotes (toks pp) (c :: t') := by
  intro hd
  match pp, hp with
  | [], _ => cases hd
  | [b], hp =>
    simp at hp; obtain ⟨rfl, rfl⟩ := hp
    simp only [not_or] at hac
    by_cases h : a = 92
    · subst h; simp [toks] at hd; cases hd
    · rw [toks_lit a [] h h42 hac.1] at hd
      cases hd; exact hac.2 rfl
  | b :: d :: pp, hp =>
    simp at hp; obtain ⟨rfl, rfl⟩ := hp
    simp only [not_or] at hac
    by_cases h : a = 92
    · subst h; rw [toks_esc] at hd
      simp at hb
      cases hd; exact hb rfl
    · rw [toks_lit a _ h h42 hac.1] at hd
      cases hd; exact hac.2 rfl

theorem globLoop_spec (t p : List Nat) (bk : Option (List Nat × List Nat)) (h) :
    ∀ pp, p = pp ++ [0] → 0 ∉ pp → 0 ∉ t → (92 ∉ pp ∨ 92 ∉ t) →
    (∀ x, bk = some x → ∃ pb, x.2 = pb ++ [0] ∧ 0 ∉ pb ∧ 0 ∉ x.1 ∧ (92 ∉ pb ∨ 92 ∉ x.1) ∧
        Seg pp t pb x.1) →
    ∃ b, globLoop t p bk h = some b ∧ (b = true ↔ BkDen pp t bk) := by
  fun_induction globLoop t p bk h with
  | case1 bk p h h' =>
    intro pp hp h0 _ _ hbk
    refine ⟨_, rfl, ?_⟩
    rw [beq_iff_eq, hp, dropWhile_star_iff pp h0]
    cases bk with
    | none => simp [BkDen]
    | some x =>
      obtain ⟨tb, pb0⟩ := x
      obtain ⟨pb, hpb, -, -, -, q, u, hq1, hq2, hu, hlen⟩ := hbk _ rfl
      simp only at hpb; subst hpb
      simp only [BkDen, List.dropLast_concat]
      constructor
      · exact Or.inl
      · rintro (hd | ⟨x, s, hx, hs, hd⟩)
        · exact hd
        · exfalso
          rw [hq1] at hd
          obtain ⟨u', s', e1, e2, _⟩ := den_append hq2 hd
          have l1 := congrArg List.length hs
          have l2 := congrArg List.length e1
          have l3 := congrArg List.length hu
          simp at l1 l2 l3
          have : 0 < x.length := List.length_pos_iff.mpr hx
          omega
  | case2 bk c t h h' =>
    intro pp hp; simp at hp
  | case3 bk c t' a p' h ha h' =>
    intro pp hp h0
    cases pp with
    | nil => simp at hp; omega
    | cons b pp => simp at hp; simp [ha.2] at hp
  | case4 bk c t' a p' h ha hb h' ih =>
    intro pp hp h0 ht h92 hbk
    obtain ⟨rfl, hc⟩ := hb
    match pp, hp with
    | [], hp => simp at hp
    | [b], hp => simp at hp; obtain ⟨-, rfl⟩ := hp; simp at hc; simp [← hc] at ht
    | b :: d :: pp, hp =>
      simp at hp; obtain ⟨rfl, rfl⟩ := hp
      simp at hc; subst hc
      have h0' : 0 ∉ pp := fun hh => h0 (by simp [hh])
      have ht' : 0 ∉ t' := by simp at ht; exact ht.2
      obtain ⟨r, hr, hiff⟩ := ih pp (by simp) h0' ht'
        (by
          rcases h92 with h | h
          · simp at h
          · right; simp at h; exact h.2)
        (by
          intro x hx
          obtain ⟨pb, e1, e2, e3, e4, q, u, f1, f2, f3, f4⟩ := hbk x hx
          refine ⟨pb, e1, e2, e3, e4, q ++ [.lit d], u ++ [d], ?_, ?_, ?_, ?_⟩
          · rw [f1, toks_esc]; simp
          · simp [NoStar] at f2 ⊢; exact f2
          · rw [f3]; simp
          · simp [f4])
      refine ⟨r, hr, ?_⟩
      rw [hiff]
      have key : Denotes (toks pp) t' ↔ Denotes (toks (92 :: d :: pp)) (d :: t') := by
        rw [toks_esc]; exact ⟨.lit d, fun h => by cases h; assumption⟩
      cases bk <;> simp [BkDen, key]
  | case5 bk c t' p' h ha hb h' ih =>
    intro pp hp h0 ht h92 hbk
    cases pp with
    | nil => simp at hp
    | cons b pp =>
      simp at hp; obtain ⟨rfl, rfl⟩ := hp
      have h0' : 0 ∉ pp := fun hh => h0 (by simp [hh])
      have h92' : 92 ∉ pp ∨ 92 ∉ c :: t' := by
        rcases h92 with h | h
        · left; simp at h; exact h
        · right; exact h
      obtain ⟨r, hr, hiff⟩ := ih pp rfl h0' ht h92'
        (by
          intro x hx; injection hx with hx; subst hx
          exact ⟨pp, rfl, h0', ht, h92', [], [], rfl, by simp [NoStar], rfl, rfl⟩)
      refine ⟨r, hr, ?_⟩
      rw [hiff]
      have e1 : BkDen pp (c :: t') (some (c :: t', pp ++ [0])) ↔ Denotes (toks (42 :: pp)) (c :: t') := by
        simp only [BkDen, List.dropLast_concat, toks_star, den_star_iff]
        constructor
        · rintro (h | ⟨x, s, hx, e, hd⟩)
          · exact ⟨[], _, rfl, h⟩
          · exact ⟨x, s, e, hd⟩
        · rintro ⟨pre, s, e, hd⟩
          cases pre with
          | nil => left; simp at e; rw [e]; exact hd
          | cons x pre => right; exact ⟨x :: pre, s, by simp, e, hd⟩
      rw [e1]
      cases bk with
      | none => simp [BkDen]
      | some x =>
        obtain ⟨tb, pb0⟩ := x
        obtain ⟨pb, hpb, -, -, -, q, u, hq1, hq2, hu, hlen⟩ := hbk _ rfl
        simp only at hpb; subst hpb
        simp only [BkDen, List.dropLast_concat]
        constructor
        · exact Or.inl
        · rintro (hd | ⟨x, s, hx, hs, hd⟩)
          · exact hd
          · rw [hq1, toks_star] at hd
            obtain ⟨u', s', g1, g2, g3⟩ := den_append hq2 hd
            -- s' is a suffix of c :: t'
            simp only at hu
            have : ∃ y, c :: t' = y ++ s' := by
              have hh : u ++ (c :: t') = (x ++ u') ++ s' := by rw [← hu, hs, g1]; simp
              have hl : u.length ≤ (x ++ u').length := by simp; omega
              have := congrArg (List.drop u.length) hh
              simp only [List.drop_left] at this
              rw [List.drop_append_of_le_length hl] at this
              exact ⟨_, this⟩
            obtain ⟨y, hy⟩ := this
            rw [hy, toks_star]; exact den_star_suffix g3
  | case6 bk c t' a p' h ha hb h42 hac h' ih =>
    intro pp hp h0 ht h92 hbk
    cases pp with
    | nil =>
      simp at hp; obtain ⟨rfl, rfl⟩ := hp
      simp at hac; simp [← hac] at ht
    | cons b pp =>
      simp at hp; obtain ⟨rfl, rfl⟩ := hp
      have h0' : 0 ∉ pp := fun hh => h0 (by simp [hh])
      have ht' : 0 ∉ t' := by simp at ht; exact ht.2
      have h92n : a ≠ 92 := by
        rintro rfl
        rcases hac with h | h
        · omega
        · rcases h92 with g | g
          · simp at g
          · simp [← h] at g
      have htok : toks (a :: pp) = (if a = 63 then Tok.any else .lit a) :: toks pp := by
        by_cases h63 : a = 63
        · subst h63; simp [toks_any]
        · simp [h63, toks_lit a pp h92n h42 h63]
      obtain ⟨r, hr, hiff⟩ := ih pp rfl h0' ht'
        (by
          rcases h92 with h | h
          · left; simp at h; exact h.2
          · right; simp at h; exact h.2)
        (by
          intro x hx
          obtain ⟨pb, e1, e2, e3, e4, q, u, f1, f2, f3, f4⟩ := hbk x hx
          refine ⟨pb, e1, e2, e3, e4, q ++ [if a = 63 then Tok.any else .lit a], u ++ [c], ?_, ?_, ?_, ?_⟩
          · rw [f1, htok]; simp
          · simp [NoStar] at f2 ⊢; refine ⟨f2, ?_⟩; split <;> simp
          · rw [f3]; simp
          · simp [f4])
      refine ⟨r, hr, ?_⟩
      rw [hiff]
      have key : Denotes (toks pp) t' ↔ Denotes (toks (a :: pp)) (c :: t') := by
        rw [htok]
        by_cases h63 : a = 63
        · simp only [h63, if_true]; exact ⟨.any c, fun h => by cases h; assumption⟩
        · simp only [h63, if_false]
          have : a = c := by rcases hac with h | h; exact absurd h h63; exact h
          subst this
          exact ⟨.lit a, fun h => by cases h; assumption⟩
      cases bk <;> simp [BkDen, key]
  | case7 c t' a p' ha hb h42 hac h h' =>
    intro pp hp h0 ht h92 hbk
    refine ⟨_, rfl, ?_⟩
    simp only [Bool.false_eq_true, BkDen, false_iff]
    exact no_match c t' a p' pp hp ha hb h42 hac h0 h92
  | case8 c t' a p' ha hb h42 hac snd h h' =>
    intro pp hp h0 ht h92 hbk
    have := h _ rfl
    simp at this
  | case9 c t' a p' ha hb h42 hac hd tb' pb h h' ih =>
    intro pp hp h0 ht h92 hbk
    obtain ⟨pb0, e1, e2, e3, e4, -⟩ := hbk _ rfl
    simp only at e1 e3 e4; subst e1
    have h92' : 92 ∉ pb0 ∨ 92 ∉ tb' := by
      rcases e4 with h | h
      · exact Or.inl h
      · right; simp at h; exact h.2
    have ht' : 0 ∉ tb' := by simp at e3; exact e3.2
    obtain ⟨r, hr, hiff⟩ := ih pb0 rfl e2 ht' h92'
      (by
        intro x hx; injection hx with hx; subst hx
        exact ⟨pb0, rfl, e2, ht', h92', [], [], rfl, by simp [NoStar], rfl, rfl⟩)
    refine ⟨r, hr, ?_⟩
    rw [hiff]
    simp only [BkDen, List.dropLast_concat]
    constructor
    · rintro (hd1 | ⟨x, s, hx, hs, hd1⟩)
      · right; exact ⟨[hd], tb', by simp, rfl, hd1⟩
      · right; exact ⟨hd :: x, s, by simp, by simp [hs], hd1⟩
    · rintro (hd1 | ⟨x, s, hx, hs, hd1⟩)
      · exact absurd hd1 (no_match c t' a p' pp hp ha hb h42 hac h0 h92)
      · cases x with
        | nil => exact absurd rfl hx
        | cons y x =>
          simp at hs
          cases x with
          | nil => left; simp at hs; rw [hs.2]; exact hd1
          | cons z x => right; exact ⟨z :: x, s, by simp, hs.2, hd1⟩

end Verif.Util
