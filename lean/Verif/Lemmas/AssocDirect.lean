import Verif.Lemmas.AssocStep
import Verif.Lemmas.AssocBits
/-! # `assoc_scan_direct` -/
namespace Verif.Assoc
open Spec (keys RevLt Covered)

/-- Every chain (while the table grows: every pair of chains) has room in the part of the array that is not asked for. -/
def Roomy (cfg : Cfg) (s : St) (req arr : Nat) : Prop :=
  ∀ t b, t < 2 ^ depth s → b < 2 ^ cfg.hp →
    (its (s.table t b)).length + (if s.expanding then (its (s.table (t + 2 ^ s.prevpower) b)).length else 0) + req ≤ arr

/-- The position has been passed in the order of the cursor. -/
def Before (cfg : Cfg) (t b : Nat) (k : List Nat) : Prop :=
  bucketOf cfg k < b ∨ (bucketOf cfg k = b ∧ RevLt (upperOf cfg k) t)

theorem storeChain_spec {arr : Nat} : ∀ (c : List Entry) (out : List Item), out.length < arr →
    ∃ l, storeChain arr c out = some (out ++ l) ∧ (∀ it ∈ l, .item it ∈ c) ∧ (out ++ l).length ≤ arr ∧
      (out.length + (its c).length < arr → l = its c) := by
  intro c
  induction c with
  | nil => intro out h; exact ⟨[], by simp [storeChain], by simp, by simp; omega, by simp⟩
  | cons e c ih =>
    intro out h
    cases e with
    | ph i =>
      obtain ⟨l, h1, h2, h3, h4⟩ := ih out h
      exact ⟨l, h1, fun it hm => List.mem_cons_of_mem _ (h2 it hm), h3, by rw [its_ph]; exact h4⟩
    | item it =>
      simp only [storeChain]
      rw [if_neg (by omega)]
      by_cases hf : arr ≤ out.length + 1
      · rw [if_pos hf]
        refine ⟨[it], rfl, by simp, by simp; omega, ?_⟩
        rw [its_item, List.length_cons]; omega
      · rw [if_neg hf]
        obtain ⟨l, h1, h2, h3, h4⟩ := ih (out ++ [it]) (by simp; omega)
        refine ⟨it :: l, by rw [h1]; simp, ?_, by simpa using h3, ?_⟩
        · intro x hx
          rcases List.mem_cons.mp hx with rfl | hx
          · exact List.mem_cons_self
          · exact List.mem_cons_of_mem _ (h2 x hx)
        · intro hh
          rw [its_item] at hh ⊢
          rw [h4 (by simp at hh ⊢; omega)]

/-- What the loop has found. -/
structure Found (cfg : Cfg) (items : List Item) (t0 b0 arr : Nat) (s : St) (roomy : Prop) (t b : Nat) (out : List Item) : Prop where
  mem : ∀ it ∈ out, it ∈ items
  len : out.length ≤ arr
  all : roomy → ∀ it ∈ items, ¬ Before cfg t0 b0 it.key → Before cfg t b it.key → it ∈ out

/-- The second of two tables. -/
def odd (s : St) (t : Nat) : Prop := s.expanding = true ∧ 2 ^ s.prevpower - 1 < t

instance (s : St) (t : Nat) : Decidable (odd s t) := by unfold odd; infer_instance

theorem tab_of_mod {cfg : Cfg} {items : List Item} {s : St} (h : Tab cfg items s) {k : List Nat} {t : Nat}
    (hm : upperOf cfg k % 2 ^ s.rootpower = t) : tabOf cfg s k = t ∨ (odd s t ∧ tabOf cfg s k = t - 2 ^ s.prevpower) := by
  unfold tabOf curTab
  by_cases he : s.expanding = true
  · rw [if_pos he]
    obtain ⟨g, -, -⟩ := h.geo he
    obtain ⟨m1, m2⟩ := mod_succ (upperOf cfg k) s.prevpower
    rw [g] at hm
    rw [g]
    unfold odd
    simp only [he, true_and]
    have hpos := Nat.two_pow_pos s.prevpower
    split
    · omega
    · split
      · omega
      · split <;> omega
  · rw [if_neg he]; exact .inl hm

/-- The loop, with everything that has to be known about it. -/
theorem directLoop_spec {cfg : Cfg} {items : List Item} {s : St} (h : Tab cfg items s) {t0 b0 req arr : Nat} (hreq : req ≤ arr) :
    ∀ (fuel t b n : Nat) (out : List Item), t < 2 ^ s.rootpower → b < 2 ^ cfg.hp →
      Found cfg items t0 b0 arr s (Roomy cfg s req arr) t b out →
      (0 < n → ¬ (t = 0 ∧ b = 0)) →
      0 < fuel → (n < req * 4 → req * 4 - n + 2 ≤ fuel) → (odd s t → 2 ≤ fuel) →
      (odd s t → Roomy cfg s req arr →
        (∀ it ∈ items, bucketOf cfg it.key = b → tabOf cfg s it.key = t - 2 ^ s.prevpower → it ∈ out) ∧
        out.length + (its (s.table t b)).length < arr) →
      (directLoop cfg s req arr fuel t b n out = none ∧ s.expanding = true ∧ ¬ Roomy cfg s req arr) ∨
      ∃ t' b' out', directLoop cfg s req arr fuel t b n out = some (t', b', out') ∧ t' < 2 ^ depth s ∧
        Found cfg items t0 b0 arr s (Roomy cfg s req arr) t' b' out' ∧
        ((t' = t ∧ b' = b ∧ n = 0 ∧ ¬ (out.length < req ∧ n < req * 4)) ∨ ¬ (t' = 0 ∧ b' = 0)) ∧ (2 ^ cfg.hp ≤ b' → t' = 0) := by
  intro fuel
  induction fuel with
  | zero => intro t b n out _ _ _ _ h0; omega
  | succ fuel ih =>
    intro t b n out ht hb hF hpos _ hfuel hfo hodd
    have hrp := h.pw
    simp only [directLoop]
    by_cases hc : (out.length < req ∧ n < req * 4) ∨ (s.expanding = true ∧ 2 ^ s.prevpower - 1 < t)
    · rw [if_pos hc, chain_some ht hb]
      simp only
      -- is there room
      by_cases hlt : out.length < arr
      · obtain ⟨l, k1, k2, k3, k4⟩ := storeChain_spec (s.table t b) out hlt
        simp only [k1]
        have hroom : Roomy cfg s req arr → l = its (s.table t b) := by
          intro hR
          apply k4
          by_cases ho : odd s t
          · exact (hodd ho hR).2
          · have hc' : out.length < req := by
              rcases hc with hc | hc
              · exact hc.1
              · exact absurd hc ho
            have htd : t < 2 ^ depth s := by
              unfold depth
              by_cases he : s.expanding = true
              · rw [if_pos he]
                have : ¬ 2 ^ s.prevpower - 1 < t := fun h' => ho ⟨he, h'⟩
                have := Nat.two_pow_pos s.prevpower
                omega
              · rw [if_neg he]; exact ht
            have := hR t b htd hb
            omega
        have hall : Roomy cfg s req arr → ∀ it ∈ items, bucketOf cfg it.key = b → upperOf cfg it.key % 2 ^ s.rootpower = t →
            it ∈ out ++ l := by
          intro hR it hm hbk hmod
          rcases tab_of_mod h hmod with h1 | ⟨h1, h2⟩
          · apply List.mem_append_right
            rw [hroom hR, mem_its]
            exact (h.place t b it ht hb).mpr ⟨hm, hbk, h1⟩
          · exact List.mem_append_left _ ((hodd h1 hR).1 it hm hbk h2)
        have hmem : ∀ it ∈ out ++ l, it ∈ items := by
          intro it hm
          rcases List.mem_append.mp hm with h1 | h1
          · exact hF.mem it h1
          · exact ((h.place t b it ht hb).mp (k2 it h1)).1
        have heven : ¬ odd s t → out.length < req ∧ n < req * 4 := by
          intro ho
          rcases hc with hc | hc
          · exact hc
          · exact absurd hc ho
        by_cases hz : nextTab s.rootpower t = 0
        · rw [if_pos hz]
          have hF' : Found cfg items t0 b0 arr s (Roomy cfg s req arr) 0 (b + 1) (out ++ l) := by
            refine ⟨hmem, k3, ?_⟩
            intro hR it hm hn hbf
            have hbk : bucketOf cfg it.key < b + 1 := by
              rcases hbf with h1 | ⟨-, i, -, -, h1⟩
              · exact h1
              · simp at h1
            rcases Nat.lt_or_ge (bucketOf cfg it.key) b with h1 | h1
            · exact List.mem_append_left _ (hF.all hR it hm hn (.inl h1))
            · have h2 : bucketOf cfg it.key = b := by omega
              rcases nextTab_end hrp ht hz (upperOf cfg it.key) with h3 | h3
              · exact List.mem_append_left _ (hF.all hR it hm hn (.inr ⟨h2, h3⟩))
              · exact hall hR it hm h2 h3
          by_cases he : 2 ^ cfg.hp ≤ b + 1
          · rw [if_pos he]
            exact .inr ⟨0, b + 1, out ++ l, rfl, Nat.two_pow_pos _, hF', .inr (by omega), fun _ => rfl⟩
          · rw [if_neg he]
            have hno : ¬ odd s 0 := by
              rintro ⟨-, h1⟩; omega
            have hstep := ih 0 (b + 1) (n + 1) (out ++ l) (Nat.two_pow_pos _) (by omega) hF' (by omega)
              (by
                by_cases ho : odd s t
                · have := hfo ho; omega
                · have := hfuel (heven ho).2; omega)
              (by intro h1; have := hfuel (by omega); omega)
              (fun h1 => absurd h1 hno) (fun h1 => absurd h1 hno)
            rcases hstep with h1 | ⟨t', b', out', m1, m2, m3, m4, m5⟩
            · exact .inl h1
            · refine .inr ⟨t', b', out', m1, m2, m3, ?_, m5⟩
              rcases m4 with ⟨-, -, m4, -⟩ | m4
              · omega
              · exact .inr m4
        · rw [if_neg hz]
          have hnx := fun x => nextTab_next hrp ht hz x
          have hF' : Found cfg items t0 b0 arr s (Roomy cfg s req arr) (nextTab s.rootpower t) b (out ++ l) := by
            refine ⟨hmem, k3, ?_⟩
            intro hR it hm hn hbf
            rcases hbf with h1 | ⟨h1, h2⟩
            · exact List.mem_append_left _ (hF.all hR it hm hn (.inl h1))
            · rcases (hnx _).2.mp h2 with h3 | h3
              · exact List.mem_append_left _ (hF.all hR it hm hn (.inr ⟨h1, h3⟩))
              · exact hall hR it hm h1 h3
          have hodd' : odd s (nextTab s.rootpower t) → ¬ odd s t ∧ nextTab s.rootpower t = t + 2 ^ s.prevpower := by
            intro ho
            obtain ⟨g, -, -⟩ := h.geo ho.1
            have hpp := Nat.two_pow_pos s.prevpower
            rcases Nat.lt_or_ge t (2 ^ s.prevpower) with h1 | h1
            · refine ⟨fun h2 => ?_, ?_⟩
              · have := h2.2; omega
              · rw [g]; exact nextTab_pair (by omega) h1
            · exfalso
              have h2 : t = (t - 2 ^ s.prevpower) + 2 ^ s.prevpower := by omega
              have h3 := nextTab_pair' (r := s.prevpower) (t := t - 2 ^ s.prevpower) (by omega) (by
                rw [g, two_pow_succ'] at ht; omega)
              rw [← h2, ← g] at h3
              have := ho.2
              omega
          have hstep := ih (nextTab s.rootpower t) b (n + 1) (out ++ l) (hnx 0).1 hb hF' (by intro _ h1; exact hz h1.1)
              (by
                by_cases ho : odd s t
                · have := hfo ho; omega
                · have := hfuel (heven ho).2; omega)
              (by intro h1; have := hfuel (by omega); omega)
              (by intro h1; have := hfuel (heven (hodd' h1).1).2; have := (heven (hodd' h1).1).2; omega)
              (by
                intro h1 hR
                obtain ⟨h2, h3⟩ := hodd' h1
                have hpp := Nat.two_pow_pos s.prevpower
                have htp : t < 2 ^ s.prevpower := by
                  rcases Nat.lt_or_ge t (2 ^ s.prevpower) with h5 | h5
                  · exact h5
                  · exact absurd ⟨h1.1, by omega⟩ h2
                refine ⟨?_, ?_⟩
                · intro it hm hbk htab
                  rw [h3, Nat.add_sub_cancel] at htab
                  apply List.mem_append_right
                  rw [hroom hR, mem_its]
                  exact (h.place t b it ht hb).mpr ⟨hm, hbk, htab⟩
                · have h4 := hR t b (by unfold depth; rw [if_pos h1.1]; exact htp) hb
                  rw [if_pos h1.1] at h4
                  have h5 := (heven h2).1
                  rw [h3, hroom hR, List.length_append]
                  omega)
          rcases hstep with h1 | ⟨t', b', out', m1, m2, m3, m4, m5⟩
          · exact .inl h1
          · refine .inr ⟨t', b', out', m1, m2, m3, ?_, m5⟩
            rcases m4 with ⟨-, -, m4, -⟩ | m4
            · omega
            · exact .inr m4
      · -- the array is full
        have ho : odd s t := by
          rcases hc with hc | hc
          · omega
          · exact hc
        have hnR : ¬ Roomy cfg s req arr := by
          intro hR
          have := (hodd ho hR).2
          omega
        cases hst : storeChain arr (s.table t b) out with
        | none => exact .inl ⟨rfl, ho.1, hnR⟩
        | some out' =>
          -- nothing was stored
          have heq : out' = out := by
            have : ∀ (c : List Entry) (o : List Item), arr ≤ o.length → storeChain arr c o = some out' → out' = o := by
              intro c
              induction c with
              | nil => intro o _ h1; simp only [storeChain, Option.some.injEq] at h1; exact h1.symm
              | cons e c ihc =>
                intro o ho' h1
                cases e with
                | ph i => exact ihc o ho' h1
                | item it => simp only [storeChain] at h1; rw [if_pos ho'] at h1; cases h1
            exact this _ _ (by omega) hst
          subst heq
          simp only
          have hF' : ∀ t2 b2, Found cfg items t0 b0 arr s (Roomy cfg s req arr) t2 b2 out' :=
            fun t2 b2 => ⟨hF.mem, hF.len, fun hR => absurd hR hnR⟩
          have hne : ∀ t2, t2 < 2 ^ s.prevpower → ¬ odd s t2 := by
            rintro t2 h1 ⟨-, h2⟩; omega
          obtain ⟨g, -, -⟩ := h.geo ho.1
          have hpp := Nat.two_pow_pos s.prevpower
          have htp : 2 ^ s.prevpower ≤ t := by have := ho.2; omega
          by_cases hz : nextTab s.rootpower t = 0
          · rw [if_pos hz]
            by_cases he : 2 ^ cfg.hp ≤ b + 1
            · rw [if_pos he]
              exact .inr ⟨0, b + 1, out', rfl, Nat.two_pow_pos _, hF' _ _, .inr (by omega), fun _ => rfl⟩
            · rw [if_neg he]
              have hno : ¬ odd s 0 := hne 0 hpp
              have hstep := ih 0 (b + 1) (n + 1) out' (Nat.two_pow_pos _) (by omega) (hF' _ _) (by omega)
                (by have := hfo ho; omega) (by intro h1; have := hfuel (by omega); omega)
                (fun h1 => absurd h1 hno) (fun h1 => absurd h1 hno)
              rcases hstep with h1 | ⟨t', b', o', m1, m2, m3, m4, m5⟩
              · exact .inl h1
              · refine .inr ⟨t', b', o', m1, m2, m3, ?_, m5⟩
                rcases m4 with ⟨-, -, m4, -⟩ | m4
                · omega
                · exact .inr m4
          · rw [if_neg hz]
            have h2 : t = (t - 2 ^ s.prevpower) + 2 ^ s.prevpower := by omega
            have h3 := nextTab_pair' (r := s.prevpower) (t := t - 2 ^ s.prevpower) (by omega) (by
              rw [g, two_pow_succ'] at ht; omega)
            rw [← h2, ← g] at h3
            have hno := hne _ h3
            have hstep := ih (nextTab s.rootpower t) b (n + 1) out' (nextTab_next hrp ht hz 0).1 hb (hF' _ _) (by intro _ h1; exact hz h1.1)
              (by have := hfo ho; omega) (by intro h1; have := hfuel (by omega); omega)
              (fun h1 => absurd h1 hno) (fun h1 => absurd h1 hno)
            rcases hstep with h1 | ⟨t', b', o', m1, m2, m3, m4, m5⟩
            · exact .inl h1
            · refine .inr ⟨t', b', o', m1, m2, m3, ?_, m5⟩
              rcases m4 with ⟨-, -, m4, -⟩ | m4
              · omega
              · exact .inr m4
    · rw [if_neg hc]
      rw [not_or] at hc
      refine .inr ⟨t, b, out, rfl, ?_, hF, ?_, fun h1 => by omega⟩
      · unfold depth
        by_cases he : s.expanding = true
        · rw [if_pos he]
          have : ¬ 2 ^ s.prevpower - 1 < t := fun h' => hc.2 ⟨he, h'⟩
          have := Nat.two_pow_pos s.prevpower
          omega
        · rw [if_neg he]; exact ht
      · rcases Nat.eq_zero_or_pos n with h1 | h1
        · exact .inl ⟨rfl, rfl, h1, hc.1⟩
        · exact .inr (hpos h1)

theorem covered_iff {cfg : Cfg} {c : Nat} {k : List Nat} :
    Covered cfg.hp cfg.hash c k ↔ Before cfg (c / 2 ^ cfg.hp) (c % 2 ^ cfg.hp) k := Iff.rfl

theorem depth_le {cfg : Cfg} {items : List Item} {s : St} (h : Tab cfg items s) : depth s ≤ s.rootpower := by
  unfold depth
  by_cases he : s.expanding = true
  · rw [if_pos he, (h.geo he).1]; omega
  · rw [if_neg he]; exact Nat.le_refl _

/-- One call of `assoc_scan_direct`. -/
theorem scanDirect_spec {cfg : Cfg} {items : List Item} {s : St} (h : Tab cfg items s) {c req arr : Nat}
    (hc : c / 2 ^ cfg.hp < 2 ^ depth s) (hreq : req ≤ arr) (harr : 0 < arr) (hc0 : c = 0 → 0 < req) :
    (scanDirect cfg s c req arr = none ∧ s.expanding = true ∧ ¬ Roomy cfg s req arr) ∨
    ∃ l c', scanDirect cfg s c req arr = some (some (l, c')) ∧ l.length ≤ arr ∧ (∀ it ∈ l, it ∈ items) ∧
      c' / 2 ^ cfg.hp < 2 ^ depth s ∧
      (Roomy cfg s req arr → ∀ it ∈ items, ¬ Covered cfg.hp cfg.hash c it.key → c' = 0 ∨ Covered cfg.hp cfg.hash c' it.key → it ∈ l) := by
  have hpp := Nat.two_pow_pos cfg.hp
  have hlt : c / 2 ^ cfg.hp < 2 ^ s.rootpower :=
    Nat.lt_of_lt_of_le hc (Nat.pow_le_pow_right (by decide) (depth_le h))
  unfold scanDirect
  rw [if_neg (by omega), if_neg (by omega)]
  have hno : ¬ odd s (c / 2 ^ cfg.hp) := by
    rintro ⟨he, h1⟩
    unfold depth at hc
    rw [if_pos he] at hc
    omega
  have hF : Found cfg items (c / 2 ^ cfg.hp) (c % 2 ^ cfg.hp) arr s (Roomy cfg s req arr) (c / 2 ^ cfg.hp) (c % 2 ^ cfg.hp) [] :=
    ⟨by simp, by simp, fun _ it _ h1 h2 => absurd h2 h1⟩
  rcases directLoop_spec h hreq (4 * req + 2) (c / 2 ^ cfg.hp) (c % 2 ^ cfg.hp) 0 [] hlt (Nat.mod_lt _ hpp) hF (by omega) (by omega)
      (by omega) (fun h1 => absurd h1 hno) (fun h1 => absurd h1 hno) with ⟨h1, h2⟩ | ⟨t', b', out', m1, m2, m3, m4, m5⟩
  · rw [h1]; exact .inl ⟨rfl, h2⟩
  · rw [m1]
    right
    refine ⟨out', _, rfl, m3.len, m3.mem, ?_, ?_⟩
    · by_cases he : 2 ^ cfg.hp ≤ b'
      · rw [if_pos he, Nat.zero_div]; exact Nat.two_pow_pos _
      · rw [if_neg he, Nat.mul_comm, Nat.mul_add_div hpp, Nat.div_eq_of_lt (by omega)]; exact m2
    · intro hR it hm hn hcov
      apply m3.all hR it hm hn
      by_cases he : 2 ^ cfg.hp ≤ b'
      · exact .inl (Nat.lt_of_lt_of_le (bucketOf_lt cfg it.key) he)
      · rw [if_neg he] at hcov
        have hne : t' * 2 ^ cfg.hp + b' ≠ 0 := by
          intro h0
          have hb0 : b' = 0 := by omega
          have ht0 : t' = 0 := by
            rcases Nat.eq_zero_or_pos t' with h1 | h1
            · exact h1
            · have := Nat.mul_pos h1 hpp; omega
          rcases m4 with ⟨k1, k2, -, k4⟩ | k4
          · have hc00 : c = 0 := by
              have := Nat.div_add_mod c (2 ^ cfg.hp)
              rw [← k1, ← k2, ht0, hb0] at this
              simp at this
              exact this.symm
            have := hc0 hc00
            exact k4 ⟨this, by omega⟩
          · exact k4 ⟨ht0, hb0⟩
        rcases hcov with h1 | h1
        · exact absurd h1 hne
        · rw [covered_iff] at h1
          rw [Nat.mul_comm, Nat.mul_add_div hpp, Nat.div_eq_of_lt (by omega), Nat.add_zero, Nat.mul_add_mod,
            Nat.mod_eq_of_lt (by omega)] at h1
          exact h1

end Verif.Assoc
