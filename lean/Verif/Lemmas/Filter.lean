import Verif.Lemmas.BKey
import Verif.Props.Util
/-!
# Lemmas on the parser of filters
-/
namespace Verif.BT
open Verif.BT.Spec Verif.Util.Spec

theorem is0x_iff (t : List Nat) : is0x t = true ↔ Starts0x t := by
  match t with
  | [] => simp [is0x, Starts0x]
  | [a] => simp [is0x, Starts0x]
  | a :: b :: r =>
    unfold is0x Starts0x
    rw [decide_eq_true_iff, show (a :: b :: r).take 2 = [a, b] from rfl]
    constructor
    · intro h; injection h with h1 h2; injection h2 with h2 _; subst h1; subst h2; exact ⟨r, rfl⟩
    · rintro ⟨h, e⟩; injection e with e1 e2; injection e2 with e2 _; rw [e1, e2]

theorem eflagFromStr_iff (t v : List Nat) : eflagFromStr t = some v ↔ Hexa t v ∧ v.length ≤ 31 := by
  unfold eflagFromStr
  by_cases h : is0x t = true
  · rw [if_pos h]
    obtain ⟨r, e⟩ := (is0x_iff t).mp h
    subst e
    rw [show (48 :: 120 :: r).drop 2 = r from rfl, Verif.Util.Props.C44_decode_iff]
    constructor
    · rintro ⟨h1, h2, h3⟩
      exact ⟨⟨r, rfl, h1, List.length_pos_iff.mp h2⟩, h3⟩
    · rintro ⟨⟨r', e, h1, h2⟩, h3⟩
      injection e with _ e; injection e with _ e; subst e
      exact ⟨h1, List.length_pos_iff.mpr h2, h3⟩
  · rw [if_neg h]
    constructor
    · intro h'; cases h'
    · rintro ⟨⟨r', e, h1, h2⟩, h3⟩
      exact absurd ((is0x_iff t).mpr ⟨r', e⟩) h

theorem _root_.Verif.BT.Spec.Hexa.ne_nil {t v : List Nat} (h : Hexa t v) : 0 < v.length := by
  obtain ⟨_, _, _, h⟩ := h; exact List.length_pos_iff.mpr h

/-- Hexadecimal notation is unambiguous. -/
theorem hexString_inj {t v w : List Nat} (h1 : HexString t v) (h2 : HexString t w) : v = w := by
  have a := (Verif.Util.hexLoop_iff t v).mpr h1
  have b := (Verif.Util.hexLoop_iff t w).mpr h2
  rw [a] at b; injection b

theorem _root_.Verif.BT.Spec.Hexa.inj {t v w : List Nat} (h1 : Hexa t v) (h2 : Hexa t w) : v = w := by
  obtain ⟨r, e, a, _⟩ := h1
  obtain ⟨r', e', b, _⟩ := h2
  subst e
  injection e' with _ e'; injection e' with _ e'; subst e'
  exact hexString_inj a b

theorem all2_hexa_inj {ps vs ws : List (List Nat)} (h1 : All2 Hexa ps vs) (h2 : All2 Hexa ps ws) : vs = ws := by
  induction h1 generalizing ws with
  | nil => cases h2; rfl
  | cons a _ ih => cases h2 with
    | cons b h => rw [a.inj b, ih h]

theorem All2.length {α β : Type} {R : α → β → Prop} {l : List α} {m : List β} (h : All2 R l m) : l.length = m.length := by
  induction h with
  | nil => rfl
  | cons _ _ ih => simp [ih]

/-! ## strtok -/

theorem strtok_pieces (s : List Nat) : ∀ cur, 44 ∉ cur → Pieces (cur ++ s) (strtok cur s) := by
  induction s with
  | nil =>
    intro cur hc
    rw [strtok, List.append_nil]
    by_cases e : cur = []
    · rw [if_pos e, e]; exact .nil
    · rw [if_neg e]; exact .last e hc
  | cons c cs ih =>
    intro cur hc
    rw [strtok]
    by_cases e : c = 44
    · rw [if_pos e, e]
      by_cases e2 : cur = []
      · rw [if_pos e2, e2]; exact .comma (ih [] (by simp))
      · rw [if_neg e2]; exact .cons e2 hc (ih [] (by simp))
    · rw [if_neg e, show cur ++ c :: cs = (cur ++ [c]) ++ cs by simp]
      exact ih (cur ++ [c]) (by simp [hc]; exact fun h => e h.symm)

theorem strtok_skip (p : List Nat) (hp : 44 ∉ p) : ∀ cur s, strtok cur (p ++ s) = strtok (cur ++ p) s := by
  induction p with
  | nil => intro cur s; simp
  | cons x xs ih =>
    intro cur s
    have hx : x ≠ 44 := fun e => hp (by simp [e])
    rw [List.cons_append, strtok, if_neg hx, ih (fun h => hp (by simp [h]))]
    simp

theorem pieces_strtok {s : List Nat} {ps : List (List Nat)} (h : Pieces s ps) : strtok [] s = ps := by
  induction h with
  | nil => rfl
  | comma _ ih => simp [strtok, ih]
  | @last p h1 h2 =>
    have := strtok_skip p h2 [] []
    rw [List.append_nil] at this
    rw [this]; simp [strtok, h1]
  | @cons p cs ps h1 h2 _ ih =>
    rw [strtok_skip p h2]; simp [strtok, h1, ih]

theorem pieces_nil {s : List Nat} {ps : List (List Nat)} (h : Pieces s ps) : ps = [] → ∀ x ∈ s, x = 44 := by
  induction h with
  | nil => simp
  | comma _ ih => intro e x hx; rcases List.mem_cons.mp hx with h | h
                  · exact h
                  · exact ih e x h
  | last _ _ => intro e; cases e
  | cons _ _ _ _ => intro e; cases e

/-! ## The comparison values -/

/-- The parts of the structure the values loop leaves alone. -/
def SameRest (f g : EFilter) : Prop :=
  f.offset = g.offset ∧ f.bitwop = g.bitwop ∧ f.bitwval = g.bitwval ∧ f.nbitwval = g.nbitwval ∧ f.compop = g.compop

/-- Values `vs` of length `L` have been stored. -/
structure Stored (f : EFilter) (vs : List (List Nat)) (L : Nat) : Prop where
  cl : f.compval.length = 3100
  nc : f.ncompval = L
  cnt : f.compvcnt = vs.length
  len : ∀ v ∈ vs, v.length = L
  st : f.compval.take (vs.length * L) = vs.flatten

theorem flatten_length {vs : List (List Nat)} {L : Nat} (h : ∀ v ∈ vs, v.length = L) : vs.flatten.length = vs.length * L := by
  induction vs with
  | nil => simp
  | cons v vs ih =>
    simp only [List.flatten_cons, List.length_append, List.length_cons]
    rw [ih fun w hw => h w (by simp [hw]), h v (by simp), Nat.add_mul]
    omega

theorem flatten_slice {vs : List (List Nat)} {L : Nat} (h : ∀ v ∈ vs, v.length = L) :
    ∀ i (hi : i < vs.length), (vs.flatten.drop (i * L)).take L = vs[i] := by
  induction vs with
  | nil => intro i hi; simp at hi
  | cons v vs ih =>
    intro i hi
    have hv := h v (by simp)
    cases i with
    | zero => simp [← hv]
    | succ i =>
      have := ih (fun w hw => h w (by simp [hw])) i (by simpa using hi)
      rw [List.flatten_cons, List.drop_append, hv, List.drop_eq_nil_of_le (by rw [hv, Nat.add_mul]; omega)]
      simp only [List.nil_append, List.getElem_cons_succ]
      rw [show (i + 1) * L - L = i * L by rw [Nat.add_mul]; omega]
      exact this

theorem writeAt_some {m v : List Nat} {off : Nat} (h : off + v.length ≤ m.length) :
    ∃ m', writeAt m off v = some m' ∧ m'.length = m.length ∧ m'.take (off + v.length) = m.take off ++ v := by
  refine ⟨_, if_pos h, ?_, ?_⟩
  · simp; omega
  · rw [List.append_assoc, List.take_append]
    have : (List.take off m).length = off := by simp; omega
    rw [this, List.take_of_length_le (by omega), show off + v.length - off = v.length by omega,
      List.take_append, List.take_of_length_le (Nat.le_refl _)]
    simp

/-- Value number two and later. -/
theorem valuesLoop_more {offset : Nat} : ∀ (ps : List (List Nat)) (f : EFilter) (vs : List (List Nat)) (L : Nat),
    Stored f vs L → vs ≠ [] → L ≤ 31 → vs.length + ps.length ≤ 100 →
    valuesLoop offset ps f ≠ none ∧
    (∀ g, valuesLoop offset ps f = some (some g) →
      ∃ ws, All2 Hexa ps ws ∧ Stored g (vs ++ ws) L ∧ SameRest g f) ∧
    (∀ ws, All2 Hexa ps ws → (∀ w ∈ ws, w.length = L) → ∃ g, valuesLoop offset ps f = some (some g)) := by
  intro ps
  induction ps with
  | nil =>
    intro f vs L hs hne hL hcnt
    refine ⟨by simp [valuesLoop], fun g hg => ?_, fun ws _ _ => ⟨f, rfl⟩⟩
    simp only [valuesLoop] at hg
    injection hg with hg; injection hg with hg; subst hg
    exact ⟨[], .nil, by simpa using hs, ⟨rfl, rfl, rfl, rfl, rfl⟩⟩
  | cons p ps ih =>
    intro f vs L hs hne hL hcnt
    simp only [List.length_cons] at hcnt
    have hpos := List.length_pos_iff.mpr hne
    simp only [valuesLoop]
    cases hv : eflagFromStr p with
    | none =>
      simp only []
      refine ⟨by simp, fun g hg => by simp at hg, fun ws hw hl => ?_⟩
      cases hw with
      | @cons a b as bs h1 h2 =>
        have := (eflagFromStr_iff p b).mpr ⟨h1, by rw [hl b (by simp)]; exact hL⟩
        rw [hv] at this; cases this
    | some v =>
      obtain ⟨hx, h31⟩ := (eflagFromStr_iff p v).mp hv
      simp only []
      have hle : f.compvcnt * f.ncompval ≤ 99 * 31 := by
        rw [hs.cnt, hs.nc]; exact Nat.mul_le_mul (by omega) hL
      obtain ⟨m', w1, w2, w3⟩ := writeAt_some (m := f.compval) (v := v) (off := f.compvcnt * f.ncompval)
        (by rw [hs.cl]; omega)
      rw [w1]
      simp only []
      rw [if_neg (by rw [hs.cnt]; simp [maxCompare]; omega), if_neg (by rw [hs.cnt]; omega)]
      by_cases hvl : v.length = f.ncompval
      · rw [if_neg (by simp [hvl])]
        have hst : Stored { f with compval := m', compvcnt := f.compvcnt + 1 } (vs ++ [v]) L := by
          refine ⟨by rw [← hs.cl]; exact w2, hs.nc, by simp [hs.cnt], ?_, ?_⟩
          · intro w hw
            rcases List.mem_append.mp hw with hw | hw
            · exact hs.len w hw
            · simp at hw; rw [hw, hvl, hs.nc]
          · have e : (vs ++ [v]).length * L = f.compvcnt * f.ncompval + v.length := by
              rw [hvl, hs.cnt, hs.nc]; simp [Nat.add_mul]
            rw [e]
            show m'.take _ = _
            rw [w3, hs.cnt, hs.nc, hs.st]; simp
        obtain ⟨r1, r2, r3⟩ := ih _ _ _ hst (by simp) hL (by simp; omega)
        refine ⟨r1, fun g hg => ?_, fun ws hw hl => ?_⟩
        · obtain ⟨ws, q1, q2, q3⟩ := r2 g hg
          exact ⟨v :: ws, .cons hx q1, by simpa using q2, q3⟩
        · cases hw with
          | @cons a b as bs h1 h2 => exact r3 bs h2 fun w hw => hl w (by simp [hw])
      · rw [if_pos hvl]
        refine ⟨by simp, fun g hg => by simp at hg, fun ws hw hl => ?_⟩
        cases hw with
        | @cons a b as bs h1 h2 =>
          have := hl b (by simp)
          rw [← hx.inj h1, ← hs.nc] at this
          exact absurd this hvl

/-- All values. -/
theorem valuesLoop_spec {offset : Nat} (ps : List (List Nat)) (f : EFilter) (hne : ps ≠ []) (hcl : f.compval.length = 3100)
    (h0 : f.compvcnt = 0) (hcnt : ps.length ≤ 100) :
    valuesLoop offset ps f ≠ none ∧
    (∀ g, valuesLoop offset ps f = some (some g) →
      ∃ ws L, All2 Hexa ps ws ∧ Stored g ws L ∧ SameRest g f ∧ 0 < L ∧ offset + L ≤ 31 ∧ (f.nbitwval > 0 → L = f.nbitwval)) ∧
    (∀ ws L, All2 Hexa ps ws → (∀ w ∈ ws, w.length = L) → offset + L ≤ 31 → (f.nbitwval > 0 → L = f.nbitwval) →
      ∃ g, valuesLoop offset ps f = some (some g)) := by
  cases ps with
  | nil => exact absurd rfl hne
  | cons p ps =>
    simp only [List.length_cons] at hcnt
    simp only [valuesLoop]
    cases hv : eflagFromStr p with
    | none =>
      simp only []
      refine ⟨by simp, fun g hg => by simp at hg, fun ws L hw hl ho hb => ?_⟩
      cases hw with
      | @cons a b as bs h1 h2 =>
        have := (eflagFromStr_iff p b).mpr ⟨h1, by rw [hl b (by simp)]; omega⟩
        rw [hv] at this; cases this
    | some v =>
      obtain ⟨hx, h31⟩ := (eflagFromStr_iff p v).mp hv
      simp only []
      obtain ⟨m', w1, w2, w3⟩ := writeAt_some (m := f.compval) (v := v) (off := f.compvcnt * f.ncompval)
        (by rw [hcl, h0]; omega)
      rw [w1]
      simp only [h0]
      rw [if_neg (by simp [maxCompare]), if_pos trivial]
      by_cases hm : offset + v.length > maxEflag
      · rw [if_pos hm]
        refine ⟨by simp, fun g hg => by simp at hg, fun ws L hw hl ho hb => ?_⟩
        cases hw with
        | @cons a b as bs h1 h2 =>
          have := hl b (by simp)
          rw [← hx.inj h1] at this
          simp only [maxEflag] at hm; omega
      · rw [if_neg hm]
        by_cases hb : f.nbitwval > 0 ∧ v.length ≠ f.nbitwval
        · rw [if_pos hb]
          refine ⟨by simp, fun g hg => by simp at hg, fun ws L hw hl ho hb' => ?_⟩
          cases hw with
          | @cons a b as bs h1 h2 =>
            have := hl b (by simp)
            rw [← hx.inj h1] at this
            exact absurd (by rw [this, hb' hb.1]) hb.2
        · rw [if_neg hb]
          have hst : Stored { f with compval := m', compvcnt := 0 + 1, ncompval := v.length } [v] v.length := by
            refine ⟨by rw [← hcl]; exact w2, rfl, rfl, by simp, ?_⟩
            show m'.take _ = _
            rw [h0] at w3
            simpa using w3
          obtain ⟨r1, r2, r3⟩ := valuesLoop_more (offset := offset) ps _ _ _ hst (by simp) h31 (by simp; omega)
          refine ⟨r1, fun g hg => ?_, fun ws L hw hl ho hb' => ?_⟩
          · obtain ⟨ws, q1, q2, q3⟩ := r2 g hg
            refine ⟨v :: ws, v.length, .cons hx q1, by simpa using q2, q3, hx.ne_nil, by simp [maxEflag] at hm; omega, ?_⟩
            intro h
            by_cases e : v.length = f.nbitwval
            · exact e
            · exact absurd ⟨h, e⟩ hb
          · cases hw with
            | @cons a b as bs h1 h2 =>
              refine r3 bs h2 fun w hw => ?_
              rw [hl w (by simp [hw]), hx.inj h1, hl b (by simp)]

theorem stored_vals {f : EFilter} {vs : List (List Nat)} {L : Nat} (h : Stored f vs L) (hL : L ≤ 31) (hn : vs.length ≤ 100) :
    ∀ i (hi : i < vs.length), (f.compval.drop (i * f.ncompval)).take f.ncompval = vs[i] ∧
      i * f.ncompval + f.ncompval ≤ f.compval.length := by
  intro i hi
  rw [h.nc, h.cl]
  have h1 : i * L + L ≤ vs.length * L := by
    rw [← Nat.succ_mul]; exact Nat.mul_le_mul_right L hi
  have h2 : vs.length * L ≤ 100 * 31 := Nat.mul_le_mul hn hL
  refine ⟨?_, by omega⟩
  rw [← flatten_slice h.len i hi, ← h.st, List.drop_take, List.take_take, Nat.min_eq_left (by omega)]

/-- The comparison part. -/
theorem parseCompare_aux {offset used : Nat} {top tval : List Nat} {f : EFilter} (hcl : f.compval.length = 3100)
    (h0x : Starts0x tval) (hp : (strtok [] tval).length ≤ 100) :
    parseCompare offset used top tval f ≠ none ∧
    (∀ n g, parseCompare offset used top tval f = some (.ok n g) → n = used + 2 ∧ ∃ op vs L,
      top = cmpName op ∧ ValuesText op tval vs ∧ Stored g vs L ∧ vs ≠ [] ∧ vs.length ≤ 100 ∧ 0 < L ∧ offset + L ≤ 31 ∧
      (f.nbitwval > 0 → L = f.nbitwval) ∧ SameRest g { f with compop := op } ∧
      (op ≠ .eq → op ≠ .ne → vs.length = 1)) ∧
    (∀ op vs L, top = cmpName op → ValuesText op tval vs → (∀ w ∈ vs, w.length = L) → offset + L ≤ 31 →
      (f.nbitwval > 0 → L = f.nbitwval) → ∃ g, parseCompare offset used top tval f = some (.ok (used + 2) g)) := by
  have hcmp : ∀ op, compareOp top = some op ↔ top = cmpName op := by
    intro op
    unfold compareOp
    constructor
    · intro h
      split at h
      · injection h with h; subst h; assumption
      · split at h
        · injection h with h; subst h; assumption
        · split at h
          · injection h with h; subst h; assumption
          · split at h
            · injection h with h; subst h; assumption
            · split at h
              · injection h with h; subst h; assumption
              · split at h
                · injection h with h; subst h; assumption
                · cases h
    · intro h; subst h; cases op <;> decide
  unfold parseCompare
  cases hc : compareOp top with
  | none =>
    simp only []
    refine ⟨by simp, fun n g hg => by simp at hg, fun op vs L ht => ?_⟩
    rw [(hcmp op).mpr ht] at hc; cases hc
  | some op =>
    have htop := (hcmp op).mp hc
    have hopu : ∀ op', top = cmpName op' → op' = op := fun op' h => by
      have := (hcmp op').mpr h; rw [hc] at this; injection this with this; exact this.symm
    simp only []
    by_cases hen : op = .eq ∨ op = .ne
    · rw [if_pos hen]
      have hpne : strtok [] tval ≠ [] := by
        obtain ⟨r, e⟩ := h0x
        subst e
        intro e
        have := pieces_nil (strtok_pieces (48 :: 120 :: r) [] (by simp)) e 48 (by simp)
        omega
      obtain ⟨r1, r2, r3⟩ := valuesLoop_spec (offset := offset) (strtok [] tval) { f with compop := op, compvcnt := 0 }
        hpne hcl rfl hp
      have hvt : ∀ vs, ValuesText op tval vs ↔ All2 Hexa (strtok [] tval) vs := by
        intro vs
        rw [ValuesText, if_pos hen]
        constructor
        · rintro ⟨ps, h1, h2⟩; rw [pieces_strtok h1]; exact h2
        · intro h; exact ⟨_, strtok_pieces tval [] (by simp), h⟩
      cases hvl : valuesLoop offset (strtok [] tval) { f with compop := op, compvcnt := 0 } with
      | none => exact absurd hvl r1
      | some o =>
        rw [hvl] at r2 r3
        cases o with
        | none =>
          simp only []
          refine ⟨by simp, fun n g hg => by simp at hg, fun op' vs L ht h1 h2 h3 h4 => ?_⟩
          have := hopu op' ht; subst this
          obtain ⟨g, hg⟩ := r3 vs L ((hvt vs).mp h1) h2 h3 h4
          simp at hg
        | some g =>
          simp only []
          refine ⟨by simp, fun n g' hg => ?_, fun op' vs L ht h1 h2 h3 h4 => ⟨g, rfl⟩⟩
          injection hg with hg; injection hg with h1 h2
          subst h1; subst h2
          obtain ⟨ws, L, q1, q2, q3, q4, q5, q6⟩ := r2 g rfl
          have hl := All2.length q1
          refine ⟨rfl, op, ws, L, htop, (hvt ws).mpr q1, q2, ?_, by omega, q4, q5, q6, q3, ?_⟩
          · intro e; rw [e] at hl
            exact hpne (List.length_eq_zero_iff.mp hl)
          · intro e1 e2; rcases hen with h | h
            · exact absurd h e1
            · exact absurd h e2
    · rw [if_neg hen]
      have hvt : ∀ vs, ValuesText op tval vs ↔ ∃ v, vs = [v] ∧ Hexa tval v := by
        intro vs; rw [ValuesText, if_neg hen]
      cases hv : eflagFromStr tval with
      | none =>
        simp only []
        refine ⟨by simp, fun n g hg => by simp at hg, fun op' vs L ht h1 h2 h3 h4 => ?_⟩
        have := hopu op' ht; subst this
        obtain ⟨v, e, hx⟩ := (hvt vs).mp h1
        subst e
        rw [(eflagFromStr_iff tval v).mpr ⟨hx, by have := h2 v (by simp); omega⟩] at hv
        cases hv
      | some v =>
        obtain ⟨hx, h31⟩ := (eflagFromStr_iff tval v).mp hv
        simp only []
        obtain ⟨m', w1, w2, w3⟩ := writeAt_some (m := f.compval) (v := v) (off := 0) (by omega)
        rw [w1]
        simp only []
        by_cases hm : offset + v.length > maxEflag
        · rw [if_pos hm]
          refine ⟨by simp, fun n g hg => by simp at hg, fun op' vs L ht h1 h2 h3 h4 => ?_⟩
          have := hopu op' ht; subst this
          obtain ⟨v', e, hx'⟩ := (hvt vs).mp h1
          subst e
          have h5 := h2 v' (by simp)
          have h6 := hx.inj hx'
          subst h6
          simp only [maxEflag] at hm; omega
        · rw [if_neg hm]
          by_cases hb : f.nbitwval > 0 ∧ v.length ≠ f.nbitwval
          · rw [if_pos hb]
            refine ⟨by simp, fun n g hg => by simp at hg, fun op' vs L ht h1 h2 h3 h4 => ?_⟩
            have := hopu op' ht; subst this
            obtain ⟨v', e, hx'⟩ := (hvt vs).mp h1
            subst e
            have h5 := h2 v' (by simp)
            have h6 := hx.inj hx'
            subst h6
            exact absurd (h5.trans (h4 hb.1)) hb.2
          · rw [if_neg hb]
            refine ⟨by simp, fun n g hg => ?_, fun op' vs L ht h1 h2 h3 h4 => ⟨_, rfl⟩⟩
            injection hg with hg; injection hg with h1 h2
            subst h1; subst h2
            refine ⟨rfl, op, [v], v.length, htop, (hvt _).mpr ⟨v, rfl, hx⟩,
              ⟨by rw [← hcl]; exact w2, rfl, rfl, by simp, ?_⟩, by simp, by simp, hx.ne_nil,
              by simp [maxEflag] at hm; omega, ?_, ⟨rfl, rfl, rfl, rfl, rfl⟩, by simp⟩
            · show m'.take _ = _
              simpa using w3
            · intro h
              by_cases e : v.length = f.nbitwval
              · exact e
              · exact absurd ⟨h, e⟩ hb

/-- Accepted values are at most 100. -/
theorem valuesLoop_count {offset : Nat} : ∀ (ps : List (List Nat)) (f g : EFilter), valuesLoop offset ps f = some (some g) →
    f.compvcnt ≤ 100 → f.compvcnt + ps.length ≤ 100 := by
  intro ps
  induction ps with
  | nil => intro f g _ h; simpa using h
  | cons p ps ih =>
    intro f g h hf
    simp only [valuesLoop] at h
    cases hv : eflagFromStr p with
    | none => rw [hv] at h; simp at h
    | some v =>
      rw [hv] at h
      simp only [] at h
      cases hw : writeAt f.compval (f.compvcnt * f.ncompval) v with
      | none => rw [hw] at h; simp at h
      | some m =>
        rw [hw] at h
        simp only [] at h
        by_cases h1 : f.compvcnt + 1 > maxCompare
        · rw [if_pos h1] at h; simp at h
        · rw [if_neg h1] at h
          simp only [maxCompare] at h1
          by_cases h2 : f.compvcnt + 1 = 1
          · rw [if_pos h2] at h
            split at h
            · simp at h
            · split at h
              · simp at h
              · have := ih _ _ h (by simp; omega)
                simp only [List.length_cons] at *; omega
          · rw [if_neg h2] at h
            split at h
            · simp at h
            · have := ih _ _ h (by simp; omega)
              simp only [List.length_cons] at *; omega

theorem hexString_no_comma {t v : List Nat} (h : HexString t v) : 44 ∉ t := by
  induction h with
  | nil => simp
  | cons a b _ ih =>
    intro hm
    rcases List.mem_cons.mp hm with e | hm
    · unfold HexDigit at a; omega
    · rcases List.mem_cons.mp hm with e | hm
      · unfold HexDigit at b; omega
      · exact ih hm

theorem hexa_strtok {t v : List Nat} (h : Hexa t v) : strtok [] t = [t] := by
  obtain ⟨r, e, hx, _⟩ := h
  refine pieces_strtok (.last (by rw [e]; simp) ?_)
  rw [e]
  have := hexString_no_comma hx
  simp [this]

theorem parseCompare_count {offset used n : Nat} {top tval : List Nat} {f g : EFilter}
    (h : parseCompare offset used top tval f = some (.ok n g)) : (strtok [] tval).length ≤ 100 := by
  unfold parseCompare at h
  cases hc : compareOp top with
  | none => rw [hc] at h; simp at h
  | some op =>
    rw [hc] at h
    simp only [] at h
    by_cases hen : op = .eq ∨ op = .ne
    · rw [if_pos hen] at h
      cases hvl : valuesLoop offset (strtok [] tval) { f with compop := op, compvcnt := 0 } with
      | none => rw [hvl] at h; simp at h
      | some o =>
        rw [hvl] at h
        cases o with
        | none => simp at h
        | some g => simpa using valuesLoop_count _ _ _ hvl (by simp)
    · rw [if_neg hen] at h
      cases hv : eflagFromStr tval with
      | none => rw [hv] at h; simp at h
      | some v => rw [hexa_strtok ((eflagFromStr_iff tval v).mp hv).1]; simp

theorem valuesText_count {op : CmpOp} {t : List Nat} {vs : List (List Nat)} (h : ValuesText op t vs) :
    (strtok [] t).length = vs.length := by
  unfold ValuesText at h
  by_cases hen : op = .eq ∨ op = .ne
  · rw [if_pos hen] at h
    obtain ⟨ps, h1, h2⟩ := h
    rw [pieces_strtok h1]; exact All2.length h2
  · rw [if_neg hen] at h
    obtain ⟨v, e, h⟩ := h
    rw [hexa_strtok h, e]; rfl

/-- The comparison part, any number of values. -/
theorem parseCompare_spec {offset used : Nat} {top tval : List Nat} {f : EFilter} (hcl : f.compval.length = 3100)
    (h0x : Starts0x tval) :
    ((strtok [] tval).length ≤ 100 → parseCompare offset used top tval f ≠ none) ∧
    (∀ n g, parseCompare offset used top tval f = some (.ok n g) → n = used + 2 ∧ ∃ op vs L,
      top = cmpName op ∧ ValuesText op tval vs ∧ Stored g vs L ∧ vs ≠ [] ∧ vs.length ≤ 100 ∧ 0 < L ∧ offset + L ≤ 31 ∧
      (f.nbitwval > 0 → L = f.nbitwval) ∧ SameRest g { f with compop := op } ∧
      (op ≠ .eq → op ≠ .ne → vs.length = 1)) ∧
    (∀ op vs L, top = cmpName op → ValuesText op tval vs → vs.length ≤ 100 → (∀ w ∈ vs, w.length = L) → offset + L ≤ 31 →
      (f.nbitwval > 0 → L = f.nbitwval) → ∃ g, parseCompare offset used top tval f = some (.ok (used + 2) g)) :=
  ⟨fun hp => (parseCompare_aux hcl h0x hp).1, fun n g h => (parseCompare_aux hcl h0x (parseCompare_count h)).2.1 n g h,
    fun op vs L a b c => (parseCompare_aux hcl h0x (by rw [valuesText_count b]; exact c)).2.2 op vs L a b⟩

end Verif.BT
