import Verif.Lemmas.Filter
/-!
# Bkeys and filters: C16, C17, C45
-/
namespace Verif.BT.Props
open Verif.BT Verif.BT.Spec Verif.Util.Spec

/-! ## C16 -/

/-- **C16** The documented order is a strict total order on the keys of one kind. -/
theorem C16_order : (∀ a, ¬ KLt a a) ∧ (∀ a b c, KLt a b → KLt b c → KLt a c) ∧
    (∀ a b, SameKind a b → KLt a b ∨ a = b ∨ KLt b a) := by
  refine ⟨klt_irrefl, fun a b c => klt_trans, fun a b h => ?_⟩
  cases a with
  | num x =>
    cases b with
    | num y => simp only [KLt, BKey.num.injEq]; omega
    | bin y => cases h
  | bin x =>
    cases b with
    | num y => cases h
    | bin y =>
      by_cases hx : x = []
      · subst hx
        by_cases hy : y = []
        · subst hy; exact Or.inr (Or.inl rfl)
        · left; cases y with
          | nil => exact absurd rfl hy
          | cons _ _ => exact List.Lex.nil
      · by_cases hy : y = []
        · subst hy
          right; right
          cases x with
          | nil => exact absurd rfl hx
          | cons _ _ => exact List.Lex.nil
        · rcases binComp_spec hx hy with ⟨-, k⟩ | ⟨-, k⟩ | ⟨-, k⟩
          · exact Or.inl k
          · exact Or.inr (Or.inl (by rw [k]))
          · exact Or.inr (Or.inr k)

/-- **C16** The three-way comparison and all six comparison operators of the server are those of the documented order,
for all keys of the same kind. -/
theorem C16_compare (a b : BKey) (ha : ValidKey a) (hb : ValidKey b) (hs : SameKind a b) :
    (bkeyComp a b = some .lt ↔ KLt a b) ∧ (bkeyComp a b = some .eq ↔ a = b) ∧ (bkeyComp a b = some .gt ↔ KLt b a) ∧
    (∀ op, ∃ r, bkeyIs op a b = some r ∧ (r = true ↔ CmpOp.Holds KLt op a b)) := by
  have h1 := ValidKey.nonEmpty ha
  have h2 := ValidKey.nonEmpty hb
  refine ⟨?_, ?_, ?_, fun op => bkeyIs_spec op hs h1 h2⟩ <;>
    rcases bkeyComp_spec hs h1 h2 with ⟨k, k'⟩ | ⟨k, k'⟩ | ⟨k, k'⟩ <;> rw [k]
  · simp [k']
  · subst k'; simp [klt_irrefl]
  · simp; exact fun h => klt_asymm h k'
  · simp; intro e; subst e; exact klt_irrefl _ k'
  · simp [k']
  · simp; intro e; subst e; exact klt_irrefl _ k'
  · simp; exact fun h => klt_asymm h k'
  · subst k'; simp [klt_irrefl]
  · simp [k']

/-- A proper prefix comes first, and bytes are compared as unsigned numbers. -/
example : ValidKey (.bin [1, 255]) ∧ SameKind (.bin [1, 255]) (.bin [1]) ∧ bkeyComp (.bin [1]) (.bin [1, 0]) = some .lt ∧
    bkeyComp (.bin [127, 9]) (.bin [128]) = some .lt ∧ bkeyIs .ge (.num 5) (.num 5) = some true := by
  refine ⟨by simp [ValidKey], by simp [SameKind], ?_⟩
  decide

/-! ## C17 -/

/-- **C17** Filtering: on a structure holding a valid filter, the server's filter code selects exactly the elements the
filter describes, reading no byte outside the eflag and the filter. -/
theorem C17_filter (f : EFilter) (s : Filter) (hh : Holds f s) (hv : s.Valid) (eflag rest : List Nat) :
    ∃ b, elemFilter f eflag rest = some b ∧ (b = true ↔ s.Keeps eflag) :=
  elemFilter_spec hh hv eflag rest

/-- Tokens as the command parser makes them: no NUL, no leading blank in the offset token; offsets without a minus sign
(see C42 for what those mean). -/
def OffsetToken (t0 : List Nat) : Prop := 0 ∉ t0 ∧ (∀ c r, t0 = c :: r → ¬ Space c) ∧ 45 ∉ t0

theorem bitwiseOp_iff (t : List Nat) (op : BitOp) : bitwiseOp t = some op ↔ t = bitName op := by
  unfold bitwiseOp
  constructor
  · intro h
    split at h
    · injection h with h; subst h; assumption
    · split at h
      · injection h with h; subst h; assumption
      · split at h
        · injection h with h; subst h; assumption
        · cases h
  · intro h; subst h; cases op <;> decide

theorem valuesText_inj {op : CmpOp} {t : List Nat} {vs ws : List (List Nat)} (h1 : ValuesText op t vs)
    (h2 : ValuesText op t ws) : vs = ws := by
  unfold ValuesText at h1 h2
  by_cases h : op = .eq ∨ op = .ne
  · rw [if_pos h] at h1 h2
    obtain ⟨ps, a, b⟩ := h1
    obtain ⟨qs, c, d⟩ := h2
    have := (pieces_strtok a).symm.trans (pieces_strtok c)
    subst this
    exact all2_hexa_inj b d
  · rw [if_neg h] at h1 h2
    obtain ⟨v, a, b⟩ := h1
    obtain ⟨w, c, d⟩ := h2
    rw [a, c, b.inj d]

theorem cmpName_inj {a b : CmpOp} (h : cmpName a = cmpName b) : a = b := by
  cases a <;> cases b <;> simp [cmpName] at h <;> rfl

theorem len_eq {off : Nat} {bw : Option (BitOp × List Nat)} {op : CmpOp} {vs : List (List Nat)} {L : Nat}
    (h : ∀ v ∈ vs, v.length = L) (hne : vs ≠ []) : (Filter.mk off bw op vs).len = L := by
  cases vs with
  | nil => exact absurd rfl hne
  | cons v vs => exact h v (by simp)

/-- **C17**, **C45** The parser accepts exactly the valid filters as documented and stores what was written; if no token has
more than 100 comma separated pieces, it writes within the filter structure only. -/
theorem C17_parse (f0 : EFilter) (tokens : List (List Nat))
    (hb : f0.bitwval.length = 31) (hc : f0.compval.length = 3100) (h0 : ∀ t ∈ tokens.head?, OffsetToken t) :
    ((∀ t ∈ tokens, ∀ ps, Pieces t ps → ps.length ≤ 100) → parseFilter f0 tokens ≠ none) ∧
    (∀ n f, parseFilter f0 tokens = some (.ok n f) → n ≠ 0 → ∃ s, Written tokens n s ∧ s.Valid ∧ Holds f s) ∧
    (∀ n s, Written tokens n s → s.Valid → ∃ f, parseFilter f0 tokens = some (.ok n f) ∧ Holds f s) := by
  match tokens, h0 with
  | [], _ =>
    refine ⟨by simp [parseFilter], fun n f h hn => ?_, fun n s hw => by cases hw⟩
    simp only [parseFilter] at h
    injection h with h; injection h with h _; exact absurd h.symm hn
  | [_], _ =>
    refine ⟨by simp [parseFilter], fun n f h hn => ?_, fun n s hw => by cases hw⟩
    simp only [parseFilter] at h
    injection h with h; injection h with h _; exact absurd h.symm hn
  | [_, _], _ =>
    refine ⟨by simp [parseFilter], fun n f h hn => ?_, fun n s hw => by cases hw⟩
    simp only [parseFilter] at h
    injection h with h; injection h with h _; exact absurd h.symm hn
  | t0 :: t1 :: t2 :: more, h0 =>
    have hpk : (∀ t ∈ t0 :: t1 :: t2 :: more, ∀ ps, Pieces t ps → ps.length ≤ 100) →
        ∀ t ∈ t0 :: t1 :: t2 :: more, (strtok [] t).length ≤ 100 := fun hp t ht => hp t ht _ (strtok_pieces t [] (by simp))
    obtain ⟨o1, o2, o3⟩ := h0 t0 (by simp)
    obtain ⟨n1, n2⟩ := Verif.Util.Props.C42_strtoul_partial t0 [] o1 o2 o3
    simp only [parseFilter]
    by_cases hx : is0x t2 = true
    · rw [if_pos hx]
      have hx' := (is0x_iff t2).mp hx
      cases ho : Verif.Util.safeStrtoul (t0 ++ [0]) with
      | none => exact absurd ho n2
      | some oo =>
        cases oo with
        | none =>
          simp only []
          refine ⟨by simp, fun n f h => by simp at h, fun n s hw => ?_⟩
          cases hw with
          | short a b => rw [(n1 _).mpr ⟨a, b⟩] at ho; cases ho
          | long a b => rw [(n1 _).mpr ⟨a, b⟩] at ho; cases ho
        | some offset =>
          have hnum := (n1 offset).mp ho
          have hoff : ∀ off, Number t0 false off → off < 2 ^ 32 → off = offset := by
            intro off a b
            have := (n1 off).mpr ⟨a, b⟩
            rw [ho] at this; injection this with this; injection this with this; exact this.symm
          simp only []
          by_cases hge : offset ≥ maxEflag
          · rw [if_pos hge]
            refine ⟨by simp, fun n f h => by simp at h, fun n s hw hv => ?_⟩
            obtain ⟨-, -, -, v4, v5, -⟩ := hv
            simp only [maxEflag] at hge
            cases hw with
            | short a b => have := hoff _ a b; simp only at v5; omega
            | long a b => have := hoff _ a b; simp only at v5; omega
          · rw [if_neg hge]
            -- the short form, shared by two branches
            have hshort : (∀ t3 t4 r, more = t3 :: t4 :: r → ¬ Starts0x t4) →
                ((∀ t ∈ t0 :: t1 :: t2 :: more, ∀ ps, Pieces t ps → ps.length ≤ 100) →
                  parseCompare offset 1 t1 t2 { f0 with offset := offset, nbitwval := 0 } ≠ none) ∧
                (∀ n f, parseCompare offset 1 t1 t2 { f0 with offset := offset, nbitwval := 0 } = some (.ok n f) → n ≠ 0 →
                  ∃ s, Written (t0 :: t1 :: t2 :: more) n s ∧ s.Valid ∧ Holds f s) ∧
                (∀ n s, Written (t0 :: t1 :: t2 :: more) n s → s.Valid →
                  ∃ f, parseCompare offset 1 t1 t2 { f0 with offset := offset, nbitwval := 0 } = some (.ok n f) ∧ Holds f s) := by
              intro hmore
              obtain ⟨r1, r2, r3⟩ := parseCompare_spec (offset := offset) (used := 1) (top := t1) (tval := t2)
                (f := { f0 with offset := offset, nbitwval := 0 }) hc hx'
              have r2' : ∀ n f, parseCompare offset 1 t1 t2 { f0 with offset := offset, nbitwval := 0 } = some (.ok n f) →
                  ∃ s, Written (t0 :: t1 :: t2 :: more) n s ∧ s.Valid ∧ Holds f s := by
                intro n f h
                obtain ⟨e, op, vs, L, q1, q2, q3, q4, q5, q6, q7, q8, q9, q10⟩ := r2 n f h
                subst e; subst q1
                have hl := len_eq (off := offset) (bw := none) (op := op) q3.len q4
                obtain ⟨z1, z2, z3, z4, z5⟩ := q9
                refine ⟨⟨offset, none, op, vs⟩, .short hnum.1 hnum.2 hx' q2 hmore, ⟨q4, q5, ?_, ?_, ?_, ?_, q10⟩, ?_⟩
                · rw [hl]; exact q3.len
                · rw [hl]; exact q6
                · rw [hl]; exact q7
                · intro _ _ h; cases h
                · refine ⟨z1, z5, by rw [hl]; exact q3.nc, q3.cnt, stored_vals q3 (by omega) q5, fun _ => z4, fun _ _ h => by cases h⟩
              refine ⟨fun hp => r1 (hpk hp t2 (by simp)), fun n f h _ => r2' n f h, fun n s hw hv => ?_⟩
              have hv' := hv
              obtain ⟨v1, v2, v3, v4, v5, v6, v7⟩ := hv
              cases hw with
              | @short _ _ _ off op vs a b c d e =>
                have := hoff _ a b; subst this
                obtain ⟨g, hg⟩ := r3 op vs _ rfl d v2 v3 v5 (by simp)
                refine ⟨g, hg, ?_⟩
                obtain ⟨s', w, -, hh⟩ := r2' 3 g hg
                generalize hT : (t0 :: cmpName op :: t2 :: more) = T at w
                cases w with
                | @short _ _ _ off' op' vs' a' b' c' d' e' =>
                  simp only [List.cons.injEq] at hT
                  obtain ⟨rfl, hop, rfl, rfl⟩ := hT
                  have := cmpName_inj hop; subst this
                  have := hoff _ a' b'; subst this
                  have := valuesText_inj d d'; subst this
                  exact hh
              | long a b c d e => exact absurd d (hmore _ _ _ rfl)
            match more, hshort, hpk with
            | [], hshort, _ => exact hshort (by intro _ _ _ h; cases h)
            | [_], hshort, _ => exact hshort (by intro _ _ _ h; cases h)
            | t3 :: t4 :: rest, hshort, hpk =>
              simp only []
              by_cases hx4 : is0x t4 = true
              · rw [if_pos hx4]
                have hx4' := (is0x_iff t4).mp hx4
                have hno : ∀ n s, Written (t0 :: t1 :: t2 :: t3 :: t4 :: rest) n s → ∃ op bop b vs, t1 = bitName bop ∧
                    Hexa t2 b ∧ t3 = cmpName op ∧ ValuesText op t4 vs ∧ n = 5 ∧ s = ⟨offset, some (bop, b), op, vs⟩ := by
                  intro n s hw
                  cases hw with
                  | short a b c d e => exact absurd hx4' (e _ _ _ rfl)
                  | @long _ _ _ _ off op bop b vs a b' c d e =>
                    have := hoff _ a b'; subst this
                    exact ⟨op, bop, b, vs, rfl, c, rfl, e, rfl, rfl⟩
                cases hbo : bitwiseOp t1 with
                | none =>
                  simp only []
                  refine ⟨by simp, fun n f h => by simp at h, fun n s hw hv => ?_⟩
                  obtain ⟨op, bop, b, vs, w1, -⟩ := hno n s hw
                  rw [(bitwiseOp_iff t1 bop).mpr w1] at hbo; cases hbo
                | some bop =>
                  have hbn := (bitwiseOp_iff t1 bop).mp hbo
                  have hbu : ∀ bop', t1 = bitName bop' → bop' = bop := fun b' h => by
                    have := (bitwiseOp_iff t1 b').mpr h
                    rw [hbo] at this; injection this with this; exact this.symm
                  simp only []
                  cases hev : eflagFromStr t2 with
                  | none =>
                    simp only []
                    refine ⟨by simp, fun n f h => by simp at h, fun n s hw hv => ?_⟩
                    obtain ⟨op, bop', b, vs, -, w2, -, -, -, w6⟩ := hno n s hw
                    subst w6
                    obtain ⟨-, -, -, -, v5, v6, -⟩ := hv
                    have := v6 bop' b rfl
                    rw [(eflagFromStr_iff t2 b).mpr ⟨w2, by omega⟩] at hev; cases hev
                  | some bv =>
                    obtain ⟨hxb, hb31⟩ := (eflagFromStr_iff t2 bv).mp hev
                    simp only []
                    obtain ⟨m', w1, w2, w3⟩ := writeAt_some (m := f0.bitwval) (v := bv) (off := 0) (by omega)
                    rw [w1]
                    simp only []
                    obtain ⟨r1, r2, r3⟩ := parseCompare_spec (offset := offset) (used := 3) (top := t3) (tval := t4)
                      (f := { f0 with offset := offset, bitwop := bop, bitwval := m', nbitwval := bv.length }) hc hx4'
                    have r2' : ∀ n f, parseCompare offset 3 t3 t4 { f0 with offset := offset, bitwop := bop, bitwval := m', nbitwval := bv.length } = some (.ok n f) →
                        ∃ s, Written (t0 :: t1 :: t2 :: t3 :: t4 :: rest) n s ∧ s.Valid ∧ Holds f s := by
                      intro n f h
                      obtain ⟨e, op, vs, L, q1, q2, q3, q4, q5, q6, q7, q8, q9, q10⟩ := r2 n f h
                      subst e; subst q1; subst hbn
                      have hl := len_eq (off := offset) (bw := some (bop, bv)) (op := op) q3.len q4
                      obtain ⟨z1, z2, z3, z4, z5⟩ := q9
                      have hL : L = bv.length := q8 hxb.ne_nil
                      refine ⟨⟨offset, some (bop, bv), op, vs⟩, .long hnum.1 hnum.2 hxb hx4' q2, ⟨q4, q5, ?_, ?_, ?_, ?_, q10⟩, ?_⟩
                      · rw [hl]; exact q3.len
                      · rw [hl]; exact q6
                      · rw [hl]; exact q7
                      · intro _ _ h
                        injection h with h; injection h with _ h; subst h
                        rw [hl, hL]
                      · refine ⟨z1, z5, by rw [hl]; exact q3.nc, q3.cnt, stored_vals q3 (by omega) q5, fun h => (by cases h), ?_⟩
                        intro _ _ h
                        injection h with h; injection h with h1 h2; subst h1; subst h2
                        rw [hl, hL]
                        refine ⟨z4, z2, ?_, ?_⟩
                        · rw [z3]; simpa using w3
                        · rw [z3]; show _ ≤ m'.length; omega
                    refine ⟨fun hp => r1 (hpk hp t4 (by simp)), fun n f h _ => r2' n f h, fun n s hw hv => ?_⟩
                    obtain ⟨op, bop', b, vs, u1, u2, u3, u4, u5, u6⟩ := hno n s hw
                    subst u6; subst u5; subst u3
                    have := hbu _ u1; subst this
                    have := hxb.inj u2; subst this
                    obtain ⟨v1, v2, v3, v4, v5, v6, v7⟩ := hv
                    obtain ⟨g, hg⟩ := r3 op vs _ rfl u4 v2 v3 v5 (fun _ => (v6 _ _ rfl).symm)
                    refine ⟨g, hg, ?_⟩
                    obtain ⟨s', w, -, hh⟩ := r2' 5 g hg
                    obtain ⟨op', bop'', b'', vs'', u1', u2', u3', u4', u5', u6'⟩ := hno _ _ w
                    have := cmpName_inj u3'; subst this
                    have := hbu _ u1'; subst this
                    have := hxb.inj u2'; subst this
                    have := valuesText_inj u4 u4'; subst this
                    rw [u6'] at hh
                    exact hh
              · rw [if_neg hx4]
                refine hshort ?_
                intro _ _ _ h
                injection h with _ h; injection h with h _; subst h
                exact fun h => hx4 ((is0x_iff _).mpr h)
    · rw [if_neg hx]
      refine ⟨by simp, fun n f h hn => ?_, fun n s hw => ?_⟩
      · injection h with h; injection h with h _; exact absurd h.symm hn
      · cases hw with
        | short a b c => exact absurd ((is0x_iff _).mpr c) hx
        | long a b c =>
          obtain ⟨r, e, _⟩ := c
          exact absurd ((is0x_iff _).mpr ⟨r, e⟩) hx

/-- A filter structure before first use. -/
def blank : EFilter := ⟨List.replicate 31 0, List.replicate 3100 0, 0, 0, 0, 0, .and, .eq⟩

/-- `1 & 0x0F EQ 0x03,0x05`: second byte, masked, is 3 or 5.  Elements with eflags `00 35` and `00 36`. -/
example : ∃ f, parseFilter blank [[49], [38], [48, 120, 48, 70], [69, 81], [48, 120, 48, 51, 44, 48, 120, 48, 53]] = some (.ok 5 f) ∧
    elemFilter f [0, 0x35] [9, 9] = some true ∧ elemFilter f [0, 0x36] [9, 9] = some false ∧
    elemFilter f [0] [0x35] = some false := by
  refine ⟨(⟨[15] ++ List.replicate 30 0, [3, 5] ++ List.replicate 3098 0, 1, 1, 2, 1, .and, .eq⟩ : EFilter), ?_⟩
  decide +kernel

/-! ## C45 -/

/-- **C45** The filter parser writes outside the comparison value array: 101 values of 31 bytes. -/
def manyValues : List Nat := (List.replicate 101 ([48, 120] ++ List.replicate 62 49 ++ [44])).flatten

theorem C45_overflow : parseFilter blank [[48], [69, 81], manyValues] = none := by decide +kernel

/-- The command with these values fits the longest command line accepted (memcached.c 13773 ff.). -/
theorem C45_overflow_length : manyValues.length = 6565 := by decide +kernel

/-- **C45** The full claim is false. -/
theorem C45_filter_bounds_false : ¬ ∀ (f0 : EFilter) (tokens : List (List Nat)),
    f0.bitwval.length = 31 → f0.compval.length = 3100 → (∀ t ∈ tokens.head?, OffsetToken t) → parseFilter f0 tokens ≠ none := by
  intro h
  refine h blank [[48], [69, 81], manyValues] (by decide +kernel) (by decide +kernel) ?_ C45_overflow
  intro t ht
  simp at ht; subst ht
  refine ⟨by decide, fun c r e => ?_, by decide⟩
  injection e with e; subst e
  simp [Space]

/-- **C45** (partial: at most 100 pieces per token) No write leaves the structure. -/
theorem C45_filter_bounds_partial (f0 : EFilter) (tokens : List (List Nat))
    (hb : f0.bitwval.length = 31) (hc : f0.compval.length = 3100) (h0 : ∀ t ∈ tokens.head?, OffsetToken t)
    (hp : ∀ t ∈ tokens, ∀ ps, Pieces t ps → ps.length ≤ 100) : parseFilter f0 tokens ≠ none :=
  (C17_parse f0 tokens hb hc h0).1 hp

/-- **C17** End to end: a filter accepted from a command line selects exactly the documented elements. -/
theorem C17_accepted (f0 : EFilter) (tokens : List (List Nat))
    (hb : f0.bitwval.length = 31) (hc : f0.compval.length = 3100) (h0 : ∀ t ∈ tokens.head?, OffsetToken t)
    (n : Nat) (f : EFilter) (hf : parseFilter f0 tokens = some (.ok n f)) (hn : n ≠ 0) :
    ∃ s, Written tokens n s ∧ s.Valid ∧ ∀ eflag rest, ∃ b, elemFilter f eflag rest = some b ∧ (b = true ↔ s.Keeps eflag) := by
  obtain ⟨s, h1, h2, h3⟩ := (C17_parse f0 tokens hb hc h0).2.1 n f hf hn
  exact ⟨s, h1, h2, elemFilter_spec h3 h2⟩

end Verif.BT.Props
