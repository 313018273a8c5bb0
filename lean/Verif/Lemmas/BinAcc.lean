import Verif.Lemmas.BinCode

/-! Helper lemmas about the binary protocol: which requests are refused as malformed. -/

namespace Verif.Bin

open Spec

theorem be_lt (b : Bytes) : be b < 256 ^ b.length := by
  induction hn : b.length generalizing b with
  | zero =>
    have : b = [] := List.length_eq_zero_iff.1 hn
    subst this; simp [be]
  | succ n ih =>
    obtain ⟨l, x, rfl⟩ : ∃ l x, b = l ++ [x] := by
      refine ⟨b.dropLast, b.getLast (by intro h; simp [h] at hn), (List.dropLast_concat_getLast _).symm⟩
    rw [be_snoc]
    have h1 := ih l (by simpa using hn)
    have h2 := x.toNat_lt
    rw [Nat.pow_succ]; omega

theorem extlen_lt (inp : Bytes) : (hdrOf inp).extlen < 256 := by
  have h := be_lt (slice inp 4 1)
  have h2 : (slice inp 4 1).length ≤ 1 := by simp [slice]; omega
  have : 256 ^ (slice inp 4 1).length ≤ 256 ^ 1 := Nat.pow_le_pow_right (by decide) h2
  show be (slice inp 4 1) < 256
  omega

theorem not_refused_conclude {σ : Type} (g : Cfg) (h : Hdr) (s : σ) (u cas : Nat) (good : List Resp) (a : Act) :
    ¬ Refused (conclude g h s u cas good a) := by
  cases a <;> simp [conclude, Refused]

theorem not_refused_refuse {σ : Type} (g : Cfg) (h : Hdr) (s : σ) (u v : Nat) (code : Code) : ¬ Refused (refuse g h s u v code) := by
  unfold refuse
  cases code <;> simp [Refused, swallowOr] <;> split <;> simp

theorem not_refused_update {σ : Type} (e : Engine σ) (g : Cfg) (s : σ) (h : Hdr) (c : Cmd) (q : Bool) (ext key inp : Bytes)
    (h1 : h.keylen + h.extlen ≤ h.bodylen) (h2 : h.bodylen ≤ h.keylen + h.extlen + maxVlen) :
    ¬ Refused (doUpdate e g s h c q ext key inp) := by
  unfold doUpdate
  simp only []
  rw [if_neg (by omega), if_neg (by omega)]
  split
  · split
    · simp [Refused]
    · exact not_refused_conclude _ _ _ _ _ _ _
  · split <;> exact not_refused_refuse _ _ _ _ _ _

theorem not_refused_sasl {σ : Type} (e : Engine σ) (g : Cfg) (s : σ) (h : Hdr) (c : Cmd) (q : Bool) (key inp : Bytes)
    (h1 : h.keylen ≤ h.bodylen) (h2 : h.bodylen ≤ h.keylen + maxVlen) : ¬ Refused (doSasl e g s h c q key inp) := by
  unfold doSasl
  simp only []
  rw [if_neg (by omega), if_neg (by omega)]
  split
  · simp only [Refused, swallowOr]; split <;> simp
  · split
    · simp [Refused]
    · split <;> simp [Refused]

theorem not_refused_get {σ : Type} (e : Engine σ) (g : Cfg) (s : σ) (h : Hdr) (c : Cmd) (q : Bool) (key : Bytes) :
    ¬ Refused (doGet e g s h c q key) := by
  unfold doGet
  simp only []
  split
  · simp [Refused]
  · split
    · simp [Refused]
    · split
      · split <;> simp [Refused]
      · simp [Refused]
  · exact not_refused_conclude _ _ _ _ _ _ _

theorem not_refused_coll {σ : Type} (e : Engine σ) (g : Cfg) (s : σ) (h : Hdr) (c : Cmd) (q : Bool) (ext key : Bytes) :
    ¬ Refused (doColl e g s h c q ext key) := by
  unfold doColl
  simp only []
  split
  · simp [Refused]
  · exact not_refused_conclude _ _ _ _ _ _ _

theorem not_refused_collValue {σ : Type} (e : Engine σ) (g : Cfg) (s : σ) (h : Hdr) (c : Cmd) (q : Bool) (ext key inp : Bytes)
    (h1 : h.keylen + h.extlen ≤ h.bodylen) (h2 : h.bodylen ≤ h.keylen + h.extlen + maxVlen) :
    ¬ Refused (doCollValue e g s h c q ext key inp) := by
  unfold doCollValue
  simp only []
  rw [if_neg (by omega), if_neg (by omega)]
  split
  · simp [Refused]
  · split
    · exact not_refused_conclude _ _ _ _ _ _ _
    · split
      · exact not_refused_refuse _ _ _ _ _ _
      · split
        · split
          · simp [Refused]
          · split
            · simp [Refused]
            · exact not_refused_conclude _ _ _ _ _ _ _
        · exact not_refused_refuse _ _ _ _ _ _

theorem not_refused_unknown {σ : Type} (e : Engine σ) (g : Cfg) (s : σ) (h : Hdr) (b : Bytes) : ¬ Refused (doUnknown e g s h b) := by
  unfold doUnknown
  simp only []
  split <;> simp [Refused]

/-- A request that is accepted and holds its key and extras is not refused. -/
theorem not_refused_handle {σ : Type} (e : Engine σ) (g : Cfg) (s : σ) (inp : Bytes) (hk : (hdrOf inp).keylen ≤ keyMax)
    (ha : accepts (cmdOf g.sasl (hdrOf inp).opcode).1 (hdrOf inp) = true) (h1 : (hdrOf inp).keylen + (hdrOf inp).extlen ≤ (hdrOf inp).bodylen)
    (h2 : (hdrOf inp).bodylen ≤ (hdrOf inp).keylen + (hdrOf inp).extlen + maxVlen) : ¬ Refused (handle e g false s inp) := by
  unfold handle
  simp only [Bool.false_eq_true, if_false, ha, reduceCtorEq]
  rw [if_neg (by omega)]
  generalize hdrOf inp = h at *
  generalize hc : (cmdOf g.sasl h.opcode).1 = c at *
  split
  · simp [Refused]
  · cases c <;> first
      | exact not_refused_update _ _ _ _ _ _ _ _ _ h1 h2
      | exact not_refused_get _ _ _ _ _ _ _
      | exact not_refused_collValue _ _ _ _ _ _ _ _ _ h1 h2
      | exact not_refused_coll _ _ _ _ _ _ _ _
      | exact not_refused_unknown _ _ _ _ _
      | exact not_refused_conclude _ _ _ _ _ _ _
      | (refine not_refused_sasl _ _ _ _ _ _ _ _ (by omega) ?_
         have hx : h.extlen = 0 := by simp [accepts] at ha; exact ha.1
         omega)
      | (simp [Refused, response, mkResp]; done)
      | (simp only []; split <;> simp [Refused]; done)
      | (simp only [Refused, response]; split <;> simp [mkResp]; done)

/-- The condition on the shape and the conditions of the dispatcher, for the commands where they agree. -/
theorem accepts_iff {c : Cmd} {h : Hdr} (hc : c ∉ [Cmd.flushPrefix, .getattr, .stat, .other, .append, .prepend, .saslAuth, .saslStep])
    (hv : elemCmd c = true → h.bodylen ≠ h.keylen + h.extlen) (hx : h.extlen < 256) :
    accepts c h = true ↔ WellFormed c h := by
  cases c <;> simp at hc <;>
    simp only [accepts, WellFormed, shape, bkeySize, bkrangeSize, efilterSize, elemCmd, forall_const, reduceCtorEq, false_implies,
      Bool.and_eq_true, beq_iff_eq, bne_iff_ne, decide_eq_true_eq, List.mem_singleton, if_true, if_false, Bool.false_eq_true, Option.some.injEq,
      Bool.true_eq_false, Bool.or_eq_true, true_implies, true_and, List.mem_cons, List.not_mem_nil, or_false] at hv ⊢ <;> omega

/-- The same for the commands whose value is checked later. -/
theorem accepts_iff' {c : Cmd} {h : Hdr} (hc : c = .append ∨ c = .prepend ∨ c = .saslAuth ∨ c = .saslStep) :
    (accepts c h = true ∧ h.keylen ≤ h.bodylen) ↔ WellFormed c h := by
  rcases hc with hc | hc | hc | hc <;> subst hc <;>
    simp only [accepts, WellFormed, shape, forall_const, reduceCtorEq, false_implies,
      Bool.and_eq_true, beq_iff_eq, bne_iff_ne, decide_eq_true_eq, List.mem_singleton, if_true, Option.some.injEq,
      Bool.true_eq_false, true_implies, true_and] <;> omega

theorem refused_handle {σ : Type} (e : Engine σ) (g : Cfg) (s : σ) (inp : Bytes)
    (ha : keyMax < (hdrOf inp).keylen ∨ accepts (cmdOf g.sasl (hdrOf inp).opcode).1 (hdrOf inp) = false) :
    ∃ r, handle e g false s inp = .done { eng := s, used := hdrLen, resps := [r], next := .closing } ∧ r.status = 0x04 := by
  unfold handle
  simp only [Bool.false_eq_true, if_false]
  refine ⟨packet g (hdrOf inp) 0x04 0, ?_, rfl⟩
  split
  · rfl
  · rename_i hk
    rw [if_pos (ha.resolve_left hk)]
    rfl

/-- A request whose body is too short for its key, of a command that finds this out only when it has read the key. -/
theorem refused_late {σ : Type} (e : Engine σ) (g : Cfg) (s : σ) (inp : Bytes) {c : Cmd} (hk : (hdrOf inp).keylen ≤ keyMax)
    (hcm : (cmdOf g.sasl (hdrOf inp).opcode).1 = c)
    (hc : c = .append ∨ c = .prepend ∨ c = .saslAuth ∨ c = .saslStep) (ha : accepts c (hdrOf inp) = true)
    (hb : (hdrOf inp).bodylen < (hdrOf inp).keylen) (hl : 24 + (hdrOf inp).keylen + (hdrOf inp).extlen ≤ inp.length) :
    ∃ r u, handle e g false s inp = .done { eng := s, used := u, resps := [r], next := .closing } ∧ r.status = 0x04 := by
  unfold handle
  simp only [Bool.false_eq_true, if_false, hcm, ha, reduceCtorEq]
  rw [if_neg (by omega)]
  refine ⟨packet g (hdrOf inp) 0x04 0, 24 + (hdrOf inp).keylen + (hdrOf inp).extlen, ?_, rfl⟩
  have hw : ¬ inp.length < hdrLen + chunkOf c (hdrOf inp) := by
    rcases hc with hc | hc | hc | hc <;> subst hc <;> simp only [hdrLen, chunkOf] <;> omega
  rw [if_neg hw]
  rcases hc with hc | hc | hc | hc <;> subst hc <;> first
    | (simp only [doUpdate]; rw [if_pos (by omega)]; rfl)
    | (simp only [doSasl]; rw [if_pos hb]; rfl)

end Verif.Bin
