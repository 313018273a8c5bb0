import Verif.Lemmas.ConnFrame
/-
Lemmas about the command handlers: data blocks and pipelines.
-/

namespace Verif.Conn
open Spec

variable {E : Type}

theorem toInt_small {n : Nat} (h : n < 2147483648) : toInt n = n := by
  unfold toInt
  have : n % 4294967296 = n := Nat.mod_eq_of_lt (by omega)
  simp only [this, if_pos h]

/-! ### Digits -/

theorem digits_length (f n k : Nat) (hk : 0 < k) (h : n < 10 ^ k) : (digits f n).length ≤ k := by
  induction f generalizing n k with
  | zero => simp [digits]
  | succ f ih =>
    unfold digits
    split
    · simp; omega
    · rename_i hn
      cases k with
      | zero => omega
      | succ k =>
        cases k with
        | zero => simp at h; omega
        | succ k =>
          have h1 : n / 10 < 10 ^ (k + 1) := by
            rw [Nat.div_lt_iff_lt_mul (by omega)]
            rw [Nat.pow_succ] at h; exact h
          have := ih (n / 10) (k + 1) (by omega) h1
          simp only [List.length_append, List.length_singleton]; omega

theorem digits_decimal (f n : Nat) (h : n < f) : Decimal n (digits f n) ∧ (0 < n → (digits f n).head? ≠ some 48) := by
  induction f generalizing n with
  | zero => omega
  | succ f ih =>
    unfold digits
    split
    · rename_i hn
      refine ⟨⟨by simp, ?_, ?_, ?_⟩, ?_⟩
      · intro d hd; simp at hd; omega
      · simp
      · intro h; simp at h; simp [h]
      · intro h0 h1; simp at h1; omega
    · rename_i hn
      obtain ⟨⟨h1, h2, h3, h4⟩, h5⟩ := ih (n / 10) (by omega)
      have hh : (digits f (n / 10) ++ [48 + n % 10]).head? = (digits f (n / 10)).head? := by
        cases hd : digits f (n / 10) with
        | nil => exact absurd hd h1
        | cons a l => rfl
      refine ⟨⟨by simp, ?_, ?_, ?_⟩, ?_⟩
      · intro d hd
        rcases List.mem_append.1 hd with hd | hd
        · exact h2 d hd
        · simp at hd; omega
      · rw [List.foldl_append, h3]; simp; omega
      · intro h; rw [hh] at h; exact absurd h (h5 (by omega))
      · intro _; rw [hh]; exact h5 (by omega)

theorem pipeHead_fits {n : Nat} (h : n ≤ 500) : (pipeHead n).length ≤ pipeHeadSize := by
  have := digits_length (n + 1) n 3 (by omega) (by omega)
  simp only [pipeHead, List.length_append, pipeHeadSize, crlf, List.length_cons, List.length_nil]
  omega

theorem pipeTail_length (p : Pipe) : (pipeTail p).length ≤ 29 := by
  cases p <;> decide

/-! ### Answers -/

/-- Between two commands nothing is left over, and the saved responses fit. -/
structure Roomy (c : Conn) : Prop where
  on : c.pipe = .on → c.count < 500 ∧ (c.count ≠ 0 → c.res.length < 20000)

theorem pipeDone_some {c : Conn} (last : Bool) (h1 : c.count ≤ 500) (h2 : c.res.length < 20000) :
    pipeDone c last = some (if c.pipe = .on ∨ last = true then { pipeClear c with res := c.res ++ pipeTail c.pipe }
      else { c with res := c.res ++ pipeTail c.pipe }, pipeHead c.count ++ c.res ++ pipeTail c.pipe) := by
  unfold pipeDone
  have h3 := pipeHead_fits h1
  have h4 := pipeTail_length c.pipe
  rw [if_neg]
  simp only [pipeMaxSize, pipeHeadSize, pipeTailSize] at h3 ⊢
  omega

theorem outString_off {c : Conn} (s : List Nat) (h : c.pipe = .off) :
    ∃ o, outString c s = some ({ c with noreply := false }, o) ∧ (c.noreply = false → o ≠ none) := by
  unfold outString
  simp only [h, ne_eq, not_true_eq_false, if_false]
  by_cases hn : c.noreply = true
  · simp only [if_pos hn]; exact ⟨_, rfl, fun h => (by rw [hn] at h; cases h)⟩
  · simp only [hn]
    obtain ⟨nr, p, ct, rs⟩ := c
    simp only [Bool.not_eq_true] at hn h
    subst hn h
    exact ⟨_, rfl, fun _ => by simp⟩

/-- After an error, the next string ends the pipeline. -/
theorem outString_err {c : Conn} (s : List Nat) (h : c.pipe ≠ .off) (h' : c.pipe ≠ .on) :
    ∃ o, outString c s = some ({ pipeClear c with noreply := false }, o) ∧ (c.noreply = false → o ≠ none) := by
  have e1 : pipeSave c s = (pipeClear c, true) := by
    unfold pipeSave
    cases hp : c.pipe with
    | on => exact absurd hp h'
    | _ => rfl
  unfold outString
  simp only [if_pos h, e1, if_true]
  by_cases hn : c.noreply = true
  · have : (pipeClear c).noreply = true := hn
    simp only [if_pos this]; exact ⟨_, rfl, fun h => (by rw [hn] at h; cases h)⟩
  · have : (pipeClear c).noreply = false := by simp only [Bool.not_eq_true] at hn; exact hn
    simp only [this]
    have h2 : (pipeClear c).pipe = .off := rfl
    simp only [h2, ne_eq, not_true_eq_false, if_false]
    refine ⟨_, congrArg some (Prod.ext ?_ rfl), fun _ => by simp⟩
    cases c; simp only [pipeClear] at this ⊢; rw [this]

theorem isError_iff (s : List Nat) : isError s = true ↔ Fails s := by
  have key : ∀ (p : List Nat) (n : Nat), p.length = n → (s.take n = p ↔ p <+: s) := by
    intro p n hp
    constructor
    · intro h; rw [← h]; exact List.take_prefix _ _
    · rintro ⟨t, rfl⟩; rw [← hp]; simp
  unfold isError Fails
  simp only [Bool.or_eq_true, decide_eq_true_eq, or_assoc]
  rw [key _ 12 rfl, key _ 12 rfl, key _ 5 rfl]

/-- The saved responses, once the counter is taken into account. -/
def Conn.saved (c : Conn) : List Nat := if c.count = 0 then [] else c.res

/-- The four outcomes of a string in a pipeline. -/
theorem outString_on {c : Conn} (s : List Nat) (h : c.pipe = .on) (hc : c.count < 500) :
    (20000 ≤ c.saved.length + (s.length + 2) → c.saved.length < 20000 →
      ∃ c', outString c s = some (c', some (pipeHead c.count ++ c.saved ++ pipeTail .mfull)) ∧ c'.noreply = false ∧
        (if c.noreply = true then c'.pipe = .mfull else c'.pipe = .off ∧ c'.count = 0)) ∧
    (c.saved.length + (s.length + 2) < 20000 → Fails s →
      ∃ c', outString c s = some (c', some (pipeHead (c.count + 1) ++ (c.saved ++ s ++ crlf) ++ pipeTail .bad)) ∧ c'.noreply = false ∧
        (if c.noreply = true then c'.pipe = .bad else c'.pipe = .off ∧ c'.count = 0)) ∧
    (c.saved.length + (s.length + 2) < 20000 → ¬ Fails s → c.noreply = false →
      ∃ c', outString c s = some (c', some (pipeHead (c.count + 1) ++ (c.saved ++ s ++ crlf) ++ pipeTail .on)) ∧ Ready c') ∧
    (c.saved.length + (s.length + 2) < 20000 → ¬ Fails s → c.noreply = true → c.count = 499 →
      ∃ c', outString c s = some (c', some (pipeHead (c.count + 1) ++ (c.saved ++ s ++ crlf) ++ pipeTail .cfull)) ∧ c'.noreply = false ∧
        c'.pipe = .cfull) ∧
    (c.saved.length + (s.length + 2) < 20000 → ¬ Fails s → c.noreply = true → c.count < 499 →
      outString c s = some ({ c with noreply := false, res := c.saved ++ s ++ crlf, count := c.count + 1 }, none)) := by
  obtain ⟨nr, p, ct, rs⟩ := c
  simp only at h hc
  subst h
  have hsv : (if ct = 0 then (⟨nr, .on, ct, []⟩ : Conn) else ⟨nr, .on, ct, rs⟩) = ⟨nr, .on, ct, Conn.saved ⟨nr, .on, ct, rs⟩⟩ := by
    unfold Conn.saved; simp only; split <;> rfl
  generalize hS : Conn.saved ⟨nr, .on, ct, rs⟩ = S at *
  have hsave : pipeSave ⟨nr, .on, ct, rs⟩ s =
      if pipeHeadSize + S.length + (s.length + 2) < pipeMaxSize - pipeTailSize then
        if isError s then (⟨nr, .bad, ct + 1, S ++ s ++ crlf⟩, false)
        else if pipeCmdMax ≤ ct + 1 ∧ nr = true then (⟨nr, .cfull, ct + 1, S ++ s ++ crlf⟩, false)
        else (⟨nr, .on, ct + 1, S ++ s ++ crlf⟩, true)
      else (⟨nr, .mfull, ct, S⟩, false) := by
    unfold pipeSave
    simp only [hsv]
  have hfit : (pipeHeadSize + S.length + (s.length + 2) < pipeMaxSize - pipeTailSize) ↔ S.length + (s.length + 2) < 20000 := by
    simp only [pipeHeadSize, pipeMaxSize, pipeTailSize]; omega
  have hlen : S.length + (s.length + 2) < 20000 → (S ++ s ++ crlf).length < 20000 := by
    intro h; simp only [List.length_append, crlf, List.length_cons, List.length_nil]; omega
  refine ⟨?_, ?_, ?_, ?_, ?_⟩
  · intro h1 h2
    have e1 : pipeSave ⟨nr, .on, ct, rs⟩ s = (⟨nr, .mfull, ct, S⟩, false) := by
      rw [hsave, if_neg]; rw [hfit]; omega
    unfold outString
    simp only [ne_eq, reduceCtorEq, not_false_eq_true, if_true, e1, Bool.false_eq_true, if_false]
    rw [pipeDone_some _ (by simp only; omega) (by simp only; omega)]
    refine ⟨_, rfl, ?_, ?_⟩
    · cases nr <;> simp [pipeClear]
    · cases nr <;> simp [pipeClear]
  · intro h1 h2
    have e1 : pipeSave ⟨nr, .on, ct, rs⟩ s = (⟨nr, .bad, ct + 1, S ++ s ++ crlf⟩, false) := by
      rw [hsave, if_pos (hfit.2 h1), if_pos ((isError_iff s).2 h2)]
    unfold outString
    simp only [ne_eq, reduceCtorEq, not_false_eq_true, if_true, e1, Bool.false_eq_true, if_false]
    rw [pipeDone_some _ (by simp only; omega) (hlen h1)]
    refine ⟨_, rfl, ?_, ?_⟩
    · cases nr <;> simp [pipeClear]
    · cases nr <;> simp [pipeClear]
  · intro h1 h2 h3
    simp only at h3
    subst h3
    have e1 : pipeSave ⟨false, .on, ct, rs⟩ s = (⟨false, .on, ct + 1, S ++ s ++ crlf⟩, true) := by
      rw [hsave, if_pos (hfit.2 h1), if_neg (fun h => h2 ((isError_iff s).1 h)), if_neg (by simp)]
    unfold outString
    simp only [ne_eq, reduceCtorEq, not_false_eq_true, if_true, e1, Bool.false_eq_true, if_false]
    rw [pipeDone_some _ (by simp only; omega) (hlen h1)]
    refine ⟨_, rfl, ?_⟩
    simp [pipeClear, Ready]
  · intro h1 h2 h3 h4
    simp only at h3 h4
    subst h3 h4
    have e1 : pipeSave ⟨true, .on, 499, rs⟩ s = (⟨true, .cfull, 500, S ++ s ++ crlf⟩, false) := by
      rw [hsave, if_pos (hfit.2 h1), if_neg (fun h => h2 ((isError_iff s).1 h)), if_pos (by simp [pipeCmdMax])]
    unfold outString
    simp only [ne_eq, reduceCtorEq, not_false_eq_true, if_true, e1, Bool.false_eq_true, if_false]
    rw [pipeDone_some _ (by simp) (hlen h1)]
    refine ⟨_, rfl, ?_, ?_⟩
    · simp
    · simp
  · intro h1 h2 h3 h4
    simp only at h3 h4
    subst h3
    have e1 : pipeSave ⟨true, .on, ct, rs⟩ s = (⟨true, .on, ct + 1, S ++ s ++ crlf⟩, true) := by
      rw [hsave, if_pos (hfit.2 h1), if_neg (fun h => h2 ((isError_iff s).1 h)), if_neg (by simp [pipeCmdMax]; omega)]
    unfold outString
    simp only [ne_eq, reduceCtorEq, not_false_eq_true, if_true, e1]

/-- Whatever the state, a string is answered or kept, and nothing is left over. -/
theorem outString_ok {c : Conn} (s : List Nat) (h : Roomy c) :
    ∃ c' o, outString c s = some (c', o) ∧ c'.noreply = false ∧ Roomy c' ∧ (c.noreply = false → o ≠ none) ∧
      (c.pipe = .off → c'.pipe = .off) := by
  by_cases h0 : c.pipe = .off
  · obtain ⟨o, e, ho⟩ := outString_off s h0
    exact ⟨_, o, e, rfl, ⟨fun hp => (by simp only [h0] at hp; cases hp)⟩, ho, fun _ => h0⟩
  · by_cases h1 : c.pipe = .on
    · obtain ⟨hc, hr⟩ := h.on h1
      have hsv : c.saved.length < 20000 := by
        unfold Conn.saved; split
        · simp
        · rename_i hz; exact hr hz
      obtain ⟨a1, a2, a3, a4, a5⟩ := outString_on s h1 hc
      by_cases hf : c.saved.length + (s.length + 2) < 20000
      · by_cases he : Fails s
        · obtain ⟨c', e, hn, hp⟩ := a2 hf he
          refine ⟨c', _, e, hn, ⟨fun hp' => ?_⟩, fun _ => by simp, fun hp' => absurd hp' h0⟩
          split at hp
          · rw [hp] at hp'; cases hp'
          · rw [hp.1] at hp'; cases hp'
        · cases hnr : c.noreply with
          | false =>
            obtain ⟨c', e, hd⟩ := a3 hf he hnr
            exact ⟨c', _, e, hd.1, ⟨fun hp' => (by rw [hd.2.1] at hp'; cases hp')⟩, fun _ => by simp, fun hp' => absurd hp' h0⟩
          | true =>
            by_cases h9 : c.count = 499
            · obtain ⟨c', e, hn, hp⟩ := a4 hf he hnr h9
              exact ⟨c', _, e, hn, ⟨fun hp' => (by rw [hp] at hp'; cases hp')⟩, fun h => (by cases h), fun hp' => absurd hp' h0⟩
            · have e := a5 hf he hnr (by omega)
              refine ⟨_, _, e, rfl, ⟨fun _ => ⟨by simp only; omega, fun _ => ?_⟩⟩, fun h => (by cases h), fun hp' => absurd hp' h0⟩
              simp only [List.length_append, crlf, List.length_cons, List.length_nil]; omega
      · obtain ⟨c', e, hn, hp⟩ := a1 (by omega) hsv
        refine ⟨c', _, e, hn, ⟨fun hp' => ?_⟩, fun _ => by simp, fun hp' => absurd hp' h0⟩
        split at hp
        · rw [hp] at hp'; cases hp'
        · rw [hp.1] at hp'; cases hp'
    · obtain ⟨o, e, ho⟩ := outString_err s h0 h1
      exact ⟨_, o, e, rfl, ⟨fun hp => (by cases hp)⟩, ho, fun _ => rfl⟩

end Verif.Conn
