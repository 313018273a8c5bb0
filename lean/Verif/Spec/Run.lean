/-!
# Interactive runs

Shared by the modules that follow: a client calls an implementation (a partial step function, `none` is a
fault) and sees what it answers; the specification is a relation on abstract states.
-/
namespace Verif.Run
variable {St S Op Obs : Type}

/-- A client chooses its next call from the calls and answers so far. -/
abbrev Client (Op Obs : Type) := List (Op × Obs) → Op

/-- Transcript of the first `n` calls of a client against the implementation; `none`: it faulted. -/
def play (step : St → Op → Option (St × Obs)) (init : St) (c : Client Op Obs) : Nat → Option (St × List (Op × Obs))
  | 0 => some (init, [])
  | n + 1 =>
    match play step init c n with
    | none => none
    | some (s, t) =>
      match step s (c t) with
      | none => none
      | some (s', o) => some (s', t ++ [(c t, o)])

/-- Transcripts the specification allows, with the abstract state they lead to. -/
inductive SpecRun (Step : S → Op → Obs → S → Prop) (start : S) (c : Client Op Obs) : List (Op × Obs) → S → Prop where
  | nil : SpecRun Step start c [] start
  | snoc {t σ o σ'} : SpecRun Step start c t σ → Step σ (c t) o σ' → SpecRun Step start c (t ++ [(c t, o)]) σ'

/-- The client makes only legal calls as long as the answers are those of the specification. -/
def LegalClient (Step : S → Op → Obs → S → Prop) (Legal : S → Op → Prop) (start : S) (c : Client Op Obs) : Prop :=
  ∀ t σ, SpecRun Step start c t σ → Legal σ (c t)

/-- The implementation never faults and only gives answers the specification allows, to every client that
makes legal calls, for ever. -/
def Implements (step : St → Op → Option (St × Obs)) (init : St) (Step : S → Op → Obs → S → Prop)
    (Legal : S → Op → Prop) (start : S) : Prop :=
  ∀ c : Client Op Obs, LegalClient Step Legal start c →
    ∀ n, ∃ s t, play step init c n = some (s, t) ∧ t.length = n ∧ ∃ σ, SpecRun Step start c t σ

/-- Forward simulation implies it. -/
theorem of_simulation {step : St → Op → Option (St × Obs)} {init : St} {Step : S → Op → Obs → S → Prop}
    {Legal : S → Op → Prop} {start : S} (R : S → St → Prop) (h0 : R start init)
    (hs : ∀ σ s op, R σ s → Legal σ op → ∃ s' o σ', step s op = some (s', o) ∧ Step σ op o σ' ∧ R σ' s') :
    Implements step init Step Legal start := by
  intro c hc n
  have key : ∃ s t, play step init c n = some (s, t) ∧ t.length = n ∧ ∃ σ, SpecRun Step start c t σ ∧ R σ s := by
    induction n with
    | zero => exact ⟨_, _, rfl, rfl, _, .nil, h0⟩
    | succ n ih =>
      obtain ⟨s, t, h1, h2, σ, h3, h4⟩ := ih
      obtain ⟨s', o, σ', k1, k2, k3⟩ := hs σ s _ h4 (hc t σ h3)
      exact ⟨s', t ++ [(c t, o)], by simp only [play, h1, k1], by simp [h2], σ', h3.snoc k2, k3⟩
  obtain ⟨s, t, h1, h2, σ, h3, -⟩ := key
  exact ⟨s, t, h1, h2, σ, h3⟩

/-- As `Implements`, but the implementation may stop in states and at calls described by `Stop`: up to then it never faults
and only gives answers the specification allows. -/
def ImplementsUntil (step : St → Op → Option (St × Obs)) (init : St) (Step : S → Op → Obs → S → Prop)
    (Legal : S → Op → Prop) (start : S) (Stop : St → Op → Prop) : Prop :=
  ∀ c : Client Op Obs, LegalClient Step Legal start c →
    ∀ n, ∃ k s t, k ≤ n ∧ play step init c k = some (s, t) ∧ t.length = k ∧ (∃ σ, SpecRun Step start c t σ) ∧
      (k < n → step s (c t) = none ∧ Stop s (c t))

/-- Forward simulation with such stops; every state of the run is related. -/
theorem until_simulation {step : St → Op → Option (St × Obs)} {init : St} {Step : S → Op → Obs → S → Prop}
    {Legal : S → Op → Prop} {start : S} {Stop : St → Op → Prop} (R : S → St → Prop) (h0 : R start init)
    (hs : ∀ σ s op, R σ s → Legal σ op → (step s op = none ∧ Stop s op) ∨
      ∃ s' o σ', step s op = some (s', o) ∧ Step σ op o σ' ∧ R σ' s')
    (c : Client Op Obs) (hc : LegalClient Step Legal start c) (n : Nat) :
    ∃ k s t, k ≤ n ∧ play step init c k = some (s, t) ∧ t.length = k ∧ (∃ σ, SpecRun Step start c t σ ∧ R σ s) ∧
      (k < n → step s (c t) = none ∧ Stop s (c t)) := by
  induction n with
  | zero => exact ⟨0, _, _, Nat.le_refl _, rfl, rfl, ⟨_, .nil, h0⟩, fun h => absurd h (Nat.lt_irrefl _)⟩
  | succ n ih =>
    obtain ⟨k, s, t, h1, h2, h3, ⟨σ, h4, h5⟩, h6⟩ := ih
    by_cases hk : k < n
    · exact ⟨k, s, t, by omega, h2, h3, ⟨σ, h4, h5⟩, fun _ => h6 hk⟩
    · have hkn : k = n := by omega
      subst hkn
      rcases hs σ s _ h5 (hc t σ h4) with h | ⟨s', o, σ', k1, k2, k3⟩
      · exact ⟨k, s, t, by omega, h2, h3, ⟨σ, h4, h5⟩, fun _ => h⟩
      · refine ⟨k + 1, s', t ++ [(c t, o)], Nat.le_refl _, by simp only [play, h2, k1], by simp [h3], ⟨σ', h4.snoc k2, k3⟩, ?_⟩
        intro h; exact absurd h (Nat.lt_irrefl _)

theorem of_simulation_until {step : St → Op → Option (St × Obs)} {init : St} {Step : S → Op → Obs → S → Prop}
    {Legal : S → Op → Prop} {start : S} {Stop : St → Op → Prop} (R : S → St → Prop) (h0 : R start init)
    (hs : ∀ σ s op, R σ s → Legal σ op → (step s op = none ∧ Stop s op) ∨
      ∃ s' o σ', step s op = some (s', o) ∧ Step σ op o σ' ∧ R σ' s') :
    ImplementsUntil step init Step Legal start Stop := by
  intro c hc n
  obtain ⟨k, s, t, h1, h2, h3, ⟨σ, h4, -⟩, h5⟩ := until_simulation R h0 hs c hc n
  exact ⟨k, s, t, h1, h2, h3, ⟨σ, h4⟩, h5⟩

/-- Invariants of the specification hold in every state of a run of a legal client. -/
theorem SpecRun.inv {Step : S → Op → Obs → S → Prop} {start : S} {c : Client Op Obs} {t : List (Op × Obs)} {σ : S}
    (I : S → Prop) (h0 : I start) (hs : ∀ σ op o σ', I σ → Step σ op o σ' → I σ')
    (hr : SpecRun Step start c t σ) : I σ := by
  induction hr with
  | nil => exact h0
  | snoc _ h ih => exact hs _ _ _ _ ih h

/-- Every answer of a transcript was given in some state of the run. -/
theorem SpecRun.mem {Step : S → Op → Obs → S → Prop} {start : S} {c : Client Op Obs} {t : List (Op × Obs)} {σ : S}
    (hr : SpecRun Step start c t σ) {op : Op} {o : Obs} (hm : (op, o) ∈ t) :
    ∃ t1 σ1 σ2, SpecRun Step start c t1 σ1 ∧ Step σ1 op o σ2 := by
  induction hr with
  | nil => simp at hm
  | @snoc t σ1 o1 σ2 h1 h2 ih =>
    rcases List.mem_append.mp hm with h | h
    · exact ih h
    · simp only [List.mem_singleton, Prod.mk.injEq] at h
      obtain ⟨rfl, rfl⟩ := h
      exact ⟨_, _, _, h1, h2⟩

/-- The answers of the implementation to a fixed list of calls. -/
def answers (step : St → Op → Option (St × Obs)) (s : St) : List Op → Option (List Obs)
  | [] => some []
  | op :: ops =>
    match step s op with
    | none => none
    | some (s', o) => (answers step s' ops).map (o :: ·)

end Verif.Run
