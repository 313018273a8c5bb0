import Verif.Lemmas.Checkpoint
/-! # The invariant of the checkpoint files -/
namespace Verif.Checkpoint
open Verif.Util Spec

/-- What is on disk: `m` the latest time stamp used, `i` and `τ` the last complete checkpoint and its
time stamp. -/
structure Disk (data logs : Dir) (m : Nat) (cur : Option (Nat × Nat)) : Prop where
  snaps : ∀ e ∈ data, ∃ t, t ≤ m ∧ Dated t ∧ e.1 = fileName snapPrefix t
  logNames : ∀ e ∈ logs, ∃ t, t ≤ m ∧ e.1 = fileName logPrefix t
  nothing : cur = none → ∀ e ∈ data, e.2 = none
  current : ∀ i τ, cur = some (i, τ) → τ ≤ m ∧ Dated τ ∧ data.get (fileName snapPrefix τ) = some (some i) ∧
    logs.get (fileName logPrefix τ) = some (some i) ∧
    ∀ e ∈ data, e.2 ≠ none → ∃ t, Dated t ∧ e.1 = fileName snapPrefix t ∧
      (t < τ ∨ (t = τ ∧ e.2 = some i))

/-- The time stamp of the last complete checkpoint as `lasttime`. -/
def curTime : Option (Nat × Nat) → Int
  | none => -1
  | some (_, τ) => τ

/-- What the checkpoint thread knows in its stages. -/
def Knows (s : St) (m : Nat) (cur : Option (Nat × Nat)) : Prop :=
  match s.stage with
  | .off => True
  | .idle => s.last = curTime cur ∧ (s.prev = -1 ∨ (0 ≤ s.prev ∧ s.prev < s.last))
  | .made t => s.last = curTime cur ∧ s.prev = -1 ∧ t = m ∧ curTime cur < t ∧ Dated t ∧
      s.data.get (fileName snapPrefix t) ≠ none ∧ s.logs.get (fileName logPrefix t) = none
  | .both t => s.last = curTime cur ∧ s.prev = -1 ∧ t = m ∧ curTime cur < t ∧ Dated t ∧
      s.data.get (fileName snapPrefix t) ≠ none ∧ s.logs.get (fileName logPrefix t) = some (some s.seq)
  | .writing t => s.last = curTime cur ∧ s.prev = -1 ∧ t = m ∧ curTime cur < t ∧ Dated t ∧
      s.data.get (fileName snapPrefix t) ≠ none ∧ s.logs.get (fileName logPrefix t) = some (some s.seq)
  | .undo t => s.last = curTime cur ∧ s.prev = -1 ∧ curTime cur < t
  | .undoLog t => s.last = curTime cur ∧ s.prev = -1 ∧ curTime cur < t
  | .done t => curTime cur = t ∧ s.prev = -1 ∧ (s.last = -1 ∨ (0 ≤ s.last ∧ s.last < t))
  | .drop => s.last = curTime cur ∧ 0 ≤ s.prev ∧ s.prev < s.last
  | .dropLog => s.last = curTime cur ∧ 0 ≤ s.prev ∧ s.prev < s.last

/-- The invariant. -/
structure KInv (s : St) (m : Nat) (cur : Option (Nat × Nat)) : Prop where
  disk : Disk s.data s.logs m cur
  calm : s.needRemove = false
  knows : Knows s m cur

theorem KInv.init : KInv init 0 none := by
  refine ⟨⟨?_, ?_, ?_, ?_⟩, rfl, trivial⟩
  · intro e he; simp [Verif.Checkpoint.init] at he
  · intro e he; simp [Verif.Checkpoint.init] at he
  · intro _ e he; simp [Verif.Checkpoint.init] at he
  · intro i τ h; simp at h

theorem Disk.fresh_snap {data logs : Dir} {m : Nat} {cur : Option (Nat × Nat)} (h : Disk data logs m cur)
    {t : Nat} (ht : m < t) : data.get (fileName snapPrefix t) = none := by
  apply get_none
  intro e he hn
  obtain ⟨t', h1, _, h2⟩ := h.snaps e he
  rw [h2] at hn
  have := fileName_inj hn
  omega

theorem Disk.fresh_log {data logs : Dir} {m : Nat} {cur : Option (Nat × Nat)} (h : Disk data logs m cur)
    {t : Nat} (ht : m < t) : logs.get (fileName logPrefix t) = none := by
  apply get_none
  intro e he hn
  obtain ⟨t', h1, h2⟩ := h.logNames e he
  rw [h2] at hn
  have := fileName_inj hn
  omega

theorem ne_snap {a b : Nat} (h : a ≠ b) : fileName snapPrefix a ≠ fileName snapPrefix b :=
  fun e => h (fileName_inj e)

theorem ne_log {a b : Nat} (h : a ≠ b) : fileName logPrefix a ≠ fileName logPrefix b :=
  fun e => h (fileName_inj e)

/-- Creation of a new empty snapshot. -/
theorem Disk.createSnap {data logs : Dir} {m : Nat} {cur : Option (Nat × Nat)} (h : Disk data logs m cur)
    {t : Nat} (ht : m < t) (hd : Dated t) :
    Disk (data.create (fileName snapPrefix t) none) logs t cur := by
  refine ⟨?_, ?_, ?_, ?_⟩
  · intro e he
    rcases mem_create he with he | rfl
    · obtain ⟨t', h1, h2, h3⟩ := h.snaps e he
      exact ⟨t', by omega, h2, h3⟩
    · exact ⟨t, Nat.le_refl _, hd, rfl⟩
  · intro e he
    obtain ⟨t', h1, h2⟩ := h.logNames e he
    exact ⟨t', by omega, h2⟩
  · intro hc e he
    rcases mem_create he with he | rfl
    · exact h.nothing hc e he
    · rfl
  · intro i τ hc
    obtain ⟨h1, h2, h3, h4, h5⟩ := h.current i τ hc
    refine ⟨by omega, h2, get_create_old h3, h4, ?_⟩
    intro e he hn
    rcases mem_create he with he | rfl
    · exact h5 e he hn
    · simp at hn

theorem Disk.createLog {data logs : Dir} {m : Nat} {cur : Option (Nat × Nat)} (h : Disk data logs m cur)
    {t : Nat} (ht : t ≤ m) (c : Option Nat) :
    Disk data (logs.create (fileName logPrefix t) c) m cur := by
  refine ⟨h.snaps, ?_, h.nothing, ?_⟩
  · intro e he
    rcases mem_create he with he | rfl
    · exact h.logNames e he
    · exact ⟨t, ht, rfl⟩
  · intro i τ hc
    obtain ⟨h1, h2, h3, h4, h5⟩ := h.current i τ hc
    exact ⟨h1, h2, h3, get_create_old h4, h5⟩

theorem cur_ne {cur : Option (Nat × Nat)} {t i τ : Nat} (h : curTime cur < t) (hc : cur = some (i, τ)) :
    τ < t := by
  subst hc
  simp only [curTime] at h
  omega

theorem Disk.removeSnap {data logs : Dir} {m : Nat} {cur : Option (Nat × Nat)} (h : Disk data logs m cur)
    {t : Nat} (ht : ∀ i τ, cur = some (i, τ) → τ ≠ t) :
    Disk (data.remove (fileName snapPrefix t)) logs m cur := by
  refine ⟨fun e he => h.snaps e (mem_remove he), h.logNames, fun hc e he => h.nothing hc e (mem_remove he), ?_⟩
  intro i τ hc
  obtain ⟨h1, h2, h3, h4, h5⟩ := h.current i τ hc
  refine ⟨h1, h2, ?_, h4, fun e he => h5 e (mem_remove he)⟩
  rw [get_remove_other (ne_snap (ht i τ hc))]
  exact h3

theorem Disk.removeLog {data logs : Dir} {m : Nat} {cur : Option (Nat × Nat)} (h : Disk data logs m cur)
    {t : Nat} (ht : ∀ i τ, cur = some (i, τ) → τ ≠ t) :
    Disk data (logs.remove (fileName logPrefix t)) m cur := by
  refine ⟨h.snaps, fun e he => h.logNames e (mem_remove he), h.nothing, ?_⟩
  intro i τ hc
  obtain ⟨h1, h2, h3, h4, h5⟩ := h.current i τ hc
  refine ⟨h1, h2, h3, ?_, h5⟩
  rw [get_remove_other (ne_log (ht i τ hc))]
  exact h4

/-- Truncation of the new snapshot. -/
theorem Disk.truncate {data logs : Dir} {m : Nat} {cur : Option (Nat × Nat)} (h : Disk data logs m cur)
    {t : Nat} (ht : ∀ i τ, cur = some (i, τ) → τ ≠ t) :
    Disk (data.write (fileName snapPrefix t) none) logs m cur := by
  refine ⟨?_, h.logNames, ?_, ?_⟩
  · intro e he
    rcases mem_write he with ⟨he, _⟩ | ⟨rfl, x, hx⟩
    · exact h.snaps e he
    · exact h.snaps (fileName snapPrefix t, x) hx
  · intro hc e he
    rcases mem_write he with ⟨he, _⟩ | ⟨rfl, x, hx⟩
    · exact h.nothing hc e he
    · rfl
  · intro i τ hc
    obtain ⟨h1, h2, h3, h4, h5⟩ := h.current i τ hc
    refine ⟨h1, h2, ?_, h4, ?_⟩
    · rw [get_write_other (ne_snap (ht i τ hc))]; exact h3
    · intro e he hn
      rcases mem_write he with ⟨he, _⟩ | ⟨rfl, x, hx⟩
      · exact h5 e he hn
      · simp at hn

/-- Completion of the new snapshot. -/
theorem Disk.complete {data logs : Dir} {m : Nat} {cur : Option (Nat × Nat)} (h : Disk data logs m cur)
    {t seq : Nat} (hm : t = m) (hd : Dated t) 
    (hs : data.get (fileName snapPrefix t) ≠ none)
    (hl : logs.get (fileName logPrefix t) = some (some seq)) :
    Disk (data.write (fileName snapPrefix t) (some seq)) logs m (some (seq, t)) := by
  refine ⟨?_, h.logNames, fun hc => by simp at hc, ?_⟩
  · intro e he
    rcases mem_write he with ⟨he, _⟩ | ⟨rfl, x, hx⟩
    · exact h.snaps e he
    · exact h.snaps (fileName snapPrefix t, x) hx
  · intro i τ hc
    simp only [Option.some.injEq, Prod.mk.injEq] at hc
    obtain ⟨rfl, rfl⟩ := hc
    cases hg : data.get (fileName snapPrefix t) with
    | none => exact absurd hg hs
    | some x =>
      refine ⟨by omega, hd, get_write_self hg, hl, ?_⟩
      intro e he hn
      rcases mem_write he with ⟨he, hne⟩ | ⟨rfl, x, hx⟩
      · obtain ⟨t', h1, h2, h3⟩ := h.snaps e he
        refine ⟨t', h2, h3, .inl ?_⟩
        rw [h3] at hne
        have : t' ≠ t := fun e => hne (by rw [e])
        omega
      · exact ⟨t, hd, rfl, .inr ⟨rfl, rfl⟩⟩

/-- What recovery chooses. -/
theorem Disk.newest {data logs : Dir} {m : Nat} {cur : Option (Nat × Nat)} (h : Disk data logs m cur) :
    newest data = cur.map fun (i, τ) => (fileName snapPrefix τ, i) := by
  cases hc : cur with
  | none => exact newest_none (h.nothing hc)
  | some p =>
    obtain ⟨i, τ⟩ := p
    obtain ⟨h1, h2, h3, h4, h5⟩ := h.current i τ hc
    have hmem := get_mem h3
    cases hn : Verif.Checkpoint.newest data with
    | none => exact absurd hn (newest_ne hmem (snap_prefix τ) (by simp))
    | some q =>
      obtain ⟨n, j⟩ := q
      obtain ⟨g1, g2⟩ := newest_some hn
      have hle := g2 _ hmem (snap_prefix τ) (by simp)
      obtain ⟨t, hd, he, hor⟩ := h5 _ g1 (by simp)
      simp only at he
      rw [he, dated_le h2 hd] at hle
      rcases hor with h | ⟨rfl, h⟩
      · omega
      · simp only [Option.some.injEq] at h
        subst h
        rw [he]; rfl

/-- The latest time stamp behind a step. -/
def maxAfter (m : Nat) : Act → Nat
  | .start t => t
  | _ => m

/-- The last complete checkpoint behind a step. -/
def curAfter (s : St) (cur : Option (Nat × Nat)) : Act → Option (Nat × Nat)
  | .finish true => match s.stage with
    | .writing t => some (s.seq, t)
    | _ => cur
  | _ => cur

theorem restart_inv {s s' : St} {m : Nat} {cur : Option (Nat × Nat)} (h : KInv s m cur)
    (hst : step s .restart = some s') : KInv s' m cur := by
  simp only [step] at hst
  split at hst
  · rw [h.disk.newest] at hst
    cases hc : cur with
    | none =>
      rw [hc] at hst
      simp only [Option.map_none, Option.some.injEq] at hst
      subst hst
      exact ⟨hc ▸ h.disk, rfl, by simp [Knows, curTime]⟩
    | some p =>
      obtain ⟨i, τ⟩ := p
      obtain ⟨h1, h2, h3, h4, h5⟩ := h.disk.current i τ hc
      rw [hc] at hst
      have hlt : τ < 9223372036854775808 := by have := h2.2; omega
      have h0 : ¬ ((τ : Int) ≤ 0) := by have := h2.1; omega
      simp only [Option.map_some, behindBar_snap, Option.bind_some, strtoll_show hlt, if_neg h0,
        Option.some.injEq, Int.toNat_natCast] at hst
      rw [create_present h4] at hst
      subst hst
      exact ⟨hc ▸ h.disk, rfl, by simp [Knows, curTime]⟩
  · simp at hst

theorem step_kinv {s s' : St} {m : Nat} {cur : Option (Nat × Nat)} (h : KInv s m cur) (a : Act)
    (hst : step s a = some s')
    (ht : ∀ t, a = .start t → m < t ∧ Dated t)
    (hrm : ∀ ok, a = .remove ok → ok = true)
    (hcl : ∀ ok rm, a = .createLog ok rm → ok = true ∨ rm = true) :
    KInv s' (maxAfter m a) (curAfter s cur a) := by
  have hk := h.knows
  unfold Knows at hk
  cases a with
  | restart => exact restart_inv h hst
  | start t =>
    obtain ⟨hlt, hd⟩ := ht t rfl
    simp only [step] at hst
    split at hst
    · rename_i hs
      rw [hs.1] at hk
      cases Option.some.inj hst
      refine ⟨h.disk.createSnap hlt hd, h.calm, ?_⟩
      simp only [Knows]
      refine ⟨hk.1, hs.2, rfl, ?_, hd, ?_, h.disk.fresh_log hlt⟩
      · simp only [curAfter]
        cases hc : cur with
        | none => simp [curTime]; omega
        | some p =>
          have := (h.disk.current p.1 p.2 hc).1
          simp only [curTime]; omega
      · rw [get_create_new (h.disk.fresh_snap hlt)]; simp
    · simp at hst
  | createLog ok rm =>
    simp only [step] at hst
    cases hs : s.stage <;> rw [hs] at hst hk <;> simp only [reduceCtorEq] at hst
    rename_i t
    obtain ⟨k1, k2, k3, k4, k5, k6, k7⟩ := hk
    cases ok with
    | true =>
      simp only [if_true, Option.some.injEq] at hst
      subst hst
      refine ⟨h.disk.createLog (by omega) _, h.calm, ?_⟩
      simp only [Knows]
      exact ⟨k1, k2, k3, k4, k5, k6, get_create_new k7⟩
    | false =>
      have : rm = true := by
        rcases hcl false rm rfl with h | h
        · simp at h
        · exact h
      subst this
      simp only [Bool.false_eq_true, if_false, if_true, Option.some.injEq] at hst
      subst hst
      refine ⟨h.disk.removeSnap (fun i τ hc => by have := cur_ne k4 hc; omega), h.calm, ?_⟩
      simp only [Knows]
      exact ⟨k1, .inl k2⟩
  | openLog ok =>
    simp only [step] at hst
    cases hs : s.stage <;> rw [hs] at hst hk <;> simp only [reduceCtorEq] at hst
    rename_i t
    obtain ⟨k1, k2, k3, k4, k5, k6, k7⟩ := hk
    cases ok with
    | true =>
      simp only [if_true, Option.some.injEq] at hst
      subst hst
      refine ⟨h.disk.truncate (fun i τ hc => by have := cur_ne k4 hc; omega), h.calm, ?_⟩
      simp only [Knows]
      refine ⟨k1, k2, k3, k4, k5, ?_, k7⟩
      cases hg : s.data.get (fileName snapPrefix t) with
      | none => exact absurd hg k6
      | some x => rw [get_write_self hg]; simp
    | false =>
      simp only [Bool.false_eq_true, if_false, Option.some.injEq] at hst
      subst hst
      refine ⟨h.disk, h.calm, ?_⟩
      simp only [Knows]
      exact ⟨k1, k2, k4⟩
  | finish ok =>
    simp only [step] at hst
    cases hs : s.stage <;> rw [hs] at hst hk <;> simp only [reduceCtorEq] at hst
    rename_i t
    obtain ⟨k1, k2, k3, k4, k5, k6, k7⟩ := hk
    cases ok with
    | true =>
      simp only [if_true, Option.some.injEq] at hst
      subst hst
      have hcu : curAfter s cur (.finish true) = some (s.seq, t) := by simp only [curAfter, hs]
      rw [hcu]
      refine ⟨h.disk.complete k3 k5 k6 k7, h.calm, ?_⟩
      simp only [Knows, curTime]
      refine ⟨trivial, k2, ?_⟩
      rw [k1]
      cases cur with
      | none => exact .inl rfl
      | some p => right; simp only [curTime] at k4 ⊢; omega
    | false =>
      simp only [Bool.false_eq_true, if_false, Option.some.injEq] at hst
      subst hst
      refine ⟨h.disk, h.calm, ?_⟩
      simp only [Knows]
      exact ⟨k1, k2, k4⟩
  | commit =>
    simp only [step] at hst
    cases hs : s.stage <;> rw [hs] at hst hk <;> simp only [reduceCtorEq] at hst
    rename_i t
    obtain ⟨k1, k2, k3⟩ := hk
    simp only [Option.some.injEq] at hst
    subst hst
    refine ⟨h.disk, h.calm, ?_⟩
    simp only [Knows]
    exact ⟨k1.symm, k3⟩
  | remove ok =>
    have := hrm ok rfl
    subst this
    simp only [step] at hst
    cases hs : s.stage <;> rw [hs] at hst hk <;> simp only [reduceCtorEq] at hst
    · rename_i t
      obtain ⟨k1, k2, k3⟩ := hk
      simp only [if_true, Option.some.injEq] at hst
      subst hst
      refine ⟨h.disk.removeSnap (fun i τ hc => by have := cur_ne k3 hc; omega), h.calm, ?_⟩
      simp only [Knows]
      exact ⟨k1, k2, k3⟩
    · rename_i t
      obtain ⟨k1, k2, k3⟩ := hk
      simp only [if_true, Option.some.injEq] at hst
      subst hst
      refine ⟨h.disk.removeLog (fun i τ hc => by have := cur_ne k3 hc; omega), h.calm, ?_⟩
      simp only [Knows]
      exact ⟨k1, .inl k2⟩
    · obtain ⟨k1, k2, k3⟩ := hk
      have hsp : stamp s.prev = some s.prev.toNat := by unfold stamp; rw [if_pos k2]
      rw [hsp] at hst
      simp only [if_true, Option.some.injEq] at hst
      subst hst
      refine ⟨h.disk.removeSnap (fun i τ hc => ?_), h.calm, ?_⟩
      · subst hc; simp only [curTime] at k1; omega
      · simp only [Knows]
        exact ⟨k1, k2, k3⟩
    · obtain ⟨k1, k2, k3⟩ := hk
      have hsp : stamp s.prev = some s.prev.toNat := by unfold stamp; rw [if_pos k2]
      rw [hsp] at hst
      simp only [if_true, Option.some.injEq] at hst
      subst hst
      refine ⟨h.disk.removeLog (fun i τ hc => ?_), h.calm, ?_⟩
      · subst hc; simp only [curTime] at k1; omega
      · simp only [Knows]
        exact ⟨k1, .inl trivial⟩
  | finished =>
    simp only [step] at hst
    split at hst
    · rename_i hs
      rw [hs.1] at hk
      cases Option.some.inj hst
      refine ⟨h.disk, h.calm, ?_⟩
      simp only [Knows]
      rcases hk.2 with h' | h'
      · exact absurd h' hs.2
      · exact ⟨hk.1, h'⟩
    · simp at hst
  | sweep fail =>
    simp only [step] at hst
    split at hst
    · rename_i hs
      rw [h.calm] at hs
      simp at hs
    · simp at hst
  | crash =>
    simp only [step, Option.some.injEq] at hst
    subst hst
    exact ⟨h.disk, h.calm, trivial⟩

theorem run_kinv (acts : List Act) : ∀ {s s' : St} {m : Nat} {cur : Option (Nat × Nat)}, KInv s m cur →
    Forward m acts → NoTrouble acts → run s acts = some s' →
    ∃ m' cur', KInv s' m' cur' ∧ lastDone s (cur.map (·.1)) acts = cur'.map (·.1) := by
  induction acts with
  | nil =>
    intro s s' m cur h _ _ hr
    cases Option.some.inj hr
    exact ⟨m, cur, h, rfl⟩
  | cons a acts ih =>
    intro s s' m cur h hf hn hr
    simp only [run] at hr
    cases hst : step s a with
    | none => rw [hst] at hr; simp at hr
    | some s1 =>
      rw [hst, Option.bind_some] at hr
      have hk : KInv s1 (maxAfter m a) (curAfter s cur a) := by
        apply step_kinv h a hst
        · intro t e; subst e; exact ⟨hf.1, hf.2.1⟩
        · intro ok e; subst e; exact hn.1
        · intro ok rm e; subst e; exact hn.1
      have hf' : Forward (maxAfter m a) acts := by
        cases a <;> first | exact hf.2.2 | exact hf
      have hn' : NoTrouble acts := by
        cases a <;> first | exact hn.2 | exact hn
      obtain ⟨m', cur', k1, k2⟩ := ih hk hf' hn' hr
      refine ⟨m', cur', k1, ?_⟩
      rw [← k2]
      simp only [lastDone, hst]
      congr 1
      cases a with
      | finish ok => cases ok <;> cases hs : s.stage <;> simp [curAfter, hs]
      | _ => rfl

end Verif.Checkpoint
