import Verif.Lemmas.WakeStep
/-! # Reports, and runs of the server by itself -/
namespace Verif.Wake
open Verif.Wake.Spec

theorem next_ok {s s' : St} {rest : List Nat} (h : s.next rest = .ok s') : s'.queue = s.queue ∧ s'.batch = s.batch ∧ s'.synced = s.synced ∧
    s'.nxt = s.nxt ∧ s'.pend = s.pend ∧ s'.bytes = s.bytes ∧ s'.ioKicks = s.ioKicks ∧ s'.newKicks = s.newKicks ∧ s'.cq = s.cq ∧
    ((rest = [] ∧ s'.pc = .loop ∧ s'.conn = s.conn) ∨
      ∃ c r, rest = c :: r ∧ s'.pc = .run c r .ready ∧ ∀ i, i ≠ c → s'.conn i = s.conn i) := by
  cases rest with
  | nil => simp only [St.next] at h; cases h; exact ⟨rfl, rfl, rfl, rfl, rfl, rfl, rfl, rfl, rfl, Or.inl ⟨rfl, rfl, rfl⟩⟩
  | cons c r =>
    simp only [St.next] at h
    split at h
    · cases h
      exact ⟨rfl, rfl, rfl, rfl, rfl, rfl, rfl, rfl, rfl, Or.inr ⟨c, r, rfl, rfl, fun i hi => set_ne _ _ hi⟩⟩
    · cases h

theorem notify_ok {s s' : St} {c : Nat} (h : s.notify c = .ok s') : s'.queue = s.queue ∧ s'.batch = s.batch ∧ s'.synced = s.synced ∧
    s'.nxt = s.nxt ∧ s'.bytes = s.bytes ∧ s'.newKicks = s.newKicks ∧ s'.cq = s.cq ∧ s'.pc = s.pc ∧
    5 * s'.pend.length + 3 * s'.ioKicks ≤ 5 * s.pend.length + 3 * s.ioKicks + 8 ∧
    ∀ i, (s'.conn i).opened = (s.conn i).opened ∧ (s'.conn i).watched = (s.conn i).watched := by
  have hs : ∀ (k : Conn), k.opened = (s.conn c).opened → k.watched = (s.conn c).watched →
      ∀ i, ((s.set c k).conn i).opened = (s.conn i).opened ∧ ((s.set c k).conn i).watched = (s.conn i).watched := by
    intro k h1 h2 i
    by_cases hi : i = c
    · subst hi; rw [set_self]; exact ⟨h1, h2⟩
    · rw [set_ne _ _ hi]; exact ⟨rfl, rfl⟩
  simp only [St.notify] at h
  split at h
  · cases h; exact ⟨rfl, rfl, rfl, rfl, rfl, rfl, rfl, rfl, by omega, fun _ => ⟨rfl, rfl⟩⟩
  · split at h
    · split at h
      · split at h
        · split at h
          · cases h; exact ⟨rfl, rfl, rfl, rfl, rfl, rfl, rfl, rfl, by simp only [St.set]; omega, hs _ rfl rfl⟩
          · cases h
        · split at h
          · cases h
          · cases h
            refine ⟨rfl, rfl, rfl, rfl, rfl, rfl, rfl, rfl, ?_, hs _ rfl rfl⟩
            simp only [List.length_cons]
            split <;> omega
      · cases h; exact ⟨rfl, rfl, rfl, rfl, rfl, rfl, rfl, rfl, by simp only [St.set]; omega, hs _ rfl rfl⟩
    · cases h; exact ⟨rfl, rfl, rfl, rfl, rfl, rfl, rfl, rfl, by simp only [St.set]; omega, hs _ rfl rfl⟩

/-- The connection will not go on before the log is synced beyond the number. -/
def Held (s : St) (c l : Nat) : Prop :=
  l < s.synced ∨ (some c, l) ∈ s.queue ∨ ∃ rest, s.pc = .run c rest (.enq l) ∨ s.pc = .run c rest (.wrote .answer (some l))

theorem held_of {s s' : St} {c l : Nat} (h : Held s c l) (h1 : s.synced ≤ s'.synced) (h2 : ∀ x ∈ s.queue, x ∈ s'.queue)
    (h3 : ∀ rest, (s.pc = .run c rest (.enq l) ∨ s.pc = .run c rest (.wrote .answer (some l))) → Held s' c l) : Held s' c l := by
  rcases h with h | h | ⟨r, h⟩
  · exact Or.inl (by omega)
  · exact Or.inr (Or.inl (h2 _ h))
  · exact h3 r h

theorem held_next {s s0 s' : St} {rest : List Nat} {c l : Nat} (h : Held s c l) (hn : s0.next rest = .ok s') (h1 : s0.synced = s.synced)
    (h2 : s0.queue = s.queue) (h3 : ∀ c r l, s.pc ≠ .run c r (.enq l)) (h4 : ∀ c r m l, s.pc ≠ .run c r (.wrote m (some l))) : Held s' c l := by
  obtain ⟨e1, _, e2, _⟩ := next_ok hn
  refine held_of h (by rw [e2, h1]; exact Nat.le_refl _) (fun x hx => by rw [e1, h2]; exact hx) ?_
  rintro r (hx | hx)
  · exact absurd hx (h3 _ _ _)
  · exact absurd hx (h4 _ _ _ _)

theorem held_step {s s' : St} {a : Act} {c l : Nat} (hs : step s a = .ok s') (h : Held s c l) : Held s' c l := by
  cases a with
  | push => simp only [step] at hs; cases hs; exact h
  | kickNew => simp only [step] at hs; split at hs <;> cases hs; exact h
  | kickIo => simp only [step] at hs; split at hs <;> cases hs; exact h
  | read o =>
    simp only [step] at hs
    split at hs
    · cases hs
    · rename_i h0
      have hpc : s.pc = .loop := Classical.byContradiction fun hx => h0 (Or.inl hx)
      have key : ∀ t : St, t.synced = s.synced → t.queue = s.queue → Held t c l := fun t e1 e2 =>
        held_of h (by rw [e1]; exact Nat.le_refl _) (fun x hx => by rw [e2]; exact hx)
          (by rintro r (hx | hx) <;> rw [hpc] at hx <;> cases hx)
      split at hs
      · cases hs; exact key _ rfl rfl
      · cases o with
        | none => cases hs; exact key _ rfl rfl
        | some i =>
          simp only at hs
          split at hs <;> cases hs
          exact key _ rfl rfl
  | take =>
    simp only [step] at hs
    split at hs
    · cases hs
    · rename_i h0
      have hpc : s.pc = .woken := Classical.not_not.mp h0
      exact held_next h hs rfl rfl (fun _ _ _ hx => by rw [hpc] at hx; cases hx) (fun _ _ _ _ hx => by rw [hpc] at hx; cases hx)
  | event i =>
    simp only [step] at hs
    split at hs
    · cases hs
    · rename_i h0
      have hpc : s.pc = .loop := Classical.byContradiction fun hx => h0 (Or.inl hx)
      cases hs
      exact held_of h (Nat.le_refl _) (fun _ hx => hx) (by rintro r (hx | hx) <;> rw [hpc] at hx <;> cases hx)
  | call m ok =>
    have key : ∀ i r p t, s.pc = .run i r p → (∀ l, p ≠ .enq l) → (∀ m l, p ≠ .wrote m l) → t.synced = s.synced → t.queue = s.queue →
        Held t c l := by
      intro i r p t hpc h1 h2 e1 e2
      refine held_of h (by rw [e1]; exact Nat.le_refl _) (fun x hx => by rw [e2]; exact hx) ?_
      rintro r' (hx | hx) <;> rw [hpc] at hx <;> cases hx
      · exact absurd rfl (h1 _)
      · exact absurd rfl (h2 _ _)
    cases hpc : s.pc with
    | loop => simp only [step, hpc] at hs; cases hs
    | woken => simp only [step, hpc] at hs; cases hs
    | run i r p =>
      cases p with
      | ready =>
        simp only [step, hpc] at hs
        split at hs <;> cases hs
        exact key i r .ready _ hpc (fun _ hx => by cases hx) (fun _ _ hx => by cases hx) rfl rfl
      | wrote m' l => simp only [step, hpc] at hs; cases hs
      | enq l => simp only [step, hpc] at hs; cases hs
      | called =>
        simp only [step, hpc] at hs; cases hs
        exact key i r .called _ hpc (fun _ hx => by cases hx) (fun _ _ hx => by cases hx) rfl rfl
  | finish =>
    cases hpc : s.pc with
    | loop => simp only [step, hpc] at hs; cases hs
    | woken => simp only [step, hpc] at hs; cases hs
    | run i r p =>
      cases p with
      | ready => simp only [step, hpc] at hs; cases hs
      | enq l => simp only [step, hpc] at hs; cases hs
      | called => simp only [step, hpc] at hs; cases hs
      | wrote m o =>
        cases o with
        | none =>
          simp only [step, hpc] at hs; cases hs
          exact held_of h (Nat.le_refl _) (fun _ hx => hx) (by rintro r' (hx | hx) <;> rw [hpc] at hx <;> cases hx)
        | some l' =>
          simp only [step, hpc] at hs
          split at hs
          · cases hs
            refine held_of h (Nat.le_refl _) (fun _ hx => hx) ?_
            rintro r' (hx | hx) <;> rw [hpc] at hx <;> cases hx
            exact Or.inr (Or.inr ⟨r, Or.inl rfl⟩)
          · rename_i hno
            cases hs
            refine held_of h (Nat.le_refl _) (fun _ hx => hx) ?_
            rintro r' (hx | hx) <;> rw [hpc] at hx <;> cases hx
            refine Or.inl ?_
            show l < s.synced
            exact Nat.lt_of_not_le fun hx => hno ⟨rfl, hx⟩
  | enqueue =>
    cases hpc : s.pc with
    | loop => simp only [step, hpc] at hs; cases hs
    | woken => simp only [step, hpc] at hs; cases hs
    | run i r p =>
      cases p with
      | ready => simp only [step, hpc] at hs; cases hs
      | wrote m l => simp only [step, hpc] at hs; cases hs
      | called => simp only [step, hpc] at hs; cases hs
      | enq l' =>
        simp only [step, hpc] at hs; cases hs
        refine held_of h (Nat.le_refl _) (fun _ hx => List.mem_append.mpr (Or.inl hx)) ?_
        rintro r' (hx | hx) <;> rw [hpc] at hx <;> cases hx
        exact Or.inr (Or.inl (List.mem_append.mpr (Or.inr (by simp))))
  | check =>
    cases hpc : s.pc with
    | loop => simp only [step, hpc] at hs; cases hs
    | woken => simp only [step, hpc] at hs; cases hs
    | run i r p =>
      cases p with
      | ready => simp only [step, hpc] at hs; cases hs
      | wrote m l => simp only [step, hpc] at hs; cases hs
      | enq l => simp only [step, hpc] at hs; cases hs
      | called =>
        have key : ∀ t : St, t.synced = s.synced → t.queue = s.queue → Held t c l := fun t e1 e2 =>
          held_of h (by rw [e1]; exact Nat.le_refl _) (fun x hx => by rw [e2]; exact hx)
            (by rintro r (hx | hx) <;> rw [hpc] at hx <;> cases hx)
        simp only [step, hpc] at hs
        split at hs
        · by_cases hw : 0 < (s.conn i).wait
          · simp only [St.block, if_pos hw, if_true] at hs
            exact held_next h hs rfl rfl (fun _ _ _ hx => by rw [hpc] at hx; cases hx) (fun _ _ _ _ hx => by rw [hpc] at hx; cases hx)
          · simp only [St.block, if_neg hw, Bool.false_eq_true, if_false] at hs
            cases hs; exact key _ rfl rfl
        · cases hs; exact key _ rfl rfl
  | reply =>
    cases hpc : s.pc with
    | loop => simp only [step, hpc] at hs; cases hs
    | woken => simp only [step, hpc] at hs; cases hs
    | run i r p =>
      cases p with
      | ready => simp only [step, hpc] at hs; split at hs <;> cases hs; exact h
      | wrote m l => simp only [step, hpc] at hs; cases hs
      | enq l => simp only [step, hpc] at hs; cases hs
      | called => simp only [step, hpc] at hs; cases hs
  | leave =>
    cases hpc : s.pc with
    | loop => simp only [step, hpc] at hs; cases hs
    | woken => simp only [step, hpc] at hs; cases hs
    | run i r p =>
      cases p with
      | ready =>
        simp only [step, hpc] at hs
        split at hs
        · cases hs
        · exact held_next h hs rfl rfl (fun _ _ _ hx => by rw [hpc] at hx; cases hx) (fun _ _ _ _ hx => by rw [hpc] at hx; cases hx)
      | wrote m l => simp only [step, hpc] at hs; cases hs
      | enq l => simp only [step, hpc] at hs; cases hs
      | called => simp only [step, hpc] at hs; cases hs
  | quit =>
    cases hpc : s.pc with
    | loop => simp only [step, hpc] at hs; cases hs
    | woken => simp only [step, hpc] at hs; cases hs
    | run i r p =>
      cases p with
      | ready =>
        simp only [step, hpc] at hs; cases hs
        exact held_of h (Nat.le_refl _) (fun _ hx => hx) (by rintro r' (hx | hx) <;> rw [hpc] at hx <;> cases hx)
      | wrote m l => simp only [step, hpc] at hs; cases hs
      | enq l => simp only [step, hpc] at hs; cases hs
      | called => simp only [step, hpc] at hs; cases hs
  | close =>
    cases hpc : s.pc with
    | loop => simp only [step, hpc] at hs; cases hs
    | woken => simp only [step, hpc] at hs; cases hs
    | run i r p =>
      cases p with
      | ready =>
        simp only [step, hpc] at hs
        split at hs
        · cases hs
        · split at hs
          · cases hs
          · exact held_next h hs rfl rfl (fun _ _ _ hx => by rw [hpc] at hx; cases hx) (fun _ _ _ _ hx => by rw [hpc] at hx; cases hx)
      | wrote m l => simp only [step, hpc] at hs; cases hs
      | enq l => simp only [step, hpc] at hs; cases hs
      | called => simp only [step, hpc] at hs; cases hs
  | other => simp only [step] at hs; cases hs; exact h
  | otherEnqueue n =>
    simp only [step] at hs; split at hs <;> cases hs
    exact held_of h (Nat.le_refl _) (fun _ hx => List.mem_append.mpr (Or.inl hx)) fun r hx => Or.inr (Or.inr ⟨r, hx⟩)
  | sync n =>
    simp only [step] at hs; split at hs <;> cases hs
    rename_i hn
    exact held_of h (Nat.le_of_lt hn.1) (fun _ hx => hx) fun r hx => Or.inr (Or.inr ⟨r, hx⟩)
  | collect =>
    simp only [step] at hs; split at hs <;> cases hs
    rcases h with h | h | h
    · exact Or.inl h
    · have e : (collected s.synced s.queue).1 ++ (collected s.synced s.queue).2 = s.queue := List.takeWhile_append_dropWhile
      rw [← e] at h
      rcases List.mem_append.mp h with h | h
      · have := mem_takeWhile h
        simp at this
        exact Or.inl this
      · exact Or.inr (Or.inl h)
    · exact Or.inr (Or.inr h)
  | notify =>
    cases hb : s.batch with
    | nil => simp only [step, hb] at hs; cases hs
    | cons x b =>
      obtain ⟨o, n⟩ := x
      cases o with
      | none => simp only [step, hb] at hs; cases hs; exact h
      | some i =>
        simp only [step, hb] at hs
        obtain ⟨e1, _, e2, _, _, _, _, e3, _⟩ := notify_ok hs
        exact held_of h (by rw [e2]; exact Nat.le_refl _) (fun x hx => by rw [e1]; exact hx) fun r hx => Or.inr (Or.inr ⟨r, by rw [e3]; exact hx⟩)

/-- What is known of the reports. -/
def Safe (s : St) (d : Debt) : Prop :=
  ∀ c, (∀ l ∈ d.owed c, l < s.nxt) ∧ (d.ends c = true → ∀ l ∈ d.owed c, ∃ l', l ≤ l' ∧ Held s c l')

theorem nxt_step {s s' : St} {a : Act} (hs : step s a = .ok s') : s.nxt ≤ s'.nxt := by
  cases a with
  | call m ok =>
    have hle : s.nxt ≤ (if ok then s.nxt + 1 else s.nxt) := by split <;> omega
    cases hpc : s.pc with
    | loop => simp only [step, hpc] at hs; cases hs
    | woken => simp only [step, hpc] at hs; cases hs
    | run i r p =>
      cases p with
      | ready => simp only [step, hpc] at hs; split at hs <;> cases hs; exact hle
      | wrote m' l => simp only [step, hpc] at hs; cases hs
      | enq l => simp only [step, hpc] at hs; cases hs
      | called => simp only [step, hpc] at hs; cases hs; exact hle
  | push => simp only [step] at hs; cases hs; exact Nat.le_refl _
  | kickNew => simp only [step] at hs; split at hs <;> cases hs; exact Nat.le_refl _
  | kickIo => simp only [step] at hs; split at hs <;> cases hs; exact Nat.le_refl _
  | read o =>
    simp only [step] at hs
    split at hs
    · cases hs
    · split at hs
      · cases hs; exact Nat.le_refl _
      · cases o with
        | none => cases hs; exact Nat.le_refl _
        | some i => simp only at hs; split at hs <;> cases hs; exact Nat.le_refl _
  | take =>
    simp only [step] at hs; split at hs
    · cases hs
    · rw [(next_ok hs).2.2.2.1]; exact Nat.le_refl _
  | event i => simp only [step] at hs; split at hs <;> cases hs; exact Nat.le_refl _
  | other => simp only [step] at hs; cases hs; exact Nat.le_succ _
  | otherEnqueue n => simp only [step] at hs; split at hs <;> cases hs; exact Nat.le_refl _
  | sync n => simp only [step] at hs; split at hs <;> cases hs; exact Nat.le_refl _
  | collect => simp only [step] at hs; split at hs <;> cases hs; exact Nat.le_refl _
  | notify =>
    cases hb : s.batch with
    | nil => simp only [step, hb] at hs; cases hs
    | cons x b =>
      obtain ⟨o, n⟩ := x
      cases o with
      | none => simp only [step, hb] at hs; cases hs; exact Nat.le_refl _
      | some i => simp only [step, hb] at hs; rw [(notify_ok hs).2.2.2.1]; exact Nat.le_refl _
  | finish =>
    simp only [step] at hs
    split at hs
    · split at hs <;> cases hs
      · exact Nat.le_refl _
      · exact Nat.le_refl _
    · cases hs; exact Nat.le_refl _
    · cases hs
  | enqueue =>
    simp only [step] at hs
    split at hs <;> cases hs
    exact Nat.le_refl _
  | check =>
    simp only [step] at hs
    split at hs
    · rename_i c rest hpc
      split at hs
      · by_cases hw : 0 < (s.conn c).wait
        · simp only [St.block, if_pos hw, if_true] at hs
          rw [(next_ok hs).2.2.2.1]; exact Nat.le_refl _
        · simp only [St.block, if_neg hw, Bool.false_eq_true, if_false] at hs
          cases hs; exact Nat.le_refl _
      · cases hs; exact Nat.le_refl _
    · cases hs
  | reply =>
    simp only [step] at hs
    split at hs
    · split at hs <;> cases hs; exact Nat.le_refl _
    · cases hs
  | leave =>
    simp only [step] at hs
    split at hs
    · split at hs
      · cases hs
      · rw [(next_ok hs).2.2.2.1]; exact Nat.le_refl _
    · cases hs
  | quit =>
    simp only [step] at hs
    split at hs <;> cases hs
    exact Nat.le_refl _
  | close =>
    simp only [step] at hs
    split at hs
    · split at hs
      · cases hs
      · split at hs
        · cases hs
        · rw [(next_ok hs).2.2.2.1]; exact Nat.le_refl _
    · cases hs

theorem safe_same {s s' : St} {d : Debt} {a : Act} (hs : step s a = .ok s') (h : Safe s d) : Safe s' d := by
  intro c
  refine ⟨fun l hl => Nat.lt_of_lt_of_le ((h c).1 l hl) (nxt_step hs), fun he l hl => ?_⟩
  obtain ⟨l', h1, h2⟩ := (h c).2 he l hl
  exact ⟨l', h1, held_step hs h2⟩

theorem safe_clear {s : St} {d : Debt} (h : Safe s d) (c : Nat) : Safe s (d.clear c) := by
  intro i
  by_cases hi : i = c
  · subst hi
    simp only [Debt.clear, if_pos]
    exact ⟨(fun l hl => by cases hl), (fun _ l hl => by cases hl)⟩
  · simp only [Debt.clear, if_neg hi]; exact h i

theorem safe_add {s : St} {d : Debt} (h : Safe s d) (c l : Nat) (e : Bool) (hl : l < s.nxt)
    (he : e = true → Held s c l ∧ ∀ l' ∈ d.owed c, l' ≤ l) : Safe s (d.add c l e) := by
  intro i
  by_cases hi : i = c
  · subst hi
    simp only [Debt.add, if_pos]
    refine ⟨fun x hx => ?_, fun hx y hy => ⟨l, ?_, (he hx).1⟩⟩
    · rcases List.mem_append.mp hx with hx | hx
      · exact (h i).1 x hx
      · rw [List.mem_singleton] at hx; subst hx; exact hl
    · rcases List.mem_append.mp hy with hy | hy
      · exact (he hx).2 y hy
      · rw [List.mem_singleton] at hy; subst hy; exact Nat.le_refl _
  · simp only [Debt.add, if_neg hi]; exact h i

theorem safe_step {s s' : St} {d : Debt} {a : Act} (hs : step s a = .ok s') (h : Safe s d) : Safe s' (d.next s a) := by
  have h' := safe_same hs h
  cases a with
  | reply =>
    simp only [Debt.next]
    cases running s with
    | none => exact h'
    | some c => exact safe_clear h' c
  | read o =>
    cases o with
    | none => exact h'
    | some c => exact safe_clear h' c
  | call m ok =>
    cases ok with
    | false => exact h'
    | true =>
      have key : ∀ c r, s' = { s with pc := .run c r (.wrote m (some s.nxt)), nxt := s.nxt + 1 } → running s = some c →
          Safe s' (d.next s (.call m true)) := by
        intro c r e hr
        have hlt : s.nxt < s'.nxt := by rw [e]; exact Nat.lt_succ_self _
        simp only [Debt.next, hr]
        cases m with
        | quiet => exact h'
        | pipe => exact safe_add h' c s.nxt false hlt (fun hx => by cases hx)
        | answer =>
          refine safe_add h' c s.nxt true hlt (fun _ => ⟨?_, fun l' hl' => Nat.le_of_lt ((h c).1 l' hl')⟩)
          rw [e]; exact Or.inr (Or.inr ⟨r, Or.inr rfl⟩)
      cases hpc : s.pc with
      | loop => simp only [step, hpc] at hs; cases hs
      | woken => simp only [step, hpc] at hs; cases hs
      | run i r p =>
        cases p with
        | ready =>
          simp only [step, hpc] at hs
          split at hs
          · cases hs
          · refine key i r ?_ (by simp only [running, hpc])
            injection hs with hs
            rw [← hs]; rfl
        | wrote m' l => simp only [step, hpc] at hs; cases hs
        | enq l => simp only [step, hpc] at hs; cases hs
        | called =>
          simp only [step, hpc] at hs
          refine key i r ?_ (by simp only [running, hpc])
          injection hs with hs
          rw [← hs]; rfl
  | push => exact h'
  | kickNew => exact h'
  | kickIo => exact h'
  | take => exact h'
  | event i => exact h'
  | finish => exact h'
  | enqueue => exact h'
  | check => exact h'
  | leave => exact h'
  | quit => exact h'
  | close => exact h'
  | other => exact h'
  | otherEnqueue n => exact h'
  | sync n => exact h'
  | collect => exact h'
  | notify => exact h'

theorem safe_reach {s : St} {d : Debt} (h : Reach s d) : Safe s d := by
  induction h with
  | init => intro c; exact ⟨(fun l hl => by cases hl), (fun _ l hl => by cases hl)⟩
  | step _ hs ih => exact safe_step hs ih

/-- What is held for a connection whose command is over is synced. -/
theorem held_ready {s : St} (h : Inv s) {c : Nat} {rest : List Nat} (hpc : s.pc = .run c rest .ready) {l : Nat} (hh : Held s c l) : l < s.synced := by
  have hi : Inv0 s (some (c, .ready)) rest false := by have := h; simp only [Inv, hpc] at this; exact this
  have hw := (hi.run c _ rfl).2.2.2.1 rfl
  rcases hh with hh | hh | ⟨r, hh | hh⟩
  · exact hh
  · have := hi.wait c
    rw [hw] at this
    have h1 : 0 < (s.queue.map Prod.fst).count (some c) := List.count_pos_iff.mpr (List.mem_map.mpr ⟨_, hh, rfl⟩)
    simp only [cnt] at this
    omega
  · rw [hpc] at hh; cases hh
  · rw [hpc] at hh; cases hh

/-- The work that the worker has before it. -/
def pcRank : Pc → Nat
  | .loop => 0
  | .woken => 1
  | .run _ r .ready => 1 + 4 * r.length
  | .run _ r .called => 2 + 4 * r.length
  | .run _ r (.enq _) => 25 + 4 * r.length
  | .run _ r (.wrote _ _) => 26 + 4 * r.length

/-- The work that the server has before it. -/
def rank (s : St) : Nat :=
  22 * s.queue.length + 12 * s.batch.length + 5 * s.pend.length + 3 * s.ioKicks + 3 * s.newKicks + 2 * s.bytes + (s.nxt - s.synced) + pcRank s.pc

theorem rank_next {s s' : St} {rest : List Nat} (h : s.next rest = .ok s') :
    rank s' ≤ 22 * s.queue.length + 12 * s.batch.length + 5 * s.pend.length + 3 * s.ioKicks + 3 * s.newKicks + 2 * s.bytes + (s.nxt - s.synced) +
      4 * rest.length := by
  obtain ⟨e1, e2, e3, e4, e5, e6, e7, e8, _, hx⟩ := next_ok h
  unfold rank
  rw [e1, e2, e3, e4, e5, e6, e7, e8]
  rcases hx with ⟨_, hp, _⟩ | ⟨c, r, hr, hp, _⟩
  · rw [hp]; simp only [pcRank]; omega
  · rw [hp, hr]; simp only [pcRank, List.length_cons]; omega

/-- Everything that the server does by itself is progress. -/
theorem rank_step {s s' : St} {a : Act} (ho : Own a) (hs : step s a = .ok s') : rank s' < rank s := by
  cases a with
  | push => exact ho.elim
  | event i => exact ho.elim
  | call m ok => exact ho.elim
  | reply => exact ho.elim
  | quit => exact ho.elim
  | other => exact ho.elim
  | otherEnqueue n => exact ho.elim
  | kickNew => simp only [step] at hs; split at hs <;> cases hs; simp only [rank]; omega
  | kickIo => simp only [step] at hs; split at hs <;> cases hs; simp only [rank]; omega
  | read o =>
    simp only [step] at hs
    split at hs
    · cases hs
    · rename_i h0
      have hpc : s.pc = .loop := Classical.byContradiction fun hx => h0 (Or.inl hx)
      have hby : s.bytes ≠ 0 := fun hx => h0 (Or.inr hx)
      split at hs
      · cases hs; simp only [rank, hpc, pcRank]; omega
      · cases o with
        | none => cases hs; simp only [rank, hpc, pcRank]; omega
        | some i => simp only at hs; split at hs <;> cases hs; simp only [rank, St.set, hpc, pcRank]; omega
  | take =>
    simp only [step] at hs
    split at hs
    · cases hs
    · rename_i h0
      have hpc : s.pc = .woken := Classical.not_not.mp h0
      have := rank_next hs
      simp only [List.length_nil] at this
      simp only [rank, hpc, pcRank] at this ⊢
      omega
  | finish =>
    simp only [step] at hs
    split at hs
    · rename_i c rest m l hpc
      split at hs <;> cases hs
      · simp only [rank, St.waitFor, St.set, hpc, pcRank]; omega
      · simp only [rank, hpc, pcRank]; omega
    · rename_i c rest m hpc
      cases hs; simp only [rank, hpc, pcRank]; omega
    · cases hs
  | enqueue =>
    simp only [step] at hs
    split at hs <;> cases hs
    rename_i c rest l hpc
    simp only [rank, St.set, hpc, pcRank, List.length_append, List.length_cons, List.length_nil]; omega
  | check =>
    simp only [step] at hs
    split at hs
    · rename_i c rest hpc
      split at hs
      · by_cases hw : 0 < (s.conn c).wait
        · simp only [St.block, if_pos hw, if_true] at hs
          have := rank_next hs
          simp only [St.set] at this
          simp only [rank, hpc, pcRank] at this ⊢
          omega
        · simp only [St.block, if_neg hw, Bool.false_eq_true, if_false] at hs
          cases hs; simp only [rank, St.set, hpc, pcRank]; omega
      · cases hs; simp only [rank, hpc, pcRank]; omega
    · cases hs
  | leave =>
    simp only [step] at hs
    split at hs
    · rename_i c rest hpc
      split at hs
      · cases hs
      · have := rank_next hs
        simp only [rank, hpc, pcRank] at this ⊢
        omega
    · cases hs
  | close =>
    simp only [step] at hs
    split at hs
    · rename_i c rest hpc
      split at hs
      · cases hs
      · split at hs
        · cases hs
        · have := rank_next hs
          simp only [St.set] at this
          have hl := List.length_erase_le (a := c) (l := s.pend)
          simp only [rank, hpc, pcRank] at this ⊢
          omega
    · cases hs
  | sync n =>
    simp only [step] at hs; split at hs <;> cases hs
    rename_i hn
    simp only [rank]; omega
  | collect =>
    simp only [step] at hs; split at hs <;> cases hs
    rename_i h0
    have hb : s.batch = [] := Classical.byContradiction fun hx => h0 (Or.inl hx)
    have hc : (collected s.synced s.queue).1 ≠ [] := fun hx => h0 (Or.inr hx)
    have e : (collected s.synced s.queue).1 ++ (collected s.synced s.queue).2 = s.queue := List.takeWhile_append_dropWhile
    have el := congrArg List.length e
    rw [List.length_append] at el
    have : 0 < (collected s.synced s.queue).1.length := by
      cases hx : (collected s.synced s.queue).1 with
      | nil => exact absurd hx hc
      | cons _ _ => simp
    simp only [rank, hb, List.length_nil]; omega
  | notify =>
    cases hb : s.batch with
    | nil => simp only [step, hb] at hs; cases hs
    | cons x b =>
      obtain ⟨o, n⟩ := x
      cases o with
      | none => simp only [step, hb] at hs; cases hs; simp only [rank, hb, List.length_cons]; omega
      | some i =>
        simp only [step, hb] at hs
        obtain ⟨e1, e2, e3, e4, e5, e6, _, e7, e8, _⟩ := notify_ok hs
        simp only at e1 e2 e3 e4 e5 e6 e7 e8
        simp only [rank, e1, e2, e3, e4, e5, e6, e7, hb, List.length_cons]
        omega

theorem away_not_running {s : St} (h : Inv s) {c : Nat} (ha : Away s c) : running s ≠ some c := by
  intro hr
  cases hpc : s.pc with
  | loop => simp only [running, hpc] at hr; cases hr
  | woken => simp only [running, hpc] at hr; cases hr
  | run i r p =>
    simp only [running, hpc] at hr; cases hr
    have hi : Inv0 s (some (c, p)) r false := by have := h; simp only [Inv, hpc] at this; exact this
    have := (hi.run c p rfl).2.1
    rw [ha.2] at this; cases this

theorem away_next {s0 s s' : St} {rest : List Nat} {c : Nat} (ha : Away s c) (hn : s0.next rest = .ok s') (h0 : s0.conn c = s.conn c) :
    running s' = some c ∨ Away s' c := by
  obtain ⟨_, _, _, _, _, _, _, _, _, hx⟩ := next_ok hn
  rcases hx with ⟨_, _, hc⟩ | ⟨i, r, _, hp, hc⟩
  · right; rw [Away, hc, h0]; exact ha
  · by_cases hi : c = i
    · left; subst hi; simp only [running, hp]
    · right; rw [Away, hc c hi, h0]; exact ha

/-- A connection that is away stays away, until it is run. -/
theorem away_step {s s' : St} {a : Act} {c : Nat} (h : Inv s) (ho : Own a) (hs : step s a = .ok s') (ha : Away s c) :
    running s' = some c ∨ Away s' c := by
  have hnr := away_not_running h ha
  cases a with
  | push => exact ho.elim
  | event i => exact ho.elim
  | call m ok => exact ho.elim
  | reply => exact ho.elim
  | quit => exact ho.elim
  | other => exact ho.elim
  | otherEnqueue n => exact ho.elim
  | kickNew => simp only [step] at hs; split at hs <;> cases hs; exact Or.inr ha
  | kickIo => simp only [step] at hs; split at hs <;> cases hs; exact Or.inr ha
  | read o =>
    simp only [step] at hs
    split at hs
    · cases hs
    · split at hs
      · cases hs; exact Or.inr ha
      · cases o with
        | none => cases hs; exact Or.inr ha
        | some i =>
          simp only at hs
          split at hs
          · cases hs
          · rename_i hop
            cases hs
            have hi : c ≠ i := by rintro rfl; exact hop ha.1
            right; rw [Away, set_ne _ _ hi]; exact ha
  | take =>
    simp only [step] at hs
    split at hs
    · cases hs
    · exact away_next ha hs rfl
  | finish =>
    simp only [step] at hs
    split at hs
    · rename_i i rest m l hpc
      have hi : c ≠ i := by rintro rfl; exact hnr (by simp only [running, hpc])
      split at hs <;> cases hs
      · right
        have e : (s.waitFor i).conn c = s.conn c := set_ne _ _ hi
        show ((s.waitFor i).conn c).opened = true ∧ ((s.waitFor i).conn c).watched = false
        rw [e]; exact ha
      · exact Or.inr ha
    · cases hs; exact Or.inr ha
    · cases hs
  | enqueue =>
    simp only [step] at hs
    split at hs <;> cases hs
    rename_i i rest l hpc
    have hi : c ≠ i := by rintro rfl; exact hnr (by simp only [running, hpc])
    right
    have e : (s.set i { s.conn i with would := true }).conn c = s.conn c := set_ne _ _ hi
    show ((s.set i { s.conn i with would := true }).conn c).opened = true ∧ ((s.set i { s.conn i with would := true }).conn c).watched = false
    rw [e]; exact ha
  | check =>
    simp only [step] at hs
    split at hs
    · rename_i i rest hpc
      have hi : c ≠ i := by rintro rfl; exact hnr (by simp only [running, hpc])
      split at hs
      · by_cases hw : 0 < (s.conn i).wait
        · simp only [St.block, if_pos hw, if_true] at hs
          exact away_next ha hs (set_ne _ _ hi)
        · simp only [St.block, if_neg hw, Bool.false_eq_true, if_false] at hs
          cases hs
          right
          have e : (s.set i { s.conn i with would := false }).conn c = s.conn c := set_ne _ _ hi
          show ((s.set i { s.conn i with would := false }).conn c).opened = true ∧ ((s.set i { s.conn i with would := false }).conn c).watched = false
          rw [e]; exact ha
      · cases hs; exact Or.inr ha
    · cases hs
  | leave =>
    simp only [step] at hs
    split at hs
    · split at hs
      · cases hs
      · exact away_next ha hs rfl
    · cases hs
  | close =>
    simp only [step] at hs
    split at hs
    · rename_i i rest hpc
      have hi : c ≠ i := by rintro rfl; exact hnr (by simp only [running, hpc])
      split at hs
      · cases hs
      · split at hs
        · cases hs
        · exact away_next ha hs (set_ne s unused hi)
    · cases hs
  | sync n => simp only [step] at hs; split at hs <;> cases hs; exact Or.inr ha
  | collect => simp only [step] at hs; split at hs <;> cases hs; exact Or.inr ha
  | notify =>
    cases hb : s.batch with
    | nil => simp only [step, hb] at hs; cases hs
    | cons x b =>
      obtain ⟨o, n⟩ := x
      cases o with
      | none => simp only [step, hb] at hs; cases hs; exact Or.inr ha
      | some i =>
        simp only [step, hb] at hs
        obtain ⟨_, _, _, _, _, _, _, _, _, hc⟩ := notify_ok hs
        right; rw [Away, (hc c).1, (hc c).2]; exact ha

/-- A worker that is not in its event loop can go on. -/
theorem busy_step {s : St} (h : Inv s) (hpc : s.pc ≠ .loop) : ∃ a s', Own a ∧ step s a = .ok s' := by
  have key : ∀ a, Own a → step s a ≠ .off → ∃ a s', Own a ∧ step s a = .ok s' := by
    intro a ho hn
    rcases inv_step h a with h1 | ⟨s', h1, _⟩
    · exact absurd h1 hn
    · exact ⟨a, s', ho, h1⟩
  have next_off : ∀ (t : St) (r : List Nat), t.next r ≠ .off := by
    intro t r
    cases r with
    | nil => simp [St.next]
    | cons i r => simp only [St.next]; split <;> (intro hx; cases hx)
  cases hp : s.pc with
  | loop => exact absurd hp hpc
  | woken => exact key .take trivial (by simp only [step, hp]; rw [if_neg (by simp)]; exact next_off _ _)
  | run c r p =>
    cases p with
    | ready =>
      cases hc : (s.conn c).closing with
      | false => exact key .leave trivial (by simp only [step, hp]; rw [if_neg (by rw [hc]; decide)]; exact next_off _ _)
      | true =>
        refine key .close trivial ?_
        simp only [step, hp]
        rw [if_neg (by rw [hc]; decide)]
        split
        · intro hx; cases hx
        · exact next_off _ _
    | wrote m o =>
      refine key .finish trivial ?_
      cases o with
      | none => simp only [step, hp]; intro hx; cases hx
      | some l => simp only [step, hp]; split <;> (intro hx; cases hx)
    | enq l => exact key .enqueue trivial (by simp only [step, hp]; intro hx; cases hx)
    | called =>
      refine key .check trivial ?_
      simp only [step, hp]
      split
      · by_cases hw : 0 < (s.conn c).wait
        · simp only [St.block, if_pos hw, if_true]; exact next_off _ _
        · simp only [St.block, if_neg hw, Bool.false_eq_true, if_false]; intro hx; cases hx
      · intro hx; cases hx

/-- While a connection is away, the server has something to do by itself. -/
theorem away_busy {s : St} (h : Inv s) {c : Nat} (ha : Away s c) : ∃ a s', Own a ∧ step s a = .ok s' := by
  by_cases hpc : s.pc = .loop
  · have key : ∀ a, Own a → step s a ≠ .off → ∃ a s', Own a ∧ step s a = .ok s' := by
      intro a ho hn
      rcases inv_step h a with h1 | ⟨s', h1, _⟩
      · exact absurd h1 hn
      · exact ⟨a, s', ho, h1⟩
    have hi : Inv0 s none [] false := by have := h; simp only [Inv, hpc] at this; exact this
    rcases hi.away c ha.1 ha.2 with hb | hm
    · have hw := (hi.blk c hb).2.1
      rw [hi.wait c] at hw
      cases hbt : s.batch with
      | cons x b =>
        obtain ⟨o, n⟩ := x
        cases o with
        | none => exact key .notify trivial (by simp only [step, hbt]; intro hx; cases hx)
        | some i =>
          obtain ⟨s', h1, _⟩ := inv_notify h hbt
          exact key .notify trivial (by simp only [step, hbt, h1]; intro hx; cases hx)
      | nil =>
        have hq : s.queue ≠ [] := by
          intro hx
          simp [cnt, hx, hbt, enqOf] at hw
        cases hqq : s.queue with
        | nil => exact absurd hqq hq
        | cons x q =>
          by_cases hs : s.synced ≤ x.2
          · have := hi.que x (by rw [hqq]; exact List.mem_cons_self ..)
            exact key (.sync s.nxt) trivial (by
              simp only [step]; rw [if_pos ⟨by omega, Nat.le_refl _⟩]; intro hx; cases hx)
          · refine key .collect trivial ?_
            simp only [step]
            rw [if_neg]
            · intro hx; cases hx
            · rintro (hx | hx)
              · exact hx hbt
              · simp only [collected, hqq] at hx
                rw [List.takeWhile_cons, if_pos (by simp; omega)] at hx
                cases hx
    · have hp : s.pend ≠ [] := by rintro hx; rw [hx] at hm; cases hm
      have hk := (hi.kick hp).resolve_left (by decide)
      by_cases hby : s.bytes = 0
      · exact key .kickIo trivial (by simp only [step]; rw [if_neg (by omega)]; intro hx; cases hx)
      · refine key (.read none) trivial ?_
        simp only [step]
        rw [if_neg (fun hx => hx.elim (fun hx => hx hpc) hby)]
        split <;> (intro hx; cases hx)
  · exact busy_step h hpc

/-- While a new connection is in the queue, the server has something to do by itself. -/
theorem queued_busy {s : St} (h : Inv s) (hc : 0 < s.cq) : ∃ a s', Own a ∧ step s a = .ok s' := by
  by_cases hpc : s.pc = .loop
  · have key : ∀ a, Own a → step s a ≠ .off → ∃ a s', Own a ∧ step s a = .ok s' := by
      intro a ho hn
      rcases inv_step h a with h1 | ⟨s', h1, _⟩
      · exact absurd h1 hn
      · exact ⟨a, s', ho, h1⟩
    have hk := h.cqs
    by_cases hby : s.bytes = 0
    · exact key .kickNew trivial (by simp only [step]; rw [if_neg (by omega)]; intro hx; cases hx)
    · refine key (.read none) trivial ?_
      simp only [step]
      rw [if_neg (fun hx => hx.elim (fun hx => hx hpc) hby)]
      split <;> (intro hx; cases hx)
  · exact busy_step h hpc

end Verif.Wake
