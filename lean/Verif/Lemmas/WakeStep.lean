import Verif.Lemmas.Wake
/-! # Every step keeps the invariant of waiting connections -/
namespace Verif.Wake
open Verif.Wake.Spec

theorem enqOf_ne {c i : Nat} (ph : Phase) (h : i ≠ c) : enqOf (some (c, ph)) i = 0 := by
  cases ph <;> first | rfl | exact if_neg (fun e => h e.symm)

theorem inv_wait {s : St} {c l : Nat} {m : Mode} {rest : List Nat} {w : Bool} (h : Inv0 s (some (c, .wrote m (some l))) rest w) :
    Inv0 (s.waitFor c) (some (c, .enq l)) rest w := by
  have hr := h.run c _ rfl
  have hn : c ∉ s.pend ++ rest := fun hm => by
    have := (h.pnd c hm).2.1
    rw [hr.2.1] at this; cases this
  have hnb : (s.conn c).blocked ≠ true := fun hb => (h.blk c hb).2.2 _ rfl
  have e : s.waitFor c = s.set c { s.conn c with wait := (s.conn c).wait + 1 } := by
    simp only [St.waitFor]
    rw [if_neg (by have := h.early c; omega)]
  rw [e]
  have hcl : (s.conn c).closing = false := by
    cases hc : (s.conn c).closing with
    | false => rfl
    | true => exact absurd (hr.2.2.1 hc) (by intro hx; cases hx)
  refine ⟨?_, ?_, ?_, ?_, ?_, h.nodup, ?_, ?_, ?_, ?_, h.kick, h.cqs, h.sync, h.que, h.bat, ?_⟩
  · intro i
    by_cases hi : i = c
    · subst hi; rw [set_self]; exact h.early i
    · rw [set_ne _ _ hi]; exact h.early i
  · intro i
    by_cases hi : i = c
    · subst hi; rw [set_self]
      have := h.wait i
      show (s.conn i).wait + 1 = cnt s i + enqOf (some (i, .enq l)) i
      rw [this]; simp [enqOf]
    · rw [set_ne _ _ hi, h.wait i, enqOf_ne _ hi, enqOf_ne _ hi]; rfl
  · intro i
    by_cases hi : i = c
    · subst hi; rw [set_self]; intro ho; simp only at ho; rw [hr.1] at ho; cases ho
    · rw [set_ne _ _ hi]; exact h.shut i
  · intro i
    by_cases hi : i = c
    · subst hi; rw [set_self]; exact fun hb => absurd hb hnb
    · rw [set_ne _ _ hi]; intro hb
      exact ⟨(h.blk i hb).1, (h.blk i hb).2.1, fun ph hp => by cases hp; exact hi rfl⟩
  · intro i hm
    have hi : i ≠ c := by rintro rfl; exact hn hm
    rw [set_ne _ _ hi]
    exact h.pnd i hm
  · intro i
    by_cases hi : i = c
    · subst hi; rw [set_self]; exact h.away i
    · rw [set_ne _ _ hi]; exact h.away i
  · intro i
    by_cases hi : i = c
    · subst hi; intro _; exact Or.inr ⟨_, rfl⟩
    · rw [set_ne _ _ hi]; intro hw
      rcases h.waits i hw with h1 | ⟨ph, h1⟩
      · exact Or.inl h1
      · cases h1; exact absurd rfl hi
  · intro i ph hp
    cases hp
    rw [set_self]
    exact ⟨hr.1, hr.2.1, (fun hc => by simp only at hc; rw [hcl] at hc; cases hc), (fun hq => by cases hq), fun _ => Or.inr ⟨_, rfl⟩⟩
  · intro i
    by_cases hi : i = c
    · subst hi; rw [set_self]; exact fun _ _ => ⟨_, rfl⟩
    · rw [set_ne _ _ hi]; intro h1 h2
      obtain ⟨ph, h3⟩ := h.cls i h1 h2
      cases h3; exact absurd rfl hi
  · rintro i l' (h1 | ⟨m', h1⟩)
    · cases h1; exact h.num c l (Or.inr ⟨_, rfl⟩)
    · cases h1

theorem inv_enqueue {s : St} {c l : Nat} {rest : List Nat} {w : Bool} (h : Inv0 s (some (c, .enq l)) rest w) :
    Inv0 { s.set c { s.conn c with would := true } with queue := s.queue ++ [(some c, l)] } (some (c, .called)) rest w := by
  have hr := h.run c _ rfl
  have hcl : (s.conn c).closing = false := by
    cases hc : (s.conn c).closing with
    | false => rfl
    | true => exact absurd (hr.2.2.1 hc) (by intro hx; cases hx)
  have hf := inv_flags h true false (fun _ => Or.inl rfl) (fun hx => by cases hx)
  have e : ({ s.conn c with would := true, closing := false } : Conn) = { s.conn c with would := true } := by rw [← hcl]
  rw [e] at hf
  have hr' := hf.run c _ rfl
  have hc : ∀ i, cnt { s.set c { s.conn c with would := true } with queue := s.queue ++ [(some c, l)] } i =
      cnt s i + if c = i then 1 else 0 := by
    intro i
    simp only [cnt, St.set, List.map_append, List.map_cons, List.map_nil, List.count_append, List.count_cons, List.count_nil]
    by_cases hi : c = i
    · subst hi; simp; omega
    · rw [if_neg hi, if_neg (by simp [hi])]; omega
  refine ⟨hf.early, ?_, hf.shut, ?_, hf.pnd, hf.nodup, hf.away, ?_, ?_, ?_, hf.kick, hf.cqs, hf.sync, ?_, hf.bat, ?_⟩
  · intro i
    rw [hc i]
    exact hf.wait i
  · intro i hb
    refine ⟨(hf.blk i hb).1, (hf.blk i hb).2.1, fun ph hp => ?_⟩
    cases hp; exact (hf.blk c hb).2.2 _ rfl
  · intro i hw
    rcases hf.waits i hw with h1 | ⟨ph, h1⟩
    · exact Or.inl h1
    · cases h1; exact Or.inr ⟨_, rfl⟩
  · intro i ph hp
    cases hp
    refine ⟨hr'.1, hr'.2.1, ?_, (fun hx => by cases hx), ?_⟩
    · intro hx
      exact absurd (hr'.2.2.1 hx) (by intro hy; cases hy)
    · intro _; left; show ((s.set c { s.conn c with would := true }).conn c).would = true
      rw [set_self]
  · intro i h1 h2
    obtain ⟨ph, h3⟩ := hf.cls i h1 h2
    cases h3; exact ⟨_, rfl⟩
  · intro x hx
    rcases List.mem_append.mp hx with hx | hx
    · exact h.que x hx
    · rw [List.mem_singleton] at hx; subst hx; exact h.num c l (Or.inl rfl)
  · rintro i l' (h1 | ⟨m', h1⟩) <;> cases h1

/-- Calling back the first waiter of the batch. -/
theorem inv_notify {s : St} {c l : Nat} {b : List (Option Nat × Nat)} {cur : Option (Nat × Phase)} {w : Bool}
    (h : Inv0 s cur s.pc.rest w) (hb : s.batch = (some c, l) :: b) :
    ∃ s', { s with batch := b }.notify c = .ok s' ∧ s'.pc = s.pc ∧ Inv0 s' cur s.pc.rest w := by
  have hcnt : ∀ i, cnt s i = cnt { s with batch := b } i + if c = i then 1 else 0 := by
    intro i
    simp only [cnt, hb, List.map_cons, List.count_cons]
    by_cases hi : c = i
    · subst hi; simp; omega
    · rw [if_neg hi, if_neg (by simp [hi])]; omega
  have hw : 0 < (s.conn c).wait := by rw [h.wait c, hcnt c, if_pos rfl]; omega
  have hbat : ∀ x ∈ b, x.2 < s.synced := fun x hx => h.bat x (by rw [hb]; exact List.mem_cons_of_mem _ hx)
  have ho : (s.conn c).opened = true := by
    cases ho : (s.conn c).opened with
    | true => rfl
    | false => rw [h.shut c ho] at hw; exact absurd hw (by decide)
  have hcl : (s.conn c).closing = false := by
    cases hc : (s.conn c).closing with
    | false => rfl
    | true =>
      obtain ⟨ph, hp⟩ := h.cls c ho hc
      have hr := h.run c ph hp
      have := hr.2.2.2.1 (hr.2.2.1 hc)
      omega
  have hn : c ∉ s.pend ++ s.pc.rest := fun hm => by have := (h.pnd c hm).2.2.2; omega
  have hn1 : c ∉ s.pend := fun hx => hn (List.mem_append.mpr (Or.inl hx))
  have hn2 : c ∉ s.pc.rest := fun hx => hn (List.mem_append.mpr (Or.inr hx))
  simp only [St.notify]
  rw [if_neg (by rw [ho, hcl]; decide), if_pos hw]
  by_cases h1 : (s.conn c).wait = 1 ∧ (s.conn c).blocked = true
  · rw [if_pos h1, if_neg hn1, if_neg hn2]
    obtain ⟨hw1, hbl⟩ := h1
    have hcur := (h.blk c hbl).2.2
    refine ⟨_, rfl, rfl, ?_⟩
    have key : ∀ i, i ≠ c → (({ s with batch := b } : St).set c { s.conn c with wait := 0, blocked := false }).conn i = s.conn i :=
      fun i hi => set_ne _ _ hi
    have keyc : (({ s with batch := b } : St).set c { s.conn c with wait := 0, blocked := false }).conn c =
      { s.conn c with wait := 0, blocked := false } := set_self _ _ _
    refine ⟨?_, ?_, ?_, ?_, ?_, ?_, ?_, ?_, ?_, ?_, ?_, h.cqs, h.sync, h.que, hbat, h.num⟩
    · intro i
      show ((({ s with batch := b } : St).set c _).conn i).early = 0
      by_cases hi : i = c
      · subst hi; rw [keyc]; exact h.early i
      · rw [key i hi]; exact h.early i
    · intro i
      show ((({ s with batch := b } : St).set c _).conn i).wait = cnt { s with batch := b } i + enqOf cur i
      by_cases hi : i = c
      · subst hi; rw [keyc]
        have := h.wait i
        rw [hw1, hcnt i, if_pos rfl] at this
        show 0 = _
        omega
      · rw [key i hi, h.wait i, hcnt i, if_neg (fun e => hi e.symm)]; rfl
    · intro i
      show ((({ s with batch := b } : St).set c _).conn i).opened = false → (({ s with batch := b } : St).set c _).conn i = unused
      by_cases hi : i = c
      · subst hi; rw [keyc]; intro hx; simp only at hx; rw [ho] at hx; cases hx
      · rw [key i hi]; exact h.shut i
    · intro i
      show ((({ s with batch := b } : St).set c _).conn i).blocked = true → _
      by_cases hi : i = c
      · subst hi; rw [keyc]; intro hx; cases hx
      · rw [key i hi]; exact h.blk i
    · intro i hm
      show ((({ s with batch := b } : St).set c _).conn i).opened = true ∧ ((({ s with batch := b } : St).set c _).conn i).watched = false ∧
        ((({ s with batch := b } : St).set c _).conn i).blocked = false ∧ ((({ s with batch := b } : St).set c _).conn i).wait = 0
      by_cases hi : i = c
      · subst hi; rw [keyc]; exact ⟨ho, (h.blk i hbl).1, rfl, rfl⟩
      · rw [key i hi]
        refine h.pnd i ?_
        rcases List.mem_cons.mp hm with hm | hm
        · exact absurd hm hi
        · exact hm
    · show (c :: s.pend ++ s.pc.rest).Nodup
      rw [List.cons_append, List.nodup_cons]
      exact ⟨hn, h.nodup⟩
    · intro i
      show ((({ s with batch := b } : St).set c _).conn i).opened = true → ((({ s with batch := b } : St).set c _).conn i).watched = false →
        ((({ s with batch := b } : St).set c _).conn i).blocked = true ∨ i ∈ c :: s.pend ++ s.pc.rest
      by_cases hi : i = c
      · subst hi; intro _ _; right; simp
      · rw [key i hi]; intro h2 h3
        rcases h.away i h2 h3 with h4 | h4
        · exact Or.inl h4
        · exact Or.inr (List.mem_cons_of_mem _ h4)
    · intro i
      show 0 < ((({ s with batch := b } : St).set c _).conn i).wait → ((({ s with batch := b } : St).set c _).conn i).blocked = true ∨ _
      by_cases hi : i = c
      · subst hi; rw [keyc]; intro hx; exact absurd hx (by simp)
      · rw [key i hi]; exact h.waits i
    · intro i ph hp
      have hi : i ≠ c := by rintro rfl; exact hcur ph hp
      show ((({ s with batch := b } : St).set c _).conn i).opened = true ∧ ((({ s with batch := b } : St).set c _).conn i).watched = true ∧
        (((({ s with batch := b } : St).set c _).conn i).closing = true → _) ∧
        (_ → ((({ s with batch := b } : St).set c _).conn i).wait = 0) ∧
        (0 < ((({ s with batch := b } : St).set c _).conn i).wait → ((({ s with batch := b } : St).set c _).conn i).would = true ∨ _)
      rw [key i hi]; exact h.run i ph hp
    · intro i
      show ((({ s with batch := b } : St).set c _).conn i).opened = true → ((({ s with batch := b } : St).set c _).conn i).closing = true → _
      by_cases hi : i = c
      · subst hi; rw [keyc]; intro _ hx; simp only at hx; rw [hcl] at hx; cases hx
      · rw [key i hi]; exact h.cls i
    · intro _
      show _ ∨ 0 < s.bytes + (if s.pend = [] then s.ioKicks + 1 else s.ioKicks)
      by_cases hp : s.pend = []
      · rw [if_pos hp]; right; omega
      · rw [if_neg hp]; exact h.kick hp
  · rw [if_neg h1]
    refine ⟨_, rfl, rfl, ?_⟩
    have key : ∀ i, i ≠ c → (({ s with batch := b } : St).set c { s.conn c with wait := (s.conn c).wait - 1 }).conn i = s.conn i :=
      fun i hi => set_ne _ _ hi
    have keyc : (({ s with batch := b } : St).set c { s.conn c with wait := (s.conn c).wait - 1 }).conn c =
      { s.conn c with wait := (s.conn c).wait - 1 } := set_self _ _ _
    refine ⟨?_, ?_, ?_, ?_, ?_, h.nodup, ?_, ?_, ?_, ?_, h.kick, h.cqs, h.sync, h.que, hbat, h.num⟩
    · intro i
      by_cases hi : i = c
      · subst hi; rw [keyc]; exact h.early i
      · rw [key i hi]; exact h.early i
    · intro i
      by_cases hi : i = c
      · subst hi; rw [keyc]
        have := h.wait i
        rw [hcnt i, if_pos rfl] at this
        show (s.conn i).wait - 1 = cnt { s with batch := b } i + _
        omega
      · rw [key i hi, h.wait i, hcnt i, if_neg (fun e => hi e.symm)]; rfl
    · intro i
      by_cases hi : i = c
      · subst hi; rw [keyc]; intro hx; simp only at hx; rw [ho] at hx; cases hx
      · rw [key i hi]; exact h.shut i
    · intro i
      by_cases hi : i = c
      · subst hi; rw [keyc]; intro hx
        have := h.blk i hx
        exact ⟨this.1, by have h5 : (s.conn i).wait ≠ 1 := fun e => h1 ⟨e, hx⟩
                          show 0 < (s.conn i).wait - 1
                          omega, this.2.2⟩
      · rw [key i hi]; exact h.blk i
    · intro i hm
      have hi : i ≠ c := by rintro rfl; exact hn hm
      rw [key i hi]; exact h.pnd i hm
    · intro i
      by_cases hi : i = c
      · subst hi; rw [keyc]; exact h.away i
      · rw [key i hi]; exact h.away i
    · intro i
      by_cases hi : i = c
      · subst hi; rw [keyc]; exact fun _ => h.waits i hw
      · rw [key i hi]; exact h.waits i
    · intro i ph hp
      by_cases hi : i = c
      · subst hi; rw [keyc]
        have hr := h.run i ph hp
        exact ⟨hr.1, hr.2.1, hr.2.2.1, (fun hx => by have := hr.2.2.2.1 hx; show (s.conn i).wait - 1 = 0; omega), fun _ => hr.2.2.2.2 hw⟩
      · rw [key i hi]; exact h.run i ph hp
    · intro i
      by_cases hi : i = c
      · subst hi; rw [keyc]; exact h.cls i
      · rw [key i hi]; exact h.cls i

theorem mem_takeWhile {p : Option Nat × Nat → Bool} : ∀ {q : List (Option Nat × Nat)} {x : Option Nat × Nat}, x ∈ q.takeWhile p → p x = true := by
  intro q
  induction q with
  | nil => intro x hx; cases hx
  | cons y q ih =>
    intro x hx
    rw [List.takeWhile_cons] at hx
    by_cases hy : p y = true
    · rw [if_pos hy] at hx
      rcases List.mem_cons.mp hx with rfl | hx
      · exact hy
      · exact ih hx
    · rw [if_neg hy] at hx; cases hx

theorem dropWhile_nil {c : Nat} : ∀ {l : List Nat}, c ∉ l → l.dropWhile (· != c) = [] := by
  intro l
  induction l with
  | nil => intro _; rfl
  | cons y l ih =>
    intro h
    have hy : y ≠ c := by rintro rfl; exact h (by simp)
    rw [List.dropWhile_cons, if_pos (by simp [hy])]
    exact ih fun hx => h (List.mem_cons_of_mem _ hx)

theorem hasNext_false {l : List Nat} {c : Nat} (h : c ∉ l) : hasNext l c = false := by
  have := dropWhile_nil h
  simp [hasNext, this]

/-- A new connection. -/
theorem inv_new {s : St} {c : Nat} {w : Bool} (h : Inv0 s none [] w) (hc : (s.conn c).opened = false) : Inv0 (s.set c fresh) none [] w := by
  have hu := h.shut c hc
  have hn : c ∉ s.pend ++ [] := fun hm => by have := (h.pnd c hm).1; rw [hc] at this; cases this
  refine ⟨?_, ?_, ?_, ?_, ?_, h.nodup, ?_, ?_, (fun i ph hp => by cases hp), ?_, h.kick, h.cqs, h.sync, h.que, h.bat, h.num⟩
  · intro i
    by_cases hi : i = c
    · subst hi; rw [set_self]; rfl
    · rw [set_ne _ _ hi]; exact h.early i
  · intro i
    by_cases hi : i = c
    · subst hi; rw [set_self]
      have := h.wait i
      rw [hu] at this; exact this
    · rw [set_ne _ _ hi]; exact h.wait i
  · intro i
    by_cases hi : i = c
    · subst hi; rw [set_self]; intro hx; cases hx
    · rw [set_ne _ _ hi]; exact h.shut i
  · intro i
    by_cases hi : i = c
    · subst hi; rw [set_self]; intro hx; cases hx
    · rw [set_ne _ _ hi]; exact h.blk i
  · intro i hm
    have hi : i ≠ c := by rintro rfl; exact hn hm
    rw [set_ne _ _ hi]; exact h.pnd i hm
  · intro i
    by_cases hi : i = c
    · subst hi; rw [set_self]; intro _ hx; cases hx
    · rw [set_ne _ _ hi]; exact h.away i
  · intro i
    by_cases hi : i = c
    · subst hi; rw [set_self]; intro hx; exact absurd hx (by decide)
    · rw [set_ne _ _ hi]; exact h.waits i
  · intro i
    by_cases hi : i = c
    · subst hi; rw [set_self]; intro _ hx; cases hx
    · rw [set_ne _ _ hi]; exact h.cls i

/-- The counters of the pipe, of the queues and of the log. -/
theorem inv_count {s : St} {cur : Option (Nat × Phase)} {rest : List Nat} {w : Bool} (h : Inv0 s cur rest w) {w' : Bool}
    {cq by' nk ik nx sy : Nat} {q b : List (Option Nat × Nat)}
    (h1 : s.pend ≠ [] → w' = true ∨ 0 < by' + ik) (h2 : cq ≤ by' + nk) (h3 : sy ≤ nx) (h4 : ∀ x ∈ q, x.2 < nx) (h5 : ∀ x ∈ b, x.2 < sy)
    (h6 : s.nxt ≤ nx)
    (h7 : ∀ c, (q.map Prod.fst).count (some c) + (b.map Prod.fst).count (some c) = cnt s c) :
    Inv0 { s with cq := cq, bytes := by', newKicks := nk, ioKicks := ik, nxt := nx, synced := sy, queue := q, batch := b } cur rest w' :=
  ⟨h.early, fun c => by rw [h.wait c, ← h7 c]; rfl, h.shut, h.blk, h.pnd, h.nodup, h.away, h.waits, h.run, h.cls, h1, h2, h3, h4, h5,
    fun c l hl => Nat.lt_of_lt_of_le (h.num c l hl) h6⟩

/-- No step faults, and every step keeps the invariant. -/
theorem inv_step {s : St} (h : Inv s) (a : Act) : step s a = .off ∨ ∃ s', step s a = .ok s' ∧ Inv s' := by
  cases a with
  | push => exact Or.inr ⟨_, rfl, inv_count h h.kick (by have := h.cqs; omega) h.sync h.que h.bat (Nat.le_refl _) fun _ => rfl⟩
  | kickNew =>
    simp only [step]
    by_cases h0 : s.newKicks = 0
    · rw [if_pos h0]; exact Or.inl rfl
    · rw [if_neg h0]
      exact Or.inr ⟨_, rfl, inv_count h (fun hp => (h.kick hp).imp id (by omega)) (by have := h.cqs; omega) h.sync h.que h.bat
        (Nat.le_refl _) fun _ => rfl⟩
  | kickIo =>
    simp only [step]
    by_cases h0 : s.ioKicks = 0
    · rw [if_pos h0]; exact Or.inl rfl
    · rw [if_neg h0]
      exact Or.inr ⟨_, rfl, inv_count h (fun hp => (h.kick hp).imp id (by omega)) (by have := h.cqs; omega) h.sync h.que h.bat
        (Nat.le_refl _) fun _ => rfl⟩
  | read o =>
    simp only [step]
    by_cases h0 : s.pc ≠ .loop ∨ s.bytes = 0
    · rw [if_pos h0]; exact Or.inl rfl
    · rw [if_neg h0]
      have hpc : s.pc = .loop := Classical.byContradiction fun hx => h0 (Or.inl hx)
      have hby : s.bytes ≠ 0 := fun hx => h0 (Or.inr hx)
      have hi : Inv0 s none [] false := by have := h; simp only [Inv, hpc] at this; exact this
      have hs : Inv0 { s with pc := .woken, bytes := s.bytes - 1, cq := s.cq - 1 } none [] true :=
        inv_pc (inv_count (w' := true) (cq := s.cq - 1) (by' := s.bytes - 1) (nk := s.newKicks) (ik := s.ioKicks) hi (fun _ => Or.inl rfl) (by have := h.cqs; omega) h.sync h.que h.bat
          (Nat.le_refl _) fun _ => rfl) .woken
      by_cases hc : s.cq = 0
      · rw [if_pos hc]; exact Or.inr ⟨_, rfl, hs⟩
      · rw [if_neg hc]
        cases o with
        | none => exact Or.inr ⟨_, rfl, hs⟩
        | some c =>
          simp only
          by_cases ho : (s.conn c).opened = true
          · rw [if_pos ho]; exact Or.inl rfl
          · rw [if_neg ho]
            exact Or.inr ⟨_, rfl, inv_new hs (by simpa using ho)⟩
  | take =>
    simp only [step]
    by_cases h0 : s.pc ≠ .woken
    · rw [if_pos h0]; exact Or.inl rfl
    · rw [if_neg h0]
      have hpc : s.pc = .woken := Classical.not_not.mp h0
      have hi : Inv0 s none [] true := by have := h; simp only [Inv, hpc] at this; exact this
      have : Inv0 { s with pend := [] } none s.pend false :=
        ⟨hi.early, hi.wait, hi.shut, hi.blk, (fun c hc => hi.pnd c (by simpa using hc)), (by simpa using hi.nodup),
          (fun c h1 h2 => by have := hi.away c h1 h2; simpa using this), hi.waits, hi.run, hi.cls, (fun hx => absurd rfl hx), hi.cqs, hi.sync,
          hi.que, hi.bat, hi.num⟩
      obtain ⟨s', h1, h2, _⟩ := inv_next this
      exact Or.inr ⟨s', h1, h2⟩
  | event c =>
    simp only [step]
    by_cases h0 : s.pc ≠ .loop ∨ (s.conn c).opened = false ∨ (s.conn c).watched = false
    · rw [if_pos h0]; exact Or.inl rfl
    · rw [if_neg h0]
      have hpc : s.pc = .loop := Classical.byContradiction fun hx => h0 (Or.inl hx)
      have ho : (s.conn c).opened = true := by
        cases hx : (s.conn c).opened with
        | true => rfl
        | false => exact absurd (Or.inr (Or.inl hx)) h0
      have hw : (s.conn c).watched = true := by
        cases hx : (s.conn c).watched with
        | true => rfl
        | false => exact absurd (Or.inr (Or.inr hx)) h0
      have hi : Inv0 s none [] false := by have := h; simp only [Inv, hpc] at this; exact this
      have hnb : (s.conn c).blocked ≠ true := fun hb => by have := (hi.blk c hb).1; rw [hw] at this; cases this
      have hw0 : (s.conn c).wait = 0 := by
        apply Classical.byContradiction
        intro hx
        rcases hi.waits c (by omega) with h1 | ⟨ph, h1⟩
        · exact hnb h1
        · cases h1
      refine Or.inr ⟨_, rfl, inv_pc (cur := some (c, .ready)) (rest := []) (w := false) ?_ _⟩
      refine ⟨hi.early, (fun i => by rw [hi.wait i]; rfl), hi.shut, ?_, hi.pnd, hi.nodup, hi.away, ?_, ?_, ?_, hi.kick, hi.cqs, hi.sync, hi.que,
        hi.bat, (by rintro i l (h1 | ⟨m, h1⟩) <;> cases h1)⟩
      · intro i hb
        refine ⟨(hi.blk i hb).1, (hi.blk i hb).2.1, fun ph hp => ?_⟩
        cases hp; exact hnb hb
      · intro i hx
        rcases hi.waits i hx with h1 | ⟨ph, h1⟩
        · exact Or.inl h1
        · cases h1
      · intro i ph hp
        cases hp
        exact ⟨ho, hw, fun _ => rfl, fun _ => hw0, fun hx => by omega⟩
      · intro i h1 h2
        obtain ⟨ph, h3⟩ := hi.cls i h1 h2
        cases h3
  | call m ok =>
    have hcall : ∀ c rest p, s.pc = .run c rest p → (∀ l, p ≠ .enq l) → (s.conn c).closing = false →
        Inv { s with pc := .run c rest (.wrote m (if ok then some s.nxt else none)), nxt := if ok then s.nxt + 1 else s.nxt } := by
      intro c rest p hpc hp hcl
      have hi : Inv0 s (some (c, p)) rest false := by have := h; simp only [Inv, hpc] at this; exact this
      have hle : s.nxt ≤ (if ok then s.nxt + 1 else s.nxt) := by split <;> omega
      have h1 : Inv0 { s with nxt := if ok then s.nxt + 1 else s.nxt } (some (c, p)) rest false :=
        inv_count hi hi.kick hi.cqs (Nat.le_trans hi.sync hle) (fun x hx => Nat.lt_of_lt_of_le (hi.que x hx) hle) hi.bat hle fun _ => rfl
      refine inv_pc (inv_phase (q := .wrote m (if ok then some s.nxt else none)) h1 hp (fun l hx => by cases hx) (Or.inr hcl)
        (fun hx => by cases hx) ?_) _
      intro m' l hx
      cases ok with
      | true => cases hx; exact Nat.lt_succ_self _
      | false => cases hx
    cases hpc : s.pc with
    | loop => simp only [step, hpc]; exact Or.inl trivial
    | woken => simp only [step, hpc]; exact Or.inl trivial
    | run c rest p =>
      cases p with
      | ready =>
        simp only [step, hpc]
        by_cases hc : (s.conn c).closing = true
        · rw [if_pos hc]; exact Or.inl rfl
        · rw [if_neg hc]
          exact Or.inr ⟨_, rfl, hcall c rest .ready hpc (fun l hx => by cases hx) (by simpa using hc)⟩
      | wrote m' l => simp only [step, hpc]; exact Or.inl trivial
      | enq l => simp only [step, hpc]; exact Or.inl trivial
      | called =>
        simp only [step, hpc]
        have hi : Inv0 s (some (c, .called)) rest false := by have := h; simp only [Inv, hpc] at this; exact this
        have hcl : (s.conn c).closing = false := by
          cases hx : (s.conn c).closing with
          | false => rfl
          | true => exact absurd ((hi.run c _ rfl).2.2.1 hx) (by decide)
        exact Or.inr ⟨_, rfl, hcall c rest .called hpc (fun l hx => by cases hx) hcl⟩
  | finish =>
    cases hpc : s.pc with
    | loop => simp only [step, hpc]; exact Or.inl trivial
    | woken => simp only [step, hpc]; exact Or.inl trivial
    | run c rest p =>
      have hi : Inv0 s (some (c, p)) rest false := by have := h; simp only [Inv, hpc] at this; exact this
      cases p with
      | ready => simp only [step, hpc]; exact Or.inl trivial
      | enq l => simp only [step, hpc]; exact Or.inl trivial
      | called => simp only [step, hpc]; exact Or.inl trivial
      | wrote m o =>
        have hcl : (s.conn c).closing = false := by
          cases hx : (s.conn c).closing with
          | false => rfl
          | true => exact absurd ((hi.run c _ rfl).2.2.1 hx) (by intro hy; cases hy)
        have hd : Inv { s with pc := .run c rest .called } :=
          inv_pc (inv_phase (q := .called) hi (fun l hx => by cases hx) (fun l hx => by cases hx) (Or.inr hcl) (fun hx => by cases hx)
            (fun m l hx => by cases hx)) _
        cases o with
        | none => simp only [step, hpc]; exact Or.inr ⟨_, rfl, hd⟩
        | some l =>
          simp only [step, hpc]
          by_cases hx : m.noreply = false ∧ s.synced ≤ l
          · rw [if_pos hx]; exact Or.inr ⟨_, rfl, inv_pc (inv_wait hi) _⟩
          · rw [if_neg hx]; exact Or.inr ⟨_, rfl, hd⟩
  | enqueue =>
    cases hpc : s.pc with
    | loop => simp only [step, hpc]; exact Or.inl trivial
    | woken => simp only [step, hpc]; exact Or.inl trivial
    | run c rest p =>
      have hi : Inv0 s (some (c, p)) rest false := by have := h; simp only [Inv, hpc] at this; exact this
      cases p with
      | ready => simp only [step, hpc]; exact Or.inl trivial
      | wrote m l => simp only [step, hpc]; exact Or.inl trivial
      | called => simp only [step, hpc]; exact Or.inl trivial
      | enq l => simp only [step, hpc]; exact Or.inr ⟨_, rfl, inv_pc (inv_enqueue hi) _⟩
  | check =>
    cases hpc : s.pc with
    | loop => simp only [step, hpc]; exact Or.inl trivial
    | woken => simp only [step, hpc]; exact Or.inl trivial
    | run c rest p =>
      have hi : Inv0 s (some (c, p)) rest false := by have := h; simp only [Inv, hpc] at this; exact this
      cases p with
      | ready => simp only [step, hpc]; exact Or.inl trivial
      | wrote m l => simp only [step, hpc]; exact Or.inl trivial
      | enq l => simp only [step, hpc]; exact Or.inl trivial
      | called =>
        simp only [step, hpc]
        have hr := hi.run c _ rfl
        by_cases hw : 0 < (s.conn c).wait
        · have hwd : (s.conn c).would = true := by
            rcases hr.2.2.2.2 hw with h1 | ⟨l, h1⟩
            · exact h1
            · cases h1
          rw [if_pos hwd]
          simp only [St.block, if_pos hw, if_true]
          obtain ⟨s', h1, h2, _⟩ := inv_next (inv_block hi hw)
          have h1' : St.next (s.set c { s.conn c with would := false, watched := false, blocked := true }) rest = .ok s' := h1
          exact Or.inr ⟨s', h1', h2⟩
        · have hcl : (s.conn c).closing = false := by
            cases hx : (s.conn c).closing with
            | false => rfl
            | true => exact absurd (hr.2.2.1 hx) (by decide)
          by_cases hwd : (s.conn c).would = true
          · rw [if_pos hwd]
            simp only [St.block, if_neg hw, Bool.false_eq_true, if_false]
            have hf := inv_flags hi false false (fun hx => absurd hx hw) (fun hx => by cases hx)
            have e : ({ s.conn c with would := false, closing := false } : Conn) = { s.conn c with would := false } := by rw [← hcl]
            rw [e] at hf
            exact Or.inr ⟨_, rfl, inv_pc (inv_phase (q := .ready) hf (fun l hx => by cases hx) (fun l hx => by cases hx) (Or.inl rfl)
              (fun _ => by rw [set_self]; show (s.conn c).wait = 0; omega) (fun m l hx => by cases hx)) _⟩
          · rw [if_neg hwd]
            exact Or.inr ⟨_, rfl, inv_pc (inv_phase (q := .ready) hi (fun l hx => by cases hx) (fun l hx => by cases hx) (Or.inl rfl)
              (fun _ => by omega) (fun m l hx => by cases hx)) _⟩
  | reply =>
    cases hpc : s.pc with
    | loop => simp only [step, hpc]; exact Or.inl trivial
    | woken => simp only [step, hpc]; exact Or.inl trivial
    | run c rest p =>
      cases p with
      | ready =>
        simp only [step, hpc]
        by_cases hc : (s.conn c).closing = true
        · rw [if_pos hc]; exact Or.inl rfl
        · rw [if_neg hc]; exact Or.inr ⟨_, rfl, h⟩
      | wrote m l => simp only [step, hpc]; exact Or.inl trivial
      | enq l => simp only [step, hpc]; exact Or.inl trivial
      | called => simp only [step, hpc]; exact Or.inl trivial
  | leave =>
    cases hpc : s.pc with
    | loop => simp only [step, hpc]; exact Or.inl trivial
    | woken => simp only [step, hpc]; exact Or.inl trivial
    | run c rest p =>
      have hi : Inv0 s (some (c, p)) rest false := by have := h; simp only [Inv, hpc] at this; exact this
      cases p with
      | ready =>
        simp only [step, hpc]
        by_cases hc : (s.conn c).closing = true
        · rw [if_pos hc]; exact Or.inl rfl
        · rw [if_neg hc]
          obtain ⟨s', h1, h2, _⟩ := inv_next (inv_drop hi (by simpa using hc))
          exact Or.inr ⟨s', h1, h2⟩
      | wrote m l => simp only [step, hpc]; exact Or.inl trivial
      | enq l => simp only [step, hpc]; exact Or.inl trivial
      | called => simp only [step, hpc]; exact Or.inl trivial
  | quit =>
    cases hpc : s.pc with
    | loop => simp only [step, hpc]; exact Or.inl trivial
    | woken => simp only [step, hpc]; exact Or.inl trivial
    | run c rest p =>
      have hi : Inv0 s (some (c, p)) rest false := by have := h; simp only [Inv, hpc] at this; exact this
      cases p with
      | ready =>
        simp only [step, hpc]
        have hf := inv_flags hi (s.conn c).would true (fun hw => by have := (hi.run c _ rfl).2.2.2.1 rfl; omega) (fun _ => rfl)
        refine Or.inr ⟨_, rfl, ?_⟩
        show Inv0 (s.set c { s.conn c with closing := true }) s.pc.cur s.pc.rest s.pc.isWoken
        rw [hpc]; exact hf
      | wrote m l => simp only [step, hpc]; exact Or.inl trivial
      | enq l => simp only [step, hpc]; exact Or.inl trivial
      | called => simp only [step, hpc]; exact Or.inl trivial
  | close =>
    cases hpc : s.pc with
    | loop => simp only [step, hpc]; exact Or.inl trivial
    | woken => simp only [step, hpc]; exact Or.inl trivial
    | run c rest p =>
      have hi : Inv0 s (some (c, p)) rest false := by have := h; simp only [Inv, hpc] at this; exact this
      cases p with
      | ready =>
        simp only [step, hpc]
        by_cases hc : (s.conn c).closing = false
        · rw [if_pos hc]; exact Or.inl rfl
        · rw [if_neg hc]
          obtain ⟨hn, hz⟩ := inv_close hi
          have hn1 : c ∉ s.pend := fun hx => hn (List.mem_append.mpr (Or.inl hx))
          have hn2 : c ∉ rest := fun hx => hn (List.mem_append.mpr (Or.inr hx))
          rw [hasNext_false hn1, hasNext_false hn2, if_neg (by decide), List.erase_of_not_mem hn1]
          obtain ⟨s', h1, h2, _⟩ := inv_next hz
          exact Or.inr ⟨s', h1, h2⟩
      | wrote m l => simp only [step, hpc]; exact Or.inl trivial
      | enq l => simp only [step, hpc]; exact Or.inl trivial
      | called => simp only [step, hpc]; exact Or.inl trivial
  | other =>
    exact Or.inr ⟨_, rfl, inv_count h h.kick h.cqs (by have := h.sync; omega) (fun x hx => by have := h.que x hx; omega) h.bat (by omega) fun _ => rfl⟩
  | otherEnqueue l =>
    simp only [step]
    by_cases hl : l < s.nxt
    · rw [if_pos hl]
      refine Or.inr ⟨_, rfl, inv_count h h.kick h.cqs h.sync ?_ h.bat (Nat.le_refl _) ?_⟩
      · intro x hx
        rcases List.mem_append.mp hx with hx | hx
        · exact h.que x hx
        · rw [List.mem_singleton] at hx; subst hx; exact hl
      · intro c
        simp [cnt, List.count_append, List.count_cons]
    · rw [if_neg hl]; exact Or.inl rfl
  | sync n =>
    simp only [step]
    by_cases hn : s.synced < n ∧ n ≤ s.nxt
    · rw [if_pos hn]
      exact Or.inr ⟨_, rfl, inv_count h h.kick h.cqs hn.2 h.que (fun x hx => by have := h.bat x hx; omega) (Nat.le_refl _) fun _ => rfl⟩
    · rw [if_neg hn]; exact Or.inl rfl
  | collect =>
    simp only [step]
    by_cases h0 : s.batch ≠ [] ∨ (collected s.synced s.queue).1 = []
    · rw [if_pos h0]; exact Or.inl rfl
    · rw [if_neg h0]
      have hb : s.batch = [] := Classical.byContradiction fun hx => h0 (Or.inl hx)
      have h1' : (collected s.synced s.queue).1 ++ (collected s.synced s.queue).2 = s.queue := List.takeWhile_append_dropWhile
      refine Or.inr ⟨_, rfl, inv_count h h.kick h.cqs h.sync ?_ ?_ (Nat.le_refl _) ?_⟩
      · intro x hx
        exact h.que x (by rw [← h1']; exact List.mem_append.mpr (Or.inr hx))
      · intro x hx
        have := mem_takeWhile hx
        simp at this
        exact this
      · intro c
        simp only [cnt, hb, List.map_nil, List.count_nil]
        conv => rhs; rw [← h1', List.map_append, List.count_append]
        omega
  | notify =>
    cases hb : s.batch with
    | nil => simp only [step, hb]; exact Or.inl trivial
    | cons x b =>
      obtain ⟨o, l⟩ := x
      cases o with
      | none =>
        simp only [step, hb]
        refine Or.inr ⟨_, rfl, inv_count h h.kick h.cqs h.sync h.que (fun x hx => h.bat x (by rw [hb]; exact List.mem_cons_of_mem _ hx))
          (Nat.le_refl _) ?_⟩
        intro c
        simp [cnt, hb, List.count_cons]
      | some c =>
        simp only [step, hb]
        obtain ⟨s', h1, h2, h3⟩ := inv_notify h hb
        refine Or.inr ⟨s', h1, ?_⟩
        simp only [Inv, h2]; exact h3

theorem inv_init : Inv init := by
  refine ⟨fun _ => rfl, fun _ => rfl, fun _ _ => rfl, (fun c hb => by cases hb), (fun c hm => by cases hm), List.nodup_nil,
    (fun c ho => by cases ho), (fun c hw => absurd hw (Nat.lt_irrefl 0)), (fun c ph hp => by cases hp), (fun c ho => by cases ho),
    (fun hx => absurd rfl hx), Nat.le_refl _, Nat.le_refl _, (fun x hx => by cases hx), (fun x hx => by cases hx), ?_⟩
  rintro i l (h1 | ⟨m, h1⟩) <;> cases h1

theorem inv_reach {s : St} {d : Debt} (h : Reach s d) : Inv s := by
  induction h with
  | init => exact inv_init
  | @step s s' d a _ hs ih =>
    rcases inv_step ih a with h1 | ⟨s'', h1, h2⟩
    · rw [h1] at hs; cases hs
    · rw [h1] at hs; cases hs; exact h2

end Verif.Wake
