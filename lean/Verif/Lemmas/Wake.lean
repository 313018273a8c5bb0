import Verif.Spec.Wake
/-! # The invariant of waiting connections -/
namespace Verif.Wake
open Verif.Wake.Spec

/-- The waiters of a connection in the list and in the batch. -/
def cnt (s : St) (c : Nat) : Nat := (s.queue.map Prod.fst).count (some c) + (s.batch.map Prod.fst).count (some c)

/-- The waiter that the worker is about to add. -/
def enqOf : Option (Nat × Phase) → Nat → Nat
  | some (c', .enq _), c => if c' = c then 1 else 0
  | _, _ => 0

/-- The connection and phase that the worker is in. -/
def Pc.cur : Pc → Option (Nat × Phase)
  | .run c _ ph => some (c, ph)
  | _ => none

/-- The invariant, for a worker that runs `cur` and has `rest` left. -/
structure Inv0 (s : St) (cur : Option (Nat × Phase)) (rest : List Nat) (w : Bool) : Prop where
  early : ∀ c, (s.conn c).early = 0
  wait : ∀ c, (s.conn c).wait = cnt s c + enqOf cur c
  shut : ∀ c, (s.conn c).opened = false → s.conn c = unused
  blk : ∀ c, (s.conn c).blocked = true → (s.conn c).watched = false ∧ 0 < (s.conn c).wait ∧ ∀ ph, cur ≠ some (c, ph)
  pnd : ∀ c, c ∈ s.pend ++ rest → (s.conn c).opened = true ∧ (s.conn c).watched = false ∧ (s.conn c).blocked = false ∧
    (s.conn c).wait = 0
  nodup : (s.pend ++ rest).Nodup
  away : ∀ c, (s.conn c).opened = true → (s.conn c).watched = false → (s.conn c).blocked = true ∨ c ∈ s.pend ++ rest
  waits : ∀ c, 0 < (s.conn c).wait → (s.conn c).blocked = true ∨ ∃ ph, cur = some (c, ph)
  run : ∀ c ph, cur = some (c, ph) → (s.conn c).opened = true ∧ (s.conn c).watched = true ∧
    ((s.conn c).closing = true → ph = .ready) ∧ (ph = .ready → (s.conn c).wait = 0) ∧
    (0 < (s.conn c).wait → (s.conn c).would = true ∨ ∃ l, ph = .enq l)
  cls : ∀ c, (s.conn c).opened = true → (s.conn c).closing = true → ∃ ph, cur = some (c, ph)
  kick : s.pend ≠ [] → w = true ∨ 0 < s.bytes + s.ioKicks
  cqs : s.cq ≤ s.bytes + s.newKicks
  sync : s.synced ≤ s.nxt
  que : ∀ x ∈ s.queue, x.2 < s.nxt
  bat : ∀ x ∈ s.batch, x.2 < s.synced
  num : ∀ c l, (cur = some (c, .enq l) ∨ ∃ m, cur = some (c, .wrote m (some l))) → l < s.nxt

/-- Whether the worker has read the pipe and not yet taken the list. -/
def Pc.isWoken : Pc → Bool
  | .woken => true
  | _ => false

/-- The invariant. -/
def Inv (s : St) : Prop := Inv0 s s.pc.cur s.pc.rest s.pc.isWoken

theorem inv_pc {s : St} {cur : Option (Nat × Phase)} {rest : List Nat} {w : Bool} (h : Inv0 s cur rest w) (p : Pc) :
    Inv0 { s with pc := p } cur rest w :=
  ⟨h.early, h.wait, h.shut, h.blk, h.pnd, h.nodup, h.away, h.waits, h.run, h.cls, h.kick, h.cqs, h.sync, h.que, h.bat, h.num⟩

@[simp] theorem set_self (s : St) (c : Nat) (k : Conn) : (s.set c k).conn c = k := by simp [St.set]
theorem set_ne (s : St) {c i : Nat} (k : Conn) (h : i ≠ c) : (s.set c k).conn i = s.conn i := by simp [St.set, h]

/-- One turn of the loop over the list keeps the invariant. -/
theorem inv_next {s : St} {rest : List Nat} (h : Inv0 s none rest false) : ∃ s', s.next rest = .ok s' ∧ Inv s' ∧
    s'.pc.cur = (rest.head?).map (fun c => (c, .ready)) ∧ s'.pc.rest = rest.tail ∧ s'.pend = s.pend := by
  cases rest with
  | nil => exact ⟨_, rfl, inv_pc h _, rfl, rfl, rfl⟩
  | cons c rest =>
    have hc := h.pnd c (by simp)
    have hnd : c ∉ s.pend ∧ c ∉ rest := by
      have := h.nodup
      rw [List.nodup_append] at this
      exact ⟨fun hx => this.2.2 c hx c (by simp) rfl, (List.nodup_cons.mp this.2.1).1⟩
    refine ⟨{ s.set c { s.conn c with watched := true } with pc := .run c rest .ready }, ?_, ?_, rfl, rfl, rfl⟩
    · simp only [St.next]; rw [if_pos hc.1]
    · refine inv_pc (s := s.set c { s.conn c with watched := true }) (cur := some (c, .ready)) (rest := rest) (w := false) ?_ _
      refine ⟨?_, ?_, ?_, ?_, ?_, ?_, ?_, ?_, ?_, ?_, ?_, h.cqs, h.sync, h.que, h.bat, ?_⟩
      · intro i
        by_cases hi : i = c
        · subst hi; rw [set_self]; exact h.early i
        · rw [set_ne _ _ hi]; exact h.early i
      · intro i
        by_cases hi : i = c
        · subst hi; rw [set_self]; exact h.wait i
        · rw [set_ne _ _ hi]; exact h.wait i
      · intro i
        by_cases hi : i = c
        · subst hi; rw [set_self]; intro ho; exact absurd hc.1 (by simp only at ho; rw [ho]; decide)
        · rw [set_ne _ _ hi]; exact h.shut i
      · intro i
        by_cases hi : i = c
        · subst hi; rw [set_self]; intro hb; exact absurd hc.2.2.1 (by simp only at hb; rw [hb]; decide)
        · rw [set_ne _ _ hi]; intro hb
          refine ⟨(h.blk i hb).1, (h.blk i hb).2.1, fun ph hp => hi ?_⟩
          cases hp; rfl
      · intro i hm
        have hi : i ≠ c := by
          rintro rfl
          rcases List.mem_append.mp hm with hm | hm
          · exact hnd.1 hm
          · exact hnd.2 hm
        rw [set_ne _ _ hi]
        refine h.pnd i ?_
        rcases List.mem_append.mp hm with hm | hm
        · exact List.mem_append.mpr (Or.inl hm)
        · exact List.mem_append.mpr (Or.inr (List.mem_cons_of_mem _ hm))
      · have := h.nodup
        show (s.pend ++ rest).Nodup
        rw [List.nodup_append] at this ⊢
        exact ⟨this.1, (List.nodup_cons.mp this.2.1).2, fun a ha b hb => this.2.2 a ha b (List.mem_cons_of_mem _ hb)⟩
      · intro i
        by_cases hi : i = c
        · subst hi; rw [set_self]; intro _ hw; exact absurd hw (by simp)
        · rw [set_ne _ _ hi]
          intro h1 h2
          rcases h.away i h1 h2 with h3 | h3
          · exact Or.inl h3
          · right
            show i ∈ s.pend ++ rest
            rcases List.mem_append.mp h3 with h3 | h3
            · exact List.mem_append.mpr (Or.inl h3)
            · rcases List.mem_cons.mp h3 with h3 | h3
              · exact absurd h3 hi
              · exact List.mem_append.mpr (Or.inr h3)
      · intro i
        by_cases hi : i = c
        · subst hi; intro _; exact Or.inr ⟨_, rfl⟩
        · rw [set_ne _ _ hi]; intro hw
          rcases h.waits i hw with h1 | ⟨ph, h1⟩
          · exact Or.inl h1
          · cases h1
      · intro i ph hp
        cases hp
        rw [set_self]
        exact ⟨hc.1, rfl, fun _ => rfl, fun _ => hc.2.2.2, fun hw => by simp only at hw; rw [hc.2.2.2] at hw; omega⟩
      · intro i
        by_cases hi : i = c
        · subst hi; intro _ _; exact ⟨_, rfl⟩
        · rw [set_ne _ _ hi]; intro h1 h2
          obtain ⟨ph, h3⟩ := h.cls i h1 h2
          cases h3
      · intro hp; exact Or.inr ((h.kick hp).resolve_left (by decide))
      · rintro i l (h1 | ⟨m, h1⟩) <;> cases h1

/-- Leaving a connection that waits for nothing keeps the invariant. -/
theorem inv_drop {s : St} {c : Nat} {rest : List Nat} {w : Bool} (h : Inv0 s (some (c, .ready)) rest w) (hc : (s.conn c).closing = false) :
    Inv0 s none rest w := by
  have hr := h.run c .ready rfl
  refine ⟨h.early, fun i => h.wait i, h.shut, fun i hb => ⟨(h.blk i hb).1, (h.blk i hb).2.1, fun ph hp => by cases hp⟩, h.pnd, h.nodup, h.away, ?_,
    (fun i ph hp => by cases hp), ?_, h.kick, h.cqs, h.sync, h.que, h.bat, (by rintro i l (h1 | ⟨m, h1⟩) <;> cases h1)⟩
  · intro i hw
    rcases h.waits i hw with h1 | ⟨ph, h1⟩
    · exact Or.inl h1
    · cases h1; have := hr.2.2.2.1 rfl; omega
  · intro i h1 h2
    obtain ⟨ph, h3⟩ := h.cls i h1 h2
    cases h3; rw [hc] at h2; cases h2

/-- Changing the phase of the connection that runs, where no waiter is about to be added. -/
theorem inv_phase {s : St} {c : Nat} {p q : Phase} {rest : List Nat} {w : Bool} (h : Inv0 s (some (c, p)) rest w)
    (hp : ∀ l, p ≠ .enq l) (hq : ∀ l, q ≠ .enq l) (hcl : q = .ready ∨ (s.conn c).closing = false)
    (h0 : q = .ready → (s.conn c).wait = 0) (hn : ∀ m l, q = .wrote m (some l) → l < s.nxt) : Inv0 s (some (c, q)) rest w := by
  have e0 : ∀ i, enqOf (some (c, p)) i = 0 := by intro i; cases p <;> first | rfl | exact absurd rfl (hp _)
  have e1 : ∀ i, enqOf (some (c, q)) i = 0 := by intro i; cases q <;> first | rfl | exact absurd rfl (hq _)
  have hr := h.run c p rfl
  refine ⟨h.early, fun i => by rw [h.wait i, e0, e1], h.shut, ?_, h.pnd, h.nodup, h.away, ?_, ?_, ?_, h.kick, h.cqs, h.sync, h.que, h.bat, ?_⟩
  · intro i hb
    refine ⟨(h.blk i hb).1, (h.blk i hb).2.1, fun ph hp' => ?_⟩
    cases hp'; exact (h.blk c hb).2.2 p rfl
  · intro i hw
    rcases h.waits i hw with h1 | ⟨ph, h1⟩
    · exact Or.inl h1
    · cases h1; exact Or.inr ⟨_, rfl⟩
  · intro i ph hp'
    cases hp'
    refine ⟨hr.1, hr.2.1, fun hcc => hcl.resolve_right (by rw [hcc]; decide), h0, fun hw => Or.inl ?_⟩
    rcases hr.2.2.2.2 hw with h1 | ⟨l, h1⟩
    · exact h1
    · exact absurd h1 (hp l)
  · intro i h1 h2
    obtain ⟨ph, h3⟩ := h.cls i h1 h2
    cases h3; exact ⟨_, rfl⟩
  · rintro i l (h1 | ⟨m, h1⟩)
    · cases h1; exact absurd rfl (hq l)
    · cases h1; exact hn _ _ rfl

/-- Closing the connection that runs. -/
theorem inv_close {s : St} {c : Nat} {rest : List Nat} {w : Bool} (h : Inv0 s (some (c, .ready)) rest w) :
    c ∉ s.pend ++ rest ∧ Inv0 (s.set c unused) none rest w := by
  have hr := h.run c .ready rfl
  have hn : c ∉ s.pend ++ rest := fun hm => by
    have := (h.pnd c hm).2.1
    rw [hr.2.1] at this; cases this
  refine ⟨hn, ?_⟩
  refine ⟨?_, ?_, ?_, ?_, ?_, h.nodup, ?_, ?_, (fun i ph hp => by cases hp), ?_, h.kick, h.cqs, h.sync, h.que, h.bat, (by rintro i l (h1 | ⟨m, h1⟩) <;> cases h1)⟩
  · intro i
    by_cases hi : i = c
    · subst hi; rw [set_self]; rfl
    · rw [set_ne _ _ hi]; exact h.early i
  · intro i
    by_cases hi : i = c
    · subst hi; rw [set_self]
      have h1 := h.wait i
      have h2 := hr.2.2.2.1 rfl
      rw [h2] at h1; exact h1
    · rw [set_ne _ _ hi]; exact h.wait i
  · intro i
    by_cases hi : i = c
    · subst hi; rw [set_self]; intro _; rfl
    · rw [set_ne _ _ hi]; exact h.shut i
  · intro i
    by_cases hi : i = c
    · subst hi; rw [set_self]; intro hb; cases hb
    · rw [set_ne _ _ hi]; exact fun hb => ⟨(h.blk i hb).1, (h.blk i hb).2.1, fun ph hp => by cases hp⟩
  · intro i hm
    have hi : i ≠ c := by rintro rfl; exact hn hm
    rw [set_ne _ _ hi]
    exact h.pnd i hm
  · intro i
    by_cases hi : i = c
    · subst hi; rw [set_self]; intro ho; cases ho
    · rw [set_ne _ _ hi]; exact h.away i
  · intro i
    by_cases hi : i = c
    · subst hi; rw [set_self]; intro hw; exact absurd hw (by decide)
    · rw [set_ne _ _ hi]; intro hw
      rcases h.waits i hw with h1 | ⟨ph, h1⟩
      · exact Or.inl h1
      · cases h1; exact absurd rfl hi
  · intro i
    by_cases hi : i = c
    · subst hi; rw [set_self]; intro ho; cases ho
    · rw [set_ne _ _ hi]; intro h1 h2
      obtain ⟨ph, h3⟩ := h.cls i h1 h2
      cases h3; exact absurd rfl hi

/-- Blocking the connection that runs and has waiters. -/
theorem inv_block {s : St} {c : Nat} {rest : List Nat} {w : Bool} (h : Inv0 s (some (c, .called)) rest w) (hw : 0 < (s.conn c).wait) :
    Inv0 (s.set c { s.conn c with would := false, watched := false, blocked := true }) none rest w := by
  have hr := h.run c .called rfl
  have hn : c ∉ s.pend ++ rest := fun hm => by
    have := (h.pnd c hm).2.1
    rw [hr.2.1] at this; cases this
  refine ⟨?_, ?_, ?_, ?_, ?_, h.nodup, ?_, ?_, (fun i ph hp => by cases hp), ?_, h.kick, h.cqs, h.sync, h.que, h.bat, (by rintro i l (h1 | ⟨m, h1⟩) <;> cases h1)⟩
  · intro i
    by_cases hi : i = c
    · subst hi; rw [set_self]; exact h.early i
    · rw [set_ne _ _ hi]; exact h.early i
  · intro i
    by_cases hi : i = c
    · subst hi; rw [set_self]; exact h.wait i
    · rw [set_ne _ _ hi]; exact h.wait i
  · intro i
    by_cases hi : i = c
    · subst hi; rw [set_self]; intro ho; simp only at ho; rw [hr.1] at ho; cases ho
    · rw [set_ne _ _ hi]; exact h.shut i
  · intro i
    by_cases hi : i = c
    · subst hi; rw [set_self]; intro _; exact ⟨rfl, hw, fun ph hp => by cases hp⟩
    · rw [set_ne _ _ hi]; exact fun hb => ⟨(h.blk i hb).1, (h.blk i hb).2.1, fun ph hp => by cases hp⟩
  · intro i hm
    have hi : i ≠ c := by rintro rfl; exact hn hm
    rw [set_ne _ _ hi]
    exact h.pnd i hm
  · intro i
    by_cases hi : i = c
    · subst hi; rw [set_self]; intro _ _; exact Or.inl rfl
    · rw [set_ne _ _ hi]; exact h.away i
  · intro i
    by_cases hi : i = c
    · subst hi; rw [set_self]; intro _; exact Or.inl rfl
    · rw [set_ne _ _ hi]; intro hw
      rcases h.waits i hw with h1 | ⟨ph, h1⟩
      · exact Or.inl h1
      · cases h1; exact absurd rfl hi
  · intro i
    by_cases hi : i = c
    · subst hi; rw [set_self]; intro _ h2
      exact absurd (hr.2.2.1 h2) (by decide)
    · rw [set_ne _ _ hi]; intro h1 h2
      obtain ⟨ph, h3⟩ := h.cls i h1 h2
      cases h3; exact absurd rfl hi

/-- Changing `ewouldblock` or the state of the connection that runs. -/
theorem inv_flags {s : St} {c : Nat} {p : Phase} {rest : List Nat} {w : Bool} (h : Inv0 s (some (c, p)) rest w) (v cl : Bool)
    (h1 : 0 < (s.conn c).wait → v = true ∨ ∃ l, p = .enq l) (h2 : cl = true → p = .ready) :
    Inv0 (s.set c { s.conn c with would := v, closing := cl }) (some (c, p)) rest w := by
  have hr := h.run c p rfl
  have hn : c ∉ s.pend ++ rest := fun hm => by
    have := (h.pnd c hm).2.1
    rw [hr.2.1] at this; cases this
  refine ⟨?_, ?_, ?_, ?_, ?_, h.nodup, ?_, ?_, ?_, ?_, h.kick, h.cqs, h.sync, h.que, h.bat, h.num⟩
  · intro i
    by_cases hi : i = c
    · subst hi; rw [set_self]; exact h.early i
    · rw [set_ne _ _ hi]; exact h.early i
  · intro i
    by_cases hi : i = c
    · subst hi; rw [set_self]; exact h.wait i
    · rw [set_ne _ _ hi]; exact h.wait i
  · intro i
    by_cases hi : i = c
    · subst hi; rw [set_self]; intro ho; simp only at ho; rw [hr.1] at ho; cases ho
    · rw [set_ne _ _ hi]; exact h.shut i
  · intro i
    by_cases hi : i = c
    · subst hi; rw [set_self]; exact h.blk i
    · rw [set_ne _ _ hi]; exact h.blk i
  · intro i hm
    have hi : i ≠ c := by rintro rfl; exact hn hm
    rw [set_ne _ _ hi]
    exact h.pnd i hm
  · intro i
    by_cases hi : i = c
    · subst hi; rw [set_self]; exact h.away i
    · rw [set_ne _ _ hi]; exact h.away i
  · intro i
    by_cases hi : i = c
    · subst hi; rw [set_self]; exact h.waits i
    · rw [set_ne _ _ hi]; exact h.waits i
  · intro i ph hp
    cases hp
    rw [set_self]
    exact ⟨hr.1, hr.2.1, h2, hr.2.2.2.1, h1⟩
  · intro i
    by_cases hi : i = c
    · subst hi; rw [set_self]; exact fun _ _ => ⟨_, rfl⟩
    · rw [set_ne _ _ hi]; exact h.cls i

end Verif.Wake
