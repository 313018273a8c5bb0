import Verif.Lemmas.CmdLogRun

namespace Verif.CmdLog.Lemmas

open Verif.CmdLog Spec

set_option maxRecDepth 20000

/-- While the logging is on, the flush thread goes by whole pieces. -/
structure Al (s : St) : Prop where
  head : s.inUse = true → s.head % 4096 = 0
  piece : s.inUse = true → ∀ n, s.pc = .wrote n false → n = 4096
  off : s.inUse = true → ∀ c, s.pc ≠ .off c

theorem al_init : Al init := ⟨(fun h => by cases h), (fun h => by cases h), (fun h => by cases h)⟩

theorem write_head {s s' : St} {line : Bytes} (h : write s line = .ok s') : s'.head = s.head ∧ s'.pc = s.pc ∧ s'.inUse = s.inUse := by
  unfold write at h
  revert h
  simp only []
  by_cases hw : s.head ≤ s.tail ∧ bufSize - s.tail ≤ line.length
  · simp only [if_pos hw]
    repeat' split
    all_goals first
      | (intro h; cases h; exact ⟨rfl, rfl, rfl⟩)
      | (intro h; cases h)
  · simp only [if_neg hw]
    repeat' split
    all_goals first
      | (intro h; cases h; exact ⟨rfl, rfl, rfl⟩)
      | (intro h; cases h)

theorem step_al {s s' : St} {e : Ev} (h : Al s) (hs : step s e = .ok s') : Al s' := by
  cases e with
  | write t =>
    simp only [step] at hs
    split at hs
    · obtain ⟨a, b, c⟩ := write_head hs
      exact ⟨fun hx => by rw [a]; exact h.head (by rw [← c]; exact hx), fun hx n => by rw [b]; exact h.piece (by rw [← c]; exact hx) n,
        fun hx n => by rw [b]; exact h.off (by rw [← c]; exact hx) n⟩
    · cases hs; exact h
  | start =>
    simp only [step, Res.ok.injEq] at hs
    subst hs
    unfold start
    split
    · split
      · exact h
      · exact ⟨fun _ => rfl, (fun _ n hx => by cases hx), (fun _ n hx => by cases hx)⟩
    · exact h
  | stop =>
    simp only [step, Res.ok.injEq] at hs
    subst hs
    exact ⟨(fun hx => by cases hx), (fun hx => by cases hx), (fun hx => by cases hx)⟩
  | final =>
    simp only [step, Res.ok.injEq] at hs
    subst hs
    exact ⟨h.head, h.piece, h.off⟩
  | flush k =>
    simp only [step] at hs
    unfold flush at hs
    cases hp : s.pc with
    | off c => rw [hp] at hs; simp only [Res.ok.injEq] at hs; subst hs; exact h
    | top =>
      rw [hp] at hs
      simp only at hs
      split at hs
      · cases hs; exact ⟨(fun hx => by cases hx), (fun hx => by cases hx), (fun hx => by cases hx)⟩
      · split at hs
        · split at hs
          · cases hs; exact ⟨(fun hx => by cases hx), (fun hx => by cases hx), (fun hx => by cases hx)⟩
          · cases hs; exact ⟨h.head, (fun _ n hx => by cases hx), (fun _ n hx => by cases hx)⟩
        · cases hs; exact ⟨h.head, (fun _ n hx => by cases hx), (fun _ n hx => by cases hx)⟩
    | snap t l =>
      rw [hp] at hs
      simp only at hs
      split at hs
      · split at hs
        · cases hs
        · split at hs
          · cases hs; exact ⟨h.head, (fun _ n hx => by cases hx), (fun _ n hx => by cases hx)⟩
          · next hc =>
            split at hs
            · cases hs; exact ⟨(fun hx => by cases hx), (fun hx => by cases hx), (fun hx => by cases hx)⟩
            · unfold CmdLog.piece at hs
              split at hs
              · cases hs
              · split at hs
                · cases hs; exact ⟨(fun hx => by cases hx), (fun hx => by cases hx), (fun hx => by cases hx)⟩
                · cases hs
                  refine ⟨h.head, ?_, (fun _ n hx => by cases hx)⟩
                  intro hx n hn
                  have hx' : s.inUse = true := hx
                  have hn' : Pc.wrote (min (t - s.head) writeSize) false = .wrote n false := hn
                  injection hn' with h1
                  have : ¬ t - s.head < writeSize := fun hy => hc ⟨hx', hy⟩
                  simp only [writeSize] at this h1; omega
      · split at hs
        · cases hs
        · split at hs
          · cases hs; exact ⟨h.head, (fun _ n hx => by cases hx), (fun _ n hx => by cases hx)⟩
          · unfold CmdLog.piece at hs
            split at hs
            · cases hs
            · split at hs
              · cases hs; exact ⟨(fun hx => by cases hx), (fun hx => by cases hx), (fun hx => by cases hx)⟩
              · cases hs
                exact ⟨h.head, (fun _ n hx => by cases hx), (fun _ n hx => by cases hx)⟩
    | wrote n w =>
      rw [hp] at hs
      simp only at hs
      have key : ∃ s1 : St, (if w = true then { s with pc := .wrote n w, head := 0, last := 0, nw := s.nw + n } else { s with pc := .wrote n w, head := s.head + n, nw := s.nw + n }) = s1 ∧
          (s1.inUse = true → s1.head % 4096 = 0) := by
        cases w with
        | true => exact ⟨_, rfl, fun _ => rfl⟩
        | false =>
          refine ⟨_, rfl, fun hx => ?_⟩
          have hx' : s.inUse = true := hx
          have e1 := h.piece hx' n hp
          have e2 := h.head hx'
          show (s.head + n) % 4096 = 0
          omega
      obtain ⟨s1, e1, hal⟩ := key
      rw [e1] at hs
      split at hs
      · split at hs
        · cases hs; exact ⟨(fun hx => by cases hx), (fun hx => by cases hx), (fun hx => by cases hx)⟩
        · cases hs; exact ⟨hal, (fun _ n hx => by cases hx), (fun _ n hx => by cases hx)⟩
      · cases hs; exact ⟨hal, (fun _ n hx => by cases hx), (fun _ n hx => by cases hx)⟩

theorem run_al {es : List Ev} : ∀ {s s' : St}, Al s → run s es = .ok s' → Al s' := by
  induction es with
  | nil => intro s s' h hr; cases hr; exact h
  | cons e es ih =>
    intro s s' h hr
    simp only [run] at hr
    split at hr
    · cases hr
    · next s1 he => exact ih (step_al h he) hr

/-- The logging has been stopped and no line has come since. -/
def Quiet (s : St) : Prop := s.inUse = false ∧ match s.pc with
  | .top => s.tail < s.head → s.head < s.last
  | .snap t l => t = s.tail ∧ l = s.last ∧ (s.tail < s.head → s.head < s.last)
  | .wrote n w => w = false → s.tail < s.head → s.head + n < s.last
  | .off _ => True

theorem quiet_stop {s : St} (hi : Inv s) (ha : Al s) (hu : s.inUse = true) (hp : ∀ t l, s.pc ≠ .snap t l) : Quiet { s with inUse := false } := by
  refine ⟨rfl, ?_⟩
  obtain ⟨hs, _, k, _, _, _, hn⟩ := hi
  have h0 := ha.head hu
  show (match s.pc with
    | .top => s.tail < s.head → s.head < s.last
    | .snap t l => t = s.tail ∧ l = s.last ∧ (s.tail < s.head → s.head < s.last)
    | .wrote n w => w = false → s.tail < s.head → s.head + n < s.last
    | .off _ => True)
  cases hq : s.pc with
  | off c => trivial
  | top =>
    intro hx
    rcases hs with hs | hs
    · omega
    · simp only [bufSize] at hs; omega
  | snap t l => exact absurd hq (hp t l)
  | wrote n w =>
    intro hw hx
    subst hw
    have e := ha.piece hu n hq
    rw [hq] at hn
    obtain ⟨_, _, hn⟩ := hn
    simp only [Bool.false_eq_true, if_false] at hn
    have := hn.2.2 hx
    rcases hs with hs | hs
    · omega
    · simp only [bufSize] at hs; omega

/-- How many steps the flush thread has to go. -/
def toGo (s : St) : Nat := match s.pc with
  | .off _ => 0
  | .top => 4 * (pend s).length + (if s.fd then 3 else 4)
  | .snap _ _ => 4 * (pend s).length + 2
  | .wrote n _ => 4 * ((pend s).length - n) + 5

theorem toGo_le {s : St} (hi : Inv s) : toGo s ≤ 4 * bufSize + 5 := by
  have := pend_len_lt hi.shape
  unfold toGo
  split
  · omega
  · split <;> omega
  · omega
  · omega

theorem pend_len {s : St} : (pend s).length = if s.head ≤ s.tail then s.tail - s.head else (s.last - s.head) + s.tail := by
  unfold pend
  split
  · exact get_len _ _ _
  · rw [List.length_append, get_len, get_len]; omega

theorem step_quiet {s : St} {k : Nat} (hi : Inv s) (hq : Quiet s) (h0 : ∀ c, s.pc ≠ .off c) :
    ∃ s', flush s k = .ok s' ∧ Quiet s' ∧ toGo s' < toGo s := by
  obtain ⟨hu, hq⟩ := hq
  have hi' := hi
  obtain ⟨hs, _, k', hk, _, _, hn⟩ := hi'
  unfold flush
  cases hp : s.pc with
  | off c => exact absurd hp (h0 c)
  | top =>
    rw [hp] at hq
    have hT : toGo s = 4 * (pend s).length + (if s.fd then 3 else 4) := by unfold toGo; rw [hp]
    simp only []
    by_cases hr : s.reqstop = true
    · simp only [if_pos hr]
      exact ⟨_, rfl, ⟨rfl, trivial⟩, by rw [hT]; simp only [toGo, exit]; split <;> omega⟩
    · simp only [if_neg hr]
      by_cases hf : s.fd = false
      · simp only [if_pos hf]
        by_cases hk : k = 0
        · simp only [if_pos hk]
          exact ⟨_, rfl, ⟨rfl, trivial⟩, by rw [hT]; simp only [toGo, exit]; split <;> omega⟩
        · simp only [if_neg hk]
          refine ⟨_, rfl, ⟨hu, hq⟩, ?_⟩
          rw [hT, hf]
          show 4 * (pend s).length + 3 < _
          simp
      · simp only [if_neg hf]
        refine ⟨_, rfl, ⟨hu, rfl, rfl, hq⟩, ?_⟩
        have hf' : s.fd = true := by cases hx : s.fd; exact absurd hx hf; rfl
        rw [hT, hf']
        show 4 * (pend s).length + 2 < _
        simp
  | snap t l =>
    rw [hp] at hq
    have hT : toGo s = 4 * (pend s).length + 2 := by unfold toGo; rw [hp]
    obtain ⟨rfl, rfl, hq⟩ := hq
    have hpl := @pend_len s
    simp only []
    by_cases h1 : s.head ≤ s.tail
    · have hl : ¬ s.last ≠ 0 := by rcases hs with hs | hs; simp [hs.2.1]; omega
      have c1 : ¬ (s.inUse = true ∧ s.tail - s.head < writeSize) := by rw [hu]; exact fun hx => Bool.noConfusion hx.1
      simp only [if_pos h1, if_neg hl, if_neg c1]
      rw [if_pos h1] at hpl
      by_cases c2 : s.head = s.tail
      · have c2' : s.inUse = false ∧ s.head = s.tail := ⟨hu, c2⟩
        simp only [if_pos c2']
        exact ⟨_, rfl, ⟨rfl, trivial⟩, by rw [hT]; simp only [toGo, exit]; omega⟩
      · have c2' : ¬ (s.inUse = false ∧ s.head = s.tail) := fun hx => c2 hx.2
        simp only [if_neg c2']
        have c3 : ¬ bufSize < s.head + min (s.tail - s.head) writeSize := by rcases hs with hs | hs <;> omega
        simp only [CmdLog.piece, if_neg c3]
        by_cases c4 : k < min (s.tail - s.head) writeSize
        · simp only [if_pos c4]
          exact ⟨_, rfl, ⟨rfl, trivial⟩, by rw [hT]; simp only [toGo, exit]; omega⟩
        · simp only [if_neg c4]
          refine ⟨_, rfl, ⟨hu, fun _ hx => ?_⟩, ?_⟩
          · have hx' : s.tail < s.head := hx; omega
          · show 4 * ((pend s).length - min (s.tail - s.head) writeSize) + 5 < _
            rw [hT]; simp only [writeSize]; omega
    · have hlt := hq (by omega)
      have hl : ¬ s.last = 0 := by omega
      have c1 : ¬ s.last - s.head = 0 := by omega
      simp only [if_neg h1, if_neg hl, if_neg c1]
      rw [if_neg h1] at hpl
      have c3 : ¬ bufSize < s.head + (s.last - s.head) := by rcases hs with hs | hs <;> omega
      simp only [CmdLog.piece, if_neg c3]
      by_cases c4 : k < s.last - s.head
      · simp only [if_pos c4]
        exact ⟨_, rfl, ⟨rfl, trivial⟩, by rw [hT]; simp only [toGo, exit]; omega⟩
      · simp only [if_neg c4]
        refine ⟨_, rfl, ⟨hu, (fun hx => by cases hx)⟩, ?_⟩
        show 4 * ((pend s).length - (s.last - s.head)) + 5 < _
        rw [hT]; omega
  | wrote n w =>
    rw [hp] at hq hn
    have hT : toGo s = 4 * ((pend s).length - n) + 5 := by unfold toGo; rw [hp]
    obtain ⟨rfl, hn0, hn⟩ := hn
    have key : ∃ s1 : St, (if w = true then { s with pc := .wrote k' w, head := 0, last := 0, nw := s.nw + k' } else { s with pc := .wrote k' w, head := s.head + k', nw := s.nw + k' }) = s1 ∧
        s1.inUse = false ∧ (s1.tail < s1.head → s1.head < s1.last) ∧ (pend s1).length = (pend s).length - k' := by
      cases w with
      | true =>
        simp only [if_true] at hn ⊢
        refine ⟨_, rfl, hu, fun hx => ?_, ?_⟩
        · have hx' : s.tail < 0 := hx; omega
        · have e1 := @pend_len { s with pc := .wrote k' true, head := 0, last := 0, nw := s.nw + k' }
          have e2 := @pend_len s
          have e3 : ¬ s.head ≤ s.tail := by omega
          simp only [Nat.zero_le, if_true] at e1
          rw [if_neg e3] at e2
          rw [e1, e2]; omega
      | false =>
        simp only [Bool.false_eq_true, if_false] at hn ⊢
        refine ⟨_, rfl, hu, fun hx => ?_, ?_⟩
        · have hx' : s.tail < s.head + k' := hx
          show s.head + k' < s.last
          by_cases hy : s.head ≤ s.tail
          · have := hn.2.1 hy; omega
          · exact hq rfl (by omega)
        · have := pend_drop k' hn.2.1 hn.2.2
          have e : pend { s with pc := .wrote k' false, head := s.head + k', nw := s.nw + k' } = (pend s).drop k' := this.symm
          rw [e, List.length_drop]
    obtain ⟨s1, e1, hu1, hq1, hl1⟩ := key
    simp only [e1]
    by_cases c1 : fileMax ≤ s1.nw
    · simp only [if_pos c1]
      by_cases c2 : fileNum ≤ s1.files.length
      · simp only [if_pos c2]
        exact ⟨_, rfl, ⟨rfl, trivial⟩, by rw [hT]; simp only [toGo, exit]; omega⟩
      · simp only [if_neg c2]
        refine ⟨_, rfl, ⟨hu1, hq1⟩, ?_⟩
        show 4 * (pend s1).length + 4 < _
        rw [hT, hl1]; omega
    · simp only [if_neg c1]
      refine ⟨_, rfl, ⟨hu1, hq1⟩, ?_⟩
      show 4 * (pend s1).length + (if s1.fd then 3 else 4) < _
      rw [hT, hl1]; split <;> omega

theorem flush_off {s : St} {c k : Nat} (h : s.pc = .off c) : flush s k = .ok s := by unfold flush; rw [h]

theorem run_quiet (ks : List Nat) : ∀ {s : St}, Inv s → Quiet s → toGo s ≤ ks.length → ∃ s' c, run s (ks.map .flush) = .ok s' ∧ s'.pc = .off c := by
  induction ks with
  | nil =>
    intro s hi hq hl
    refine ⟨s, ?_⟩
    have hl' : toGo s = 0 := by simpa using hl
    unfold toGo at hl'
    cases hp : s.pc with
    | off c => exact ⟨c, rfl, rfl⟩
    | top => rw [hp] at hl'; simp only at hl'; split at hl' <;> omega
    | snap t l => rw [hp] at hl'; simp only at hl'; omega
    | wrote n w => rw [hp] at hl'; simp only at hl'; omega
  | cons k ks ih =>
    intro s hi hq hl
    simp only [List.map_cons, run, step]
    by_cases h0 : ∀ c, s.pc ≠ .off c
    · obtain ⟨s1, e1, q1, g1⟩ := @step_quiet s k hi hq h0
      rw [e1]
      simp only []
      exact ih (step_inv (e := .flush k) hi e1) q1 (by simp only [List.length_cons] at hl; omega)
    · have : ∃ c, s.pc = .off c := by
        cases hp : s.pc with
        | off c => exact ⟨c, rfl⟩
        | top => exact absurd (fun c hx => by rw [hp] at hx; cases hx) h0
        | snap t l => exact absurd (fun c hx => by rw [hp] at hx; cases hx) h0
        | wrote n w => exact absurd (fun c hx => by rw [hp] at hx; cases hx) h0
      obtain ⟨c, hc⟩ := this
      rw [flush_off hc]
      exact ih hi hq (by unfold toGo; rw [hc]; exact Nat.zero_le _)

end Verif.CmdLog.Lemmas
