import Verif.Lemmas.LruStep
/-! What stays: items, their times, and the sums. -/
namespace Verif.Lru
open Spec

variable {M : Type} {cfg : Cfg} {sl : Slabs M} {op : Op} {out : Out}

theorem fresh_iff (s : St M) (it : It) : Fresh s it ↔ valid s it = true := by
  unfold Fresh valid
  simp only [Bool.and_eq_true, Bool.not_eq_true', Bool.and_eq_false_imp, bne_iff_ne, decide_eq_false_iff_not, Nat.not_le]
  have h1 : ∀ a n : Nat, (a = 0 ∨ n < a) ↔ (a ≠ 0 → n < a) := by omega
  have h2 : ∀ a n t : Nat, (a = 0 ∨ n < a ∨ a < t) ↔ (a ≠ 0 ∧ a ≤ n → a < t) := by omega
  rw [h1, h2, h2]
  simp only [ne_eq, decide_eq_true_eq, and_assoc]

theorem find_stored {s : St M} (h : Inv s) {k i it} (hi : s.heap i = some it) (hl : it.linked = true) (hk : it.key = k) : find s k = some i := by
  cases hf : find s k with
  | none => exact absurd hk (find_none h.wf hf i it hi hl)
  | some j =>
    obtain ⟨h1, jt, h2, h3⟩ := find_some hf
    obtain ⟨x, x1, x2⟩ := (h.wf.t_mem j).1 h1
    rw [h2] at x1
    injection x1 with x1
    subst x1
    rw [h.wf.keys j i jt it h2 hi x2 hl (h3.trans hk.symm)]

theorem stored_iff {s : St M} (h : Inv s) {k i} : Stored s k i ↔ ∃ it, s.heap i = some it ∧ it.linked = true ∧ it.key = k ∧ valid s it = true := by
  constructor
  · rintro ⟨hm, it, hi, hk, hf⟩
    obtain ⟨x, x1, x2⟩ := (h.wf.t_mem i).1 hm
    rw [hi] at x1
    injection x1 with x1
    subst x1
    exact ⟨it, hi, x2, hk, (fresh_iff s it).1 hf⟩
  · rintro ⟨it, hi, hl, hk, hv⟩
    exact ⟨(h.wf.t_mem i).2 ⟨it, hi, hl⟩, it, hi, hk, (fresh_iff s it).2 hv⟩

/-! ### The search for memory -/

theorem offQ_heap_same {s : St M} {it i j} (hi : s.heap i = some it) {jt} (hj : s.heap j = some jt) : ∃ b, (offQ s it i).heap j = some { jt with inQ := b } := by
  rw [offQ_heap hi]
  by_cases h : j = i
  · subst h
    rw [hi] at hj
    injection hj with hj
    subst hj
    exact ⟨false, upd_same _ _ _⟩
  · rw [upd_other h]
    exact ⟨jt.inQ, hj⟩

/-- The counters of lost items. -/
def losses (s : St M) : Nat := s.stats.evictions + s.stats.repairs

theorem Act.env {s t : St M} (a : Act cfg s t) : t.now = s.now ∧ t.oldest = s.oldest ∧ t.pmark = s.pmark ∧ t.next = s.next ∧ losses s ≤ losses t := by
  cases a with
  | evict m _ _ _ _ _ _ hu =>
    refine ⟨gone_now .., gone_oldest .., gone_pmark .., offQ_next .., ?_⟩
    simp only [losses, gone, hu.1, hu.2]; omega
  | dead m _ _ _ _ _ hu =>
    refine ⟨gone_now .., gone_oldest .., gone_pmark .., offQ_next .., ?_⟩
    simp only [losses, gone, hu.1, hu.2]; omega
  | repair m _ _ _ _ _ _ hu =>
    refine ⟨gone_now .., gone_oldest .., gone_pmark .., offQ_next .., ?_⟩
    simp only [losses, gone, hu.1, hu.2]; omega
  | drop => exact ⟨offQ_now .., offQ_oldest .., offQ_pmark .., offQ_next .., by simp only [losses, offQ_stats]; omega⟩
  | marks => exact ⟨rfl, rfl, rfl, rfl, Nat.le_refl _⟩
  | other st m _ hu => exact ⟨rfl, rfl, rfl, rfl, by simp only [losses, hu.1, hu.2]; omega⟩

theorem valid_env {s t : St M} (h : t.now = s.now ∧ t.oldest = s.oldest ∧ t.pmark = s.pmark) (it : It) : valid t it = valid s it := by
  unfold valid
  rw [h.1, h.2.1, h.2.2]

/-- An item stays as it is, or is lost. -/
theorem Act.item {s t : St M} (a : Act cfg s t) (h : Inv s) {i it} (hi : s.heap i = some it) (hl : it.linked = true) (hv : valid s it = true) :
    (∃ b, t.heap i = some { it with inQ := b }) ∨
    (t.heap i = none ∧ cfg.evict = true ∧ it.exp ≠ sticky ∧ (it.refs = 0 ∨ it.time + 10800 < s.now) ∧ losses s < losses t) := by
  have hq : ∀ {j : Id} {jt : It} {c : Nat}, s.heap j = some jt → j ∈ s.q (c, false) → jt.exp ≠ sticky := by
    intro j jt c hj hm
    have := (h.wf.qOf hj hm).2.2
    unfold qid at this
    injection this with _ h2
    intro e
    rw [e] at h2
    simp at h2
  have other : ∀ {j jt o st m}, i ≠ j → ∃ b, (gone s jt j o st m).heap i = some { it with inQ := b } := by
    intro j jt o st m hne
    refine ⟨it.inQ, ?_⟩
    simp only [gone]
    rw [upd_other hne]
    exact hi
  cases a with
  | @evict j jt c st m hj hm hr hv2 he _ hu =>
    by_cases hne : i = j
    · subst hne
      rw [hi] at hj
      injection hj with hj
      subst hj
      refine .inr ⟨upd_same _ _ _, he, hq hi (List.mem_of_getLast? hm), .inl hr, ?_⟩
      simp only [losses, gone, hu.1, hu.2]; omega
    · exact .inl (other hne)
  | @dead j jt st m hj _ _ hv2 _ hu =>
    by_cases hne : i = j
    · subst hne
      rw [hi] at hj
      injection hj with hj
      subst hj
      rw [hv] at hv2
      cases hv2
    · exact .inl (other hne)
  | @repair j jt c st m hj hm hr ht he _ hu =>
    by_cases hne : i = j
    · subst hne
      rw [hi] at hj
      injection hj with hj
      subst hj
      refine .inr ⟨upd_same _ _ _, he, hq hi hm, .inr ht, ?_⟩
      simp only [losses, gone, hu.1, hu.2]; omega
    · exact .inl (other hne)
  | drop hj hm hr => exact .inl (offQ_heap_same hj hi)
  | marks => exact .inl ⟨it.inQ, hi⟩
  | other => exact .inl ⟨it.inQ, hi⟩

theorem Act.back {s t : St M} (a : Act cfg s t) {i it} (hi : t.heap i = some it) : ∃ b, s.heap i = some { it with inQ := b } := by
  have other : ∀ {j jt st m}, (gone s jt j none st m).heap i = some it → ∃ b, s.heap i = some { it with inQ := b } := by
    intro j jt st m h
    simp only [gone] at h
    by_cases hne : i = j
    · subst hne
      rw [upd_same] at h
      cases h
    · rw [upd_other hne] at h
      exact ⟨it.inQ, h⟩
  cases a with
  | evict => exact other hi
  | dead => exact other hi
  | repair => exact other hi
  | @drop j jt c hj hm hr =>
    rw [offQ_heap hj] at hi
    by_cases hne : i = j
    · subst hne
      rw [upd_same] at hi
      injection hi with hi
      subst hi
      exact ⟨jt.inQ, hj⟩
    · rw [upd_other hne] at hi
      exact ⟨it.inQ, hi⟩
  | marks => exact ⟨it.inQ, hi⟩
  | other => exact ⟨it.inQ, hi⟩

theorem Acts.env {s t : St M} (a : Acts cfg s t) : t.now = s.now ∧ t.oldest = s.oldest ∧ t.pmark = s.pmark ∧ t.next = s.next ∧ losses s ≤ losses t := by
  induction a with
  | refl => exact ⟨rfl, rfl, rfl, rfl, Nat.le_refl _⟩
  | step a _ ih =>
    have e := a.env
    exact ⟨ih.1.trans e.1, ih.2.1.trans e.2.1, ih.2.2.1.trans e.2.2.1, ih.2.2.2.1.trans e.2.2.2.1, Nat.le_trans e.2.2.2.2 ih.2.2.2.2⟩

theorem Act.gone_ {s t : St M} (a : Act cfg s t) {i} (hi : s.heap i = none) : t.heap i = none := by
  cases ht : t.heap i with
  | none => rfl
  | some it =>
    obtain ⟨b, e⟩ := a.back ht
    rw [hi] at e
    cases e

theorem Acts.gone_ {s t : St M} (a : Acts cfg s t) {i} (hi : s.heap i = none) : t.heap i = none := by
  induction a with
  | refl => exact hi
  | step a _ ih => exact ih (a.gone_ hi)

theorem Acts.back {s t : St M} (a : Acts cfg s t) {i it} (hi : t.heap i = some it) : ∃ b, s.heap i = some { it with inQ := b } := by
  induction a with
  | refl => exact ⟨it.inQ, hi⟩
  | step a _ ih =>
    obtain ⟨b, e⟩ := ih hi
    obtain ⟨b', e'⟩ := a.back e
    exact ⟨b', e'⟩

theorem Acts.item {s t : St M} (a : Acts cfg s t) (h : Inv s) {i it} (hi : s.heap i = some it) (hl : it.linked = true) (hv : valid s it = true) :
    (∃ b, t.heap i = some { it with inQ := b }) ∨
    (t.heap i = none ∧ cfg.evict = true ∧ it.exp ≠ sticky ∧ (it.refs = 0 ∨ it.time + 10800 < s.now) ∧ losses s < losses t) := by
  induction a generalizing it with
  | refl => exact .inl ⟨it.inQ, hi⟩
  | step a as ih =>
    have e := a.env
    rcases a.item h hi hl hv with ⟨b, hb⟩ | ⟨h0, h1, h2, h3, h4⟩
    · rcases ih (a.inv h) hb hl (by rw [valid_env ⟨e.1, e.2.1, e.2.2.1⟩]; exact hv) with ⟨b', hb'⟩ | ⟨h0, h1, h2, h3, h4⟩
      · exact .inl ⟨b', hb'⟩
      · exact .inr ⟨h0, h1, h2, by rw [← e.1]; exact h3, Nat.lt_of_le_of_lt e.2.2.2.2 h4⟩
    · exact .inr ⟨as.gone_ h0, h1, h2, h3, Nat.lt_of_lt_of_le h4 as.env.2.2.2.2⟩

/-- The least recently used go first. -/
theorem Acts.lru {s t : St M} (a : Acts cfg s t) (h : Inv s) {x xt y yt} (hx : s.heap x = some xt) (xl : xt.linked = true) (xv : valid s xt = true)
    (xr : xt.refs = 0) (hg : t.heap x = none) (hy : t.heap y = some yt) (yl : yt.linked = true) (yr : yt.refs = 0) (yq : qid yt = (xt.cls, false)) :
    xt.time ≤ yt.time := by
  induction a generalizing xt with
  | refl => rw [hx] at hg; cases hg
  | @step s u t a as ih =>
    have e := a.env
    rcases a.item h hx xl xv with ⟨b, hb⟩ | ⟨h0, _⟩
    · exact ih (xt := { xt with inQ := b }) (a.inv h) hb xl (by rw [valid_env ⟨e.1, e.2.1, e.2.2.1⟩]; exact xv) xr hg hy yq
    · obtain ⟨b1, e1⟩ := as.back hy
      obtain ⟨b2, e2⟩ : ∃ b, s.heap y = some { yt with inQ := b } := a.back (it := { yt with inQ := b1 }) e1
      have yin : ({ yt with inQ := b2 } : It).inQ = true := by
        cases hb : b2 with
        | true => rfl
        | false =>
          rw [hb] at e2
          exact absurd yr (h.off y { yt with inQ := false } e2 yl rfl)
      have ym := h.wf.in_q y _ e2 yin
      rw [show qid { yt with inQ := b2 } = qid yt from rfl, yq] at ym
      cases a with
      | @evict j jt c st m hj hm hr hv2 he _ hu =>
        by_cases hne : x = j
        · subst hne
          rw [hx] at hj
          injection hj with hj
          subst hj
          have hc := (h.wf.qOf hx (List.mem_of_getLast? hm)).2.2
          have hcc : xt.cls = c := by
            unfold qid at hc
            injection hc
          rw [hcc] at ym
          have hsp := (prevOf_last (h.wf.q_nd _) hm).2
          have hs := h.wf.sorted (c, false)
          rw [hsp] at hs
          rw [hsp] at ym
          rcases List.mem_append.1 ym with ym | ym
          · exact (List.pairwise_append.1 hs).2.2 y ym x (by simp) { yt with inQ := b2 } xt e2 hx
          · simp at ym
            subst ym
            rw [hx] at e2
            injection e2 with e2
            rw [e2]
            exact Nat.le_refl _
        · simp only [gone] at h0
          rw [upd_other hne, hx] at h0
          cases h0
      | @dead j jt st m hj _ _ hv2 _ hu =>
        by_cases hne : x = j
        · subst hne
          rw [hx] at hj
          injection hj with hj
          subst hj
          rw [xv] at hv2
          cases hv2
        · simp only [gone] at h0
          rw [upd_other hne, hx] at h0
          cases h0
      | @repair j jt c st m hj hm hr ht he _ hu =>
        by_cases hne : x = j
        · subst hne
          rw [hx] at hj
          injection hj with hj
          subst hj
          exact absurd xr hr
        · simp only [gone] at h0
          rw [upd_other hne, hx] at h0
          cases h0
      | @drop j jt c hj hm hr =>
        obtain ⟨b, hb⟩ := offQ_heap_same hj hx
        rw [hb] at h0
        cases h0
      | marks => rw [show _ = s.heap x from rfl, hx] at h0; cases h0
      | other => rw [show _ = s.heap x from rfl, hx] at h0; cases h0

/-- A call that asks for memory searches, and may make a new item. -/
theorem asks_acts {s t : St M} (h : Inv s) (ho : AsksMemory op) (hs : step cfg sl s op = some (t, out)) :
    ∃ u, Acts cfg s u ∧ (t = u ∨ ∃ it, it.linked = false ∧ t = { u with heap := upd u.heap u.next (some it), next := u.next + 1 }) := by
  cases op with
  | alloc key pfx exp n c =>
    simp only [step, alloc] at hs
    split at hs
    · cases hs
      exact ⟨s, .refl _, .inl rfl⟩
    · obtain ⟨u, b, e, a⟩ := memAlloc_acts (cfg := cfg) sl h n c
      rw [e] at hs
      cases b with
      | false =>
        cases hs
        exact ⟨_, a, .inl rfl⟩
      | true =>
        cases hs
        exact ⟨u, a, .inr ⟨_, rfl, rfl⟩⟩
  | mem n =>
    simp only [step] at hs
    obtain ⟨u, b, e, a⟩ := memAlloc_acts (cfg := cfg) sl h n 0
    rw [e] at hs
    cases hs
    exact ⟨_, a, .inl rfl⟩
  | background =>
    simp only [step] at hs
    split at hs
    · rename_i hb
      obtain ⟨u, e, a⟩ := regain_acts (cfg := cfg) sl hb.1 h (sl.level s.mem)
      rw [e] at hs
      cases hs
      exact ⟨_, a, .inl rfl⟩
    · cases hs
      exact ⟨_, .refl _, .inl rfl⟩
  | tick => cases ho
  | memFree => cases ho
  | link => cases ho
  | replace => cases ho
  | unlink => cases ho
  | get => cases ho
  | update => cases ho
  | release => cases ho
  | setExp => cases ho
  | grow => cases ho
  | shrink => cases ho
  | flush => cases ho

end Verif.Lru
