import Verif.Lemmas.LruMarks
/-! Well-formed states, and what the functions on single items do to them. -/
namespace Verif.Lru

variable {M : Type}

@[simp] theorem upd_same {α β : Type} [DecidableEq α] (f : α → β) (a : α) (b : β) : upd f a b a = b := by simp [upd]

theorem upd_other {α β : Type} [DecidableEq α] {f : α → β} {a x : α} {b : β} (h : x ≠ a) : upd f a b x = f x := by simp [upd, h]

@[simp] theorem upd_upd {α β : Type} [DecidableEq α] (f : α → β) (a : α) (b c : β) : upd (upd f a b) a c = upd f a c := by
  funext x
  by_cases h : x = a <;> simp [upd, h]

theorem upd_id {α β : Type} [DecidableEq α] {f : α → β} {a : α} {b : β} (h : f a = b) : upd f a b = f := by
  funext x
  by_cases hx : x = a
  · rw [hx, upd_same, h]
  · rw [upd_other hx]

/-- Queues, table and marks agree with the items. -/
structure WF (s : St M) : Prop where
  q_mem : ∀ c i, i ∈ s.q c → ∃ it, s.heap i = some it ∧ it.linked = true ∧ it.inQ = true ∧ qid it = c
  in_q : ∀ i it, s.heap i = some it → it.inQ = true → i ∈ s.q (qid it)
  q_nd : ∀ c, (s.q c).Nodup
  t_mem : ∀ i, i ∈ s.tbl ↔ ∃ it, s.heap i = some it ∧ it.linked = true
  t_nd : s.tbl.Nodup
  keys : ∀ i j it jt, s.heap i = some it → s.heap j = some jt → it.linked = true → jt.linked = true → it.key = jt.key → i = j
  marks : ∀ c, Marks c.2 (s.q c) (s.low c) (s.cur c)
  fresh : ∀ i, s.next ≤ i → s.heap i = none
  times : ∀ i it, s.heap i = some it → it.linked = true → it.time ≤ s.now
  sorted : ∀ c, (s.q c).Pairwise fun i j => ∀ it jt, s.heap i = some it → s.heap j = some jt → jt.time ≤ it.time

/-- A linked item that is not in its queue is in use. -/
def Off (s : St M) : Prop := ∀ i it, s.heap i = some it → it.linked = true → it.inQ = false → it.refs ≠ 0

theorem WF.congr {s s' : St M} (h : WF s) (h1 : s'.heap = s.heap) (h2 : s'.q = s.q) (h3 : s'.tbl = s.tbl) (h4 : s'.low = s.low)
    (h5 : s'.cur = s.cur) (h6 : s'.next = s.next) (h7 : s.now ≤ s'.now) : WF s' where
  q_mem := by rw [h1, h2]; exact h.q_mem
  in_q := by rw [h1, h2]; exact h.in_q
  q_nd := by rw [h2]; exact h.q_nd
  t_mem := by rw [h1, h3]; exact h.t_mem
  t_nd := by rw [h3]; exact h.t_nd
  keys := by rw [h1]; exact h.keys
  marks := by rw [h2, h4, h5]; exact h.marks
  fresh := by rw [h1, h6]; exact h.fresh
  times i it hi hl := Nat.le_trans (h.times i it (h1 ▸ hi) hl) h7
  sorted := by rw [h1, h2]; exact h.sorted

theorem WF.linkedQ {s : St M} (h : WF s) {i it} (hi : s.heap i = some it) (hq : it.inQ = true) : it.linked = true := by
  obtain ⟨jt, h1, h2, _, _⟩ := h.q_mem _ _ (h.in_q i it hi hq)
  rw [hi] at h1
  injection h1 with h1
  rw [h1]
  exact h2

theorem WF.notQ {s : St M} (h : WF s) {i it} (hi : s.heap i = some it) (hq : it.inQ = false) (c) : i ∉ s.q c := by
  intro hm
  obtain ⟨jt, h1, _, h3, _⟩ := h.q_mem _ _ hm
  rw [hi] at h1
  injection h1 with h1
  rw [← h1, hq] at h3
  cases h3

theorem WF.qOf {s : St M} (h : WF s) {i it} (hi : s.heap i = some it) {c} (hm : i ∈ s.q c) : it.linked = true ∧ it.inQ = true ∧ qid it = c := by
  obtain ⟨jt, h1, h2, h3, h4⟩ := h.q_mem _ _ hm
  rw [hi] at h1
  injection h1 with h1
  subst h1
  exact ⟨h2, h3, h4⟩

/-- The state after an item has been taken off its queue. -/
def offQ (s : St M) (it : It) (i : Id) : St M :=
  if it.inQ = false then s
  else { s with
    q := upd s.q (qid it) ((s.q (qid it)).erase i)
    low := upd s.low (qid it) (lowAfter (s.q (qid it)) (s.low (qid it)) i)
    cur := upd s.cur (qid it) (curAfter (s.q (qid it)) (s.low (qid it)) (s.cur (qid it)) i)
    heap := upd s.heap i (some { it with inQ := false }) }

theorem unlinkQ_eq {s : St M} {i it} (hi : s.heap i = some it) (hq : it.inQ = true → i ∈ s.q (qid it)) : unlinkQ s i = some (offQ s it i) := by
  unfold unlinkQ offQ
  rw [hi]
  simp only []
  by_cases h : it.inQ = false
  · rw [if_pos h, if_pos h]
  · rw [if_neg h, if_neg h, if_pos (hq (by simpa using h))]

theorem offQ_heap {s : St M} {i it} (hi : s.heap i = some it) : (offQ s it i).heap = upd s.heap i (some { it with inQ := false }) := by
  unfold offQ
  split
  · rename_i h
    rw [upd_id]
    rw [hi]
    cases it
    simp at h
    simp [h]
  · rfl

theorem offQ_q {s : St M} (h : WF s) {i it} (hi : s.heap i = some it) (c) : (offQ s it i).q c = (s.q c).erase i := by
  unfold offQ
  split
  · rename_i hq
    rw [List.erase_of_not_mem (h.notQ hi hq c)]
  · by_cases hc : c = qid it
    · subst hc
      simp
    · simp only [upd_other hc]
      rw [List.erase_of_not_mem]
      intro hm
      exact hc (h.qOf hi hm).2.2.symm

theorem offQ_tbl (s : St M) (it i) : (offQ s it i).tbl = s.tbl := by unfold offQ; split <;> rfl
theorem offQ_next (s : St M) (it i) : (offQ s it i).next = s.next := by unfold offQ; split <;> rfl
theorem offQ_now (s : St M) (it i) : (offQ s it i).now = s.now := by unfold offQ; split <;> rfl
theorem offQ_stats (s : St M) (it i) : (offQ s it i).stats = s.stats := by unfold offQ; split <;> rfl
theorem offQ_mem (s : St M) (it i) : (offQ s it i).mem = s.mem := by unfold offQ; split <;> rfl
theorem offQ_oldest (s : St M) (it i) : (offQ s it i).oldest = s.oldest := by unfold offQ; split <;> rfl
theorem offQ_pmark (s : St M) (it i) : (offQ s it i).pmark = s.pmark := by unfold offQ; split <;> rfl

theorem sorted_upd {s : St M} {l : List Id} {i : Id} {o : Option It} (h : l.Pairwise fun i j => ∀ it jt, s.heap i = some it → s.heap j = some jt → jt.time ≤ it.time)
    (hi : i ∉ l) : l.Pairwise fun a b => ∀ it jt, upd s.heap i o a = some it → upd s.heap i o b = some jt → jt.time ≤ it.time := by
  refine List.Pairwise.imp_of_mem ?_ h
  intro a b ha hb hab it jt h1 h2
  have ha' : a ≠ i := fun e => hi (e ▸ ha)
  have hb' : b ≠ i := fun e => hi (e ▸ hb)
  rw [upd_other ha'] at h1
  rw [upd_other hb'] at h2
  exact hab it jt h1 h2

theorem WF.offQ {s : St M} (h : WF s) {i it} (hi : s.heap i = some it) : WF (offQ s it i) := by
  by_cases hq : it.inQ = false
  · rw [Lru.offQ, if_pos hq]; exact h
  have hq' : it.inQ = true := by simpa using hq
  have hm := h.in_q i it hi hq'
  have hnot : ∀ c, i ∉ (s.q c).erase i := fun c hm => ((h.q_nd c).mem_erase_iff.1 hm).1 rfl
  constructor
  · intro c j hj
    rw [offQ_q h hi] at hj
    have hji : j ≠ i := fun e => hnot c (e ▸ hj)
    obtain ⟨jt, h1, h2⟩ := h.q_mem c j (List.mem_of_mem_erase hj)
    exact ⟨jt, by rw [offQ_heap hi, upd_other hji]; exact h1, h2⟩
  · intro j jt hj hjq
    rw [offQ_heap hi] at hj
    by_cases hji : j = i
    · subst hji
      rw [upd_same] at hj
      injection hj with hj
      rw [← hj] at hjq
      cases hjq
    · rw [upd_other hji] at hj
      rw [offQ_q h hi]
      exact (List.mem_erase_of_ne hji).2 (h.in_q j jt hj hjq)
  · intro c
    rw [offQ_q h hi]
    exact (h.q_nd c).erase i
  · intro j
    rw [offQ_tbl, h.t_mem, offQ_heap hi]
    by_cases hji : j = i
    · subst hji
      rw [upd_same, hi]
      constructor
      · rintro ⟨_, h1, h2⟩
        injection h1 with h1
        subst h1
        exact ⟨_, rfl, h2⟩
      · rintro ⟨_, h1, h2⟩
        injection h1 with h1
        subst h1
        exact ⟨_, rfl, h2⟩
    · rw [upd_other hji]
  · rw [offQ_tbl]; exact h.t_nd
  · intro a b at_ bt ha hb la lb hk
    rw [offQ_heap hi] at ha hb
    have key : ∀ a at_, upd s.heap i (some { it with inQ := false }) a = some at_ → at_.linked = true →
        ∃ x, s.heap a = some x ∧ x.linked = true ∧ x.key = at_.key := by
      intro a at_ ha la
      by_cases hai : a = i
      · subst hai
        rw [upd_same] at ha
        injection ha with ha
        subst ha
        exact ⟨it, hi, la, rfl⟩
      · rw [upd_other hai] at ha
        exact ⟨at_, ha, la, rfl⟩
    obtain ⟨x, x1, x2, x3⟩ := key a at_ ha la
    obtain ⟨y, y1, y2, y3⟩ := key b bt hb lb
    exact h.keys a b x y x1 y1 x2 y2 (by rw [x3, y3, hk])
  · intro c
    unfold Lru.offQ
    rw [if_neg hq]
    by_cases hc : c = qid it
    · subst hc
      simp only [upd_same]
      exact (h.marks _).erase (h.q_nd _) hm
    · simp only [upd_other hc]
      exact h.marks c
  · intro j hj
    rw [offQ_next] at hj
    rw [offQ_heap hi, upd_other]
    · exact h.fresh j hj
    · intro e
      subst e
      rw [h.fresh j hj] at hi
      cases hi
  · intro j jt hj hl
    rw [offQ_now]
    rw [offQ_heap hi] at hj
    by_cases hji : j = i
    · subst hji
      rw [upd_same] at hj
      injection hj with hj
      subst hj
      exact h.times j it hi hl
    · rw [upd_other hji] at hj
      exact h.times j jt hj hl
  · intro c
    rw [offQ_q h hi, offQ_heap hi]
    exact sorted_upd ((h.sorted c).sublist List.erase_sublist) (hnot c)

/-- An item that is in no queue is changed, but for its key and whether it is linked. -/
theorem WF.heapOff {s : St M} (h : WF s) {i it it'} (hi : s.heap i = some it) (hq : it.inQ = false) (h1 : it'.inQ = false)
    (h2 : it'.linked = it.linked) (h3 : it'.key = it.key) (h4 : it'.linked = true → it'.time ≤ s.now) :
    WF { s with heap := upd s.heap i (some it') } := by
  constructor
  · intro c j hj
    have hji : j ≠ i := fun e => h.notQ hi hq c (e ▸ hj)
    simp only [upd_other hji]
    exact h.q_mem c j hj
  · intro j jt hj hjq
    simp only [] at hj
    by_cases hji : j = i
    · subst hji
      rw [upd_same] at hj
      injection hj with hj
      rw [← hj, h1] at hjq
      cases hjq
    · rw [upd_other hji] at hj
      exact h.in_q j jt hj hjq
  · exact h.q_nd
  · intro j
    rw [h.t_mem]
    simp only []
    by_cases hji : j = i
    · subst hji
      rw [upd_same, hi]
      constructor
      · rintro ⟨_, e, l⟩
        injection e with e
        subst e
        exact ⟨_, rfl, h2.trans l⟩
      · rintro ⟨_, e, l⟩
        injection e with e
        subst e
        exact ⟨_, rfl, h2 ▸ l⟩
    · rw [upd_other hji]
  · exact h.t_nd
  · intro a b at_ bt ha hb la lb hk
    simp only [] at ha hb
    have key : ∀ a at_, upd s.heap i (some it') a = some at_ → at_.linked = true →
        ∃ x, s.heap a = some x ∧ x.linked = true ∧ x.key = at_.key := by
      intro a at_ ha la
      by_cases hai : a = i
      · subst hai
        rw [upd_same] at ha
        injection ha with ha
        subst ha
        exact ⟨it, hi, h2 ▸ la, h3.symm⟩
      · rw [upd_other hai] at ha
        exact ⟨at_, ha, la, rfl⟩
    obtain ⟨x, x1, x2, x3⟩ := key a at_ ha la
    obtain ⟨y, y1, y2, y3⟩ := key b bt hb lb
    exact h.keys a b x y x1 y1 x2 y2 (by rw [x3, y3, hk])
  · exact h.marks
  · intro j hj
    simp only []
    rw [upd_other]
    · exact h.fresh j hj
    · intro e
      subst e
      rw [h.fresh j hj] at hi
      cases hi
  · intro j jt hj hl
    simp only [] at hj
    by_cases hji : j = i
    · subst hji
      rw [upd_same] at hj
      injection hj with hj
      subst hj
      exact h4 hl
    · rw [upd_other hji] at hj
      exact h.times j jt hj hl
  · intro c
    exact sorted_upd (h.sorted c) (h.notQ hi hq c)

/-- An item is changed in what the queues do not depend on. -/
theorem WF.heapOn {s : St M} (h : WF s) {i it it'} (hi : s.heap i = some it) (h1 : it'.inQ = it.inQ)
    (h2 : it'.linked = it.linked) (h3 : it'.key = it.key) (h4 : it'.time = it.time) (h5 : qid it' = qid it) :
    WF { s with heap := upd s.heap i (some it') } := by
  have back : ∀ a at_, upd s.heap i (some it') a = some at_ →
      ∃ x, s.heap a = some x ∧ x.linked = at_.linked ∧ x.key = at_.key ∧ x.inQ = at_.inQ ∧ x.time = at_.time ∧ qid x = qid at_ := by
    intro a at_ ha
    by_cases hai : a = i
    · subst hai
      rw [upd_same] at ha
      injection ha with ha
      subst ha
      exact ⟨it, hi, h2.symm, h3.symm, h1.symm, h4.symm, h5.symm⟩
    · rw [upd_other hai] at ha
      exact ⟨at_, ha, rfl, rfl, rfl, rfl, rfl⟩
  have forth : ∀ a x, s.heap a = some x →
      ∃ at_, upd s.heap i (some it') a = some at_ ∧ x.linked = at_.linked ∧ x.inQ = at_.inQ ∧ qid x = qid at_ := by
    intro a x ha
    by_cases hai : a = i
    · subst hai
      rw [hi] at ha
      injection ha with ha
      subst ha
      exact ⟨it', upd_same _ _ _, h2.symm, h1.symm, h5.symm⟩
    · exact ⟨x, by rw [upd_other hai]; exact ha, rfl, rfl, rfl⟩
  constructor
  · intro c j hj
    obtain ⟨x, x1, x2, x3, x4⟩ := h.q_mem c j hj
    obtain ⟨y, y1, y2, y3, y4⟩ := forth j x x1
    exact ⟨y, y1, y2 ▸ x2, y3 ▸ x3, y4 ▸ x4⟩
  · intro j jt hj hjq
    obtain ⟨x, x1, x2, x3, x4, x5, x6⟩ := back j jt hj
    rw [← x6]
    exact h.in_q j x x1 (x4.trans hjq)
  · exact h.q_nd
  · intro j
    rw [h.t_mem]
    constructor
    · rintro ⟨x, x1, x2⟩
      obtain ⟨y, y1, y2, _⟩ := forth j x x1
      exact ⟨y, y1, y2 ▸ x2⟩
    · rintro ⟨y, y1, y2⟩
      obtain ⟨x, x1, x2, _⟩ := back j y y1
      exact ⟨x, x1, x2.trans y2⟩
  · exact h.t_nd
  · intro a b at_ bt ha hb la lb hk
    obtain ⟨x, x1, x2, x3, _⟩ := back a at_ ha
    obtain ⟨y, y1, y2, y3, _⟩ := back b bt hb
    exact h.keys a b x y x1 y1 (x2.trans la) (y2.trans lb) (by rw [x3, y3, hk])
  · exact h.marks
  · intro j hj
    simp only []
    rw [upd_other]
    · exact h.fresh j hj
    · intro e
      subst e
      rw [h.fresh j hj] at hi
      cases hi
  · intro j jt hj hl
    obtain ⟨x, x1, x2, x3, x4, x5, _⟩ := back j jt hj
    rw [← x5]
    exact h.times j x x1 (x2.trans hl)
  · intro c
    refine List.Pairwise.imp ?_ (h.sorted c)
    intro a b hab at_ bt ha hb
    obtain ⟨x, x1, _, _, _, x5, _⟩ := back a at_ ha
    obtain ⟨y, y1, _, _, _, y5, _⟩ := back b bt hb
    rw [← x5, ← y5]
    exact hab x y x1 y1

/-- The state after `item_link_q`. -/
def onQ (s : St M) (it : It) (i : Id) : St M :=
  { s with
    q := upd s.q (qid it) (i :: s.q (qid it))
    low := if it.exp ≠ sticky ∧ 0 < it.exp ∧ s.low (qid it) = none then upd s.low (qid it) (some i) else s.low
    cur := if it.exp ≠ sticky ∧ 0 < it.exp ∧ s.low (qid it) = none then upd s.cur (qid it) (some i) else s.cur
    heap := upd s.heap i (some { it with inQ := true }) }

theorem linkQ_eq {s : St M} (h : WF s) {i it} (hi : s.heap i = some it) (hq : it.inQ = false) : linkQ s i = some (onQ s it i) := by
  unfold linkQ onQ
  rw [hi]
  simp only []
  rw [if_neg]
  intro hh
  exact h.notQ hi hq _ (List.mem_of_head? hh)

theorem WF.onQ {s : St M} (h : WF s) {i it} (hi : s.heap i = some it) (hq : it.inQ = false) (hl : it.linked = true) (ht : it.time = s.now) :
    WF (onQ s it i) := by
  have back : ∀ a at_, upd s.heap i (some { it with inQ := true }) a = some at_ →
      ∃ x, s.heap a = some x ∧ x.linked = at_.linked ∧ x.key = at_.key ∧ x.time = at_.time ∧ qid x = qid at_ := by
    intro a at_ ha
    by_cases hai : a = i
    · subst hai
      rw [upd_same] at ha
      injection ha with ha
      subst ha
      exact ⟨it, hi, rfl, rfl, rfl, rfl⟩
    · rw [upd_other hai] at ha
      exact ⟨at_, ha, rfl, rfl, rfl, rfl⟩
  have hq2 : ∀ c j, j ∈ (Lru.onQ s it i).q c ↔ (j = i ∧ c = qid it) ∨ j ∈ s.q c := by
    intro c j
    unfold Lru.onQ
    simp only []
    by_cases hc : c = qid it
    · subst hc
      simp
    · rw [upd_other hc]
      simp [hc]
  constructor
  · intro c j hj
    rw [hq2] at hj
    rcases hj with ⟨rfl, rfl⟩ | hj
    · exact ⟨_, upd_same _ _ _, hl, rfl, rfl⟩
    · obtain ⟨x, x1, x2⟩ := h.q_mem c j hj
      have hji : j ≠ i := fun e => h.notQ hi hq c (e ▸ hj)
      exact ⟨x, by simp only [Lru.onQ]; rw [upd_other hji]; exact x1, x2⟩
  · intro j jt hj hjq
    rw [hq2]
    simp only [Lru.onQ] at hj
    by_cases hji : j = i
    · subst hji
      rw [upd_same] at hj
      injection hj with hj
      subst hj
      exact .inl ⟨rfl, rfl⟩
    · rw [upd_other hji] at hj
      exact .inr (h.in_q j jt hj hjq)
  · intro c
    unfold Lru.onQ
    simp only []
    by_cases hc : c = qid it
    · subst hc
      rw [upd_same]
      exact List.nodup_cons.2 ⟨h.notQ hi hq _, h.q_nd _⟩
    · rw [upd_other hc]
      exact h.q_nd c
  · intro j
    simp only [Lru.onQ]
    rw [h.t_mem]
    by_cases hji : j = i
    · subst hji
      rw [upd_same, hi]
      constructor
      · rintro ⟨_, e, l⟩
        exact ⟨_, rfl, hl⟩
      · rintro ⟨_, e, l⟩
        exact ⟨_, rfl, hl⟩
    · rw [upd_other hji]
  · exact h.t_nd
  · intro a b at_ bt ha hb la lb hk
    simp only [Lru.onQ] at ha hb
    obtain ⟨x, x1, x2, x3, _⟩ := back a at_ ha
    obtain ⟨y, y1, y2, y3, _⟩ := back b bt hb
    exact h.keys a b x y x1 y1 (x2.trans la) (y2.trans lb) (by rw [x3, y3, hk])
  · intro c
    unfold Lru.onQ
    simp only []
    by_cases hc : c = qid it
    · subst hc
      rw [upd_same]
      by_cases hf : it.exp ≠ sticky ∧ 0 < it.exp ∧ s.low (qid it) = none
      · rw [if_pos hf, if_pos hf, upd_same, upd_same]
        have : (qid it).2 = false := by simp [qid, hf.1]
        rw [this]
        exact Marks.first _ _
      · rw [if_neg hf, if_neg hf]
        exact (h.marks _).cons i
    · rw [upd_other hc]
      by_cases hf : it.exp ≠ sticky ∧ 0 < it.exp ∧ s.low (qid it) = none
      · rw [if_pos hf, if_pos hf, upd_other hc, upd_other hc]
        exact h.marks c
      · rw [if_neg hf, if_neg hf]
        exact h.marks c
  · intro j hj
    simp only [Lru.onQ] at hj ⊢
    rw [upd_other]
    · exact h.fresh j hj
    · intro e
      subst e
      rw [h.fresh j hj] at hi
      cases hi
  · intro j jt hj hl'
    simp only [Lru.onQ] at hj ⊢
    obtain ⟨x, x1, x2, x3, x4, _⟩ := back j jt hj
    rw [← x4]
    exact h.times j x x1 (x2.trans hl')
  · intro c
    have old := sorted_upd (o := some { it with inQ := true }) (h.sorted c) (h.notQ hi hq c)
    unfold Lru.onQ
    simp only []
    by_cases hc : c = qid it
    · subst hc
      rw [upd_same]
      refine List.pairwise_cons.2 ⟨?_, old⟩
      intro j hj at_ bt ha hb
      obtain ⟨x, x1, _, _, x4, _⟩ := back i at_ ha
      obtain ⟨y, y1, y2, _, y4, _⟩ := back j bt hb
      rw [hi] at x1
      injection x1 with x1
      subst x1
      rw [← x4, ht, ← y4]
      obtain ⟨z, z1, z2, _⟩ := h.q_mem _ j hj
      rw [y1] at z1
      injection z1 with z1
      subst z1
      exact h.times j y y1 z2
    · rw [upd_other hc]
      exact old

/-- An item in no queue leaves the table. -/
theorem WF.leave {s : St M} (h : WF s) {i it} {o : Option It} (hi : s.heap i = some it) (hq : it.inQ = false)
    (ho : ∀ x, o = some x → x.linked = false ∧ x.inQ = false) : WF { s with heap := upd s.heap i o, tbl := s.tbl.erase i } := by
  have ne : ∀ a at_, upd s.heap i o a = some at_ → at_.linked = true ∨ at_.inQ = true → a ≠ i ∧ s.heap a = some at_ := by
    intro a at_ ha hl
    by_cases hai : a = i
    · subst hai
      rw [upd_same] at ha
      have := ho at_ ha
      rw [this.1, this.2] at hl
      rcases hl with hl | hl <;> cases hl
    · rw [upd_other hai] at ha
      exact ⟨hai, ha⟩
  constructor
  · intro c j hj
    have hji : j ≠ i := fun e => h.notQ hi hq c (e ▸ hj)
    simp only [upd_other hji]
    exact h.q_mem c j hj
  · intro j jt hj hjq
    exact h.in_q j jt (ne j jt hj (.inr hjq)).2 hjq
  · exact h.q_nd
  · intro j
    simp only []
    rw [h.t_nd.mem_erase_iff, h.t_mem]
    constructor
    · rintro ⟨hji, x, x1, x2⟩
      exact ⟨x, by rw [upd_other hji]; exact x1, x2⟩
    · rintro ⟨x, x1, x2⟩
      have := ne j x x1 (.inl x2)
      exact ⟨this.1, x, this.2, x2⟩
  · exact h.t_nd.erase i
  · intro a b at_ bt ha hb la lb hk
    exact h.keys a b at_ bt (ne a at_ ha (.inl la)).2 (ne b bt hb (.inl lb)).2 la lb hk
  · exact h.marks
  · intro j hj
    simp only []
    rw [upd_other]
    · exact h.fresh j hj
    · intro e
      subst e
      rw [h.fresh j hj] at hi
      cases hi
  · intro j jt hj hl
    exact h.times j jt (ne j jt hj (.inl hl)).2 hl
  · intro c
    exact sorted_upd (h.sorted c) (h.notQ hi hq c)

/-- A new item enters the table. -/
theorem WF.enter {s : St M} (h : WF s) {i it} (hi : s.heap i = some it) (hq : it.inQ = false) (hl : it.linked = false)
    (hk : ∀ j jt, s.heap j = some jt → jt.linked = true → jt.key ≠ it.key) :
    WF { s with heap := upd s.heap i (some { it with linked := true, time := s.now }), tbl := i :: s.tbl } := by
  have hit : i ∉ s.tbl := by
    rw [h.t_mem]
    rintro ⟨x, x1, x2⟩
    rw [hi] at x1
    injection x1 with x1
    rw [← x1, hl] at x2
    cases x2
  constructor
  · intro c j hj
    have hji : j ≠ i := fun e => h.notQ hi hq c (e ▸ hj)
    simp only [upd_other hji]
    exact h.q_mem c j hj
  · intro j jt hj hjq
    simp only [] at hj
    by_cases hji : j = i
    · subst hji
      rw [upd_same] at hj
      injection hj with hj
      subst hj
      exact absurd hjq (by simp [hq])
    · rw [upd_other hji] at hj
      exact h.in_q j jt hj hjq
  · exact h.q_nd
  · intro j
    simp only []
    by_cases hji : j = i
    · subst hji
      rw [upd_same]
      simp
    · rw [upd_other hji, List.mem_cons]
      simp only [hji, false_or]
      exact h.t_mem j
  · exact List.nodup_cons.2 ⟨hit, h.t_nd⟩
  · intro a b at_ bt ha hb la lb e
    simp only [] at ha hb
    by_cases hai : a = i <;> by_cases hbi : b = i
    · rw [hai, hbi]
    · subst hai
      rw [upd_same] at ha
      rw [upd_other hbi] at hb
      injection ha with ha
      subst ha
      exact absurd e.symm (hk b bt hb lb)
    · subst hbi
      rw [upd_same] at hb
      rw [upd_other hai] at ha
      injection hb with hb
      subst hb
      exact absurd e (hk a at_ ha la)
    · rw [upd_other hai] at ha
      rw [upd_other hbi] at hb
      exact h.keys a b at_ bt ha hb la lb e
  · exact h.marks
  · intro j hj
    simp only []
    rw [upd_other]
    · exact h.fresh j hj
    · intro e
      subst e
      rw [h.fresh j hj] at hi
      cases hi
  · intro j jt hj hl
    simp only [] at hj
    by_cases hji : j = i
    · subst hji
      rw [upd_same] at hj
      injection hj with hj
      subst hj
      exact Nat.le_refl _
    · rw [upd_other hji] at hj
      exact h.times j jt hj hl
  · intro c
    exact sorted_upd (h.sorted c) (h.notQ hi hq c)

end Verif.Lru
