import Verif.Lemmas.Lru
/-! The functions on single items keep states well formed. -/
namespace Verif.Lru

variable {M : Type}

/-- What holds between the calls. -/
structure Inv (s : St M) : Prop where
  wf : WF s
  off : Off s

/-- The state after an item has left queue and table. -/
def gone (s : St M) (it : It) (i : Id) (o : Option It) (st : Stats) (m : M) : St M :=
  { offQ s it i with heap := upd s.heap i o, tbl := s.tbl.erase i, stats := st, mem := m }

theorem gone_q {s : St M} (h : WF s) {i it o st m} (hi : s.heap i = some it) (c) : (gone s it i o st m).q c = (s.q c).erase i := offQ_q h hi c

theorem gone_now (s : St M) (it i o st m) : (gone s it i o st m).now = s.now := offQ_now s it i
theorem gone_oldest (s : St M) (it i o st m) : (gone s it i o st m).oldest = s.oldest := offQ_oldest s it i
theorem gone_pmark (s : St M) (it i o st m) : (gone s it i o st m).pmark = s.pmark := offQ_pmark s it i

/-- What is left of an unlinked item. -/
def rest (it : It) : Option It := if it.refs = 0 then none else some { it with inQ := false, linked := false }

theorem unlink_eq (sl : Slabs M) {s : St M} {i it} (hi : s.heap i = some it) (hl : it.linked = true) (hq : it.inQ = true → i ∈ s.q (qid it)) :
    unlink sl s i = some (gone s it i (rest it) (statUnlink s.stats it) (if it.refs = 0 then sl.free s.mem it.n it.cls else s.mem)) := by
  unfold unlink
  rw [hi]
  simp only []
  rw [if_neg (by rw [hl]; simp), unlinkQ_eq hi hq]
  simp only [offQ_heap hi, offQ_tbl, offQ_stats, upd_upd]
  by_cases hr : it.refs = 0
  · rw [if_pos hr, if_pos hr]
    unfold free
    simp [rest, hr, gone, offQ_mem]
  · rw [if_neg hr, if_neg hr]
    simp only [rest, if_neg hr, gone]
    congr 1
    unfold offQ
    split <;> rfl

theorem unlink_not (sl : Slabs M) {s : St M} {i it} (hi : s.heap i = some it) (hl : it.linked = false) : unlink sl s i = some s := by
  unfold unlink
  rw [hi]
  simp only []
  rw [if_pos hl]

theorem rest_off {it : It} : ∀ x, rest it = some x → x.linked = false ∧ x.inQ = false := by
  intro x hx
  unfold rest at hx
  split at hx
  · cases hx
  · injection hx with hx
    subst hx
    exact ⟨rfl, rfl⟩

theorem Inv.gone {s : St M} (h : Inv s) {i it o} (hi : s.heap i = some it) (ho : ∀ x, o = some x → x.linked = false ∧ x.inQ = false) (st m) :
    Inv (gone s it i o st m) := by
  constructor
  · have h1 := h.wf.offQ hi
    have h2 := h1.leave (i := i) (it := { it with inQ := false }) (o := o) (by rw [offQ_heap hi, upd_same]) rfl ho
    refine h2.congr ?_ rfl ?_ rfl rfl rfl (Nat.le_refl _)
    · simp only [Lru.gone, offQ_heap hi, upd_upd]
    · simp only [Lru.gone, offQ_tbl]
  · intro j jt hj hl hq
    simp only [Lru.gone] at hj
    by_cases hji : j = i
    · subst hji
      rw [upd_same] at hj
      rw [(ho jt hj).1] at hl
      cases hl
    · rw [upd_other hji] at hj
      exact h.off j jt hj hl hq

theorem Inv.congr {s s' : St M} (h : Inv s) (h1 : s'.heap = s.heap) (h2 : s'.q = s.q) (h3 : s'.tbl = s.tbl) (h4 : s'.low = s.low)
    (h5 : s'.cur = s.cur) (h6 : s'.next = s.next) (h7 : s.now ≤ s'.now) : Inv s' :=
  ⟨h.wf.congr h1 h2 h3 h4 h5 h6 h7, by unfold Off; rw [h1]; exact h.off⟩

theorem Inv.marks {s : St M} (h : Inv s) {low cur} (hm : ∀ c, Marks c.2 (s.q c) (low c) (cur c)) : Inv { s with low := low, cur := cur } :=
  ⟨⟨h.wf.q_mem, h.wf.in_q, h.wf.q_nd, h.wf.t_mem, h.wf.t_nd, h.wf.keys, hm, h.wf.fresh, h.wf.times, h.wf.sorted⟩, h.off⟩

theorem Inv.unlink {s : St M} (h : Inv s) (sl : Slabs M) {i it} (hi : s.heap i = some it) : ∃ s', unlink sl s i = some s' ∧ Inv s' := by
  by_cases hl : it.linked = true
  · exact ⟨_, unlink_eq sl hi hl (h.wf.in_q i it hi), h.gone hi rest_off _ _⟩
  · exact ⟨s, unlink_not sl hi (by simpa using hl), h⟩

/-- Off but for one item. -/
theorem Off.upd {s : St M} (h : Off s) {i : Id} {o : Option It} (ho : ∀ x, o = some x → x.linked = true → x.inQ = false → x.refs ≠ 0) {s' : St M}
    (hs : s'.heap = upd s.heap i o) : Off s' := by
  intro j jt hj hl hq
  rw [hs] at hj
  by_cases hji : j = i
  · subst hji
    rw [upd_same] at hj
    exact ho jt hj hl hq
  · rw [upd_other hji] at hj
    exact h j jt hj hl hq

theorem Off.offQ {s : St M} (h : Off s) {i it} (hi : s.heap i = some it) (hr : it.refs ≠ 0) : Off (offQ s it i) :=
  h.upd (o := some { it with inQ := false }) (by intro x hx; injection hx with hx; subst hx; intro _ _; exact hr) (offQ_heap hi)

/-- The item with new time at the head of its queue. -/
theorem Inv.again {s : St M} (h : Inv s) {i it} (hi : s.heap i = some it) (hl : it.linked = true) :
    let s1 := { offQ s it i with heap := upd (offQ s it i).heap i (some { it with inQ := false, time := (offQ s it i).now }) }
    linkQ s1 i = some (onQ s1 { it with inQ := false, time := s.now } i) ∧ Inv (onQ s1 { it with inQ := false, time := s.now } i) := by
  intro s1
  have w1 : WF s1 := (h.wf.offQ hi).heapOff (it := { it with inQ := false }) (it' := { it with inQ := false, time := (offQ s it i).now })
    (by rw [offQ_heap hi, upd_same]) rfl rfl rfl rfl (fun _ => Nat.le_refl _)
  have hi1 : s1.heap i = some { it with inQ := false, time := s.now } := by
    simp only [s1, upd_same, offQ_now]
  refine ⟨linkQ_eq w1 hi1 rfl, w1.onQ hi1 rfl hl ?_, ?_⟩
  · simp only [s1, offQ_now]
  · refine h.off.upd (o := some { it with inQ := true, time := s.now }) ?_ ?_ (i := i)
    · intro x hx _ hq
      injection hx with hx
      subst hx
      cases hq
    · simp only [onQ, s1, offQ_heap hi, upd_upd]

theorem update_eq {s : St M} (h : Inv s) {i it} (hi : s.heap i = some it) (f : Bool) :
    update s i f = some (if it.linked = true ∧ (f = true ∨ it.time < (s.now + 4294967296 - 60) % 4294967296) then
      onQ { offQ s it i with heap := upd (offQ s it i).heap i (some { it with inQ := false, time := (offQ s it i).now }) }
        { it with inQ := false, time := s.now } i else s) := by
  unfold update
  rw [hi]
  simp only []
  by_cases hc : it.linked = true ∧ (f = true ∨ it.time < (s.now + 4294967296 - 60) % 4294967296)
  · rw [if_pos hc, if_pos hc, unlinkQ_eq hi (h.wf.in_q i it hi)]
    exact (h.again hi hc.1).1
  · rw [if_neg hc, if_neg hc]

theorem Inv.update {s : St M} (h : Inv s) {i it} (hi : s.heap i = some it) (f : Bool) : ∃ s', update s i f = some s' ∧ Inv s' := by
  refine ⟨_, update_eq h hi f, ?_⟩
  split
  · rename_i hc
    exact (h.again hi hc.1).2
  · exact h

theorem find_some {s : St M} {k i} (h : find s k = some i) : i ∈ s.tbl ∧ ∃ it, s.heap i = some it ∧ it.key = k := by
  unfold find at h
  have h1 := List.mem_of_find?_eq_some h
  have h2 := List.find?_some h
  refine ⟨h1, ?_⟩
  cases hh : s.heap i with
  | none => rw [hh] at h2; cases h2
  | some it =>
    rw [hh] at h2
    exact ⟨it, rfl, by simpa using h2⟩

theorem find_none {s : St M} (w : WF s) {k} (h : find s k = none) : ∀ j jt, s.heap j = some jt → jt.linked = true → jt.key ≠ k := by
  intro j jt hj hl e
  unfold find at h
  have := List.find?_eq_none.1 h j ((w.t_mem j).2 ⟨jt, hj, hl⟩)
  rw [hj] at this
  simp [e] at this

theorem Inv.heapOn {s : St M} (h : Inv s) {i it it'} (hi : s.heap i = some it) (h1 : it'.inQ = it.inQ)
    (h2 : it'.linked = it.linked) (h3 : it'.key = it.key) (h4 : it'.time = it.time) (h5 : qid it' = qid it)
    (h6 : it'.linked = true → it'.inQ = false → it'.refs ≠ 0) : Inv { s with heap := Lru.upd s.heap i (some it') } :=
  ⟨h.wf.heapOn hi h1 h2 h3 h4 h5, h.off.upd (o := some it') (by intro x hx; injection hx with hx; subst hx; exact h6) rfl⟩

theorem Inv.get {s : St M} (h : Inv s) (sl : Slabs M) (k : Nat) (u : Bool) : ∃ s' o, get sl s k u = some (s', o) ∧ Inv s' := by
  unfold Lru.get
  cases hf : find s k with
  | none => exact ⟨_, _, rfl, h⟩
  | some i =>
    obtain ⟨_, it, hi, _⟩ := find_some hf
    simp only [hi]
    by_cases hv : valid s it = true
    · rw [if_pos hv]
      have h1 : Inv { s with heap := upd s.heap i (some { it with refs := it.refs + 1 }) } :=
        h.heapOn hi rfl rfl rfl rfl rfl (fun _ _ => Nat.succ_ne_zero _)
      cases u
      · exact ⟨_, _, rfl, h1⟩
      · obtain ⟨s', e, h2⟩ := h1.update (i := i) (it := { it with refs := it.refs + 1 }) (upd_same _ _ _) false
        simp only [e]
        exact ⟨_, _, rfl, h2⟩
    · rw [if_neg hv]
      obtain ⟨s', e, h2⟩ := h.unlink sl hi
      rw [e]
      exact ⟨_, _, rfl, h2⟩

theorem Inv.link {s : St M} (h : Inv s) {i it} (hi : s.heap i = some it) (hl : it.linked = false) (hf : find s it.key = none) :
    ∃ s', link s i = some s' ∧ Inv s' := by
  have hq : it.inQ = false := by
    cases hq : it.inQ with
    | false => rfl
    | true => rw [h.wf.linkedQ hi hq] at hl; cases hl
  have w1 := h.wf.enter hi hq hl (find_none h.wf hf)
  have hi1 : ({ s with heap := upd s.heap i (some { it with linked := true, time := s.now }), tbl := i :: s.tbl } : St M).heap i =
      some { it with linked := true, time := s.now } := upd_same _ _ _
  have e := linkQ_eq w1 hi1 hq
  unfold Lru.link
  rw [hi]
  simp only []
  rw [if_neg (by simp [hl, hq, hf]), e]
  refine ⟨_, rfl, ?_, ?_⟩
  · exact (w1.onQ hi1 hq rfl rfl).congr rfl rfl rfl rfl rfl rfl (Nat.le_refl _)
  · refine h.off.upd (o := some { it with linked := true, time := s.now, inQ := true }) (i := i) ?_ ?_
    · intro x hx _ hq
      injection hx with hx
      subst hx
      cases hq
    · simp only [onQ, upd_upd]

theorem Inv.release {s : St M} (h : Inv s) (sl : Slabs M) {i it} (hi : s.heap i = some it) : ∃ s', release sl s i = some s' ∧ Inv s' := by
  unfold Lru.release
  rw [hi]
  simp only []
  by_cases hr : it.refs - 1 ≠ 0
  · rw [if_pos hr]
    exact ⟨_, rfl, h.heapOn hi rfl rfl rfl rfl rfl (fun _ _ => hr)⟩
  have hr0 : it.refs - 1 = 0 := Classical.not_not.1 hr
  rw [if_neg hr]
  by_cases hl : it.linked = false
  · have hq : it.inQ = false := by
      cases hq : it.inQ with
      | false => rfl
      | true => rw [h.wf.linkedQ hi hq] at hl; cases hl
    rw [if_pos hl]
    unfold free
    simp only [upd_same]
    rw [if_neg (by simp [hl, hr0])]
    refine ⟨_, rfl, ?_⟩
    have hg := h.gone (o := none) hi (by intro x hx; cases hx) s.stats (sl.free s.mem it.n it.cls)
    refine hg.congr ?_ ?_ ?_ ?_ ?_ ?_ ?_
    · simp only [Lru.gone, upd_upd]
    · simp only [Lru.gone, offQ, hq, if_true]
    · simp only [Lru.gone]
      rw [List.erase_of_not_mem]
      rw [h.wf.t_mem]
      rintro ⟨x, x1, x2⟩
      rw [hi] at x1
      injection x1 with x1
      rw [← x1, hl] at x2
      cases x2
    · simp only [Lru.gone, offQ, hq, if_true]
    · simp only [Lru.gone, offQ, hq, if_true]
    · simp only [Lru.gone, offQ_next]
    · simp only [Lru.gone, offQ_now]; exact Nat.le_refl _
  · have hl' : it.linked = true := by simpa using hl
    rw [if_neg hl]
    by_cases hq : it.inQ = false
    · rw [if_pos hq]
      by_cases hv : valid { s with heap := upd s.heap i (some { it with refs := it.refs - 1 }) } it = true
      · rw [if_pos hv]
        simp only [upd_upd]
        have w1 := h.wf.heapOff (it' := { it with refs := 0, time := s.now }) hi hq hq rfl rfl (fun _ => Nat.le_refl _)
        have hi1 : ({ s with heap := upd s.heap i (some { it with refs := 0, time := s.now }) } : St M).heap i = some { it with refs := 0, time := s.now } :=
          upd_same _ _ _
        refine ⟨_, linkQ_eq w1 hi1 hq, w1.onQ hi1 hq hl' rfl, ?_⟩
        refine h.off.upd (o := some { it with refs := 0, time := s.now, inQ := true }) (i := i) ?_ ?_
        · intro x hx _ hq
          injection hx with hx
          subst hx
          cases hq
        · simp only [onQ, upd_upd]
      · rw [if_neg hv]
        have e := unlink_eq sl (s := { s with heap := upd s.heap i (some { it with refs := it.refs - 1 }) }) (i := i)
          (it := { it with refs := it.refs - 1 }) (upd_same _ _ _) hl' (by intro hq'; simp [hq] at hq')
        rw [e]
        refine ⟨_, rfl, ?_⟩
        have hg := h.gone (o := none) hi (by intro x hx; cases hx) s.stats (sl.free s.mem it.n it.cls)
        refine hg.congr ?_ ?_ ?_ ?_ ?_ ?_ ?_
        · simp [Lru.gone, upd_upd, rest, hr0]
        · simp [Lru.gone, offQ, hq]
        · simp [Lru.gone]
        · simp [Lru.gone, offQ, hq]
        · simp [Lru.gone, offQ, hq]
        · simp [Lru.gone, offQ_next]
        · simp [Lru.gone, offQ_now]
    · rw [if_neg hq]
      exact ⟨_, rfl, h.heapOn hi rfl rfl rfl rfl rfl (fun _ hq' => absurd hq' hq)⟩

theorem Inv.setExp {s : St M} (h : Inv s) {i it} (hi : s.heap i = some it) (e : Nat) : ∃ s' b, setExp s i e = some (s', b) ∧ Inv s' := by
  unfold Lru.setExp
  rw [hi]
  simp only []
  by_cases hc : (it.exp = sticky ∧ e ≠ sticky) ∨ (it.exp ≠ sticky ∧ e = sticky)
  · rw [if_pos hc]
    exact ⟨_, _, rfl, h⟩
  · rw [if_neg hc]
    have hst : (e == sticky) = (it.exp == sticky) := by
      by_cases h1 : it.exp = sticky <;> by_cases h2 : e = sticky
      · rw [h1, h2]
      · exact absurd (.inl ⟨h1, h2⟩) hc
      · exact absurd (.inr ⟨h1, h2⟩) hc
      · rw [beq_false_of_ne h1, beq_false_of_ne h2]
    have h1 : Inv { s with heap := upd s.heap i (some { it with exp := e }) } :=
      h.heapOn hi rfl rfl rfl rfl (by simp only [qid, hst]) (fun a b => h.off i it hi a b)
    by_cases hz : it.exp = 0 ∧ e ≠ 0
    · rw [if_pos hz]
      obtain ⟨s', e', h2⟩ := h1.update (i := i) (it := { it with exp := e }) (upd_same _ _ _) true
      rw [e']
      exact ⟨_, _, rfl, h2⟩
    · rw [if_neg hz]
      exact ⟨_, _, rfl, h1⟩

theorem Inv.grow {s : St M} (h : Inv s) {i it} (hi : s.heap i = some it) (hl : it.linked = true) (n : Nat) : ∃ s', grow s i n = some s' ∧ Inv s' := by
  unfold Lru.grow
  rw [hi]
  simp only []
  rw [if_neg (by simp [hl])]
  refine ⟨_, rfl, ?_⟩
  exact (h.heapOn (it' := { it with size := it.size + n }) hi rfl rfl rfl rfl rfl (fun a b => h.off i it hi a b)).congr rfl rfl rfl rfl rfl rfl (Nat.le_refl _)

theorem Inv.shrink {s : St M} (h : Inv s) {i it} (hi : s.heap i = some it) (hl : it.linked = true) {n : Nat} (hn : n ≤ it.size) :
    ∃ s', shrink s i n = some s' ∧ Inv s' := by
  unfold Lru.shrink
  rw [hi]
  simp only []
  rw [if_neg (by simp [hl, hn])]
  refine ⟨_, rfl, ?_⟩
  exact (h.heapOn (it' := { it with size := it.size - n }) hi rfl rfl rfl rfl rfl (fun a b => h.off i it hi a b)).congr rfl rfl rfl rfl rfl rfl (Nat.le_refl _)

theorem Inv.alloc {s : St M} (h : Inv s) {it : It} (hl : it.linked = false) (hq : it.inQ = false) :
    Inv { s with heap := upd s.heap s.next (some it), next := s.next + 1 } := by
  have hn : s.heap s.next = none := h.wf.fresh _ (Nat.le_refl _)
  have ne : ∀ j x, upd s.heap s.next (some it) j = some x → x.linked = true ∨ x.inQ = true → s.heap j = some x := by
    intro j x hj hx
    by_cases hji : j = s.next
    · subst hji
      rw [upd_same] at hj
      injection hj with hj
      subst hj
      rw [hl, hq] at hx
      rcases hx with hx | hx <;> cases hx
    · rw [upd_other hji] at hj
      exact hj
  have to : ∀ j x, s.heap j = some x → upd s.heap s.next (some it) j = some x := by
    intro j x hj
    rw [upd_other]
    · exact hj
    · intro e
      subst e
      rw [hn] at hj
      cases hj
  constructor
  · constructor
    · intro c j hj
      obtain ⟨x, x1, x2⟩ := h.wf.q_mem c j hj
      exact ⟨x, to j x x1, x2⟩
    · intro j jt hj hjq
      exact h.wf.in_q j jt (ne j jt hj (.inr hjq)) hjq
    · exact h.wf.q_nd
    · intro j
      rw [h.wf.t_mem]
      constructor
      · rintro ⟨x, x1, x2⟩
        exact ⟨x, to j x x1, x2⟩
      · rintro ⟨x, x1, x2⟩
        exact ⟨x, ne j x x1 (.inl x2), x2⟩
    · exact h.wf.t_nd
    · intro a b at_ bt ha hb la lb hk
      exact h.wf.keys a b at_ bt (ne a at_ ha (.inl la)) (ne b bt hb (.inl lb)) la lb hk
    · exact h.wf.marks
    · intro j hj
      simp only [] at hj ⊢
      rw [upd_other (fun e : j = s.next => Nat.not_succ_le_self s.next (e ▸ hj))]
      exact h.wf.fresh j (Nat.le_of_succ_le hj)
    · intro j jt hj hl
      exact h.wf.times j jt (ne j jt hj (.inl hl)) hl
    · intro c
      refine List.Pairwise.imp_of_mem ?_ (h.wf.sorted c)
      intro a b ha hb hab at_ bt h1 h2
      obtain ⟨x, x1, _⟩ := h.wf.q_mem c a ha
      obtain ⟨y, y1, _⟩ := h.wf.q_mem c b hb
      have := to a x x1
      simp only [] at h1 h2
      rw [this] at h1
      have := to b y y1
      rw [this] at h2
      injection h1 with h1
      injection h2 with h2
      subst h1 h2
      exact hab _ _ x1 y1
  · intro j jt hj hl' hq'
    exact h.off j jt (ne j jt hj (.inl hl')) hl' hq'

end Verif.Lru
