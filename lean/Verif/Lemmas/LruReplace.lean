import Verif.Lemmas.LruOps
/-! Replacing and flushing keep states well formed. -/
namespace Verif.Lru

variable {M : Type}

theorem WF.tbl {s : St M} (h : WF s) {t : List Id} (hn : t.Nodup) (hm : ∀ i, i ∈ t ↔ i ∈ s.tbl) : WF { s with tbl := t } :=
  ⟨h.q_mem, h.in_q, h.q_nd, fun i => (hm i).trans (h.t_mem i), hn, h.keys, h.marks, h.fresh, h.times, h.sorted⟩

theorem upd_comm {α β : Type} [DecidableEq α] (f : α → β) {a b : α} (h : a ≠ b) (x y : β) : upd (upd f a x) b y = upd (upd f b y) a x := by
  funext z
  by_cases h1 : z = a
  · subst h1
    rw [upd_other h, upd_same, upd_same]
  · by_cases h2 : z = b
    · subst h2
      rw [upd_same, upd_other h1, upd_same]
    · rw [upd_other h2, upd_other h1, upd_other h1, upd_other h2]

theorem mem_swap {t : List Id} {old new : Id} (ho : old ∈ t) (hn : t.Nodup) (j : Id) :
    (j ∈ t.map fun i => if i = old then new else i) ↔ j ∈ new :: t.erase old := by
  rw [List.mem_map, List.mem_cons, hn.mem_erase_iff]
  constructor
  · rintro ⟨i, h1, h2⟩
    by_cases hi : i = old
    · rw [if_pos hi] at h2
      exact .inl h2.symm
    · rw [if_neg hi] at h2
      subst h2
      exact .inr ⟨hi, h1⟩
  · rintro (h | ⟨h1, h2⟩)
    · exact ⟨old, ho, by rw [if_pos rfl, h]⟩
    · exact ⟨j, h2, by rw [if_neg h1]⟩

theorem swap_nodup {t : List Id} {old new : Id} (hn : t.Nodup) (hw : new ∉ t) : (t.map fun i => if i = old then new else i).Nodup := by
  induction t with
  | nil => simp
  | cons a t ih =>
    obtain ⟨h1, h2⟩ := List.nodup_cons.1 hn
    have hw1 : new ≠ a := fun e => hw (by simp [e])
    have hw2 : new ∉ t := fun e => hw (by simp [e])
    rw [List.map_cons]
    refine List.nodup_cons.2 ⟨?_, ih h2 hw2⟩
    intro hm
    obtain ⟨i, i1, i2⟩ := List.mem_map.1 hm
    by_cases ha : a = old
    · rw [if_pos ha] at i2
      by_cases hi : i = old
      · subst hi
        exact h1 (ha ▸ i1)
      · rw [if_neg hi] at i2
        exact hw2 (i2 ▸ i1)
    · rw [if_neg ha] at i2
      by_cases hi : i = old
      · rw [if_pos hi] at i2
        exact hw1 i2
      · rw [if_neg hi] at i2
        exact h1 (i2 ▸ i1)

/-- The state after `do_item_replace` before the new item is put into its queue. -/
def swapped (sl : Slabs M) (s : St M) (o n : It) (old new : Id) : St M :=
  { offQ s o old with
    tbl := s.tbl.map fun i => if i = old then new else i
    heap := upd (upd s.heap new (some { n with linked := true, time := s.now })) old (rest o)
    stats := statReplace s.stats o n
    mem := if o.refs = 0 then sl.free s.mem o.n o.cls else s.mem }

theorem WF.swapped {s : St M} (h : WF s) (sl : Slabs M) {o n : It} {old new : Id} (ho : s.heap old = some o) (hn : s.heap new = some n)
    (lo : o.linked = true) (ln : n.linked = false) (hk : o.key = n.key) : WF (swapped sl s o n old new) := by
  have hne : old ≠ new := by
    intro e
    rw [e, hn] at ho
    injection ho with ho
    rw [← ho, ln] at lo
    cases lo
  have qn : n.inQ = false := by
    cases hq : n.inQ with
    | false => rfl
    | true => rw [h.linkedQ hn hq] at ln; cases ln
  have w1 := h.offQ ho
  have w2 := w1.leave (i := old) (it := { o with inQ := false }) (o := rest o) (by rw [offQ_heap ho, upd_same]) rfl rest_off
  simp only [offQ_heap ho, upd_upd, offQ_tbl] at w2
  have w3 := w2.enter (i := new) (it := n) (by simp only [upd_other hne.symm]; exact hn) qn ln (by
    intro j jt hj lj e
    simp only [] at hj
    by_cases hjo : j = old
    · subst hjo
      rw [upd_same] at hj
      rw [(rest_off jt hj).1] at lj
      cases lj
    · rw [upd_other hjo] at hj
      exact hjo (h.keys j old jt o hj ho lj lo (e.trans hk.symm)))
  have hot : old ∈ s.tbl := (h.t_mem old).2 ⟨o, ho, lo⟩
  have hnt : new ∉ s.tbl := by
    rw [h.t_mem]
    rintro ⟨x, x1, x2⟩
    rw [hn] at x1
    injection x1 with x1
    rw [← x1, ln] at x2
    cases x2
  have w4 := w3.tbl (t := s.tbl.map fun i => if i = old then new else i) (swap_nodup h.t_nd hnt) (fun j => mem_swap hot h.t_nd j)
  refine w4.congr ?_ rfl rfl rfl rfl rfl (Nat.le_refl _)
  simp only [Lru.swapped, offQ_now]
  rw [upd_comm _ hne]

theorem replace_eq {s : St M} (h : Inv s) (sl : Slabs M) {o n : It} {old new : Id} (ho : s.heap old = some o) (hn : s.heap new = some n)
    (lo : o.linked = true) (ln : n.linked = false) (hk : o.key = n.key) (hp : o.pfx = n.pfx) :
    replace sl s old new = some (onQ (swapped sl s o n old new) { n with linked := true, time := s.now } new) ∧
    Inv (onQ (swapped sl s o n old new) { n with linked := true, time := s.now } new) := by
  have hne : old ≠ new := by
    intro e
    rw [e, hn] at ho
    injection ho with ho
    rw [← ho, ln] at lo
    cases lo
  have qn : n.inQ = false := by
    cases hq : n.inQ with
    | false => rfl
    | true => rw [h.wf.linkedQ hn hq] at ln; cases ln
  have w := h.wf.swapped sl ho hn lo ln hk
  have hi : (swapped sl s o n old new).heap new = some { n with linked := true, time := s.now } := by
    simp only [swapped]
    rw [upd_other hne.symm, upd_same]
  refine ⟨?_, w.onQ hi qn rfl ?_, ?_⟩
  · rw [← linkQ_eq w hi qn]
    unfold replace
    rw [ho, hn]
    simp only []
    rw [if_neg (by simp [lo, ln, qn, hk, hp]), unlinkQ_eq ho (h.wf.in_q old o ho)]
    simp only [offQ_heap ho, offQ_tbl, offQ_stats, offQ_now]
    have e1 : upd (upd (upd s.heap old (some { o with inQ := false })) new (some { n with linked := true, time := s.now })) old
        (some { o with inQ := false, linked := false }) =
        upd (upd s.heap new (some { n with linked := true, time := s.now })) old (some { o with inQ := false, linked := false }) := by
      rw [upd_comm _ hne, upd_upd]
    rw [e1]
    by_cases hr : o.refs = 0
    · rw [if_pos hr]
      unfold free
      simp only [upd_same]
      rw [if_neg (by simp [hr])]
      simp only [upd_upd]
      congr 1
      simp only [swapped, rest, hr, if_true]
      unfold offQ
      split <;> rfl
    · rw [if_neg hr]
      simp only []
      congr 1
      simp only [swapped, rest, if_neg hr]
      unfold offQ
      split <;> rfl
  · simp only [swapped, offQ_now]
  · have h1 : Off ({ s with heap := upd s.heap old (rest o) } : St M) :=
      h.off.upd (o := rest o) (i := old) (by intro x hx l; rw [(rest_off x hx).1] at l; cases l) rfl
    refine h1.upd (o := some { n with linked := true, time := s.now, inQ := true }) (i := new) ?_ ?_
    · intro x hx _ hq
      injection hx with hx
      subst hx
      cases hq
    · simp only [onQ, swapped]
      rw [upd_comm _ hne.symm, upd_upd]

theorem flushWalk_inv (sl : Slabs M) (p : Option Nat) (mark : Nat) (q : Nat × Bool) : ∀ (l : List Id) (s : St M), Inv s → l.Nodup →
    (∀ i ∈ l, i ∈ s.q q) → ∃ s', flushWalk sl p mark q s l = some s' ∧ Inv s'
  | [], s, h, _, _ => ⟨s, rfl, h⟩
  | i :: l, s, h, hn, hm => by
    obtain ⟨it, hi, hl, hq, hc⟩ := h.wf.q_mem q i (hm i (by simp))
    unfold flushWalk
    rw [hi]
    simp only []
    by_cases ht : it.time < mark
    · rw [if_pos ht]
      refine ⟨_, rfl, h.marks ?_⟩
      intro c
      by_cases hcq : c = q
      · subst hcq
        rw [upd_same]
        cases hs : c.2 with
        | false =>
          rw [if_neg (by simp), upd_same]
          exact Marks.tail _
        | true =>
          rw [if_pos rfl]
          exact (hs ▸ h.wf.marks c).tailS
      · rw [upd_other hcq]
        have : (if q.2 = true then s.low else upd s.low q (s.q q).getLast?) c = s.low c := by
          split
          · rfl
          · rw [upd_other hcq]
        rw [this]
        exact h.wf.marks c
    · rw [if_neg ht]
      obtain ⟨hn1, hn2⟩ := List.nodup_cons.1 hn
      by_cases hp : p = none ∨ p = some it.pfx
      · rw [if_pos hp, unlink_eq sl hi hl (h.wf.in_q i it hi)]
        simp only []
        refine flushWalk_inv sl p mark q l _ (h.gone hi rest_off _ _) hn2 ?_
        intro j hj
        rw [gone_q h.wf hi]
        have : j ≠ i := fun e => hn1 (e ▸ hj)
        exact (List.mem_erase_of_ne this).2 (hm j (by simp [hj]))
      · rw [if_neg hp]
        exact flushWalk_inv sl p mark q l s h hn2 (fun j hj => hm j (by simp [hj]))

theorem flushAll_inv (sl : Slabs M) (p : Option Nat) (mark : Nat) : ∀ (qs : List (Nat × Bool)) (s : St M), Inv s →
    ∃ s', flushAll sl p mark s qs = some s' ∧ Inv s'
  | [], s, h => ⟨s, rfl, h⟩
  | q :: qs, s, h => by
    obtain ⟨s1, e, h1⟩ := flushWalk_inv sl p mark q (s.q q) s h (h.wf.q_nd q) (fun _ h => h)
    unfold flushAll
    rw [e]
    exact flushAll_inv sl p mark qs s1 h1

theorem Inv.flush {s : St M} (h : Inv s) (cfg : Cfg) (sl : Slabs M) (p : Option Nat) (w : Nat) : ∃ s', flush cfg sl s p w = some s' ∧ Inv s' := by
  unfold Lru.flush
  simp only []
  generalize (if w = 0 then s.now - 1 else w - 1) = mark
  have h1 : Inv (match p with
    | none => { s with oldest := mark }
    | some p => { s with pmark := upd s.pmark p mark }) := by
    cases p with
    | none => exact h.congr rfl rfl rfl rfl rfl rfl (Nat.le_refl _)
    | some p => exact h.congr rfl rfl rfl rfl rfl rfl (Nat.le_refl _)
  by_cases hm : mark = 0
  · rw [if_pos hm]
    exact ⟨_, rfl, h1⟩
  · rw [if_neg hm]
    exact flushAll_inv sl p _ _ _ h1

end Verif.Lru
