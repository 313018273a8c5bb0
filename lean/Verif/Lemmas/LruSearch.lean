import Verif.Lemmas.LruReplace
/-! What the search for memory does to the items. -/
namespace Verif.Lru

variable {M : Type}

/-- The four sums are the same. -/
def Same4 (a b : Stats) : Prop :=
  a.currItems = b.currItems ∧ a.currBytes = b.currBytes ∧ a.stickyItems = b.stickyItems ∧ a.stickyBytes = b.stickyBytes

/-- The counters of evictions and repairs have gone up by this much. -/
def Up (a b : Stats) (e r : Nat) : Prop := b.evictions = a.evictions + e ∧ b.repairs = a.repairs + r

/-- One thing that the search does. -/
inductive Act (cfg : Cfg) : St M → St M → Prop
  | evict {s i it c st} (m) : s.heap i = some it → (s.q (c, false)).getLast? = some i → it.refs = 0 → valid s it = true → cfg.evict = true →
      Same4 st (statUnlink s.stats it) → Up s.stats st 1 0 → Act cfg s (gone s it i none st m)
  | dead {s i it st} (m) : s.heap i = some it → it.linked = true → it.refs = 0 → valid s it = false → Same4 st (statUnlink s.stats it) →
      Up s.stats st 0 0 → Act cfg s (gone s it i none st m)
  | repair {s i it c st} (m) : s.heap i = some it → i ∈ s.q (c, false) → it.refs ≠ 0 → it.time + 10800 < s.now → cfg.evict = true →
      Same4 st (statUnlink s.stats it) → Up s.stats st 0 1 → Act cfg s (gone s it i none st m)
  | drop {s i it c} : s.heap i = some it → i ∈ s.q (c, false) → it.refs ≠ 0 → Act cfg s (offQ s it i)
  | marks {s : St M} (low cur) : (∀ c, Marks c.2 (s.q c) (low c) (cur c)) → Act cfg s { s with low := low, cur := cur }
  | other {s : St M} (st m) : Same4 st s.stats → Up s.stats st 0 0 → Act cfg s { s with stats := st, mem := m }

/-- Any number of them. -/
inductive Acts (cfg : Cfg) : St M → St M → Prop
  | refl (s) : Acts cfg s s
  | step {s t u} : Act cfg s t → Acts cfg t u → Acts cfg s u

variable {cfg : Cfg}

theorem Acts.one {s t : St M} (h : Act cfg s t) : Acts cfg s t := .step h (.refl _)

theorem Acts.trans {s t u : St M} (h : Acts cfg s t) (h2 : Acts cfg t u) : Acts cfg s u := by
  induction h with
  | refl => exact h2
  | step a _ ih => exact .step a (ih h2)

theorem Act.inv {s t : St M} (a : Act cfg s t) (h : Inv s) : Inv t := by
  cases a with
  | evict m hi => exact h.gone hi (by intro x hx; cases hx) _ _
  | dead m hi => exact h.gone hi (by intro x hx; cases hx) _ _
  | repair m hi => exact h.gone hi (by intro x hx; cases hx) _ _
  | drop hi hm hr => exact ⟨h.wf.offQ hi, h.off.offQ hi hr⟩
  | marks low cur hm => exact h.marks hm
  | other st m _ _ => exact h.congr rfl rfl rfl rfl rfl rfl (Nat.le_refl _)

theorem Acts.inv {s t : St M} (a : Acts cfg s t) (h : Inv s) : Inv t := by
  induction a with
  | refl => exact h
  | step a _ ih => exact ih (a.inv h)

theorem same4_refl (a : Stats) : Same4 a a := ⟨rfl, rfl, rfl, rfl⟩

theorem gone_stats (s : St M) (st0 : Stats) (it i o st m) : gone { s with stats := st0 } it i o st m = gone s it i o st m := by
  unfold gone offQ
  split <;> rfl

/-- `do_item_evict` of the tail. -/
theorem evict_act (sl : Slabs M) {s : St M} (h : Inv s) (he : cfg.evict = true) {i it c} (hi : s.heap i = some it)
    (hm : (s.q (c, false)).getLast? = some i) (hr : it.refs = 0) (hv : valid s it = true) :
    ∃ t, evict sl s i = some t ∧ Act cfg s t ∧ ∀ d, t.q d = (s.q d).erase i := by
  obtain ⟨hl, _, _⟩ := h.wf.qOf hi (List.mem_of_getLast? hm)
  have e := unlink_eq sl (s := { s with stats := { s.stats with evictions := s.stats.evictions + 1 } }) hi hl (h.wf.in_q i it hi)
  rw [show rest it = none by simp [rest, hr]] at e
  refine ⟨_, e, ?_, fun d => ?_⟩
  · have := Act.evict (cfg := cfg) (st := statUnlink { s.stats with evictions := s.stats.evictions + 1 } it)
      (if it.refs = 0 then sl.free s.mem it.n it.cls else s.mem) hi hm hr hv he ⟨rfl, rfl, rfl, rfl⟩ ⟨rfl, rfl⟩
    rw [gone_stats]
    exact this
  · rw [gone_stats]
    exact gone_q h.wf hi d

/-- `do_item_invalidate` of an item that is no longer valid. -/
theorem invalidate_act (sl : Slabs M) {s : St M} (h : Inv s) {i it} (hi : s.heap i = some it)
    (hl : it.linked = true) (hr : it.refs = 0) (hv : valid s it = false) :
    ∃ t, invalidate sl s i = some t ∧ Act cfg s t ∧ ∀ d, t.q d = (s.q d).erase i := by
  have e := unlink_eq sl (s := { s with stats := { s.stats with reclaimed := s.stats.reclaimed + 1 } }) hi hl (h.wf.in_q i it hi)
  rw [show rest it = none by simp [rest, hr]] at e
  refine ⟨_, e, ?_, fun d => ?_⟩
  · have := Act.dead (cfg := cfg) (st := statUnlink { s.stats with reclaimed := s.stats.reclaimed + 1 } it)
      (if it.refs = 0 then sl.free s.mem it.n it.cls else s.mem) hi hl hr hv ⟨rfl, rfl, rfl, rfl⟩ ⟨rfl, rfl⟩
    rw [gone_stats]
    exact this
  · rw [gone_stats]
    exact gone_q h.wf hi d

/-- `do_item_repair` of an item in use. -/
theorem repair_act (sl : Slabs M) {s : St M} (h : Inv s) (he : cfg.evict = true) {i it c} (hi : s.heap i = some it)
    (hm : i ∈ s.q (c, false)) (hr : it.refs ≠ 0) (ht : it.time + 10800 < s.now) :
    ∃ t, repair sl s i = some t ∧ Act cfg s t ∧ ∀ d, t.q d = (s.q d).erase i := by
  obtain ⟨hl, hq, hc⟩ := h.wf.qOf hi hm
  unfold repair
  rw [hi]
  simp only []
  rw [unlink_eq sl (it := { it with refs := 0 }) (by simp) hl (fun _ => by rw [show qid { it with refs := 0 } = qid it from rfl, hc]; exact hm)]
  rw [show rest { it with refs := 0 } = none by simp [rest]]
  refine ⟨_, rfl, ?_, fun d => ?_⟩
  · have := Act.repair (cfg := cfg) (st := statUnlink { s.stats with repairs := s.stats.repairs + 1 } it)
      (sl.free s.mem it.n it.cls) hi hm hr ht he ⟨rfl, rfl, rfl, rfl⟩ ⟨rfl, rfl⟩
    unfold gone at this ⊢
    unfold offQ at this ⊢
    simp only [hq, upd_upd] at this ⊢
    exact this
  · unfold gone offQ
    rw [if_neg (by simp [hq])]
    rw [show qid { it with refs := 0 } = qid it from rfl, hc]
    simp only []
    by_cases hd : d = (c, false)
    · subst hd; rw [upd_same]
    · rw [upd_other hd, List.erase_of_not_mem]
      intro hm2
      exact hd ((h.wf.qOf hi hm2).2.2.symm.trans hc)

theorem drop_act {s : St M} (h : Inv s) {i it c} (hi : s.heap i = some it) (hm : i ∈ s.q (c, false)) (hr : it.refs ≠ 0) :
    ∃ t, drop s i = some t ∧ Act cfg s t ∧ ∀ d, t.q d = (s.q d).erase i := by
  refine ⟨_, unlinkQ_eq hi (h.wf.in_q i it hi), .drop hi hm hr, fun d => offQ_q h.wf hi d⟩

/-- `do_item_reclaim`. -/
theorem reclaim_act (sl : Slabs M) {s : St M} (h : Inv s) {i it} (n c : Nat) (hi : s.heap i = some it)
    (hl : it.linked = true) (hr : it.refs = 0) (hv : valid s it = false) :
    ∃ t b, reclaim sl s i n c = some (t, b) ∧ Acts cfg s t ∧ (∀ d, t.q d = (s.q d).erase i) ∧ (c ≠ 0 → b = true) := by
  unfold reclaim
  by_cases hc : c ≠ 0
  · rw [if_pos hc, hi]
    simp only []
    rw [unlink_eq sl (s := { s with heap := upd s.heap i (some { it with refs := 1 }), stats := { s.stats with reclaimed := s.stats.reclaimed + 1 }, mem := sl.adjust s.mem it.cls it.n n })
      (it := { it with refs := 1 }) (upd_same _ _ _) hl (fun hq => h.wf.in_q i it hi hq)]
    simp only [show rest { it with refs := 1 } = some { it with refs := 1, inQ := false, linked := false } by simp [rest]]
    refine ⟨_, true, rfl, .one ?_, fun d => ?_, fun _ => rfl⟩
    · have := Act.dead (cfg := cfg) (st := statUnlink { s.stats with reclaimed := s.stats.reclaimed + 1 } it)
        (sl.adjust s.mem it.cls it.n n) hi hl hr hv ⟨rfl, rfl, rfl, rfl⟩ ⟨rfl, rfl⟩
      unfold gone at this ⊢
      unfold offQ at this ⊢
      cases hq : it.inQ <;> simp [hq] at this ⊢ <;> exact this
    · have := offQ_q h.wf hi d
      unfold gone
      unfold offQ at this ⊢
      cases hq : it.inQ <;> simp [hq] at this ⊢ <;> exact this
  · rw [if_neg hc]
    obtain ⟨t, e, a, hq⟩ := invalidate_act (cfg := cfg) sl h hi hl hr hv
    rw [e]
    simp only [slabsAlloc]
    split
    · exact ⟨_, _, rfl, .one a, hq, fun h => absurd h hc⟩
    · exact ⟨_, _, rfl, .step a (.one (.other (s := t) t.stats _ (same4_refl _) ⟨rfl, rfl⟩)), hq, fun h => absurd h hc⟩

theorem slabsAlloc_acts (sl : Slabs M) (s : St M) (n c : Nat) : Acts cfg s (slabsAlloc sl s n c).1 ∧ ∀ d, (slabsAlloc sl s n c).1.q d = s.q d := by
  unfold slabsAlloc
  split
  · exact ⟨.refl _, fun _ => rfl⟩
  · exact ⟨.one (.other (s := s) s.stats _ (same4_refl _) ⟨rfl, rfl⟩), fun _ => rfl⟩

theorem regainLoop_acts (sl : Slabs M) (he : cfg.evict = true) (c : Nat) : ∀ (k : Nat) (s : St M), Inv s →
    ∃ t, regainLoop sl c k s (s.q (c, false)).getLast? = some t ∧ Acts cfg s t
  | 0, s, _ => by
    cases (s.q (c, false)).getLast? <;> exact ⟨s, rfl, .refl _⟩
  | k + 1, s, h => by
    cases hl : (s.q (c, false)).getLast? with
    | none => exact ⟨s, rfl, .refl _⟩
    | some i =>
      have hm := List.mem_of_getLast? hl
      obtain ⟨it, hi, il, iq, ic⟩ := h.wf.q_mem _ _ hm
      unfold regainLoop
      rw [hi]
      simp only []
      rw [(prevOf_last (h.wf.q_nd _) hl).1]
      have go : ∀ t, Act cfg s t → (∀ d, t.q d = (s.q d).erase i) → ∃ u, regainLoop sl c k t ((s.q (c, false)).erase i).getLast? = some u ∧ Acts cfg s u := by
        intro t a hq
        obtain ⟨u, e, b⟩ := regainLoop_acts sl he c k t (a.inv h)
        rw [hq] at e
        exact ⟨u, e, .step a b⟩
      by_cases hr : it.refs = 0
      · rw [if_pos hr]
        cases hv : valid s it with
        | true =>
          obtain ⟨t, e, a, hq⟩ := evict_act (cfg := cfg) sl h he hi hl hr hv
          simp only [if_true, e]
          exact go t a hq
        | false =>
          obtain ⟨t, e, a, hq⟩ := invalidate_act (cfg := cfg) sl h hi il hr hv
          simp only [Bool.false_eq_true, if_false, e]
          exact go t a hq
      · rw [if_neg hr]
        obtain ⟨t, e, a, hq⟩ := drop_act (cfg := cfg) h hi hm hr
        rw [e]
        exact go t a hq

theorem dead_spec {s : St M} {i it} (hi : s.heap i = some it) : dead s i = some (it.refs == 0 && !valid s it) := by
  unfold dead
  rw [hi]

theorem oneMore_acts (sl : Slabs M) {s : St M} (h : Inv s) {q} {o : Option Id} (ho : ∀ i, o = some i → i ∈ s.q q) :
    ∃ t, oneMore sl s o = some t ∧ Acts cfg s t := by
  unfold oneMore
  cases o with
  | none => exact ⟨s, rfl, .refl _⟩
  | some i =>
    obtain ⟨it, hi, il, _, _⟩ := h.wf.q_mem _ _ (ho i rfl)
    simp only [dead_spec hi]
    cases hd : (it.refs == 0 && !valid s it) with
    | false => exact ⟨s, rfl, .refl _⟩
    | true =>
      simp at hd
      obtain ⟨t, e, a, _⟩ := invalidate_act (cfg := cfg) sl h hi il hd.1 hd.2
      exact ⟨t, e, .one a⟩

theorem markLoop_acts (sl : Slabs M) (n : Nat) (q : Nat × Bool) : ∀ (k : Nat) (s : St M), Inv s →
    ∃ t b, markLoop sl n q k s = some (t, b) ∧ Acts cfg s t ∧ (b = false → q.1 ≠ 0 → ∀ d, t.q d = s.q d)
  | 0, s, _ => ⟨s, false, rfl, .refl _, fun _ _ _ => rfl⟩
  | k + 1, s, h => by
    unfold markLoop
    cases hc : s.cur q with
    | none => exact ⟨s, false, rfl, .refl _, fun _ _ _ => rfl⟩
    | some i =>
      simp only []
      have hm := (h.wf.marks q).cur_in i hc
      obtain ⟨it, hi, il, _, _⟩ := h.wf.q_mem _ _ hm
      have a1 : Act cfg s { s with cur := upd s.cur q (prevOf (s.q q) i) } := by
        refine .marks s.low _ (fun c => ?_)
        by_cases hcq : c = q
        · subst hcq
          rw [upd_same]
          exact (hc ▸ h.wf.marks c).curUp (h.wf.q_nd c)
        · rw [upd_other hcq]
          exact h.wf.marks c
      have h1 := a1.inv h
      rw [dead_spec (s := { s with cur := upd s.cur q (prevOf (s.q q) i) }) hi]
      cases hd : (it.refs == 0 && !valid { s with cur := upd s.cur q (prevOf (s.q q) i) } it) with
      | false =>
        simp only []
        obtain ⟨t, b, e, a2, a3⟩ := markLoop_acts sl n q k _ h1
        exact ⟨t, b, e, .step a1 a2, a3⟩
      | true =>
        simp only []
        simp at hd
        obtain ⟨t, b, e, a2, hq, hb⟩ := reclaim_act (cfg := cfg) sl h1 n q.1 hi il hd.1 hd.2
        rw [e]
        cases b with
        | true => exact ⟨t, true, rfl, .step a1 a2, fun h => by cases h⟩
        | false =>
          simp only []
          obtain ⟨u, b, e2, a3, _⟩ := markLoop_acts sl n q k t (a2.inv h1)
          refine ⟨u, b, e2, .step a1 (a2.trans a3), fun _ h0 => ?_⟩
          have := hb h0
          cases this

theorem lowLoop_acts (sl : Slabs M) (n c : Nat) : ∀ (k : Nat) (s : St M) (o : Option Id), Inv s → (∀ i, o = some i → i ∈ s.q (c, false)) →
    ∃ t k' p, lowLoop sl n c k s o = some (t, k', p) ∧ Acts cfg s t ∧ (∀ o', p = some o' → ∀ i, o' = some i → i ∈ t.q (c, false)) ∧
      (p = none → c ≠ 0 → ∀ d, t.q d = s.q d)
  | 0, s, o, _, _ => by
    cases o <;> exact ⟨s, 0, none, rfl, .refl _, fun _ h => (by cases h), fun _ _ _ => rfl⟩
  | k + 1, s, none, _, _ => ⟨s, k + 1, none, rfl, .refl _, fun _ h => (by cases h), fun _ _ _ => rfl⟩
  | k + 1, s, some i, h, ho => by
    unfold lowLoop
    by_cases hc : s.cur (c, false) = some i
    · rw [if_pos hc]
      exact ⟨s, k + 1, none, rfl, .refl _, fun _ h => (by cases h), fun _ _ _ => rfl⟩
    · rw [if_neg hc]
      have hm := ho i rfl
      obtain ⟨it, hi, il, _, _⟩ := h.wf.q_mem _ _ hm
      rw [hi]
      simp only []
      have hp : ∀ p, prevOf (s.q (c, false)) i = some p → p ∈ s.q (c, false) ∧ p ≠ i := fun p hp => prevOf_mem (h.wf.q_nd _) hm hp
      by_cases hd : it.refs = 0 ∧ valid s it = false
      · rw [if_pos hd]
        obtain ⟨t, b, e, a, hq, hb⟩ := reclaim_act (cfg := cfg) sl h n c hi il hd.1 hd.2
        rw [e]
        have hp' : ∀ p, prevOf (s.q (c, false)) i = some p → p ∈ t.q (c, false) := by
          intro p e
          rw [hq]
          exact (List.mem_erase_of_ne (hp p e).2).2 (hp p e).1
        cases b with
        | true => exact ⟨t, k + 1, some _, rfl, a, fun o' h => by injection h with h; subst h; exact hp', fun h => by cases h⟩
        | false =>
          simp only []
          obtain ⟨u, k', p, e2, a2, a3, _⟩ := lowLoop_acts sl n c k t (prevOf (s.q (c, false)) i) (a.inv h) hp'
          refine ⟨u, k', p, e2, a.trans a2, a3, fun _ h0 => ?_⟩
          have := hb h0
          cases this
      · rw [if_neg hd]
        by_cases hx : it.exp = 0 ∧ s.low (c, false) = some i
        · rw [if_pos hx]
          have a1 : Act cfg s { s with low := upd s.low (c, false) (prevOf (s.q (c, false)) i) } := by
            refine .marks _ s.cur (fun d => ?_)
            by_cases hcq : d = (c, false)
            · subst hcq
              rw [upd_same]
              exact (hx.2 ▸ h.wf.marks (c, false)).lowUp (h.wf.q_nd _) hc
            · rw [upd_other hcq]
              exact h.wf.marks d
          obtain ⟨u, k', p, e2, a2, a3⟩ := lowLoop_acts sl n c k _ (prevOf (s.q (c, false)) i) (a1.inv h) (fun p e => (hp p e).1)
          exact ⟨u, k', p, e2, .step a1 a2, a3⟩
        · rw [if_neg hx]
          exact lowLoop_acts sl n c k s (prevOf (s.q (c, false)) i) h (fun p e => (hp p e).1)

theorem tailLoop_acts (sl : Slabs M) (he : cfg.evict = true) (n c : Nat) : ∀ (k : Nat) (s : St M), Inv s →
    ∃ t b, tailLoop sl n c k s (s.q (c, false)).getLast? = some (t, b) ∧ Acts cfg s t
  | 0, s, _ => by
    cases (s.q (c, false)).getLast? <;> exact ⟨s, false, rfl, .refl _⟩
  | k + 1, s, h => by
    cases hl : (s.q (c, false)).getLast? with
    | none => exact ⟨s, false, rfl, .refl _⟩
    | some i =>
      have hm := List.mem_of_getLast? hl
      obtain ⟨it, hi, il, iq, ic⟩ := h.wf.q_mem _ _ hm
      unfold tailLoop
      rw [hi]
      simp only []
      rw [(prevOf_last (h.wf.q_nd _) hl).1]
      have go : ∀ t, Acts cfg s t → (∀ d, t.q d = (s.q d).erase i) →
          ∃ u b, tailLoop sl n c k t ((s.q (c, false)).erase i).getLast? = some (u, b) ∧ Acts cfg s u := by
        intro t a hq
        obtain ⟨u, b, e, a2⟩ := tailLoop_acts sl he n c k t (a.inv h)
        rw [hq] at e
        exact ⟨u, b, e, a.trans a2⟩
      by_cases hr : it.refs = 0
      · rw [if_pos hr]
        cases hv : valid s it with
        | true =>
          obtain ⟨t, e, a, hq⟩ := evict_act (cfg := cfg) sl h he hi hl hr hv
          simp only [if_true, e, Option.map_some]
          obtain ⟨a2, hq2⟩ := slabsAlloc_acts (cfg := cfg) sl t n c
          cases hs : slabsAlloc sl t n c with
          | mk u b =>
            rw [hs] at a2 hq2
            cases b with
            | true => exact ⟨u, true, rfl, .step a a2⟩
            | false => exact go u (.step a a2) (fun d => (hq2 d).trans (hq d))
        | false =>
          obtain ⟨t, b, e, a, hq, _⟩ := reclaim_act (cfg := cfg) sl h n c hi il hr hv
          simp only [Bool.false_eq_true, if_false, e]
          cases b with
          | true => exact ⟨t, true, rfl, a⟩
          | false => exact go t a hq
      · rw [if_neg hr]
        obtain ⟨t, e, a, hq⟩ := drop_act (cfg := cfg) h hi hm hr
        rw [e]
        exact go t (.one a) hq

theorem repairLoop_acts (sl : Slabs M) (he : cfg.evict = true) (n c : Nat) : ∀ (k : Nat) (s : St M) (o : Option Id), Inv s →
    (∀ i, o = some i → i ∈ s.q (c, false)) → ∃ t b, repairLoop sl n c k s o = some (t, b) ∧ Acts cfg s t
  | 0, s, o, _, _ => by cases o <;> exact ⟨s, false, rfl, .refl _⟩
  | k + 1, s, none, _, _ => ⟨s, false, rfl, .refl _⟩
  | k + 1, s, some i, h, ho => by
    have hm := ho i rfl
    obtain ⟨it, hi, il, iq, ic⟩ := h.wf.q_mem _ _ hm
    have hp : ∀ p, prevOf (s.q (c, false)) i = some p → p ∈ s.q (c, false) ∧ p ≠ i := fun p hp => prevOf_mem (h.wf.q_nd _) hm hp
    unfold repairLoop
    rw [hi]
    simp only []
    by_cases hd : it.refs ≠ 0 ∧ it.time + 10800 < s.now
    · rw [if_pos hd]
      obtain ⟨t, e, a, hq⟩ := repair_act (cfg := cfg) sl h he hi hm hd.1 hd.2
      simp only [e, Option.map_some]
      obtain ⟨a2, hq2⟩ := slabsAlloc_acts (cfg := cfg) sl t n c
      cases hs : slabsAlloc sl t n c with
      | mk u b =>
        rw [hs] at a2 hq2
        cases b with
        | true => exact ⟨u, true, rfl, .step a a2⟩
        | false =>
          simp only []
          obtain ⟨v, b, e, a3⟩ := repairLoop_acts sl he n c k u (prevOf (s.q (c, false)) i) (a2.inv (a.inv h)) (by
            intro p e
            rw [hq2, hq]
            exact (List.mem_erase_of_ne (hp p e).2).2 (hp p e).1)
          exact ⟨v, b, e, .step a (a2.trans a3)⟩
    · rw [if_neg hd]
      exact repairLoop_acts sl he n c k s _ h (fun p e => (hp p e).1)

theorem allocOrEvict_acts (sl : Slabs M) {s : St M} (h : Inv s) (n c : Nat) : ∃ t b, allocOrEvict cfg sl s n c = some (t, b) ∧ Acts cfg s t := by
  unfold allocOrEvict
  obtain ⟨a, hq⟩ := slabsAlloc_acts (cfg := cfg) sl s n c
  cases hs : slabsAlloc sl s n c with
  | mk u b =>
    rw [hs] at a hq
    cases b with
    | true => exact ⟨u, true, rfl, a⟩
    | false =>
      simp only []
      by_cases he : cfg.evict = false
      · rw [if_pos he]
        exact ⟨_, _, rfl, a.trans (.one (.other (s := u) _ u.mem ⟨rfl, rfl, rfl, rfl⟩ ⟨rfl, rfl⟩))⟩
      · rw [if_neg he]
        have he : cfg.evict = true := by simpa using he
        obtain ⟨v, b, e, a2⟩ := tailLoop_acts (cfg := cfg) sl he n c 200 u (a.inv h)
        rw [e]
        cases b with
        | true => exact ⟨v, true, rfl, a.trans a2⟩
        | false =>
          simp only []
          have a3 : Act cfg v { v with stats := { v.stats with outOfMemory := v.stats.outOfMemory + 1 } } :=
            .other (s := v) _ v.mem ⟨rfl, rfl, rfl, rfl⟩ ⟨rfl, rfl⟩
          by_cases hc : c = 0
          · rw [if_pos hc]
            exact ⟨_, _, rfl, a.trans (a2.trans (.one a3))⟩
          · rw [if_neg hc]
            obtain ⟨w, b, e, a4⟩ := repairLoop_acts (cfg := cfg) sl he n c 50 _ (v.q (c, false)).getLast? (a3.inv (a2.inv (a.inv h)))
              (fun i hi => List.mem_of_getLast? hi)
            exact ⟨w, b, e, a.trans (a2.trans (.step a3 a4))⟩

theorem curSearch_acts (sl : Slabs M) {s : St M} (h : Inv s) (n c k : Nat) : ∃ t b, curSearch cfg sl s n c k = some (t, b) ∧ Acts cfg s t := by
  unfold curSearch
  obtain ⟨t, b, e, a, _⟩ := markLoop_acts (cfg := cfg) sl n (c, false) k s h
  rw [e]
  simp only []
  have ht := a.inv h
  have a2 : Acts cfg t (if t.cur (c, false) = none then { t with cur := upd t.cur (c, false) (t.low (c, false)) } else t) := by
    split
    · refine .one (.marks t.low _ (fun d => ?_))
      by_cases hd : d = (c, false)
      · subst hd
        rw [upd_same]
        exact (ht.wf.marks (c, false)).again
      · rw [upd_other hd]
        exact ht.wf.marks d
    · exact .refl _
  revert a2
  generalize (if t.cur (c, false) = none then { t with cur := upd t.cur (c, false) (t.low (c, false)) } else t) = u
  intro a2
  have hu := a2.inv ht
  cases b with
  | true =>
    obtain ⟨v, e, a3⟩ := oneMore_acts (cfg := cfg) sl hu (q := (c, false)) (o := u.cur (c, false)) (fun i hi => (hu.wf.marks _).cur_in i hi)
    simp only [if_true, e, Option.map_some]
    exact ⟨_, _, rfl, a.trans (a2.trans a3)⟩
  | false =>
    simp only [Bool.false_eq_true, if_false]
    obtain ⟨v, b, e, a3⟩ := allocOrEvict_acts (cfg := cfg) sl hu n c
    exact ⟨v, b, e, a.trans (a2.trans a3)⟩

theorem lowSearch_acts (sl : Slabs M) {s : St M} (h : Inv s) (n c : Nat) : ∃ t b, lowSearch cfg sl s n c = some (t, b) ∧ Acts cfg s t := by
  unfold lowSearch
  cases hc : s.cur (c, false) with
  | none => exact allocOrEvict_acts sl h n c
  | some x =>
    obtain ⟨y, _, _, hy, _, _⟩ := (h.wf.marks (c, false)).order rfl x hc
    simp only [hy]
    obtain ⟨t, k, p, e, a, hp, _⟩ := lowLoop_acts (cfg := cfg) sl n c 10 s (some y) h (fun i hi => by
      injection hi with hi; subst hi; exact (h.wf.marks _).low_in y hy)
    rw [e]
    cases p with
    | none =>
      obtain ⟨u, b, e, a2⟩ := curSearch_acts (cfg := cfg) sl (a.inv h) n c (k + 20)
      exact ⟨u, b, e, a.trans a2⟩
    | some p =>
      obtain ⟨u, e, a2⟩ := oneMore_acts (cfg := cfg) sl (a.inv h) (q := (c, false)) (o := p) (hp p rfl)
      simp only [e, Option.map_some]
      exact ⟨u, true, rfl, a.trans a2⟩

theorem stickySearch_acts (sl : Slabs M) {s : St M} (h : Inv s) (n c : Nat) : ∃ t b, stickySearch cfg sl s n c = some (t, b) ∧ Acts cfg s t := by
  unfold stickySearch
  cases hc : s.cur (c, true) with
  | none => exact lowSearch_acts sl h n c
  | some x =>
    simp only []
    obtain ⟨t, b, e, a, _⟩ := markLoop_acts (cfg := cfg) sl n (c, true) 10 s h
    rw [e]
    have ht := a.inv h
    cases b with
    | true =>
      obtain ⟨u, e, a2⟩ := oneMore_acts (cfg := cfg) sl ht (q := (c, true)) (o := t.cur (c, true)) (fun i hi => (ht.wf.marks _).cur_in i hi)
      simp only [e, Option.map_some]
      exact ⟨u, true, rfl, a.trans a2⟩
    | false =>
      obtain ⟨u, b, e, a2⟩ := lowSearch_acts (cfg := cfg) sl ht n c
      exact ⟨u, b, e, a.trans a2⟩

theorem regain_acts (sl : Slabs M) (he : cfg.evict = true) {s : St M} (h : Inv s) (k : Nat) : ∃ t, regain sl s k = some t ∧ Acts cfg s t :=
  regainLoop_acts sl he 0 k s h

theorem memAlloc_acts (sl : Slabs M) {s : St M} (h : Inv s) (n c : Nat) : ∃ t b, memAlloc cfg sl s n c = some (t, b) ∧ Acts cfg s t := by
  unfold memAlloc
  by_cases hc : cfg.evict = true ∧ c = 0 ∧ 0 < sl.level s.mem
  · rw [if_pos hc]
    obtain ⟨t, e, a⟩ := regain_acts (cfg := cfg) sl hc.1 h (sl.level s.mem)
    rw [e]
    obtain ⟨u, b, e, a2⟩ := stickySearch_acts (cfg := cfg) sl (a.inv h) n c
    exact ⟨u, b, e, a.trans a2⟩
  · rw [if_neg hc]
    exact stickySearch_acts sl h n c

end Verif.Lru
