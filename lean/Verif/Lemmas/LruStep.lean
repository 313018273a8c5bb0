import Verif.Lemmas.LruSearch
import Verif.Spec.Lru
/-! Every call is a sequence of small changes. -/
namespace Verif.Lru
open Spec

variable {M : Type}

/-- The item at the head of its queue with a new time. -/
def touched (s : St M) (it : It) (i : Id) : St M :=
  onQ { offQ s it i with heap := upd (offQ s it i).heap i (some { it with inQ := false, time := (offQ s it i).now }) } { it with inQ := false, time := s.now } i

/-- The state after an item was stored. -/
def linked (s : St M) (it : It) (i : Id) : St M :=
  { onQ { s with heap := upd s.heap i (some { it with linked := true, time := s.now }), tbl := i :: s.tbl } { it with linked := true, time := s.now } i with
    stats := statLink s.stats it }

/-- Items that differ in references and expire time only. -/
structure Tw (it it' : It) : Prop where
  key : it'.key = it.key
  pfx : it'.pfx = it.pfx
  cls : it'.cls = it.cls
  time : it'.time = it.time
  size : it'.size = it.size
  linked : it'.linked = it.linked
  inQ : it'.inQ = it.inQ
  stick : it'.exp = sticky ↔ it.exp = sticky

/-- A small change. -/
inductive Mi (cfg : Cfg) (sl : Slabs M) (op : Op) (out : Out) : St M → St M → Prop
  | act {s t} : Act cfg s t → AsksMemory op → Mi cfg sl op out s t
  | remove {s i it} (m) : s.heap i = some it → it.linked = true →
      (op = .unlink i ∨ valid s it = false ∨ ∃ p w, op = .flush p w ∧ (p = none ∨ p = some it.pfx)) →
      Mi cfg sl op out s (gone s it i (rest it) (statUnlink s.stats it) m)
  | touch {s i it} : s.heap i = some it → it.linked = true → Touch op out i → Mi cfg sl op out s (touched s it i)
  | tweak {s i it it'} : s.heap i = some it → Tw it it' → (it'.linked = true → it'.inQ = false → it'.refs ≠ 0) →
      (it'.exp = it.exp ∨ op = .setExp i it'.exp) → Mi cfg sl op out s { s with heap := upd s.heap i (some it') }
  | grow {s i it n} : s.heap i = some it → it.linked = true → op = .grow i n → Mi cfg sl op out s
      { s with heap := upd s.heap i (some { it with size := it.size + n }), stats := { s.stats with
          stickyBytes := if it.exp = sticky then add64 s.stats.stickyBytes n else s.stats.stickyBytes
          currBytes := add64 s.stats.currBytes n } }
  | shrink {s i it n} : s.heap i = some it → it.linked = true → n ≤ it.size → op = .shrink i n → Mi cfg sl op out s
      { s with heap := upd s.heap i (some { it with size := it.size - n }), stats := { s.stats with
          stickyBytes := if it.exp = sticky then sub64 s.stats.stickyBytes n else s.stats.stickyBytes
          currBytes := sub64 s.stats.currBytes n } }
  | free {s i it} (m) : s.heap i = some it → it.linked = false → it.refs = 0 → Mi cfg sl op out s { s with heap := upd s.heap i none, mem := m }
  | new {s it} : it.linked = false → it.inQ = false → Mi cfg sl op out s { s with heap := upd s.heap s.next (some it), next := s.next + 1 }
  | link {s i it} : s.heap i = some it → it.linked = false → it.inQ = false → find s it.key = none → op = .link i → Mi cfg sl op out s (linked s it i)
  | swap {s o n old new} : s.heap old = some o → s.heap new = some n → o.linked = true → n.linked = false → o.key = n.key → o.pfx = n.pfx →
      op = .replace old new → Mi cfg sl op out s (onQ (swapped sl s o n old new) { n with linked := true, time := s.now } new)
  | marks {s : St M} (low cur) : (∀ c, Marks c.2 (s.q c) (low c) (cur c)) → Mi cfg sl op out s { s with low := low, cur := cur }
  | tick {s : St M} (dt) : op = .tick dt → Mi cfg sl op out s { s with now := s.now + dt }
  | mark {s : St M} (m) (w) : op = .flush none w → Mi cfg sl op out s { s with oldest := m }
  | pmark {s : St M} (p m) (w) : op = .flush (some p) w → Mi cfg sl op out s { s with pmark := upd s.pmark p m }
  | mem {s : St M} (m) : Mi cfg sl op out s { s with mem := m }

/-- Any number of them. -/
inductive Mis (cfg : Cfg) (sl : Slabs M) (op : Op) (out : Out) : St M → St M → Prop
  | refl (s) : Mis cfg sl op out s s
  | step {s t u} : Mi cfg sl op out s t → Mis cfg sl op out t u → Mis cfg sl op out s u

variable {cfg : Cfg} {sl : Slabs M} {op : Op} {out : Out}

theorem Mis.one {s t : St M} (h : Mi cfg sl op out s t) : Mis cfg sl op out s t := .step h (.refl _)

theorem Mis.trans {s t u : St M} (h : Mis cfg sl op out s t) (h2 : Mis cfg sl op out t u) : Mis cfg sl op out s u := by
  induction h with
  | refl => exact h2
  | step a _ ih => exact .step a (ih h2)

theorem Acts.mis {s t : St M} (h : Acts cfg s t) (ho : AsksMemory op) : Mis cfg sl op out s t := by
  induction h with
  | refl => exact .refl _
  | step a _ ih => exact .step (.act a ho) ih

theorem Inv.linked {s : St M} (h : Inv s) {i it} (hi : s.heap i = some it) (hl : it.linked = false) (hq : it.inQ = false) (hf : find s it.key = none) :
    Lru.link s i = some (linked s it i) ∧ Inv (linked s it i) := by
  obtain ⟨s', e, hs⟩ := h.link hi hl hf
  have w1 := h.wf.enter hi hq hl (find_none h.wf hf)
  have hi1 : ({ s with heap := upd s.heap i (some { it with linked := true, time := s.now }), tbl := i :: s.tbl } : St M).heap i =
      some { it with linked := true, time := s.now } := upd_same _ _ _
  have e2 : Lru.link s i = some (Lru.linked s it i) := by
    unfold Lru.link
    rw [hi]
    simp only []
    rw [if_neg (by simp [hl, hq, hf]), linkQ_eq w1 hi1 hq]
    rfl
  rw [e] at e2
  injection e2 with e2
  subst e2
  exact ⟨e, hs⟩

theorem Mi.inv {s t : St M} (a : Mi cfg sl op out s t) (h : Inv s) : Inv t := by
  cases a with
  | act a _ => exact a.inv h
  | remove m hi => exact h.gone hi rest_off _ _
  | touch hi hl => exact (h.again hi hl).2
  | tweak hi tw hr =>
    exact h.heapOn hi tw.inQ tw.linked tw.key tw.time (by
      unfold qid
      rw [tw.cls]
      congr 1
      rw [Bool.eq_iff_iff]
      simp only [beq_iff_eq]
      exact tw.stick) hr
  | @grow i it n hi hl =>
    exact (h.heapOn (it' := { it with size := it.size + n }) hi rfl rfl rfl rfl rfl (fun _ hq => h.off i it hi hl hq)).congr rfl rfl rfl rfl rfl rfl (Nat.le_refl _)
  | @shrink i it n hi hl =>
    exact (h.heapOn (it' := { it with size := it.size - n }) hi rfl rfl rfl rfl rfl (fun _ hq => h.off i it hi hl hq)).congr rfl rfl rfl rfl rfl rfl (Nat.le_refl _)
  | @free i it m hi hl hr =>
    have hq : it.inQ = false := by
      cases hq : it.inQ with
      | false => rfl
      | true => rw [h.wf.linkedQ hi hq] at hl; cases hl
    have hg := h.gone (o := none) hi (by intro x hx; cases hx) s.stats m
    refine hg.congr ?_ ?_ ?_ ?_ ?_ ?_ ?_
    · rfl
    · simp only [Lru.gone, offQ, hq, if_true]
    · simp only [Lru.gone]
      rw [List.erase_of_not_mem]
      rw [h.wf.t_mem]
      rintro ⟨x, x1, x2⟩
      rw [hi] at x1
      injection x1 with x1
      rw [← x1, hl] at x2
      cases x2
    · simp only [Lru.gone, offQ, hq, if_true]
    · simp only [Lru.gone, offQ, hq, if_true]
    · simp only [Lru.gone, offQ_next]
    · simp only [Lru.gone, offQ_now]; exact Nat.le_refl _
  | new hl hq => exact h.alloc hl hq
  | link hi hl hq hf _ => exact (h.linked hi hl hq hf).2
  | swap ho hn lo ln hk hp _ => exact (replace_eq h sl ho hn lo ln hk hp).2
  | marks low cur hm => exact h.marks hm
  | tick dt _ => exact h.congr rfl rfl rfl rfl rfl rfl (Nat.le_add_right _ _)
  | mark m w _ => exact h.congr rfl rfl rfl rfl rfl rfl (Nat.le_refl _)
  | pmark p m w _ => exact h.congr rfl rfl rfl rfl rfl rfl (Nat.le_refl _)
  | mem m => exact h.congr rfl rfl rfl rfl rfl rfl (Nat.le_refl _)

theorem Mis.inv {s t : St M} (a : Mis cfg sl op out s t) (h : Inv s) : Inv t := by
  induction a with
  | refl => exact h
  | step a _ ih => exact ih (a.inv h)

theorem unlink_mis {s : St M} (h : Inv s) {i it} (hi : s.heap i = some it)
    (hc : op = .unlink i ∨ valid s it = false ∨ ∃ p w, op = .flush p w ∧ (p = none ∨ p = some it.pfx)) :
    ∃ t, unlink sl s i = some t ∧ Mis cfg sl op out s t := by
  by_cases hl : it.linked = true
  · exact ⟨_, unlink_eq sl hi hl (h.wf.in_q i it hi), .one (.remove _ hi hl hc)⟩
  · exact ⟨s, unlink_not sl hi (by simpa using hl), .refl _⟩

theorem update_mis {s : St M} (h : Inv s) {i it} (hi : s.heap i = some it) (f : Bool) (ho : Touch op out i) :
    ∃ t, update s i f = some t ∧ Mis cfg sl op out s t := by
  refine ⟨_, update_eq h hi f, ?_⟩
  split
  · rename_i hc
    exact .one (.touch hi hc.1 ho)
  · exact .refl _

theorem update_all {s : St M} (h : Inv s) {i it} (hi : s.heap i = some it) (f : Bool) (ho : ∀ out, Touch op out i) :
    ∃ t, update s i f = some t ∧ ∀ out, Mis cfg sl op out s t := by
  refine ⟨_, update_eq h hi f, fun out => ?_⟩
  split
  · rename_i hc
    exact .one (.touch hi hc.1 (ho out))
  · exact .refl _

theorem flushWalk_mis (p : Option Nat) (w mark : Nat) (ho : op = .flush p w) (q : Nat × Bool) : ∀ (l : List Id) (s : St M), Inv s → l.Nodup →
    (∀ i ∈ l, i ∈ s.q q) → ∃ s', flushWalk sl p mark q s l = some s' ∧ Mis cfg sl op out s s'
  | [], s, h, _, _ => ⟨s, rfl, .refl _⟩
  | i :: l, s, h, hn, hm => by
    obtain ⟨it, hi, hl, hq, hc⟩ := h.wf.q_mem q i (hm i (by simp))
    unfold flushWalk
    rw [hi]
    simp only []
    by_cases ht : it.time < mark
    · rw [if_pos ht]
      refine ⟨_, rfl, .one (.marks _ _ ?_)⟩
      intro c
      by_cases hcq : c = q
      · subst hcq
        rw [upd_same]
        cases hs : c.2 with
        | false =>
          rw [if_neg (by simp), upd_same]
          exact Marks.tail _
        | true =>
          rw [if_pos rfl]
          exact (hs ▸ h.wf.marks c).tailS
      · rw [upd_other hcq]
        have : (if q.2 = true then s.low else upd s.low q (s.q q).getLast?) c = s.low c := by
          split
          · rfl
          · rw [upd_other hcq]
        rw [this]
        exact h.wf.marks c
    · rw [if_neg ht]
      obtain ⟨hn1, hn2⟩ := List.nodup_cons.1 hn
      by_cases hp : p = none ∨ p = some it.pfx
      · rw [if_pos hp, unlink_eq sl hi hl (h.wf.in_q i it hi)]
        simp only []
        obtain ⟨t, e, a⟩ := flushWalk_mis p w mark ho q l _ (h.gone hi rest_off (statUnlink s.stats it)
          (if it.refs = 0 then sl.free s.mem it.n it.cls else s.mem)) hn2 (by
            intro j hj
            rw [gone_q h.wf hi]
            have : j ≠ i := fun e => hn1 (e ▸ hj)
            exact (List.mem_erase_of_ne this).2 (hm j (by simp [hj])))
        exact ⟨t, e, .step (.remove _ hi hl (.inr (.inr ⟨p, w, ho, hp⟩))) a⟩
      · rw [if_neg hp]
        exact flushWalk_mis p w mark ho q l s h hn2 (fun j hj => hm j (by simp [hj]))

theorem flushAll_mis (p : Option Nat) (w mark : Nat) (ho : op = .flush p w) : ∀ (qs : List (Nat × Bool)) (s : St M), Inv s →
    ∃ s', flushAll sl p mark s qs = some s' ∧ Mis cfg sl op out s s'
  | [], s, h => ⟨s, rfl, .refl _⟩
  | q :: qs, s, h => by
    obtain ⟨s1, e, a⟩ := flushWalk_mis (cfg := cfg) (sl := sl) (out := out) p w mark ho q (s.q q) s h (h.wf.q_nd q) (fun _ h => h)
    unfold flushAll
    rw [e]
    obtain ⟨s2, e2, a2⟩ := flushAll_mis p w mark ho qs s1 (a.inv h)
    exact ⟨s2, e2, a.trans a2⟩

theorem flush_mis {s : St M} (h : Inv s) (p : Option Nat) (w : Nat) : ∃ s', flush cfg sl s p w = some s' ∧ Mis cfg sl (.flush p w) out s s' := by
  unfold Lru.flush
  simp only []
  generalize (if w = 0 then s.now - 1 else w - 1) = mark
  have a : Mi cfg sl (.flush p w) out s (match p with
    | none => { s with oldest := mark }
    | some p => { s with pmark := upd s.pmark p mark }) := by
    cases p with
    | none => exact .mark mark w rfl
    | some p => exact .pmark p mark w rfl
  by_cases hm : mark = 0
  · rw [if_pos hm]
    exact ⟨_, rfl, .one a⟩
  · rw [if_neg hm]
    obtain ⟨t, e, a2⟩ := flushAll_mis (cfg := cfg) (sl := sl) (out := out) p w mark rfl ((List.range (cfg.largest + 1)).flatMap fun c => [(c, false), (c, true)]) _ (a.inv h)
    exact ⟨t, e, .step a a2⟩

theorem get_mis {s : St M} (h : Inv s) (k : Nat) (u : Bool) : ∃ t o, get sl s k u = some (t, o) ∧ Mis cfg sl (.get k u) (.of o) s t := by
  unfold Lru.get
  cases hf : find s k with
  | none => exact ⟨_, _, rfl, .refl _⟩
  | some i =>
    obtain ⟨hm, it, hi, hk⟩ := find_some hf
    obtain ⟨x, x1, hl⟩ := (h.wf.t_mem i).1 hm
    rw [hi] at x1
    injection x1 with x1
    subst x1
    simp only [hi]
    by_cases hv : valid s it = true
    · rw [if_pos hv]
      have a : ∀ o, Mi cfg sl (.get k u) o s { s with heap := upd s.heap i (some { it with refs := it.refs + 1 }) } := fun o =>
        .tweak hi ⟨rfl, rfl, rfl, rfl, rfl, rfl, rfl, .rfl⟩ (fun _ _ => Nat.succ_ne_zero _) (.inl rfl)
      cases u with
      | false => exact ⟨_, _, rfl, .one (a _)⟩
      | true =>
        rw [if_pos rfl]
        obtain ⟨t, e, a2⟩ := update_mis (cfg := cfg) (sl := sl) (op := .get k true) (out := .item i) ((a (.item i)).inv h) (upd_same _ _ _) false ⟨rfl, rfl⟩
        rw [e]
        exact ⟨_, _, rfl, .step (a _) a2⟩
    · rw [if_neg hv]
      obtain ⟨t, e, a⟩ := unlink_mis (cfg := cfg) (sl := sl) (op := .get k u) (out := .no) h hi (.inr (.inl (by simpa using hv)))
      rw [e]
      exact ⟨_, _, rfl, a⟩

theorem release_mis {s : St M} (h : Inv s) {i it} (hi : s.heap i = some it) : ∃ t, release sl s i = some t ∧ Mis cfg sl (.release i) out s t := by
  unfold Lru.release
  rw [hi]
  simp only []
  by_cases hr : it.refs - 1 ≠ 0
  · rw [if_pos hr]
    exact ⟨_, rfl, .one (.tweak hi ⟨rfl, rfl, rfl, rfl, rfl, rfl, rfl, .rfl⟩ (fun _ _ => hr) (.inl rfl))⟩
  have hr0 : it.refs - 1 = 0 := Classical.not_not.1 hr
  rw [if_neg hr]
  by_cases hl : it.linked = false
  · rw [if_pos hl]
    unfold free
    simp only [upd_same]
    rw [if_neg (by simp [hl, hr0])]
    refine ⟨_, rfl, .step (.tweak hi (it' := { it with refs := it.refs - 1 }) ⟨rfl, rfl, rfl, rfl, rfl, rfl, rfl, .rfl⟩ ?_ (.inl rfl))
      (.one (.free _ (upd_same _ _ _) hl hr0))⟩
    intro hl'
    rw [show it.linked = true from hl'] at hl
    cases hl
  · have hl' : it.linked = true := by simpa using hl
    rw [if_neg hl]
    by_cases hq : it.inQ = false
    · rw [if_pos hq]
      by_cases hv : valid { s with heap := upd s.heap i (some { it with refs := it.refs - 1 }) } it = true
      · rw [if_pos hv]
        simp only [upd_upd]
        have w1 := h.wf.heapOff (it' := { it with refs := 0, time := s.now }) hi hq hq rfl rfl (fun _ => Nat.le_refl _)
        have hi1 : ({ s with heap := upd s.heap i (some { it with refs := 0, time := s.now }) } : St M).heap i = some { it with refs := 0, time := s.now } :=
          upd_same _ _ _
        refine ⟨_, linkQ_eq w1 hi1 hq, .step (.touch hi hl' rfl) ?_⟩
        have ht : (touched s it i).heap i = some { it with time := s.now, inQ := true } := by
          unfold touched onQ
          simp only [upd_same]
        have a := Mi.tweak (cfg := cfg) (sl := sl) (op := .release i) (out := out) ht
          (it' := { it with refs := 0, time := s.now, inQ := true }) ⟨rfl, rfl, rfl, rfl, rfl, rfl, rfl, .rfl⟩ (fun _ h => by cases h) (.inl rfl)
        refine .one ?_
        have e : ({ touched s it i with heap := upd (touched s it i).heap i (some { it with refs := 0, time := s.now, inQ := true }) } : St M) =
            onQ { s with heap := upd s.heap i (some { it with refs := 0, time := s.now }) } { it with refs := 0, time := s.now } i := by
          unfold touched onQ offQ
          simp only [hq, if_true, upd_upd]
          rfl
        rw [← e]
        exact a
      · rw [if_neg hv]
        have e := unlink_eq sl (s := { s with heap := upd s.heap i (some { it with refs := it.refs - 1 }) }) (i := i)
          (it := { it with refs := it.refs - 1 }) (upd_same _ _ _) hl' (by intro hq'; simp [hq] at hq')
        rw [e]
        have hne : it.refs ≠ 0 := h.off i it hi hl' hq
        refine ⟨_, rfl, .step (.remove s.mem hi hl' (.inr (.inl (Bool.eq_false_iff.2 hv)))) ?_⟩
        have ht : (gone s it i (rest it) (statUnlink s.stats it) s.mem).heap i = some { it with inQ := false, linked := false } := by
          simp only [gone, upd_same, rest, if_neg hne]
        have a := Mi.tweak (cfg := cfg) (sl := sl) (op := .release i) (out := out) ht
          (it' := { it with refs := 0, inQ := false, linked := false }) ⟨rfl, rfl, rfl, rfl, rfl, rfl, rfl, .rfl⟩ (fun h => by cases h) (.inl rfl)
        have a2 := Mi.free (cfg := cfg) (sl := sl) (op := .release i) (out := out)
          (s := { gone s it i (rest it) (statUnlink s.stats it) s.mem with
            heap := upd (gone s it i (rest it) (statUnlink s.stats it) s.mem).heap i (some { it with refs := 0, inQ := false, linked := false }) })
          (i := i) (it := { it with refs := 0, inQ := false, linked := false }) (sl.free s.mem it.n it.cls) (upd_same _ _ _) rfl rfl
        refine .step a (.step a2 ?_)
        have e : ({ gone s it i (rest it) (statUnlink s.stats it) s.mem with
            heap := upd (upd (gone s it i (rest it) (statUnlink s.stats it) s.mem).heap i (some { it with refs := 0, inQ := false, linked := false })) i none
            mem := sl.free s.mem it.n it.cls } : St M) =
            gone { s with heap := upd s.heap i (some { it with refs := it.refs - 1 }) } { it with refs := it.refs - 1 } i (rest { it with refs := it.refs - 1 })
              (statUnlink s.stats { it with refs := it.refs - 1 }) (if it.refs - 1 = 0 then sl.free s.mem it.n it.cls else s.mem) := by
          simp only [gone, offQ, hq, if_true, upd_upd, rest, hr0]
          rfl
        rw [← e]
        exact .refl _
    · rw [if_neg hq]
      exact ⟨_, rfl, .one (.tweak hi ⟨rfl, rfl, rfl, rfl, rfl, rfl, rfl, .rfl⟩ (fun _ hq' => absurd hq' hq) (.inl rfl))⟩

theorem setExp_mis {s : St M} (h : Inv s) {i it} (hi : s.heap i = some it) (e : Nat) :
    ∃ t b, setExp s i e = some (t, b) ∧ ∀ out, Mis cfg sl (.setExp i e) out s t := by
  unfold Lru.setExp
  rw [hi]
  simp only []
  by_cases hc : (it.exp = sticky ∧ e ≠ sticky) ∨ (it.exp ≠ sticky ∧ e = sticky)
  · rw [if_pos hc]
    exact ⟨_, _, rfl, fun _ => .refl _⟩
  · rw [if_neg hc]
    have a : ∀ out, Mi cfg sl (.setExp i e) out s { s with heap := upd s.heap i (some { it with exp := e }) } := fun out =>
      .tweak hi ⟨rfl, rfl, rfl, rfl, rfl, rfl, rfl, by
        show e = sticky ↔ it.exp = sticky
        constructor
        · intro he
          exact Classical.byContradiction fun hn => hc (.inr ⟨hn, he⟩)
        · intro he
          exact Classical.byContradiction fun hn => hc (.inl ⟨he, hn⟩)⟩ (fun hl hq => h.off i it hi hl hq) (.inr rfl)
    by_cases hz : it.exp = 0 ∧ e ≠ 0
    · rw [if_pos hz]
      obtain ⟨t, e1, a2⟩ := update_all (cfg := cfg) (sl := sl) (op := .setExp i e) ((a .no).inv h) (upd_same _ _ _) true (fun _ => rfl)
      rw [e1]
      exact ⟨_, _, rfl, fun out => .step (a out) (a2 out)⟩
    · rw [if_neg hz]
      exact ⟨_, _, rfl, fun out => .one (a out)⟩

/-- The new item of `do_item_alloc`. -/
theorem alloc_mis {s : St M} (h : Inv s) (key pfx exp n c : Nat) :
    ∃ t o, alloc cfg sl s key pfx exp n c = some (t, o) ∧ ∀ out, Mis cfg sl (.alloc key pfx exp n c) out s t := by
  unfold Lru.alloc
  split
  · exact ⟨_, _, rfl, fun _ => .refl _⟩
  · obtain ⟨t, b, e, a⟩ := memAlloc_acts (cfg := cfg) sl h n c
    rw [e]
    have a' : ∀ out, Mis cfg sl (.alloc key pfx exp n c) out s t := fun out => a.mis trivial
    cases b with
    | false => exact ⟨_, _, rfl, a'⟩
    | true => exact ⟨_, _, rfl, fun out => (a' out).trans (.one (.new rfl rfl))⟩

/-- A call that may be made is carried out. -/
theorem step_callable {s : St M} (h : Inv s) (hc : Callable s op) : ∃ t out, step cfg sl s op = some (t, out) ∧ Mis cfg sl op out s t := by
  have inT : ∀ {i : Id} {it : It}, s.heap i = some it → (i ∈ s.tbl ↔ it.linked = true) := by
    intro i it hi
    rw [h.wf.t_mem]
    constructor
    · rintro ⟨x, x1, x2⟩
      rw [hi] at x1
      injection x1 with x1
      rw [x1]
      exact x2
    · exact fun hl => ⟨it, hi, hl⟩
  have qF : ∀ {i : Id} {it : It}, s.heap i = some it → it.linked = false → it.inQ = false := by
    intro i it hi hl
    cases hq : it.inQ with
    | false => rfl
    | true => rw [h.wf.linkedQ hi hq] at hl; cases hl
  cases op with
  | tick dt => exact ⟨_, _, by simp only [step]; rw [if_pos (show s.now + dt < 4294967295 from hc)], .one (.tick dt rfl)⟩
  | alloc key pfx exp n c =>
    simp only [step]
    obtain ⟨t, o, e, a⟩ := alloc_mis (cfg := cfg) (sl := sl) h key pfx exp n c
    rw [e]
    exact ⟨_, _, rfl, a _⟩
  | mem n =>
    simp only [step]
    obtain ⟨t, b, e, a⟩ := memAlloc_acts (cfg := cfg) sl h n 0
    rw [e]
    exact ⟨_, _, rfl, a.mis trivial⟩
  | memFree n => exact ⟨_, _, rfl, .one (.mem _)⟩
  | link i =>
    obtain ⟨it, hi, hn, hk⟩ := hc
    have hl : it.linked = false := by
      cases hl : it.linked with
      | false => rfl
      | true => exact absurd ((inT hi).2 hl) hn
    have hf : find s it.key = none := by
      cases hf : find s it.key with
      | none => rfl
      | some j =>
        obtain ⟨h1, jt, h2, h3⟩ := find_some hf
        exact absurd h3 (hk j h1 jt h2)
    simp only [step]
    rw [(h.linked hi hl (qF hi hl) hf).1]
    exact ⟨_, _, rfl, .one (.link hi hl (qF hi hl) hf rfl)⟩
  | replace i j =>
    obtain ⟨it, jt, hi, hj, h1, h2, hk, hp⟩ := hc
    have li := (inT hi).1 h1
    have lj : jt.linked = false := by
      cases hl : jt.linked with
      | false => rfl
      | true => exact absurd ((inT hj).2 hl) h2
    simp only [step]
    rw [(replace_eq h sl hi hj li lj hk hp).1]
    exact ⟨_, _, rfl, .one (.swap hi hj li lj hk hp rfl)⟩
  | unlink i =>
    obtain ⟨it, hi⟩ := hc
    simp only [step]
    obtain ⟨t, e, a⟩ := unlink_mis (cfg := cfg) (sl := sl) (op := .unlink i) (out := .done) h hi (.inl rfl)
    rw [e]
    exact ⟨_, _, rfl, a⟩
  | get k u =>
    simp only [step]
    obtain ⟨t, o, e, a⟩ := get_mis (cfg := cfg) (sl := sl) h k u
    rw [e]
    exact ⟨_, _, rfl, a⟩
  | update i =>
    obtain ⟨it, hi⟩ := hc
    simp only [step]
    obtain ⟨t, e, a⟩ := update_mis (cfg := cfg) (sl := sl) (op := .update i) (out := .done) h hi false rfl
    rw [e]
    exact ⟨_, _, rfl, a⟩
  | release i =>
    obtain ⟨it, hi⟩ := hc
    simp only [step]
    obtain ⟨t, e, a⟩ := release_mis (cfg := cfg) (sl := sl) (out := .done) h hi
    rw [e]
    exact ⟨_, _, rfl, a⟩
  | setExp i e =>
    obtain ⟨it, hi⟩ := hc
    simp only [step]
    obtain ⟨t, b, e1, a⟩ := setExp_mis (cfg := cfg) (sl := sl) h hi e
    rw [e1]
    exact ⟨_, _, rfl, a _⟩
  | grow i n =>
    obtain ⟨it, hi, hl⟩ := (h.wf.t_mem i).1 hc
    simp only [step, Lru.grow]
    rw [hi]
    simp only []
    rw [if_neg (by simp [hl])]
    exact ⟨_, _, rfl, .one (.grow hi hl rfl)⟩
  | shrink i n =>
    obtain ⟨hm, it, hi, hn⟩ := hc
    have hl := (inT hi).1 hm
    simp only [step, Lru.shrink]
    rw [hi]
    simp only []
    rw [if_neg (by simp [hl]; exact hn)]
    exact ⟨_, _, rfl, .one (.shrink hi hl hn rfl)⟩
  | flush p w =>
    simp only [step]
    obtain ⟨t, e, a⟩ := flush_mis (cfg := cfg) (sl := sl) (out := .done) h p w
    rw [e]
    exact ⟨_, _, rfl, a⟩
  | background =>
    simp only [step]
    split
    · rename_i hb
      obtain ⟨t, e, a⟩ := regain_acts (cfg := cfg) sl hb.1 h (sl.level s.mem)
      rw [e]
      exact ⟨_, _, rfl, a.mis trivial⟩
    · exact ⟨_, _, rfl, .refl _⟩

/-- A call that is carried out may be made. -/
theorem callable_of_step {s t : St M} (h : Inv s) (hs : step cfg sl s op = some (t, out)) : Callable s op := by
  have inT : ∀ {i : Id} {it : It}, s.heap i = some it → (i ∈ s.tbl ↔ it.linked = true) := by
    intro i it hi
    rw [h.wf.t_mem]
    constructor
    · rintro ⟨x, x1, x2⟩
      rw [hi] at x1
      injection x1 with x1
      rw [x1]
      exact x2
    · exact fun hl => ⟨it, hi, hl⟩
  cases op with
  | tick dt =>
    simp only [step] at hs
    split at hs
    · assumption
    · cases hs
  | alloc key pfx exp n c => trivial
  | mem n => trivial
  | memFree n => trivial
  | link i =>
    simp only [step, link] at hs
    cases hi : s.heap i with
    | none => rw [hi] at hs; cases hs
    | some it =>
      rw [hi] at hs
      simp only [] at hs
      split at hs
      · cases hs
      · rename_i hn
        have hl : ¬ it.linked = true := fun e => hn (.inl e)
        have hf : find s it.key = none := by
          cases hf : find s it.key with
          | none => rfl
          | some j => exact absurd (.inr (.inr (by rw [hf]; rfl))) hn
        refine ⟨it, hi, fun hm => hl ((inT hi).1 hm), fun j hj jt hjt => ?_⟩
        exact find_none h.wf hf j jt hjt ((inT hjt).1 hj)
  | replace i j =>
    simp only [step, replace] at hs
    cases hi : s.heap i with
    | none => rw [hi] at hs; cases hs
    | some it =>
      cases hj : s.heap j with
      | none => rw [hi, hj] at hs; cases hs
      | some jt =>
        rw [hi, hj] at hs
        simp only [] at hs
        split at hs
        · cases hs
        · rename_i hn
          refine ⟨it, jt, hi, hj, ?_, ?_, ?_, ?_⟩
          · rw [inT hi]
            cases hl : it.linked with
            | true => rfl
            | false => exact absurd (.inl hl) hn
          · rw [inT hj]
            exact fun hl => hn (.inr (.inl hl))
          · exact Classical.byContradiction fun hk => hn (.inr (.inr (.inr (.inl hk))))
          · exact Classical.byContradiction fun hk => hn (.inr (.inr (.inr (.inr hk))))
  | unlink i =>
    cases hi : s.heap i with
    | none => simp only [step, unlink] at hs; rw [hi] at hs; cases hs
    | some it => exact ⟨it, hi⟩
  | get k u => trivial
  | update i =>
    cases hi : s.heap i with
    | none => simp only [step, update] at hs; rw [hi] at hs; cases hs
    | some it => exact ⟨it, hi⟩
  | release i =>
    cases hi : s.heap i with
    | none => simp only [step, release] at hs; rw [hi] at hs; cases hs
    | some it => exact ⟨it, hi⟩
  | setExp i e =>
    cases hi : s.heap i with
    | none => simp only [step, setExp] at hs; rw [hi] at hs; cases hs
    | some it => exact ⟨it, hi⟩
  | grow i n =>
    simp only [step, grow] at hs
    cases hi : s.heap i with
    | none => rw [hi] at hs; cases hs
    | some it =>
      rw [hi] at hs
      simp only [] at hs
      split at hs
      · cases hs
      · rename_i hl
        exact (inT hi).2 (by simpa using hl)
  | shrink i n =>
    simp only [step, shrink] at hs
    cases hi : s.heap i with
    | none => rw [hi] at hs; cases hs
    | some it =>
      rw [hi] at hs
      simp only [] at hs
      split at hs
      · cases hs
      · rename_i hl
        refine ⟨(inT hi).2 ?_, it, hi, ?_⟩
        · cases h1 : it.linked with
          | true => rfl
          | false => exact absurd (.inl h1) hl
        · exact Nat.le_of_not_lt fun h1 => hl (.inr h1)
  | flush p w => trivial
  | background => trivial

theorem step_mis {s t : St M} (h : Inv s) (hs : step cfg sl s op = some (t, out)) : Mis cfg sl op out s t := by
  obtain ⟨t', out', e, a⟩ := step_callable (cfg := cfg) (sl := sl) h (callable_of_step h hs)
  rw [hs] at e
  injection e with e
  injection e with e1 e2
  subst e1
  subst e2
  exact a

theorem step_inv {s t : St M} (h : Inv s) (hs : step cfg sl s op = some (t, out)) : Inv t := (step_mis h hs).inv h

theorem init_inv (now : Nat) (m : M) : Inv (init now m) := by
  refine ⟨⟨?_, ?_, ?_, ?_, ?_, ?_, ?_, ?_, ?_, ?_⟩, ?_⟩
  · intro c i hi; cases hi
  · intro i it hi; cases hi
  · intro c; exact List.nodup_nil
  · intro i
    constructor
    · intro h; cases h
    · rintro ⟨it, h, _⟩; cases h
  · exact List.nodup_nil
  · intro i j it jt hi; cases hi
  · intro c
    refine ⟨?_, ?_, ?_, ?_⟩
    · intro y h; cases h
    · intro y h; cases h
    · intro _ y h; cases h
    · intro _; rfl
  · intro i _; rfl
  · intro i it hi; cases hi
  · intro c; exact List.Pairwise.nil
  · intro i it hi; cases hi

theorem calls_inv {s t : St M} {l} (hc : Calls cfg sl s l t) (h : Inv s) : Inv t := by
  induction hc with
  | nil => exact h
  | cons e _ ih => exact ih (step_inv h e)

theorem reach_inv {s : St M} (h : Reachable cfg sl s) : Inv s := by
  obtain ⟨now, m, l, _, hc⟩ := h
  exact calls_inv hc (init_inv now m)

end Verif.Lru
