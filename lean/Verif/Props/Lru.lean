import Verif.Lemmas.LruRoom
/-! C76 to C81: the items in memory, which of them go, and the statistics about them. -/
namespace Verif.Lru.Props
open Spec

variable {M : Type} {cfg : Cfg} {sl : Slabs M} {op : Op} {out : Out}

/-- A store of blocks: as many as the number. -/
def blocks : Slabs Nat where
  alloc m _ _ := if 0 < m then some (m - 1) else none
  free m _ _ := m + 1
  adjust m _ _ _ := m
  level _ := 0

/-- A server that evicts. -/
def conf : Cfg := { evict := true, stickyLimit := 1000, space := id, largest := 3 }

theorem reach_run {m : Nat} {ops : List Op} {t : St Nat} {cfg : Cfg} (h : run cfg blocks (init 100 m) ops = some t) : Reachable cfg blocks t := by
  obtain ⟨l, hl⟩ := run_calls h
  exact ⟨100, m, l, by decide, hl⟩

theorem run_some {m : Nat} {ops : List Op} {cfg : Cfg} (f : St Nat → Bool)
    (h : (match run cfg blocks (init 100 m) ops with | none => false | some t => f t) = true) : ∃ t, Reachable cfg blocks t ∧ f t = true := by
  cases e : run cfg blocks (init 100 m) ops with
  | none => rw [e] at h; cases h
  | some t => rw [e] at h; exact ⟨t, reach_run e, h⟩

/-! ### C76 -/

/-- C76: a good item stays good through a call, unless a client or the clock asked for it to go, or the call needed memory, the server evicts, the item is not
sticky, nobody uses it (or nobody has touched it for three hours), and the loss is counted. -/
theorem C76 {s t : St M} (hr : Reachable cfg sl s) {k i it} (hs : Stored s k i) (hi : s.heap i = some it) (e : step cfg sl s op = some (t, out)) :
    Stored t k i ∨ Asked t i it op ∨
    (AsksMemory op ∧ cfg.evict = true ∧ it.exp ≠ sticky ∧ (it.refs = 0 ∨ it.time + 10800 < s.now) ∧
      s.stats.evictions + s.stats.repairs < t.stats.evictions + t.stats.repairs) := by
  have h := reach_inv hr
  have ht := step_inv h e
  obtain ⟨x, x1, hl, hk, hv⟩ := (stored_iff h).1 hs
  rw [hi] at x1
  cases x1
  by_cases hm : AsksMemory op
  · obtain ⟨u, a, hu⟩ := asks_acts h hm e
    have ee := a.env
    rcases a.item h hi hl hv with ⟨b, hb⟩ | ⟨_, h1, h2, h3, h4⟩
    · left
      refine (stored_iff ht).2 ⟨{ it with inQ := b }, ?_, hl, hk, ?_⟩
      · rcases hu with rfl | ⟨nt, _, rfl⟩
        · exact hb
        · show upd u.heap u.next (some nt) i = _
          rw [upd_other, hb]
          rintro rfl
          rw [(a.inv h).wf.fresh _ (Nat.le_refl _)] at hb
          cases hb
      · have : valid u { it with inQ := b } = true := by
          rw [valid_env ⟨ee.1, ee.2.1, ee.2.2.1⟩]
          exact hv
        rcases hu with rfl | ⟨nt, _, rfl⟩ <;> exact this
    · right; right
      refine ⟨hm, h1, h2, h3, ?_⟩
      rcases hu with rfl | ⟨nt, _, rfl⟩ <;> exact h4
  · by_cases hk2 : ∃ dt, op = .tick dt
    · obtain ⟨dt, rfl⟩ := hk2
      simp only [step] at e
      split at e
      · cases e
        by_cases hf : Fresh ({ s with now := s.now + dt } : St M) it
        · exact .inl ⟨hs.1, it, hi, hk, hf⟩
        · exact .inr (.inl hf)
      · cases e
    · have hnt : ∀ dt, op ≠ .tick dt := fun dt e => hk2 ⟨dt, e⟩
      rcases (step_mis h e).keeps h hm hnt hi hl ((fresh_iff s it).2 hv) with ⟨it', g1, g2, g3, _, g5⟩ | hc
      · exact .inl ((stored_iff ht).2 ⟨it', g1, g2, g3.trans hk, (fresh_iff t it').1 g5⟩)
      · right; left
        rcases hc with rfl | ⟨j, rfl⟩ | ⟨p, w, rfl, hp⟩ | ⟨x, rfl, hx1, hx2⟩
        · rfl
        · rfl
        · exact hp
        · refine ⟨rfl, hx1, ?_⟩
          rw [(step_mis h e).now_eq hnt]
          exact hx2

/-- C76: a get gives the good item of the key, and nothing if there is none. -/
theorem C76_get {s t : St M} (hr : Reachable cfg sl s) {k u} (e : step cfg sl s (.get k u) = some (t, out)) (i : Id) :
    out = .item i ↔ Stored s k i := by
  have h := reach_inv hr
  rw [stored_iff h]
  simp only [step, Lru.get] at e
  cases hf : find s k with
  | none =>
    rw [hf] at e
    cases e
    constructor
    · intro h; cases h
    · rintro ⟨it, hi, hl, hk, _⟩
      rw [find_stored h hi hl hk] at hf
      cases hf
  | some j =>
    rw [hf] at e
    obtain ⟨h1, jt, h2, h3⟩ := find_some hf
    obtain ⟨x, x1, x2⟩ := (h.wf.t_mem j).1 h1
    rw [h2] at x1
    cases x1
    simp only [h2] at e
    have un : ∀ it, s.heap i = some it → it.linked = true → it.key = k → i = j := fun it g1 g2 g3 => h.wf.keys i j it jt g1 h2 g2 x2 (g3.trans h3.symm)
    cases hv : valid s jt with
    | false =>
      simp only [hv] at e
      constructor
      · intro ho
        subst ho
        exfalso
        revert e
        rw [if_neg (by simp)]
        generalize Lru.unlink sl s j = z
        cases z <;> intro e <;> cases e
      · rintro ⟨it, g1, g2, g3, g4⟩
        cases un it g1 g2 g3
        rw [h2] at g1
        cases g1
        rw [hv] at g4
        cases g4
    | true =>
      have ho : out = .item j := by
        revert e
        rw [if_pos hv]
        cases u with
        | true =>
          simp only [if_true]
          generalize Lru.update _ j _ = z
          cases z <;> intro e <;> cases e
          rfl
        | false =>
          intro e
          cases e
          rfl
      subst ho
      constructor
      · intro ho
        injection ho with ho
        subst ho
        exact ⟨jt, h2, x2, h3, hv⟩
      · rintro ⟨it, g1, g2, g3, _⟩
        rw [un it g1 g2 g3]

/-- C76: of the good items no more go in a call for memory than are counted as evicted or repaired, and no more are counted as evicted than go. -/
theorem C76_counted {s t : St M} (hr : Reachable cfg sl s) (hm : AsksMemory op) (e : step cfg sl s op = some (t, out)) :
    goods s + (s.stats.evictions + s.stats.repairs) ≤ goods t + (t.stats.evictions + t.stats.repairs) ∧
    goods t + t.stats.evictions ≤ goods s + s.stats.evictions := by
  have h := reach_inv hr
  obtain ⟨u, a, hu⟩ := asks_acts h hm e
  obtain ⟨h1, h2⟩ := a.goods h
  rcases hu with rfl | ⟨nt, _, rfl⟩
  · exact ⟨h2, h1⟩
  · have hn : u.next ∉ u.tbl := by
      rw [(a.inv h).wf.t_mem]
      rintro ⟨x, x1, _⟩
      rw [(a.inv h).wf.fresh _ (Nat.le_refl _)] at x1
      cases x1
    have : goods ({ u with heap := upd u.heap u.next (some nt), next := u.next + 1 } : St M) = goods u :=
      total_out (s := u) (f := fun it => if Fresh u it then 1 else 0) hn rfl rfl
    rw [this]
    exact ⟨h2, h1⟩

/-- Two items, no block left: the next request evicts the older one, and not the newer one, and says so. -/
example : ∃ s, Reachable conf blocks s ∧ (decide (s.tbl = [1, 0]) && match step conf blocks s (.alloc 7 0 0 100 1) with
    | some (t, .item 2) => decide (t.tbl = [1] ∧ t.stats.evictions = 1 ∧ s.stats.evictions = 0)
    | _ => false) = true :=
  run_some (m := 2) (ops := [.alloc 5 0 0 100 1, .link 0, .release 0, .tick 5, .alloc 6 0 0 100 1, .link 1, .release 1])
    (fun s => decide (s.tbl = [1, 0]) && match step conf blocks s (.alloc 7 0 0 100 1) with
    | some (t, .item 2) => decide (t.tbl = [1] ∧ t.stats.evictions = 1 ∧ s.stats.evictions = 0)
    | _ => false) (by decide +kernel)

/-- The same with -M: the request is refused and both stay. -/
example : ∃ s, Reachable { conf with evict := false } blocks s ∧ (match step { conf with evict := false } blocks s (.alloc 7 0 0 100 1) with
    | some (t, .no) => decide (t.tbl = [1, 0] ∧ t.stats.outOfMemory = 1)
    | _ => false) = true :=
  run_some (m := 2) (ops := [.alloc 5 0 0 100 1, .link 0, .release 0, .tick 5, .alloc 6 0 0 100 1, .link 1, .release 1])
    (fun s => match step { conf with evict := false } blocks s (.alloc 7 0 0 100 1) with
    | some (t, .no) => decide (t.tbl = [1, 0] ∧ t.stats.outOfMemory = 1)
    | _ => false) (by decide +kernel)

/-- A good item, and a get that gives it. -/
example : ∃ s, Reachable conf blocks s ∧ (match s.heap 0, step conf blocks s (.get 5 true) with
    | some it, some (_, .item 0) => decide (0 ∈ s.tbl ∧ it.key = 5 ∧ Fresh s it)
    | _, _ => false) = true :=
  run_some (m := 2) (ops := [.alloc 5 0 0 100 1, .link 0, .release 0, .tick 5])
    (fun s => match s.heap 0, step conf blocks s (.get 5 true) with
    | some it, some (_, .item 0) => decide (0 ∈ s.tbl ∧ it.key = 5 ∧ Fresh s it)
    | _, _ => false) (by decide +kernel)

/-! ### C77 -/

/-- C77: if an item `x` has been stored or got more than 60 seconds after `y` was last touched, then a request for memory does not evict `x` while `y`, a
plain item of its class that nobody uses, stays. -/
theorem C77 {s0 s1 s2 s3 s4 : St M} {l1 l2 op1 out1 x y xt yt k} (hr : Reachable cfg sl s0) (hy : y ∈ s0.tbl)
    (c1 : Calls cfg sl s0 l1 s1) (e1 : step cfg sl s1 op1 = some (s2, out1)) (hu : Use op1 out1 x) (c2 : Calls cfg sl s2 l2 s3)
    (hn : ∀ p ∈ l1 ++ (op1, out1) :: l2, ¬ Touch p.1 p.2 y) (ht : s0.now + 60 < s1.now)
    (hm : AsksMemory op) (e : step cfg sl s3 op = some (s4, out))
    (hx : Stored s3 k x) (hxt : s3.heap x = some xt) (xr : xt.refs = 0) (hg : ¬ Stored s4 k x)
    (hyt : s4.heap y = some yt) (yl : y ∈ s4.tbl) (yr : yt.refs = 0) (yc : yt.cls = xt.cls) : yt.exp = sticky := by
  have i0 := reach_inv hr
  have n0 := reach_now hr
  have i1 := calls_inv c1 i0
  have n1 := calls_now c1 i0 n0
  have i2 := step_inv i1 e1
  have i3 := calls_inv c2 i2
  have i4 := step_inv i3 e
  apply Classical.byContradiction
  intro ys
  obtain ⟨z, z1, z2⟩ := (i0.wf.t_mem y).1 hy
  have old0 : Old s0 y s0.now := by
    refine ⟨?_, fun yt h => ?_⟩
    · apply Classical.byContradiction
      intro hc
      rw [i0.wf.fresh y (Nat.le_of_not_lt hc)] at z1
      cases z1
    · rw [z1] at h
      cases h
      exact i0.wf.times y z z1 z2
  have old1 := calls_old c1 i0 (fun p hp => hn p (List.mem_append_left _ hp)) old0
  have old2 := (step_mis i1 e1).old (hn _ (List.mem_append_right _ List.mem_cons_self)) old1
  have old3 := calls_old c2 i2 (fun p hp => hn p (List.mem_append_right _ (List.mem_cons_of_mem _ hp))) old2
  have warm2 := use_warm i1 (by omega) e1 hu
  have warm3 := calls_warm c2 i2 warm2
  obtain ⟨x', x1, xl, xk, xv⟩ := (stored_iff i3).1 hx
  rw [hxt] at x1
  cases x1
  have w := warm3.2 xt hxt xl
  obtain ⟨u, a, hu4⟩ := asks_acts i3 hm e
  have ee := a.env
  have iu := a.inv i3
  -- what is at `y` and at `x`
  have hyu : u.heap y = some yt := by
    rcases hu4 with rfl | ⟨nt, nl, rfl⟩
    · exact hyt
    · have hyt : upd u.heap u.next (some nt) y = some yt := hyt
      rw [upd_other] at hyt
      · exact hyt
      · have := old3.1
        have e2 : u.next = s3.next := ee.2.2.2.1
        rw [e2]
        exact Nat.ne_of_lt this
  have ylu : yt.linked = true := by
    have : y ∈ u.tbl := by rcases hu4 with rfl | ⟨nt, nl, rfl⟩ <;> exact yl
    obtain ⟨w, w1, w2⟩ := (iu.wf.t_mem y).1 this
    rw [hyu] at w1
    cases w1
    exact w2
  have hxu : u.heap x = none := by
    rcases a.item i3 hxt xl xv with ⟨b, hb⟩ | ⟨h0, _⟩
    · exfalso
      refine hg ((stored_iff i4).2 ⟨{ xt with inQ := b }, ?_, xl, xk, ?_⟩)
      · rcases hu4 with rfl | ⟨nt, _, rfl⟩
        · exact hb
        · show upd u.heap u.next (some nt) x = _
          rw [upd_other, hb]
          rintro rfl
          rw [iu.wf.fresh _ (Nat.le_refl _)] at hb
          cases hb
      · have : valid u { xt with inQ := b } = true := by
          rw [valid_env ⟨ee.1, ee.2.1, ee.2.2.1⟩]
          exact xv
        rcases hu4 with rfl | ⟨nt, _, rfl⟩ <;> exact this
    · exact h0
  have le := a.lru i3 hxt xl xv xr hxu hyu ylu yr (by unfold qid; rw [yc, beq_eq_false_iff_ne.2 ys])
  obtain ⟨b, hb⟩ := a.back hyu
  have := old3.2 _ hb
  simp only [] at this
  omega

/-- An item is stored, and 100 seconds later another; the next request evicts the first. -/
example : ∃ s, Reachable conf blocks s ∧ (match run conf blocks s [.tick 100], run conf blocks s [.tick 100, .alloc 6 0 0 100 1, .link 1, .release 1] with
    | some s1, some s3 => decide (0 ∈ s.tbl ∧ s.now + 60 < s1.now) && match step conf blocks s3 (.alloc 7 0 0 100 1), s3.heap 1 with
      | some (t, _), some it => decide (1 ∈ t.tbl ∧ 0 ∉ t.tbl ∧ it.refs = 0)
      | _, _ => false
    | _, _ => false) = true :=
  run_some (m := 2) (ops := [.alloc 5 0 0 100 1, .link 0, .release 0])
    (fun s => match run conf blocks s [.tick 100], run conf blocks s [.tick 100, .alloc 6 0 0 100 1, .link 1, .release 1] with
    | some s1, some s3 => decide (0 ∈ s.tbl ∧ s.now + 60 < s1.now) && match step conf blocks s3 (.alloc 7 0 0 100 1), s3.heap 1 with
      | some (t, _), some it => decide (1 ∈ t.tbl ∧ 0 ∉ t.tbl ∧ it.refs = 0)
      | _, _ => false
    | _, _ => false) (by decide +kernel)

/-- The 60 seconds are needed: the item that was got last goes, since it had been got less than 60 seconds before. -/
example : ∃ s, Reachable conf blocks s ∧ (match step conf blocks s (.alloc 7 0 0 100 1) with
    | some (t, _) => decide (1 ∈ t.tbl ∧ 0 ∉ t.tbl)
    | _ => false) = true :=
  run_some (m := 2) (ops := [.alloc 5 0 0 100 1, .link 0, .release 0, .tick 5, .alloc 6 0 0 100 1, .link 1, .release 1, .tick 50, .get 5 true, .release 0])
    (fun s => match step conf blocks s (.alloc 7 0 0 100 1) with
    | some (t, _) => decide (1 ∈ t.tbl ∧ 0 ∉ t.tbl)
    | _ => false) (by decide +kernel)

/-! ### C78 -/

/-- C78: curr_items and bytes are the number of the items that are stored and the space they take. -/
theorem C78_partial {s : St M} (hr : Reachable cfg sl s) :
    s.stats.currItems = s.tbl.length % 18446744073709551616 ∧ s.stats.currBytes = total s It.size % 18446744073709551616 := by
  obtain ⟨now, m, l, _, hc⟩ := hr
  have := calls_sums hc (init_inv now m) ⟨rfl, rfl⟩
  refine ⟨this.1.trans ?_, this.2⟩
  congr 1
  have hi := calls_inv hc (init_inv now m)
  have : ∀ l : List Id, (∀ i ∈ l, ∃ it, s.heap i = some it) → (l.map (val s one)).sum = l.length := by
    intro l
    induction l with
    | nil => intro _; rfl
    | cons i l ih =>
      intro h
      obtain ⟨it, h1⟩ := h i List.mem_cons_self
      rw [List.map_cons, List.sum_cons, val_some h1, ih (fun j hj => h j (List.mem_cons_of_mem _ hj)), List.length_cons]
      simp only [one]
      omega
  exact this s.tbl fun i hi2 => by
    obtain ⟨it, h1, _⟩ := (hi.wf.t_mem i).1 hi2
    exact ⟨it, h1⟩

/-- C78 for sticky_items and sticky_bytes, as long as no sticky item is replaced by a plain one or the other way round. -/
theorem C78_sticky_partial {s : St M} {now m} (hc : SteadyCalls cfg sl (init now m) s) :
    s.stats.stickyItems = (total s fun it => if it.exp = sticky then 1 else 0) % 18446744073709551616 ∧
    s.stats.stickyBytes = stickySpace s % 18446744073709551616 :=
  (steady_sticky hc (init_inv now m) ⟨rfl, rfl⟩).2

/-- The calls of a client that sets a key, sets it again with the expire time -1, and deletes it. -/
def turn : List Op := [.alloc 5 0 0 100 1, .link 0, .release 0, .alloc 5 0 sticky 100 1, .replace 0 1, .release 1]

/-- C78 is false of sticky_items and sticky_bytes: after a key has been set again as a sticky one it is in neither. -/
theorem C78_false : ¬ ∀ {M : Type} {cfg : Cfg} {sl : Slabs M} {s : St M}, Reachable cfg sl s →
    s.stats.stickyItems = (total s fun it => if it.exp = sticky then 1 else 0) % 18446744073709551616 ∧
    s.stats.stickyBytes = stickySpace s % 18446744073709551616 := by
  intro h
  obtain ⟨s, hr, hs⟩ := run_some (m := 4) (cfg := conf) (ops := turn)
    (fun s => decide (s.stats.stickyItems = 0 ∧ s.stats.stickyBytes = 0 ∧ stickySpace s = 100)) (by decide +kernel)
  have := (h hr).2
  simp only [decide_eq_true_eq] at hs
  rw [hs.2.1, hs.2.2] at this
  cases this

/-- Items and bytes after two stores. -/
example : ∃ s, Reachable conf blocks s ∧ decide (s.stats.currItems = 2 ∧ s.stats.currBytes = 150) = true :=
  run_some (m := 2) (ops := [.alloc 5 0 0 100 1, .link 0, .alloc 6 0 sticky 50 1, .link 1])
    (fun s => decide (s.stats.currItems = 2 ∧ s.stats.currBytes = 150)) (by decide +kernel)

/-- Calls that keep sticky what is: a sticky item is stored and got. -/
example : ∃ s, SteadyCalls conf blocks (init 100 2) s ∧ s.stats.stickyItems = 1 ∧ s.stats.stickyBytes = 50 := by
  refine ⟨_, .snoc (.snoc (.snoc (.nil _) (op := .alloc 6 0 sticky 50 1) (out := .item 0) trivial rfl) (op := .link 0) (out := .done) trivial rfl)
    (op := .get 6 true) (out := .item 0) trivial rfl, rfl, rfl⟩

/-! ### C79 -/

/-- C79 for states in which the number of sticky bytes is right: a store of a sticky item is refused for its stickiness if, and only if, the sticky items
take the sticky limit; the sum is below 2^64. -/
theorem C79_partial {s : St M} {now m} (hc : SteadyCalls cfg sl (init now m) s) (hb : stickySpace s < 18446744073709551616) {key pfx n c : Nat} :
    (stickySpace s < cfg.stickyLimit → (step cfg sl s (.alloc key pfx sticky n c)).map Prod.snd = (step cfg sl s (.alloc key pfx 0 n c)).map Prod.snd) ∧
    (cfg.stickyLimit ≤ stickySpace s → step cfg sl s (.alloc key pfx sticky n c) = some (s, .no)) := by
  have e := (C78_sticky_partial hc).2
  rw [Nat.mod_eq_of_lt hb] at e
  constructor
  · intro hl
    simp only [step, alloc]
    rw [if_neg (by rw [e]; exact fun h => h.2 hl), if_neg (by intro h; exact absurd h.1 (by decide))]
    cases memAlloc cfg sl s n c with
    | none => rfl
    | some p =>
      obtain ⟨u, b⟩ := p
      cases b <;> rfl
  · intro hl
    simp only [step, alloc]
    rw [if_pos ⟨trivial, by rw [e]; omega⟩]
    rfl

/-- C79 is false: a client sets a key, sets it again as a sticky one and deletes it; from then on no sticky item is taken, though nothing is stored and there
is memory. -/
theorem C79_false : ¬ ∀ {M : Type} {cfg : Cfg} {sl : Slabs M} {s : St M} {key pfx n c : Nat}, Reachable cfg sl s → stickySpace s < cfg.stickyLimit →
    (step cfg sl s (.alloc key pfx sticky n c)).map Prod.snd = (step cfg sl s (.alloc key pfx 0 n c)).map Prod.snd := by
  intro h
  obtain ⟨s, hr, hs⟩ := run_some (m := 4) (cfg := conf) (ops := turn ++ [.unlink 1])
    (fun s => decide (s.tbl = [] ∧ stickySpace s < conf.stickyLimit ∧ (step conf blocks s (.alloc 9 0 sticky 10 1)).map Prod.snd = some .no ∧
      (step conf blocks s (.alloc 9 0 0 10 1)).map Prod.snd = some (.item 2))) (by decide +kernel)
  simp only [decide_eq_true_eq] at hs
  have := h (key := 9) (pfx := 0) (n := 10) (c := 1) hr hs.2.1
  rw [hs.2.2.1, hs.2.2.2] at this
  cases this

/-- Sticky items that take the limit, so that the next is refused. -/
example : ∃ s, SteadyCalls { conf with stickyLimit := 50 } blocks (init 100 2) s ∧ stickySpace s = 50 ∧
    step { conf with stickyLimit := 50 } blocks s (.alloc 7 0 sticky 10 1) = some (s, .no) := by
  refine ⟨_, .snoc (.snoc (.nil _) (op := .alloc 6 0 sticky 50 1) (out := .item 0) trivial rfl) (op := .link 0) (out := .done) trivial rfl, rfl, rfl⟩

/-! ### C80 -/

/-- C80: any call that a caller may make in a state that can come about is carried out: no mark or queue is followed to an item that has been freed, no
assertion about queues fails. -/
theorem C80 {s : St M} (hr : Reachable cfg sl s) (hc : Callable s op) : ∃ t out, step cfg sl s op = some (t, out) := by
  obtain ⟨t, out, e, _⟩ := step_callable (cfg := cfg) (sl := sl) (reach_inv hr) hc
  exact ⟨t, out, e⟩

/-- A state with items with expire times, marks and items in use, in which calls may be made. -/
example : ∃ s, Reachable conf blocks s ∧ decide (s.low (1, false) = some 0 ∧ s.q (1, false) = [1, 0] ∧ s.q (1, true) = [2]) = true ∧
    Callable s (.alloc 9 0 0 10 1) ∧ Callable s (.flush none 0) :=
  (run_some (m := 3) (cfg := conf) (ops := [.alloc 5 0 130 100 1, .link 0, .release 0, .alloc 6 0 0 100 1, .link 1, .alloc 7 0 sticky 100 1, .link 2, .tick 40])
    (fun s => decide (s.low (1, false) = some 0 ∧ s.q (1, false) = [1, 0] ∧ s.q (1, true) = [2])) (by decide +kernel)).imp
    fun _ h => ⟨h.1, h.2, trivial, trivial⟩

/-! ### C81 -/

/-- C81 as long as fewer than 200 items of the class are in use: with eviction a request is not refused while there is a plain item of its class that
nobody uses; for the classes above small memory, and an allocator that lends what has been freed in the class. -/
theorem C81_partial {s t : St M} (hr : Reachable cfg sl s) (he : cfg.evict = true) {key pfx exp n c i it} (hc : c ≠ 0) (law : Lends sl n c)
    (hx : exp ≠ sticky) (e : step cfg sl s (.alloc key pfx exp n c) = some (t, .no)) (hu : inUse s c < 200)
    (ht : i ∈ s.tbl) (hi : s.heap i = some it) (ic : it.cls = c) (is : it.exp ≠ sticky) : it.refs ≠ 0 := by
  intro ir
  have h := reach_inv hr
  obtain ⟨u, hm⟩ := memAlloc_room he hc law h (near_of h hi ht ic is ir hu)
  simp only [step, alloc] at e
  rw [if_neg (fun h => hx h.1), hm] at e
  cases e

/-- 201 items of which the 200 older ones are in use. -/
def busy : List Op := (List.range 201).flatMap (fun i => [.alloc i 0 0 100 1, .link i]) ++ [.release 200]

/-- C81 is false: the search gives up after 200 items in use, and the request is refused though the next item could go. -/
theorem C81_false : ¬ ∀ {M : Type} {cfg : Cfg} {sl : Slabs M} {s t : St M} {key pfx exp n c i it}, Reachable cfg sl s → cfg.evict = true → c ≠ 0 →
    Lends sl n c → exp ≠ sticky → step cfg sl s (.alloc key pfx exp n c) = some (t, .no) →
    i ∈ s.tbl → s.heap i = some it → it.cls = c → it.exp ≠ sticky → it.refs ≠ 0 := by
  intro h
  obtain ⟨s, hr, hs⟩ := run_some (m := 201) (cfg := conf) (ops := busy)
    (fun s => match step conf blocks s (.alloc 1000 0 0 100 1), s.heap 200 with
      | some (_, .no), some it => decide (200 ∈ s.tbl ∧ it.cls = 1 ∧ it.exp ≠ sticky ∧ it.refs = 0)
      | _, _ => false) (by decide +kernel)
  split at hs
  · rename_i t it e1 e2
    simp only [decide_eq_true_eq] at hs
    refine h (key := 1000) (pfx := 0) (exp := 0) (n := 100) (c := 1) hr rfl (by decide) (fun m x => ?_) (by decide) e1 hs.1 e2 hs.2.1 hs.2.2.1 hs.2.2.2
    show (if 0 < m + 1 then some (m + 1 - 1) else none).isSome = true
    rw [if_pos (Nat.succ_pos m)]
    rfl
  · cases hs

/-- A refused request: the one item of the class is in use. -/
example : Lends blocks 100 1 ∧ ∃ s, Reachable conf blocks s ∧ decide ((step conf blocks s (.alloc 7 0 0 100 1)).map Prod.snd = some .no ∧ s.tbl = [0] ∧ inUse s 1 = 1) = true := by
  refine ⟨fun m x => ?_, run_some (m := 1) (ops := [.alloc 5 0 0 100 1, .link 0])
    (fun s => decide ((step conf blocks s (.alloc 7 0 0 100 1)).map Prod.snd = some .no ∧ s.tbl = [0] ∧ inUse s 1 = 1)) (by decide +kernel)⟩
  show (if 0 < m + 1 then some (m + 1 - 1) else none).isSome = true
  rw [if_pos (Nat.succ_pos m)]
  rfl

end Verif.Lru.Props
