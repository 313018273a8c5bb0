import Verif.Lemmas.LruSums
/-! When there is memory for a request. -/
namespace Verif.Lru
open Spec

variable {M : Type} {cfg : Cfg} {sl : Slabs M} {op : Op} {out : Out}

/-- An item not in use is among the last `k` of a queue of plain items. -/
def Near (s : St M) (c k : Nat) : Prop := ∃ i it, i ∈ (s.q (c, false)).reverse.take k ∧ s.heap i = some it ∧ it.refs = 0

/-- `do_item_evict` of the tail, and what is free then. -/
theorem evict_mem (sl : Slabs M) {s : St M} (h : Inv s) {i it c} (hi : s.heap i = some it)
    (hm : i ∈ s.q (c, false)) (hr : it.refs = 0) : ∃ t, evict sl s i = some t ∧ t.mem = sl.free s.mem it.n it.cls := by
  obtain ⟨hl, _, _⟩ := h.wf.qOf hi hm
  have e := unlink_eq sl (s := { s with stats := { s.stats with evictions := s.stats.evictions + 1 } }) hi hl (h.wf.in_q i it hi)
  rw [if_pos hr] at e
  exact ⟨_, e, rfl⟩

theorem reverse_last {l : List Id} {i} (hl : l.getLast? = some i) (hn : l.Nodup) : l.reverse = i :: (l.erase i).reverse := by
  obtain ⟨a, rfl⟩ := List.getLast?_eq_some_iff.1 hl
  rw [List.reverse_append, List.reverse_singleton, List.singleton_append]
  congr 2
  rw [List.erase_append_right]
  · simp
  · intro hm
    exact (List.nodup_append.1 hn).2.2 i hm i (by simp) rfl

theorem tailLoop_room (he : cfg.evict = true) {n c : Nat} (hc : c ≠ 0) (law : ∀ m x, (sl.alloc (sl.free m x c) n c).isSome = true) :
    ∀ (k : Nat) (s : St M), Inv s → Near s c k → ∃ t, tailLoop sl n c k s (s.q (c, false)).getLast? = some (t, true)
  | 0, s, _, hn => by
    obtain ⟨i, it, hm, _⟩ := hn
    simp at hm
  | k + 1, s, h, hn => by
    cases hl : (s.q (c, false)).getLast? with
    | none =>
      obtain ⟨i, it, hm, _⟩ := hn
      rw [List.getLast?_eq_none_iff.1 hl] at hm
      simp at hm
    | some i =>
      have hm := List.mem_of_getLast? hl
      obtain ⟨it, hi, il, iq, ic⟩ := h.wf.q_mem _ _ hm
      unfold tailLoop
      rw [hi]
      simp only []
      rw [(prevOf_last (h.wf.q_nd _) hl).1]
      by_cases hr : it.refs = 0
      · rw [if_pos hr]
        cases hv : valid s it with
        | true =>
          obtain ⟨t, e, em⟩ := evict_mem sl h hi hm hr
          have ec : it.cls = c := congrArg Prod.fst ic
          obtain ⟨m, hm'⟩ := Option.isSome_iff_exists.1 (law s.mem it.n)
          simp only [if_true, e, Option.map_some, slabsAlloc, em, ec, hm']
          exact ⟨_, rfl⟩
        | false =>
          obtain ⟨t, b, e, a, hq, hb⟩ := reclaim_act (cfg := cfg) sl h n c hi il hr hv
          simp only [Bool.false_eq_true, if_false, e, hb hc]
          exact ⟨_, rfl⟩
      · rw [if_neg hr]
        obtain ⟨t, e, a, hq⟩ := drop_act (cfg := cfg) h hi hm hr
        rw [e]
        simp only []
        rw [← hq]
        refine tailLoop_room he hc law k t (a.inv h) ?_
        obtain ⟨j, jt, jm, hj, jr⟩ := hn
        rw [reverse_last hl (h.wf.q_nd _), List.take_succ_cons, List.mem_cons] at jm
        rcases jm with rfl | jm
        · rw [hi] at hj
          cases hj
          exact absurd jr hr
        · refine ⟨j, jt, by rw [hq]; exact jm, ?_, jr⟩
          have jq : j ∈ t.q (c, false) := by rw [hq]; exact List.mem_reverse.1 (List.mem_of_mem_take jm)
          obtain ⟨jt', hj', _⟩ := (a.inv h).wf.q_mem _ _ jq
          have hne : j ≠ i := by
            rintro rfl
            rw [hq] at jq
            exact ((h.wf.q_nd _).mem_erase_iff.1 jq).1 rfl
          have et : t = offQ s it i := by
            have := unlinkQ_eq hi (h.wf.in_q i it hi)
            unfold drop at e
            rw [this] at e
            injection e with e
            exact e.symm
          rw [et, offQ_heap hi, upd_other hne]
          exact hj

theorem Near.acts {s t : St M} {c k} (hn : Near s c k) (a : Acts cfg s t) (h : Inv s) (hq : t.q (c, false) = s.q (c, false)) : Near t c k := by
  obtain ⟨j, jt, jm, hj, jr⟩ := hn
  have jq : j ∈ t.q (c, false) := by rw [hq]; exact List.mem_reverse.1 (List.mem_of_mem_take jm)
  obtain ⟨jt', hj', _⟩ := (a.inv h).wf.q_mem _ _ jq
  obtain ⟨b, hb⟩ := a.back hj'
  rw [hj] at hb
  injection hb with hb
  refine ⟨j, jt', by rw [hq]; exact jm, hj', ?_⟩
  rw [hb] at jr
  exact jr

theorem allocOrEvict_room (he : cfg.evict = true) {n c : Nat} (hc : c ≠ 0) (law : ∀ m x, (sl.alloc (sl.free m x c) n c).isSome = true)
    {s : St M} (h : Inv s) (hn : Near s c 200) : ∃ t, allocOrEvict cfg sl s n c = some (t, true) := by
  unfold allocOrEvict
  obtain ⟨a, hq⟩ := slabsAlloc_acts (cfg := cfg) sl s n c
  cases hs : slabsAlloc sl s n c with
  | mk u b =>
    rw [hs] at a hq
    cases b with
    | true => exact ⟨u, rfl⟩
    | false =>
      simp only []
      rw [if_neg (by simp [he])]
      obtain ⟨v, e⟩ := tailLoop_room he hc law 200 u (a.inv h) (hn.acts a h (hq _))
      rw [e]
      exact ⟨v, rfl⟩

theorem curSearch_room (he : cfg.evict = true) {n c : Nat} (hc : c ≠ 0) (law : ∀ m x, (sl.alloc (sl.free m x c) n c).isSome = true)
    {s : St M} (h : Inv s) (hn : Near s c 200) (k : Nat) : ∃ t, curSearch cfg sl s n c k = some (t, true) := by
  obtain ⟨t', b', e', a'⟩ := curSearch_acts (cfg := cfg) sl h n c k
  unfold curSearch at e' ⊢
  obtain ⟨t, b, e, a, hq⟩ := markLoop_acts (cfg := cfg) sl n (c, false) k s h
  rw [e] at e' ⊢
  simp only [] at e' ⊢
  have ht := a.inv h
  cases b with
  | true =>
    simp only [if_true] at e' ⊢
    revert e'
    generalize oneMore sl _ _ = x
    intro e'
    cases x with
    | none => cases e'
    | some x => exact ⟨x, rfl⟩
  | false =>
    have hn2 := hn.acts a h (hq rfl hc _)
    simp only [Bool.false_eq_true, if_false]
    split
    · refine allocOrEvict_room he hc law (s := { t with cur := upd t.cur (c, false) (t.low (c, false)) }) ?_ hn2
      refine (Act.marks (cfg := cfg) (s := t) t.low (upd t.cur (c, false) (t.low (c, false))) (fun d => ?_)).inv ht
      by_cases hd : d = (c, false)
      · subst hd
        rw [upd_same]
        exact (ht.wf.marks (c, false)).again
      · rw [upd_other hd]
        exact ht.wf.marks d
    · exact allocOrEvict_room he hc law ht hn2

theorem lowSearch_room (he : cfg.evict = true) {n c : Nat} (hc : c ≠ 0) (law : ∀ m x, (sl.alloc (sl.free m x c) n c).isSome = true)
    {s : St M} (h : Inv s) (hn : Near s c 200) : ∃ t, lowSearch cfg sl s n c = some (t, true) := by
  unfold lowSearch
  cases hx : s.cur (c, false) with
  | none => exact allocOrEvict_room he hc law h hn
  | some x =>
    obtain ⟨y, _, _, hy, _, _⟩ := (h.wf.marks (c, false)).order rfl x hx
    simp only [hy]
    obtain ⟨t, k, p, e, a, hp, hq⟩ := lowLoop_acts (cfg := cfg) sl n c 10 s (some y) h (fun i hi => by
      injection hi with hi; subst hi; exact (h.wf.marks _).low_in y hy)
    rw [e]
    cases p with
    | none => exact curSearch_room he hc law (a.inv h) (hn.acts a h (hq rfl hc _)) (k + 20)
    | some p =>
      obtain ⟨u, e, a2⟩ := oneMore_acts (cfg := cfg) sl (a.inv h) (q := (c, false)) (o := p) (hp p rfl)
      simp only [e, Option.map_some]
      exact ⟨u, rfl⟩

theorem memAlloc_room (he : cfg.evict = true) {n c : Nat} (hc : c ≠ 0) (law : ∀ m x, (sl.alloc (sl.free m x c) n c).isSome = true)
    {s : St M} (h : Inv s) (hn : Near s c 200) : ∃ t, memAlloc cfg sl s n c = some (t, true) := by
  unfold memAlloc
  rw [if_neg (fun x => hc x.2.1)]
  simp only [stickySearch]
  cases hx : s.cur (c, true) with
  | none => exact lowSearch_room he hc law h hn
  | some x =>
    simp only []
    obtain ⟨t, b, e, a, hq⟩ := markLoop_acts (cfg := cfg) sl n (c, true) 10 s h
    rw [e]
    have ht := a.inv h
    cases b with
    | true =>
      obtain ⟨u, e, a2⟩ := oneMore_acts (cfg := cfg) sl ht (q := (c, true)) (o := t.cur (c, true)) (fun i hi => (ht.wf.marks _).cur_in i hi)
      simp only [e, Option.map_some]
      exact ⟨u, rfl⟩
    | false => exact lowSearch_room he hc law ht (hn.acts a h (hq rfl hc _))

theorem length_le_sum (f : Id → Nat) : ∀ (l T : List Id), l.Nodup → (∀ i ∈ l, i ∈ T ∧ 1 ≤ f i) → l.length ≤ (T.map f).sum
  | [], T, _, _ => Nat.zero_le _
  | i :: l, T, hn, h => by
    obtain ⟨h1, h2⟩ := List.nodup_cons.1 hn
    obtain ⟨g1, g2⟩ := h i List.mem_cons_self
    have := length_le_sum f l (T.erase i) h2 (fun j hj => ⟨(List.mem_erase_of_ne (by rintro rfl; exact h1 hj)).2 (h j (List.mem_cons_of_mem _ hj)).1,
      (h j (List.mem_cons_of_mem _ hj)).2⟩)
    rw [sum_erase f g1, List.length_cons]
    omega

theorem near_of {s : St M} (h : Inv s) {c k i it} (hi : s.heap i = some it) (ht : i ∈ s.tbl) (hc : it.cls = c) (hs : it.exp ≠ sticky) (hr : it.refs = 0)
    (hk : inUse s c < k) : Near s c k := by
  have hl : it.linked = true := by
    obtain ⟨x, x1, x2⟩ := (h.wf.t_mem i).1 ht
    rw [hi] at x1
    cases x1
    exact x2
  have hq : it.inQ = true := by
    cases hq : it.inQ with
    | true => rfl
    | false => exact absurd hr (h.off i it hi hl hq)
  have hm := h.wf.in_q i it hi hq
  have hid : qid it = (c, false) := by
    unfold qid
    rw [hc, beq_eq_false_iff_ne.2 hs]
  rw [hid] at hm
  have key : ∀ l : List Id, i ∈ l → ∃ pre j jt post, l = pre ++ j :: post ∧ s.heap j = some jt ∧ jt.refs = 0 ∧ ∀ x ∈ pre, ∀ xt, s.heap x = some xt → xt.refs ≠ 0 := by
    intro l
    induction l with
    | nil => intro h; cases h
    | cons a l ih =>
      intro hm
      by_cases ha : ∃ jt, s.heap a = some jt ∧ jt.refs = 0
      · obtain ⟨jt, h1, h2⟩ := ha
        exact ⟨[], a, jt, l, rfl, h1, h2, fun x hx => (by cases hx)⟩
      · rcases List.mem_cons.1 hm with rfl | hm
        · exact absurd ⟨it, hi, hr⟩ ha
        · obtain ⟨pre, j, jt, post, h1, h2, h3, h4⟩ := ih hm
          refine ⟨a :: pre, j, jt, post, by rw [h1]; rfl, h2, h3, fun x hx xt e => ?_⟩
          rcases List.mem_cons.1 hx with rfl | hx
          · exact fun e2 => ha ⟨xt, e, e2⟩
          · exact h4 x hx xt e
  obtain ⟨pre, j, jt, post, h1, h2, h3, h4⟩ := key _ (List.mem_reverse.2 hm)
  refine ⟨j, jt, ?_, h2, h3⟩
  have hlen : pre.length ≤ inUse s c := by
    refine length_le_sum _ pre s.tbl ?_ (fun x hx => ?_)
    · have := (List.reverse_perm (s.q (c, false))).nodup_iff.2 (h.wf.q_nd (c, false))
      rw [h1] at this
      exact (List.nodup_append.1 this).1
    · have hx2 : x ∈ s.q (c, false) := by
        rw [← List.mem_reverse, h1]
        exact List.mem_append_left _ hx
      obtain ⟨xt, e1, e2, _, e3⟩ := h.wf.q_mem _ _ hx2
      refine ⟨(h.wf.t_mem x).2 ⟨xt, e1, e2⟩, ?_⟩
      unfold qid at e3
      injection e3 with e3 e4
      rw [e1]
      simp only []
      rw [if_pos ⟨e3, beq_eq_false_iff_ne.1 e4, h4 x hx xt e1⟩]
      exact Nat.le_refl _
  rw [h1, List.take_append]
  refine List.mem_append_right _ ?_
  obtain ⟨d, hd⟩ : ∃ d, k - pre.length = d + 1 := ⟨k - pre.length - 1, by omega⟩
  rw [hd, List.take_succ_cons]
  exact List.mem_cons_self

theorem run_calls {s t : St M} : ∀ {ops : List Op}, run cfg sl s ops = some t → ∃ l, Calls cfg sl s l t := by
  intro ops
  induction ops generalizing s with
  | nil =>
    intro h
    cases h
    exact ⟨[], .nil _⟩
  | cons op ops ih =>
    intro h
    unfold run at h
    cases e : step cfg sl s op with
    | none => rw [e] at h; cases h
    | some p =>
      obtain ⟨u, out⟩ := p
      rw [e] at h
      obtain ⟨l, hl⟩ := ih h
      exact ⟨_, .cons e hl⟩

end Verif.Lru
