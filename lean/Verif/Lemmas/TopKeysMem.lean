/-
Lemmas about the memory of top keys: reads after writes and the doubly linked ring.
-/
import Verif.Model.TopKeys
import Mathlib.Data.List.Perm.Subperm

namespace Verif.TopKeys

theorem get_release (m : Mem) (a b : Nat) :
    get (release m a) b = if a = b then none else get m b := by
  induction m with
  | nil => simp [release, get]
  | cons p m ih =>
    obtain ⟨c, n⟩ := p
    unfold release at ih ⊢
    by_cases hc : c = a
    · subst hc
      simp only [List.filter, beq_self_eq_true, Bool.not_true, ih, get]
      by_cases hb : c = b
      · simp [hb]
      · simp [hb]
    · have : (!((c, n).1 == a)) = true := by simpa using hc
      simp only [List.filter, this, get, ih]
      by_cases hb : c = b
      · subst hb
        have : a ≠ c := fun h => hc h.symm
        simp [this]
      · simp [hb]

theorem get_put (m : Mem) (a b : Nat) (n : Node) :
    get (put m a n) b = if a = b then some n else get m b := by
  unfold put
  by_cases h : a = b
  · simp [get, h]
  · simp [get, h, get_release]

theorem get_mem {m : Mem} {a : Nat} {n : Node} (h : get m a = some n) : a ∈ m.map (·.1) := by
  induction m with
  | nil => simp [get] at h
  | cons p m ih =>
    obtain ⟨c, n'⟩ := p
    by_cases hc : c = a
    · simp [hc]
    · simp only [get, if_neg hc] at h
      exact List.mem_cons_of_mem _ (ih h)

/-- What a node carries besides its links. -/
def data (n : Node) : Key × Nat × Nat × List Nat := (n.key, n.ctime, n.atime, n.cnt)

/-- `l` and `r` are linked to each other. -/
def Link (m : Mem) (l r : Nat) : Prop :=
  ∃ x y, get m l = some x ∧ x.next = r ∧ get m r = some y ∧ y.prev = l

/-- The nodes of `as` lie between `l` and `r`. -/
def Seg (m : Mem) (l r : Nat) : List Nat → Prop
  | [] => Link m l r
  | a :: as => Link m l a ∧ Seg m a r as

theorem seg_append {m : Mem} {l r a : Nat} {as bs : List Nat} :
    Seg m l r (as ++ a :: bs) ↔ Seg m l a as ∧ Seg m a r bs := by
  induction as generalizing l with
  | nil => simp [Seg]
  | cons b as ih => simp [Seg, ih, and_assoc]

/-- Same links out of the addresses in `P` and into those in `Q`. -/
theorem seg_frame {m m' : Mem} {l r : Nat} {as : List Nat} (h : Seg m l r as)
    (hn : ∀ a ∈ l :: as, ∀ x, get m a = some x → ∃ x', get m' a = some x' ∧ x'.next = x.next)
    (hp : ∀ a ∈ as ++ [r], ∀ x, get m a = some x → ∃ x', get m' a = some x' ∧ x'.prev = x.prev) :
    Seg m' l r as := by
  induction as generalizing l with
  | nil =>
    obtain ⟨x, y, hx, hxn, hy, hyp⟩ := h
    obtain ⟨x', hx', hx'n⟩ := hn l (by simp) x hx
    obtain ⟨y', hy', hy'p⟩ := hp r (by simp) y hy
    exact ⟨x', y', hx', hx'n.trans hxn, hy', hy'p.trans hyp⟩
  | cons b as ih =>
    obtain ⟨⟨x, y, hx, hxn, hy, hyp⟩, hs⟩ := h
    obtain ⟨x', hx', hx'n⟩ := hn l (by simp) x hx
    obtain ⟨y', hy', hy'p⟩ := hp b (by simp) y hy
    refine ⟨⟨x', y', hx', hx'n.trans hxn, hy', hy'p.trans hyp⟩, ih hs ?_ ?_⟩
    · intro a ha; exact hn a (List.mem_cons_of_mem _ ha)
    · intro a ha; exact hp a (by simp at ha ⊢; tauto)

theorem setNext_ok {m : Mem} {a v : Nat} {x : Node} (h : get m a = some x) :
    ∃ m', setNext m a v = some m' ∧
      ∀ b, get m' b = if a = b then some { x with next := v } else get m b := by
  refine ⟨_, by simp only [setNext, h]; rfl, ?_⟩
  intro b; exact get_put _ _ _ _

theorem setPrev_ok {m : Mem} {a v : Nat} {x : Node} (h : get m a = some x) :
    ∃ m', setPrev m a v = some m' ∧
      ∀ b, get m' b = if a = b then some { x with prev := v } else get m b := by
  refine ⟨_, by simp only [setPrev, h]; rfl, ?_⟩
  intro b; exact get_put _ _ _ _

/-- Same nodes live, with the same contents but for the links. -/
def Same (m m' : Mem) : Prop := ∀ b, (get m' b).map data = (get m b).map data

theorem Same.refl (m : Mem) : Same m m := fun _ => rfl

theorem Same.trans {m m' m'' : Mem} (h : Same m m') (h' : Same m' m'') : Same m m'' :=
  fun b => (h' b).trans (h b)

theorem same_of_next {m m' : Mem} {a v : Nat} {x : Node} (hx : get m a = some x)
    (h : ∀ b, get m' b = if a = b then some { x with next := v } else get m b) : Same m m' := by
  intro b
  rw [h b]
  by_cases hb : a = b
  · subst hb; simp [hx, data]
  · simp [hb]

theorem same_of_prev {m m' : Mem} {a v : Nat} {x : Node} (hx : get m a = some x)
    (h : ∀ b, get m' b = if a = b then some { x with prev := v } else get m b) : Same m m' := by
  intro b
  rw [h b]
  by_cases hb : a = b
  · subst hb; simp [hx, data]
  · simp [hb]

/-- The first and last links of a segment. -/
theorem seg_first {m : Mem} {l r : Nat} {as : List Nat} (h : Seg m l r as) :
    ∃ x, get m l = some x ∧ x.next = (as ++ [r]).head (by simp) := by
  cases as with
  | nil => obtain ⟨x, y, hx, hxn, _⟩ := h; exact ⟨x, hx, hxn⟩
  | cons a as => obtain ⟨⟨x, y, hx, hxn, _⟩, _⟩ := h; exact ⟨x, hx, hxn⟩

theorem seg_last {m : Mem} {l r : Nat} {as : List Nat} (h : Seg m l r as) :
    ∃ x, get m r = some x ∧ x.prev = (l :: as).getLast (by simp) := by
  induction as generalizing l with
  | nil => obtain ⟨x, y, _, _, hy, hyp⟩ := h; exact ⟨y, hy, hyp⟩
  | cons a as ih =>
    obtain ⟨x, hx, hp⟩ := ih h.2
    exact ⟨x, hx, by rw [hp]; simp⟩

/-- Removal of a node of the ring. -/
theorem dlistRemove_ok {m : Mem} {as bs : List Nat} {a : Nat}
    (hs : Seg m 0 0 (as ++ a :: bs)) (hnd : (0 :: (as ++ a :: bs)).Nodup) :
    ∃ m', dlistRemove m a = some m' ∧ Seg m' 0 0 (as ++ bs) ∧ Same m m' := by
  obtain ⟨h1, h2⟩ := seg_append.mp hs
  -- the neighbours
  obtain ⟨n, hn, hnp⟩ := seg_last h1
  obtain ⟨n', hn', hnn⟩ := seg_first h2
  have : n' = n := by rw [hn] at hn'; injection hn' with e; exact e.symm
  subst this
  generalize hp : (0 :: as).getLast (by simp) = p at hnp
  generalize hq : (bs ++ [0]).head (by simp) = q at hnn
  -- the ring around p and q
  have hpl : ∃ x, get m p = some x ∧ x.next = a ∧ p ∈ 0 :: as := by
    rcases List.eq_nil_or_concat as with h | ⟨as', c, h⟩
    · subst h
      obtain ⟨x, y, hx, hxn, _⟩ := h1
      simp at hp; subst hp
      exact ⟨x, hx, hxn, by simp⟩
    · rw [List.concat_eq_append] at h
      subst h
      have := (seg_append.mp h1).2
      obtain ⟨x, y, hx, hxn, _⟩ := this
      have e : p = c := by rw [← hp]; simp
      subst e
      exact ⟨x, hx, hxn, by simp⟩
  have hqr : ∃ x, get m q = some x ∧ x.prev = a ∧ q ∈ bs ++ [0] := by
    cases bs with
    | nil =>
      obtain ⟨x, y, _, _, hy, hyp⟩ := h2
      simp at hq; subst hq
      exact ⟨y, hy, hyp, by simp⟩
    | cons c bs =>
      obtain ⟨⟨x, y, _, _, hy, hyp⟩, _⟩ := h2
      simp at hq; subst hq
      exact ⟨y, hy, hyp, by simp⟩
  obtain ⟨x, hx, hxn, hpm⟩ := hpl
  obtain ⟨y, hy, hyp, hqm⟩ := hqr
  obtain ⟨m1, e1, g1⟩ := setNext_ok (v := q) hx
  have hy1 : ∃ y1, get m1 q = some y1 ∧ y1.prev = a := by
    rw [g1 q]
    by_cases h : p = q
    · subst h
      rw [hx] at hy; injection hy with e
      exact ⟨_, if_pos rfl, by rw [← hyp, ← e]⟩
    · exact ⟨y, by rw [if_neg h]; exact hy, hyp⟩
  obtain ⟨y1, hy1, hy1p⟩ := hy1
  obtain ⟨m2, e2, g2⟩ := setPrev_ok (v := p) hy1
  refine ⟨m2, ?_, ?_, (same_of_next hx g1).trans (same_of_prev hy1 g2)⟩
  · simp only [dlistRemove, hn, Option.bind_eq_bind, Option.bind_some, hnp, hx, hnn, hy, hxn, hyp,
      ne_eq, not_true_eq_false, if_false, e1, e2]
  · -- facts about m2
    have gn : ∀ b z, b ≠ p → get m b = some z → ∃ z', get m2 b = some z' ∧ z'.next = z.next := by
      intro b z hb hz
      rw [g2 b]
      by_cases h : q = b
      · subst h
        rw [g1 q, if_neg (fun e => hb e.symm), hz] at hy1
        injection hy1 with e
        exact ⟨_, if_pos rfl, by rw [e]⟩
      · rw [if_neg h, g1 b, if_neg (fun e => hb e.symm)]
        exact ⟨z, hz, rfl⟩
    have gp : ∀ b z, b ≠ q → get m b = some z → ∃ z', get m2 b = some z' ∧ z'.prev = z.prev := by
      intro b z hb hz
      rw [g2 b, if_neg (fun e => hb e.symm), g1 b]
      by_cases h : p = b
      · subst h
        rw [hx] at hz; injection hz with e
        exact ⟨_, if_pos rfl, by rw [← e]⟩
      · rw [if_neg h]; exact ⟨z, hz, rfl⟩
    have gpn : ∃ z, get m2 p = some z ∧ z.next = q := by
      rw [g2 p]
      by_cases h : q = p
      · rw [if_pos h]
        rw [g1 q, if_pos h.symm] at hy1
        injection hy1 with e
        exact ⟨_, rfl, by rw [← e]⟩
      · rw [if_neg h, g1 p, if_pos rfl]; exact ⟨_, rfl, rfl⟩
    have gqp : ∃ z, get m2 q = some z ∧ z.prev = p := by
      rw [g2 q, if_pos rfl]; exact ⟨_, rfl, rfl⟩
    have hlink : Link m2 p q := by
      obtain ⟨z, hz, hzn⟩ := gpn
      obtain ⟨w, hw, hwp⟩ := gqp
      exact ⟨z, w, hz, hzn, hw, hwp⟩
    -- the left part up to p and the right part from q
    have hleft : ∀ as', 0 :: as = as' ++ [p] → as' = [] ∧ p = 0 ∧ as = [] ∨
        ∃ as'', as = as'' ++ [p] ∧ as' = 0 :: as'' := by
      intro as' h
      cases as' with
      | nil => simp at h; exact Or.inl ⟨rfl, h.1.symm, h.2⟩
      | cons c as'' => simp at h; exact Or.inr ⟨as'', h.2, by rw [h.1]⟩
    have hnd' : (∀ b ∈ as, b ≠ 0) ∧ (∀ b ∈ bs, b ≠ 0) ∧ as.Nodup ∧ bs.Nodup ∧
        (∀ b ∈ as, b ∉ bs) := by
      simp only [List.nodup_cons, List.nodup_append, List.mem_append, List.mem_cons] at hnd
      obtain ⟨h0, h1, h2, h3⟩ := hnd
      refine ⟨fun b hb e => h0 (Or.inl (e ▸ hb)), fun b hb e => h0 (Or.inr (Or.inr (e ▸ hb))),
        h1, h2.2, fun b hb hb' => h3 b hb b (Or.inr hb') rfl⟩
    obtain ⟨n0a, n0b, nda, ndb, ndab⟩ := hnd'
    -- left segment
    have hL : (as = [] ∧ p = 0) ∨ ∃ as'', as = as'' ++ [p] ∧ Seg m2 0 p as'' := by
      rcases List.eq_nil_or_concat as with h | ⟨as', c, h⟩
      · left; subst h; simp at hp; exact ⟨rfl, hp.symm⟩
      · right
        rw [List.concat_eq_append] at h
        have e : p = c := by rw [← hp]; simp [h]
        subst e
        refine ⟨as', h, ?_⟩
        subst h
        have hseg := (seg_append.mp h1).1
        apply seg_frame hseg
        · intro b hb z hz
          apply gn b z _ hz
          rintro rfl
          rcases List.mem_cons.mp hb with h | h
          · exact n0a b (by simp) h
          · have := List.nodup_append.mp nda
            exact this.2.2 b h b (by simp) rfl
        · intro b hb z hz
          apply gp b z _ hz
          rintro rfl
          rcases List.mem_append.mp hqm with h | h
          · exact ndab b hb h
          · simp at h; exact n0a b hb h
    have hR : (bs = [] ∧ q = 0) ∨ ∃ bs'', bs = q :: bs'' ∧ Seg m2 q 0 bs'' := by
      cases bs with
      | nil => left; simp at hq; exact ⟨rfl, hq.symm⟩
      | cons c bs =>
        right
        simp at hq; subst hq
        refine ⟨bs, rfl, ?_⟩
        apply seg_frame h2.2
        · intro b hb z hz
          apply gn b z _ hz
          rintro rfl
          rcases List.mem_cons.mp hpm with h | h
          · exact n0b b hb h
          · exact ndab b h hb
        · intro b hb z hz
          apply gp b z _ hz
          rintro rfl
          rcases List.mem_append.mp hb with h | h
          · exact (List.nodup_cons.mp ndb).1 h
          · simp at h; exact n0b b (by simp) h
    rcases hL with ⟨ha, hp0⟩ | ⟨as'', ha, hsl⟩
    · rcases hR with ⟨hb, hq0⟩ | ⟨bs'', hb, hsr⟩
      · rw [ha, hb]; simp only [List.append_nil, Seg]; rw [hp0, hq0] at hlink; exact hlink
      · rw [ha, hb]; simp only [List.nil_append, Seg]; rw [hp0] at hlink; exact ⟨hlink, hsr⟩
    · rcases hR with ⟨hb, hq0⟩ | ⟨bs'', hb, hsr⟩
      · rw [ha, hb, List.append_nil]
        exact seg_append.mpr ⟨hsl, by rw [hq0] at hlink; exact hlink⟩
      · rw [ha, hb, List.append_assoc]
        exact seg_append.mpr ⟨hsl, hlink, hsr⟩

/-- Insertion of a node at the front of the ring. -/
theorem dlistInsertAfter_ok {m : Mem} {as : List Nat} {a : Nat} {n : Node}
    (hs : Seg m 0 0 as) (hnd : (0 :: as).Nodup) (ha : get m a = some n) (ha0 : a ≠ 0)
    (hna : a ∉ as) :
    ∃ m', dlistInsertAfter m 0 a = some m' ∧ Seg m' 0 0 (a :: as) ∧ Same m m' := by
  obtain ⟨h, hh, hhn⟩ := seg_first hs
  generalize hq : (as ++ [0]).head (by simp) = q at hhn
  have hqm : q ∈ as ++ [0] := by rw [← hq]; exact List.head_mem _
  have hqa : q ≠ a := by
    rintro rfl
    rcases List.mem_append.mp hqm with h | h
    · exact hna h
    · simp at h; exact ha0 h
  obtain ⟨m1, e1, g1⟩ := setNext_ok (v := q) ha
  have ha1 : get m1 a = some { n with next := q } := by rw [g1 a, if_pos rfl]
  obtain ⟨m2, e2, g2⟩ := setPrev_ok (v := 0) ha1
  have hh2 : get m2 0 = some h := by rw [g2 0, if_neg ha0, g1 0, if_neg ha0]; exact hh
  have hy : ∃ y, get m2 q = some y := by
    cases as with
    | nil => simp at hq; subst hq; exact ⟨h, hh2⟩
    | cons c as =>
      simp at hq; subst hq
      obtain ⟨⟨x, y, _, _, hy, _⟩, _⟩ := hs
      exact ⟨y, by rw [g2 c, if_neg (fun e => hqa e.symm), g1 c, if_neg (fun e => hqa e.symm)]; exact hy⟩
  obtain ⟨y, hy⟩ := hy
  obtain ⟨m3, e3, g3⟩ := setPrev_ok (v := a) hy
  have hh3 : ∃ h3, get m3 0 = some h3 ∧ (q ≠ 0 → h3 = h) := by
    rw [g3 0]
    by_cases e : q = 0
    · exact ⟨_, if_pos e, fun h => absurd e h⟩
    · exact ⟨h, by rw [if_neg e]; exact hh2, fun _ => rfl⟩
  obtain ⟨h3, hh3, hh3'⟩ := hh3
  obtain ⟨m4, e4, g4⟩ := setNext_ok (v := a) hh3
  have hSame : Same m m4 := (((same_of_next ha g1).trans (same_of_prev ha1 g2)).trans
    (same_of_prev hy g3)).trans (same_of_next hh3 g4)
  refine ⟨m4, ?_, ?_, hSame⟩
  · simp only [dlistInsertAfter, hh, Option.bind_eq_bind, Option.bind_some, hhn, e1, e2, hh2, e3, e4]
  · -- the nodes afterwards
    have f0 : ∃ z, get m4 0 = some z ∧ z.next = a ∧ (q = 0 → z.prev = a) := by
      refine ⟨_, by rw [g4 0, if_pos rfl], rfl, ?_⟩
      intro e
      rw [g3 0, if_pos e] at hh3
      injection hh3 with e'
      simp [← e']
    have fa : ∃ z, get m4 a = some z ∧ z.next = q ∧ z.prev = 0 := by
      refine ⟨{ n with next := q, prev := 0 }, ?_, rfl, rfl⟩
      rw [g4 a, if_neg (fun e => ha0 e.symm), g3 a, if_neg hqa, g2 a, if_pos rfl]
    have fq : ∃ z, get m4 q = some z ∧ z.prev = a := by
      by_cases e : q = 0
      · obtain ⟨z, hz, _, hzp⟩ := f0
        exact ⟨z, by rw [e]; exact hz, hzp e⟩
      · exact ⟨_, by rw [g4 q, if_neg (fun h => e h.symm), g3 q, if_pos rfl], rfl⟩
    have fn : ∀ b z, b ≠ 0 → b ≠ a → get m b = some z → ∃ z', get m4 b = some z' ∧ z'.next = z.next := by
      intro b z hb hba hz
      rw [g4 b, if_neg (fun e => hb e.symm), g3 b]
      by_cases h : q = b
      · subst h
        rw [g2 q, if_neg (fun e => hba e.symm), g1 q, if_neg (fun e => hba e.symm), hz] at hy
        injection hy with e
        exact ⟨_, if_pos rfl, by rw [e]⟩
      · rw [if_neg h, g2 b, if_neg (fun e => hba e.symm), g1 b, if_neg (fun e => hba e.symm)]
        exact ⟨z, hz, rfl⟩
    have fp : ∀ b z, b ≠ q → b ≠ a → get m b = some z → ∃ z', get m4 b = some z' ∧ z'.prev = z.prev := by
      intro b z hb hba hz
      rw [g4 b]
      by_cases h : 0 = b
      · subst h
        rw [if_pos rfl]
        have e3 := hh3' (fun e => hb e.symm)
        rw [hh] at hz
        injection hz with e
        exact ⟨_, rfl, by rw [← e, e3]⟩
      · rw [if_neg h, g3 b, if_neg (fun e => hb e.symm), g2 b, if_neg (fun e => hba e.symm), g1 b,
          if_neg (fun e => hba e.symm)]
        exact ⟨z, hz, rfl⟩
    obtain ⟨z0, hz0, hz0n, _⟩ := f0
    obtain ⟨za, hza, hzan, hzap⟩ := fa
    obtain ⟨zq, hzq, hzqp⟩ := fq
    refine ⟨⟨z0, za, hz0, hz0n, hza, hzap⟩, ?_⟩
    cases as with
    | nil =>
      simp at hq; subst hq
      exact ⟨za, zq, hza, hzan, hzq, hzqp⟩
    | cons c as =>
      simp at hq; subst hq
      refine ⟨⟨za, zq, hza, hzan, hzq, hzqp⟩, ?_⟩
      have h0 : ∀ b ∈ c :: as, b ≠ 0 := fun b hb e => (List.nodup_cons.mp hnd).1 (e ▸ hb)
      apply seg_frame hs.2
      · intro b hb z hz
        exact fn b z (h0 b hb) (fun e => hna (e ▸ hb)) hz
      · intro b hb z hz
        apply fp b z _ _ hz
        · rintro rfl
          rcases List.mem_append.mp hb with h | h
          · exact (List.nodup_cons.mp (List.nodup_cons.mp hnd).2).1 h
          · simp at h; exact h0 b (by simp) h
        · rintro rfl
          rcases List.mem_append.mp hb with h | h
          · exact hna (List.mem_cons_of_mem _ h)
          · simp at h; exact ha0 h

/-- The walk over the ring. -/
theorem iter_ok {m : Mem} {as : List Nat} {l : Nat} (hs : Seg m l 0 as) (h0 : ∀ a ∈ as, a ≠ 0)
    (fuel : Nat) (hf : as.length < fuel) :
    ∃ ns, iter m fuel l = some ns ∧ ns.map some = as.map (get m) := by
  induction as generalizing l fuel with
  | nil =>
    obtain ⟨x, y, hx, hxn, _⟩ := hs
    cases fuel with
    | zero => simp at hf
    | succ f => exact ⟨[], by simp [iter, hx, hxn], rfl⟩
  | cons a as ih =>
    obtain ⟨⟨x, y, hx, hxn, hy, _⟩, hs⟩ := hs
    cases fuel with
    | zero => simp at hf
    | succ f =>
      obtain ⟨ns, h1, h2⟩ := ih hs (fun b hb => h0 b (List.mem_cons_of_mem _ hb)) f (by simpa using hf)
      refine ⟨y :: ns, ?_, by simp [hy, h2]⟩
      have : a ≠ 0 := h0 a (by simp)
      simp [iter, hx, hxn, this, hy, h1]

end Verif.TopKeys
