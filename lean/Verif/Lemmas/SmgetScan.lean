import Verif.Lemmas.SmgetKey
/-!
# Sort-merge get: the walk through one collection
-/
namespace Verif.Smget
open Verif.BT Verif.BT.Spec

/-- Direction of a range type. -/
def up (rt : RType) : Bool := rt != .dsc

/-- The end of the range, uniformly. -/
structure Dir (r : Range) (rt : RType) (to : BKey) : Prop where
  desc : Descending r ↔ up rt = false
  range : ∀ k, Kin r.lo k → (BT.Spec.InRange r k ↔ ¬ Before (up rt) k r.lo ∧ ¬ Before (up rt) to k)
  ends : ∀ k, Smget.Spec.EndsAt r k ↔ k = to
  le : ¬ Before (up rt) to r.lo

theorem dir_of {r : Range} (hr : RangeOk r) {rt : RType} {to : BKey} (h : rangeType r = some (rt, to)) (ht : Typed r rt to) : Dir r rt to := by
  have hlo := ValidKey.nonEmpty hr.1
  have hends : ∀ k, Smget.Spec.EndsAt r k ↔ k = to := by
    intro k
    unfold Smget.Spec.EndsAt
    unfold rangeType at h
    cases hh : r.hi with
    | none =>
      rw [hh] at h
      simp only [Option.some.injEq, Prod.mk.injEq] at h
      obtain ⟨-, rfl⟩ := h
      simp [eq_comm]
    | some j =>
      rw [hh] at h
      have : j = to := by
        cases hc : bkeyComp r.lo j with
        | none => simp only [hc] at h; cases h
        | some o => cases o <;> simp only [hc, Option.some.injEq, Prod.mk.injEq] at h <;> exact h.2
      subst this
      simp [eq_comm]
  cases rt with
  | sin =>
    obtain ⟨h1, h2, h3, h4⟩ := ht
    subst h1
    refine ⟨by simp [up, h2], ?_, hends, before_irrefl⟩
    intro k hk
    rw [h4]
    constructor
    · rintro rfl; exact ⟨before_irrefl, before_irrefl⟩
    · rintro ⟨k1, k2⟩
      rcases before_total (forward := up .sin) hk.1 hlo hk.2 with h | h | h
      · exact absurd h k2
      · exact h.symm
      · exact absurd h k1
  | asc =>
    obtain ⟨h1, h2, h3, h4, h5⟩ := ht
    have hs : SameKind r.lo to := klt_same h2
    have hto : NonEmpty to := by
      have := hr.2 to h1
      exact ValidKey.nonEmpty this.1
    refine ⟨by simp [up, h3], ?_, hends, fun h => klt_asymm h2 h⟩
    intro k hk
    rw [h5, kle_iff hk.1 hlo hk.2, kle_iff (hk.1.symm.trans hs) hk.2 hto]
    rfl
  | dsc =>
    obtain ⟨h1, h2, h3, h4, h5⟩ := ht
    have hs : SameKind to r.lo := klt_same h2
    have hto : NonEmpty to := by
      have := hr.2 to h1
      exact ValidKey.nonEmpty this.1
    refine ⟨by simp [up, h3], ?_, hends, fun h => klt_asymm h2 h⟩
    intro k hk
    rw [h5, kle_iff (hk.1.symm.trans hs.symm).symm hto hk.2, kle_iff hk.1.symm hk.2 hlo]
    exact And.comm

/-- The range begins in trimmed space. -/
def Back (o : Ovfl) (lo : BKey) (l : List Elem) : Prop :=
  (o = .smallest ∧ ∀ x ∈ l, KLt lo x.bkey) ∨ (o = .largest ∧ ∀ x ∈ l, KLt x.bkey lo)

theorem back_iff {o : Ovfl} {lo : BKey} {l : List Elem} (d : Bool) :
    Back o lo l ↔ (o = behind d ∧ ∀ x ∈ l, Before d lo x.bkey) ∨ (o = ahead d ∧ ∀ x ∈ l, Before d x.bkey lo) := by
  cases d
  · exact Or.comm
  · exact Iff.rfl

/-- The start of a walk, for every type of range. -/
theorem first_spec {r : Range} {rt : RType} {to : BKey} (ht : Typed r rt to) (hd : Dir r rt to) {t : Tree} (hn : Nodes t.leaves)
    (hu : AllNodes t.upper) (ha : Aligned t.upper (t.leaves.map List.length)) (hlo : Fits r.lo t.leaves.flatten)
    (hto : Fits to t.leaves.flatten) (hs : Sorted t.leaves.flatten) (hx : t.leaves.flatten ≠ []) (o : Ovfl) :
    (∃ pos p, findFirst rt r.lo to t = some ⟨none, pos, false, p⟩ ∧ (∀ x ∈ t.leaves.flatten, ¬ BT.Spec.InRange r x.bkey) ∧
      (overlapped o t.leaves pos rt = true ↔ Back o r.lo t.leaves.flatten)) ∨
    (∃ m n i e rest b p, findFirst rt r.lo to t = some ⟨some e, .pos n i, b, p⟩ ∧ At t.leaves m n i ∧
      t.leaves.flatten[m]? = some e ∧ seq (up rt) t.leaves.flatten m = e :: rest ∧
      (∀ x ∈ preF (up rt) t.leaves.flatten m, Before (up rt) x.bkey r.lo) ∧ ¬ Before (up rt) e.bkey r.lo ∧ ¬ Before (up rt) to e.bkey ∧
      ((!b && overlapped o t.leaves (.pos n i) rt) = true ↔ Back o r.lo t.leaves.flatten)) := by
  have hmem : ∃ x, x ∈ t.leaves.flatten := List.exists_mem_of_ne_nil _ hx
  have hrange : ∀ x ∈ t.leaves.flatten, (BT.Spec.InRange r x.bkey ↔ ¬ Before (up rt) x.bkey r.lo ∧ ¬ Before (up rt) to x.bkey) :=
    fun x hx => hd.range _ ⟨(hlo.2 x hx).1, (hlo.2 x hx).2⟩
  by_cases hsin : rt = .sin
  · subst hsin
    have hto' : to = r.lo := ht.1
    subst hto'
    rcases findFirst_spec (rt := .sin) hn hu ha hlo hto hs with ⟨m, n, i, e, p, h1, h2, h3, h4, h5⟩ | ⟨k, h1, h2⟩
    · right
      have hq := seq_get (forward := up .sin) h3
      refine ⟨m, n, i, e, _, true, p, h1, h2, h3, hq, ?_, by rw [h4]; exact before_irrefl, by rw [h4]; exact before_irrefl, ?_⟩
      · intro x hxm
        have hss : (ordF (up .sin) t.leaves.flatten).Pairwise fun a b => Before (up .sin) a.bkey b.bkey := by
          show Sorted t.leaves.flatten
          exact hs
        rw [ordF_split _ _ m, hq] at hss
        have := (List.pairwise_append.mp hss).2.2 x hxm e List.mem_cons_self
        rw [← h4]; exact this
      · simp only [Bool.not_true, Bool.false_and, Bool.false_eq_true, false_iff]
        have he := List.mem_of_getElem? h3
        rintro (⟨-, h⟩ | ⟨-, h⟩)
        · have := h e he; rw [h4] at this; exact klt_irrefl _ this
        · have := h e he; rw [h4] at this; exact klt_irrefl _ this
    · left
      obtain ⟨pos, p, k1, k2, k3, k4⟩ := h2
      obtain ⟨g1, g2, g3⟩ := h1
      refine ⟨pos, p, k1, ?_, ?_⟩
      · intro x hxm
        rw [ht.2.2.2]
        rintro e
        obtain ⟨j, hj⟩ := List.getElem?_of_mem hxm
        by_cases hjk : j < k
        · have := g2 j x hj hjk; rw [e] at this; exact klt_irrefl _ this
        · have := g3 j x hj (by omega); rw [e] at this; exact klt_irrefl _ this
      · have hlen : 0 < t.leaves.flatten.length := List.length_pos_iff.mpr hx
        have hall0 : k = 0 → ∀ x ∈ t.leaves.flatten, KLt r.lo x.bkey := by
          intro hk x hxm
          obtain ⟨j, hj⟩ := List.getElem?_of_mem hxm
          exact g3 j x hj (by omega)
        have hall1 : k = t.leaves.flatten.length → ∀ x ∈ t.leaves.flatten, KLt x.bkey r.lo := by
          intro hk x hxm
          obtain ⟨j, hj⟩ := List.getElem?_of_mem hxm
          have := (List.getElem?_eq_some_iff.mp hj).1
          exact g2 j x hj (by omega)
        have hno0 : 0 < k → ¬ ∀ x ∈ t.leaves.flatten, KLt r.lo x.bkey := by
          intro hk h
          have h0 := List.getElem?_eq_getElem hlen
          exact klt_asymm (g2 0 _ h0 hk) (h _ (List.getElem_mem hlen))
        have hno1 : k < t.leaves.flatten.length → ¬ ∀ x ∈ t.leaves.flatten, KLt x.bkey r.lo := by
          intro hk h
          have h0 := List.getElem?_eq_getElem hk
          exact klt_asymm (g3 k _ h0 (Nat.le_refl _)) (h _ (List.getElem_mem hk))
        have e0 : (∀ x ∈ t.leaves.flatten, KLt r.lo x.bkey) ↔ pos = .before := by
          rcases Nat.eq_zero_or_pos k with h0 | h0
          · exact iff_of_true (hall0 h0) (k2 h0)
          · refine iff_of_false (hno0 h0) ?_
            by_cases h1 : k = t.leaves.flatten.length
            · rw [k3 h1]; decide
            · obtain ⟨n, i, hp⟩ := k4 h0 (by omega)
              rw [hp]; intro h; cases h
        have e1 : (∀ x ∈ t.leaves.flatten, KLt x.bkey r.lo) ↔ pos = .past := by
          by_cases h1 : k = t.leaves.flatten.length
          · exact iff_of_true (hall1 h1) (k3 h1)
          · refine iff_of_false (hno1 (by omega)) ?_
            rcases Nat.eq_zero_or_pos k with h0 | h0
            · rw [k2 h0]; decide
            · obtain ⟨n, i, hp⟩ := k4 h0 (by omega)
              rw [hp]; intro h; cases h
        rw [Back, e0, e1]
        cases o <;> cases pos <;> simp [overlapped]
  · have hfw : up rt = fwd rt := by cases rt <;> simp_all [up, fwd]
    have hltto : Before (fwd rt) r.lo to := by
      cases rt with
      | sin => exact absurd rfl hsin
      | asc => exact ht.2.1
      | dsc => exact ht.2.1
    have hne := hsin
    rw [hfw] at hrange ⊢
    rcases start_spec ht hne hn hu ha hlo hto hs with ⟨pos, p, h1, h2, h3⟩ | ⟨m, n, i, e, rest, b, p, h1, h2, h3, h4, h5, h6, h7, h8, h9⟩
    · left
      refine ⟨pos, p, h1, ?_, ?_⟩
      · intro x hxm h
        rw [hrange x hxm] at h
        rcases h2 x hxm with k | k
        · exact h.1 k
        · exact h.2 k
      · rw [back_iff (fwd rt)]
        rcases h3 with ⟨rfl, h3⟩ | ⟨k, n, i, e, rest, rfl, k2, k3, k4, k5⟩
        · rw [overlapped_wall]
          obtain ⟨x, hxm⟩ := hmem
          constructor
          · intro h; exact .inr ⟨h, h3⟩
          · rintro (⟨-, h⟩ | ⟨h, -⟩)
            · exact absurd (h3 x hxm) fun h' => before_asymm h' (h x hxm)
            · exact h
        · rw [overlapped_pos hne (fun c hc => (hn c hc).1) k2]
          have hem : e ∈ t.leaves.flatten := by
            have : e ∈ ordF (fwd rt) t.leaves.flatten := by
              rw [ordF_split _ _ k, k3]; simp
            exact mem_ordF.mp this
          have hss := seq_sorted (forward := fwd rt) hs k
          rw [k3] at hss
          have hloe : Before (fwd rt) r.lo e.bkey := before_trans hltto k4
          constructor
          · rintro ⟨g1, g2⟩
            refine .inl ⟨g1, fun x hxm => ?_⟩
            have : x ∈ ordF (fwd rt) t.leaves.flatten := mem_ordF.mpr hxm
            rw [ordF_split _ _ k, g2, k3] at this
            simp only [List.nil_append, List.mem_cons] at this
            rcases this with rfl | h
            · exact hloe
            · exact before_trans hloe ((List.pairwise_cons.mp hss).1 x h)
          · rintro (⟨g1, g2⟩ | ⟨-, g2⟩)
            · refine ⟨g1, ?_⟩
              cases hp : preF (fwd rt) t.leaves.flatten k with
              | nil => rfl
              | cons y ys =>
                have hy : y ∈ preF (fwd rt) t.leaves.flatten k := by rw [hp]; exact List.mem_cons_self
                have hyl : y ∈ t.leaves.flatten := by
                  have : y ∈ ordF (fwd rt) t.leaves.flatten := by rw [ordF_split _ _ k]; exact List.mem_append_left _ hy
                  exact mem_ordF.mp this
                exact absurd (k5 y hy) fun h' => before_asymm h' (g2 y hyl)
            · exact absurd hloe fun h' => before_asymm h' (g2 e hem)
    · right
      refine ⟨m, n, i, e, rest, b, p, h1, h2, h3, h5, h6, h7, h8, ?_⟩
      have hem : e ∈ t.leaves.flatten := List.mem_of_getElem? h3
      rw [back_iff (fwd rt)]
      have hss := seq_sorted (forward := fwd rt) hs m
      rw [h5] at hss
      cases b with
      | true =>
        have heb : e.bkey = r.lo := h9.mp rfl
        simp only [Bool.not_true, Bool.false_and, Bool.false_eq_true, false_iff]
        rintro (⟨-, h⟩ | ⟨-, h⟩)
        · have := h e hem; rw [heb] at this; exact before_irrefl this
        · have := h e hem; rw [heb] at this; exact before_irrefl this
      | false =>
        simp only [Bool.not_false, Bool.true_and]
        rw [overlapped_pos hne (fun c hc => (hn c hc).1) h2]
        have hneq : e.bkey ≠ r.lo := fun h => absurd (h9.mpr h) (by decide)
        have hloe : Before (fwd rt) r.lo e.bkey := by
          rcases before_total (forward := fwd rt) (hlo.2 e hem).1 hlo.1 (hlo.2 e hem).2 with h | h | h
          · exact h
          · exact absurd h.symm hneq
          · exact absurd h h7
        constructor
        · rintro ⟨g1, g2⟩
          refine .inl ⟨g1, fun x hxm => ?_⟩
          have : x ∈ ordF (fwd rt) t.leaves.flatten := mem_ordF.mpr hxm
          rw [ordF_split _ _ m, g2, h5] at this
          simp only [List.nil_append, List.mem_cons] at this
          rcases this with rfl | h
          · exact hloe
          · exact before_trans hloe ((List.pairwise_cons.mp hss).1 x h)
        · rintro (⟨g1, g2⟩ | ⟨-, g2⟩)
          · refine ⟨g1, ?_⟩
            cases hp : preF (fwd rt) t.leaves.flatten m with
            | nil => rfl
            | cons y ys =>
              have hy : y ∈ preF (fwd rt) t.leaves.flatten m := by rw [hp]; exact List.mem_cons_self
              have hyl : y ∈ t.leaves.flatten := by
                have : y ∈ ordF (fwd rt) t.leaves.flatten := by rw [ordF_split _ _ m]; exact List.mem_append_left _ hy
                exact mem_ordF.mp this
              exact absurd (h6 y hy) fun h' => before_asymm h' (g2 y hyl)
          · exact absurd hloe fun h' => before_asymm h' (g2 e hem)

/-! ## The walk -/

/-- What the walk needs of a collection. -/
structure Ctx (a : Ask) (info : Info) (K : Elem → Bool) : Prop where
  full : ∀ c ∈ info.tree.leaves, 0 < c.length
  fits : Fits a.to info.tree.leaves.flatten
  sorted : Sorted info.tree.leaves.flatten
  filt : ∀ e ∈ info.tree.leaves.flatten, keep a.f e = some (K e)

/-- The scan stands on an element with `rest` ahead. -/
structure Stand (a : Ask) (info : Info) (s : Scan) (m : Nat) (rest : List Elem) : Prop where
  same : s.info = info
  pos : At info.tree.leaves m s.n s.i
  way : seq a.asc info.tree.leaves.flatten m = s.elem :: rest
  eq : s.bkeq = true → s.elem.bkey = a.to

/-- The last element of the walk. -/
def lastB (e : Elem) (rest : List Elem) : BKey := ((e :: rest).getLast (List.cons_ne_nil _ _)).bkey

theorem lastB_cons (e x : Elem) (xs : List Elem) : lastB e (x :: xs) = lastB x xs := by
  simp [lastB]

theorem runsOff_cons {to : BKey} {d : Bool} {x : Elem} {xs : List Elem} (hx : ¬ Before d to x.bkey) :
    RunsOff to d false (x :: xs) ↔ RunsOff to d (decide (x.bkey = to)) xs := by
  unfold RunsOff
  cases xs with
  | nil => simp [hx]
  | cons y ys =>
    simp only [List.mem_cons, forall_eq_or_imp, reduceCtorEq, false_implies, true_and, List.getLast?_cons_cons, hx, not_false_eq_true]

theorem mem_seq {d : Bool} {l : List Elem} {m : Nat} {x : Elem} (h : x ∈ seq d l m) : x ∈ l := by
  have : x ∈ ordF d l := by rw [ordF_split _ _ m]; exact List.mem_append_right _ h
  exact mem_ordF.mp this

theorem within_cons_in {d : Bool} {to : BKey} {x : Elem} {xs : List Elem} (h : ¬ Before d to x.bkey) :
    within' d to (x :: xs) = x :: within' d to xs := by
  classical
  unfold within'
  rw [List.takeWhile_cons]
  simp [h]

theorem move_spec {a : Ask} {info : Info} {K : Elem → Bool} (cx : Ctx a info K) (rest : List Elem) :
    ∀ (m : Nat) (s : Scan) (fuel : Nat), Stand a info s m rest → rest.length < fuel →
      (∃ t b, scanMove a fuel s = some (.out t b) ∧ (within' a.asc a.to rest).filter K = [] ∧
        (t = true ↔ RunsOff a.to a.asc s.bkeq rest ∧ info.trimmed = true ∧ info.ovfl = ahead a.asc) ∧ (t = true → b = lastB s.elem rest)) ∨
      (∃ s' m' rest', scanMove a fuel s = some (.at s') ∧ Stand a info s' m' rest' ∧ s'.kidx = s.kidx ∧ s'.key = s.key ∧
        (within' a.asc a.to rest).filter K = s'.elem :: (within' a.asc a.to rest').filter K ∧
        (RunsOff a.to a.asc s.bkeq rest ↔ RunsOff a.to a.asc s'.bkeq rest') ∧ lastB s.elem rest = lastB s'.elem rest' ∧
        Before a.asc s.elem.bkey s'.elem.bkey ∧ rest'.length < rest.length) := by
  induction rest with
  | nil =>
    intro m s fuel h hf
    obtain ⟨fuel, rfl⟩ : ∃ k, fuel = k + 1 := ⟨fuel - 1, by simp at hf; omega⟩
    left
    have hfn := findNext_spec (to := a.to) cx.full cx.fits h.pos h.way
    simp only at hfn
    rw [scanMove]
    cases hb : s.bkeq with
    | true =>
      rw [if_pos rfl]
      refine ⟨false, _, rfl, by simp [within'], ?_, by intro h; cases h⟩
      simp [RunsOff]
    | false =>
      rw [if_neg (by decide), h.same, hfn]
      cases hasc : a.asc with
      | true =>
        simp only [wall, if_true]
        refine ⟨_, _, rfl, by simp [within'], ?_, fun _ => rfl⟩
        have := overlapped_wall (o := info.ovfl) (leaves := info.tree.leaves) (rt := a.rt) (forward := true)
        simp only [wall, if_true] at this
        simp only [Bool.true_and, Bool.and_eq_true, this]
        simp [RunsOff]
      | false =>
        simp only [wall, Bool.false_eq_true, if_false]
        refine ⟨_, _, rfl, by simp [within'], ?_, fun _ => rfl⟩
        have := overlapped_wall (o := info.ovfl) (leaves := info.tree.leaves) (rt := a.rt) (forward := false)
        simp only [wall, Bool.false_eq_true, if_false] at this
        simp only [Bool.true_and, Bool.and_eq_true, this]
        simp [RunsOff]
  | cons x xs ih =>
    intro m s fuel h hf
    obtain ⟨fuel, rfl⟩ : ∃ k, fuel = k + 1 := ⟨fuel - 1, by simp at hf; omega⟩
    have hfn := findNext_spec (to := a.to) cx.full cx.fits h.pos h.way
    simp only at hfn
    have hss := seq_sorted (forward := a.asc) cx.sorted m
    rw [h.way] at hss
    have hex : Before a.asc s.elem.bkey x.bkey := (List.pairwise_cons.mp hss).1 x List.mem_cons_self
    rw [scanMove]
    cases hb : s.bkeq with
    | true =>
      left
      rw [if_pos rfl]
      have he := h.eq hb
      have hbx : ∀ y ∈ x :: xs, Before a.asc a.to y.bkey := by
        intro y hy; rw [← he]; exact (List.pairwise_cons.mp hss).1 y hy
      refine ⟨false, _, rfl, by rw [within_nil hbx]; rfl, ?_, by intro h; cases h⟩
      simp only [Bool.false_eq_true, false_iff]
      rintro ⟨⟨h1, -⟩, -⟩
      exact h1 x List.mem_cons_self (hbx x List.mem_cons_self)
    | false =>
      rw [if_neg (by decide), h.same]
      obtain ⟨n', i', hat, hget, -, hcase⟩ := hfn
      rcases hcase with ⟨h1, h2⟩ | ⟨h1, h2⟩
      · left
        rw [h2]
        refine ⟨_, _, rfl, ?_, ?_, ?_⟩
        · have hbx : ∀ y ∈ x :: xs, Before a.asc a.to y.bkey := by
            intro y hy
            rcases List.mem_cons.mp hy with rfl | hy
            · exact h1
            · exact before_trans h1 ((List.pairwise_cons.mp (List.pairwise_cons.mp hss).2).1 y hy)
          rw [within_nil hbx]; rfl
        · simp only [Bool.false_and, Bool.false_eq_true, false_iff]
          rintro ⟨⟨h3, -⟩, -⟩
          exact h3 x List.mem_cons_self h1
        · simp
      · rw [h2]
        have hxm : x ∈ info.tree.leaves.flatten := List.mem_of_getElem? hget
        have hk := cx.filt x hxm
        have hstand : Stand a info ⟨s.kidx, s.key, info, n', i', decide (x.bkey = a.to), x⟩ (towards a.asc m) xs := by
          refine ⟨rfl, hat, ?_, ?_⟩
          · have hm : m < info.tree.leaves.flatten.length := h.pos.lt
            exact (seq_step hm h.way).2
          · intro hd; exact of_decide_eq_true hd
        simp only [hk]
        cases hKx : K x with
        | true =>
          right
          refine ⟨_, _, _, rfl, hstand, rfl, rfl, ?_, ?_, lastB_cons _ _ _, hex, by simp⟩
          · rw [within_cons_in h1, List.filter_cons, if_pos hKx]
          · exact runsOff_cons h1
        | false =>
          have hro := runsOff_cons (xs := xs) h1
          have hflt : (within' a.asc a.to (x :: xs)).filter K = (within' a.asc a.to xs).filter K := by
            rw [within_cons_in h1, List.filter_cons, if_neg (by rw [hKx]; decide)]
          rcases ih _ _ fuel hstand (by simp at hf; omega) with ⟨t, b, g1, g2, g3, g4⟩ | ⟨s', m', rest', g1, g2, g3, g4, g5, g6, g7, g8, g9⟩
          · left
            refine ⟨t, b, g1, hflt.trans g2, ?_, ?_⟩
            · rw [g3, hro]
            · intro ht; rw [g4 ht, lastB_cons]
          · right
            refine ⟨s', m', rest', g1, g2, g3, g4, hflt.trans g5, hro.trans g6, (lastB_cons _ _ _).trans g7, before_trans hex g8, ?_⟩
            simp only [List.length_cons]; omega

/-- The elements a scan will still deliver behind the one it stands on, and where it runs into trimmed space. -/
inductive Str (a : Ask) : Scan → List Elem → Option BKey → Prop where
  | done {s : Scan} {t : Bool} {b : BKey} : move a s = some (.out t b) → Str a s [] (if t = true then some b else none)
  | step {s s' : Scan} {l : List Elem} {t : Option BKey} : move a s = some (.at s') → s'.kidx = s.kidx → s'.key = s.key → s'.info = s.info →
      Before a.asc s.elem.bkey s'.elem.bkey → Str a s' l t → Str a s (s'.elem :: l) t

theorem seq_length {d : Bool} {l : List Elem} {m : Nat} : (seq d l m).length ≤ l.length := by
  cases d
  · simp only [seq, Bool.false_eq_true, if_false, List.length_reverse, List.length_take]; omega
  · simp only [seq, if_true, List.length_drop]; omega

theorem Stand.room {a : Ask} {info : Info} {s : Scan} {m : Nat} {rest : List Elem} (h : Stand a info s m rest) :
    rest.length < rounds info.tree.leaves := by
  have := seq_length (d := a.asc) (l := info.tree.leaves.flatten) (m := m)
  rw [h.way] at this
  simp only [List.length_cons] at this
  unfold rounds; omega

theorem str_of_stand {a : Ask} {info : Info} {K : Elem → Bool} (cx : Ctx a info K) (n : Nat) :
    ∀ (rest : List Elem) (m : Nat) (s : Scan), rest.length ≤ n → Stand a info s m rest →
      ∃ t, Str a s ((within' a.asc a.to rest).filter K) t ∧
        ∀ b, t = some b ↔ RunsOff a.to a.asc s.bkeq rest ∧ info.trimmed = true ∧ info.ovfl = ahead a.asc ∧ b = lastB s.elem rest := by
  induction n with
  | zero =>
    intro rest m s hl h
    rcases move_spec cx rest m s _ h h.room with ⟨t, b, g1, g2, g3, g4⟩ | ⟨s', m', rest', -, -, -, -, -, -, -, -, g9⟩
    · have hm : move a s = some (.out t b) := by rw [move, h.same]; exact g1
      rw [g2]
      refine ⟨_, .done hm, fun b' => ?_⟩
      cases t with
      | true =>
        have := g3.mp rfl
        simp only [if_true, Option.some.injEq]
        rw [g4 rfl]
        exact ⟨fun h => ⟨this.1, this.2.1, this.2.2, h.symm⟩, fun h => h.2.2.2.symm⟩
      | false =>
        simp only [Bool.false_eq_true, if_false, reduceCtorEq, false_iff]
        rintro ⟨k1, k2, k3, -⟩
        exact absurd (g3.mpr ⟨k1, k2, k3⟩) (by decide)
    · omega
  | succ n ih =>
    intro rest m s hl h
    rcases move_spec cx rest m s _ h h.room with ⟨t, b, g1, g2, g3, g4⟩ | ⟨s', m', rest', g1, g2, g3, g4, g5, g6, g7, g8, g9⟩
    · have hm : move a s = some (.out t b) := by rw [move, h.same]; exact g1
      rw [g2]
      refine ⟨_, .done hm, fun b' => ?_⟩
      cases t with
      | true =>
        have := g3.mp rfl
        simp only [if_true, Option.some.injEq]
        rw [g4 rfl]
        exact ⟨fun h => ⟨this.1, this.2.1, this.2.2, h.symm⟩, fun h => h.2.2.2.symm⟩
      | false =>
        simp only [Bool.false_eq_true, if_false, reduceCtorEq, false_iff]
        rintro ⟨k1, k2, k3, -⟩
        exact absurd (g3.mpr ⟨k1, k2, k3⟩) (by decide)
    · have hm : move a s = some (.at s') := by rw [move, h.same]; exact g1
      obtain ⟨t, k1, k2⟩ := ih rest' m' s' (by omega) g2
      rw [g5]
      refine ⟨t, .step hm g3 g4 (by rw [g2.same, h.same]) g8 k1, fun b => ?_⟩
      rw [k2, g6, g7]

end Verif.Smget
