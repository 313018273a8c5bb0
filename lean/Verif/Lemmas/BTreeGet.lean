import Verif.Lemmas.BTreeRange
/-!
# Lemmas on the element operations that walk along the leaves: delete, get, count
-/
namespace Verif.BT
open Verif.BT.Spec

/-- The start of a walk, in terms of the list. -/
theorem start_spec {r : Range} {rt : RType} {to : BKey} (ht : Typed r rt to) (hne : rt ≠ .sin) {t : Tree} (hn : Nodes t.leaves)
    (hu : AllNodes t.upper) (ha : Aligned t.upper (t.leaves.map List.length)) (hlo : Fits r.lo t.leaves.flatten)
    (hto : Fits to t.leaves.flatten) (hs : Sorted t.leaves.flatten) :
    (∃ pos p, findFirst rt r.lo to t = some ⟨none, pos, false, p⟩ ∧
      (∀ x ∈ t.leaves.flatten, Before (fwd rt) x.bkey r.lo ∨ Before (fwd rt) to x.bkey) ∧
      ((pos = wall (fwd rt) ∧ ∀ x ∈ t.leaves.flatten, Before (fwd rt) x.bkey r.lo) ∨
       ∃ k n i e rest, pos = .pos n i ∧ At t.leaves k n i ∧ seq (fwd rt) t.leaves.flatten k = e :: rest ∧ Before (fwd rt) to e.bkey ∧
         ∀ x ∈ preF (fwd rt) t.leaves.flatten k, Before (fwd rt) x.bkey r.lo)) ∨
    (∃ m n i e rest b p, findFirst rt r.lo to t = some ⟨some e, .pos n i, b, p⟩ ∧ At t.leaves m n i ∧
      t.leaves.flatten[m]? = some e ∧ PathTo t.upper n p ∧ seq (fwd rt) t.leaves.flatten m = e :: rest ∧
      (∀ x ∈ preF (fwd rt) t.leaves.flatten m, Before (fwd rt) x.bkey r.lo) ∧ ¬ Before (fwd rt) e.bkey r.lo ∧
      ¬ Before (fwd rt) to e.bkey ∧ (b = true ↔ e.bkey = r.lo)) := by
  have hmem : ∀ {x : Elem}, x ∈ t.leaves.flatten → ∃ j : Nat, t.leaves.flatten[j]? = some x := by
    intro x hx
    obtain ⟨j, hj, rfl⟩ := List.getElem_of_mem hx
    exact ⟨j, List.getElem?_eq_getElem hj⟩
  have htake : ∀ {k : Nat} {x : Elem}, x ∈ t.leaves.flatten.take k → ∃ j : Nat, j < k ∧ t.leaves.flatten[j]? = some x := by
    intro k x hx
    obtain ⟨j, hj, rfl⟩ := List.getElem_of_mem hx
    refine ⟨j, by simp at hj; omega, ?_⟩
    rw [List.getElem_take]; exact List.getElem?_eq_getElem _
  have hdrop : ∀ {k : Nat} {x : Elem}, x ∈ t.leaves.flatten.drop k → ∃ j : Nat, k ≤ j ∧ t.leaves.flatten[j]? = some x := by
    intro k x hx
    obtain ⟨j, hj, rfl⟩ := List.getElem_of_mem hx
    refine ⟨k + j, by omega, ?_⟩
    rw [List.getElem_drop]; exact List.getElem?_eq_getElem _
  have hltto : Before (fwd rt) r.lo to := by
    cases rt with
    | sin => exact absurd rfl hne
    | asc => exact ht.2.1
    | dsc => exact ht.2.1
  rcases findFirst_spec (rt := rt) hn hu ha hlo hto hs with ⟨m, n, i, e, p, h1, h2, h3, h4, h5⟩ | ⟨k, ⟨g1, g2, g3⟩, hmiss⟩
  · right
    refine ⟨m, n, i, e, _, true, p, h1, h2, h3, h5, seq_get h3, ?_, ?_, ?_, by simp [h4]⟩
    · intro x hx
      have hi := inc_iff.mpr hs
      revert hx
      cases rt with
      | sin => exact absurd rfl hne
      | asc =>
        intro hx
        obtain ⟨j, j1, j2⟩ := htake hx
        have := hi j m x e j1 j2 h3
        rw [h4] at this; exact this
      | dsc =>
        intro hx
        simp only [preF, fwd, show (RType.dsc == RType.asc) = false from rfl, Bool.false_eq_true, if_false, List.mem_reverse] at hx
        obtain ⟨j, j1, j2⟩ := hdrop hx
        have := hi m j e x (by omega) h3 j2
        rw [h4] at this; exact this
    · rw [h4]; exact before_irrefl
    · rw [h4]; intro h; exact before_asymm h hltto
  · cases rt with
    | sin => exact absurd rfl hne
    | asc =>
      rcases hmiss with ⟨m1, p, m2⟩ | ⟨e, n, i, p, m1, m2, m3, m4⟩
      · left
        have hall : ∀ x ∈ t.leaves.flatten, KLt x.bkey r.lo := by
          intro x hx
          obtain ⟨j, hj⟩ := hmem hx
          have := (List.getElem?_eq_some_iff.mp hj).1
          exact g2 j x hj (by omega)
        exact ⟨_, p, m2, fun x hx => .inl (hall x hx), .inl ⟨rfl, hall⟩⟩
      · have hpre : ∀ x ∈ preF (fwd .asc) t.leaves.flatten k, Before (fwd .asc) x.bkey r.lo := by
          intro x hx
          obtain ⟨j, j1, j2⟩ := htake (show x ∈ t.leaves.flatten.take k from hx)
          exact g2 j x j2 j1
        rcases m4 with ⟨m4, m5⟩ | ⟨m4, m5⟩
        · left
          refine ⟨_, p, m5, ?_, .inr ⟨k, n, i, e, _, rfl, m2, seq_get m1, m4, hpre⟩⟩
          intro x hx
          obtain ⟨j, hj⟩ := hmem hx
          rcases Nat.lt_or_ge j k with h | h
          · exact .inl (g2 j x hj h)
          · right
            rcases Nat.lt_or_ge k j with h' | h'
            · exact klt_trans m4 (inc_iff.mpr hs k j e x h' m1 hj)
            · have : j = k := by omega
              subst this
              rw [m1] at hj; cases hj
              exact m4
        · right
          have hel := g3 k e m1 (by omega)
          exact ⟨k, n, i, e, _, false, p, m5, m2, m1, m3, seq_get m1, hpre, fun h => klt_asymm (show KLt e.bkey r.lo from h) hel, m4,
            by simp only [Bool.false_eq_true, false_iff]; intro h; rw [h] at hel; exact klt_irrefl _ hel⟩
    | dsc =>
      rcases hmiss with ⟨m1, p, m2⟩ | ⟨e, n, i, p, m0, m1, m2, m3, m4⟩
      · left
        have hall : ∀ x ∈ t.leaves.flatten, KLt r.lo x.bkey := by
          intro x hx
          obtain ⟨j, hj⟩ := hmem hx
          exact g3 j x hj (by omega)
        exact ⟨_, p, m2, fun x hx => .inl (hall x hx), .inl ⟨rfl, hall⟩⟩
      · have hpre : ∀ x ∈ preF (fwd .dsc) t.leaves.flatten (k - 1), Before (fwd .dsc) x.bkey r.lo := by
          intro x hx
          simp only [preF, fwd, show (RType.dsc == RType.asc) = false from rfl, Bool.false_eq_true, if_false, List.mem_reverse] at hx
          obtain ⟨j, j1, j2⟩ := hdrop hx
          exact g3 j x j2 (by omega)
        rcases m4 with ⟨m4, m5⟩ | ⟨m4, m5⟩
        · left
          refine ⟨_, p, m5, ?_, .inr ⟨k - 1, n, i, e, _, rfl, m2, seq_get m1, m4, hpre⟩⟩
          intro x hx
          obtain ⟨j, hj⟩ := hmem hx
          rcases Nat.lt_or_ge j k with h | h
          · right
            rcases Nat.lt_or_ge j (k - 1) with h' | h'
            · exact klt_trans (inc_iff.mpr hs j (k - 1) x e h' hj m1) m4
            · have : j = k - 1 := by omega
              subst this
              rw [m1] at hj; cases hj
              exact m4
          · exact .inl (g3 j x hj h)
        · right
          have hel := g2 (k - 1) e m1 (by omega)
          exact ⟨k - 1, n, i, e, _, false, p, m5, m2, m1, m3, seq_get m1, hpre, fun h => klt_asymm (show KLt r.lo e.bkey from h) hel, m4,
            by simp only [Bool.false_eq_true, false_iff]; intro h; rw [h] at hel; exact klt_irrefl _ hel⟩

/-! ## Removal -/

theorem leafNumbers_visits (forward : Bool) (n k : Nat) : leafNumbers forward n k = visits forward k n := by
  induction k generalizing n with
  | zero => rfl
  | succ k ih =>
    rw [visits, ← ih, leafNumbers, List.range_succ_eq_map, List.map_cons, List.map_map, leafNumbers]
    congr 1
    · cases forward <;> simp
    · apply List.map_congr_left
      intro j _
      cases forward <;> simp [towards] <;> omega

theorem sorted_nodup {l : List Elem} (hs : Sorted l) : l.Nodup := by
  refine List.Pairwise.imp ?_ hs
  intro a b h e
  subst e
  exact klt_irrefl _ h

theorem nodup_inj {l : List Elem} (hs : l.Nodup) {i j : Nat} {e : Elem} (hi : l[i]? = some e) (hj : l[j]? = some e) : i = j := by
  obtain ⟨h1, h2⟩ := List.getElem?_eq_some_iff.mp hi
  obtain ⟨h3, h4⟩ := List.getElem?_eq_some_iff.mp hj
  exact (List.getElem_inj hs (h₀ := h1) (h₁ := h3)).mp (h2.trans h4.symm)

/-- Removal of the elements found by a walk. -/
theorem dropFound_spec {forward : Bool} {t : Tree} {n : Nat} {p : List Posi} {w : Found} (hw : Wf t) (hne : t.leaves ≠ [])
    (hs : Sorted t.leaves.flatten) (hp : PathTo t.upper n p) {d : Nat} (hd : w.nodes = 1 + d) (hln : n < t.leaves.length)
    (hr : if forward then n + d < t.leaves.length else d ≤ n) (hnd : (w.picks.map Prod.snd).Nodup)
    (hx : ∀ x ∈ w.picks, Around forward n d x.1.1 ∧ ∃ mm, At t.leaves mm x.1.1 x.1.2 ∧ t.leaves.flatten[mm]? = some x.2) :
    ∃ t', dropFound forward t n p w = some t' ∧ Wf t' ∧
      t'.leaves.flatten = t.leaves.flatten.filter fun e => decide (e ∉ w.picks.map Prod.snd) := by
  by_cases hpk : w.picks = []
  · refine ⟨t, by rw [dropFound, if_pos hpk], hw, ?_⟩
    rw [hpk]
    symm
    rw [List.filter_eq_self]
    simp
  · have hir : InRange forward w.nodes n t.leaves.length := by
      refine ⟨hln, ?_⟩
      rw [hd]
      split at hr
      · rename_i h; rw [if_pos h]; omega
      · rename_i h; rw [if_neg h]; omega
    have hvis : ∀ x ∈ w.picks, x.1.1 ∈ visits forward w.nodes n := by
      intro x hx'
      rw [mem_visits hir, hd]
      have := (hx x hx').1
      simp only [Around] at this
      split at this
      · rename_i h; rw [if_pos h]; omega
      · rename_i h; rw [if_neg h]; omega
    have hin : ∀ j i, i ∈ pickedIn w.picks j ↔ ∃ e, ((j, i), e) ∈ w.picks := by
      intro j i
      simp only [pickedIn, List.mem_map, List.mem_filter, decide_eq_true_eq]
      constructor
      · rintro ⟨⟨⟨j', i'⟩, e⟩, ⟨h1, h2⟩, h3⟩
        simp only at h2 h3
        subst h2 h3
        exact ⟨e, h1⟩
      · rintro ⟨e, h⟩
        exact ⟨((j, i), e), ⟨h, rfl⟩, rfl⟩
    obtain ⟨l', u', t', r1, r2, r3, r4⟩ := removeMerge_spec forward (pickedIn w.picks) (w.picks.map Prod.snd) (cnt := w.nodes) hw hne hp
      (by omega) hir (by
        intro j _
        constructor
        · rw [pickedIn]
          have h1 : w.picks.Pairwise fun a b => a.2 ≠ b.2 := by
            have := hnd
            rw [List.Nodup, List.pairwise_map] at this
            exact this
          rw [List.Nodup, List.pairwise_map]
          have h3 : (w.picks.filter fun x => decide (x.1.1 = j)).Pairwise fun a b => a.2 ≠ b.2 := h1.sublist List.filter_sublist
          refine h3.imp_of_mem ?_
          intro a b ha hb hab hij
          simp only [List.mem_filter, decide_eq_true_eq] at ha hb
          obtain ⟨-, m1, q1, q2⟩ := hx a ha.1
          obtain ⟨-, m2, q3, q4⟩ := hx b hb.1
          have : m1 = m2 := by
            have e1 := q1.2
            have e2 := q3.2
            rw [ha.2] at e1
            rw [hb.2] at e2
            omega
          subst this
          rw [q2] at q4
          exact hab (Option.some.inj q4)
        · intro i hi
          obtain ⟨e, he⟩ := (hin j i).mp hi
          obtain ⟨-, mm, q1, -⟩ := hx _ he
          exact q1.1) (by
        intro j i c e hc he
        constructor
        · rintro ⟨-, hi⟩
          obtain ⟨e', he'⟩ := (hin j i).mp hi
          obtain ⟨-, mm, q1, q2⟩ := hx _ he'
          rw [q1.get hc] at q2
          simp only at q2
          rw [he] at q2
          cases q2
          exact List.mem_map.mpr ⟨_, he', rfl⟩
        · intro hm
          obtain ⟨⟨⟨j', i'⟩, e'⟩, h1, h2⟩ := List.mem_map.mp hm
          simp only at h2
          subst h2
          obtain ⟨-, mm, q1, q2⟩ := hx _ h1
          have hi := (List.getElem?_eq_some_iff.mp he).1
          have hat : At t.leaves (off t.leaves j + i) j i := ⟨⟨c, hc, hi⟩, rfl⟩
          have hg : t.leaves.flatten[off t.leaves j + i]? = some e' := by rw [hat.get hc]; exact he
          have hmm := nodup_inj (sorted_nodup hs) q2 hg
          subst hmm
          obtain ⟨u1, u2⟩ := q1.unique hat
          simp only at u1 u2
          subst u1 u2
          exact ⟨hvis _ h1, (hin _ _).mpr ⟨e', h1⟩⟩)
    refine ⟨t', ?_, r3, r4⟩
    rw [dropFound, if_neg hpk, leafNumbers_visits, r1]
    exact r2


/-! ## The trimmed indicator -/

/-- The overflow action that trims where the walk begins. -/
def behind (forward : Bool) : Ovfl := if forward then .smallest else .largest

/-- The overflow action that trims where the walk goes. -/
def ahead (forward : Bool) : Ovfl := if forward then .largest else .smallest

/-- `LoneFirst` and `LoneLast`. -/
def LoneF (forward : Bool) (l : List Elem) (lo to : BKey) : Prop :=
  ∃ pre a, ordF forward l = pre ++ [a] ∧ a.bkey = to ∧ ∀ x ∈ pre, Before forward x.bkey lo

theorem hint_eq {c : C} {r : Range} {rt : RType} {to : BKey} (ht : Typed r rt to) (hne : rt ≠ .sin) (f : Option EFilter) (o k : Nat) :
    Hint c r f o k ↔ c.trimmed = true ∧
      ((c.ovfl = behind (fwd rt) ∧ ∀ x ∈ c.elems, Before (fwd rt) r.lo x.bkey) ∨
       (c.ovfl = ahead (fwd rt) ∧ ¬ Satisfied c r f o k ∧
         ((∀ x ∈ c.elems, Before (fwd rt) x.bkey to) ∨ LoneF (fwd rt) c.elems r.lo to))) := by
  cases rt with
  | sin => exact absurd rfl hne
  | asc =>
    obtain ⟨h1, h2, h3, h4, -⟩ := ht
    have hl : LoneLast c r ↔ LoneF true c.elems r.lo to := by
      constructor
      · rintro ⟨a, l, h, e1, e2, e3, e4, e5⟩
        rw [h1] at e2; cases e2
        exact ⟨l, a, e1, e3, e5⟩
      · rintro ⟨l, a, e1, e3, e5⟩
        exact ⟨a, l, to, e1, h1, e3, h2, e5⟩
    have hov : (∃ h, r.hi = some h ∧ Over c h) ↔ Over c to := by
      constructor
      · rintro ⟨h, e1, e2⟩; rw [h1] at e1; cases e1; exact e2
      · intro h; exact ⟨to, h1, h⟩
    simp only [Hint, h3, h4, not_true, not_false_eq_true, true_and, false_and, or_false, false_or, hl, hov]
    exact Iff.rfl
  | dsc =>
    obtain ⟨h1, h2, h3, h4, -⟩ := ht
    have hl : LoneFirst c r ↔ LoneF false c.elems r.lo to := by
      constructor
      · rintro ⟨a, l, h, e1, e2, e3, e4, e5⟩
        rw [h1] at e2; cases e2
        exact ⟨l.reverse, a, by simp [ordF, e1], e3, fun x hx => e5 x (List.mem_reverse.mp hx)⟩
      · rintro ⟨l, a, e1, e3, e5⟩
        simp only [ordF, Bool.false_eq_true, if_false, List.reverse_eq_iff] at e1
        exact ⟨a, l.reverse, to, by simpa using e1, h1, e3, h2, fun x hx => e5 x (List.mem_reverse.mp hx)⟩
    have hov : (∃ h, r.hi = some h ∧ Under c h) ↔ Under c to := by
      constructor
      · rintro ⟨h, e1, e2⟩; rw [h1] at e1; cases e1; exact e2
      · intro h; exact ⟨to, h1, h⟩
    simp only [Hint, h3, h4, not_true, not_false_eq_true, true_and, false_and, or_false, false_or, hl, hov]
    rw [or_comm]
    exact Iff.rfl

theorem hint_sin {c : C} {r : Range} {to : BKey} (ht : Typed r .sin to) (f : Option EFilter) (o k : Nat) :
    Hint c r f o k ↔ c.trimmed = true ∧ ((c.ovfl = .smallest ∧ Under c r.lo) ∨ (c.ovfl = .largest ∧ Over c r.lo)) := by
  obtain ⟨h1, h2, h3, -⟩ := ht
  simp only [Hint, h2, h3, not_false_eq_true, true_and, false_and, or_false]

theorem overlapped_wall {o : Ovfl} {leaves : Row Elem} {rt : RType} {forward : Bool} :
    overlapped o leaves (wall forward) rt = true ↔ o = ahead forward := by
  cases o <;> cases forward <;> simp [overlapped, wall, ahead]

theorem overlapped_pos {o : Ovfl} {leaves : Row Elem} {rt : RType} (hne : rt ≠ .sin) (hn : ∀ c ∈ leaves, 0 < c.length) {m n i : Nat}
    (h : At leaves m n i) :
    overlapped o leaves (.pos n i) rt = true ↔ o = behind (fwd rt) ∧ preF (fwd rt) leaves.flatten m = [] := by
  have hlt := h.lt
  have h0 : (n = 0 ∧ i = 0) ↔ m = 0 := by
    constructor
    · rintro ⟨rfl, rfl⟩
      rw [h.2]; simp [off]
    · intro hm
      rcases Nat.eq_zero_or_pos n with hn0 | hn0
      · exact ⟨hn0, by have := h.2; omega⟩
      · exfalso
        cases leaves with
        | nil => simp at hlt
        | cons c row =>
          have h1 := off_succ (row := c :: row) (n := 0) (c := c) rfl
          have h2 := off_mono (c :: row) (n := 0 + 1) (n' := n) (by omega)
          have h3 := hn c (by simp)
          have := h.2
          omega
  have h1 : (n + 1 = leaves.length ∧ (leaves[n]?.map List.length) = some (i + 1)) ↔ m + 1 = leaves.flatten.length := by
    obtain ⟨a, c, b, rfl, rfl, hi, rfl⟩ := h.split
    simp only [get_mid, Option.map_some, Option.some.injEq, List.length_append, List.length_cons, List.flatten_append, List.flatten_cons]
    constructor
    · rintro ⟨e1, e2⟩
      have : b = [] := List.eq_nil_of_length_eq_zero (by omega)
      subst this
      simp only [List.flatten_nil, List.length_nil]
      omega
    · intro e
      cases b with
      | nil =>
        simp only [List.flatten_nil, List.length_nil] at e
        have e' : c.length = i + 1 := by omega
        exact ⟨rfl, e'⟩
      | cons d b =>
        have := hn d (by simp)
        simp only [List.flatten_cons, List.length_append] at e
        omega
  have hp0 : preF true leaves.flatten m = [] ↔ m = 0 := by
    simp only [preF, if_true]
    constructor
    · intro h
      have := congrArg List.length h
      simp only [List.length_take, List.length_nil] at this
      omega
    · rintro rfl; rfl
  have hp1 : preF false leaves.flatten m = [] ↔ m + 1 = leaves.flatten.length := by
    simp only [preF, Bool.false_eq_true, if_false, List.reverse_eq_nil_iff, List.drop_eq_nil_iff]
    omega
  cases rt with
  | sin => exact absurd rfl hne
  | asc =>
    have hf : fwd .asc = true := rfl
    rw [hf, hp0, ← h0]
    cases o <;> simp [overlapped, behind]
  | dsc =>
    have hf : fwd .dsc = false := rfl
    rw [hf, hp1, ← h1]
    cases o <;> simp [overlapped, behind]

theorem before_total {forward : Bool} {a b : BKey} (hs : SameKind a b) (h1 : NonEmpty a) (h2 : NonEmpty b) :
    Before forward a b ∨ a = b ∨ Before forward b a := by
  rcases bkeyComp_spec hs h1 h2 with ⟨-, k⟩ | ⟨-, k⟩ | ⟨-, k⟩ <;> cases forward <;> simp [Before, k]

/-- The indicator of a walk that found nothing to begin with. -/
theorem hint_none {c : C} {r : Range} {rt : RType} {to : BKey} (ht : Typed r rt to) (hne : rt ≠ .sin) (f : Option EFilter) (o k : Nat)
    {t : Tree} (hn : Nodes t.leaves) (hs : Sorted t.leaves.flatten) (hlo : Fits r.lo t.leaves.flatten)
    (hto : Fits to t.leaves.flatten) (he : c.elems = t.leaves.flatten) (hx : t.leaves.flatten ≠ []) {pos : Pos}
    (hall : ∀ x ∈ t.leaves.flatten, Before (fwd rt) x.bkey r.lo ∨ Before (fwd rt) to x.bkey)
    (h : (pos = wall (fwd rt) ∧ ∀ x ∈ t.leaves.flatten, Before (fwd rt) x.bkey r.lo) ∨
       ∃ k n i e rest, pos = .pos n i ∧ At t.leaves k n i ∧ seq (fwd rt) t.leaves.flatten k = e :: rest ∧ Before (fwd rt) to e.bkey ∧
         ∀ x ∈ preF (fwd rt) t.leaves.flatten k, Before (fwd rt) x.bkey r.lo) :
    (c.trimmed && overlapped c.ovfl t.leaves pos rt) = true ↔ Hint c r f o k := by
  have hltto : Before (fwd rt) r.lo to := by
    cases rt with
    | sin => exact absurd rfl hne
    | asc => exact ht.2.1
    | dsc => exact ht.2.1
  have hm := matching_none ht hne f hlo hto hall
  have hsat : ¬ Satisfied c r f o k := by
    rintro ⟨h1, h2⟩
    rw [he, hm] at h2
    simp at h2
    omega
  rw [hint_eq ht hne, Bool.and_eq_true]
  apply and_congr_right
  intro _
  rw [he]
  rcases h with ⟨rfl, h⟩ | ⟨k', n, i, e, rest, rfl, hat, hq, hb, hpre⟩
  · rw [overlapped_wall]
    constructor
    · intro h1
      exact .inr ⟨h1, hsat, .inl fun x hx => before_trans (h x hx) hltto⟩
    · rintro (⟨-, h1⟩ | ⟨h1, -⟩)
      · exfalso
        obtain ⟨x, hx⟩ := List.exists_mem_of_ne_nil _ hx
        exact before_asymm (h x hx) (h1 x hx)
      · exact h1
  · rw [overlapped_pos hne (fun c hc => (hn c hc).1) hat]
    have hmem : ∀ x, x ∈ t.leaves.flatten ↔ x ∈ preF (fwd rt) t.leaves.flatten k' ∨ x = e ∨ x ∈ rest := by
      intro x
      rw [← mem_ordF (forward := fwd rt), ordF_split _ _ k', hq]
      simp
    have hmemr : ∀ x ∈ rest, Before (fwd rt) e.bkey x.bkey := by
      have := seq_sorted (forward := fwd rt) hs k'
      rw [hq] at this
      exact (List.pairwise_cons.mp this).1
    constructor
    · rintro ⟨h1, h2⟩
      refine .inl ⟨h1, ?_⟩
      intro x hx
      rw [hmem, h2] at hx
      rcases hx with hx | rfl | hx
      · cases hx
      · exact before_trans hltto hb
      · exact before_trans (before_trans hltto hb) (hmemr x hx)
    · rintro (⟨h1, h2⟩ | ⟨h1, -, h2⟩)
      · refine ⟨h1, ?_⟩
        cases hp : preF (fwd rt) t.leaves.flatten k' with
        | nil => rfl
        | cons y ys =>
          exfalso
          have hy : y ∈ preF (fwd rt) t.leaves.flatten k' := by rw [hp]; simp
          exact before_asymm (hpre y hy) (h2 y ((hmem y).mpr (.inl hy)))
      · exfalso
        have hel : e ∈ t.leaves.flatten := (hmem e).mpr (.inr (.inl rfl))
        rcases h2 with h2 | ⟨pre, a, p1, p2, p3⟩
        · exact before_asymm hb (h2 e hel)
        · rw [← mem_ordF (forward := fwd rt), p1] at hel
          rcases List.mem_append.mp hel with hel | hel
          · exact before_asymm (before_trans (p3 e hel) hltto) hb
          · simp only [List.mem_singleton] at hel
            rw [hel, p2] at hb
            exact before_irrefl hb

/-- The indicator of a walk. -/
theorem hint_walk {c : C} {r : Range} {rt : RType} {to : BKey} (ht : Typed r rt to) (hne : rt ≠ .sin) (f : Option EFilter) (o k : Nat)
    {t : Tree} (hn : Nodes t.leaves) (hlo : Fits r.lo t.leaves.flatten) (hs : Sorted t.leaves.flatten)
    (hto : Fits to t.leaves.flatten) (he : c.elems = t.leaves.flatten) {m n i : Nat} {e : Elem} {rest : List Elem} {b : Bool}
    (hat : At t.leaves m n i) (hq : seq (fwd rt) t.leaves.flatten m = e :: rest)
    (hpre : ∀ x ∈ preF (fwd rt) t.leaves.flatten m, Before (fwd rt) x.bkey r.lo) (hel : ¬ Before (fwd rt) e.bkey r.lo)
    (het : ¬ Before (fwd rt) to e.bkey) (hb : b = true ↔ e.bkey = r.lo) {w : Found}
    (hw : Walked (fwd rt) t.leaves to (pass f) o k n false 0 [] 1 e rest w) :
    ((!b && c.trimmed && overlapped c.ovfl t.leaves (.pos n i) rt) ||
      ((match w.last with | .pos _ _ => false | _ => true) && c.trimmed && overlapped c.ovfl t.leaves w.last rt)) = true ↔
      Hint c r f o k := by
  have hltto : Before (fwd rt) r.lo to := by
    cases rt with
    | sin => exact absurd rfl hne
    | asc => exact ht.2.1
    | dsc => exact ht.2.1
  have hm := matching_seq ht hne f hlo hto hs hq hpre hel het
  have hsat : ¬ Satisfied c r f o k ↔ (k = 0 ∨ (((e :: within' (fwd rt) to rest).filter (pass f)).drop (o - 0)).length < k - 0) := by
    rw [Satisfied, he, hm, List.length_drop]
    omega
  have hmem : ∀ x, x ∈ t.leaves.flatten ↔ x ∈ preF (fwd rt) t.leaves.flatten m ∨ x = e ∨ x ∈ rest := by
    intro x
    rw [← mem_ordF (forward := fwd rt), ordF_split _ _ m, hq]
    simp
  have hsq := seq_sorted (forward := fwd rt) hs m
  rw [hq] at hsq
  obtain ⟨hmemr, hrs⟩ := List.pairwise_cons.mp hsq
  have hE : e ∈ t.leaves.flatten := (hmem e).mpr (.inr (.inl rfl))
  have hF := hto.2 e hE
  have hF' := hlo.2 e hE
  have hrun : RunsOff to (fwd rt) false rest ↔
      ((∀ x ∈ t.leaves.flatten, Before (fwd rt) x.bkey to) ∨ LoneF (fwd rt) t.leaves.flatten r.lo to) := by
    constructor
    · rintro ⟨r1, -, r3⟩
      rcases List.eq_nil_or_concat rest with hr | ⟨l, a, hr⟩
      · subst hr
        rcases before_total (forward := fwd rt) hF.1 hto.1 hF.2 with h | h | h
        · exact absurd h het
        · right
          exact ⟨_, e, by rw [ordF_split _ _ m, hq], h.symm, hpre⟩
        · left
          intro x hx
          rcases (hmem x).mp hx with hx | rfl | hx
          · exact before_trans (hpre x hx) hltto
          · exact h
          · cases hx
      · left
        rw [List.concat_eq_append] at hr
        subst hr
        have ha : a ∈ l ++ [a] := by simp
        have hA := hto.2 a ((hmem a).mpr (.inr (.inr ha)))
        have hato : Before (fwd rt) a.bkey to := by
          rcases before_total (forward := fwd rt) hA.1 hto.1 hA.2 with h | h | h
          · exact absurd h (r1 a ha)
          · exact absurd h.symm (r3 a (by simp))
          · exact h
        intro x hx
        rcases (hmem x).mp hx with hx | rfl | hx
        · exact before_trans (hpre x hx) hltto
        · exact before_trans (hmemr a ha) hato
        · rcases List.mem_append.mp hx with hx | hx
          · exact before_trans ((List.pairwise_append.mp hrs).2.2 x hx a (by simp)) hato
          · simp only [List.mem_singleton] at hx
            rw [hx]; exact hato
    · rintro (h | ⟨pre, a, p1, p2, p3⟩)
      · refine ⟨fun x hx hc => before_asymm hc (h x ((hmem x).mpr (.inr (.inr hx)))), fun _ => rfl, ?_⟩
        intro x hx hxk
        have := h x ((hmem x).mpr (.inr (.inr (List.mem_of_getLast? hx))))
        rw [hxk] at this
        exact before_irrefl this
      · rw [ordF_split _ _ m, hq] at p1
        rcases List.eq_nil_or_concat rest with hr | ⟨l, a', hr⟩
        · subst hr
          exact ⟨by simp, fun _ => rfl, by simp⟩
        · exfalso
          rw [List.concat_eq_append] at hr
          subst hr
          have h1 : (preF (fwd rt) t.leaves.flatten m ++ e :: l) ++ [a'] = pre ++ [a] := by rw [← p1]; simp
          have h2 := (List.append_inj' h1 rfl).1
          exact hel (p3 e (by rw [← h2]; simp))
  have hlast : ((match w.last with | .pos _ _ => false | _ => true) && c.trimmed && overlapped c.ovfl t.leaves w.last rt) = true ↔
      c.trimmed = true ∧ c.ovfl = ahead (fwd rt) ∧ ¬ Satisfied c r f o k ∧ RunsOff to (fwd rt) false rest := by
    by_cases hc : ¬ Satisfied c r f o k ∧ RunsOff to (fwd rt) false rest
    · rw [hw.runs (hsat.mp hc.1) hc.2]
      simp only [Bool.and_eq_true, overlapped_wall, hc, and_true]
      constructor
      · rintro ⟨⟨-, h1⟩, h2⟩; exact ⟨h1, h2, not_false⟩
      · rintro ⟨h1, h2, -⟩; exact ⟨⟨by cases fwd rt <;> rfl, h1⟩, h2⟩
    · obtain ⟨n', i', h⟩ := hw.stays (fun h => hc ⟨hsat.mpr h.1, h.2⟩)
      rw [h]
      simp only [Bool.false_and, Bool.false_eq_true, false_iff]
      rintro ⟨-, -, h1⟩
      exact hc h1
  rw [hint_eq ht hne, Bool.or_eq_true, hlast, hrun, he]
  have hstart : (!b && c.trimmed && overlapped c.ovfl t.leaves (.pos n i) rt) = true ↔
      c.trimmed = true ∧ c.ovfl = behind (fwd rt) ∧ ∀ x ∈ t.leaves.flatten, Before (fwd rt) r.lo x.bkey := by
    simp only [Bool.and_eq_true, Bool.not_eq_true', overlapped_pos hne (fun c hc => (hn c hc).1) hat]
    constructor
    · rintro ⟨⟨h1, h2⟩, h3, h4⟩
      refine ⟨h2, h3, ?_⟩
      have hb' : e.bkey ≠ r.lo := by intro h; rw [hb.mpr h] at h1; cases h1
      have hbe : Before (fwd rt) r.lo e.bkey := by
        rcases before_total (forward := fwd rt) hF'.1 hlo.1 hF'.2 with h | h | h
        · exact h
        · exact absurd h.symm hb'
        · exact absurd h hel
      intro x hx
      rw [hmem, h4] at hx
      rcases hx with hx | rfl | hx
      · cases hx
      · exact hbe
      · exact before_trans hbe (hmemr x hx)
    · rintro ⟨h1, h2, h3⟩
      refine ⟨⟨?_, h1⟩, h2, ?_⟩
      · cases b with
        | false => rfl
        | true =>
          exfalso
          have := h3 e hE
          rw [hb.mp rfl] at this
          exact before_irrefl this
      · cases hp : preF (fwd rt) t.leaves.flatten m with
        | nil => rfl
        | cons y ys =>
          exfalso
          have hy : y ∈ preF (fwd rt) t.leaves.flatten m := by rw [hp]; simp
          exact before_asymm (hpre y hy) (h3 y ((hmem y).mpr (.inl hy)))
  rw [hstart]
  constructor
  · rintro (⟨h1, h2⟩ | ⟨h1, h2⟩)
    · exact ⟨h1, .inl h2⟩
    · exact ⟨h1, .inr h2⟩
  · rintro ⟨h1, h2 | h2⟩
    · exact .inl ⟨h1, h2⟩
    · exact .inr ⟨h1, h2⟩

end Verif.BT
