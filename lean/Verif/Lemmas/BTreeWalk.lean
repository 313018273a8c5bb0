import Verif.Lemmas.BTreeEdit
import Verif.Lemmas.BTreeFind
import Verif.Model.BTreeOps
/-!
# Lemmas on walks along the leaves
-/
namespace Verif.BT
open Verif.BT.Spec

/-- Keys ascend along the list. -/
def Sorted (l : List Elem) : Prop := l.Pairwise fun a b => KLt a.bkey b.bkey

theorem inc_iff {l : List Elem} : Inc l ↔ Sorted l := by
  unfold Sorted
  rw [List.pairwise_iff_getElem]
  constructor
  · intro h i j hi hj hij
    exact h i j _ _ hij (List.getElem?_eq_getElem hi) (List.getElem?_eq_getElem hj)
  · intro h i j a b hij ha hb
    obtain ⟨hi, rfl⟩ := List.getElem?_eq_some_iff.mp ha
    obtain ⟨hj, rfl⟩ := List.getElem?_eq_some_iff.mp hb
    exact h i j hi hj hij

/-- `a` comes before `b` in the direction of the walk. -/
def Before (forward : Bool) (a b : BKey) : Prop := if forward then KLt a b else KLt b a

theorem before_irrefl {forward : Bool} {a : BKey} : ¬ Before forward a a := by
  cases forward <;> exact klt_irrefl a

theorem before_asymm {forward : Bool} {a b : BKey} (h1 : Before forward a b) (h2 : Before forward b a) : False := by
  cases forward
  · exact klt_asymm (show KLt b a from h1) h2
  · exact klt_asymm (show KLt a b from h1) h2

theorem before_trans {forward : Bool} {a b c : BKey} (h1 : Before forward a b) (h2 : Before forward b c) : Before forward a c := by
  cases forward
  · exact klt_trans (show KLt c b from h2) h1
  · exact klt_trans (show KLt a b from h1) h2

/-- The elements from number `m` on, in the direction of the walk. -/
def seq (forward : Bool) (l : List Elem) (m : Nat) : List Elem := if forward then l.drop m else (l.take (m + 1)).reverse

theorem seq_get {forward : Bool} {l : List Elem} {m : Nat} {e : Elem} (h : l[m]? = some e) :
    seq forward l m = e :: (if forward then l.drop (m + 1) else (l.take m).reverse) := by
  obtain ⟨hm, rfl⟩ := List.getElem?_eq_some_iff.mp h
  cases forward with
  | true => simp only [seq, if_true]; exact List.drop_eq_getElem_cons hm
  | false =>
    simp only [seq, Bool.false_eq_true, if_false]
    rw [List.take_succ, h]
    simp

theorem seq_sorted {forward : Bool} {l : List Elem} (hs : Sorted l) (m : Nat) :
    (seq forward l m).Pairwise fun a b => Before forward a.bkey b.bkey := by
  cases forward with
  | true => exact hs.sublist (List.drop_sublist m l)
  | false =>
    simp only [seq, Bool.false_eq_true, if_false]
    rw [List.pairwise_reverse]
    exact hs.sublist (List.take_sublist _ l)

theorem seq_step {forward : Bool} {l : List Elem} {m : Nat} {e x : Elem} {xs : List Elem} (hml : m < l.length) (h : seq forward l m = e :: x :: xs) :
    (if forward then m + 1 < l.length else 0 < m) ∧ seq forward l (towards forward m) = x :: xs := by
  cases forward with
  | true =>
    simp only [seq, if_true] at h ⊢
    have hl := congrArg List.length h
    simp at hl
    refine ⟨by omega, ?_⟩
    have := congrArg List.tail h
    simpa [towards] using this
  | false =>
    simp only [seq, Bool.false_eq_true, if_false] at h ⊢
    have hl := congrArg List.length h
    simp at hl
    have hm : 0 < m := by omega
    refine ⟨hm, ?_⟩
    have hg := seq_get (forward := false) (l := l) (m := m) (List.getElem?_eq_getElem hml)
    simp only [seq, Bool.false_eq_true, if_false] at hg
    rw [h] at hg
    injection hg with _ hg
    rw [hg]
    simp only [towards, Bool.false_eq_true, if_false]
    rw [show m - 1 + 1 = m from by omega]

theorem seq_end {forward : Bool} {l : List Elem} {m : Nat} {e : Elem} (hm : m < l.length) (h : seq forward l m = [e]) :
    if forward then m + 1 = l.length else m = 0 := by
  cases forward with
  | true =>
    simp only [seq, if_true] at h ⊢
    have hl := congrArg List.length h
    simp at hl
    omega
  | false =>
    simp only [seq, Bool.false_eq_true, if_false] at h ⊢
    have hl := congrArg List.length h
    simp at hl
    omega

theorem elemAt_at {leaves : Row Elem} {m n i : Nat} {e : Elem} (h : At leaves m n i) (he : leaves.flatten[m]? = some e) :
    elemAt leaves n i = some e := by
  obtain ⟨c, hc, hi⟩ := h.1
  rw [h.get hc] at he
  simp only [elemAt, hc, he]

/-- The end of the leaves in the direction of the walk. -/
def wall (forward : Bool) : Pos := if forward then .past else .before

/-- A step of the walk. -/
theorem findNext_spec {forward : Bool} {leaves : Row Elem} {to : BKey} (hn : ∀ c ∈ leaves, 0 < c.length)
    (hk : Fits to leaves.flatten) {m n i : Nat} {e : Elem} {rest : List Elem} (h : At leaves m n i)
    (hs : seq forward leaves.flatten m = e :: rest) :
    match rest with
    | [] => findNext forward leaves to n i = some (wall forward, none)
    | x :: _ => ∃ n' i', At leaves (towards forward m) n' i' ∧ leaves.flatten[towards forward m]? = some x ∧
        (n' = n ∨ (n' = towards forward n ∧ (if forward then n + 1 < leaves.length else 0 < n))) ∧
        ((Before forward to x.bkey ∧ findNext forward leaves to n i = some (.pos n' i', none)) ∨
         (¬ Before forward to x.bkey ∧ findNext forward leaves to n i = some (.pos n' i', some (x, decide (x.bkey = to))))) := by
  cases rest with
  | nil =>
    have he := seq_end h.lt hs
    cases forward with
    | true => simp only [findNext, stepPosi, if_true, (incrPosi_spec hn h).2 he, wall]
    | false => simp only [findNext, stepPosi, Bool.false_eq_true, if_false, (decrPosi_spec hn h).2 he, wall]
  | cons x xs =>
    obtain ⟨h1, h2⟩ := seq_step h.lt hs
    obtain ⟨n', i', s1, s2, s3⟩ := stepPosi_spec forward hn h h1
    have hx : leaves.flatten[towards forward m]? = some x := by
      have hg := seq_get (forward := forward) (List.getElem?_eq_getElem s2.lt)
      rw [h2] at hg
      injection hg with hg _
      rw [hg]; exact List.getElem?_eq_getElem s2.lt
    refine ⟨n', i', s2, hx, s3, ?_⟩
    have hm := hk.2 x (List.mem_of_getElem? hx)
    rw [findNext, s1]
    simp only [elemAt_at s2 hx]
    rcases bkeyComp_spec hm.1.symm hm.2 hk.1 with ⟨k1, k2⟩ | ⟨k1, k2⟩ | ⟨k1, k2⟩ <;> simp only [k1]
    · have hne : x.bkey ≠ to := fun he => klt_irrefl to (by rw [he] at k2; exact k2)
      cases forward with
      | true => exact .inr ⟨fun hb => klt_asymm hb k2, by simp [hne]⟩
      | false => exact .inl ⟨k2, by simp⟩
    · refine .inr ⟨?_, by simp [k2]⟩
      rw [k2]; exact before_irrefl
    · have hne : x.bkey ≠ to := fun he => klt_irrefl to (by rw [he] at k2; exact k2)
      cases forward with
      | false => exact .inr ⟨fun hb => klt_asymm (show KLt x.bkey to from hb) k2, by simp [hne]⟩
      | true => exact .inl ⟨k2, by simp⟩

/-- The first `count` of them; with `count = 0` all. -/
def limit (count used : Nat) (l : List Elem) : List Elem := if count = 0 then l else l.take (count - used)

open Classical in
/-- The part of the walk within the range. -/
noncomputable def within' (forward : Bool) (to : BKey) (l : List Elem) : List Elem :=
  l.takeWhile fun x => decide (¬ Before forward to x.bkey)

theorem within_nil {forward : Bool} {to : BKey} {l : List Elem} (h : ∀ x ∈ l, Before forward to x.bkey) : within' forward to l = [] := by
  cases l with
  | nil => rfl
  | cons x xs =>
    rw [within', List.takeWhile_cons]
    simp [h x List.mem_cons_self]

/-- Leaf `j` is reached from leaf `n` within `d` steps. -/
def Around (forward : Bool) (n d j : Nat) : Prop := if forward then n ≤ j ∧ j ≤ n + d else j ≤ n ∧ n ≤ j + d

/-- Where a walk ends when nothing more comes. -/
def RunsOff (to : BKey) (forward : Bool) (b : Bool) (rest : List Elem) : Prop :=
  (∀ x ∈ rest, ¬ Before forward to x.bkey) ∧ (rest = [] → b = false) ∧ ∀ x, rest.getLast? = some x → x.bkey ≠ to

/-- What a walk delivers. -/
structure Walked (forward : Bool) (leaves : Row Elem) (to : BKey) (K : Elem → Bool) (offset count : Nat) (n : Nat) (b : Bool)
    (skip : Nat) (picks : List (Posi × Elem)) (nodes : Nat) (e : Elem) (rest : List Elem) (w : Found) : Prop where
  news : ∃ new, w.picks = picks ++ new ∧
    new.map Prod.snd = limit count picks.length ((((e :: within' forward to rest).filter K)).drop (offset - skip)) ∧
    (∃ d, w.nodes = nodes + d ∧ (if forward then n + d < leaves.length else d ≤ n) ∧
      ∀ x ∈ new, Around forward n d x.1.1 ∧ ∃ mm, At leaves mm x.1.1 x.1.2 ∧ leaves.flatten[mm]? = some x.2)
  runs : (count = 0 ∨ (((e :: within' forward to rest).filter K).drop (offset - skip)).length < count - picks.length) →
    RunsOff to forward b rest → w.last = wall forward
  stays : ¬ ((count = 0 ∨ (((e :: within' forward to rest).filter K).drop (offset - skip)).length < count - picks.length) ∧
    RunsOff to forward b rest) → ∃ n i, w.last = .pos n i

theorem near_zero {forward : Bool} {n : Nat} : Around forward n 0 n := by cases forward <;> simp [Around]

theorem walk_spec (forward : Bool) {leaves : Row Elem} {to : BKey} (hn : ∀ c ∈ leaves, 0 < c.length)
    (hk : Fits to leaves.flatten) (hs : Sorted leaves.flatten) (f : Option EFilter) (K : Elem → Bool)
    (hK : ∀ e ∈ leaves.flatten, keep f e = some (K e)) (offset count : Nat) (rest : List Elem) :
    ∀ (m n i : Nat) (e : Elem) (b : Bool) (skip : Nat) (picks : List (Posi × Elem)) (nodes fuel : Nat),
      seq forward leaves.flatten m = e :: rest → At leaves m n i → rest.length < fuel → (b = true → e.bkey = to) →
      skip ≤ offset → (count = 0 ∨ picks.length < count) →
      ∃ w, walk forward leaves to f offset count fuel n i e b skip picks nodes = some w ∧
        Walked forward leaves to K offset count n b skip picks nodes e rest w := by
  induction rest with
  | nil =>
    intro m n i e b skip picks nodes fuel hq hat hf hb hsk hc
    obtain ⟨fuel, rfl⟩ := Nat.exists_eq_succ_of_ne_zero (by omega : fuel ≠ 0)
    have hml : leaves.flatten[m]? = some e := by
      have hg := seq_get (forward := forward) (List.getElem?_eq_getElem hat.lt)
      rw [hq] at hg
      injection hg with hg _
      rw [hg]; exact List.getElem?_eq_getElem hat.lt
    have hstep := findNext_spec hn hk hat hq
    simp only at hstep
    have hcell : ∀ x ∈ [(((n, i) : Posi), e)], Around forward n 0 x.1.1 ∧ ∃ mm, At leaves mm x.1.1 x.1.2 ∧ leaves.flatten[mm]? = some x.2 := by
      intro x hx
      simp only [List.mem_singleton] at hx
      subst hx
      exact ⟨near_zero, m, hat, hml⟩
    have hd0 : if forward then n + 0 < leaves.length else 0 ≤ n := by
      have := hat.node_lt
      split <;> omega
    have hw0 : within' forward to [] = [] := rfl
    have hR : RunsOff to forward b [] ↔ b = false := by simp [RunsOff]
    have hwall : ∀ nn ii, wall forward ≠ .pos nn ii := by intro nn ii; cases forward <;> simp [wall]
    rw [walk, hK e (List.mem_of_getElem? hml)]
    cases hke : K e with
    | false =>
      simp only [Bool.false_eq_true, false_and, if_false]
      have hX : ((e :: within' forward to []).filter K).drop (offset - skip) = [] := by rw [hw0]; simp [hke]
      cases b with
      | true =>
        simp only [if_true]
        refine ⟨_, rfl, ⟨[], by simp, by rw [hX]; simp [limit], 0, rfl, hd0, by simp⟩, ?_, ?_⟩
        · intro _ h2; rw [hR] at h2; cases h2
        · intro _; exact ⟨n, i, rfl⟩
      | false =>
        simp only [Bool.false_eq_true, if_false, hstep]
        refine ⟨⟨picks, nodes, wall forward⟩, ?_, ⟨[], by simp, by rw [hX]; simp [limit], 0, rfl, hd0, by simp⟩, ?_, ?_⟩
        · cases forward <;> rfl
        · intro _ _; rfl
        · intro h1
          exfalso; apply h1
          refine ⟨?_, hR.mpr rfl⟩
          rw [hX]; simp only [List.length_nil]; omega
    | true =>
      simp only [true_and]
      by_cases hso : skip < offset
      · have hX : ((e :: within' forward to []).filter K).drop (offset - skip) = [] := by
          rw [hw0, List.drop_eq_nil_iff]; simp [hke]; omega
        simp only [false_and, if_false, show ¬ offset ≤ skip by omega]
        cases b with
        | true =>
          simp only [if_true]
          refine ⟨_, rfl, ⟨[], by simp, by rw [hX]; simp [limit], 0, rfl, hd0, by simp⟩, ?_, ?_⟩
          · intro _ h2; rw [hR] at h2; cases h2
          · intro _; exact ⟨n, i, rfl⟩
        | false =>
          simp only [Bool.false_eq_true, if_false, hstep]
          refine ⟨⟨picks, nodes, wall forward⟩, ?_, ⟨[], by simp, by rw [hX]; simp [limit], 0, rfl, hd0, by simp⟩, ?_, ?_⟩
          · cases forward <;> rfl
          · intro _ _; rfl
          · intro h1
            exfalso; apply h1
            refine ⟨?_, hR.mpr rfl⟩
            rw [hX]; simp only [List.length_nil]; omega
      · have ho : offset - skip = 0 := by omega
        have hX : ((e :: within' forward to []).filter K).drop (offset - skip) = [e] := by rw [ho, hw0]; simp [hke]
        simp only [if_neg hso, show offset ≤ skip by omega, true_and, if_true]
        have hlim : limit count picks.length [e] = [e] := by
          simp only [limit]
          split
          · rfl
          · rw [List.take_of_length_le]; simp; omega
        by_cases hstop : 0 < count ∧ count ≤ (picks ++ [(((n, i) : Posi), e)]).length
        · rw [if_pos hstop]
          refine ⟨_, rfl, ⟨[((n, i), e)], rfl, by rw [hX, hlim]; rfl, 0, rfl, hd0, hcell⟩, ?_, ?_⟩
          · intro h1 _
            simp only [hX, List.length_singleton, List.length_append] at h1 hstop
            omega
          · intro _; exact ⟨n, i, rfl⟩
        · rw [if_neg hstop]
          cases b with
          | true =>
            simp only [if_true]
            refine ⟨_, rfl, ⟨[((n, i), e)], rfl, by rw [hX, hlim]; rfl, 0, rfl, hd0, hcell⟩, ?_, ?_⟩
            · intro _ h2; rw [hR] at h2; cases h2
            · intro _; exact ⟨n, i, rfl⟩
          | false =>
            simp only [Bool.false_eq_true, if_false, hstep]
            refine ⟨⟨picks ++ [((n, i), e)], nodes, wall forward⟩, ?_,
              ⟨[((n, i), e)], rfl, by rw [hX, hlim]; rfl, 0, rfl, hd0, hcell⟩, ?_, ?_⟩
            · cases forward <;> rfl
            · intro _ _; rfl
            · intro h1
              exfalso; apply h1
              refine ⟨?_, hR.mpr rfl⟩
              simp only [hX, List.length_singleton, List.length_append] at hstop ⊢
              omega
  | cons x xs ih =>
    intro m n i e b skip picks nodes fuel hq hat hf hb hsk hc
    obtain ⟨fuel, rfl⟩ := Nat.exists_eq_succ_of_ne_zero (by omega : fuel ≠ 0)
    simp only [List.length_cons] at hf
    have hml : leaves.flatten[m]? = some e := by
      have hg := seq_get (forward := forward) (List.getElem?_eq_getElem hat.lt)
      rw [hq] at hg
      injection hg with hg _
      rw [hg]; exact List.getElem?_eq_getElem hat.lt
    have hstep := findNext_spec hn hk hat hq
    simp only at hstep
    obtain ⟨n', i', t1, t2, t3, t4⟩ := hstep
    obtain ⟨-, hq'⟩ := seq_step hat.lt hq
    have hpw := seq_sorted (forward := forward) hs m
    rw [hq] at hpw
    have hex := (List.pairwise_cons.mp hpw).1
    have hxx := (List.pairwise_cons.mp (List.pairwise_cons.mp hpw).2).1
    have hcell : ∀ d, ∀ x ∈ [(((n, i) : Posi), e)], Around forward n d x.1.1 ∧ ∃ mm, At leaves mm x.1.1 x.1.2 ∧ leaves.flatten[mm]? = some x.2 := by
      intro d x hx
      simp only [List.mem_singleton] at hx
      subst hx
      refine ⟨?_, m, hat, hml⟩
      simp only [Around]; split <;> omega
    have hd0 : if forward then n + 0 < leaves.length else 0 ≤ n := by
      have := hat.node_lt
      split <;> omega
    have hwx : Before forward to x.bkey → within' forward to (x :: xs) = [] := by
      intro hbx
      rw [within', List.takeWhile_cons]; simp [hbx]
    have hwx' : ¬ Before forward to x.bkey → within' forward to (x :: xs) = x :: within' forward to xs := by
      intro hbx
      rw [within', List.takeWhile_cons]; simp only [hbx, not_false_eq_true, decide_true, if_true]; rfl
    have hbt : b = true → within' forward to (x :: xs) = [] := by
      intro hbt
      apply hwx
      have := hex x List.mem_cons_self
      rw [hb hbt] at this; exact this
    have hRt : b = true → ¬ RunsOff to forward b (x :: xs) := by
      intro hbt hr
      have h1 := hex x List.mem_cons_self
      rw [hb hbt] at h1
      exact hr.1 x List.mem_cons_self h1
    -- the rest of the walk
    have hnext : ¬ Before forward to x.bkey → ∀ skip' picks', skip' ≤ offset → (count = 0 ∨ picks'.length < count) →
        ∃ w, walk forward leaves to f offset count fuel n' i' x (decide (x.bkey = to)) skip' picks'
            (if n' = n then nodes else nodes + 1) = some w ∧
          Walked forward leaves to K offset count n' (decide (x.bkey = to)) skip' picks' (if n' = n then nodes else nodes + 1) x xs w := by
      intro _ skip' picks' a1 a2
      exact ih _ _ _ _ _ _ _ _ _ hq' t1 (by omega) (by simp) a1 a2
    have hRx : ¬ Before forward to x.bkey → b = false →
        (RunsOff to forward b (x :: xs) ↔ RunsOff to forward (decide (x.bkey = to)) xs) := by
      intro hbx hbf
      simp only [RunsOff, List.mem_cons, forall_eq_or_imp, hbx, not_false_eq_true, true_and, reduceCtorEq, false_imp_iff]
      cases xs with
      | nil => simp
      | cons y ys => simp [List.getLast?_cons_cons]
    have hdist : ∀ d, (if forward then n' + d < leaves.length else d ≤ n') →
        ∃ d', (if n' = n then nodes else nodes + 1) + d = nodes + d' ∧ (if forward then n + d' < leaves.length else d' ≤ n) ∧
          ∀ j, Around forward n' d j → Around forward n d' j := by
      intro d hd
      rcases t3 with rfl | ⟨rfl, h4⟩
      · exact ⟨d, by simp, hd, fun j h => h⟩
      · cases forward with
        | true =>
          simp only [towards, if_true] at hd h4 ⊢
          refine ⟨d + 1, by rw [if_neg (by omega)]; omega, by omega, ?_⟩
          intro j h; simp only [Around, if_true] at h ⊢; omega
        | false =>
          simp only [towards, Bool.false_eq_true, if_false] at hd h4 ⊢
          refine ⟨d + 1, by rw [if_neg (by omega)]; omega, by omega, ?_⟩
          intro j h; simp only [Around, Bool.false_eq_true, if_false] at h ⊢; omega
    rw [walk, hK e (List.mem_of_getElem? hml)]
    cases hke : K e with
    | false =>
      simp only [Bool.false_eq_true, false_and, if_false]
      have hX : ∀ l, ((e :: l).filter K).drop (offset - skip) = (l.filter K).drop (offset - skip) := by intro l; simp [hke]
      cases hbb : b with
      | true =>
        simp only [if_true]
        have hw := hbt hbb
        refine ⟨_, rfl, ⟨[], by simp, by rw [hX, hw]; simp [limit], 0, rfl, hd0, by simp⟩, ?_, ?_⟩
        · intro _ h2; exact absurd h2 (by rw [← hbb]; exact hRt hbb)
        · intro _; exact ⟨n, i, rfl⟩
      | false =>
        simp only [Bool.false_eq_true, if_false]
        rcases t4 with ⟨t4, t5⟩ | ⟨t4, t5⟩
        · simp only [t5]
          refine ⟨_, rfl, ⟨[], by simp, by rw [hX, hwx t4]; simp [limit], 0, rfl, hd0, by simp⟩, ?_, ?_⟩
          · intro _ h2; exact absurd t4 (h2.1 x List.mem_cons_self)
          · intro _; exact ⟨n', i', rfl⟩
        · simp only [t5]
          obtain ⟨w, w1, w2⟩ := hnext t4 skip picks hsk hc
          rw [w1]
          obtain ⟨⟨new, p1, p2, d, p3, p4, p5⟩, q1, q2⟩ := w2
          obtain ⟨d', e1, e2, e3⟩ := hdist d p4
          have hRR := hRx t4 hbb
          rw [hbb] at hRR
          refine ⟨w, rfl, ⟨new, p1, by rw [hX, hwx' t4]; exact p2, d', by rw [p3, e1], e2, ?_⟩, ?_, ?_⟩
          · intro y hy
            exact ⟨e3 _ (p5 y hy).1, (p5 y hy).2⟩
          · rw [hX, hwx' t4, hRR]; exact q1
          · rw [hX, hwx' t4, hRR]; exact q2
    | true =>
      simp only [true_and]
      by_cases hso : skip < offset
      · have hX : ∀ l, ((e :: l).filter K).drop (offset - skip) = (l.filter K).drop (offset - (skip + 1)) := by
          intro l
          rw [List.filter_cons_of_pos hke, show offset - skip = (offset - (skip + 1)) + 1 by omega, List.drop_succ_cons]
        simp only [if_pos hso, show ¬ offset ≤ skip by omega, false_and, if_false]
        cases hbb : b with
        | true =>
          simp only [if_true]
          have hw := hbt hbb
          refine ⟨_, rfl, ⟨[], by simp, by rw [hX, hw]; simp [limit], 0, rfl, hd0, by simp⟩, ?_, ?_⟩
          · intro _ h2; exact absurd h2 (by rw [← hbb]; exact hRt hbb)
          · intro _; exact ⟨n, i, rfl⟩
        | false =>
          simp only [Bool.false_eq_true, if_false]
          rcases t4 with ⟨t4, t5⟩ | ⟨t4, t5⟩
          · simp only [t5]
            refine ⟨_, rfl, ⟨[], by simp, by rw [hX, hwx t4]; simp [limit], 0, rfl, hd0, by simp⟩, ?_, ?_⟩
            · intro _ h2; exact absurd t4 (h2.1 x List.mem_cons_self)
            · intro _; exact ⟨n', i', rfl⟩
          · simp only [t5]
            obtain ⟨w, w1, w2⟩ := hnext t4 (skip + 1) picks (by omega) hc
            rw [w1]
            obtain ⟨⟨new, p1, p2, d, p3, p4, p5⟩, q1, q2⟩ := w2
            obtain ⟨d', e1, e2, e3⟩ := hdist d p4
            have hRR := hRx t4 hbb
            rw [hbb] at hRR
            refine ⟨w, rfl, ⟨new, p1, by rw [hX, hwx' t4]; exact p2, d', by rw [p3, e1], e2, ?_⟩, ?_, ?_⟩
            · intro y hy
              exact ⟨e3 _ (p5 y hy).1, (p5 y hy).2⟩
            · rw [hX, hwx' t4, hRR]; exact q1
            · rw [hX, hwx' t4, hRR]; exact q2
      · have ho : offset - skip = 0 := by omega
        have hX : ∀ l, ((e :: l).filter K).drop (offset - skip) = e :: (l.filter K) := by
          intro l; rw [ho, List.filter_cons_of_pos hke]; rfl
        simp only [if_neg hso, show offset ≤ skip by omega, true_and, if_true]
        have hlim : ∀ l, ¬ (0 < count ∧ count ≤ (picks ++ [(((n, i) : Posi), e)]).length) →
            limit count picks.length (e :: l) = e :: limit count (picks ++ [(((n, i) : Posi), e)]).length l := by
          intro l hns
          simp only [limit, List.length_append, List.length_singleton] at hns ⊢
          split
          · rfl
          · rw [show count - picks.length = (count - (picks.length + 1)) + 1 by omega, List.take_succ_cons]
        have hlen : ∀ l : List Elem, ¬ (0 < count ∧ count ≤ (picks ++ [(((n, i) : Posi), e)]).length) →
            ((count = 0 ∨ (e :: l).length < count - picks.length) ↔
             (count = 0 ∨ l.length < count - (picks ++ [(((n, i) : Posi), e)]).length)) := by
          intro l hns
          simp only [List.length_append, List.length_cons, List.length_nil] at hns ⊢
          omega
        by_cases hstop : 0 < count ∧ count ≤ (picks ++ [(((n, i) : Posi), e)]).length
        · rw [if_pos hstop]
          have hone : ∀ l, limit count picks.length (e :: l) = [e] := by
            intro l
            simp only [limit, List.length_append, List.length_singleton] at hstop ⊢
            rw [if_neg (by omega), show count - picks.length = 1 by omega]; rfl
          refine ⟨_, rfl, ⟨[((n, i), e)], rfl, by rw [hX, hone]; rfl, 0, rfl, hd0, hcell 0⟩, ?_, ?_⟩
          · intro h1 _
            simp only [hX, List.length_cons, List.length_append, List.length_nil] at h1 hstop
            omega
          · intro _; exact ⟨n, i, rfl⟩
        · rw [if_neg hstop]
          cases hbb : b with
          | true =>
            simp only [if_true]
            have hw := hbt hbb
            refine ⟨_, rfl, ⟨[((n, i), e)], rfl, by rw [hX, hw, hlim _ hstop]; simp [limit], 0, rfl, hd0, hcell 0⟩, ?_, ?_⟩
            · intro _ h2; exact absurd h2 (by rw [← hbb]; exact hRt hbb)
            · intro _; exact ⟨n, i, rfl⟩
          | false =>
            simp only [Bool.false_eq_true, if_false]
            rcases t4 with ⟨t4, t5⟩ | ⟨t4, t5⟩
            · simp only [t5]
              refine ⟨_, rfl, ⟨[((n, i), e)], rfl, by rw [hX, hwx t4, hlim _ hstop]; simp [limit], 0, rfl, hd0, hcell 0⟩, ?_, ?_⟩
              · intro _ h2; exact absurd t4 (h2.1 x List.mem_cons_self)
              · intro _; exact ⟨n', i', rfl⟩
            · simp only [t5]
              obtain ⟨w, w1, w2⟩ := hnext t4 skip (picks ++ [((n, i), e)]) hsk (by
                simp only [List.length_append, List.length_singleton] at hstop ⊢; omega)
              rw [w1]
              obtain ⟨⟨new, p1, p2, d, p3, p4, p5⟩, q1, q2⟩ := w2
              obtain ⟨d', e1, e2, e3⟩ := hdist d p4
              have hRR := hRx t4 hbb
              rw [hbb] at hRR
              rw [ho, List.drop_zero] at p2 q1 q2
              refine ⟨w, rfl, ⟨((n, i), e) :: new, by rw [p1]; simp, ?_, d', by rw [p3, e1], e2, ?_⟩, ?_, ?_⟩
              · rw [hX, hwx' t4, hlim _ hstop, List.map_cons, p2]
              · intro y hy
                rcases List.mem_cons.mp hy with rfl | hy
                · exact hcell d' _ (by simp)
                · exact ⟨e3 _ (p5 y hy).1, (p5 y hy).2⟩
              · rw [hX, hwx' t4, hRR, hlen _ hstop]; exact q1
              · rw [hX, hwx' t4, hRR, hlen _ hstop]; exact q2

end Verif.BT
