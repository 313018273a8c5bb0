import Verif.Lemmas.BTreeGet
/-!
# Lemmas on the reading and deleting calls of b+tree collections
-/
namespace Verif.BT
open Verif.BT.Spec

/-- What always holds of a collection. -/
structure Good (info : Info) : Prop where
  wf : Wf info.tree
  sorted : Sorted info.tree.leaves.flatten
  ccnt : info.ccnt = info.tree.leaves.flatten.length
  keys : ∀ e ∈ info.tree.leaves.flatten, ValidKey e.bkey ∧ info.bktype = some e.bkey.type

theorem Wf.nodes {t : Tree} (h : Wf t) : Nodes t.leaves := by
  rcases h with ⟨h, -⟩ | ⟨h, -⟩
  · rw [h]; intro c hc; cases hc
  · exact h

theorem flat_nil {t : Tree} (h : Nodes t.leaves) : t.leaves = [] ↔ t.leaves.flatten = [] := by
  constructor
  · intro h; rw [h]; rfl
  · intro hf
    cases hl : t.leaves with
    | nil => rfl
    | cons c l =>
      rw [hl] at hf h
      have := (h c (by simp)).1
      simp only [List.flatten_cons, List.append_eq_nil_iff] at hf
      rw [hf.1] at this
      simp at this

theorem Wf.full {t : Tree} (h : Wf t) (hne : t.leaves ≠ []) : Nodes t.leaves ∧ AllNodes t.upper ∧ Aligned t.upper (t.leaves.map List.length) := by
  rcases h with ⟨h, -⟩ | ⟨h1, h2, h3, -⟩
  · exact absurd h hne
  · exact ⟨h1, h2, h3⟩

theorem badType_iff {bt : Option KType} {k : BKey} (hv : ValidKey k) : badType bt k = true ↔ ∃ t, bt = some t ∧ t ≠ kindOf k := by
  cases bt with
  | none => simp [badType]
  | some t =>
    cases t <;> cases k with
    | num v => simp [badType, BKey.nbkey, kindOf]
    | bin b =>
      have := ValidKey.nonEmpty hv
      simp only [NonEmpty] at this
      have : 0 < b.length := List.length_pos_iff.mpr this
      simp only [badType, BKey.nbkey, kindOf]
      first
        | (simp; omega)
        | (simp; exact decide_eq_true this)
        | simp

theorem type_same {a b : BKey} : a.type = b.type ↔ SameKind a b := by
  cases a <;> cases b <;> simp [BKey.type, SameKind]

theorem type_kind (a : BKey) : a.type = kindOf a := by cases a <;> rfl

theorem Good.fits {info : Info} (g : Good info) {k : BKey} (hv : ValidKey k) (hb : badType info.bktype k = false) :
    Fits k info.tree.leaves.flatten := by
  refine ⟨ValidKey.nonEmpty hv, ?_⟩
  intro e he
  obtain ⟨h1, h2⟩ := g.keys e he
  refine ⟨?_, ValidKey.nonEmpty h1⟩
  rw [← type_same]
  have : ¬ ∃ t, info.bktype = some t ∧ t ≠ kindOf k := by
    rw [← badType_iff hv, hb]; simp
  rw [h2] at this
  rw [type_kind k]
  by_cases h : e.bkey.type = kindOf k
  · exact h.symm
  · exact absurd ⟨_, rfl, h⟩ this

/-! ## Taking elements out -/

theorem without_length {l s : List Elem} (hl : l.Nodup) (hs : s.Nodup) (hsub : ∀ x ∈ s, x ∈ l) : (without l s).length = l.length - s.length := by
  have h1 : (l.filter fun e => decide (e ∈ s)).Perm s := by
    rw [List.perm_ext_iff_of_nodup (hl.sublist List.filter_sublist) hs]
    intro a
    simp only [List.mem_filter, decide_eq_true_eq]
    exact ⟨fun h => h.2, fun h => ⟨hsub a h, h⟩⟩
  have h2 := List.length_eq_countP_add_countP (fun e => decide (e ∈ s)) (l := l)
  rw [List.countP_eq_length_filter, h1.length_eq, List.countP_eq_length_filter] at h2
  rw [without]
  have h3 : (l.filter fun e => decide (e ∉ s)) = l.filter fun a => decide ¬ (decide (a ∈ s)) = true := by
    apply List.filter_congr; intro x _; simp
  rw [h3]
  omega

theorem without_nil (l : List Elem) : without l [] = l := by
  rw [without, List.filter_eq_self]; simp

theorem without_erase {l : List Elem} (hl : l.Nodup) {m : Nat} {e : Elem} (he : l[m]? = some e) : l.eraseIdx m = without l [e] := by
  obtain ⟨a, b, rfl, rfl⟩ := split_at he
  rw [List.eraseIdx_append_of_length_le (by omega)]
  simp only [Nat.sub_self, List.eraseIdx_cons_zero]
  rw [List.Nodup, List.pairwise_append] at hl
  obtain ⟨-, h2, h3⟩ := hl
  have h4 := (List.pairwise_cons.mp h2).1
  rw [without, List.filter_append, List.filter_cons]
  simp only [List.mem_singleton, not_true, decide_false, Bool.false_eq_true, if_false]
  congr 1
  · symm; rw [List.filter_eq_self]; intro x hx; simp; exact h3 x hx e (by simp)
  · symm; rw [List.filter_eq_self]; intro x hx; simp; exact fun h => h4 x hx h.symm

/-- A removal. -/
theorem Good.remove {info : Info} (g : Good info) {t : Tree} {s : List Elem} (hw : Wf t) (hs : s.Nodup)
    (hsub : ∀ x ∈ s, x ∈ info.tree.leaves.flatten) (hf : t.leaves.flatten = without info.tree.leaves.flatten s) :
    withTree info t s.length = some { info with tree := t, ccnt := info.ccnt - s.length } ∧
      Good { info with tree := t, ccnt := info.ccnt - s.length } := by
  have hlen := without_length (sorted_nodup g.sorted) hs hsub
  have hle : s.length ≤ info.tree.leaves.flatten.length := hs.length_le_of_subset hsub
  constructor
  · rw [withTree, if_neg]; rw [g.ccnt]; omega
  · refine ⟨hw, ?_, ?_, ?_⟩
    · simp only [hf]; exact List.Pairwise.sublist List.filter_sublist g.sorted
    · simp only [hf, hlen, g.ccnt]
    · simp only [hf]; intro e he; exact g.keys e (List.mem_filter.mp he).1

theorem upTo_sublist (k : Nat) (l : List Elem) : (upTo k l).Sublist l := by
  rw [upTo]; split
  · exact List.Sublist.refl _
  · exact List.take_sublist _ _

theorem matching_nodup {r : Range} {f : Option EFilter} {l : List Elem} (h : l.Nodup) : (matching r f l).Nodup := by
  classical
  rw [matching]
  refine List.Nodup.sublist List.filter_sublist ?_
  split
  · exact List.pairwise_reverse.mpr (h.imp fun h => h.symm)
  · exact h

theorem matching_sub {r : Range} {f : Option EFilter} {l : List Elem} {x : Elem} (h : x ∈ matching r f l) : x ∈ l := by
  classical
  rw [matching] at h
  have := (List.mem_filter.mp h).1
  split at this
  · exact List.mem_reverse.mp this
  · exact this

theorem select_nodup {r : Range} {f : Option EFilter} {o k : Nat} {l : List Elem} (h : l.Nodup) : (select r f o k l).Nodup :=
  (matching_nodup h).sublist ((upTo_sublist _ _).trans (List.drop_sublist _ _))

theorem select_sub {r : Range} {f : Option EFilter} {o k : Nat} {l : List Elem} {x : Elem} (h : x ∈ select r f o k l) : x ∈ l :=
  matching_sub (((upTo_sublist _ _).trans (List.drop_sublist _ _)).subset h)

/-- Outcome of taking elements out of a collection. -/
structure Took (info info' : Info) (s : List Elem) : Prop where
  good : Good info'
  rest : info' = { info with tree := info'.tree, ccnt := info'.ccnt }
  flat : info'.tree.leaves.flatten = without info.tree.leaves.flatten s
  same : s = [] → info' = info

theorem Took.refl {info : Info} (g : Good info) : Took info info [] := ⟨g, rfl, (without_nil _).symm, fun _ => rfl⟩

/-- What the loop picks. -/
theorem select_walk {r : Range} {rt : RType} {to : BKey} (ht : Typed r rt to) (hne : rt ≠ .sin) {f : Option EFilter} (hf : FilterOk f)
    (o k : Nat) {info : Info} (g : Good info) (hl : info.tree.leaves ≠ []) (hlo : Fits r.lo info.tree.leaves.flatten)
    (hto : Fits to info.tree.leaves.flatten) {m n i : Nat} {e : Elem} {rest : List Elem} {p : List Posi}
    (hat : At info.tree.leaves m n i) (hp : PathTo info.tree.upper n p) (hq : seq (fwd rt) info.tree.leaves.flatten m = e :: rest)
    (hpre : ∀ x ∈ preF (fwd rt) info.tree.leaves.flatten m, Before (fwd rt) x.bkey r.lo) (hel : ¬ Before (fwd rt) e.bkey r.lo)
    (het : ¬ Before (fwd rt) to e.bkey) :
    ∃ w, walk (rt == .asc) info.tree.leaves to f o k (rounds info.tree.leaves) n i e false 0 [] 1 = some w ∧
      Walked (fwd rt) info.tree.leaves to (pass f) o k n false 0 [] 1 e rest w ∧
      w.picks.map Prod.snd = select r f o k info.tree.leaves.flatten ∧
      ∃ t, dropFound (rt == .asc) info.tree n p w = some t ∧
        withTree info t w.picks.length = some { info with tree := t, ccnt := info.ccnt - w.picks.length } ∧
        Took info { info with tree := t, ccnt := info.ccnt - w.picks.length } (select r f o k info.tree.leaves.flatten) := by
  obtain ⟨hn, -, -⟩ := g.wf.full hl
  have hrl : rest.length < rounds info.tree.leaves := by
    have h1 := congrArg List.length (ordF_split (fwd rt) info.tree.leaves.flatten m)
    have h2 : (ordF (fwd rt) info.tree.leaves.flatten).length = info.tree.leaves.flatten.length := by
      rw [ordF]; split
      · rfl
      · rw [List.length_reverse]
    rw [h2, hq, List.length_append, List.length_cons] at h1
    rw [rounds]
    omega
  obtain ⟨w, w1, w2⟩ := walk_spec (fwd rt) (fun c hc => (hn c hc).1) hto g.sorted f (pass f) (fun e _ => keep_spec hf e) o k rest
    m n i e false 0 [] 1 _ hq hat hrl (by simp) (by omega) (by simp; omega)
  have hm := matching_seq ht hne f hlo hto g.sorted hq hpre hel het
  obtain ⟨new, n1, n2, d, n3, n4, n5⟩ := w2.news
  rw [List.nil_append] at n1
  subst n1
  have hsel : w.picks.map Prod.snd = select r f o k info.tree.leaves.flatten := by
    rw [n2, select, hm, limit, upTo]
    rfl
  have hnd : (w.picks.map Prod.snd).Nodup := by rw [hsel]; exact select_nodup (sorted_nodup g.sorted)
  obtain ⟨t, t1, t2, t3⟩ := dropFound_spec (p := p) g.wf hl g.sorted hp n3 hat.node_lt n4 hnd n5
  have hlen : w.picks.length = (w.picks.map Prod.snd).length := by rw [List.length_map]
  have hsub : ∀ x ∈ w.picks.map Prod.snd, x ∈ info.tree.leaves.flatten := by
    rw [hsel]; intro x hx; exact select_sub hx
  obtain ⟨r1, r2⟩ := g.remove t2 hnd hsub t3
  refine ⟨w, w1, w2, hsel, t, t1, by rw [hlen]; exact r1, ?_⟩
  rw [← hsel]
  refine ⟨by rw [hlen]; exact r2, rfl, t3, ?_⟩
  intro h0
  have h0' : w.picks = [] := by simpa using h0
  rw [dropFound, if_pos h0'] at t1
  cases t1
  rw [h0']
  simp

theorem overlapped_sin {o : Ovfl} {leaves : Row Elem} {pos : Pos} {P Q : Prop}
    (h : (P ∧ ¬ Q ∧ pos = .before) ∨ (¬ P ∧ Q ∧ pos = .past) ∨ (¬ P ∧ ¬ Q ∧ ∃ n i, pos = .pos n i)) :
    overlapped o leaves pos .sin = true ↔ (o = .smallest ∧ P) ∨ (o = .largest ∧ Q) := by
  rcases h with ⟨h1, h2, rfl⟩ | ⟨h1, h2, rfl⟩ | ⟨h1, h2, n, i, rfl⟩ <;> cases o <;> simp [overlapped, h1, h2]

/-- `do_btree_elem_get`. -/
theorem elemGet_spec {r : Range} {rt : RType} {to : BKey} (ht : Typed r rt to) {f : Option EFilter} (hf : FilterOk f) (o k : Nat)
    (del : Bool) {info : Info} {c : C} (g : Good info) (hl : info.tree.leaves ≠ []) (hlo : Fits r.lo info.tree.leaves.flatten)
    (hto : Fits to info.tree.leaves.flatten) (he : c.elems = info.tree.leaves.flatten) (htr : c.trimmed = info.trimmed)
    (ho : c.ovfl = info.ovfl) :
    ∃ info' hint, elemGet info rt r.lo to f o k del = some (info', select r f o k info.tree.leaves.flatten, hint) ∧
      (hint = true ↔ Hint c r f o k) ∧
      Took info info' (if del then select r f o k info.tree.leaves.flatten else []) := by
  obtain ⟨hn, hu, ha⟩ := g.wf.full hl
  have hnf : info.tree.leaves.flatten ≠ [] := fun h => hl ((flat_nil hn).mpr h)
  rw [elemGet, if_neg hl]
  by_cases hne : rt = .sin
  · subst hne
    obtain ⟨rfl, h2, h3, h4⟩ := id ht
    rcases findFirst_spec (rt := .sin) hn hu ha hlo hto g.sorted with ⟨m, n, i, e, p, e1, e2, e3, e4, e5⟩ | ⟨j, ⟨g1, g2, g3⟩, pos, p, e1, e2, e3, e4⟩
    · have hmem : e ∈ info.tree.leaves.flatten := List.mem_of_getElem? e3
      have hm := matching_sin ht f g.sorted hmem e4
      have hnh : ¬ Hint c r f o k := by
        rw [hint_sin ht]
        rintro ⟨-, ⟨-, h⟩ | ⟨-, h⟩⟩
        · have := h e (by rw [he]; exact hmem); rw [e4] at this; exact klt_irrefl _ this
        · have := h e (by rw [he]; exact hmem); rw [e4] at this; exact klt_irrefl _ this
      simp only [e1, if_true, Bool.true_eq_false, if_false, keep_spec hf]
      by_cases hp : o = 0 ∧ pass f e = true
      · have hsel : select r f o k info.tree.leaves.flatten = [e] := by
          rw [select, hm, hp.1, List.filter_cons_of_pos hp.2, List.filter_nil, List.drop_zero, upTo]
          split
          · rfl
          · cases k with
            | zero => contradiction
            | succ k => simp
        rw [if_pos hp, hsel]
        cases del with
        | false =>
          simp only [Bool.false_eq_true, if_false]
          exact ⟨_, _, rfl, by simp [hnh], Took.refl g⟩
        | true =>
          simp only [if_true]
          obtain ⟨t, t1, t2, t3⟩ := unlinkAt_spec e2 e5 g.wf
          rw [without_erase (sorted_nodup g.sorted) e3] at t3
          obtain ⟨r1, r2⟩ := g.remove t2 (s := [e]) (by simp) (by simpa using hmem) t3
          simp only [List.length_singleton] at r1 r2
          simp only [t1, r1, List.length_singleton, Option.map_some]
          exact ⟨_, _, rfl, by simp [hnh], r2, rfl, t3, by simp⟩
      · have hsel : select r f o k info.tree.leaves.flatten = [] := by
          rw [select, hm]
          have : ([e].filter (pass f)).drop o = [] := by
            by_cases hk : pass f e = true
            · rw [List.filter_cons_of_pos hk]
              have : o ≠ 0 := fun h => hp ⟨h, hk⟩
              cases o with
              | zero => contradiction
              | succ o => simp
            · rw [List.filter_cons_of_neg hk]; simp
          rw [this, upTo]
          simp
        rw [if_neg hp, hsel]
        refine ⟨_, _, rfl, by simp [hnh], ?_⟩
        rw [ite_self]
        exact Took.refl g
    · have hnone : ∀ x ∈ info.tree.leaves.flatten, x.bkey ≠ r.lo := by
        intro x hx hk
        obtain ⟨y, hy, hyx⟩ := List.getElem_of_mem hx
        have hyx' : info.tree.leaves.flatten[y]? = some x := List.getElem?_eq_some_iff.mpr ⟨hy, hyx⟩
        rcases Nat.lt_or_ge y j with h | h
        · have := g2 y x hyx' h; rw [hk] at this; exact klt_irrefl _ this
        · have := g3 y x hyx' h; rw [hk] at this; exact klt_irrefl _ this
      have hsel : select r f o k info.tree.leaves.flatten = [] := by
        rw [select, matching_sin_none ht f hnone, upTo]; simp
      rw [hsel]
      simp only [e1]
      refine ⟨_, _, rfl, ?_, by rw [ite_self]; exact Took.refl g⟩
      rw [hint_sin ht, Bool.and_eq_true, htr, ho]
      apply and_congr_right
      intro _
      have hlen : 0 < info.tree.leaves.flatten.length := List.length_pos_iff.mpr hnf
      have hU : Under c r.lo ↔ j = 0 := by
        rw [Under, he]
        constructor
        · intro h
          rcases Nat.eq_zero_or_pos j with h0 | h0
          · exact h0
          · exfalso
            have hx : info.tree.leaves.flatten[0]? = some info.tree.leaves.flatten[0] := List.getElem?_eq_getElem hlen
            exact klt_asymm (g2 0 _ hx h0) (h _ (List.getElem_mem hlen))
        · rintro rfl x hx
          obtain ⟨y, hy, hyx⟩ := List.getElem_of_mem hx
          exact g3 y x (List.getElem?_eq_some_iff.mpr ⟨hy, hyx⟩) (by omega)
      have hO : Over c r.lo ↔ j = info.tree.leaves.flatten.length := by
        rw [Over, he]
        constructor
        · intro h
          rcases Nat.lt_or_ge j info.tree.leaves.flatten.length with h0 | h0
          · exfalso
            have hx : info.tree.leaves.flatten[j]? = some info.tree.leaves.flatten[j] := List.getElem?_eq_getElem h0
            exact klt_asymm (g3 j _ hx (Nat.le_refl _)) (h _ (List.getElem_mem h0))
          · omega
        · rintro rfl x hx
          obtain ⟨y, hy, hyx⟩ := List.getElem_of_mem hx
          exact g2 y x (List.getElem?_eq_some_iff.mpr ⟨hy, hyx⟩) hy
      rw [hU, hO]
      refine overlapped_sin ?_
      rcases Nat.eq_zero_or_pos j with h0 | h0
      · exact .inl ⟨h0, by omega, e2 h0⟩
      · by_cases h1 : j = info.tree.leaves.flatten.length
        · exact .inr (.inl ⟨by omega, h1, e3 h1⟩)
        · exact .inr (.inr ⟨by omega, h1, e4 h0 (by omega)⟩)
  · rcases start_spec ht hne hn hu ha hlo hto g.sorted with ⟨pos, p, e1, e2, e3⟩ | ⟨m, n, i, e, rest, b, p, e1, e2, e3, e4, e5, e6, e7, e8, e9⟩
    · have hsel : select r f o k info.tree.leaves.flatten = [] := by
        rw [select, matching_none ht hne f hlo hto e2, upTo]; simp
      rw [hsel]
      simp only [e1]
      refine ⟨_, _, rfl, ?_, by rw [ite_self]; exact Took.refl g⟩
      rw [← htr, ← ho]
      exact hint_none ht hne f o k hn g.sorted hlo hto he hnf e2 e3
    · obtain ⟨w, w1, w2, w3, t, t1, t2, t3⟩ := select_walk ht hne hf o k g hl hlo hto e2 e4 e5 e6 e7 e8
      have hh := hint_walk ht hne f o k hn hlo g.sorted hto he e2 e5 e6 e7 e8 e9 w2
      simp only [e1, if_neg hne, w1, t1, t2]
      rw [htr, ho] at hh
      rw [← w3] at t3 ⊢
      cases del with
      | false =>
        simp only [Bool.false_eq_true, if_false]
        exact ⟨_, _, rfl, hh, Took.refl g⟩
      | true =>
        simp only [if_true, Option.map_some]
        exact ⟨_, _, rfl, hh, t3⟩

/-- `do_btree_elem_delete`. -/
theorem elemDelete_spec {r : Range} {rt : RType} {to : BKey} (ht : Typed r rt to) {f : Option EFilter} (hf : FilterOk f) (o k : Nat)
    {info : Info} (g : Good info) (hlo : Fits r.lo info.tree.leaves.flatten) (hto : Fits to info.tree.leaves.flatten) :
    ∃ info', elemDelete info rt r.lo to f o k = some (info', (select r f o k info.tree.leaves.flatten).length) ∧
      Took info info' (select r f o k info.tree.leaves.flatten) := by
  by_cases hl : info.tree.leaves = []
  · have hsel : select r f o k info.tree.leaves.flatten = [] := by
      have : ∀ x, x ∉ select r f o k info.tree.leaves.flatten := by
        intro x hx
        have := select_sub hx
        rw [hl] at this
        simp at this
      exact List.eq_nil_iff_forall_not_mem.mpr this
    rw [elemDelete, if_pos hl, hsel]
    exact ⟨_, rfl, Took.refl g⟩
  obtain ⟨hn, hu, ha⟩ := g.wf.full hl
  rw [elemDelete, if_neg hl]
  by_cases hne : rt = .sin
  · subst hne
    obtain ⟨rfl, h2, h3, h4⟩ := id ht
    rcases findFirst_spec (rt := .sin) hn hu ha hlo hto g.sorted with ⟨m, n, i, e, p, e1, e2, e3, e4, e5⟩ | ⟨j, ⟨g1, g2, g3⟩, pos, p, e1, e2, e3, e4⟩
    · have hmem : e ∈ info.tree.leaves.flatten := List.mem_of_getElem? e3
      have hm := matching_sin ht f g.sorted hmem e4
      simp only [e1, if_true, Bool.true_eq_false, if_false, keep_spec hf]
      by_cases hp : o = 0 ∧ pass f e = true
      · have hsel : select r f o k info.tree.leaves.flatten = [e] := by
          rw [select, hm, hp.1, List.filter_cons_of_pos hp.2, List.filter_nil, List.drop_zero, upTo]
          split
          · rfl
          · cases k with
            | zero => contradiction
            | succ k => simp
        rw [if_pos hp, hsel]
        obtain ⟨t, t1, t2, t3⟩ := unlinkAt_spec e2 e5 g.wf
        rw [without_erase (sorted_nodup g.sorted) e3] at t3
        obtain ⟨r1, r2⟩ := g.remove t2 (s := [e]) (by simp) (by simpa using hmem) t3
        simp only [List.length_singleton] at r1 r2
        simp only [t1, r1, List.length_singleton, Option.map_some]
        exact ⟨_, rfl, r2, rfl, t3, by simp⟩
      · have hsel : select r f o k info.tree.leaves.flatten = [] := by
          rw [select, hm]
          have : ([e].filter (pass f)).drop o = [] := by
            by_cases hk : pass f e = true
            · rw [List.filter_cons_of_pos hk]
              have : o ≠ 0 := fun h => hp ⟨h, hk⟩
              cases o with
              | zero => contradiction
              | succ o => simp
            · rw [List.filter_cons_of_neg hk]; simp
          rw [this, upTo]
          simp
        rw [if_neg hp, hsel]
        exact ⟨_, rfl, Took.refl g⟩
    · have hnone : ∀ x ∈ info.tree.leaves.flatten, x.bkey ≠ r.lo := by
        intro x hx hk
        obtain ⟨y, hy, hyx⟩ := List.getElem_of_mem hx
        have hyx' : info.tree.leaves.flatten[y]? = some x := List.getElem?_eq_some_iff.mpr ⟨hy, hyx⟩
        rcases Nat.lt_or_ge y j with h | h
        · have := g2 y x hyx' h; rw [hk] at this; exact klt_irrefl _ this
        · have := g3 y x hyx' h; rw [hk] at this; exact klt_irrefl _ this
      have hsel : select r f o k info.tree.leaves.flatten = [] := by
        rw [select, matching_sin_none ht f hnone, upTo]; simp
      rw [hsel]
      simp only [e1]
      exact ⟨_, rfl, Took.refl g⟩
  · rcases start_spec ht hne hn hu ha hlo hto g.sorted with ⟨pos, p, e1, e2, e3⟩ | ⟨m, n, i, e, rest, b, p, e1, e2, e3, e4, e5, e6, e7, e8, e9⟩
    · have hsel : select r f o k info.tree.leaves.flatten = [] := by
        rw [select, matching_none ht hne f hlo hto e2, upTo]; simp
      rw [hsel]
      simp only [e1]
      exact ⟨_, rfl, Took.refl g⟩
    · obtain ⟨w, w1, w2, w3, t, t1, t2, t3⟩ := select_walk ht hne hf o k g hl hlo hto e2 e4 e5 e6 e7 e8
      have hlen : w.picks.length = (select r f o k info.tree.leaves.flatten).length := by rw [← w3, List.length_map]
      simp only [e1, if_neg hne, w1, t1, t2, Option.map_some]
      rw [← hlen]
      exact ⟨_, rfl, t3⟩

theorem select_all {r : Range} {f : Option EFilter} {l : List Elem} : select r f 0 0 l = matching r f l := by
  simp [select, upTo]

theorem firstElem_spec {t : Tree} (hn : Nodes t.leaves) : firstElem t = t.leaves.flatten.head? := by
  rw [firstElem, elemAt]
  cases hl : t.leaves with
  | nil => rfl
  | cons c l =>
    have := (hn c (by rw [hl]; simp)).1
    cases c with
    | nil => simp at this
    | cons a c => rfl

theorem lastElem_spec {t : Tree} (hn : Nodes t.leaves) : lastElem t = t.leaves.flatten.getLast? := by
  rw [lastElem]
  rcases List.eq_nil_or_concat t.leaves with h | ⟨l, c, h⟩
  · rw [h]; rfl
  · rw [List.concat_eq_append] at h
    rw [h]
    have := (hn c (by rw [h]; simp)).1
    have hc : c ≠ [] := List.length_pos_iff.mp this
    simp only [List.getLast?_concat, List.flatten_append, List.flatten_cons, List.flatten_nil, List.append_nil]
    rw [List.getLast?_append]
    cases hg : c.getLast? with
    | none => rw [List.getLast?_eq_none_iff] at hg; exact absurd hg hc
    | some x => rfl

/-- `do_btree_elem_count`. -/
theorem elemCount_spec {r : Range} {rt : RType} {to : BKey} (ht : Typed r rt to) {f : Option EFilter} (hf : FilterOk f)
    {info : Info} (g : Good info) (hlo : Fits r.lo info.tree.leaves.flatten) (hto : Fits to info.tree.leaves.flatten) :
    elemCount info rt r.lo to f = some (matching r f info.tree.leaves.flatten).length := by
  by_cases hl : info.tree.leaves = []
  · rw [elemCount, if_pos hl, hl]
    classical
    simp [matching]
  obtain ⟨hn, hu, ha⟩ := g.wf.full hl
  have hnf : info.tree.leaves.flatten ≠ [] := fun h => hl ((flat_nil hn).mpr h)
  rw [elemCount, if_neg hl]
  have hfull : ∃ b, fullRange info rt r.lo to f = some b ∧ (b = true → matching r f info.tree.leaves.flatten = ordF (fwd rt) info.tree.leaves.flatten) := by
    rw [fullRange]
    by_cases hc : rt ≠ .sin ∧ f = none
    · rw [if_pos hc, firstElem_spec hn, lastElem_spec hn]
      obtain ⟨hne, rfl⟩ := hc
      cases hh : info.tree.leaves.flatten.head? with
      | none => rw [List.head?_eq_none_iff] at hh; exact absurd hh hnf
      | some a =>
        cases hb : info.tree.leaves.flatten.getLast? with
        | none => rw [List.getLast?_eq_none_iff] at hb; exact absurd hb hnf
        | some b =>
          have ham : a ∈ info.tree.leaves.flatten := List.mem_of_head? hh
          have hbm : b ∈ info.tree.leaves.flatten := List.mem_of_getLast? hb
          have hmin : ∀ x ∈ info.tree.leaves.flatten, KLe a.bkey x.bkey := by
            intro x hx
            have hs := g.sorted
            cases hL : info.tree.leaves.flatten with
            | nil => exact absurd hL hnf
            | cons y ys =>
              rw [hL] at hh hs hx
              cases hh
              rcases List.mem_cons.mp hx with rfl | hx
              · exact .inr rfl
              · exact .inl ((List.pairwise_cons.mp hs).1 x hx)
          have hmax : ∀ x ∈ info.tree.leaves.flatten, KLe x.bkey b.bkey := by
            intro x hx
            have hs := g.sorted
            rcases List.eq_nil_or_concat info.tree.leaves.flatten with h | ⟨ys, y, h⟩
            · exact absurd h hnf
            · rw [List.concat_eq_append] at h
              rw [h] at hb hs hx
              rw [List.getLast?_concat] at hb
              cases hb
              rcases List.mem_append.mp hx with hx | hx
              · exact .inl ((List.pairwise_append.mp hs).2.2 x hx _ (by simp))
              · simp only [List.mem_singleton] at hx; exact .inr (by rw [hx])
          have key : ∀ lo hi : BKey, Fits lo info.tree.leaves.flatten → Fits hi info.tree.leaves.flatten →
              ∃ c1 c2, bkeyComp lo a.bkey = some c1 ∧ bkeyComp hi b.bkey = some c2 ∧
                (c1 ≠ .gt ∧ c2 ≠ .lt → ∀ x ∈ info.tree.leaves.flatten, KLe lo x.bkey ∧ KLe x.bkey hi) := by
            intro lo hi flo fhi
            have fa := flo.2 a ham
            have fb := fhi.2 b hbm
            have h1 : ∃ c1, bkeyComp lo a.bkey = some c1 ∧ (c1 ≠ .gt → KLe lo a.bkey) := by
              rcases bkeyComp_spec fa.1 flo.1 fa.2 with ⟨k1, k2⟩ | ⟨k1, k2⟩ | ⟨k1, k2⟩
              · exact ⟨_, k1, fun _ => .inl k2⟩
              · exact ⟨_, k1, fun _ => .inr k2⟩
              · exact ⟨_, k1, fun h => absurd rfl h⟩
            have h2 : ∃ c2, bkeyComp hi b.bkey = some c2 ∧ (c2 ≠ .lt → KLe b.bkey hi) := by
              rcases bkeyComp_spec fb.1 fhi.1 fb.2 with ⟨k1, k2⟩ | ⟨k1, k2⟩ | ⟨k1, k2⟩
              · exact ⟨_, k1, fun h => absurd rfl h⟩
              · exact ⟨_, k1, fun _ => .inr k2.symm⟩
              · exact ⟨_, k1, fun _ => .inl k2⟩
            obtain ⟨c1, i1, i2⟩ := h1
            obtain ⟨c2, i3, i4⟩ := h2
            refine ⟨c1, c2, i1, i3, ?_⟩
            rintro ⟨j1, j2⟩ x hx
            constructor
            · rcases i2 j1 with h | h
              · exact .inl (klt_kle h (hmin x hx))
              · rw [h]; exact hmin x hx
            · rcases i4 j2 with h | h
              · exact .inl (kle_klt (hmax x hx) h)
              · rw [← h]; exact hmax x hx
          classical
          have mall : (∀ x ∈ info.tree.leaves.flatten, Spec.InRange r x.bkey) → matching r none info.tree.leaves.flatten = if Descending r then info.tree.leaves.flatten.reverse else info.tree.leaves.flatten := by
            intro h
            rw [matching, List.filter_eq_self]
            intro x hx
            have hx' : x ∈ info.tree.leaves.flatten := by
              split at hx
              · exact List.mem_reverse.mp hx
              · exact hx
            simp [h x hx', Passes]
          cases rt with
          | sin => exact absurd rfl hne
          | asc =>
            obtain ⟨c1, c2, k1, k2, k3⟩ := key r.lo to hlo hto
            simp only [if_true, k1, k2]
            refine ⟨_, rfl, ?_⟩
            intro hd
            have := k3 (of_decide_eq_true hd)
            rw [mall fun x hx => (ht.2.2.2.2 _).mpr (this x hx), if_neg ht.2.2.1]
            rfl
          | dsc =>
            obtain ⟨c1, c2, k1, k2, k3⟩ := key to r.lo hto hlo
            simp only [reduceCtorEq, if_false, k1, k2]
            refine ⟨_, rfl, ?_⟩
            intro hd
            have := k3 (of_decide_eq_true hd)
            rw [mall fun x hx => (ht.2.2.2.2 _).mpr (this x hx), if_pos ht.2.2.1]
            rfl
    · rw [if_neg hc]
      exact ⟨false, rfl, by simp⟩
  obtain ⟨b, hb1, hb2⟩ := hfull
  rw [hb1]
  cases b with
  | true =>
    simp only [hb2 rfl, g.ccnt, ordF]
    congr 1
    split
    · rfl
    · rw [List.length_reverse]
  | false =>
    by_cases hne : rt = .sin
    · subst hne
      obtain ⟨rfl, h2, h3, h4⟩ := id ht
      rcases findFirst_spec (rt := .sin) hn hu ha hlo hto g.sorted with ⟨m, n, i, e, p, e1, e2, e3, e4, e5⟩ | ⟨j, ⟨g1, g2, g3⟩, pos, p, e1, e2, e3, e4⟩
      · have hmem : e ∈ info.tree.leaves.flatten := List.mem_of_getElem? e3
        have hm := matching_sin ht f g.sorted hmem e4
        simp only [e1, if_true, Bool.true_eq_false, if_false, keep_spec hf, Option.map_some, hm]
        cases hp : pass f e <;> simp [hp]
      · have hnone : ∀ x ∈ info.tree.leaves.flatten, x.bkey ≠ r.lo := by
          intro x hx hk
          obtain ⟨y, hy, hyx⟩ := List.getElem_of_mem hx
          have hyx' : info.tree.leaves.flatten[y]? = some x := List.getElem?_eq_some_iff.mpr ⟨hy, hyx⟩
          rcases Nat.lt_or_ge y j with h | h
          · have := g2 y x hyx' h; rw [hk] at this; exact klt_irrefl _ this
          · have := g3 y x hyx' h; rw [hk] at this; exact klt_irrefl _ this
        rw [matching_sin_none ht f hnone]
        simp only [e1]
        rfl
    · rcases start_spec ht hne hn hu ha hlo hto g.sorted with ⟨pos, p, e1, e2, e3⟩ | ⟨m, n, i, e, rest, b, p, e1, e2, e3, e4, e5, e6, e7, e8, e9⟩
      · rw [matching_none ht hne f hlo hto e2]
        simp only [e1]
        rfl
      · obtain ⟨w, w1, w2, w3, -⟩ := select_walk ht hne hf 0 0 g hl hlo hto e2 e4 e5 e6 e7 e8
        rw [select_all] at w3
        simp only [e1, if_neg hne, w1, Option.map_some, ← w3, List.length_map]

end Verif.BT
