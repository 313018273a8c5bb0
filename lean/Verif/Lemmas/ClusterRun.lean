import Verif.Lemmas.ClusterBuild
/-!
# The invariant of the cluster configuration
-/
namespace Verif.Cluster
open Verif.Cluster.Spec Verif.BT

/-! The writes of `do_continuum_build`. -/

/-- The writes still to be done, and what is done. -/
structure Todo (cfg : Cfg) (h : Heap) (arr : List Nat) (todo : List (Nat × Nat × Nat)) : Prop where
  ok : ∀ w ∈ todo, arr[w.2.2]? = some w.1 ∧ w.2.1 < cfg.n
  done : ∀ (i id : Nat) (node : Node) (j : Nat) (sl : Slice), arr[i]? = some id → h id = some node → node.slices[j]? = some sl →
    sl.nindex = i ∨ (id, j, i) ∈ todo

theorem nodup_index {l : List Nat} (h : l.Nodup) {i j x : Nat} (hi : l[i]? = some x) (hj : l[j]? = some x) : i = j := by
  rcases Nat.lt_trichotomy i j with hij | hij | hij
  · exact absurd rfl (pairwise_get h hij hi hj)
  · exact hij
  · exact absurd rfl (pairwise_get h hij hj hi)

theorem write1_spec {cfg : Cfg} (hc : Sized cfg) {h : Heap} {arr : List Nat} {names : List (List Nat)} (hg : Good cfg h arr names)
    {w : Nat × Nat × Nat} {rest : List (Nat × Nat × Nat)} (ht : Todo cfg h arr (w :: rest)) (hlen : arr.length < 65536) :
    ∃ h', write1 h w = some h' ∧ Todo cfg h' arr rest ∧ (∀ id, (h' id).map shape = (h id).map shape) ∧
      (∀ id, (h' id).map Node.refcnt = (h id).map Node.refcnt) ∧
      (∀ id node' sl', h' id = some node' → sl' ∈ node'.slices →
        (∃ node sl, h id = some node ∧ sl ∈ node.slices ∧ sl.nindex = sl'.nindex) ∨ (id = w.1 ∧ sl'.nindex = w.2.2)) := by
  obtain ⟨hw1, hw2⟩ := ht.ok w (List.mem_cons_self ..)
  have hwl := (List.getElem?_eq_some_iff.mp hw1).1
  have hin := List.mem_of_getElem? hw1
  obtain ⟨node, sl, n1, n2, -, -⟩ := slice_of hc hg hin w.2.1 hw2
  have hmod : w.2.2 % 65536 = w.2.2 := Nat.mod_eq_of_lt (by omega)
  refine ⟨put h w.1 { node with slices := node.slices.set w.2.1 { sl with nindex := w.2.2 } }, ?_, ?_, ?_, ?_, ?_⟩
  · simp only [write1, n1, n2, hmod]
  · constructor
    · intro v hv; exact ht.ok v (List.mem_cons_of_mem _ hv)
    · intro i id nd j sl' hi hid hsl
      by_cases hiw : id = w.1
      · subst hiw
        have hii : i = w.2.2 := nodup_index hg.nodup hi hw1
        rw [put_same] at hid
        cases hid
        simp only at hsl
        by_cases hj : j = w.2.1
        · subst hj
          left
          rw [List.getElem?_set_self (List.getElem?_eq_some_iff.mp n2).1] at hsl
          cases hsl; exact hii.symm
        · rw [List.getElem?_set_ne (Ne.symm hj)] at hsl
          rcases ht.done i _ node j sl' hi n1 hsl with h' | h'
          · exact .inl h'
          · rcases List.mem_cons.mp h' with h' | h'
            · exact absurd (congrArg (fun x => x.2.1) h') hj
            · exact .inr h'
      · rw [put_other hiw] at hid
        rcases ht.done i id nd j sl' hi hid hsl with h' | h'
        · exact .inl h'
        · rcases List.mem_cons.mp h' with h' | h'
          · exact absurd (congrArg (fun x => x.1) h') hiw
          · exact .inr h'
  · intro id
    by_cases hiw : id = w.1
    · subst hiw
      rw [put_same, n1]
      simp only [Option.map_some, shape, Option.some.injEq, Prod.mk.injEq, true_and]
      apply List.ext_getElem?
      intro k
      rw [List.getElem?_map, List.getElem?_map]
      by_cases hk : w.2.1 = k
      · subst hk
        rw [List.getElem?_set_self (List.getElem?_eq_some_iff.mp n2).1, n2]; rfl
      · rw [List.getElem?_set_ne hk]
    · rw [put_other hiw]
  · intro id
    by_cases hiw : id = w.1
    · subst hiw; rw [put_same, n1]; rfl
    · rw [put_other hiw]
  · intro id node' sl' hid hsl
    by_cases hiw : id = w.1
    · subst hiw
      rw [put_same] at hid
      cases hid
      rcases List.mem_or_eq_of_mem_set hsl with h' | h'
      · exact .inl ⟨node, sl', n1, h', rfl⟩
      · right; subst h'; exact ⟨rfl, rfl⟩
    · rw [put_other hiw] at hid
      exact .inl ⟨node', sl', hid, hsl, rfl⟩

theorem writeAll_spec {cfg : Cfg} (hc : Sized cfg) {arr : List Nat} {names : List (List Nat)} (hlen : arr.length < 65536) :
    ∀ (todo : List (Nat × Nat × Nat)) (h : Heap), Good cfg h arr names → Todo cfg h arr todo →
    ∃ h', writeAll h todo = some h' ∧ Todo cfg h' arr [] ∧ (∀ id, (h' id).map shape = (h id).map shape) ∧
      (∀ id, (h' id).map Node.refcnt = (h id).map Node.refcnt)
  | [], h, _, ht => ⟨h, rfl, ht, fun _ => rfl, fun _ => rfl⟩
  | w :: rest, h, hg, ht => by
    obtain ⟨h1, w1, w2, w3, w4, -⟩ := write1_spec hc hg ht hlen
    obtain ⟨h2, v1, v2, v3, v4⟩ := writeAll_spec hc hlen rest h1 (hg.congr fun id _ => w3 id) w2
    exact ⟨h2, by simp only [writeAll, w1, v1], v2, fun id => (v3 id).trans (w3 id), fun id => (v4 id).trans (w4 id)⟩

theorem writes_todo {cfg : Cfg} (hc : Sized cfg) {h : Heap} {arr : List Nat} {names : List (List Nat)} (hg : Good cfg h arr names) :
    Todo cfg h arr (writes cfg arr) := by
  have hmem : ∀ id j i, (id, j, i) ∈ writes cfg arr ↔ arr[i]? = some id ∧ j < cfg.n := by
    intro id j i
    simp only [writes, List.mem_flatMap, List.mem_map, List.mem_range]
    constructor
    · rintro ⟨p, hp, k, hk, he⟩
      simp only [Prod.mk.injEq] at he
      obtain ⟨rfl, rfl, rfl⟩ := he
      exact ⟨List.mem_zipIdx_iff_getElem?.mp hp, hk⟩
    · rintro ⟨h1, h2⟩
      exact ⟨(id, i), List.mem_zipIdx_iff_getElem?.mpr h1, j, h2, rfl⟩
  refine ⟨fun w hw => (hmem w.1 w.2.1 w.2.2).mp hw, ?_⟩
  intro i id node j sl hi hid hsl
  right
  refine (hmem id j i).mpr ⟨hi, ?_⟩
  obtain ⟨n, n1, n2⟩ := hg.live id (List.mem_of_getElem? hi)
  rw [hid] at n1; cases n1
  have := (List.getElem?_eq_some_iff.mp hsl).1
  have hl : node.slices.length = cfg.n := by rw [← hc.2 node.name, ← n2, List.length_map]
  omega

/-- When all writes are done, sorting gives the ring. -/
theorem sort_ring {cfg : Cfg} (hc : Sized cfg) {h : Heap} {arr : List Nat} {names : List (List Nat)} (hg : Good cfg h arr names)
    (ht : Todo cfg h arr []) : Ring cfg h arr (sortBy (contLe h) (allSlices cfg.n arr)) := by
  have hsl : ∀ x ∈ allSlices cfg.n arr, ∃ i sl, arr[i]? = some x.1 ∧ slice h x = some sl ∧ sl.nindex = i ∧ hp h x = sl.hpoint := by
    intro x hx
    obtain ⟨h1, h2⟩ := mem_allSlices.mp hx
    obtain ⟨node, sl, n1, n2, n3, -⟩ := slice_of hc hg h1 x.2 h2
    obtain ⟨i, hi⟩ := List.getElem?_of_mem h1
    rcases ht.done i x.1 node x.2 sl hi n1 n2 with h' | h'
    · exact ⟨i, sl, hi, n3, h', by simp only [hp, n3]⟩
    · cases h'
  have hsm : ∀ i j a b : Nat, arr[i]? = some a → arr[j]? = some b → (i ≤ j → ¬ Smaller (nameOf h b) (nameOf h a)) := by
    intro i j a b ha hb hij
    rcases Nat.lt_or_eq_of_le hij with hij | hij
    · exact smaller_asymm (pairwise_get hg.sorted hij (by rw [List.getElem?_map, ha]; rfl) (by rw [List.getElem?_map, hb]; rfl))
    · subst hij
      rw [ha] at hb; cases hb
      exact smaller_irrefl _
  constructor
  · intro x
    rw [(sortBy_perm _ _).mem_iff, mem_allSlices]
  · apply sortBy_sorted
    · intro x hx y hy hle
      obtain ⟨i, a, a1, a2, a3, a4⟩ := hsl x hx
      obtain ⟨j, b, b1, b2, b3, b4⟩ := hsl y hy
      simp only [contLe, a2, b2, decide_eq_true_eq] at hle
      unfold RingLe
      rw [a4, b4]
      rcases hle with h' | ⟨h', h''⟩
      · exact .inl h'
      · exact .inr ⟨h', hsm i j _ _ a1 b1 (by omega)⟩
    · intro x hx y hy hle
      obtain ⟨i, a, a1, a2, a3, a4⟩ := hsl x hx
      obtain ⟨j, b, b1, b2, b3, b4⟩ := hsl y hy
      simp only [contLe, a2, b2, decide_eq_false_iff_not, not_or, not_and] at hle
      unfold RingLe
      rw [a4, b4]
      rcases Nat.lt_trichotomy b.hpoint a.hpoint with h' | h' | h'
      · exact .inl h'
      · have := hle.2 h'.symm
        exact .inr ⟨h', hsm j i _ _ b1 a1 (by omega)⟩
      · exact absurd h' hle.1
    · intro x _ y _ z _ hxy hyz
      unfold RingLe at *
      rcases hxy with hxy | ⟨hxy, hxy'⟩ <;> rcases hyz with hyz | ⟨hyz, hyz'⟩
      · exact .inl (by omega)
      · exact .inl (by omega)
      · exact .inl (by omega)
      · exact .inr ⟨by omega, not_smaller_trans hxy' hyz'⟩

/-! The invariant. -/

/-- The array of the reconfiguration in progress. -/
def jobArr (s : St) : List Nat := match s.job with | none => [] | some j => j.arr

structure Inv (cfg : Cfg) (own : List Nat) (σ : S) (s : St) : Prop where
  me : ∃ node, s.heap 0 = some node ∧ node.name = own ∧ node.slices.map Slice.hpoint = cfg.points node.name
  good : Good cfg s.heap s.nodes σ.names
  refs : ∀ id node, s.heap id = some node → id ∉ s.free →
    node.refcnt = (if id = 0 then 1 else 0) + s.nodes.count id + (jobArr s).count id
  nodup : s.free.Nodup
  off : ∀ id ∈ s.free, id ≠ 0 ∧ id ∉ s.nodes ∧ id ∉ jobArr s
  bound : 0 < s.fresh ∧ ∀ id, id ∈ s.free ∨ id ∈ s.nodes ∨ id ∈ jobArr s → id < s.fresh
  sid : s.selfId = selfId σ.names own
  ring : σ.cur ≠ none → ∃ C, s.cont = some C ∧ Ring cfg s.heap s.nodes C
  nidx : ∀ (i id : Nat) (node : Node) (sl : Slice), s.nodes[i]? = some id → s.heap id = some node → sl ∈ node.slices →
    sl.nindex = i ∨ ∃ new, σ.next = some new ∧ nameOf s.heap id ∈ new ∧ sl.nindex = rank new (nameOf s.heap id)
  valid : s.valid = σ.valid
  idle : σ.next = none → s.job = none
  busy : ∀ new, σ.next = some new → ∃ j, s.job = some j ∧ Good cfg s.heap j.arr new ∧ j.selfId = selfId new own ∧
    Todo cfg s.heap j.arr j.todo ∧ new.length < 65000

theorem count_nodup {l : List Nat} (h : l.Nodup) (x : Nat) : l.count x = if x ∈ l then 1 else 0 := by
  split
  · rename_i hx
    rw [h.count, if_pos hx]
  · rename_i hx
    exact List.count_eq_zero.mpr hx

theorem selfId_perm {a b : List (List Nat)} (h : a.Perm b) (x : List Nat) : selfId a x = selfId b x := by
  unfold selfId
  simp only [h.mem_iff, rank_perm h x]

/-- What `do_nodearray_find` gives for the server itself. -/
theorem find_self {cfg : Cfg} {h : Heap} {arr : List Nat} {names : List (List Nat)} (hg : Good cfg h arr names) (own : List Nat) :
    find h arr own = some (selfId names own) := by
  rcases find_spec own hg.alive hg.sorted with ⟨j, id, h1, h2, h3⟩ | ⟨h1, h2⟩
  · rw [h1]
    have hm : (arr.map (nameOf h))[j]? = some own := by rw [List.getElem?_map, h2, ← h3]; rfl
    unfold selfId
    rw [if_pos (hg.perm.mem_iff.mp (List.mem_of_getElem? hm)), ← rank_perm hg.perm, rank_sorted hg.sorted hm]
  · rw [h1]
    unfold selfId
    rw [if_neg fun h => h2 (hg.perm.mem_iff.mpr h)]

/-- The exchange of the arrays. -/
theorem replace_spec {cfg : Cfg} {own : List Nat} {σ : S} {s : St} (I : Inv cfg own σ s) {arr : List Nat} {new : List (List Nat)}
    {C : List (Nat × Nat)} {h : Heap} (ha : arr = jobArr s) (hg : Good cfg h arr new)
    (hs : ∀ id, (h id).map shape = (s.heap id).map shape) (hf : ∀ id, (h id).map Node.refcnt = (s.heap id).map Node.refcnt)
    (hr : Ring cfg h arr C) (hn : ∀ (i id : Nat) (node : Node) (sl : Slice), arr[i]? = some id → h id = some node → sl ∈ node.slices → sl.nindex = i) :
    ∃ s', replace { s with heap := h } arr (selfId new own) C = some s' ∧ Inv cfg own ⟨some new, true, none⟩ s' := by
  have hgn : Good cfg h s.nodes σ.names := I.good.congr fun id _ => hs id
  have hrefs : ∀ id node, h id = some node → id ∉ s.free →
      node.refcnt = (if id = 0 then 1 else 0) + (if id ∈ s.nodes then 1 else 0) + (if id ∈ arr then 1 else 0) := by
    intro id node h1 h2
    have hf' := hf id
    rw [h1] at hf'
    cases h3 : s.heap id with
    | none => rw [h3] at hf'; cases hf'
    | some n0 =>
      rw [h3] at hf'
      have he : node.refcnt = n0.refcnt := Option.some.inj hf'
      have := I.refs id n0 h3 h2
      rw [count_nodup I.good.nodup, ← ha, count_nodup hg.nodup] at this
      rw [he, this]
  have hoff : ∀ id, id ∈ s.free → id ≠ 0 ∧ id ∉ s.nodes ∧ id ∉ arr := by rw [ha]; exact I.off
  unfold replace
  obtain ⟨s', r1, r2, r3, r4, r5, r6⟩ := release_spec s.nodes
    { s with heap := h, nodes := arr, selfId := selfId new own, cont := some C, valid := true, job := none } I.good.nodup (by
      intro id hid
      obtain ⟨node, n1, -⟩ := hgn.live id hid
      refine ⟨node, n1, ?_⟩
      rw [hrefs id node n1 (fun h' => (hoff id h').2.1 hid)]
      simp only [hid, if_true]; omega)
  refine ⟨s', r1, ?_⟩
  simp only at r3 r4 r5 r6
  have e1 : s'.nodes = arr := by rw [r2]
  have e2 : s'.job = none := by rw [r2]
  have e3 : jobArr s' = [] := by simp only [jobArr, e2]
  have e4 : s'.fresh = s.fresh := by rw [r2]
  have hsh : ∀ id, (s'.heap id).map shape = (h id).map shape := fun id => shape_of_body (r3 id)
  exact
    { me := by
        obtain ⟨me, m1, m2, m3⟩ := I.me
        have := (hsh 0).trans (hs 0)
        rw [m1] at this
        cases h0 : s'.heap 0 with
        | none => rw [h0] at this; cases this
        | some n =>
          rw [h0] at this
          simp only [Option.map_some, Option.some.injEq, shape, Prod.mk.injEq] at this
          exact ⟨n, rfl, by rw [this.1, m2], by rw [this.2, this.1, m3]⟩
      good := by
        rw [e1]
        exact hg.congr fun id _ => hsh id
      refs := by
        intro id node h1 h2
        obtain ⟨n0, g1, g2⟩ := r4 id node h1
        have h2' : id ∉ s.free := fun h' => h2 ((r5 id).mpr (.inl h'))
        have := hrefs id n0 g1 h2'
        rw [e3, e1, count_nodup hg.nodup]
        simp only [List.count_nil, Nat.add_zero]
        omega
      nodup := r6 I.nodup fun id hid hf => (hoff id hf).2.1 hid
      off := by
        intro id hid
        rw [e1, e3]
        rcases (r5 id).mp hid with h' | ⟨h', node, h'', h'''⟩
        · obtain ⟨o1, -, o3⟩ := hoff id h'
          exact ⟨o1, o3, by simp⟩
        · have hnf : id ∉ s.free := fun hf => (hoff id hf).2.1 h'
          have := hrefs id node h'' hnf
          rw [h'''] at this
          simp only [h', if_true] at this
          refine ⟨?_, ?_, by simp⟩
          · intro h0; simp only [h0, if_true] at this; omega
          · intro ha'; simp only [ha', if_true] at this; omega
      bound := by
        rw [e4, e1, e3]
        refine ⟨I.bound.1, ?_⟩
        intro id hid
        rcases hid with h' | h' | h'
        · rcases (r5 id).mp h' with h' | ⟨h', -⟩
          · exact I.bound.2 id (.inl h')
          · exact I.bound.2 id (.inr (.inl h'))
        · exact I.bound.2 id (.inr (.inr (by rw [← ha]; exact h')))
        · cases h'
      sid := by rw [r2]; rfl
      ring := by
        intro _
        rw [e1]
        exact ⟨C, by rw [r2], hr.congr fun id _ => hsh id⟩
      nidx := by
        intro i id node sl hi hid hsl
        left
        rw [e1] at hi
        have hb := r3 id
        rw [hid] at hb
        cases h0 : h id with
        | none => rw [h0] at hb; cases hb
        | some n0 =>
          rw [h0] at hb
          simp only [Option.map_some, Option.some.injEq, body, Prod.mk.injEq] at hb
          exact hn i id n0 sl hi h0 (by rw [← hb.2]; exact hsl)
      valid := by rw [r2]
      idle := fun _ => e2
      busy := fun new h' => by cases h' }

/-! The single events. -/

theorem init_inv {cfg : Cfg} {own : List Nat} (hown : own.length ≤ 127) : Inv cfg own Spec.start (init cfg own) := by
  have htake : own.take 127 = own := List.take_of_length_le hown
  have hfree : ∀ id, id ∈ (init cfg own).free ↔ 1 ≤ id ∧ id < 11 := by
    intro id
    simp only [init, List.mem_reverse, List.mem_range'_1]
  exact
    { me := by
        refine ⟨{ mkNode cfg own with refcnt := 1 }, by simp only [init, put_same], by simp only [mkNode, htake], ?_⟩
        simp only [mkNode, List.map_map]
        exact List.map_id _
      good := ⟨fun id h => (by cases h), List.Pairwise.nil, List.Perm.nil⟩
      refs := by
        intro id node h1 h2
        by_cases h0 : id = 0
        · subst h0
          simp only [init, put_same, Option.some.injEq] at h1
          subst h1
          rfl
        · simp only [init, put_other h0] at h1
          cases h1
      nodup := by
        simp only [init]
        exact List.pairwise_reverse.mpr ((List.nodup_range' (step := 1)).imp Ne.symm)
      off := by
        intro id h
        have := (hfree id).mp h
        exact ⟨by omega, by simp [init], by simp [jobArr, init]⟩
      bound := by
        refine ⟨by simp [init], ?_⟩
        intro id h
        rcases h with h | h | h
        · have := (hfree id).mp h
          simp only [init]; omega
        · simp [init] at h
        · simp [jobArr, init] at h
      sid := by
        simp only [init, selfId, S.names, Spec.start]
        simp
      ring := fun h => absurd rfl h
      nidx := by intro i id node sl h; simp [init] at h
      valid := rfl
      idle := fun _ => rfl
      busy := fun new h => by cases h }

theorem lookup_inv {cfg : Cfg} (hc : Sized cfg) {own : List Nat} {σ : S} {s : St} (I : Inv cfg own σ s) (key : List Nat)
    (hl : Legal σ (.lookup key)) : ∃ o, lookup cfg s key = some (s, o) ∧ Step cfg own σ (.lookup key) o σ := by
  obtain ⟨C, c1, c2⟩ := I.ring hl.1
  have hne : σ.names ≠ [] := by
    intro h
    cases h' : σ.cur with
    | none => exact hl.1 h'
    | some l => simp only [S.names, h', Option.getD_some] at h; subst h; exact hl.2 h'
  simp only [lookup, c1]
  by_cases hv : s.valid = true
  · obtain ⟨id, j, node, sl, r1, r2, r3, r4, r5⟩ := ring_owner hc I.good c2 hne (cfg.khash key)
    rw [if_pos hv, r4, Option.map_some]
    refine ⟨_, rfl, rfl, ?_⟩
    rw [if_neg (by rw [← I.valid, hv]; decide)]
    obtain ⟨i, hi⟩ := List.getElem?_of_mem r1
    have hni : (s.nodes.map (nameOf s.heap))[i]? = some (nameOf s.heap id) := by rw [List.getElem?_map, hi]; rfl
    have hrk : rank σ.names (nameOf s.heap id) = i := by rw [← rank_perm I.good.perm]; exact rank_sorted I.good.sorted hni
    have hix : sl.nindex = rank σ.names (nameOf s.heap id) ∨
        ∃ new, σ.next = some new ∧ nameOf s.heap id ∈ new ∧ sl.nindex = rank new (nameOf s.heap id) := by
      rw [hrk]; exact I.nidx i id node sl hi r2 (List.mem_of_getElem? r3)
    refine ⟨nameOf s.heap id, sl.nindex, decide (s.selfId = some sl.nindex), r5, hix, by rw [I.sid]; simp, ?_, by rw [I.sid]⟩
    intro hq
    have hi' : sl.nindex = rank σ.names (nameOf s.heap id) := by
      rcases hix with h | ⟨new, h1, h2, h3⟩
      · exact h
      · rw [h3]; exact hq new h1 _ r5.1 h2
    rw [hi', I.sid, decide_eq_true_eq]
    unfold selfId
    constructor
    · intro h
      split at h
      · rename_i hown
        obtain ⟨k, hk, hke⟩ := List.mem_map.mp (I.good.perm.mem_iff.mpr hown)
        obtain ⟨m, hm⟩ := List.getElem?_of_mem hk
        have hnm : (s.nodes.map (nameOf s.heap))[m]? = some own := by rw [List.getElem?_map, hm, ← hke]; rfl
        have hrm : rank σ.names own = m := by rw [← rank_perm I.good.perm]; exact rank_sorted I.good.sorted hnm
        rw [hrk, hrm] at h
        have : m = i := Option.some.inj h
        subst this
        rw [hnm] at hni
        exact (Option.some.inj hni).symm
      · cases h
    · intro h
      rw [← h, if_pos r5.1]
  · have hv' : s.valid = false := by cases h : s.valid with | true => exact absurd h hv | false => rfl
    rw [if_neg hv]
    refine ⟨_, rfl, rfl, ?_⟩
    rw [if_pos (by rw [← I.valid, hv'])]

theorem good_length {cfg : Cfg} {h : Heap} {arr : List Nat} {names : List (List Nat)} (hg : Good cfg h arr names) :
    arr.length = names.length := by
  rw [← hg.perm.length_eq, List.length_map]

theorem write_inv {cfg : Cfg} (hc : Sized cfg) {own : List Nat} {σ : S} {s : St} (I : Inv cfg own σ s) (hl : σ.next ≠ none) :
    ∃ s', stepWrite s = some (s', .ok) ∧ Inv cfg own σ s' := by
  cases hn : σ.next with
  | none => exact absurd hn hl
  | some new =>
    obtain ⟨j, j1, j2, j3, j4, j5⟩ := I.busy new hn
    cases ht : j.todo with
    | nil => exact ⟨s, by simp only [stepWrite, j1, ht], I⟩
    | cons w rest =>
      have hlen : j.arr.length < 65536 := by rw [good_length j2]; omega
      rw [ht] at j4
      obtain ⟨h', w1, w2, w3, w4, w5⟩ := write1_spec hc j2 j4 hlen
      refine ⟨{ s with heap := h', job := some { j with todo := rest } }, by simp only [stepWrite, j1, ht, w1, Option.map_some], ?_⟩
      have hja : jobArr { s with heap := h', job := some { j with todo := rest } } = jobArr s := by
        simp only [jobArr, j1]
      obtain ⟨hw1, -⟩ := j4.ok w (List.mem_cons_self ..)
      exact
        { me := by
            obtain ⟨me, m1, m2, m3⟩ := I.me
            have := w3 0
            rw [m1] at this
            cases h0 : h' 0 with
            | none => rw [h0] at this; cases this
            | some n =>
              rw [h0] at this
              simp only [Option.map_some, Option.some.injEq, shape, Prod.mk.injEq] at this
              exact ⟨n, h0, by rw [this.1, m2], by rw [this.2, this.1, m3]⟩
          good := I.good.congr fun id _ => w3 id
          refs := by
            intro id node h1 h2
            rw [hja]
            have := w4 id
            simp only at h1
            rw [h1] at this
            cases h0 : s.heap id with
            | none => rw [h0] at this; cases this
            | some n0 =>
              rw [h0] at this
              have he : node.refcnt = n0.refcnt := Option.some.inj this
              rw [he]; exact I.refs id n0 h0 h2
          nodup := I.nodup
          off := by rw [hja]; exact I.off
          bound := by rw [hja]; exact I.bound
          sid := I.sid
          ring := by
            intro h
            obtain ⟨C, c1, c2⟩ := I.ring h
            exact ⟨C, c1, c2.congr fun id _ => w3 id⟩
          nidx := by
            intro i id node sl hi hid hsl
            have hnm : nameOf h' id = nameOf s.heap id := nameOf_congr (w3 id)
            simp only [hnm]
            rcases w5 id node sl hid hsl with ⟨n0, sl0, g1, g2, g3⟩ | ⟨g1, g2⟩
            · rw [← g3]; exact I.nidx i id n0 sl0 hi g1 g2
            · right
              rw [← g1] at hw1
              have hm : (j.arr.map (nameOf s.heap))[w.2.2]? = some (nameOf s.heap id) := by rw [List.getElem?_map, hw1]; rfl
              refine ⟨new, hn, j2.perm.mem_iff.mp (List.mem_of_getElem? hm), ?_⟩
              rw [g2, ← rank_perm j2.perm]
              exact (rank_sorted j2.sorted hm).symm
          valid := I.valid
          idle := fun h => by rw [h] at hn; cases hn
          busy := by
            intro new' hn'
            rw [hn] at hn'
            cases hn'
            exact ⟨_, rfl, j2.congr fun id _ => w3 id, j3, w2, j5⟩ }

theorem install_inv {cfg : Cfg} (hc : Sized cfg) {own : List Nat} {σ : S} {s : St} (I : Inv cfg own σ s) (hl : σ.next ≠ none) :
    ∃ s', install cfg s = some (s', .ok) ∧ Inv cfg own ⟨σ.next, true, none⟩ s' := by
  cases hn : σ.next with
  | none => exact absurd hn hl
  | some new =>
    obtain ⟨j, j1, j2, j3, j4, j5⟩ := I.busy new hn
    have hlen : j.arr.length < 65536 := by rw [good_length j2]; omega
    obtain ⟨h', w1, w2, w3, w4⟩ := writeAll_spec hc hlen j.todo s.heap j2 j4
    have hg : Good cfg h' j.arr new := j2.congr fun id _ => w3 id
    obtain ⟨s', r1, r2⟩ := replace_spec I (arr := j.arr) (by simp only [jobArr, j1]) hg w3 w4 (sort_ring hc hg w2) (by
      intro i id node sl hi hid hsl
      obtain ⟨k, hk⟩ := List.getElem?_of_mem hsl
      rcases w2.done i id node k sl hi hid hk with h | h
      · exact h
      · cases h)
    refine ⟨s', ?_, r2⟩
    rw [j1] at r1
    simp only [install, j1, w1, j3]
    unfold allSlices at r1
    rw [r1]; rfl

theorem cut_spec {strs : List (List Nat)} (h : ∀ str ∈ strs, nodeOf str = [] → ∀ c ∈ str, c = 45) :
    ((∃ str ∈ strs, nodeOf str = []) ∧ cutAll strs = none) ∨
    ((¬ ∃ str ∈ strs, nodeOf str = []) ∧ cutAll strs = some (strs.map nodeOf)) := by
  induction strs with
  | nil => right; exact ⟨by simp, rfl⟩
  | cons str rest ih =>
    have hcut : (nodeOf str = [] ∧ cut str = none) ∨ (nodeOf str ≠ [] ∧ cut str = some (nodeOf str)) := by
      by_cases hn : nodeOf str = []
      · left
        refine ⟨hn, ?_⟩
        have hd : str.dropWhile (· == 45) = [] := by
          have h45 := h str (List.mem_cons_self ..) hn
          clear h hn
          induction str with
          | nil => rfl
          | cons c cs ihc =>
            rw [List.dropWhile_cons, if_pos (by simp [h45 c (List.mem_cons_self ..)])]
            exact ihc fun c hc => h45 c (List.mem_cons_of_mem _ hc)
        simp only [cut, hd, if_true]
      · right
        refine ⟨hn, ?_⟩
        cases str with
        | nil => exact absurd rfl hn
        | cons c cs =>
          have hc : c ≠ 45 := by
            intro hc; subst hc
            exact hn (by simp [nodeOf])
          have hb : (c == 45) = false := by simpa using hc
          simp only [cut, List.dropWhile_cons, List.takeWhile_cons, hb, Bool.false_eq_true, if_false, nodeOf]
          simp
    rcases ih fun str hs => h str (List.mem_cons_of_mem _ hs) with ⟨i1, i2⟩ | ⟨i1, i2⟩
    · left
      obtain ⟨x, hx, hx'⟩ := i1
      refine ⟨⟨x, List.mem_cons_of_mem _ hx, hx'⟩, ?_⟩
      simp only [cutAll, i2]
      cases cut str <;> rfl
    · rcases hcut with ⟨c1, c2⟩ | ⟨c1, c2⟩
      · left
        exact ⟨⟨str, List.mem_cons_self .., c1⟩, by simp only [cutAll, c2]⟩
      · right
        refine ⟨?_, by simp only [cutAll, c2, i2, List.map_cons]⟩
        rintro ⟨x, hx, hx'⟩
        rcases List.mem_cons.mp hx with rfl | hx
        · exact c1 hx'
        · exact i1 ⟨x, hx, hx'⟩

/-! Counting. -/

theorem count_without (cur names : List (List Nat)) : without names cur = names.length - present cur names := by
  classical
  unfold without present
  induction names with
  | nil => rfl
  | cons x xs ih =>
    have hle : (xs.filter fun x => decide (x ∈ cur)).length ≤ xs.length := List.length_filter_le _ _
    by_cases hx : x ∈ cur
    · simp only [List.filter_cons, hx, not_true, decide_false, decide_true, if_true, Bool.false_eq_true, if_false, List.length_cons]
      omega
    · simp only [List.filter_cons, hx, not_false_eq_true, decide_false, decide_true, if_true, Bool.false_eq_true, if_false, List.length_cons]
      omega

theorem present_comm {cur names : List (List Nat)} (h1 : cur.Nodup) (h2 : names.Nodup) : present cur names = present names cur := by
  classical
  unfold present
  apply Nat.le_antisymm
  · refine List.Nodup.length_le_of_subset (h2.sublist List.filter_sublist) ?_
    intro x hx
    simp only [List.mem_filter, decide_eq_true_eq] at hx ⊢
    exact hx.symm
  · refine List.Nodup.length_le_of_subset (h1.sublist List.filter_sublist) ?_
    intro x hx
    simp only [List.mem_filter, decide_eq_true_eq] at hx ⊢
    exact hx.symm

theorem present_le (cur names : List (List Nat)) : present cur names ≤ names.length := List.length_filter_le _ _

theorem present_all {cur names : List (List Nat)} : present cur names = names.length ↔ ∀ x ∈ names, x ∈ cur := by
  unfold present
  rw [List.length_filter_eq_length_iff]
  simp

theorem same_iff {cur names : List (List Nat)} (h1 : cur.Nodup) (h2 : names.Nodup) :
    (names.length = cur.length ∧ names.length = present cur names) ↔ ∀ x, x ∈ names ↔ x ∈ cur := by
  constructor
  · rintro ⟨e1, e2⟩ x
    refine ⟨present_all.mp e2.symm x, ?_⟩
    refine present_all.mp ?_ x
    rw [present_comm h2 h1, ← e2, e1]
  · intro h
    have e2 : present cur names = names.length := present_all.mpr fun x hx => (h x).mp hx
    have e3 : present names cur = cur.length := present_all.mpr fun x hx => (h x).mpr hx
    rw [present_comm h2 h1, e2] at e3
    exact ⟨e3, e2.symm⟩

theorem needs_le (own : List Nat) (cur names : List (List Nat)) : needs own cur names ≤ names.length - present cur names := by
  classical
  rw [← count_without]
  unfold needs without
  rw [← List.countP_eq_length_filter, ← List.countP_eq_length_filter]
  refine List.countP_mono_left ?_
  intro x _ hx
  simp only [decide_eq_true_eq] at hx ⊢
  exact hx.1

/-! The start of a reconfiguration. -/

theorem grow_inv {cfg : Cfg} {own : List Nat} {σ : S} {s : St} (I : Inv cfg own σ s) (count mem : Nat) :
    Inv cfg own σ (grow s count mem).1 := by
  have hb := I.bound
  have hfree : ∀ id, id ∈ (grow s count mem).1.free ↔
      (s.fresh ≤ id ∧ id < s.fresh + min (count - (s.free.length + s.nodes.length)) mem) ∨ id ∈ s.free := by
    intro id
    simp only [grow, List.mem_append, List.mem_reverse, List.mem_range'_1]
  exact
    { me := I.me
      good := I.good
      refs := fun id node h1 h2 => I.refs id node h1 fun h => h2 ((hfree id).mpr (.inr h))
      nodup := by
        simp only [grow]
        refine List.nodup_append.mpr ⟨List.pairwise_reverse.mpr ((List.nodup_range' (step := 1)).imp Ne.symm), I.nodup, ?_⟩
        intro a ha b hb' hab
        subst hab
        simp only [List.mem_reverse, List.mem_range'_1] at ha
        have := hb.2 a (.inl hb')
        omega
      off := by
        intro id h
        rcases (hfree id).mp h with h | h
        · refine ⟨by omega, ?_, ?_⟩
          · intro h'; have := hb.2 id (.inr (.inl h')); omega
          · intro h'
            have := hb.2 id (.inr (.inr h')); omega
        · exact I.off id h
      bound := by
        have hf : s.fresh ≤ (grow s count mem).1.fresh := by simp only [grow]; omega
        refine ⟨by omega, ?_⟩
        intro id h
        rcases h with h | h | h
        · rcases (hfree id).mp h with h | h
          · simp only [grow]; exact h.2
          · have := hb.2 id (.inl h); omega
        · have := hb.2 id (.inr (.inl h)); omega
        · have := hb.2 id (.inr (.inr h)); omega
      sid := I.sid
      ring := I.ring
      nidx := I.nidx
      valid := I.valid
      idle := I.idle
      busy := I.busy }

/-- Where a reconfiguration stops: a node leaves, others come, and the free items do not suffice. -/
def Stop (own : List Nat) (s : St) : Ev → Prop
  | .start strs _ _ => (∃ id ∈ s.nodes, nameOf s.heap id ∉ strs.map nodeOf) ∧
    max s.free.length (strs.length - s.nodes.length) < needs own (s.nodes.map (nameOf s.heap)) (strs.map nodeOf)
  | _ => False

theorem start_inv {cfg : Cfg} (hc : Sized cfg) {own : List Nat} {σ : S} {s : St} (I : Inv cfg own σ s) (strs : List (List Nat))
    (mem : Nat) (ring : Bool) (hl : Legal σ (.start strs mem ring)) :
    (start cfg s strs mem ring = none ∧ Stop own s (.start strs mem ring)) ∨
    ∃ s' o σ', start cfg s strs mem ring = some (s', o) ∧ Step cfg own σ (.start strs mem ring) o σ' ∧ Inv cfg own σ' s' := by
  obtain ⟨l1, l2, l3, l4⟩ := hl
  have hjob := I.idle l1
  have hja : jobArr s = [] := by simp only [jobArr, hjob]
  have hlen := good_length I.good
  have hcn : σ.names.Nodup := I.good.perm.nodup (sorted_nodup I.good.sorted)
  by_cases h0 : strs = []
  · right
    subst h0
    obtain ⟨s', r1, r2⟩ := replace_spec I (arr := []) (new := []) (C := []) (h := s.heap) hja.symm
      ⟨fun id h => (by cases h), List.Pairwise.nil, List.Perm.nil⟩ (fun _ => rfl) (fun _ => rfl)
      ⟨fun x => by simp, List.Pairwise.nil⟩ (by intro i id node sl h; simp at h)
    refine ⟨s', .begun 0 s.nodes.length, _, ?_, ?_, r2⟩
    · have hsid : selfId [] own = none := by simp [selfId]
      rw [hsid] at r1
      have r1' : replace s [] none [] = some s' := r1
      simp only [start, hjob, List.length_nil, if_true, r1', Option.map_some]
    · simp only [Step, if_true, hlen, and_self]
  · have hne : strs.length ≠ 0 := fun h => h0 (List.length_eq_zero_iff.mp h)
    have hstart : start cfg s strs mem ring = (match cutAll strs with
      | none => some (s, .failed)
      | some names =>
        match grow s names.length mem with
        | (s1, ok) =>
          if ok = false ∨ ring = false then some ({ s1 with valid := false }, .failed)
          else
            match gather cfg s1 names with
            | none => none
            | some (s2, arr, nfound) =>
              if names.length = s.nodes.length ∧ names.length = nfound then (release s2 arr).map fun s3 => (s3, .same)
              else
                let sorted := sortBy (nodeLe s2.heap) arr
                match s2.heap 0 with
                | none => none
                | some me =>
                  match find s2.heap sorted me.name with
                  | none => none
                  | some selfId =>
                    some ({ s2 with job := some ⟨sorted, selfId, writes cfg sorted⟩ },
                      .begun (names.length - nfound) (s.nodes.length - nfound))) := by
      simp only [start, hjob, hne, if_false]
      rfl
    rw [hstart]
    rcases cut_spec fun str hs => (l4 str hs).2 with ⟨c1, c2⟩ | ⟨c1, c2⟩
    · right
      refine ⟨s, .failed, σ, by rw [c2], ?_, I⟩
      simp only [Step, h0, c1, if_false, if_true, and_self]
    · rw [c2]
      simp only
      generalize hnames : strs.map nodeOf = names at *
      have hnl : names.length = strs.length := by rw [← hnames, List.length_map]
      have J := grow_inv I names.length mem
      have hg2 : (grow s names.length mem).2 = decide (names.length - (s.free.length + s.nodes.length) ≤ mem) := rfl
      have hgn : (grow s names.length mem).1.nodes = s.nodes := rfl
      have hgh : (grow s names.length mem).1.heap = s.heap := rfl
      have hgj : (grow s names.length mem).1.job = none := hjob
      have hgf : (grow s names.length mem).2 = true →
          (grow s names.length mem).1.free.length = max s.free.length (names.length - s.nodes.length) := by
        intro h
        rw [hg2, decide_eq_true_eq] at h
        simp only [grow, List.length_append, List.length_reverse, List.length_range']
        omega
      generalize hgr : grow s names.length mem = g at *
      obtain ⟨s1, ok⟩ := g
      simp only at *
      by_cases hok : ok = false ∨ ring = false
      · right
        rw [if_pos hok]
        refine ⟨_, _, { σ with valid := false }, rfl, ?_, ?_⟩
        · simp only [Step, hnames]
          rw [if_neg h0, if_neg c1]
          left
          refine ⟨trivial, trivial, ?_⟩
          rcases hok with hok | hok
          · right
            rw [hok] at hg2
            have := of_decide_eq_false hg2.symm
            omega
          · exact .inl hok
        · exact
            { me := J.me, good := J.good, refs := J.refs, nodup := J.nodup, off := J.off, bound := J.bound, sid := J.sid
              ring := J.ring, nidx := J.nidx, valid := rfl, idle := J.idle, busy := J.busy }
      · rw [if_neg hok]
        have hok1 : ok = true := by cases ok with | true => rfl | false => exact absurd (.inl rfl) hok
        have hja1 : jobArr s1 = [] := by simp only [jobArr, hgj]
        have P : Pre cfg own σ.names s1 (fun id => (if id = 0 then 1 else 0) + s.nodes.count id) :=
          { me := J.me, good := J.good, nodup := J.nodup
            off := fun id h => ⟨(J.off id h).1, (J.off id h).2.1⟩
            refs := by
              intro id node h1 h2
              have := J.refs id node h1 h2
              rw [hja1, hgn] at this
              simpa using this }
        rcases gather_spec names s1 _ P (by
            intro x hx
            rw [← hnames] at hx
            obtain ⟨str, hs, rfl⟩ := List.mem_map.mp hx
            exact (l4 str hs).1) (by
            intro id
            have : s.nodes.count id ≤ 1 := by rw [count_nodup I.good.nodup]; split <;> omega
            split <;> omega) with ⟨g1, g2⟩ | ⟨s2, arr, used, g1, Q⟩
        · left
          rw [g1]
          refine ⟨rfl, ?_, ?_⟩
          · rw [hgf hok1] at g2
            refine Classical.byContradiction fun hno => ?_
            have hall : ∀ x ∈ σ.names, x ∈ names := by
              intro x hx
              obtain ⟨id, hid, rfl⟩ := List.mem_map.mp (I.good.perm.mem_iff.mpr hx)
              refine Classical.byContradiction fun hno' => hno ⟨id, hid, ?_⟩
              rw [hnames]; exact hno'
            have := present_all.mpr hall
            rw [present_comm l3 hcn] at this
            have := needs_le own σ.names names
            omega
          · rw [hgf hok1, hnl] at g2
            have : needs own (s.nodes.map (nameOf s.heap)) names = needs own σ.names names := by
              unfold needs
              simp only [I.good.perm.mem_iff]
            rw [hnames, this]; exact g2
        · right
          rw [g1]
          simp only
          -- what the new array looks like
          have harrnd : arr.Nodup :=
            (List.pairwise_map.mp (by rw [Q.names]; exact l3 : (arr.map (nameOf s2.heap)).Nodup)).imp fun h e => h (by rw [e])
          have hs2n : s2.nodes = s.nodes := by rw [Q.same]; exact hgn
          have hs2j : s2.job = none := by rw [Q.same]; exact hgj
          have hs2f : s2.fresh = s1.fresh := by rw [Q.same]
          have husedfree : ∀ id ∈ used, id ∈ s1.free := fun id h => by rw [Q.free]; exact List.mem_append.mpr (.inl h)
          have hfreefree : ∀ id ∈ s2.free, id ∈ s1.free := fun id h => by rw [Q.free]; exact List.mem_append.mpr (.inr h)
          have hnode_unused : ∀ id ∈ s.nodes, id ∉ used := by
            intro id h1 h2
            exact (J.off id (husedfree id h2)).2.1 (by rw [hgn]; exact h1)
          have hnode_free : ∀ id ∈ s2.free, id ≠ 0 ∧ id ∉ s.nodes := by
            intro id h
            have := J.off id (hfreefree id h)
            exact ⟨this.1, by rw [← hgn]; exact this.2.1⟩
          have hnd2 : s2.free.Nodup := by
            have := J.nodup
            rw [Q.free] at this
            exact (List.nodup_append.mp this).2.1
          have husedoff : ∀ id ∈ used, id ∉ s2.free := by
            have := J.nodup
            rw [Q.free] at this
            intro id h1 h2
            exact (List.nodup_append.mp this).2.2 id h1 id h2 rfl
          have harroff : ∀ id ∈ s2.free, id ∉ arr := by
            intro id h1 h2
            rcases Q.from_ id h2 with h | h | h
            · exact (hnode_free id h1).2 (by rw [← hgn]; exact h)
            · exact (hnode_free id h1).1 h
            · exact husedoff id h h1
          have hbody : ∀ id ∈ s.nodes, (s2.heap id).map body = (s.heap id).map body := by
            intro id h
            rw [Q.body id (hnode_unused id h), hgh]
          have h0used : 0 ∉ used := fun h => (J.off 0 (husedfree 0 h)).1 rfl
          have hgood2 : Good cfg s2.heap s.nodes σ.names := I.good.congr fun id h => shape_of_body (hbody id h)
          have hme2 : ∃ node, s2.heap 0 = some node ∧ node.name = own ∧ node.slices.map Slice.hpoint = cfg.points node.name := by
            obtain ⟨me, m1, m2, m3⟩ := I.me
            have := Q.body 0 h0used
            rw [hgh, m1] at this
            cases hh : s2.heap 0 with
            | none => rw [hh] at this; cases this
            | some n =>
              rw [hh] at this
              simp only [Option.map_some, Option.some.injEq, body, Prod.mk.injEq] at this
              exact ⟨n, rfl, by rw [this.1, m2], by rw [this.2, this.1, m3]⟩
          have hrefs2 : ∀ id node, s2.heap id = some node → id ∉ s2.free →
              node.refcnt = (if id = 0 then 1 else 0) + s.nodes.count id + (if id ∈ arr then 1 else 0) := by
            intro id node h1 h2
            have := Q.refs id node h1 h2
            rw [count_nodup harrnd] at this
            rw [this]
            by_cases hu : id ∈ used
            · have hz : id ≠ 0 := (J.off id (husedfree id hu)).1
              have hnn : id ∉ s.nodes := fun h => hnode_unused id h hu
              simp only [hu, if_true, hz, if_false, List.count_eq_zero.mpr hnn]
            · simp only [hu, if_false]
          have hring2 : σ.cur ≠ none → ∃ C, s.cont = some C ∧ Ring cfg s2.heap s.nodes C := by
            intro h
            obtain ⟨C, k1, k2⟩ := I.ring h
            exact ⟨C, k1, k2.congr fun id h => shape_of_body (hbody id h)⟩
          have hs2c : s2.cont = s.cont := by rw [Q.same]; rw [show s1 = (grow s names.length mem).1 by rw [hgr]]; rfl
          have hs2s : s2.selfId = s.selfId := by rw [Q.same]; rw [show s1 = (grow s names.length mem).1 by rw [hgr]]; rfl
          have hs2v : s2.valid = s.valid := by rw [Q.same]; rw [show s1 = (grow s names.length mem).1 by rw [hgr]]; rfl
          have hnidx2 : ∀ (i id : Nat) (node : Node) (sl : Slice), s.nodes[i]? = some id → s2.heap id = some node → sl ∈ node.slices →
              sl.nindex = i := by
            intro i id node sl hi hid hsl
            have := hbody id (List.mem_of_getElem? hi)
            rw [hid] at this
            cases hh : s.heap id with
            | none => rw [hh] at this; cases this
            | some n0 =>
              rw [hh] at this
              simp only [Option.map_some, Option.some.injEq, body, Prod.mk.injEq] at this
              rcases I.nidx i id n0 sl hi hh (by rw [← this.2]; exact hsl) with h | ⟨new, h, -⟩
              · exact h
              · rw [l1] at h; cases h
          have hbound2 : ∀ id, id ∈ s2.free ∨ id ∈ s.nodes ∨ id ∈ arr → id < s2.fresh := by
            intro id h
            rw [hs2f]
            have hn : ∀ id ∈ s.nodes, id < s1.fresh := fun id h => J.bound.2 id (.inr (.inl (by rw [hgn]; exact h)))
            rcases h with h | h | h
            · exact J.bound.2 id (.inl (hfreefree id h))
            · exact hn id h
            · rcases Q.from_ id h with h | h | h
              · exact hn id (by rw [← hgn]; exact h)
              · rw [h]; exact J.bound.1
              · exact J.bound.2 id (.inl (husedfree id h))
          have hcond : (names.length = s.nodes.length ∧ names.length = present σ.names names) ↔ ∀ x, x ∈ names ↔ x ∈ σ.names := by
            rw [hlen]; exact same_iff hcn l3
          by_cases hsame : names.length = s.nodes.length ∧ names.length = present σ.names names
          · rw [if_pos hsame]
            have hiff := hcond.mp hsame
            have harrn : ∀ id ∈ arr, id ∈ s.nodes := by
              intro id h
              have := Q.olds id h ((hiff _).mp (by rw [← Q.names]; exact List.mem_map.mpr ⟨id, h, rfl⟩))
              rwa [hgn] at this
            have hlive : ∀ id ∈ arr, ∃ node, s2.heap id = some node ∧ 1 < node.refcnt := by
              intro id h
              obtain ⟨node, n1, -⟩ := Q.live id h
              refine ⟨node, n1, ?_⟩
              rw [hrefs2 id node n1 (fun hf => harroff id hf h), count_nodup I.good.nodup, if_pos (harrn id h), if_pos h]
              omega
            obtain ⟨s3, r1, r2, r3, r4, r5, r6⟩ := release_spec arr s2 harrnd (by
              intro id h
              obtain ⟨node, n1, n2⟩ := hlive id h
              exact ⟨node, n1, by omega⟩)
            have hf3 : ∀ id, id ∈ s3.free ↔ id ∈ s2.free := by
              intro id
              rw [r5]
              constructor
              · rintro (h | ⟨h, node, n1, n2⟩)
                · exact h
                · obtain ⟨node', n1', n2'⟩ := hlive id h
                  rw [n1] at n1'; cases n1'; omega
              · exact .inl
            have e1 : s3.nodes = s.nodes := by rw [r2]; exact hs2n
            have e2 : s3.job = none := by rw [r2]; exact hs2j
            have e3 : jobArr s3 = [] := by simp only [jobArr, e2]
            have e4 : s3.fresh = s2.fresh := by rw [r2]
            have hsh : ∀ id, (s3.heap id).map shape = (s2.heap id).map shape := fun id => shape_of_body (r3 id)
            refine ⟨s3, .same, σ, by rw [r1]; rfl, ?_, ?_⟩
            · simp only [Step, hnames]
              rw [if_neg h0, if_neg c1]
              exact .inr (.inl ⟨trivial, trivial, hiff⟩)
            · exact
                { me := by
                    obtain ⟨me, m1, m2, m3⟩ := hme2
                    have := r3 0
                    rw [m1] at this
                    cases hh : s3.heap 0 with
                    | none => rw [hh] at this; cases this
                    | some n =>
                      rw [hh] at this
                      simp only [Option.map_some, Option.some.injEq, body, Prod.mk.injEq] at this
                      exact ⟨n, rfl, by rw [this.1, m2], by rw [this.2, this.1, m3]⟩
                  good := by rw [e1]; exact hgood2.congr fun id _ => hsh id
                  refs := by
                    intro id node h1 h2
                    obtain ⟨n0, k1, k2⟩ := r4 id node h1
                    have := hrefs2 id n0 k1 fun h => h2 ((hf3 id).mpr h)
                    rw [e1, e3]
                    simp only [List.count_nil, Nat.add_zero]
                    omega
                  nodup := r6 hnd2 fun id h h' => harroff id h' h
                  off := by
                    intro id h
                    rw [e1, e3]
                    have := hnode_free id ((hf3 id).mp h)
                    exact ⟨this.1, this.2, by simp⟩
                  bound := by
                    rw [e1, e3, e4]
                    refine ⟨by rw [hs2f]; exact J.bound.1, ?_⟩
                    intro id h
                    rcases h with h | h | h
                    · exact hbound2 id (.inl ((hf3 id).mp h))
                    · exact hbound2 id (.inr (.inl h))
                    · cases h
                  sid := by rw [r2]; simp only [hs2s]; exact I.sid
                  ring := by
                    intro h
                    obtain ⟨C, k1, k2⟩ := hring2 h
                    rw [e1]
                    exact ⟨C, by rw [r2]; simp only [hs2c]; exact k1, k2.congr fun id _ => hsh id⟩
                  nidx := by
                    intro i id node sl hi hid hsl
                    left
                    rw [e1] at hi
                    have := r3 id
                    rw [hid] at this
                    cases hh : s2.heap id with
                    | none => rw [hh] at this; cases this
                    | some n0 =>
                      rw [hh] at this
                      simp only [Option.map_some, Option.some.injEq, body, Prod.mk.injEq] at this
                      exact hnidx2 i id n0 sl hi hh (by rw [← this.2]; exact hsl)
                  valid := by rw [r2]; simp only [hs2v]; exact I.valid
                  idle := fun _ => e2
                  busy := fun new h => by rw [l1] at h; cases h }
          · rw [if_neg hsame]
            obtain ⟨me, m1, m2, m3⟩ := hme2
            have hperm := sortBy_perm (nodeLe s2.heap) arr
            have hgood3 : Good cfg s2.heap (sortBy (nodeLe s2.heap) arr) names :=
              { live := fun id h => Q.live id (hperm.mem_iff.mp h)
                sorted := by
                  rw [List.pairwise_map]
                  have hle : (sortBy (nodeLe s2.heap) arr).Pairwise fun x y => ¬ Smaller (nameOf s2.heap y) (nameOf s2.heap x) := by
                    apply sortBy_sorted
                    · intro x hx y hy h
                      obtain ⟨a, a1, -⟩ := Q.live x hx
                      obtain ⟨b, b1, -⟩ := Q.live y hy
                      simp only [nodeLe, a1, b1, bne_iff_ne, ne_eq] at h
                      simp only [nameOf, a1, b1]
                      exact fun hs => h (strcmp_gt.mpr hs)
                    · intro x hx y hy h
                      obtain ⟨a, a1, -⟩ := Q.live x hx
                      obtain ⟨b, b1, -⟩ := Q.live y hy
                      simp only [nodeLe, a1, b1, bne_eq_false_iff_eq] at h
                      simp only [nameOf, a1, b1]
                      exact smaller_asymm (strcmp_gt.mp h)
                    · intro x _ y _ z _ h1 h2
                      exact not_smaller_trans h1 h2
                  have hnd3 : (sortBy (nodeLe s2.heap) arr).Pairwise fun x y => nameOf s2.heap x ≠ nameOf s2.heap y := by
                    rw [← List.pairwise_map (f := nameOf s2.heap) (R := (· ≠ ·))]
                    exact ((hperm.map (nameOf s2.heap)).nodup_iff).mpr (by rw [Q.names]; exact l3)
                  exact (List.Pairwise.and hle hnd3).imp fun ⟨h1, h2⟩ => smaller_of_not h1 (Ne.symm h2)
                perm := by
                  rw [← Q.names]
                  exact hperm.map _ }
            have hself := find_self hgood3 own
            rw [m1]
            simp only [m2, hself]
            refine ⟨_, _, { σ with next := some names }, rfl, ?_, ?_⟩
            · simp only [Step, hnames]
              rw [if_neg h0, if_neg c1]
              right; right
              refine ⟨?_, trivial, fun h => hsame (hcond.mpr h)⟩
              rw [count_without, count_without, present_comm l3 hcn, hlen]
            · exact
                { me := ⟨me, m1, m2, m3⟩
                  good := by simp only [hs2n]; exact hgood2
                  refs := by
                    intro id node h1 h2
                    simp only [jobArr, hs2n, hperm.count_eq, count_nodup harrnd]
                    exact hrefs2 id node h1 h2
                  nodup := hnd2
                  off := by
                    intro id h
                    simp only [jobArr, hs2n]
                    have := hnode_free id h
                    exact ⟨this.1, this.2, fun h' => harroff id h (hperm.mem_iff.mp h')⟩
                  bound := by
                    refine ⟨by simp only [hs2f]; exact J.bound.1, ?_⟩
                    intro id h
                    simp only [jobArr, hs2n, hperm.mem_iff] at h
                    exact hbound2 id h
                  sid := by simp only [hs2s]; exact I.sid
                  ring := by simp only [hs2c, hs2n]; exact hring2
                  nidx := by
                    intro i id node sl hi hid hsl
                    simp only [hs2n] at hi
                    exact .inl (hnidx2 i id node sl hi hid hsl)
                  valid := by simp only [hs2v]; exact I.valid
                  idle := fun h => by cases h
                  busy := by
                    intro new h
                    cases h
                    exact ⟨_, rfl, hgood3, rfl, writes_todo hc hgood3, by omega⟩ }

theorem step_inv {cfg : Cfg} (hc : Sized cfg) {own : List Nat} (σ : S) (s : St) (ev : Ev) (I : Inv cfg own σ s) (hl : Legal σ ev) :
    (step cfg s ev = none ∧ Stop own s ev) ∨
    ∃ s' o σ', step cfg s ev = some (s', o) ∧ Step cfg own σ ev o σ' ∧ Inv cfg own σ' s' := by
  cases ev with
  | start strs mem ring => exact start_inv hc I strs mem ring hl
  | write =>
    obtain ⟨s', h1, h2⟩ := write_inv hc I hl
    exact .inr ⟨s', _, σ, h1, ⟨rfl, rfl⟩, h2⟩
  | install =>
    obtain ⟨s', h1, h2⟩ := install_inv hc I hl
    exact .inr ⟨s', _, _, h1, ⟨rfl, rfl⟩, h2⟩
  | lookup key =>
    obtain ⟨o, h1, h2⟩ := lookup_inv hc I key hl
    exact .inr ⟨s, o, σ, h1, h2, I⟩

end Verif.Cluster
