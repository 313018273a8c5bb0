import Verif.Lemmas.ClusterRing
/-!
# Lemmas on building and releasing arrays of nodes
-/
namespace Verif.Cluster
open Verif.Cluster.Spec Verif.BT

/-- What never changes in a node item in use. -/
def shape (node : Node) : List Nat × List Nat := (node.name, node.slices.map Slice.hpoint)

/-- What only `do_continuum_build` changes. -/
def body (node : Node) : List Nat × List Slice := (node.name, node.slices)

theorem shape_of_body {h h' : Heap} {id : Nat} (e : (h' id).map body = (h id).map body) : (h' id).map shape = (h id).map shape := by
  have : shape = (fun p : List Nat × List Slice => (p.1, p.2.map Slice.hpoint)) ∘ body := rfl
  rw [this, ← Option.map_map, ← Option.map_map, e]

theorem nameOf_congr {h h' : Heap} {id : Nat} (e : (h' id).map shape = (h id).map shape) : nameOf h' id = nameOf h id := by
  unfold nameOf
  cases h1 : h id with
  | none =>
    rw [h1] at e
    cases h2 : h' id with
    | none => rfl
    | some n2 => rw [h2] at e; cases e
  | some n1 =>
    rw [h1] at e
    cases h2 : h' id with
    | none => rw [h2] at e; cases e
    | some n2 =>
      rw [h2] at e
      simp only [Option.map_some, Option.some.injEq, shape, Prod.mk.injEq] at e
      exact e.1

theorem hp_congr {h h' : Heap} {x : Nat × Nat} (e : (h' x.1).map shape = (h x.1).map shape) : hp h' x = hp h x := by
  unfold hp slice
  cases h1 : h x.1 with
  | none =>
    rw [h1] at e
    cases h2 : h' x.1 with
    | none => rfl
    | some n2 => rw [h2] at e; cases e
  | some n1 =>
    rw [h1] at e
    cases h2 : h' x.1 with
    | none => rw [h2] at e; cases e
    | some n2 =>
      rw [h2] at e
      simp only [Option.map_some, Option.some.injEq, shape, Prod.mk.injEq] at e
      have e2 : (n2.slices[x.2]?).map Slice.hpoint = (n1.slices[x.2]?).map Slice.hpoint := by
        rw [← List.getElem?_map, ← List.getElem?_map, e.2]
      simp only
      cases s1 : n1.slices[x.2]? with
      | none => rw [s1] at e2; cases s2 : n2.slices[x.2]? with
        | none => rfl
        | some _ => rw [s2] at e2; cases e2
      | some a => rw [s1] at e2; cases s2 : n2.slices[x.2]? with
        | none => rw [s2] at e2; cases e2
        | some b => rw [s2] at e2; exact Option.some.inj e2

theorem live_congr {cfg : Cfg} {h h' : Heap} {id : Nat} (e : (h' id).map shape = (h id).map shape)
    (hl : ∃ node, h id = some node ∧ node.slices.map Slice.hpoint = cfg.points node.name) :
    ∃ node, h' id = some node ∧ node.slices.map Slice.hpoint = cfg.points node.name := by
  obtain ⟨node, h1, h2⟩ := hl
  rw [h1] at e
  cases h3 : h' id with
  | none => rw [h3] at e; cases e
  | some n2 =>
    rw [h3] at e
    simp only [Option.map_some, Option.some.injEq, shape, Prod.mk.injEq] at e
    exact ⟨n2, rfl, by rw [e.2, e.1]; exact h2⟩

theorem names_congr {h h' : Heap} {arr : List Nat} (e : ∀ id ∈ arr, (h' id).map shape = (h id).map shape) :
    arr.map (nameOf h') = arr.map (nameOf h) := List.map_congr_left fun id hid => nameOf_congr (e id hid)

theorem Good.congr {cfg : Cfg} {h h' : Heap} {arr : List Nat} {names : List (List Nat)}
    (e : ∀ id ∈ arr, (h' id).map shape = (h id).map shape) (hg : Good cfg h arr names) : Good cfg h' arr names where
  live := fun id hid => live_congr (e id hid) (hg.live id hid)
  sorted := by rw [names_congr e]; exact hg.sorted
  perm := by rw [names_congr e]; exact hg.perm

theorem Ring.congr {cfg : Cfg} {h h' : Heap} {arr : List Nat} {C : List (Nat × Nat)}
    (e : ∀ id ∈ arr, (h' id).map shape = (h id).map shape) (hr : Ring cfg h arr C) : Ring cfg h' arr C where
  mem := hr.mem
  sorted := by
    refine hr.sorted.imp_of_mem fun {x y} hx hy hxy => ?_
    have ex := e x.1 ((hr.mem x).mp hx).1
    have ey := e y.1 ((hr.mem y).mp hy).1
    unfold RingLe
    rw [hp_congr ex, hp_congr ey, nameOf_congr ex, nameOf_congr ey]
    exact hxy

theorem Good.nodup {cfg : Cfg} {h : Heap} {arr : List Nat} {names : List (List Nat)} (hg : Good cfg h arr names) : arr.Nodup :=
  (List.pairwise_map.mp (sorted_nodup hg.sorted)).imp fun h e => h (by rw [e])

theorem Good.alive {cfg : Cfg} {h : Heap} {arr : List Nat} {names : List (List Nat)} (hg : Good cfg h arr names) :
    ∀ id ∈ arr, h id ≠ none := by
  intro id hid
  obtain ⟨node, h1, -⟩ := hg.live id hid
  rw [h1]; exact fun h => by cases h

theorem put_same {h : Heap} {id : Nat} {node : Node} : put h id node id = some node := by simp [put]
theorem put_other {h : Heap} {id k : Nat} {node : Node} (hk : k ≠ id) : put h id node k = h k := by simp [put, hk]

/-! Releasing. -/

theorem release_spec : ∀ (arr : List Nat) (s : St), arr.Nodup → (∀ id ∈ arr, ∃ node, s.heap id = some node ∧ 0 < node.refcnt) →
    ∃ s', release s arr = some s' ∧ s' = { s with heap := s'.heap, free := s'.free } ∧
      (∀ id, (s'.heap id).map body = (s.heap id).map body) ∧
      (∀ id node, s'.heap id = some node → ∃ node0, s.heap id = some node0 ∧ node.refcnt + (if id ∈ arr then 1 else 0) = node0.refcnt) ∧
      (∀ id, id ∈ s'.free ↔ id ∈ s.free ∨ (id ∈ arr ∧ ∃ node, s.heap id = some node ∧ node.refcnt = 1)) ∧
      (s.free.Nodup → (∀ id ∈ arr, id ∉ s.free) → s'.free.Nodup)
  | [], s, _, _ => ⟨s, rfl, rfl, fun _ => rfl, fun id node h => ⟨node, h, by simp⟩, fun id => by simp, fun h _ => h⟩
  | id :: rest, s, hnd, hl => by
    obtain ⟨hni, hnd'⟩ := List.nodup_cons.mp hnd
    obtain ⟨node, h1, h2⟩ := hl id (List.mem_cons_self ..)
    have hne : node.refcnt ≠ 0 := by omega
    simp only [release, h1, hne, if_false]
    generalize hs1 : ({ s with
      heap := put s.heap id { node with refcnt := node.refcnt - 1 }
      free := if node.refcnt = 1 then id :: s.free else s.free } : St) = s1
    have e1 : s1.heap = put s.heap id { node with refcnt := node.refcnt - 1 } := by subst hs1; rfl
    have e2 : s1.free = if node.refcnt = 1 then id :: s.free else s.free := by subst hs1; rfl
    obtain ⟨s', r1, r2, r3, r4, r5, r6⟩ := release_spec rest s1 hnd' (by
      intro k hk
      have hki : k ≠ id := fun h => hni (h ▸ hk)
      rw [e1, put_other hki]
      exact hl k (List.mem_cons_of_mem _ hk))
    refine ⟨s', r1, ?_, ?_, ?_, ?_, ?_⟩
    · rw [r2]; subst hs1; rfl
    · intro k
      rw [r3 k, e1]
      by_cases hk : k = id
      · subst hk; rw [put_same, h1]; rfl
      · rw [put_other hk]
    · intro k nk hk
      obtain ⟨n0, g1, g2⟩ := r4 k nk hk
      rw [e1] at g1
      by_cases hki : k = id
      · subst hki
        rw [put_same] at g1
        cases g1
        refine ⟨node, h1, ?_⟩
        simp only [hni, if_false, Nat.add_zero, List.mem_cons_self, if_true] at g2 ⊢
        omega
      · rw [put_other hki] at g1
        refine ⟨n0, g1, ?_⟩
        simp only [List.mem_cons, hki, false_or]
        exact g2
    · intro k
      rw [r5 k, e1, e2]
      by_cases hki : k = id
      · subst hki
        simp only [hni, false_and, or_false, List.mem_cons, true_and, h1]
        by_cases hr : node.refcnt = 1
        · simp [hr]
        · simp [hr]
      · rw [put_other hki]
        simp only [List.mem_cons, hki, false_or]
        by_cases hr : node.refcnt = 1
        · simp [hr, hki]
        · simp [hr]
    · intro hn hd
      have hid : id ∉ s.free := hd id (List.mem_cons_self ..)
      refine r6 ?_ ?_
      · rw [e2]; split
        · exact List.nodup_cons.mpr ⟨hid, hn⟩
        · exact hn
      · intro k hk
        have hki : k ≠ id := fun h => hni (h ▸ hk)
        have := hd k (List.mem_cons_of_mem _ hk)
        rw [e2]; split
        · simp only [List.mem_cons, hki, false_or]; exact this
        · exact this

/-! Building. -/

/-- What the loop over the new names starts from; `rc` are the reference counts. -/
structure Pre (cfg : Cfg) (own : List Nat) (cur : List (List Nat)) (s : St) (rc : Nat → Nat) : Prop where
  me : ∃ node, s.heap 0 = some node ∧ node.name = own ∧ node.slices.map Slice.hpoint = cfg.points node.name
  good : Good cfg s.heap s.nodes cur
  nodup : s.free.Nodup
  off : ∀ id ∈ s.free, id ≠ 0 ∧ id ∉ s.nodes
  refs : ∀ id node, s.heap id = some node → id ∉ s.free → node.refcnt = rc id

theorem pick_spec {cfg : Cfg} {self : List Nat} {cur : List (List Nat)} {s : St} {rc : Nat → Nat} (P : Pre cfg self cur s rc)
    (name : List Nat) :
    (name ∈ cur ∧ ∃ id, pick cfg s name = some (s, id, true) ∧ id ∈ s.nodes ∧ nameOf s.heap id = name) ∨
    (name ∉ cur ∧ name = self ∧ pick cfg s name = some (s, 0, false)) ∨
    (name ∉ cur ∧ name ≠ self ∧ ((s.free = [] ∧ pick cfg s name = none) ∨ ∃ id rest, s.free = id :: rest ∧
      pick cfg s name = some ({ s with heap := put s.heap id (mkNode cfg name), free := rest }, id, false))) := by
  have hfind : (∃ j id, (if s.nodes.length = 0 then some none else find s.heap s.nodes name) = some (some j) ∧ s.nodes[j]? = some id ∧
      nameOf s.heap id = name) ∨
      ((if s.nodes.length = 0 then some none else find s.heap s.nodes name) = some none ∧ name ∉ s.nodes.map (nameOf s.heap)) := by
    by_cases h0 : s.nodes.length = 0
    · right
      rw [if_pos h0, List.length_eq_zero_iff.mp h0]
      exact ⟨rfl, by simp⟩
    · rw [if_neg h0]
      exact find_spec name P.good.alive P.good.sorted
  unfold pick
  rcases hfind with ⟨j, id, f1, f2, f3⟩ | ⟨f1, f2⟩
  · left
    have hid := List.mem_of_getElem? f2
    refine ⟨P.good.perm.mem_iff.mp (List.mem_map.mpr ⟨id, hid, f3⟩), id, ?_, hid, f3⟩
    simp only [f1, f2, Option.map_some]
  · right
    have hnc : name ∉ cur := fun h => f2 (P.good.perm.mem_iff.mpr h)
    obtain ⟨me, m1, m2, -⟩ := P.me
    simp only [f1, m1]
    by_cases hs : strcmp name me.name = .eq
    · left
      refine ⟨hnc, (strcmp_eq.mp hs).trans m2, by rw [if_pos hs]⟩
    · right
      refine ⟨hnc, fun h => hs (strcmp_eq.mpr (h.trans m2.symm)), ?_⟩
      rw [if_neg hs]
      cases hf : s.free with
      | nil => exact .inl ⟨rfl, rfl⟩
      | cons id rest => exact .inr ⟨id, rest, rfl, rfl⟩

open Classical in
/-- How many of the names are present. -/
noncomputable def present (cur names : List (List Nat)) : Nat := (names.filter fun x => decide (x ∈ cur)).length

/-- What the loop over the new names leads to. -/
structure Post (cfg : Cfg) (cur names : List (List Nat)) (s : St) (rc : Nat → Nat) (s2 : St) (arr : List Nat) (used : List Nat) : Prop where
  same : s2 = { s with heap := s2.heap, free := s2.free }
  free : s.free = used ++ s2.free
  names : arr.map (nameOf s2.heap) = names
  live : ∀ id ∈ arr, ∃ node, s2.heap id = some node ∧ node.slices.map Slice.hpoint = cfg.points node.name
  body : ∀ id, id ∉ used → (s2.heap id).map body = (s.heap id).map body
  refs : ∀ id node, s2.heap id = some node → id ∉ s2.free → node.refcnt = (if id ∈ used then 0 else rc id) + arr.count id
  from_ : ∀ id ∈ arr, id ∈ s.nodes ∨ id = 0 ∨ id ∈ used
  olds : ∀ id ∈ arr, nameOf s2.heap id ∈ cur → id ∈ s.nodes
  sub : ∀ id ∈ used, id ∈ arr

theorem hold_spec {h : Heap} {id : Nat} {node : Node} (h1 : h id = some node) (h2 : node.refcnt + 1 < 65536) :
    hold h id = some (put h id { node with refcnt := node.refcnt + 1 }) := by
  simp only [hold, h1, h2, if_true]

theorem gather_spec {cfg : Cfg} {self : List Nat} {cur : List (List Nat)} : ∀ (names : List (List Nat)) (s : St) (rc : Nat → Nat),
    Pre cfg self cur s rc → (∀ x ∈ names, x.length ≤ 127) → (∀ id, rc id + names.length < 65536) →
    (gather cfg s names = none ∧ s.free.length < needs self cur names) ∨
    ∃ s2 arr used, gather cfg s names = some (s2, arr, present cur names) ∧ Post cfg cur names s rc s2 arr used
  | [], s, rc, P, _, _ => by
    right
    refine ⟨s, [], [], rfl, rfl, rfl, rfl, ?_, fun _ _ => rfl, ?_, ?_, ?_, fun _ h => h⟩
    · intro id h; cases h
    · intro id node h1 h2; simpa using P.refs id node h1 h2
    · intro id h; cases h
    · intro id h; cases h
  | name :: rest, s, rc, P, hlen, hrc => by
    classical
    have hlen' : ∀ x ∈ rest, x.length ≤ 127 := fun x hx => hlen x (List.mem_cons_of_mem _ hx)
    -- the common part: an item in use is taken once more
    have common : ∀ id old, pick cfg s name = some (s, id, old) → (id ∈ s.nodes ∨ id = 0) → nameOf s.heap id = name →
        (old = true ↔ name ∈ cur) → (name ∉ cur → name = self) → (name ∈ cur → id ∈ s.nodes) →
        (gather cfg s (name :: rest) = none ∧ s.free.length < needs self cur (name :: rest)) ∨
        ∃ s2 arr used, gather cfg s (name :: rest) = some (s2, arr, present cur (name :: rest)) ∧
          Post cfg cur (name :: rest) s rc s2 arr used := by
      intro id old hp hin hname hold' hself hcur
      have hnf : id ∉ s.free := by
        intro hf
        obtain ⟨f1, f2⟩ := P.off id hf
        rcases hin with h | h
        · exact f2 h
        · exact f1 h
      have hlive : ∃ node, s.heap id = some node ∧ node.slices.map Slice.hpoint = cfg.points node.name := by
        rcases hin with h | h
        · exact P.good.live id h
        · subst h
          obtain ⟨me, m1, -, m3⟩ := P.me
          exact ⟨me, m1, m3⟩
      obtain ⟨node, n1, n2⟩ := hlive
      have hr := P.refs id node n1 hnf
      have hb := hrc id
      simp only [List.length_cons] at hb
      have hh := hold_spec n1 (show node.refcnt + 1 < 65536 by omega)
      have hbody : ∀ k, ((put s.heap id { node with refcnt := node.refcnt + 1 }) k).map body = (s.heap k).map body := by
        intro k
        by_cases hk : k = id
        · subst hk; rw [put_same, n1]; rfl
        · rw [put_other hk]
      have P' : Pre cfg self cur { s with heap := put s.heap id { node with refcnt := node.refcnt + 1 } }
          (fun k => if k = id then rc id + 1 else rc k) :=
        { me := by
            obtain ⟨me, m1, m2, m3⟩ := P.me
            by_cases h0 : 0 = id
            · refine ⟨{ node with refcnt := node.refcnt + 1 }, by simp only [← h0, put_same], ?_, n2⟩
              rw [← h0, m1] at n1; cases n1; exact m2
            · exact ⟨me, by simp only [put_other h0, m1], m2, m3⟩
          good := P.good.congr fun k _ => shape_of_body (hbody k)
          nodup := P.nodup
          off := P.off
          refs := by
            intro k nk hk hkf
            simp only at hk hkf
            by_cases hki : k = id
            · subst hki
              rw [put_same] at hk
              cases hk
              simp only [if_true]; omega
            · rw [put_other hki] at hk
              simp only [hki, if_false]
              exact P.refs k nk hk hkf }
      rcases gather_spec rest _ _ P' hlen' (by
          intro k
          have := hrc k
          simp only [List.length_cons] at this
          by_cases hk : k = id
          · subst hk; simp only [if_true]; omega
          · simp only [hk, if_false]; omega) with ⟨g1, g2⟩ | ⟨s2, arr, used, g1, g2⟩
      · left
        refine ⟨by simp only [gather, hp, hh, g1], ?_⟩
        simp only at g2
        refine Nat.lt_of_lt_of_le g2 ?_
        unfold needs
        rw [List.filter_cons]
        split
        · simp
        · exact Nat.le_refl _
      · right
        have husedf : ∀ k ∈ used, k ∈ s.free := by
          intro k hk
          have := g2.free
          simp only at this
          rw [this]; exact List.mem_append.mpr (.inl hk)
        have hidu : id ∉ used := fun h => hnf (husedf id h)
        have hname2 : nameOf s2.heap id = name := by
          rw [nameOf_congr (shape_of_body (g2.body id hidu)), nameOf_congr (shape_of_body (hbody id)), hname]
        refine ⟨s2, id :: arr, used, ?_, ?_⟩
        · simp only [gather, hp, hh, g1]
          unfold present
          rw [List.filter_cons]
          by_cases hc : name ∈ cur
          · simp [hc, hold'.mpr hc]
          · have : old = false := by simpa using fun h => hc (hold'.mp h)
            simp [hc, this]
        · exact
            { same := by rw [g2.same]
              free := g2.free
              names := by rw [List.map_cons, hname2, g2.names]
              live := by
                intro k hk
                rcases List.mem_cons.mp hk with rfl | hk
                · exact live_congr (shape_of_body ((g2.body k hidu).trans (hbody k))) ⟨node, n1, n2⟩
                · exact g2.live k hk
              body := fun k hk => (g2.body k hk).trans (hbody k)
              refs := by
                intro k nk hk hkf
                rw [g2.refs k nk hk hkf, List.count_cons]
                by_cases hki : k = id
                · subst hki
                  simp only [hidu, if_false, if_true, beq_self_eq_true]; omega
                · have hik : (id == k) = false := by simpa using fun h => hki h.symm
                  simp only [hki, if_false, hik, Bool.false_eq_true, Nat.add_zero]
              from_ := by
                intro k hk
                rcases List.mem_cons.mp hk with rfl | hk
                · rcases hin with h | h
                  · exact .inl h
                  · exact .inr (.inl h)
                · exact g2.from_ k hk
              olds := by
                intro k hk hkc
                rcases List.mem_cons.mp hk with rfl | hk
                · exact hcur (by rw [← hname2]; exact hkc)
                · exact g2.olds k hk hkc
              sub := fun k hk => List.mem_cons_of_mem _ (g2.sub k hk) }
    rcases pick_spec P name with ⟨p1, id, p2, p3, p4⟩ | ⟨p1, p2, p3⟩ | ⟨p1, p2, ⟨p3, p4⟩ | ⟨id, free', p3, p4⟩⟩
    · exact common id true p2 (.inl p3) p4 (by simp [p1]) (fun h => absurd p1 h) (fun _ => p3)
    · refine common 0 false p3 (.inr rfl) ?_ (by simp [p1]) (fun _ => p2) (fun h => absurd h p1)
      obtain ⟨me, m1, m2, -⟩ := P.me
      simp only [nameOf, m1, m2, p2]
    · left
      refine ⟨by simp only [gather, p4], ?_⟩
      unfold needs
      rw [List.filter_cons_of_pos (by simp [p1, p2]), p3]
      simp
    · have hidf : id ∈ s.free := by rw [p3]; exact List.mem_cons_self ..
      obtain ⟨o1, o2⟩ := P.off id hidf
      have hnd := P.nodup
      rw [p3] at hnd
      obtain ⟨hni, hnd'⟩ := List.nodup_cons.mp hnd
      have hln := hlen name (List.mem_cons_self ..)
      have htake : name.take 127 = name := List.take_of_length_le hln
      have hb := hrc id
      simp only [List.length_cons] at hb
      generalize hh1 : put s.heap id (mkNode cfg name) = h1 at p4
      have n1 : h1 id = some (mkNode cfg name) := by rw [← hh1, put_same]
      have hh := hold_spec n1 (show (mkNode cfg name).refcnt + 1 < 65536 by simp [mkNode])
      generalize hh2 : put h1 id { mkNode cfg name with refcnt := (mkNode cfg name).refcnt + 1 } = h2 at hh
      have hother : ∀ k, k ≠ id → h2 k = s.heap k := by
        intro k hk; rw [← hh2, put_other hk, ← hh1, put_other hk]
      have hself : h2 id = some { mkNode cfg name with refcnt := 1 } := by rw [← hh2, put_same]; rfl
      have hpts : (mkNode cfg name).slices.map Slice.hpoint = cfg.points (mkNode cfg name).name := by
        simp only [mkNode, List.map_map]
        exact List.map_id _
      have P' : Pre cfg self cur { s with heap := h2, free := free' } (fun k => if k = id then 1 else rc k) :=
        { me := by
            obtain ⟨me, m1, m2, m3⟩ := P.me
            exact ⟨me, by simp only [hother 0 (Ne.symm o1), m1], m2, m3⟩
          good := P.good.congr fun k hk => by
            have hki : k ≠ id := fun h => o2 (h ▸ hk)
            simp only [hother k hki]
          nodup := hnd'
          off := fun k hk => P.off k (by rw [p3]; exact List.mem_cons_of_mem _ hk)
          refs := by
            intro k nk hk hkf
            simp only at hk hkf
            by_cases hki : k = id
            · subst hki
              rw [hself] at hk
              cases hk
              simp
            · rw [hother k hki] at hk
              simp only [hki, if_false]
              refine P.refs k nk hk ?_
              rw [p3]
              simp only [List.mem_cons, hki, false_or]
              exact hkf }
      rcases gather_spec rest _ _ P' hlen' (by
          intro k
          have := hrc k
          simp only [List.length_cons] at this
          by_cases hk : k = id
          · subst hk; simp only [if_true]; omega
          · simp only [hk, if_false]; omega) with ⟨g1, g2⟩ | ⟨s2, arr, used, g1, g2⟩
      · left
        refine ⟨by simp only [gather, p4, hh, g1], ?_⟩
        simp only at g2
        unfold needs at g2 ⊢
        rw [List.filter_cons_of_pos (by simp [p1, p2]), p3]
        simp only [List.length_cons]
        omega
      · right
        have hfr : free' = used ++ s2.free := g2.free
        have hidu : id ∉ used := fun h => hni (by rw [hfr]; exact List.mem_append.mpr (.inl h))
        have hbid : (s2.heap id).map body = (h2 id).map body := g2.body id hidu
        have hname2 : nameOf s2.heap id = name := by
          rw [nameOf_congr (shape_of_body hbid)]
          simp only [nameOf, hself, mkNode, htake]
        refine ⟨s2, id :: arr, id :: used, ?_, ?_⟩
        · simp only [gather, p4, hh, g1]
          unfold present
          rw [List.filter_cons]
          simp [p1]
        · exact
            { same := by rw [g2.same]
              free := by rw [p3, hfr]; rfl
              names := by rw [List.map_cons, hname2, g2.names]
              live := by
                intro k hk
                rcases List.mem_cons.mp hk with rfl | hk
                · exact live_congr (shape_of_body hbid) ⟨_, hself, hpts⟩
                · exact g2.live k hk
              body := by
                intro k hk
                simp only [List.mem_cons, not_or] at hk
                exact (g2.body k hk.2).trans (by simp only [hother k hk.1])
              refs := by
                intro k nk hk hkf
                rw [g2.refs k nk hk hkf, List.count_cons]
                by_cases hki : k = id
                · subst hki
                  simp only [hidu, if_false, if_true, beq_self_eq_true, List.mem_cons_self]; omega
                · have hik : (id == k) = false := by simpa using fun h => hki h.symm
                  simp only [hki, if_false, hik, Bool.false_eq_true, Nat.add_zero, List.mem_cons, false_or]
              from_ := by
                intro k hk
                rcases List.mem_cons.mp hk with rfl | hk
                · exact .inr (.inr (List.mem_cons_self ..))
                · rcases g2.from_ k hk with h | h | h
                  · exact .inl h
                  · exact .inr (.inl h)
                  · exact .inr (.inr (List.mem_cons_of_mem _ h))
              olds := by
                intro k hk hkc
                rcases List.mem_cons.mp hk with rfl | hk
                · rw [hname2] at hkc; exact absurd hkc p1
                · exact g2.olds k hk hkc
              sub := by
                intro k hk
                rcases List.mem_cons.mp hk with rfl | hk
                · exact List.mem_cons_self ..
                · exact List.mem_cons_of_mem _ (g2.sub k hk) }

end Verif.Cluster
