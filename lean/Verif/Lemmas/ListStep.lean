import Verif.Lemmas.ListSim
/-! # Every list call simulates the specification -/
namespace Verif.Lst
open Verif.Lst.Spec

theorem adjust_spec (n : Nat) (f t : Int) :
    adjustRange n f t = (range n f t).map (fun p => ((p.1 : Int), (p.2 : Int))) := by
  unfold adjustRange range norm
  by_cases hn : n = 0
  · subst hn; simp
  · rw [if_neg (by omega)]
    simp only
    generalize (if f < 0 then f + (n : Int) else f) = f'
    generalize (if t < 0 then t + (n : Int) else t) = t'
    by_cases h0 : n = 0 ∨ (f' < 0 ∧ t' < 0) ∨ ((n : Int) ≤ f' ∧ (n : Int) ≤ t')
    · rw [if_pos h0]
      by_cases h1 : f' < 0
      · rw [if_pos h1, if_pos (by omega)]; rfl
      · rw [if_neg h1, if_pos (by omega), if_pos (by omega)]; rfl
    · rw [if_neg h0]
      simp only [Option.map_some]
      by_cases h3 : f' < 0
      · rw [if_pos h3, if_neg (by omega)]
        simp only [Option.some.injEq, Prod.mk.injEq]
        refine ⟨by omega, ?_⟩
        split
        · omega
        · split <;> omega
      · rw [if_neg h3]
        by_cases h4 : f' ≥ n
        · rw [if_pos h4, if_neg (by omega)]
          simp only [Option.some.injEq, Prod.mk.injEq]
          refine ⟨by omega, ?_⟩
          split
          · omega
          · split <;> omega
        · rw [if_neg h4]
          simp only [Option.some.injEq, Prod.mk.injEq]
          refine ⟨by omega, ?_⟩
          split
          · omega
          · split <;> omega

theorem range_lt {n : Nat} {f t : Int} {a b : Nat} (h : range n f t = some (a, b)) : a < n ∧ b < n := by
  unfold range at h
  simp only at h
  split at h
  · simp at h
  · rename_i hx
    simp only [Option.some.injEq, Prod.mk.injEq] at h
    omega

/-- Removing a stretch of the list. -/
theorem cut_spec {mx : Nat} {pend : Nat → Option Val} {s : St} {h : Nat → Nat} {info : Info} {ids : List Nat} {l : L}
    (r : LR mx s.heap info ids l) (m : Mem pend s h ids) {a k : Nat} (hk : 1 ≤ k) (hak : a + k ≤ l.elems.length) :
    ∃ s' info' ids', elemDelete s info a k = some (s', info', k) ∧
      LR mx s'.heap info' ids' { l with elems := l.elems.take a ++ l.elems.drop (a + k) } ∧
      Mem pend s' h ids' ∧ s'.nextId = s.nextId ∧ s'.list = s.list ∧ VK s.heap s'.heap := by
  have hlen := r.len
  have hids : ids = ids.take a ++ ids.drop a := (List.take_append_drop _ _).symm
  have hd := r.dl
  rw [hids] at hd
  have hbl : (ids.drop a).length = ids.length - a := by simp
  obtain ⟨s', info', k1, k2, k3, k4, k5, k6⟩ := elemDelete_spec hd (by
      intro h; have := congrArg List.length h; simp at this; omega) k
  have hal : (ids.take a).length = a := by simp; omega
  have ht : takeCnt k (ids.drop a).length = k := by unfold takeCnt; rw [if_neg (by omega), hbl]; omega
  rw [ht, hal] at k1
  rw [ht, List.drop_drop] at k2
  rw [ht, ← hids] at k6
  have hnd := r.dl.nodup
  have hsplit : ids = ids.take a ++ ((ids.drop a).take k ++ ids.drop (a + k)) := by
    rw [← List.drop_drop, List.take_append_drop, List.take_append_drop]
  have hmem : ∀ j, j ∈ ids.take a ++ ids.drop (a + k) ↔ j ∈ ids ∧ j ∉ (ids.drop a).take k := by
    intro j
    have hnd' := hnd
    rw [hsplit, List.nodup_append, List.nodup_append] at hnd'
    obtain ⟨-, ⟨-, -, n2⟩, n1⟩ := hnd'
    constructor
    · intro hj
      rcases List.mem_append.mp hj with hj | hj
      · exact ⟨List.mem_of_mem_take hj, fun h2 => n1 j hj j (by simp [h2]) rfl⟩
      · exact ⟨List.mem_of_mem_drop hj, fun h2 => n2 j h2 j hj rfl⟩
    · rintro ⟨h1, h2⟩
      rw [hsplit] at h1
      simp only [List.mem_append] at h1 ⊢
      rcases h1 with h | h | h
      · exact Or.inl h
      · exact absurd h h2
      · exact Or.inr h
  refine ⟨s', info', _, k1, ?_, m.removed k6 k3 (fun j hj => List.mem_of_mem_drop (List.mem_of_mem_take hj)) hmem, k3, k4, k6.vk⟩
  refine r.next k2 k5 ?_ (by have := r.le; simp; omega)
  rw [removed_vals k6 (fun j hj => ((hmem j).mp hj).2)]
  have hv := r.vals
  simp only [List.map_append, List.map_take, List.map_drop, hv]

theorem read_vals {del : Bool} {h h' : Heap} {ids D : List Nat} (hr : Read del h h' ids D) (j : Nat) :
    (h' j).map Elem.value = (h j).map Elem.value := by
  by_cases hj : j ∈ D
  · obtain ⟨e, e', w1, w2, w3, -⟩ := hr.read j hj
    simp only [core, Prod.mk.injEq] at w3
    rw [w1, w2]; simp [w3.2]
  · exact map_eq_of_core (hr.keep j hj)

/-- Reading (and removing) the positions `a..b`. -/
theorem read_spec {mx : Nat} {pend : Nat → Option Val} {s : St} {h : Nat → Nat} {info : Info} {ids : List Nat} {l : L} (del : Bool)
    (r : LR mx s.heap info ids l) (m : Mem pend s h ids) (hh : ∀ i, h i < 65535) {a b : Nat}
    (ha : a < l.elems.length) (hb : b < l.elems.length) :
    ∃ s' info' ids' out, elemGet s info a (if a ≤ b then b - a + 1 else a - b + 1) (decide (a ≤ b)) del = some (s', info', out) ∧
      out.map (fun i => (s'.heap i).map Elem.value) = (slice l.elems a b).map some ∧
      LR mx s'.heap info' ids' { l with elems := if del then without l.elems a b else l.elems } ∧
      Mem pend s' (fun i => h i + out.count i) ids' ∧ s'.nextId = s.nextId ∧ s'.list = s.list ∧ out ≠ [] ∧
      info'.flags = info.flags ∧ VK s.heap s'.heap := by
  have hlen := r.len
  have hrc : ∀ j ∈ ids, ∀ e, s.heap j = some e → e.refcount + 1 < 2 ^ 16 := by
    intro j _ e he
    have := (m.alloc j e he).2
    have := hh j; omega
  have hnd := r.dl.nodup
  have hids : ids = ids.take a ++ ids.drop a := (List.take_append_drop _ _).symm
  have hd := r.dl
  rw [hids] at hd
  have hne : ids.drop a ≠ [] := by intro h; have := congrArg List.length h; simp at this; omega
  have hal : (ids.take a).length = a := by simp; omega
  have hfind := elemFind_spec hd (fun h => absurd h hne)
  rw [hal] at hfind
  unfold elemGet
  rw [hfind]
  simp only
  by_cases hab : a ≤ b
  · rw [if_pos hab]
    have hdec : decide (a ≤ b) = true := by simpa using hab
    rw [hdec]
    obtain ⟨s', info', k1, k2, k3, k4, k5, k6⟩ := getLoop_forward (b - a + 1) del (ids.drop a) (info.ccnt.toNat + 1) s info (ids.take a) []
      hd (by rw [r.dl.ccnt]; simp; omega) (by simp) (by simp; omega)
      (fun j hj => hrc j (List.mem_of_mem_drop hj))
    simp only [List.length_nil, Nat.sub_zero, List.reverse_nil, List.nil_append, List.drop_drop] at k1 k2 k6
    rw [← hids] at k6
    have hbk : a + (b - a + 1) = b + 1 := by omega
    rw [hbk] at k2
    have hsplit : ids = ids.take a ++ ((ids.drop a).take (b - a + 1) ++ ids.drop (b + 1)) := by
      rw [← hbk, ← List.drop_drop, List.take_append_drop, List.take_append_drop]
    have hmem : ∀ j, j ∈ (if del then ids.take a ++ ids.drop (b + 1) else ids) ↔
        j ∈ ids ∧ (del = true → j ∉ (ids.drop a).take (b - a + 1)) := by
      intro j
      cases del with
      | false => simp
      | true =>
        have hnd' := hnd
        rw [hsplit, List.nodup_append, List.nodup_append] at hnd'
        obtain ⟨-, ⟨-, -, n2⟩, n1⟩ := hnd'
        simp only [if_true, true_implies]
        constructor
        · intro hj
          rcases List.mem_append.mp hj with hj | hj
          · exact ⟨List.mem_of_mem_take hj, fun h2 => n1 j hj j (by simp [h2]) rfl⟩
          · exact ⟨List.mem_of_mem_drop hj, fun h2 => n2 j h2 j hj rfl⟩
        · rintro ⟨h1, h2⟩
          rw [hsplit] at h1
          simp only [List.mem_append] at h1 ⊢
          rcases h1 with h | h | h
          · exact Or.inl h
          · exact absurd h h2
          · exact Or.inr h
    have k2' : DL s'.heap info' (if del then ids.take a ++ ids.drop (b + 1) else ids) := by
      cases del with
      | true => exact k2
      | false => simp only [Bool.false_eq_true, if_false] at k2 ⊢; rw [hids]; exact k2
    refine ⟨s', info', _, _, k1, ?_, ?_, m.read k6 k3 (fun j hj => List.mem_of_mem_drop (List.mem_of_mem_take hj))
      ((hnd.sublist (List.drop_sublist _ _)).sublist (List.take_sublist _ _)) hmem, k3, k4, ?_, by rw [k5], fun j _ => read_vals k6 j⟩
    · simp only [read_vals k6]
      have hv := r.vals
      have : b + 1 - a = b - a + 1 := by omega
      simp only [slice, if_pos hab, List.map_take, List.map_drop, hv, this]
    · refine r.next k2' k5 ?_ ?_
      · simp only [read_vals k6]
        have hv := r.vals
        cases del with
        | false => simpa using hv
        | true =>
          have e1 : min a b = a := by omega
          have e2 : max a b = b := by omega
          simp only [if_true, without, e1, e2, List.map_append, List.map_take, List.map_drop, hv]
      · have := r.le
        cases del with
        | false => simpa using this
        | true => simp [without]; omega
    · intro h; have := congrArg List.length h; simp at this; omega
  · rw [if_neg hab]
    have hdec : decide (a ≤ b) = false := by simpa using hab
    rw [hdec]
    have hsp : ids = ids.take (a + 1) ++ ids.drop (a + 1) := (List.take_append_drop _ _).symm
    obtain ⟨x, t, hxt⟩ := List.exists_cons_of_ne_nil hne
    have htk : ids.take (a + 1) = ids.take a ++ [x] := by
      have h1 : a < ids.length := by omega
      have h2 : ids[a] = x := by
        have h3 : (ids.drop a)[0]? = some x := by rw [hxt]; rfl
        rw [List.getElem?_drop, Nat.add_zero, List.getElem?_eq_getElem h1] at h3
        exact Option.some.inj h3
      rw [List.take_succ_eq_append_getElem h1, h2]
    have hfirst : first (ids.drop a) .null = last .null (ids.take (a + 1)).reverse.reverse := by
      rw [List.reverse_reverse, htk, last_snoc, hxt]; rfl
    rw [hfirst]
    have hd2 : DL s.heap info ((ids.take (a + 1)).reverse.reverse ++ ids.drop (a + 1)) := by
      rw [List.reverse_reverse, ← hsp]; exact r.dl
    obtain ⟨s', info', k1, k2, k3, k4, k5, k6⟩ := getLoop_backward (a - b + 1) del (ids.take (a + 1)).reverse (info.ccnt.toNat + 1)
      s info (ids.drop (a + 1)) [] hd2 (by rw [r.dl.ccnt]; simp; omega) (by simp) (by simp; omega)
      (fun j hj => hrc j (List.mem_of_mem_take (List.mem_reverse.mp hj)))
    simp only [List.length_nil, Nat.sub_zero, List.reverse_nil, List.nil_append, List.reverse_reverse] at k1 k2 k6
    rw [← hsp] at k6
    have hD : (ids.take (a + 1)).reverse.take (a - b + 1) = ((ids.drop b).take (a - b + 1)).reverse := by
      rw [List.take_reverse, List.drop_take]
      have e1 : (List.take (a + 1) ids).length - (a - b + 1) = b := by simp; omega
      rw [e1]
      have e2 : a + 1 - b = a - b + 1 := by omega
      rw [e2]
    have hR : ((ids.take (a + 1)).reverse.drop (a - b + 1)).reverse = ids.take b := by
      rw [List.drop_reverse, List.reverse_reverse, List.take_take]
      congr 1; simp; omega
    rw [hR] at k2
    rw [hD] at k1 k6
    have hbk : b + (a - b + 1) = a + 1 := by omega
    have hsplit : ids = ids.take b ++ ((ids.drop b).take (a - b + 1) ++ ids.drop (a + 1)) := by
      rw [← hbk, ← List.drop_drop, List.take_append_drop, List.take_append_drop]
    have hmem : ∀ j, j ∈ (if del then ids.take b ++ ids.drop (a + 1) else ids) ↔
        j ∈ ids ∧ (del = true → j ∉ ((ids.drop b).take (a - b + 1)).reverse) := by
      intro j
      cases del with
      | false => simp
      | true =>
        have hnd' := hnd
        rw [hsplit, List.nodup_append, List.nodup_append] at hnd'
        obtain ⟨-, ⟨-, -, n2⟩, n1⟩ := hnd'
        simp only [if_true, true_implies, List.mem_reverse]
        constructor
        · intro hj
          rcases List.mem_append.mp hj with hj | hj
          · exact ⟨List.mem_of_mem_take hj, fun h2 => n1 j hj j (by simp [h2]) rfl⟩
          · exact ⟨List.mem_of_mem_drop hj, fun h2 => n2 j h2 j hj rfl⟩
        · rintro ⟨h1, h2⟩
          rw [hsplit] at h1
          simp only [List.mem_append] at h1 ⊢
          rcases h1 with h | h | h
          · exact Or.inl h
          · exact absurd h h2
          · exact Or.inr h
    have k2' : DL s'.heap info' (if del then ids.take b ++ ids.drop (a + 1) else ids) := by
      cases del with
      | true => exact k2
      | false => simp only [Bool.false_eq_true, if_false] at k2 ⊢; rw [hsp]; exact k2
    rw [List.reverse_reverse]
    refine ⟨s', info', _, _, k1, ?_, ?_, m.read k6 k3
      (fun j hj => List.mem_of_mem_drop (List.mem_of_mem_take (List.mem_reverse.mp hj)))
      (List.nodup_iff_pairwise_ne.mpr (by
        rw [List.pairwise_reverse]
        exact (List.nodup_iff_pairwise_ne.mp ((hnd.sublist (List.drop_sublist _ _)).sublist (List.take_sublist _ _))).imp (fun h => h.symm))) hmem, k3, k4, ?_, by rw [k5], fun j _ => read_vals k6 j⟩
    · simp only [read_vals k6]
      have hv := r.vals
      have : a + 1 - b = a - b + 1 := by omega
      simp only [slice, if_neg hab, List.map_reverse, List.map_take, List.map_drop, hv, this]
    · refine r.next k2' k5 ?_ ?_
      · simp only [read_vals k6]
        have hv := r.vals
        cases del with
        | false => simpa using hv
        | true =>
          have e1 : min a b = b := by omega
          have e2 : max a b = a := by omega
          simp only [if_true, without, e1, e2, List.map_append, List.map_take, List.map_drop, hv]
      · have := r.le
        cases del with
        | false => simpa using this
        | true => simp [without]; omega
    · intro h; have := congrArg List.length h; simp at this; omega

theorem newInfo_LR {mx : Nat} (hmx : 4000 ≤ mx) (a : Attr) (h : Heap) : LR mx h (newInfo mx a) [] (fresh mx a) := by
  refine ⟨⟨rfl, rfl, rfl, trivial, List.nodup_nil⟩, rfl, ?_, ?_, rfl, rfl, rfl, rfl, Nat.zero_le _⟩
  · unfold newInfo realMaxcount fresh wantCap
    simp only
    by_cases h1 : a.maxcount < 0
    · simp [h1]
    · by_cases h2 : a.maxcount = 0
      · simp [h2]
      · simp only [h1, h2, if_false]; split <;> omega
  · intro m hm
    simp only [fresh, wantCap] at hm
    split at hm
    · simp at hm
    · split at hm
      · simp at hm; omega
      · simp at hm; omega

theorem seg_next {h : Heap} {p n : Ptr} {ids : List Nat} (hs : Seg h p ids n) (hn : n ≠ .unlinked) {i : Nat} (hi : i ∈ ids) {e : Elem}
    (he : h i = some e) : e.next ≠ .unlinked := by
  induction ids generalizing p with
  | nil => simp at hi
  | cons x t ih =>
    obtain ⟨⟨e0, q1, q2, q3⟩, q4⟩ := hs
    by_cases hx : i = x
    · subst hx
      rw [he] at q1; injection q1 with q1; subst q1
      rw [q3]; cases t <;> simp [first, hn]
    · exact ih q4 (by simpa [hx] using hi)

/-- Value of an element, as a client reads it. -/
def valOf (s : St) (i : Nat) : Option Val := (s.heap i).map Elem.value

/-- Statement proved for every call. -/
def Sim (mx : Nat) (σ : S) (s : St) (h : Nat → Nat) (op : Op) : Prop :=
  ∃ s' r σ', step mx s op = some (s', r) ∧ Step mx σ op r (valOf s') σ' ∧ R mx σ' s' (heldStep h op r) ∧
    ∀ i, 0 < h i → 0 < heldStep h op r i → valOf s' i = valOf s i

theorem LR.heap {mx : Nat} {h h' : Heap} {info : Info} {ids : List Nat} {l : L} (r : LR mx h info ids l)
    (hf : ∀ i ∈ ids, h' i = h i) : LR mx h' info ids l := by
  refine ⟨⟨r.dl.head, r.dl.tail, r.dl.ccnt, seg_frame hf r.dl.seg, r.dl.nodup⟩, ?_, r.mcnt, r.mpos, r.ovfl, r.readable, r.sticky, r.flags, r.le⟩
  rw [← r.vals]
  exact List.map_congr_left (fun i hi => by rw [hf i hi])

theorem without_nil_len {l : List Val} {a b : Nat} (hb : b < l.length) (ha : a < l.length) :
    (without l a b).length = l.length - (max a b + 1 - min a b) := by
  simp [without]; omega

theorem Mem.val {pend : Nat → Option Val} {s s' : St} {h : Nat → Nat} {ids : List Nat} (m : Mem pend s' h ids) (hv : VK s.heap s'.heap)
    (i : Nat) (hi : 0 < h i) : valOf s' i = valOf s i := by
  obtain ⟨e, he⟩ := m.heldOk i hi
  exact hv i (by rw [he]; rfl)

theorem Mem.list {pend : Nat → Option Val} {s : St} {h : Nat → Nat} {ids : List Nat} (m : Mem pend s h ids) (x : Option Info) :
    Mem pend { s with list := x } h ids := ⟨m.alloc, m.free, m.linked, m.pendOk, m.heldOk⟩

theorem R.ofNone {mx : Nat} {σ : S} {s : St} {h : Nat → Nat} (r : R mx σ s h) (h1 : s.list = none) : σ.list = none ∧ Mem σ.pend s h [] := by
  obtain ⟨ids, m, ⟨-, h2, rfl⟩ | ⟨info, l, h3, -⟩⟩ := r
  · exact ⟨h2, m⟩
  · rw [h1] at h3; cases h3

theorem R.ofSome {mx : Nat} {σ : S} {s : St} {h : Nat → Nat} {info : Info} (r : R mx σ s h) (h1 : s.list = some info) :
    ∃ l ids, σ.list = some l ∧ Mem σ.pend s h ids ∧ LR mx s.heap info ids l := by
  obtain ⟨ids, m, ⟨h2, -⟩ | ⟨info', l, h3, h4, h5⟩⟩ := r
  · rw [h1] at h2; cases h2
  · rw [h1] at h3; injection h3 with h3; subst h3; exact ⟨l, ids, h4, m, h5⟩

theorem sim_same {mx : Nat} {σ : S} {s : St} {h : Nat → Nat} {op : Op} {r : Rep} (hR : R mx σ s h)
    (h1 : step mx s op = some (s, r)) (h2 : Step mx σ op r (valOf s) σ) (h3 : heldStep h op r = h) : Sim mx σ s h op :=
  ⟨s, r, σ, h1, h2, by rw [h3]; exact hR, fun _ _ _ => rfl⟩

theorem shrinkR {mx : Nat} {σ : S} {s' : St} {h : Nat → Nat} {info' : Info} {ids' : List Nat} {l : L} {es : List Val} {drop : Bool}
    (r : LR mx s'.heap info' ids' { l with elems := es }) (m : Mem σ.pend s' h ids') :
    R mx { σ with list := shrink l es drop } { s' with list := if info'.ccnt = 0 ∧ drop = true then none else some info' } h := by
  have hc0 : info'.ccnt = 0 ↔ es = [] := by
    rw [r.ccnt, ← List.length_eq_zero_iff]; simp only; omega
  refine ⟨ids', m.list _, ?_⟩
  unfold shrink
  simp only [hc0]
  by_cases hd : es = [] ∧ drop = true
  · simp only [if_pos hd]
    have := r.len
    simp only [hd.1, List.length_nil] at this
    exact Or.inl ⟨rfl, rfl, List.length_eq_zero_iff.mp this⟩
  · simp only [if_neg hd]; exact Or.inr ⟨_, _, rfl, rfl, r⟩

theorem sim_create {mx : Nat} (hmx : 4000 ≤ mx) {σ : S} {s : St} {h : Nat → Nat} (hR : R mx σ s h) (a : Attr) (mem : Bool) :
    Sim mx σ s h (.create a mem) := by
  cases h1 : s.list with
  | some info =>
    obtain ⟨l, ids, h2, m, hl⟩ := hR.ofSome h1
    exact sim_same hR (r := .eexists) (by simp [step, listCreate, h1]) (by simp [Step, h2]) rfl
  | none =>
    obtain ⟨h2, m⟩ := hR.ofNone h1
    cases mem with
    | false => exact sim_same hR (r := .enomem) (by simp [step, listCreate, h1]) (by simp [Step, h2]) rfl
    | true =>
      exact ⟨{ s with list := some (newInfo mx a) }, .ok, { σ with list := some (fresh mx a) }, by simp [step, listCreate, h1],
        by simp [Step, h2], ⟨[], m.list _, Or.inr ⟨_, _, rfl, rfl, newInfo_LR hmx a _⟩⟩, fun _ _ _ => rfl⟩

theorem RL.heap {mx : Nat} {l : Option L} {x : Option Info} {h h' : Heap} {ids : List Nat} (hl : RL mx h ids x l)
    (hf : ∀ i ∈ ids, h' i = h i) : RL mx h' ids x l := by
  rcases hl with q | ⟨info, l', q1, q2, q3⟩
  · exact Or.inl q
  · exact Or.inr ⟨info, l', q1, q2, q3.heap hf⟩

theorem sim_alloc {mx : Nat} {σ : S} {s : St} {h : Nat → Nat} (hR : R mx σ s h) (v : Val) : Sim mx σ s h (.alloc v) := by
  obtain ⟨ids, m, hl⟩ := hR
  have hnone : s.heap s.nextId = none := by
    cases hx : s.heap s.nextId with
    | none => rfl
    | some e => have := (m.alloc _ e hx).1; omega
  have hnid : s.nextId ∉ ids := fun hi => by obtain ⟨⟨e, q⟩, -⟩ := m.linked _ hi; rw [hnone] at q; cases q
  have hpn : σ.pend s.nextId = none := by
    cases hx : σ.pend s.nextId with
    | none => rfl
    | some v => obtain ⟨e, q, -⟩ := m.pendOk _ v hx; rw [hnone] at q; cases q
  have hh0 : h s.nextId = 0 := by
    rcases Nat.eq_zero_or_pos (h s.nextId) with q | q
    · exact q
    · obtain ⟨e, q⟩ := m.heldOk _ q; rw [hnone] at q; cases q
  refine ⟨(elemAlloc s v).1, .allocated s.nextId, { σ with pend := upd σ.pend s.nextId (some v) }, rfl, ⟨_, hpn, rfl, rfl⟩, ⟨ids, ?_, ?_⟩, ?_⟩
  · refine ⟨?_, ?_, ?_, ?_, ?_⟩
    · intro i e he
      simp only [elemAlloc] at he ⊢
      by_cases hi : i = s.nextId
      · subst hi; rw [upd_self] at he; injection he with he; subst he; exact ⟨by omega, by simp [heldStep, hh0]⟩
      · rw [upd_ne _ _ hi] at he; have := m.alloc i e he; exact ⟨by omega, this.2⟩
    · intro i e he hni
      simp only [elemAlloc] at he ⊢
      by_cases hi : i = s.nextId
      · subst hi; rw [upd_self] at he; injection he with he; subst he
        exact ⟨rfl, rfl, Or.inl ⟨upd_self _ _ _, hh0⟩⟩
      · rw [upd_ne _ _ hi] at he ⊢; exact m.free i e he hni
    · intro i hi
      have : i ≠ s.nextId := by rintro rfl; exact hnid hi
      simp only [elemAlloc]; rw [upd_ne _ _ this, upd_ne _ _ this]; exact m.linked i hi
    · intro i w hw
      simp only [elemAlloc] at hw ⊢
      by_cases hi : i = s.nextId
      · subst hi; rw [upd_self] at hw ⊢; injection hw with hw; subst hw; exact ⟨_, rfl, rfl⟩
      · rw [upd_ne _ _ hi] at hw ⊢; exact m.pendOk i w hw
    · intro i hi
      have : i ≠ s.nextId := by rintro rfl; simp [heldStep, hh0] at hi
      simp only [elemAlloc]; rw [upd_ne _ _ this]; exact m.heldOk i hi
  · refine RL.heap hl (fun i hi => ?_)
    exact upd_ne _ _ (fun e => hnid (e ▸ hi))
  · intro i hi _
    have : i ≠ s.nextId := by rintro rfl; omega
    simp only [valOf, elemAlloc]; rw [upd_ne _ _ this]

theorem Mem.drop {pend pend' : Nat → Option Val} {s : St} {h h' : Nat → Nat} {ids : List Nat} {i : Nat} (m : Mem pend s h ids) (hni : i ∉ ids)
    (hp : pend' i = none) (hp' : ∀ j, j ≠ i → pend' j = pend j) (h0 : h' i = 0) (hh : ∀ j, j ≠ i → h' j = h j) :
    Mem pend' { s with heap := upd s.heap i none } h' ids := by
  refine ⟨?_, ?_, ?_, ?_, ?_⟩
  · intro j e' he
    by_cases hj : j = i
    · subst hj; simp at he
    · simp only [upd_ne _ _ hj] at he; rw [hh j hj]; exact m.alloc j e' he
  · intro j e' he hnj
    by_cases hj : j = i
    · subst hj; simp at he
    · simp only [upd_ne _ _ hj] at he; rw [hh j hj, hp' j hj]; exact m.free j e' he hnj
  · intro j hj
    have : j ≠ i := by rintro rfl; exact hni hj
    simp only [upd_ne _ _ this]; rw [hp' j this]; exact m.linked j hj
  · intro j w hw
    by_cases hj : j = i
    · subst hj; rw [hp] at hw; cases hw
    · rw [hp' j hj] at hw; simp only [upd_ne _ _ hj]; exact m.pendOk j w hw
  · intro j hj
    have : j ≠ i := by rintro rfl; omega
    rw [hh j this] at hj
    simp only [upd_ne _ _ this]; exact m.heldOk j hj

theorem sim_free {mx : Nat} {σ : S} {s : St} {h : Nat → Nat} (hR : R mx σ s h) {i : Nat} (hL : (σ.pend i).isSome) :
    Sim mx σ s h (.free i) := by
  obtain ⟨ids, m, hl⟩ := hR
  obtain ⟨v, hv⟩ := Option.isSome_iff_exists.mp hL
  obtain ⟨hni, h0, e, e1, e2, e3, e4⟩ := m.pend_notin hv
  refine ⟨{ s with heap := upd s.heap i none }, .ok, { σ with pend := upd σ.pend i none }, ?_, ⟨rfl, rfl⟩, ⟨ids, ?_, ?_⟩, ?_⟩
  · simp [step, listElemFree, e1, e4, elemFree, e3]
  · exact m.drop hni (upd_self _ _ _) (fun j hj => upd_ne _ _ hj) h0 (fun _ _ => rfl)
  · refine RL.heap hl (fun j hj => ?_)
    exact upd_ne _ _ (fun e => hni (e ▸ hj))
  · intro j hj _
    have : j ≠ i := by rintro rfl; omega
    simp only [valOf]; rw [upd_ne _ _ this]

theorem sim_insert {mx : Nat} (hmx : 4000 ≤ mx) {σ : S} {s : St} {h : Nat → Nat} (hR : R mx σ s h) {index : Int} {i : Nat} (a : Option Attr) (mem full : Bool)
    (hp : (σ.pend i).isSome) (hix : -(2 ^ 31) < index) : Sim mx σ s h (.insert index i a mem full) := by
  obtain ⟨v, hv⟩ := Option.isSome_iff_exists.mp hp
  cases h1 : s.list with
  | none =>
    obtain ⟨h2, m⟩ := hR.ofNone h1
    cases a with
    | none => exact sim_same hR (r := .enoent) (by simp [step, listElemInsert, h1]) (by simp [Step, h2]) rfl
    | some a =>
      cases mem with
      | false => exact sim_same hR (r := .enomem) (by simp [step, listElemInsert, h1]) (by simp [Step, h2]) rfl
      | true =>
        obtain ⟨s', info', rep, k1, k2⟩ := insert_sim hmx (newInfo_LR hmx a s.heap) m hv hix (full := full)
        rcases k2 with ⟨rfl, l', ids', q1, q2, q3, q4, q5, q6⟩ | ⟨q0, rfl, rfl, q1⟩
        · refine ⟨{ s' with list := some info' }, .inserted true, ⟨some l', upd σ.pend i none⟩, by simp [step, listElemInsert, h1, k1], ?_, ⟨ids', q3.list _, Or.inr ⟨_, _, rfl, rfl, q2⟩⟩, ?_⟩
          · simp only [Step, h2, Bool.true_eq_false, if_false]
            exact ⟨v, l', none, hv, q1, by simp⟩
          · intro j hj _; exact q3.val q6 j hj
        · refine sim_same hR (r := rep) ?_ ?_ (by cases rep <;> rfl)
          · simp only [step, listElemInsert, h1, k1, Bool.not_true, Bool.false_eq_true, if_false]
            try (cases rep <;> first | rfl | exact absurd rfl q0)
          · simp only [Step, h2, Bool.true_eq_false, if_false]
            exact ⟨v, _, some rep, hv, q1, by simp⟩
  | some info =>
    obtain ⟨l, ids, h2, m, hl⟩ := hR.ofSome h1
    obtain ⟨s', info', rep, k1, k2⟩ := insert_sim hmx hl m hv hix (full := full)
    rcases k2 with ⟨rfl, l', ids', q1, q2, q3, q4, q5, q6⟩ | ⟨q0, rfl, rfl, q1⟩
    · refine ⟨{ s' with list := some info' }, .inserted false, ⟨some l', upd σ.pend i none⟩, by simp [step, listElemInsert, h1, k1], ?_, ⟨ids', q3.list _, Or.inr ⟨_, _, rfl, rfl, q2⟩⟩, ?_⟩
      · simp only [Step, h2]
        exact ⟨v, l', none, hv, q1, by simp⟩
      · intro j hj _; exact q3.val q6 j hj
    · have hs : s' = { s' with list := some info' } := by rw [← h1]
      refine sim_same hR (r := rep) ?_ ?_ (by cases rep <;> rfl)
      · simp only [step, listElemInsert, h1, k1]
        cases rep <;> first | (rw [← hs]) | exact absurd rfl q0
      · simp only [Step, h2]
        exact ⟨v, _, some rep, hv, q1, by simp⟩

theorem sim_delete {mx : Nat} {σ : S} {s : St} {h : Nat → Nat} (hR : R mx σ s h) (f t : Int) (drop : Bool) : Sim mx σ s h (.delete f t drop) := by
  cases h1 : s.list with
  | none =>
    obtain ⟨h2, m⟩ := hR.ofNone h1
    exact sim_same hR (r := .enoent) (by simp [step, listElemDelete, h1]) (by simp [Step, h2]) rfl
  | some info =>
    obtain ⟨l, ids, h2, m, hl⟩ := hR.ofSome h1
    have hadj := adjust_spec l.elems.length f t
    cases hr : range l.elems.length f t with
    | none =>
      rw [hr] at hadj
      exact sim_same hR (r := .elemEnoent) (by simp [step, listElemDelete, h1, hl.ccnt, hadj]) (by simp [Step, h2, hr]) rfl
    | some p =>
      obtain ⟨x, y⟩ := p
      rw [hr] at hadj
      simp only [Option.map_some] at hadj
      obtain ⟨hx, hy⟩ := range_lt hr
      obtain ⟨s', info', ids', k1, k2, k3, k4, k5, k6⟩ := cut_spec hl m (a := min x y) (k := max x y + 1 - min x y) (by omega) (by omega)
      have hsum : min x y + (max x y + 1 - min x y) = max x y + 1 := by omega
      rw [hsum] at k2
      have hidx : (if (x : Int) ≤ y then (x : Int) else y) = ((min x y : Nat) : Int) := by split <;> omega
      have hcnt : (if (x : Int) ≤ y then (y : Int) - x + 1 else x - y + 1).toNat = max x y + 1 - min x y := by split <;> omega
      have hc0 : info'.ccnt = 0 ↔ without l.elems x y = [] := by
        rw [k2.ccnt, ← List.length_eq_zero_iff]; unfold without; simp only; omega
      refine ⟨{ s' with list := if info'.ccnt = 0 ∧ drop = true then none else some info' },
        .deleted (max x y + 1 - min x y) (without l.elems x y = [] ∧ drop = true),
        { σ with list := shrink l (without l.elems x y) drop }, ?_, ?_, shrinkR (l := l) (drop := drop) k2 k3,
        fun j hj _ => k3.val k6 j hj⟩
      · simp only [step, listElemDelete, h1, hl.ccnt, hadj, hidx, hcnt, k1]
        rw [if_pos (by omega)]
        simp only [← hc0]
        by_cases hd : info'.ccnt = 0 ∧ drop = true
        · simp [hd]
        · simp [hd]
      · simp [Step, h2, hr]

theorem sim_get {mx : Nat} {σ : S} {s : St} {h : Nat → Nat} (hR : R mx σ s h) (hh : ∀ i, h i < 65535) (f t : Int) (del drop mem : Bool)
    (hdd : drop = true → del = true) : Sim mx σ s h (.get f t del drop mem) := by
  cases h1 : s.list with
  | none =>
    obtain ⟨h2, m⟩ := hR.ofNone h1
    exact sim_same hR (r := .enoent) (by simp [step, listElemGet, h1]) (by simp [Step, h2]) rfl
  | some info =>
    obtain ⟨l, ids, h2, m, hl⟩ := hR.ofSome h1
    by_cases hrd : l.readable = false
    · exact sim_same hR (r := .unreadable) (by simp [step, listElemGet, h1, hl.readable, hrd]) (by simp [Step, h2, hrd]) rfl
    have hadj := adjust_spec l.elems.length f t
    have hrd' : l.readable = true := by simpa using hrd
    cases hr : range l.elems.length f t with
    | none =>
      rw [hr] at hadj
      exact sim_same hR (r := .elemEnoent) (by simp [step, listElemGet, h1, hl.readable, hrd', hl.ccnt, hadj]) (by simp [Step, h2, hr, hrd']) rfl
    | some p =>
      obtain ⟨x, y⟩ := p
      rw [hr] at hadj
      simp only [Option.map_some] at hadj
      cases mem with
      | false =>
        exact sim_same hR (r := .enomem) (by simp [step, listElemGet, h1, hl.readable, hrd', hl.ccnt, hadj]) (by simp [Step, h2, hr, hrd']) rfl
      | true =>
        obtain ⟨hx, hy⟩ := range_lt hr
        obtain ⟨s', info', ids', out, k1, k2, k3, k4, k5, k6, k7, k8, k9⟩ := read_spec del hl m hh hx hy
        have hcnt : (if (x : Int) ≤ y then (y : Int) - x + 1 else x - y + 1).toNat = (if x ≤ y then y - x + 1 else x - y + 1) := by
          by_cases hxy : x ≤ y
          · rw [if_pos hxy, if_pos (by omega)]; omega
          · rw [if_neg hxy, if_neg (by omega)]; omega
        have hfw : decide ((x : Int) ≤ y) = decide (x ≤ y) := by simp
        have hol : ¬ out.length = 0 := by simpa [List.length_eq_zero_iff] using k7
        have key : step mx s (.get f t del drop true) = if info'.ccnt = 0 ∧ drop = true then
              (if del = true then some ({ s' with list := none }, .elems info'.flags out true) else none)
            else some ({ s' with list := some info' }, .elems info'.flags out false) := by
          simp only [step, listElemGet, h1, hl.readable, hrd', hl.ccnt, hadj, hcnt, hfw, k1, hol, Bool.not_true, Bool.false_eq_true, if_false]
        cases del with
        | true =>
          simp only [if_true] at k3 key
          have hc0 : info'.ccnt = 0 ↔ without l.elems x y = [] := by
            rw [k3.ccnt, ← List.length_eq_zero_iff]; simp only; omega
          refine ⟨{ s' with list := if info'.ccnt = 0 ∧ drop = true then none else some info' },
            .elems l.flags out (without l.elems x y = [] ∧ drop = true),
        { σ with list := shrink l (without l.elems x y) drop }, ?_, ?_, shrinkR (l := l) (drop := drop) k3 k4,
            fun j hj hj' => k4.val k9 j hj'⟩
          · rw [key, k8, hl.flags]
            simp only [← hc0]
            by_cases hd : info'.ccnt = 0 ∧ drop = true
            · simp [hd]
            · simp [hd]
          · simp only [Step, h2, hr, hrd', Bool.true_eq_false, if_false, if_true]
            exact ⟨out, k2, by simp⟩
        | false =>
          have hdr : drop = false := by cases drop <;> simp_all
          subst hdr
          simp only [Bool.false_eq_true, if_false, and_false] at k3 key
          refine ⟨{ s' with list := some info' }, .elems l.flags out false, σ, by rw [key, k8, hl.flags], ?_,
            ⟨ids', k4.list _, Or.inr ⟨_, _, rfl, h2, k3⟩⟩, fun j hj hj' => k4.val k9 j hj'⟩
          simp only [Step, h2, hr, hrd', Bool.true_eq_false, if_false, Bool.false_eq_true]
          exact ⟨out, k2, by simp⟩

theorem sim_release {mx : Nat} {σ : S} {s : St} {h : Nat → Nat} (hR : R mx σ s h) {i : Nat} (hi : 0 < h i) : Sim mx σ s h (.release i) := by
  obtain ⟨ids, m, hl⟩ := hR
  obtain ⟨e, he⟩ := m.heldOk i hi
  obtain ⟨hlt, hrc⟩ := m.alloc i e he
  have hp : σ.pend i = none := by
    by_cases hin : i ∈ ids
    · exact (m.linked i hin).2
    · rcases (m.free i e he hin).2.2 with q | q
      · omega
      · exact q.1
  have hrc' : (if e.refcount ≠ 0 then e.refcount - 1 else e.refcount) = h i - 1 := by rw [if_pos (by omega)]; omega
  by_cases hfree : h i - 1 = 0 ∧ e.next = .unlinked
  · have hni : i ∉ ids := by
      intro hin
      rcases hl with ⟨-, -, rfl⟩ | ⟨info, l, -, -, hl⟩
      · simp at hin
      · exact seg_next hl.dl.seg (by simp) hin he hfree.2
    refine ⟨{ s with heap := upd s.heap i none }, .ok, σ, ?_, ⟨rfl, rfl⟩, ⟨ids, ?_, ?_⟩, ?_⟩
    · simp only [step, elemRelease, he, hrc', if_pos hfree]
      have : ∀ x : Option Elem, upd (upd s.heap i x) i none = upd s.heap i none := by
        intro x; funext j; by_cases hj : j = i
        · subst hj; simp
        · simp [upd_ne _ _ hj]
      simp [elemFree, hfree.1, this]
    · exact m.drop hni hp (fun _ _ => rfl) (by simp [heldStep]; omega) (fun j hj => by simp [heldStep, upd_ne _ _ hj])
    · refine RL.heap hl (fun j hj => ?_)
      exact upd_ne _ _ (fun e => hni (e ▸ hj))
    · intro j hj hj'
      have : j ≠ i := by rintro rfl; simp [heldStep] at hj'; omega
      simp only [valOf]; rw [upd_ne _ _ this]
  · have hval : ∀ j, valOf { s with heap := upd s.heap i (some { e with refcount := h i - 1 }) } j = valOf s j := by
      intro j
      by_cases hj : j = i
      · subst hj; simp [valOf, he]
      · simp only [valOf, upd_ne _ _ hj]
    refine ⟨{ s with heap := upd s.heap i (some { e with refcount := h i - 1 }) }, .ok, σ, ?_, ⟨rfl, rfl⟩, ⟨ids, ?_, ?_⟩, fun j _ _ => hval j⟩
    · simp only [step, elemRelease, he, hrc', if_neg hfree, Option.map_some]
    · refine ⟨?_, ?_, ?_, ?_, ?_⟩
      · intro j e' h1
        by_cases hj : j = i
        · subst hj; simp at h1; subst h1; exact ⟨hlt, by simp [heldStep]⟩
        · simp only [upd_ne _ _ hj] at h1; simp only [heldStep, upd_ne _ _ hj]; exact m.alloc j e' h1
      · intro j e' h1 hnj
        by_cases hj : j = i
        · subst hj; simp at h1; subst h1
          obtain ⟨q1, q2, q3⟩ := m.free j e he hnj
          refine ⟨q1, q2, Or.inr ⟨hp, ?_⟩⟩
          simp only [heldStep, upd_self]
          rcases Nat.eq_zero_or_pos (h j - 1) with w | w
          · exact absurd ⟨w, q2⟩ hfree
          · exact w
        · simp only [upd_ne _ _ hj] at h1; simp only [heldStep, upd_ne _ _ hj]; exact m.free j e' h1 hnj
      · intro j hj
        obtain ⟨⟨e', q⟩, q2⟩ := m.linked j hj
        refine ⟨?_, q2⟩
        by_cases hji : j = i
        · subst hji; exact ⟨_, upd_self _ _ _⟩
        · exact ⟨e', by simp only [upd_ne _ _ hji]; exact q⟩
      · intro j w hw
        have : j ≠ i := by rintro rfl; rw [hp] at hw; cases hw
        simp only [upd_ne _ _ this]; exact m.pendOk j w hw
      · intro j hj
        by_cases hji : j = i
        · subst hji; exact ⟨_, upd_self _ _ _⟩
        · simp only [heldStep, upd_ne _ _ hji] at hj; simp only [upd_ne _ _ hji]; exact m.heldOk j hj
    · have hseg : ∀ (l2 : List Nat) p q, Seg s.heap p l2 q → Seg (upd s.heap i (some { e with refcount := h i - 1 })) p l2 q := by
        intro l2
        induction l2 with
        | nil => intro p q _; trivial
        | cons x tl ih =>
          intro p q hs
          obtain ⟨⟨e0, q1, q2, q3⟩, q4⟩ := hs
          refine ⟨?_, ih _ _ q4⟩
          by_cases hx : x = i
          · subst hx; rw [he] at q1; injection q1 with q1; subst q1
            exact ⟨_, upd_self _ _ _, q2, q3⟩
          · exact ⟨e0, by rw [upd_ne _ _ hx]; exact q1, q2, q3⟩
      rcases hl with q | ⟨info, l, q1, q2, hl⟩
      · exact Or.inl q
      · refine Or.inr ⟨info, l, q1, q2, ?_⟩
        refine ⟨⟨hl.dl.head, hl.dl.tail, hl.dl.ccnt, hseg _ _ _ hl.dl.seg, hl.dl.nodup⟩, ?_, hl.mcnt, hl.mpos, hl.ovfl, hl.readable, hl.sticky, hl.flags, hl.le⟩
        rw [← hl.vals]
        exact List.map_congr_left (fun j _ => hval j)

theorem sim_getattr {mx : Nat} {σ : S} {s : St} {h : Nat → Nat} (hR : R mx σ s h) : Sim mx σ s h .getattr := by
  cases h1 : s.list with
  | none =>
    obtain ⟨h2, m⟩ := hR.ofNone h1
    exact sim_same hR (r := .enoent) (by simp [step, listGetattr, h1]) (by simp [Step, h2]) rfl
  | some info =>
    obtain ⟨l, ids, h2, m, hl⟩ := hR.ofSome h1
    refine sim_same hR (r := .attrs info.ccnt (if info.mcnt > 0 then info.mcnt else mx) info.ovflact info.readable) (by simp [step, listGetattr, h1]) ?_ rfl
    simp only [Step, h2, hl.ccnt, hl.cap, hl.ovfl, hl.readable, and_self]

theorem realMaxcount_want {mx : Nat} (hmx : 4000 ≤ mx) (x : Int) :
    realMaxcount mx x = (match wantCap mx x with | some m => (m : Int) | none => -1) ∧
    ∀ m, wantCap mx x = some m → 1 ≤ m ∧ m ≤ mx := by
  unfold realMaxcount wantCap
  by_cases h1 : x < 0
  · simp [h1]
  · by_cases h2 : x = 0
    · simp [h2]; omega
    · simp only [h1, h2, if_false]
      constructor
      · have hmin : ((min x.toNat mx : Nat) : Int) = min x mx := by omega
        rw [hmin]; split <;> omega
      · intro m hm; simp at hm; omega

theorem sim_setattr {mx : Nat} (hmx : 4000 ≤ mx) {σ : S} {s : St} {h : Nat → Nat} (hR : R mx σ s h) (mc : Option Int) (o : Option Nat) (rd : Option Bool) :
    Sim mx σ s h (.setattr mc o rd) := by
  cases h1 : s.list with
  | none =>
    obtain ⟨h2, m⟩ := hR.ofNone h1
    exact sim_same hR (r := .enoent) (by simp [step, listSetattr, h1]) (by simp [Step, h2]) rfl
  | some info =>
    obtain ⟨l, ids, h2, m, hl⟩ := hR.ofSome h1
    have hm : (∃ x, mc.map (realMaxcount mx) = some x ∧ x > 0 ∧ x < info.ccnt) ↔
        (∃ x k, mc = some x ∧ wantCap mx x = some k ∧ k < l.elems.length) := by
      rw [hl.ccnt]
      cases mc with
      | none => simp
      | some x =>
        obtain ⟨w1, w2⟩ := realMaxcount_want hmx x
        cases hw : wantCap mx x with
        | none =>
          rw [hw] at w1
          constructor
          · rintro ⟨y, hy, hy1, hy2⟩; simp [w1] at hy; omega
          · rintro ⟨y, k, hy, hy1, hy2⟩; injection hy with hy; subst hy; rw [hw] at hy1; cases hy1
        | some k =>
          rw [hw] at w1
          simp only at w1
          have := (w2 k hw).1
          constructor
          · rintro ⟨y, hy, hy1, hy2⟩; simp [w1] at hy; exact ⟨x, k, rfl, hw, by omega⟩
          · rintro ⟨y, k', hy, hy1, hy2⟩; injection hy with hy; subst hy; rw [hw] at hy1; injection hy1 with hy1; subst hy1
            exact ⟨k, by simp [w1], by omega, by omega⟩
    by_cases hbad : BadAttr mx l mc o rd
    · refine sim_same hR (r := .ebadvalue) ?_ ?_ rfl
      · simp only [step, listSetattr, h1]
        rcases hbad with hb | hb | hb
        · rw [if_pos (hm.mpr hb)]
        · by_cases q1 : ∃ x, mc.map (realMaxcount mx) = some x ∧ x > 0 ∧ x < info.ccnt
          · rw [if_pos q1]
          · rw [if_neg q1, if_pos hb]
        · by_cases q1 : ∃ x, mc.map (realMaxcount mx) = some x ∧ x > 0 ∧ x < info.ccnt
          · rw [if_pos q1]
          · rw [if_neg q1]
            by_cases q2 : ∃ x, o = some x ∧ x ≠ ovflError ∧ x ≠ ovflHeadTrim ∧ x ≠ ovflTailTrim
            · rw [if_pos q2]
            · rw [if_neg q2, if_pos hb]
      · simp only [Step, h2]; exact Or.inl ⟨hbad, by simp⟩
    · have hbad0 := hbad
      unfold BadAttr at hbad
      simp only [not_or] at hbad
      obtain ⟨b1, b2, b3⟩ := hbad
      have key : step mx s (.setattr mc o rd) = some ({ s with list := some { info with
          mcnt := mc.elim info.mcnt (realMaxcount mx)
          ovflact := o.getD info.ovflact
          readable := rd.elim info.readable (fun _ => true) } }, .ok) := by
        simp only [step, listSetattr, h1, if_neg (fun h => b1 (hm.mp h)), if_neg b2, if_neg b3]
        cases mc <;> cases o <;> cases rd <;> rfl
      refine ⟨_, .ok, { σ with list := some (setAttrs mx l mc o rd) }, key, ?_, ?_, fun _ _ _ => rfl⟩
      · simp only [Step, h2]; exact Or.inr ⟨hbad0, by simp⟩
      · refine ⟨ids, m.list _, Or.inr ⟨_, _, rfl, rfl, ?_⟩⟩
        refine ⟨⟨hl.dl.head, hl.dl.tail, hl.dl.ccnt, hl.dl.seg, hl.dl.nodup⟩, hl.vals, ?_, ?_, ?_, ?_, hl.sticky, hl.flags, ?_⟩
        · cases mc with
          | none => exact hl.mcnt
          | some x => exact (realMaxcount_want hmx x).1
        · cases mc with
          | none => exact hl.mpos
          | some x => exact (realMaxcount_want hmx x).2
        · cases o with
          | none => exact hl.ovfl
          | some x => rfl
        · cases rd with
          | none => exact hl.readable
          | some x => rfl
        · cases mc with
          | none => exact hl.le
          | some x =>
            simp only [L.cap, setAttrs]
            cases hw : wantCap mx x with
            | none =>
              simp only
              have h3 := hl.le
              unfold L.cap at h3
              cases hq : l.maxcount with
              | none => rw [hq] at h3; exact h3
              | some q => rw [hq] at h3; have := (hl.mpos q hq).2; simp only at h3; omega
            | some k =>
              simp only
              rcases Nat.lt_or_ge k l.elems.length with w | w
              · exact absurd ⟨x, k, rfl, hw, w⟩ b1
              · exact w

theorem sim_remove {mx : Nat} {σ : S} {s : St} {h : Nat → Nat} (hR : R mx σ s h) : Sim mx σ s h .remove := by
  cases h1 : s.list with
  | none =>
    obtain ⟨h2, m⟩ := hR.ofNone h1
    exact sim_same hR (r := .enoent) (by simp [step, listRemove, h1]) (by simp [Step, h2]) rfl
  | some info =>
    obtain ⟨l, ids, h2, m, hl⟩ := hR.ofSome h1
    obtain ⟨s', info', k1, k2, k3, k4, k5, k6⟩ := elemDelete_spec (a := []) (b := ids) (by simpa using hl.dl) (fun _ => rfl) 0
    have ht : takeCnt 0 ids.length = ids.length := rfl
    rw [ht] at k1 k6
    simp only [List.take_length, List.nil_append] at k6
    have m' : Mem σ.pend s' h [] := m.removed k6 k3 (fun _ h => h) (fun j => by simp)
    refine ⟨{ s' with list := none }, .ok, { σ with list := none }, ?_, ?_, ⟨[], m'.list _, Or.inl ⟨rfl, rfl, rfl⟩⟩, fun j hj _ => m'.val k6.vk j hj⟩
    · have k1' : elemDelete s info 0 0 = some (s', info', ids.length) := by simpa using k1
      simp [step, listRemove, h1, k1']
    · simp [Step, h2]

theorem step_sim {mx : Nat} (hmx : 4000 ≤ mx) {σ : S} {s : St} {h : Nat → Nat} (hR : R mx σ s h) {op : Op} (hL : Legal σ h op) :
    Sim mx σ s h op := by
  obtain ⟨hh, hL⟩ := hL
  cases op with
  | create a mem => exact sim_create hmx hR a mem
  | alloc v => exact sim_alloc hR v
  | free i => exact sim_free hR hL
  | insert index i a mem full => exact sim_insert hmx hR a mem full hL.1 hL.2
  | delete f t drop => exact sim_delete hR f t drop
  | get f t del drop mem => exact sim_get hR hh f t del drop mem hL
  | release i => exact sim_release hR hL
  | setattr mc o rd => exact sim_setattr hmx hR mc o rd
  | getattr => exact sim_getattr hR
  | remove => exact sim_remove hR

theorem R_init (mx : Nat) : R mx start init (fun _ => 0) := by
  refine ⟨[], ⟨?_, ?_, ?_, ?_, ?_⟩, Or.inl ⟨rfl, rfl, rfl⟩⟩
  · intro i e he; cases he
  · intro i e he; cases he
  · intro i hi; simp at hi
  · intro i v hv; cases hv
  · intro i hi; omega

end Verif.Lst
