import Verif.Lemmas.List
/-! # The list calls simulate sequence operations -/
namespace Verif.Lst
open Verif.Lst.Spec

/-- Element memory: references, pending and linked elements. -/
structure Mem (pend : Nat → Option Val) (s : St) (h : Nat → Nat) (ids : List Nat) : Prop where
  alloc : ∀ i e, s.heap i = some e → i < s.nextId ∧ e.refcount = h i
  free : ∀ i e, s.heap i = some e → i ∉ ids → e.prev = .unlinked ∧ e.next = .unlinked ∧
    ((pend i = some e.value ∧ h i = 0) ∨ (pend i = none ∧ 0 < h i))
  linked : ∀ i, i ∈ ids → (∃ e, s.heap i = some e) ∧ pend i = none
  pendOk : ∀ i v, pend i = some v → ∃ e, s.heap i = some e ∧ e.value = v
  heldOk : ∀ i, 0 < h i → ∃ e, s.heap i = some e

/-- The list and its element sequence. -/
structure LR (mx : Nat) (h : Heap) (info : Info) (ids : List Nat) (l : L) : Prop where
  dl : DL h info ids
  vals : ids.map (fun i => (h i).map Elem.value) = l.elems.map some
  mcnt : info.mcnt = (match l.maxcount with | some m => (m : Int) | none => -1)
  mpos : ∀ m, l.maxcount = some m → 1 ≤ m ∧ m ≤ mx
  ovfl : info.ovflact = l.ovfl
  readable : info.readable = l.readable
  sticky : info.sticky = l.sticky
  flags : info.flags = l.flags
  le : l.elems.length ≤ l.cap mx

/-- The list header, or its absence. -/
def RL (mx : Nat) (h : Heap) (ids : List Nat) (x : Option Info) (l : Option L) : Prop :=
  (x = none ∧ l = none ∧ ids = []) ∨ ∃ info l', x = some info ∧ l = some l' ∧ LR mx h info ids l'

/-- Model state `s` with references `h` represents `σ`. -/
def R (mx : Nat) (σ : S) (s : St) (h : Nat → Nat) : Prop :=
  ∃ ids, Mem σ.pend s h ids ∧ RL mx s.heap ids s.list σ.list

theorem Mem.pend_notin {pend : Nat → Option Val} {s : St} {h : Nat → Nat} {ids : List Nat} (m : Mem pend s h ids) {i : Nat} {v : Val}
    (hp : pend i = some v) : i ∉ ids ∧ h i = 0 ∧ ∃ e, s.heap i = some e ∧ e.value = v ∧ e.refcount = 0 ∧ e.next = .unlinked := by
  have hni : i ∉ ids := fun hi => by have := (m.linked i hi).2; rw [hp] at this; cases this
  obtain ⟨e, e1, e2⟩ := m.pendOk i v hp
  obtain ⟨-, f2, f3⟩ := m.free i e e1 hni
  have h0 : h i = 0 := by
    rcases f3 with ⟨-, h0⟩ | ⟨q, -⟩
    · exact h0
    · rw [hp] at q; cases q
  exact ⟨hni, h0, e, e1, e2, by rw [(m.alloc i e e1).2, h0], f2⟩

theorem map_eq_of_core {h h' : Heap} {j : Nat} (hc : (h' j).map core = (h j).map core) :
    (h' j).map Elem.value = (h j).map Elem.value := by
  have := congrArg (Option.map Prod.snd) hc
  simpa [Option.map_map, core, Function.comp_def] using this

theorem Mem.removed {pend : Nat → Option Val} {s s' : St} {h : Nat → Nat} {ids ids' D : List Nat} (m : Mem pend s h ids)
    (hr : Removed s.heap s'.heap ids D) (hn : s'.nextId = s.nextId) (hD : ∀ j ∈ D, j ∈ ids)
    (hi : ∀ j, j ∈ ids' ↔ j ∈ ids ∧ j ∉ D) : Mem pend s' h ids' := by
  have back : ∀ j e', s'.heap j = some e' → j ∉ D → ∃ e, s.heap j = some e ∧ e.refcount = e'.refcount ∧ e.value = e'.value :=
    fun j e' h1 h2 => core_ref (hr.keep j h2) h1
  have gone : ∀ j e', s'.heap j = some e' → j ∈ D → ∃ e, s.heap j = some e ∧ e.refcount ≠ 0 ∧ e'.refcount = e.refcount ∧
      e'.value = e.value ∧ e'.prev = .unlinked ∧ e'.next = .unlinked := by
    intro j e' h1 h2
    obtain ⟨e, q1, q2⟩ := hr.gone j h2
    rw [h1] at q2
    split at q2
    · simp at q2
    · rename_i hne
      simp only [Option.map_some, Option.some.injEq, Prod.mk.injEq, core] at q2
      exact ⟨e, q1, hne, q2.1.1, q2.1.2, q2.2.1, q2.2.2⟩
  refine ⟨?_, ?_, ?_, ?_, ?_⟩
  · intro j e' h1
    rw [hn]
    by_cases hj : j ∈ D
    · obtain ⟨e, q1, -, q3, -⟩ := gone j e' h1 hj
      rw [q3]; exact m.alloc j e q1
    · obtain ⟨e, q1, q2, -⟩ := back j e' h1 hj
      rw [← q2]; exact m.alloc j e q1
  · intro j e' h1 hni
    by_cases hj : j ∈ D
    · obtain ⟨e, q1, q2, q3, q4, q5, q6⟩ := gone j e' h1 hj
      refine ⟨q5, q6, Or.inr ⟨(m.linked j (hD j hj)).2, ?_⟩⟩
      have := (m.alloc j e q1).2; omega
    · have hnids : j ∉ ids := fun h => hni ((hi j).mpr ⟨h, hj⟩)
      rw [hr.out j hnids] at h1
      exact m.free j e' h1 hnids
  · intro j hj
    obtain ⟨h1, h2⟩ := (hi j).mp hj
    obtain ⟨⟨e, q1⟩, q2⟩ := m.linked j h1
    refine ⟨?_, q2⟩
    have := hr.keep j h2
    rw [q1] at this
    cases hx : s'.heap j with
    | none => rw [hx] at this; simp at this
    | some e' => exact ⟨e', rfl⟩
  · intro j v hp
    obtain ⟨e, q1, q2⟩ := m.pendOk j v hp
    have := (m.pend_notin hp).1
    exact ⟨e, by rw [hr.out j this]; exact q1, q2⟩
  · intro j hp
    obtain ⟨e, q1⟩ := m.heldOk j hp
    by_cases hj : j ∈ D
    · obtain ⟨e0, w1, w2⟩ := hr.gone j hj
      rw [q1] at w1; injection w1 with w1; subst w1
      rw [if_neg (by rw [(m.alloc j e q1).2]; omega)] at w2
      cases hx : s'.heap j with
      | none => rw [hx] at w2; simp at w2
      | some e' => exact ⟨e', rfl⟩
    · have := hr.keep j hj
      rw [q1] at this
      cases hx : s'.heap j with
      | none => rw [hx] at this; simp at this
      | some e' => exact ⟨e', rfl⟩

theorem Mem.read {pend : Nat → Option Val} {s s' : St} {h : Nat → Nat} {ids ids' D : List Nat} {del : Bool} (m : Mem pend s h ids)
    (hr : Read del s.heap s'.heap ids D) (hn : s'.nextId = s.nextId) (hD : ∀ j ∈ D, j ∈ ids) (hnd : D.Nodup)
    (hi : ∀ j, j ∈ ids' ↔ j ∈ ids ∧ (del = true → j ∉ D)) : Mem pend s' (fun i => h i + D.count i) ids' := by
  have back : ∀ j e', s'.heap j = some e' → j ∉ D → ∃ e, s.heap j = some e ∧ e.refcount = e'.refcount ∧ e.value = e'.value :=
    fun j e' h1 h2 => core_ref (hr.keep j h2) h1
  have ex : ∀ j e, s.heap j = some e → ∃ e', s'.heap j = some e' := by
    intro j e he
    by_cases hj : j ∈ D
    · obtain ⟨_, e', -, w, -⟩ := hr.read j hj; exact ⟨e', w⟩
    · have := hr.keep j hj
      rw [he] at this
      cases hx : s'.heap j with
      | none => rw [hx] at this; simp at this
      | some e' => exact ⟨e', rfl⟩
  refine ⟨?_, ?_, ?_, ?_, ?_⟩
  · intro j e' h1
    rw [hn]
    by_cases hj : j ∈ D
    · obtain ⟨e, e2, w1, w2, w3, -⟩ := hr.read j hj
      rw [h1] at w2; injection w2 with w2; subst w2
      simp only [core, Prod.mk.injEq] at w3
      refine ⟨(m.alloc j e w1).1, ?_⟩
      rw [hnd.count, if_pos hj, w3.1, (m.alloc j e w1).2]
    · obtain ⟨e, q1, q2, -⟩ := back j e' h1 hj
      rw [hnd.count, if_neg hj, ← q2]; exact m.alloc j e q1
  · intro j e' h1 hni
    by_cases hj : j ∈ D
    · have hjd : del = true := by
        cases del with
        | true => rfl
        | false => exact absurd ((hi j).mpr ⟨hD j hj, by simp⟩) hni
      obtain ⟨e, e2, w1, w2, w3, w4⟩ := hr.read j hj
      rw [h1] at w2; injection w2 with w2; subst w2
      obtain ⟨w5, w6⟩ := w4 hjd
      refine ⟨w5, w6, Or.inr ⟨(m.linked j (hD j hj)).2, ?_⟩⟩
      rw [hnd.count, if_pos hj]; omega
    · have hnids : j ∉ ids := fun h => hni ((hi j).mpr ⟨h, fun _ => hj⟩)
      rw [hr.out j hnids] at h1
      rw [hnd.count, if_neg hj]
      exact m.free j e' h1 hnids
  · intro j hj
    obtain ⟨h1, h2⟩ := (hi j).mp hj
    obtain ⟨⟨e, q1⟩, q2⟩ := m.linked j h1
    exact ⟨ex j e q1, q2⟩
  · intro j v hp
    obtain ⟨e, q1, q2⟩ := m.pendOk j v hp
    have := (m.pend_notin hp).1
    exact ⟨e, by rw [hr.out j this]; exact q1, q2⟩
  · intro j hp
    by_cases hj : j ∈ D
    · obtain ⟨_, e', -, w, -⟩ := hr.read j hj; exact ⟨e', w⟩
    · rw [hnd.count, if_neg hj] at hp
      obtain ⟨e, q1⟩ := m.heldOk j hp
      exact ex j e q1

theorem Mem.link {pend : Nat → Option Val} {s s' : St} {h : Nat → Nat} {a b : List Nat} {i : Nat} {v : Val} (m : Mem pend s h (a ++ b))
    (hp : pend i = some v) (hn : s'.nextId = s.nextId) (hout : ∀ j, j ∉ a ++ i :: b → s'.heap j = s.heap j)
    (hc : ∀ j, (s'.heap j).map core = (s.heap j).map core) : Mem (upd pend i none) s' h (a ++ i :: b) := by
  obtain ⟨hni, h0, e, e1, e2, e3, e4⟩ := m.pend_notin hp
  have ex : ∀ j e, s.heap j = some e → ∃ e', s'.heap j = some e' := by
    intro j e he
    have := hc j
    rw [he] at this
    cases hx : s'.heap j with
    | none => rw [hx] at this; simp at this
    | some e' => exact ⟨e', rfl⟩
  refine ⟨?_, ?_, ?_, ?_, ?_⟩
  · intro j e' h1
    obtain ⟨e, q1, q2, -⟩ := core_ref (hc j) h1
    rw [hn, ← q2]; exact m.alloc j e q1
  · intro j e' h1 hj
    rw [hout j hj] at h1
    have hji : j ≠ i := by rintro rfl; simp at hj
    rw [upd_ne _ _ hji]
    exact m.free j e' h1 (by intro h; apply hj; rcases List.mem_append.mp h with h | h <;> simp [h])
  · intro j hj
    by_cases hji : j = i
    · subst hji; exact ⟨ex j e e1, upd_self _ _ _⟩
    · rw [upd_ne _ _ hji]
      have : j ∈ a ++ b := by
        simp only [List.mem_append, List.mem_cons] at hj ⊢
        rcases hj with h | h | h
        · exact Or.inl h
        · exact absurd h hji
        · exact Or.inr h
      obtain ⟨⟨e, q1⟩, q2⟩ := m.linked j this
      exact ⟨ex j e q1, q2⟩
  · intro j w hw
    have hji : j ≠ i := by rintro rfl; simp at hw
    rw [upd_ne _ _ hji] at hw
    obtain ⟨e, q1, q2⟩ := m.pendOk j w hw
    obtain ⟨e', q3⟩ := ex j e q1
    obtain ⟨e0, w1, w2, w3⟩ := core_ref (hc j) q3
    rw [q1] at w1; injection w1 with w1; subst w1
    exact ⟨e', q3, by rw [← w3, q2]⟩
  · intro j hj
    obtain ⟨e, q1⟩ := m.heldOk j hj
    exact ex j e q1

theorem LR.len {mx : Nat} {h : Heap} {info : Info} {ids : List Nat} {l : L} (r : LR mx h info ids l) : ids.length = l.elems.length := by
  have := congrArg List.length r.vals; simpa using this

theorem LR.ccnt {mx : Nat} {h : Heap} {info : Info} {ids : List Nat} {l : L} (r : LR mx h info ids l) : info.ccnt = l.elems.length := by
  rw [r.dl.ccnt, r.len]

theorem LR.cap {mx : Nat} {h : Heap} {info : Info} {ids : List Nat} {l : L} (r : LR mx h info ids l) :
    (if info.mcnt > 0 then info.mcnt else (mx : Int)) = l.cap mx := by
  have h1 := r.mcnt
  unfold L.cap
  cases hm : l.maxcount with
  | none => rw [hm] at h1; simp only at h1 ⊢; rw [h1]; simp
  | some m =>
    rw [hm] at h1; simp only at h1 ⊢
    have := (r.mpos m hm).1
    rw [h1, if_pos (by omega)]

theorem LR.capPos {mx : Nat} (hmx : 4000 ≤ mx) {h : Heap} {info : Info} {ids : List Nat} {l : L} (r : LR mx h info ids l) : 1 ≤ l.cap mx := by
  unfold L.cap
  cases hm : l.maxcount with
  | none => simp only; omega
  | some m => exact (r.mpos m hm).1

/-- Insertion by splitting. -/
theorem insertIdx_split {α : Type} (l : List α) (p : Nat) (v : α) (h : p ≤ l.length) :
    l.insertIdx p v = l.take p ++ v :: l.drop p := by
  induction l generalizing p with
  | nil => have : p = 0 := by simpa using h
           subst this; rfl
  | cons x l ih =>
    cases p with
    | zero => rfl
    | succ p => simp only [List.insertIdx_succ_cons, List.take_succ_cons, List.drop_succ_cons, List.cons_append]
                rw [ih p (by simpa using h)]

theorem insertIdx_tail {α : Type} (l : List α) (p : Nat) (v : α) (h1 : l ≠ []) (h2 : 1 ≤ p) :
    (l.insertIdx p v).tail = l.tail.insertIdx (p - 1) v := by
  cases l with
  | nil => exact absurd rfl h1
  | cons x l =>
    cases p with
    | zero => omega
    | succ p => simp

theorem insertIdx_dropLast {α : Type} (l : List α) (p : Nat) (v : α) (h2 : p < l.length) :
    (l.insertIdx p v).dropLast = l.dropLast.insertIdx p v := by
  rw [insertIdx_split l p v (by omega), insertIdx_split _ p v (by simp; omega)]
  rw [List.dropLast_append_of_ne_nil (by simp), List.dropLast_cons_of_ne_nil (by simp; omega)]
  congr 1
  · rw [List.dropLast_eq_take, List.take_take]; congr 1; omega
  · congr 1
    rw [List.dropLast_eq_take, List.dropLast_eq_take, List.drop_take]; congr 1; simp; omega

/-- Keeping the meta information except links and count. -/
theorem LR.next {mx : Nat} {h h' : Heap} {info info' : Info} {ids ids' : List Nat} {l : L} {es : List Val} (r : LR mx h info ids l)
    (hd : DL h' info' ids') (hi : info' = { info with head := info'.head, tail := info'.tail, ccnt := info'.ccnt })
    (hv : ids'.map (fun i => (h' i).map Elem.value) = es.map some) (hl : es.length ≤ l.cap mx) :
    LR mx h' info' ids' { l with elems := es } := by
  refine ⟨hd, hv, ?_, r.mpos, ?_, ?_, ?_, ?_, hl⟩ <;> rw [hi]
  · exact r.mcnt
  · exact r.ovfl
  · exact r.readable
  · exact r.sticky
  · exact r.flags

theorem removed_vals {h h' : Heap} {ids ids' D : List Nat} (hr : Removed h h' ids D) (hd : ∀ j ∈ ids', j ∉ D) :
    ids'.map (fun i => (h' i).map Elem.value) = ids'.map (fun i => (h i).map Elem.value) := by
  apply List.map_congr_left
  intro j hj
  exact map_eq_of_core (hr.keep j (hd j hj))

/-- Elements still in memory keep their value. -/
def VK (h h' : Heap) : Prop := ∀ j, (h' j).isSome → (h' j).map Elem.value = (h j).map Elem.value

theorem VK.trans {h1 h2 h3 : Heap} (a : VK h1 h2) (b : VK h2 h3) : VK h1 h3 := by
  intro j hj
  have q := b j hj
  rw [q]; apply a
  obtain ⟨e, he⟩ := Option.isSome_iff_exists.mp hj
  rw [he] at q
  cases hy : h2 j with
  | none => rw [hy] at q; simp at q
  | some e' => rfl

theorem Removed.vk {h h' : Heap} {ids D : List Nat} (hr : Removed h h' ids D) : VK h h' := by
  intro j hj
  by_cases hD : j ∈ D
  · obtain ⟨e, q1, q2⟩ := hr.gone j hD
    cases hx : h' j with
    | none => rw [hx] at hj; simp at hj
    | some e' =>
      rw [hx] at q2
      split at q2
      · simp at q2
      · simp only [Option.map_some, Option.some.injEq, Prod.mk.injEq, core] at q2
        simp [q1, q2.1.2]
  · exact map_eq_of_core (hr.keep j hD)

/-- Deleting one element from the head or tail to make room. -/
theorem trim_spec {mx : Nat} {pend : Nat → Option Val} {s : St} {h : Nat → Nat} {info : Info} {ids : List Nat} {l : L}
    (r : LR mx s.heap info ids l) (m : Mem pend s h ids) (hne : 1 ≤ l.elems.length) (front : Bool) :
    ∃ s' info' ids', elemDelete s info (if front then 0 else info.ccnt - 1) 1 = some (s', info', 1) ∧
      LR mx s'.heap info' ids' { l with elems := if front then l.elems.tail else l.elems.dropLast } ∧
      Mem pend s' h ids' ∧ s'.nextId = s.nextId ∧ s'.list = s.list ∧ info'.ovflact = info.ovflact ∧ VK s.heap s'.heap := by
  have hlen := r.len
  cases front with
  | true =>
    obtain ⟨s', info', k1, k2, k3, k4, k5, k6⟩ := elemDelete_spec (a := []) (b := ids) (by simpa using r.dl) (fun _ => rfl) 1
    have ht : takeCnt 1 ids.length = 1 := by unfold takeCnt; rw [if_neg (by omega)]; omega
    rw [ht] at k1 k2 k6
    have hnd := r.dl.nodup
    rw [List.nil_append] at k2 k6
    have hmem : ∀ j, j ∈ ids.drop 1 ↔ j ∈ ids ∧ j ∉ ids.take 1 := by
      cases ids with
      | nil => simp
      | cons x t =>
        intro j
        have := (List.nodup_cons.mp hnd).1
        simp only [List.drop_succ_cons, List.drop_zero, List.take_succ_cons, List.take_zero, List.mem_cons, List.not_mem_nil, or_false]
        constructor
        · intro hj; exact ⟨Or.inr hj, by rintro rfl; exact this hj⟩
        · rintro ⟨h | h, h2⟩
          · exact absurd h h2
          · exact h
    refine ⟨s', info', ids.drop 1, by simpa using k1, ?_, m.removed k6 k3 (fun j hj => List.mem_of_mem_take hj) hmem, k3, k4, by rw [k5], k6.vk⟩
    refine r.next k2 k5 ?_ (by have := r.le; simp; omega)
    rw [removed_vals k6 (fun j hj => ((hmem j).mp hj).2)]
    have := r.vals
    simp only [if_true, List.map_tail, ← this]
    simp
  | false =>
    have hids : ids = ids.take (ids.length - 1) ++ ids.drop (ids.length - 1) := (List.take_append_drop _ _).symm
    have hd := r.dl
    rw [hids] at hd
    obtain ⟨s', info', k1, k2, k3, k4, k5, k6⟩ := elemDelete_spec hd (by
      intro h; have := congrArg List.length h; simp at this; omega) 1
    have hbl : (ids.drop (ids.length - 1)).length = 1 := by simp; omega
    have hal : (ids.take (ids.length - 1)).length = ids.length - 1 := by simp
    rw [hbl] at k1 k2 k6
    have ht : takeCnt 1 1 = 1 := rfl
    rw [ht, List.drop_of_length_le (by omega)] at k2
    have hk : (ids.drop (ids.length - 1)).take 1 = ids.drop (ids.length - 1) := List.take_of_length_le (by omega)
    rw [ht, hk, ← hids] at k6
    rw [List.append_nil] at k2
    have hidx : ((ids.take (ids.length - 1)).length : Int) = info.ccnt - 1 := by
      rw [hal, r.dl.ccnt]; omega
    rw [hidx, ht] at k1
    have hnd := r.dl.nodup
    have hmem : ∀ j, j ∈ ids.take (ids.length - 1) ↔ j ∈ ids ∧ j ∉ ids.drop (ids.length - 1) := by
      intro j
      rw [hids, List.nodup_append] at hnd
      constructor
      · intro hj; exact ⟨List.mem_of_mem_take hj, fun h2 => hnd.2.2 j hj j h2 rfl⟩
      · rintro ⟨h1, h2⟩
        rw [hids] at h1
        rcases List.mem_append.mp h1 with h | h
        · exact h
        · exact absurd h h2
    refine ⟨s', info', ids.take (ids.length - 1), by simpa using k1, ?_,
      m.removed k6 k3 (fun j hj => List.mem_of_mem_drop hj) hmem, k3, k4, by rw [k5], k6.vk⟩
    refine r.next k2 k5 ?_ (by have := r.le; simp; omega)
    rw [removed_vals k6 (fun j hj => ((hmem j).mp hj).2)]
    have := r.vals
    simp only [Bool.false_eq_true, if_false, List.dropLast_eq_take, List.map_take, ← this, hlen]

/-- Linking a pending element into the list. -/
theorem link_spec {mx : Nat} {pend : Nat → Option Val} {s : St} {h : Nat → Nat} {info : Info} {ids : List Nat} {l : L} {i p : Nat} {v : Val}
    (r : LR mx s.heap info ids l) (m : Mem pend s h ids) (hp : pend i = some v) (hle : p ≤ l.elems.length)
    (hcap : l.elems.length < l.cap mx) :
    ∃ s' info' ids', elemLink s info p i = some (s', info') ∧
      LR mx s'.heap info' ids' { l with elems := l.elems.insertIdx p v } ∧ Mem (upd pend i none) s' h ids' ∧
      s'.nextId = s.nextId ∧ s'.list = s.list ∧ VK s.heap s'.heap := by
  have hlen := r.len
  have hids : ids = ids.take p ++ ids.drop p := (List.take_append_drop _ _).symm
  obtain ⟨hni, h0, e, e1, e2, e3, e4⟩ := m.pend_notin hp
  have hd := r.dl; rw [hids] at hd
  have hni' := hni; rw [hids] at hni'
  have m' := m; rw [hids] at m'
  obtain ⟨s', info', k1, k2, k3, k4, k5, k6, k7⟩ := elemLink_spec hd e1 hni'
  have hal : (ids.take p).length = p := by simp; omega
  rw [hal] at k1
  refine ⟨s', info', _, k1, ?_, m'.link hp k3 k6 k7, k3, k4, fun j _ => map_eq_of_core (k7 j)⟩
  refine r.next k2 k5 ?_ (by rw [List.length_insertIdx_of_le_length hle]; omega)
  have hval : ∀ j, (s'.heap j).map Elem.value = (s.heap j).map Elem.value := fun j => map_eq_of_core (k7 j)
  simp only [hval]
  rw [insertIdx_split _ _ _ hle]
  have hv := r.vals
  simp only [List.map_append, List.map_cons, List.map_take, List.map_drop, hv, e1, Option.map_some, e2]

theorem insert_sim {mx : Nat} (hmx : 4000 ≤ mx) {pend : Nat → Option Val} {s : St} {h : Nat → Nat} {info : Info} {ids : List Nat} {l : L}
    {i : Nat} {v : Val} {index : Int} {full : Bool}
    (r : LR mx s.heap info ids l) (m : Mem pend s h ids) (hp : pend i = some v) (hix : -(2 ^ 31) < index) :
    ∃ s' info' rep, elemInsert mx s info index i full = some (s', info', rep) ∧
      ((rep = .ok ∧ ∃ l' ids', Insert mx l index v full none l' ∧ LR mx s'.heap info' ids' l' ∧
          Mem (upd pend i none) s' h ids' ∧ s'.nextId = s.nextId ∧ s'.list = s.list ∧ VK s.heap s'.heap) ∨
       (rep ≠ .ok ∧ s' = s ∧ info' = info ∧ Insert mx l index v full (some rep) l)) := by
  have hcc := r.ccnt
  have hcap := r.cap
  have hcp := r.capPos hmx
  have hle := r.le
  unfold elemInsert
  simp only [hcap, hcc]
  rw [if_neg (by omega)]
  split
  · rename_i hbad
    refine ⟨s, info, .eindexoor, rfl, Or.inr ⟨by simp, rfl, rfl, Or.inl ⟨?_, rfl, rfl⟩⟩⟩
    unfold InsertPlace; omega
  · rename_i hgood
    have hip : InsertPlace l.elems.length (l.cap mx) index := by unfold InsertPlace; omega
    split
    · rename_i hs
      rw [r.sticky] at hs
      exact ⟨s, info, .enomem, rfl, Or.inr ⟨by simp, rfl, rfl, Or.inr (Or.inl ⟨hip, hs, rfl, rfl⟩)⟩⟩
    · rename_i hs
      rw [r.sticky] at hs
      split
      · rename_i ho
        refine ⟨s, info, .eoverflow, rfl, Or.inr ⟨by simp, rfl, rfl, Or.inr (Or.inr (Or.inl ⟨hip, hs, ?_, rfl, rfl⟩))⟩⟩
        rw [← r.ovfl]; exact ⟨ho.1, by omega⟩
      · rename_i ho
        have hno : ¬ (l.ovfl = ovflError ∧ l.cap mx ≤ l.elems.length) := by
          rw [← r.ovfl]; intro hx; exact ho ⟨hx.1, by omega⟩
        have fin : ∀ l', l' = { l with elems := inserted mx l index v } → Insert mx l index v full none l' :=
          fun l' hl' => Or.inr (Or.inr (Or.inr ⟨hip, hs, hno, rfl, hl'⟩))
        by_cases hroom : l.elems.length < l.cap mx
        · rw [if_neg (by omega)]
          have hpl : (if index < 0 then (if index + (info.ccnt + 1) < 0 then 0 else index + (info.ccnt + 1)) else index)
              = ((place l.elems.length index : Nat) : Int) := by
            unfold place; rw [hcc]
            unfold InsertPlace at hip
            split
            · rw [if_neg (by omega), if_neg (by omega)]; omega
            · rw [if_pos (by omega)]; omega
          have hple : place l.elems.length index ≤ l.elems.length := by
            unfold place; unfold InsertPlace at hip; split <;> omega
          obtain ⟨s', info', ids', k1, k2, k3, k4, k5, k6⟩ := link_spec r m hp hple hroom
          simp only [hpl, k1]
          refine ⟨s', info', .ok, rfl, Or.inl ⟨rfl, _, ids', fin _ rfl, ?_, k3, k4, k5, k6⟩⟩
          have : inserted mx l index v = l.elems.insertIdx (place l.elems.length index) v := by
            unfold inserted; simp only; rw [if_pos hroom]
          rw [this]; exact k2
        · rw [if_pos (by omega)]
          have hn1 : 1 ≤ l.elems.length := by omega
          have hne : l.elems ≠ [] := by intro h; rw [h] at hn1; simp at hn1
          -- the trimmed side, the adjusted index
          obtain ⟨front, idx', htrim, hidx⟩ : ∃ (front : Bool) (idx' : Int),
              (∀ s1 info1, elemDelete s info (if front then 0 else info.ccnt - 1) 1 = some (s1, info1, 1) →
                info1.ovflact = info.ovflact → insertTrim s info index = some (s1, info1, idx')) ∧
              ∃ p : Nat, p ≤ l.elems.length - 1 ∧
                (if idx' < 0 then (if idx' + ((l.elems.length - 1 : Int) + 1) < 0 then 0 else idx' + ((l.elems.length - 1 : Int) + 1)) else idx') = p ∧
                inserted mx l index v = (if front then l.elems.tail else l.elems.dropLast).insertIdx p v := by
            unfold InsertPlace at hip
            have hins : inserted mx l index v =
                (if index = 0 then (l.elems.insertIdx (place l.elems.length index) v).dropLast
                 else if index = -1 then (l.elems.insertIdx (place l.elems.length index) v).tail
                 else if l.ovfl = ovflHeadTrim then (l.elems.insertIdx (place l.elems.length index) v).tail
                 else (l.elems.insertIdx (place l.elems.length index) v).dropLast) := by
              unfold inserted; simp only; rw [if_neg hroom]
            rw [hins]
            by_cases h0 : index = 0
            · subst h0
              refine ⟨false, 0, ?_, 0, by omega, by simp, ?_⟩
              · intro s1 info1 hd ho
                unfold insertTrim
                simp only [true_or, if_true]
                rw [if_neg (by decide)]
                simp only [Bool.false_eq_true, if_false] at hd
                rw [hd]; simp
              · rw [if_pos rfl, insertIdx_dropLast _ _ _ (by unfold place; simp; omega)]; rfl
            · by_cases hm1 : index = -1
              · subst hm1
                refine ⟨true, -1, ?_, l.elems.length - 1, by omega, ?_, ?_⟩
                · intro s1 info1 hd ho
                  unfold insertTrim
                  simp only [or_true, if_true] at hd ⊢
                  rw [hd]; simp
                · rw [if_pos (by omega), if_neg (by omega)]; omega
                · rw [if_neg (by omega), if_pos rfl, insertIdx_tail _ _ _ hne (by unfold place; rw [if_neg (by omega)]; omega)]
                  have : place l.elems.length (-1) - 1 = l.elems.length - 1 := by
                    unfold place; rw [if_neg (by omega)]; omega
                  rw [this]; rfl
              · by_cases hh : l.ovfl = ovflHeadTrim
                · have hh' : info.ovflact = ovflHeadTrim := by rw [r.ovfl]; exact hh
                  refine ⟨true, if index > 0 then index - 1 else index, ?_, place l.elems.length index - 1, ?_, ?_, ?_⟩
                  · intro s1 info1 hd ho
                    unfold insertTrim
                    rw [if_neg (by omega), if_pos hh']
                    simp only [if_true] at hd
                    rw [hd]
                    simp only [ne_eq, not_true_eq_false, if_false, ho, hh', if_true]
                  · unfold place; split <;> omega
                  · unfold place
                    by_cases hpos : index > 0
                    · rw [if_pos hpos, if_neg (by omega), if_pos (by omega)]; omega
                    · rw [if_neg hpos, if_pos (by omega), if_neg (by omega), if_neg (by omega)]; omega
                  · rw [if_neg h0, if_neg hm1, if_pos hh, insertIdx_tail _ _ _ hne (by unfold place; split <;> omega)]; rfl
                · have hh' : info.ovflact ≠ ovflHeadTrim := by rw [r.ovfl]; exact hh
                  refine ⟨false, if index < 0 then index + 1 else index, ?_, place l.elems.length index, ?_, ?_, ?_⟩
                  · intro s1 info1 hd ho
                    unfold insertTrim
                    rw [if_neg (by omega), if_neg hh']
                    simp only [Bool.false_eq_true, if_false] at hd
                    rw [hd]
                    simp only [ne_eq, not_true_eq_false, if_false, ho, hh']
                  · unfold place; split <;> omega
                  · unfold place
                    by_cases hpos : index < 0
                    · rw [if_pos hpos, if_pos (by omega), if_neg (by omega), if_neg (by omega)]; omega
                    · rw [if_neg hpos, if_neg (by omega), if_pos (by omega)]; omega
                  · rw [if_neg h0, if_neg hm1, if_neg hh, insertIdx_dropLast _ _ _ (by unfold place; split <;> omega)]; rfl
          obtain ⟨p, hp1, hp2, hp3⟩ := hidx
          obtain ⟨s1, info1, ids1, t1, t2, t3, t4, t5, t6, t7⟩ := trim_spec r m hn1 front
          rw [htrim s1 info1 t1 t6]
          simp only
          have hlen1 : (if front then l.elems.tail else l.elems.dropLast).length = l.elems.length - 1 := by
            cases front <;> simp
          have hcc1 : info1.ccnt = (l.elems.length - 1 : Int) := by
            rw [t2.ccnt]; simp only [hlen1]; omega
          obtain ⟨s', info', ids', k1, k2, k3, k4, k5, k6⟩ := link_spec t2 t3 hp (p := p) (by simp only [hlen1]; exact hp1)
            (by simp only [hlen1, L.cap] at hle hcp ⊢; omega)
          rw [hcc1, hp2, k1]
          refine ⟨s', info', .ok, rfl, Or.inl ⟨rfl, _, ids', fin _ rfl, ?_, k3, k4.trans t4, k5.trans t5, t7.trans k6⟩⟩
          rw [hp3]; exact k2

end Verif.Lst
