import Verif.Lemmas.HTreeWalk
import Verif.Spec.HTree
/-! # Element memory of sets and maps -/
namespace Verif.HT
open Verif.HT.Spec

theorem upd_self {α : Type} (f : Nat → α) (i : Nat) (v : α) : upd f i v i = v := by simp [upd]
theorem upd_ne {α : Type} (f : Nat → α) {i j : Nat} (v : α) (h : j ≠ i) : upd f i v j = f j := by simp [upd, h]

/-- Contents of an element. -/
def kv (h : Heap) (i : Nat) : Option KV := (h i).map fun e => (e.key, e.val)

/-- Element memory: references `held`, pending elements, linked elements `L`. -/
structure Mem (hash : Key → Nat) (pend : Nat → Option KV) (h : Heap) (next : Nat) (held : Nat → Nat) (L : List Nat) : Prop where
  lt : ∀ i e, h i = some e → i < next
  ref : ∀ i e, h i = some e → e.refcount = held i
  lk : ∀ i e, h i = some e → (e.linked = true ↔ i ∈ L)
  hv : ∀ i e, h i = some e → i ∈ L → e.hval = hash e.key
  alive : ∀ i, i ∈ L → ∃ e, h i = some e
  pnd : ∀ i x, pend i = some x → i ∉ L ∧ held i = 0 ∧ ∃ e, h i = some e ∧ (e.key, e.val) = x
  hld : ∀ i, 0 < held i → ∃ e, h i = some e
  live : ∀ i e, h i = some e → i ∉ L → pend i = none → 0 < held i

/-- Elements held before and still in memory keep their contents. -/
def Keep (held : Nat → Nat) (h h' : Heap) : Prop := ∀ i, 0 < held i → (h' i).isSome → kv h' i = kv h i

theorem Keep.refl (held : Nat → Nat) (h : Heap) : Keep held h h := fun _ _ _ => rfl

theorem Mem.perm {hash : Key → Nat} {pend : Nat → Option KV} {h : Heap} {next : Nat} {held : Nat → Nat} {L L' : List Nat}
    (m : Mem hash pend h next held L) (hp : ∀ i, i ∈ L' ↔ i ∈ L) : Mem hash pend h next held L' :=
  ⟨m.lt, m.ref, fun i e he => by rw [hp]; exact m.lk i e he, fun i e he hi => m.hv i e he ((hp i).mp hi),
   fun i hi => m.alive i ((hp i).mp hi), fun i x hx => by rw [hp]; exact m.pnd i x hx, m.hld,
   fun i e he hi => m.live i e he (fun h => hi ((hp i).mpr h))⟩

section
variable {hash : Key → Nat} {pend : Nat → Option KV} {h : Heap} {next : Nat} {held : Nat → Nat} {L : List Nat}

theorem Mem.next_free (m : Mem hash pend h next held L) : h next = none ∧ next ∉ L ∧ pend next = none ∧ held next = 0 := by
  have h1 : h next = none := by
    cases hx : h next with
    | none => rfl
    | some e => exact absurd (m.lt next e hx) (by omega)
  refine ⟨h1, ?_, ?_, ?_⟩
  · intro hx; obtain ⟨e, he⟩ := m.alive next hx; rw [h1] at he; cases he
  · cases hx : pend next with
    | none => rfl
    | some x => obtain ⟨-, -, e, he, -⟩ := m.pnd next x hx; rw [h1] at he; cases he
  · rcases Nat.eq_zero_or_pos (held next) with h0 | h0
    · exact h0
    · obtain ⟨e, he⟩ := m.hld next h0; rw [h1] at he; cases he

theorem Mem.alloc (m : Mem hash pend h next held L) (key val : List Nat) :
    Mem hash (upd pend next (some (key, val))) (upd h next (some ⟨0, false, 0, key, val⟩)) (next + 1) held L := by
  obtain ⟨f1, f2, f3, f4⟩ := m.next_free
  refine ⟨?_, ?_, ?_, ?_, ?_, ?_, ?_, ?_⟩
  · intro i e he
    by_cases hi : i = next
    · omega
    · rw [upd_ne _ _ hi] at he; have := m.lt i e he; omega
  · intro i e he
    by_cases hi : i = next
    · subst hi; rw [upd_self] at he; injection he with he; subst he; exact f4.symm
    · rw [upd_ne _ _ hi] at he; exact m.ref i e he
  · intro i e he
    by_cases hi : i = next
    · subst hi; rw [upd_self] at he; injection he with he; subst he; simp [f2]
    · rw [upd_ne _ _ hi] at he; exact m.lk i e he
  · intro i e he hL
    have hi : i ≠ next := by rintro rfl; exact f2 hL
    rw [upd_ne _ _ hi] at he; exact m.hv i e he hL
  · intro i hL
    have hi : i ≠ next := by rintro rfl; exact f2 hL
    rw [upd_ne _ _ hi]; exact m.alive i hL
  · intro i x hx
    by_cases hi : i = next
    · subst hi; rw [upd_self] at hx; injection hx with hx; subst hx
      exact ⟨f2, f4, _, upd_self _ _ _, rfl⟩
    · rw [upd_ne _ _ hi] at hx ⊢; exact m.pnd i x hx
  · intro i hx
    have hi : i ≠ next := by rintro rfl; omega
    rw [upd_ne _ _ hi]; exact m.hld i hx
  · intro i e he hL hp
    have hi : i ≠ next := by rintro rfl; rw [upd_self] at hp; cases hp
    rw [upd_ne _ _ hi] at he hp; exact m.live i e he hL hp

theorem Mem.alloc_keep (m : Mem hash pend h next held L) (e : Elem) : Keep held h (upd h next (some e)) := by
  intro i hi _
  have : i ≠ next := by rintro rfl; have := m.next_free.2.2.2; omega
  simp [kv, upd_ne _ _ this]

theorem Mem.free (m : Mem hash pend h next held L) {i : Nat} {x : KV} (hp : pend i = some x) :
    elemFree h i = some (upd h i none) ∧ (∃ e, h i = some e ∧ e.linked = false) ∧
    Mem hash (upd pend i none) (upd h i none) next held L ∧ Keep held h (upd h i none) := by
  obtain ⟨p1, p2, e, p3, p4⟩ := m.pnd i x hp
  have hl : e.linked = false := by
    cases hx : e.linked with
    | false => rfl
    | true => exact absurd ((m.lk i e p3).mp hx) p1
  refine ⟨?_, ⟨e, p3, hl⟩, ?_, ?_⟩
  · simp [elemFree, p3, m.ref i e p3, p2]
  · refine ⟨?_, ?_, ?_, ?_, ?_, ?_, ?_, ?_⟩
    · intro j e he
      by_cases hi : j = i
      · subst hi; rw [upd_self] at he; cases he
      · rw [upd_ne _ _ hi] at he; exact m.lt j e he
    · intro j e he
      by_cases hi : j = i
      · subst hi; rw [upd_self] at he; cases he
      · rw [upd_ne _ _ hi] at he; exact m.ref j e he
    · intro j e he
      by_cases hi : j = i
      · subst hi; rw [upd_self] at he; cases he
      · rw [upd_ne _ _ hi] at he; exact m.lk j e he
    · intro j e he
      by_cases hi : j = i
      · subst hi; rw [upd_self] at he; cases he
      · rw [upd_ne _ _ hi] at he; exact m.hv j e he
    · intro j hj
      have hi : j ≠ i := by rintro rfl; exact p1 hj
      rw [upd_ne _ _ hi]; exact m.alive j hj
    · intro j y hy
      by_cases hi : j = i
      · subst hi; rw [upd_self] at hy; cases hy
      · rw [upd_ne _ _ hi] at hy ⊢; exact m.pnd j y hy
    · intro j hj
      have hi : j ≠ i := by rintro rfl; omega
      rw [upd_ne _ _ hi]; exact m.hld j hj
    · intro j e he hL hq
      by_cases hi : j = i
      · subst hi; rw [upd_self] at he; cases he
      · rw [upd_ne _ _ hi] at he hq; exact m.live j e he hL hq
  · intro j hj _
    have hi : j ≠ i := by rintro rfl; omega
    simp [kv, upd_ne _ _ hi]

/-- Linking a pending element. -/
theorem Mem.link (m : Mem hash pend h next held L) {i : Nat} {x : KV} (hp : pend i = some x) :
    ∃ h', markLinked h i (hash x.1) = some h' ∧ Mem hash (upd pend i none) h' next held (i :: L) ∧
      (∀ j, kv h' j = kv h j) ∧ (∀ j, j ≠ i → h' j = h j) ∧ (h' i).map Elem.hval = some (hash x.1) := by
  obtain ⟨p1, p2, e, p3, p4⟩ := m.pnd i x hp
  refine ⟨upd h i (some { e with linked := true, hval := hash x.1 }), by simp [markLinked, p3], ?_, ?_, ?_, ?_⟩
  · refine ⟨?_, ?_, ?_, ?_, ?_, ?_, ?_, ?_⟩
    · intro j e' he
      by_cases hi : j = i
      · subst hi; exact m.lt j e p3
      · rw [upd_ne _ _ hi] at he; exact m.lt j e' he
    · intro j e' he
      by_cases hi : j = i
      · subst hi; rw [upd_self] at he; injection he with he; subst he; exact m.ref j e p3
      · rw [upd_ne _ _ hi] at he; exact m.ref j e' he
    · intro j e' he
      by_cases hi : j = i
      · subst hi; rw [upd_self] at he; injection he with he; subst he; simp
      · rw [upd_ne _ _ hi] at he; rw [m.lk j e' he]; simp [hi]
    · intro j e' he hj
      by_cases hi : j = i
      · subst hi; rw [upd_self] at he; injection he with he; subst he; simp [← p4]
      · rw [upd_ne _ _ hi] at he
        exact m.hv j e' he (by simpa [hi] using hj)
    · intro j hj
      by_cases hi : j = i
      · subst hi; exact ⟨_, upd_self _ _ _⟩
      · rw [upd_ne _ _ hi]; exact m.alive j (by simpa [hi] using hj)
    · intro j y hy
      by_cases hi : j = i
      · subst hi; rw [upd_self] at hy; cases hy
      · rw [upd_ne _ _ hi] at hy ⊢
        obtain ⟨q1, q2, q3⟩ := m.pnd j y hy
        exact ⟨by simp [hi, q1], q2, q3⟩
    · intro j hj
      have hi : j ≠ i := by rintro rfl; omega
      rw [upd_ne _ _ hi]; exact m.hld j hj
    · intro j e' he hL hq
      have hi : j ≠ i := by rintro rfl; simp at hL
      rw [upd_ne _ _ hi] at he hq
      exact m.live j e' he (by intro h; exact hL (by simp [h])) hq
  · intro j
    by_cases hi : j = i
    · subst hi; simp [kv, upd_self, p3]
    · simp [kv, upd_ne _ _ hi]
  · intro j hi; exact upd_ne _ _ hi
  · simp [upd_self]

/-- Unlinking one element. -/
theorem Mem.unlink (m : Mem hash pend h next held (i :: L)) (hni : i ∉ L) :
    ∃ h', markUnlinked h i = some h' ∧ Mem hash pend h' next held L ∧ (∀ j, (h' j).isSome → kv h' j = kv h j) ∧ (∀ j, j ≠ i → h' j = h j) := by
  obtain ⟨e, he⟩ := m.alive i (by simp)
  have hpi : pend i = none := by
    cases hx : pend i with
    | none => rfl
    | some x => exact absurd (List.mem_cons_self) (m.pnd i x hx).1
  have hr := m.ref i e he
  by_cases h0 : e.refcount = 0
  · refine ⟨upd h i none, ?_, ?_, ?_, fun j hj => upd_ne _ _ hj⟩
    · simp only [markUnlinked, he, if_pos h0, elemFree, upd_self]
      rw [if_neg (by simp [h0])]
      congr 1
      funext j; by_cases hj : j = i <;> simp [upd, hj]
    · refine ⟨?_, ?_, ?_, ?_, ?_, ?_, ?_, ?_⟩
      · intro j e' he'
        by_cases hi : j = i
        · subst hi; rw [upd_self] at he'; cases he'
        · rw [upd_ne _ _ hi] at he'; exact m.lt j e' he'
      · intro j e' he'
        by_cases hi : j = i
        · subst hi; rw [upd_self] at he'; cases he'
        · rw [upd_ne _ _ hi] at he'; exact m.ref j e' he'
      · intro j e' he'
        by_cases hi : j = i
        · subst hi; rw [upd_self] at he'; cases he'
        · rw [upd_ne _ _ hi] at he'; rw [m.lk j e' he']; simp [hi]
      · intro j e' he' hj
        by_cases hi : j = i
        · subst hi; rw [upd_self] at he'; cases he'
        · rw [upd_ne _ _ hi] at he'; exact m.hv j e' he' (by simp [hj])
      · intro j hj
        have hi : j ≠ i := by rintro rfl; exact hni hj
        rw [upd_ne _ _ hi]; exact m.alive j (by simp [hj])
      · intro j y hy
        have hi : j ≠ i := by rintro rfl; rw [hpi] at hy; cases hy
        rw [upd_ne _ _ hi]
        obtain ⟨q1, q2, q3⟩ := m.pnd j y hy
        exact ⟨fun h => q1 (by simp [h]), q2, q3⟩
      · intro j hj
        have hi : j ≠ i := by rintro rfl; omega
        rw [upd_ne _ _ hi]; exact m.hld j hj
      · intro j e' he' hL hq
        by_cases hi : j = i
        · subst hi; rw [upd_self] at he'; cases he'
        · rw [upd_ne _ _ hi] at he'
          exact m.live j e' he' (by simp [hi, hL]) hq
    · intro j hj
      by_cases hi : j = i
      · subst hi; rw [upd_self] at hj; cases hj
      · simp [kv, upd_ne _ _ hi]
  · refine ⟨upd h i (some { e with linked := false }), ?_, ?_, ?_, fun j hj => upd_ne _ _ hj⟩
    · simp [markUnlinked, he, h0]
    · refine ⟨?_, ?_, ?_, ?_, ?_, ?_, ?_, ?_⟩
      · intro j e' he'
        by_cases hi : j = i
        · subst hi; exact m.lt j e he
        · rw [upd_ne _ _ hi] at he'; exact m.lt j e' he'
      · intro j e' he'
        by_cases hi : j = i
        · subst hi; rw [upd_self] at he'; injection he' with he'; subst he'; exact hr
        · rw [upd_ne _ _ hi] at he'; exact m.ref j e' he'
      · intro j e' he'
        by_cases hi : j = i
        · subst hi; rw [upd_self] at he'; injection he' with he'; subst he'; simp [hni]
        · rw [upd_ne _ _ hi] at he'; rw [m.lk j e' he']; simp [hi]
      · intro j e' he' hj
        have hi : j ≠ i := by rintro rfl; exact hni hj
        rw [upd_ne _ _ hi] at he'; exact m.hv j e' he' (by simp [hj])
      · intro j hj
        have hi : j ≠ i := by rintro rfl; exact hni hj
        rw [upd_ne _ _ hi]; exact m.alive j (by simp [hj])
      · intro j y hy
        have hi : j ≠ i := by rintro rfl; rw [hpi] at hy; cases hy
        rw [upd_ne _ _ hi]
        obtain ⟨q1, q2, q3⟩ := m.pnd j y hy
        exact ⟨fun h => q1 (by simp [h]), q2, q3⟩
      · intro j hj
        by_cases hi : j = i
        · subst hi; exact ⟨_, upd_self _ _ _⟩
        · rw [upd_ne _ _ hi]; exact m.hld j hj
      · intro j e' he' hL hq
        by_cases hi : j = i
        · subst hi; omega
        · rw [upd_ne _ _ hi] at he'
          exact m.live j e' he' (by simp [hi, hL]) hq
    · intro j hj
      by_cases hi : j = i
      · subst hi; simp [kv, upd_self, he]
      · simp [kv, upd_ne _ _ hi]

end

variable {hash : Key → Nat} {pend : Nat → Option KV} {next : Nat}

theorem Mem.unlinkAll {h : Heap} {held : Nat → Nat} {D L : List Nat} (m : Mem hash pend h next held (D ++ L)) (hnd : (D ++ L).Nodup) :
    ∃ h', unlinkAll h D = some h' ∧ Mem hash pend h' next held L ∧ (∀ j, (h' j).isSome → kv h' j = kv h j) ∧ (∀ j, j ∉ D → h' j = h j) := by
  induction D generalizing h with
  | nil => exact ⟨h, rfl, m, fun _ _ => rfl, fun _ _ => rfl⟩
  | cons i D ih =>
    rw [List.cons_append, List.nodup_cons] at hnd
    obtain ⟨h1, k1, k2, k3, k4⟩ := m.unlink hnd.1
    obtain ⟨h2, q1, q2, q3, q4⟩ := ih k2 hnd.2
    refine ⟨h2, by simp [HT.unlinkAll, k1, q1], q2, ?_, ?_⟩
    · intro j hj
      have := q3 j hj
      rw [this]
      apply k3
      cases hx : h1 j with
      | some e => rfl
      | none =>
        simp only [kv, hx, Option.map_none, Option.map_eq_none_iff] at this
        rw [this] at hj; cases hj
    · intro j hj
      simp only [List.mem_cons, not_or] at hj
      rw [q4 j hj.2, k4 j hj.1]

theorem Mem.refOne {h : Heap} {held : Nat → Nat} {i : Nat} {L : List Nat} (m : Mem hash pend h next held L) (hi : i ∈ L) {e : Elem} (he : h i = some e) :
    Mem hash pend (upd h i (some { e with refcount := e.refcount + 1 })) next (upd held i (held i + 1)) L := by
  have hpi : pend i = none := by
    cases hx : pend i with
    | none => rfl
    | some x => exact absurd hi (m.pnd i x hx).1
  refine ⟨?_, ?_, ?_, ?_, ?_, ?_, ?_, ?_⟩
  · intro j e' he'
    by_cases hj : j = i
    · subst hj; exact m.lt j e he
    · rw [upd_ne _ _ hj] at he'; exact m.lt j e' he'
  · intro j e' he'
    by_cases hj : j = i
    · subst hj; rw [upd_self] at he' ⊢; injection he' with he'; subst he'; simp [m.ref j e he]
    · rw [upd_ne _ _ hj] at he' ⊢; exact m.ref j e' he'
  · intro j e' he'
    by_cases hj : j = i
    · subst hj; rw [upd_self] at he'; injection he' with he'; subst he'; exact m.lk j e he
    · rw [upd_ne _ _ hj] at he'; exact m.lk j e' he'
  · intro j e' he'
    by_cases hj : j = i
    · subst hj; rw [upd_self] at he'; injection he' with he'; subst he'; exact m.hv j e he
    · rw [upd_ne _ _ hj] at he'; exact m.hv j e' he'
  · intro j hL
    by_cases hj : j = i
    · subst hj; exact ⟨_, upd_self _ _ _⟩
    · rw [upd_ne _ _ hj]; exact m.alive j hL
  · intro j x hx
    have hj : j ≠ i := by rintro rfl; rw [hpi] at hx; cases hx
    rw [upd_ne _ _ hj, upd_ne _ _ hj]; exact m.pnd j x hx
  · intro j hx
    by_cases hj : j = i
    · subst hj; exact ⟨_, upd_self _ _ _⟩
    · rw [upd_ne _ _ hj] at hx; rw [upd_ne _ _ hj]; exact m.hld j hx
  · intro j e' he' hL hq
    have hj : j ≠ i := by rintro rfl; exact hL hi
    rw [upd_ne _ _ hj] at he' ⊢; exact m.live j e' he' hL hq

theorem Mem.refAll {h : Heap} {held : Nat → Nat} {D L : List Nat} (m : Mem hash pend h next held L) (hnd : D.Nodup) (hD : ∀ i ∈ D, i ∈ L)
    (hh : ∀ i ∈ D, held i < 65535) :
    ∃ h', refAll h D = some h' ∧ Mem hash pend h' next (fun i => held i + D.count i) L ∧ (∀ j, kv h' j = kv h j) ∧
      (∀ j, (h' j).map Elem.hval = (h j).map Elem.hval) := by
  induction D generalizing h held with
  | nil => exact ⟨h, rfl, by simpa using m, fun _ => rfl, fun _ => rfl⟩
  | cons i D ih =>
    rw [List.nodup_cons] at hnd
    obtain ⟨e, he⟩ := m.alive i (hD i (by simp))
    have hr := m.ref i e he
    have hlt := hh i (by simp)
    have m' := m.refOne (hD i (by simp)) he
    obtain ⟨h', q1, q2, q3, q4⟩ := ih m' hnd.2 (fun j hj => hD j (by simp [hj])) (by
      intro j hj
      have : j ≠ i := by rintro rfl; exact hnd.1 hj
      rw [upd_ne _ _ this]; exact hh j (by simp [hj]))
    refine ⟨h', ?_, ?_, ?_, ?_⟩
    · simp only [HT.refAll, he]
      rw [Nat.mod_eq_of_lt (by omega)]; exact q1
    · have : (fun j => upd held i (held i + 1) j + D.count j) = fun j => held j + (i :: D).count j := by
        funext j
        by_cases hj : j = i
        · subst hj; rw [upd_self, List.count_cons_self]; omega
        · rw [upd_ne _ _ hj, List.count_cons_of_ne (by simpa using Ne.symm hj)]
      rw [this] at q2; exact q2
    · intro j
      rw [q3 j]
      by_cases hj : j = i
      · subst hj; simp [kv, upd_self, he]
      · simp [kv, upd_ne _ _ hj]
    · intro j
      rw [q4 j]
      by_cases hj : j = i
      · subst hj; simp [upd_self, he]
      · simp [upd_ne _ _ hj]

theorem Mem.release {h : Heap} {held : Nat → Nat} {L : List Nat} (m : Mem hash pend h next held L) {i : Nat} (hi : 0 < held i) :
    ∃ h', elemRelease h i = some h' ∧ Mem hash pend h' next (upd held i (held i - 1)) L ∧
      (∀ j, (h' j).isSome → kv h' j = kv h j) ∧ (∀ j ∈ L, (h' j).map Elem.hval = (h j).map Elem.hval ∧ kv h' j = kv h j) := by
  obtain ⟨e, he⟩ := m.hld i hi
  have hr := m.ref i e he
  have hpi : pend i = none := by
    cases hx : pend i with
    | none => rfl
    | some x => have := (m.pnd i x hx).2.1; omega
  by_cases hfree : e.refcount - 1 = 0 ∧ e.linked = false
  · have hni : i ∉ L := by intro h; have := (m.lk i e he).mpr h; rw [hfree.2] at this; cases this
    refine ⟨upd h i none, ?_, ?_, ?_, ?_⟩
    · simp only [elemRelease, he]
      rw [if_pos (by rw [if_pos (by omega)]; exact hfree)]
      simp only [elemFree, upd_self, if_pos (show e.refcount ≠ 0 by omega)]
      rw [if_neg (by omega)]
      congr 1
      funext j; by_cases hj : j = i <;> simp [upd, hj]
    · refine ⟨?_, ?_, ?_, ?_, ?_, ?_, ?_, ?_⟩
      · intro j e' he'
        by_cases hj : j = i
        · subst hj; rw [upd_self] at he'; cases he'
        · rw [upd_ne _ _ hj] at he'; exact m.lt j e' he'
      · intro j e' he'
        by_cases hj : j = i
        · subst hj; rw [upd_self] at he'; cases he'
        · rw [upd_ne _ _ hj] at he' ⊢; exact m.ref j e' he'
      · intro j e' he'
        by_cases hj : j = i
        · subst hj; rw [upd_self] at he'; cases he'
        · rw [upd_ne _ _ hj] at he'; exact m.lk j e' he'
      · intro j e' he'
        by_cases hj : j = i
        · subst hj; rw [upd_self] at he'; cases he'
        · rw [upd_ne _ _ hj] at he'; exact m.hv j e' he'
      · intro j hL
        have hj : j ≠ i := by rintro rfl; exact hni hL
        rw [upd_ne _ _ hj]; exact m.alive j hL
      · intro j x hx
        have hj : j ≠ i := by rintro rfl; rw [hpi] at hx; cases hx
        rw [upd_ne _ _ hj, upd_ne _ _ hj]; exact m.pnd j x hx
      · intro j hx
        have hj : j ≠ i := by rintro rfl; rw [upd_self] at hx; omega
        rw [upd_ne _ _ hj] at hx ⊢; exact m.hld j hx
      · intro j e' he' hL hq
        by_cases hj : j = i
        · subst hj; rw [upd_self] at he'; cases he'
        · rw [upd_ne _ _ hj] at he' ⊢; exact m.live j e' he' hL hq
    · intro j hj
      by_cases hi : j = i
      · subst hi; rw [upd_self] at hj; cases hj
      · simp [kv, upd_ne _ _ hi]
    · intro j hj
      have hi : j ≠ i := by rintro rfl; exact hni hj
      simp [kv, upd_ne _ _ hi]
  · refine ⟨upd h i (some { e with refcount := e.refcount - 1 }), ?_, ?_, ?_, ?_⟩
    · simp only [elemRelease, he]
      rw [if_neg (by rw [if_pos (by omega)]; exact hfree), if_pos (by omega)]
    · refine ⟨?_, ?_, ?_, ?_, ?_, ?_, ?_, ?_⟩
      · intro j e' he'
        by_cases hj : j = i
        · subst hj; exact m.lt j e he
        · rw [upd_ne _ _ hj] at he'; exact m.lt j e' he'
      · intro j e' he'
        by_cases hj : j = i
        · subst hj; rw [upd_self] at he' ⊢; injection he' with he'; subst he'; simp [hr]
        · rw [upd_ne _ _ hj] at he' ⊢; exact m.ref j e' he'
      · intro j e' he'
        by_cases hj : j = i
        · subst hj; rw [upd_self] at he'; injection he' with he'; subst he'; exact m.lk j e he
        · rw [upd_ne _ _ hj] at he'; exact m.lk j e' he'
      · intro j e' he'
        by_cases hj : j = i
        · subst hj; rw [upd_self] at he'; injection he' with he'; subst he'; exact m.hv j e he
        · rw [upd_ne _ _ hj] at he'; exact m.hv j e' he'
      · intro j hL
        by_cases hj : j = i
        · subst hj; exact ⟨_, upd_self _ _ _⟩
        · rw [upd_ne _ _ hj]; exact m.alive j hL
      · intro j x hx
        have hj : j ≠ i := by rintro rfl; rw [hpi] at hx; cases hx
        rw [upd_ne _ _ hj, upd_ne _ _ hj]; exact m.pnd j x hx
      · intro j hx
        by_cases hj : j = i
        · subst hj; exact ⟨_, upd_self _ _ _⟩
        · rw [upd_ne _ _ hj] at hx ⊢; exact m.hld j hx
      · intro j e' he' hL hq
        by_cases hj : j = i
        · subst hj; rw [upd_self] at he' ⊢; injection he' with he'; subst he'
          have : e.linked = false := by
            cases hx : e.linked with
            | false => rfl
            | true => exact absurd ((m.lk j e he).mp hx) hL
          have : e.refcount - 1 ≠ 0 := fun h => hfree ⟨h, this⟩
          omega
        · rw [upd_ne _ _ hj] at he' ⊢; exact m.live j e' he' hL hq
    · intro j hj
      by_cases hi : j = i
      · subst hi; simp [kv, upd_self, he]
      · simp [kv, upd_ne _ _ hi]
    · intro j hj
      by_cases hi : j = i
      · subst hi; simp [kv, upd_self, he]
      · simp [kv, upd_ne _ _ hi]

/-- Overwriting the value of an element nobody holds. -/
theorem Mem.write {h : Heap} {held : Nat → Nat} {L : List Nat} (m : Mem hash pend h next held L) {i : Nat} (hi : i ∈ L) {e : Elem} (he : h i = some e)
    (v : List Nat) : Mem hash pend (upd h i (some { e with val := v })) next held L := by
  have hpi : pend i = none := by
    cases hx : pend i with
    | none => rfl
    | some x => exact absurd hi (m.pnd i x hx).1
  refine ⟨?_, ?_, ?_, ?_, ?_, ?_, ?_, ?_⟩
  · intro j e' he'
    by_cases hj : j = i
    · subst hj; exact m.lt j e he
    · rw [upd_ne _ _ hj] at he'; exact m.lt j e' he'
  · intro j e' he'
    by_cases hj : j = i
    · subst hj; rw [upd_self] at he'; injection he' with he'; subst he'; exact m.ref j e he
    · rw [upd_ne _ _ hj] at he'; exact m.ref j e' he'
  · intro j e' he'
    by_cases hj : j = i
    · subst hj; rw [upd_self] at he'; injection he' with he'; subst he'; exact m.lk j e he
    · rw [upd_ne _ _ hj] at he'; exact m.lk j e' he'
  · intro j e' he'
    by_cases hj : j = i
    · subst hj; rw [upd_self] at he'; injection he' with he'; subst he'; exact m.hv j e he
    · rw [upd_ne _ _ hj] at he'; exact m.hv j e' he'
  · intro j hL
    by_cases hj : j = i
    · subst hj; exact ⟨_, upd_self _ _ _⟩
    · rw [upd_ne _ _ hj]; exact m.alive j hL
  · intro j x hx
    have hj : j ≠ i := by rintro rfl; rw [hpi] at hx; cases hx
    rw [upd_ne _ _ hj]; exact m.pnd j x hx
  · intro j hx
    by_cases hj : j = i
    · subst hj; exact ⟨_, upd_self _ _ _⟩
    · rw [upd_ne _ _ hj]; exact m.hld j hx
  · intro j e' he' hL hq
    have hj : j ≠ i := by rintro rfl; exact hL hi
    rw [upd_ne _ _ hj] at he'; exact m.live j e' he' hL hq

end Verif.HT
