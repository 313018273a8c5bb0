import Verif.Lemmas.LruTime
/-! The sums in the statistics. -/
namespace Verif.Lru
open Spec

variable {M : Type} {cfg : Cfg} {sl : Slabs M} {op : Op} {out : Out}

/-- 2^64. -/
abbrev W : Nat := 18446744073709551616

theorem add64_mod (a b : Nat) : add64 (a % W) b = (a + b) % W := by
  unfold add64
  rw [Nat.mod_add_mod]

theorem sub64_mod (a b : Nat) : sub64 ((a + b) % W) b = a % W := by
  unfold sub64
  simp only [W]
  omega

theorem rep64_mod (a b c : Nat) : add64 ((a + b) % W) (sub64 c b) = (a + c) % W := by
  unfold add64 sub64
  simp only [W]
  omega

/-- What an item adds. -/
def val (s : St M) (f : It → Nat) (i : Id) : Nat := match s.heap i with | some it => f it | none => 0

theorem total_eq (s : St M) (f : It → Nat) : total s f = (s.tbl.map (val s f)).sum := rfl

theorem val_some {s : St M} {f : It → Nat} {i it} (hi : s.heap i = some it) : val s f i = f it := by
  unfold val
  rw [hi]

theorem sum_congr (l : List Id) (f g : Id → Nat) (h : ∀ i ∈ l, f i = g i) : (l.map f).sum = (l.map g).sum := by
  rw [List.map_congr_left h]

theorem sum_erase {l : List Id} {i : Id} (f : Id → Nat) (h : i ∈ l) : (l.map f).sum = f i + ((l.erase i).map f).sum := by
  have hp := (List.perm_cons_erase h).map f
  rw [hp.sum_nat, List.map_cons, List.sum_cons]

theorem total_same {s t : St M} {f : It → Nat} (ht : t.tbl = s.tbl) (hv : ∀ i ∈ s.tbl, val t f i = val s f i) : total t f = total s f := by
  rw [total_eq, total_eq, ht]
  exact sum_congr _ _ _ hv

theorem val_upd {s t : St M} {f : It → Nat} {i : Id} {o : Option It} (ht : t.heap = upd s.heap i o) {j : Id} (hj : j ≠ i) : val t f j = val s f j := by
  unfold val
  rw [ht, upd_other hj]

theorem inTbl {s : St M} (h : Inv s) {i it} (hi : s.heap i = some it) (hl : it.linked = true) : i ∈ s.tbl := (h.wf.t_mem i).2 ⟨it, hi, hl⟩

theorem notTbl {s : St M} (h : Inv s) {i it} (hi : s.heap i = some it) (hl : it.linked = false) : i ∉ s.tbl := by
  rw [h.wf.t_mem]
  rintro ⟨x, x1, x2⟩
  rw [hi] at x1
  cases x1
  rw [hl] at x2
  cases x2

/-- An item leaves. -/
theorem total_leave {s t : St M} (h : Inv s) {f : It → Nat} {i it} {o : Option It} (hi : s.heap i = some it) (hl : it.linked = true)
    (ht : t.heap = upd s.heap i o) (he : t.tbl = s.tbl.erase i) : total s f = total t f + f it := by
  rw [total_eq, total_eq, sum_erase _ (inTbl h hi hl), val_some hi, he, Nat.add_comm]
  congr 1
  refine sum_congr _ _ _ fun j hj => (val_upd ht ?_).symm
  rintro rfl
  exact (h.wf.t_nd.mem_erase_iff.1 hj).1 rfl

/-- An item in the table changes. -/
theorem total_upd {s t : St M} (h : Inv s) {f : It → Nat} {i it it'} (hi : s.heap i = some it) (hl : it.linked = true)
    (ht : t.heap = upd s.heap i (some it')) (he : t.tbl = s.tbl) : total s f + f it' = total t f + f it := by
  rw [total_eq, total_eq, sum_erase _ (inTbl h hi hl), he, sum_erase (val t f) (inTbl h hi hl), val_some hi,
    val_some (s := t) (it := it') (by rw [ht, upd_same])]
  have : ((s.tbl.erase i).map (val s f)).sum = ((s.tbl.erase i).map (val t f)).sum := by
    refine sum_congr _ _ _ fun j hj => (val_upd ht ?_).symm
    rintro rfl
    exact (h.wf.t_nd.mem_erase_iff.1 hj).1 rfl
  omega

/-- An item that is not in the table changes. -/
theorem total_out {s t : St M} {f : It → Nat} {i o} (hn : i ∉ s.tbl) (ht : t.heap = upd s.heap i o) (he : t.tbl = s.tbl) :
    total t f = total s f :=
  total_same he fun j hj => val_upd ht fun e => hn (e ▸ hj)

/-- An item is put into the table. -/
theorem total_enter {s t : St M} {f : It → Nat} {i it'} (hn : i ∉ s.tbl) (ht : t.heap = upd s.heap i (some it')) (he : t.tbl = i :: s.tbl) :
    total t f = total s f + f it' := by
  rw [total_eq, total_eq, he, List.map_cons, List.sum_cons, val_some (s := t) (it := it') (by rw [ht, upd_same]), Nat.add_comm]
  congr 1
  exact sum_congr _ _ _ fun j hj => val_upd ht fun e => hn (e ▸ hj)

theorem swap_perm {t : List Id} {old new : Id} (ho : old ∈ t) (hn : t.Nodup) : (t.map fun i => if i = old then new else i).Perm (new :: t.erase old) := by
  have h1 := (List.perm_cons_erase ho).map fun i => if i = old then new else i
  rw [List.map_cons, if_pos rfl] at h1
  have h2 : ((t.erase old).map fun i => if i = old then new else i) = t.erase old := by
    conv => rhs; rw [← List.map_id (t.erase old)]
    refine List.map_congr_left fun i hi => ?_
    rw [if_neg (hn.mem_erase_iff.1 hi).1]
    rfl
  rw [h2] at h1
  exact h1

/-- An item is replaced. -/
theorem total_swap {s : St M} (h : Inv s) {f : It → Nat} {o n : It} {old new : Id} (ho : s.heap old = some o) (hn : s.heap new = some n)
    (lo : o.linked = true) (ln : n.linked = false) :
    total s f + f { n with linked := true, inQ := true, time := s.now } = total (replaced sl s o n old new) f + f o := by
  have hne := swap_ne ho hn lo ln
  have hot := inTbl h ho lo
  have hnt := notTbl h hn ln
  have he : (replaced sl s o n old new).tbl = s.tbl.map fun i => if i = old then new else i := rfl
  rw [total_eq, total_eq, sum_erase _ hot, val_some ho, he, ((swap_perm hot h.wf.t_nd).map _).sum_nat, List.map_cons, List.sum_cons,
    val_some (s := replaced sl s o n old new) (it := { n with linked := true, inQ := true, time := s.now }) (by rw [replaced_heap hne, upd_same])]
  have : ((s.tbl.erase old).map (val s f)).sum = ((s.tbl.erase old).map (val (replaced sl s o n old new) f)).sum := by
    refine sum_congr _ _ _ fun j hj => ?_
    obtain ⟨h1, h2⟩ := h.wf.t_nd.mem_erase_iff.1 hj
    unfold val
    rw [replaced_heap hne, upd_other (show j ≠ new by rintro rfl; exact hnt h2), upd_other h1]
  omega

/-! ### The four numbers -/

/-- One for each item. -/
def one (_ : It) : Nat := 1
/-- One for each sticky item. -/
def sOne (it : It) : Nat := if it.exp = sticky then 1 else 0
/-- The space of sticky items. -/
def sSize (it : It) : Nat := if it.exp = sticky then it.size else 0

/-- The numbers of items and bytes are right. -/
def Sums (s : St M) : Prop := s.stats.currItems = total s one % W ∧ s.stats.currBytes = total s It.size % W

/-- The numbers of sticky items and bytes are right. -/
def StickySums (s : St M) : Prop := s.stats.stickyItems = total s sOne % W ∧ s.stats.stickyBytes = total s sSize % W

theorem Sums.leave {s t : St M} (h : Inv s) (hs : Sums s) {i it} {o : Option It} (hi : s.heap i = some it) (hl : it.linked = true)
    (ht : t.heap = upd s.heap i o) (he : t.tbl = s.tbl.erase i) (h4 : Same4 t.stats (statUnlink s.stats it)) : Sums t := by
  obtain ⟨e1, e2, _, _⟩ := h4
  have t1 := total_leave h (f := one) hi hl ht he
  have t2 := total_leave h (f := It.size) hi hl ht he
  refine ⟨?_, ?_⟩
  · rw [e1]; simp only [statUnlink]; rw [hs.1, t1]; exact sub64_mod _ _
  · rw [e2]; simp only [statUnlink]; rw [hs.2, t2]; exact sub64_mod _ _

theorem StickySums.leave {s t : St M} (h : Inv s) (hs : StickySums s) {i it} {o : Option It} (hi : s.heap i = some it) (hl : it.linked = true)
    (ht : t.heap = upd s.heap i o) (he : t.tbl = s.tbl.erase i) (h4 : Same4 t.stats (statUnlink s.stats it)) : StickySums t := by
  obtain ⟨_, _, e1, e2⟩ := h4
  have t1 := total_leave h (f := sOne) hi hl ht he
  have t2 := total_leave h (f := sSize) hi hl ht he
  refine ⟨?_, ?_⟩
  · rw [e1]; simp only [statUnlink]; rw [hs.1, t1]
    unfold sOne
    split
    · exact sub64_mod _ _
    · rfl
  · rw [e2]; simp only [statUnlink]; rw [hs.2, t2]
    unfold sSize
    split
    · exact sub64_mod _ _
    · rfl

theorem Sums.same {s t : St M} (hs : Sums s) (h1 : total t one = total s one) (h2 : total t It.size = total s It.size) (h4 : Same4 t.stats s.stats) : Sums t := by
  obtain ⟨e1, e2, _, _⟩ := h4
  exact ⟨by rw [e1, h1]; exact hs.1, by rw [e2, h2]; exact hs.2⟩

theorem StickySums.same {s t : St M} (hs : StickySums s) (h1 : total t sOne = total s sOne) (h2 : total t sSize = total s sSize)
    (h4 : Same4 t.stats s.stats) : StickySums t := by
  obtain ⟨_, _, e1, e2⟩ := h4
  exact ⟨by rw [e1, h1]; exact hs.1, by rw [e2, h2]; exact hs.2⟩

/-- A number of an item that does not depend on queue, time and references. -/
theorem total_quiet {s t : St M} {f : It → Nat} (he : t.tbl = s.tbl) {i it it'} (hi : s.heap i = some it) (ht : t.heap = upd s.heap i (some it'))
    (hf : f it' = f it) : total t f = total s f := by
  refine total_same he fun j _ => ?_
  by_cases hne : j = i
  · subst hne
    rw [val_some hi, val_some (s := t) (it := it') (by rw [ht, upd_same]), hf]
  · exact val_upd ht hne

theorem Act.sums {s t : St M} (a : Act cfg s t) (h : Inv s) : (Sums s → Sums t) ∧ (StickySums s → StickySums t) := by
  cases a with
  | @evict i it c st m hi hm _ _ _ h4 _ =>
    have hl := (h.wf.qOf hi (List.mem_of_getLast? hm)).1
    exact ⟨fun hs => hs.leave h hi hl rfl rfl h4, fun hs => hs.leave h hi hl rfl rfl h4⟩
  | @dead i it st m hi hl _ _ h4 _ => exact ⟨fun hs => hs.leave h hi hl rfl rfl h4, fun hs => hs.leave h hi hl rfl rfl h4⟩
  | @repair i it c st m hi hm _ _ _ h4 _ =>
    have hl := (h.wf.qOf hi hm).1
    exact ⟨fun hs => hs.leave h hi hl rfl rfl h4, fun hs => hs.leave h hi hl rfl rfl h4⟩
  | @drop i it c hi hm _ =>
    have q : ∀ f : It → Nat, f { it with inQ := false } = f it → total (offQ s it i) f = total s f := fun f hf => total_quiet (offQ_tbl ..) hi (offQ_heap hi) hf
    have h4 : Same4 (offQ s it i).stats s.stats := by rw [offQ_stats]; exact same4_refl _
    exact ⟨fun hs => hs.same (q _ rfl) (q _ rfl) h4, fun hs => hs.same (q _ rfl) (q _ rfl) h4⟩
  | marks => exact ⟨id, id⟩
  | other st m h4 _ => exact ⟨fun hs => hs.same rfl rfl h4, fun hs => hs.same rfl rfl h4⟩

theorem Mi.sums {s t : St M} (a : Mi cfg sl op out s t) (h : Inv s) : (Sums s → Sums t) ∧
    ((∀ i j it jt, op = .replace i j → s.heap i = some it → s.heap j = some jt → (it.exp = sticky ↔ jt.exp = sticky)) → StickySums s → StickySums t) := by
  cases a with
  | act a _ =>
    obtain ⟨h1, h2⟩ := a.sums h
    exact ⟨h1, fun _ => h2⟩
  | @remove i it m hi hl _ =>
    have h4 : Same4 (statUnlink s.stats it) (statUnlink s.stats it) := same4_refl _
    exact ⟨fun hs => hs.leave h hi hl rfl rfl h4, fun _ hs => hs.leave h hi hl rfl rfl h4⟩
  | @touch i it hi hl _ =>
    have q : ∀ f : It → Nat, f { it with inQ := true, time := s.now } = f it → total (touched s it i) f = total s f :=
      fun f hf => total_quiet (touched_env ..).2.2.2.2.1 hi (touched_heap hi) hf
    have h4 : Same4 (touched s it i).stats s.stats := by rw [(touched_env ..).2.2.2.2.2]; exact same4_refl _
    exact ⟨fun hs => hs.same (q _ rfl) (q _ rfl) h4, fun _ hs => hs.same (q _ rfl) (q _ rfl) h4⟩
  | @tweak i it it' hi tw _ _ =>
    have q : ∀ f : It → Nat, f it' = f it → total ({ s with heap := upd s.heap i (some it') } : St M) f = total s f := fun f hf => total_quiet rfl hi rfl hf
    have e1 : sOne it' = sOne it := by
      unfold sOne
      by_cases hx : it.exp = sticky
      · rw [if_pos hx, if_pos (tw.stick.2 hx)]
      · rw [if_neg hx, if_neg (fun e => hx (tw.stick.1 e))]
    have e2 : sSize it' = sSize it := by
      unfold sSize
      rw [tw.size]
      by_cases hx : it.exp = sticky
      · rw [if_pos hx, if_pos (tw.stick.2 hx)]
      · rw [if_neg hx, if_neg (fun e => hx (tw.stick.1 e))]
    exact ⟨fun hs => hs.same (q _ rfl) (q _ tw.size) (same4_refl _), fun _ hs => hs.same (q _ e1) (q _ e2) (same4_refl _)⟩
  | @grow i it n hi hl _ =>
    constructor
    · intro hs
      refine ⟨?_, ?_⟩
      · exact hs.1.trans (congrArg (· % W) (total_quiet (s := s) (f := one) (it' := { it with size := it.size + n }) (by rfl) hi (by rfl) (by rfl)).symm)
      · have t2 := total_upd h (f := It.size) (it' := { it with size := it.size + n }) hi hl rfl rfl (t := { s with heap := upd s.heap i (some { it with size := it.size + n }) })
        simp only [] at t2 ⊢
        rw [hs.2, add64_mod]
        congr 1
        have : total ({ s with heap := upd s.heap i (some { it with size := it.size + n }) } : St M) It.size = total s It.size + n := by omega
        exact this.symm
    · intro _ hs
      refine ⟨?_, ?_⟩
      · exact hs.1.trans (congrArg (· % W) (total_quiet (s := s) (f := sOne) (it' := { it with size := it.size + n }) (by rfl) hi (by rfl) (by rfl)).symm)
      · have t2 := total_upd h (f := sSize) (it' := { it with size := it.size + n }) hi hl rfl rfl (t := { s with heap := upd s.heap i (some { it with size := it.size + n }) })
        unfold sSize at t2
        simp only [] at t2 ⊢
        by_cases hx : it.exp = sticky
        · rw [if_pos hx, hs.2, add64_mod]
          simp only [if_pos hx] at t2
          congr 1
          have : total ({ s with heap := upd s.heap i (some { it with size := it.size + n }) } : St M) sSize = total s sSize + n := by
            unfold sSize; omega
          exact this.symm
        · rw [if_neg hx, hs.2]
          simp only [if_neg hx] at t2
          congr 1
  | @shrink i it n hi hl hn _ =>
    constructor
    · intro hs
      refine ⟨?_, ?_⟩
      · exact hs.1.trans (congrArg (· % W) (total_quiet (s := s) (f := one) (it' := { it with size := it.size - n }) (by rfl) hi (by rfl) (by rfl)).symm)
      · have t2 := total_upd h (f := It.size) (it' := { it with size := it.size - n }) hi hl rfl rfl (t := { s with heap := upd s.heap i (some { it with size := it.size - n }) })
        simp only [] at t2 ⊢
        have : total s It.size = total ({ s with heap := upd s.heap i (some { it with size := it.size - n }) } : St M) It.size + n := by omega
        rw [hs.2, this, sub64_mod]
        rfl
    · intro _ hs
      refine ⟨?_, ?_⟩
      · exact hs.1.trans (congrArg (· % W) (total_quiet (s := s) (f := sOne) (it' := { it with size := it.size - n }) (by rfl) hi (by rfl) (by rfl)).symm)
      · have t2 := total_upd h (f := sSize) (it' := { it with size := it.size - n }) hi hl rfl rfl (t := { s with heap := upd s.heap i (some { it with size := it.size - n }) })
        unfold sSize at t2
        simp only [] at t2 ⊢
        by_cases hx : it.exp = sticky
        · simp only [if_pos hx] at t2
          have : total s sSize = total ({ s with heap := upd s.heap i (some { it with size := it.size - n }) } : St M) sSize + n := by
            unfold sSize; omega
          rw [if_pos hx, hs.2, this, sub64_mod]
          rfl
        · rw [if_neg hx, hs.2]
          simp only [if_neg hx] at t2
          congr 1
  | @free i it m hi hl _ =>
    have q : ∀ f : It → Nat, total ({ s with heap := upd s.heap i none, mem := m } : St M) f = total s f := fun f => total_out (notTbl h hi hl) rfl rfl
    exact ⟨fun hs => hs.same (q _) (q _) (same4_refl _), fun _ hs => hs.same (q _) (q _) (same4_refl _)⟩
  | @new it hl _ =>
    have hn : s.next ∉ s.tbl := by
      rw [h.wf.t_mem]
      rintro ⟨x, x1, _⟩
      rw [h.wf.fresh _ (Nat.le_refl _)] at x1
      cases x1
    have q : ∀ f : It → Nat, total ({ s with heap := upd s.heap s.next (some it), next := s.next + 1 } : St M) f = total s f := fun f => total_out hn rfl rfl
    exact ⟨fun hs => hs.same (q _) (q _) (same4_refl _), fun _ hs => hs.same (q _) (q _) (same4_refl _)⟩
  | @link i it hi hl _ _ _ =>
    have q : ∀ f : It → Nat, total (linked s it i) f = total s f + f { it with linked := true, inQ := true, time := s.now } :=
      fun f => total_enter (notTbl h hi hl) (linked_heap ..) rfl
    constructor
    · intro hs
      refine ⟨?_, ?_⟩
      · rw [q]; simp only [linked, statLink]; rw [hs.1, add64_mod]; rfl
      · rw [q]; simp only [linked, statLink]; rw [hs.2, add64_mod]
    · intro _ hs
      refine ⟨?_, ?_⟩
      · rw [q]; simp only [linked, statLink]; rw [hs.1]
        unfold sOne
        simp only []
        split
        · rw [add64_mod]
        · rfl
      · rw [q]; simp only [linked, statLink]; rw [hs.2]
        unfold sSize
        simp only []
        split
        · rw [add64_mod]
        · rfl
  | @swap o n old new ho hn lo ln _ _ hop =>
    have q : ∀ f : It → Nat, total s f + f { n with linked := true, inQ := true, time := s.now } = total (replaced sl s o n old new) f + f o :=
      fun f => total_swap h ho hn lo ln
    have le : ∀ f : It → Nat, f o ≤ total s f := by
      intro f
      rw [total_eq, sum_erase _ (inTbl h ho lo), val_some ho]
      exact Nat.le_add_right _ _
    have key : ∀ f : It → Nat, add64 (total s f % W) (sub64 (f { n with linked := true, inQ := true, time := s.now }) (f o)) = total (replaced sl s o n old new) f % W := by
      intro f
      have h1 := q f
      have h2 := le f
      have e1 : total s f = (total s f - f o) + f o := by omega
      have e2 : total (replaced sl s o n old new) f = (total s f - f o) + f { n with linked := true, inQ := true, time := s.now } := by omega
      rw [e2]
      conv => lhs; rw [e1]
      exact rep64_mod _ _ _
    constructor
    · intro hs
      refine ⟨?_, ?_⟩
      · have h1 := q one
        have h1 : total (replaced sl s o n old new) one = total s one := by simp only [one] at h1; exact (Nat.add_right_cancel h1).symm
        show s.stats.currItems = total (replaced sl s o n old new) one % W
        rw [h1]; exact hs.1
      · show add64 s.stats.currBytes (sub64 n.size o.size) = total (replaced sl s o n old new) It.size % W
        rw [hs.2, ← key It.size]
    · intro hst hs
      have hx := hst old new o n hop ho hn
      refine ⟨?_, ?_⟩
      · have h1 := q sOne
        have h1 : total (replaced sl s o n old new) sOne = total s sOne := by
          have : sOne { n with linked := true, inQ := true, time := s.now } = sOne o := by
            unfold sOne
            by_cases hx2 : o.exp = sticky
            · rw [if_pos hx2, if_pos (hx.1 hx2)]
            · rw [if_neg hx2, if_neg (fun e => hx2 (hx.2 e))]
          rw [this] at h1
          exact (Nat.add_right_cancel h1).symm
        show s.stats.stickyItems = total (replaced sl s o n old new) sOne % W
        rw [h1]; exact hs.1
      · show (if n.exp = sticky then add64 s.stats.stickyBytes (sub64 n.size o.size) else s.stats.stickyBytes) = total (replaced sl s o n old new) sSize % W
        rw [hs.2, ← key sSize]
        unfold sSize
        simp only []
        by_cases hx2 : n.exp = sticky
        · rw [if_pos hx2, if_pos hx2, if_pos (hx.2 hx2)]
        · rw [if_neg hx2, if_neg hx2, if_neg (fun e => hx2 (hx.1 e))]
          have := rep64_mod (total s fun it => if it.exp = sticky then it.size else 0) 0 0
          simp only [Nat.add_zero] at this
          exact this.symm
  | marks => exact ⟨id, fun _ => id⟩
  | tick => exact ⟨id, fun _ => id⟩
  | mark => exact ⟨id, fun _ => id⟩
  | pmark => exact ⟨id, fun _ => id⟩
  | mem => exact ⟨id, fun _ => id⟩

theorem Mis.sums {s t : St M} (a : Mis cfg sl op out s t) (h : Inv s) (hs : Sums s) : Sums t := by
  induction a with
  | refl => exact hs
  | step a _ ih => exact ih (a.inv h) ((a.sums h).1 hs)

theorem Mis.sticky {s t : St M} (a : Mis cfg sl op out s t) (h : Inv s) (hn : ∀ i j, op ≠ .replace i j) (hs : StickySums s) : StickySums t := by
  induction a with
  | refl => exact hs
  | step a _ ih => exact ih (a.inv h) ((a.sums h).2 (fun i j _ _ e => absurd e (hn i j)) hs)

theorem calls_sums {s t : St M} {l} (hc : Calls cfg sl s l t) (h : Inv s) (hs : Sums s) : Sums t := by
  induction hc with
  | nil => exact hs
  | cons e _ ih => exact ih (step_inv h e) ((step_mis h e).sums h hs)

theorem step_sticky {s t : St M} (h : Inv s) (hst : Steady s op) (hs : StickySums s) (e : step cfg sl s op = some (t, out)) : StickySums t := by
  by_cases hr : ∃ i j, op = .replace i j
  · obtain ⟨i, j, rfl⟩ := hr
    obtain ⟨it, jt, hi, hj, h1, h2, hk, hp⟩ := callable_of_step h e
    obtain ⟨y, y1, li⟩ := (h.wf.t_mem i).1 h1
    rw [hi] at y1
    cases y1
    have lj : jt.linked = false := by
      cases hl : jt.linked with
      | false => rfl
      | true => exact absurd (inTbl h hj hl) h2
    simp only [step, (replace_eq h sl hi hj li lj hk hp).1] at e
    cases e
    refine ((Mi.swap (cfg := cfg) (sl := sl) (op := .replace i j) (out := .done) hi hj li lj hk hp rfl).sums h).2 ?_ hs
    intro i' j' it' jt' ho h1 h2
    cases ho
    exact hst it' jt' h1 h2
  · exact (step_mis h e).sticky h (fun i j e => hr ⟨i, j, e⟩) hs

theorem steady_sticky {s t : St M} (hc : SteadyCalls cfg sl s t) (h : Inv s) (hs : StickySums s) : Inv t ∧ StickySums t := by
  induction hc with
  | nil => exact ⟨h, hs⟩
  | snoc _ hst e ih => exact ⟨step_inv ih.1 e, step_sticky ih.1 hst ih.2 e⟩

/-! ### The number of good items -/

theorem total_le {s : St M} (f g : It → Nat) (h : ∀ it, f it ≤ g it) : total s f ≤ total s g := by
  rw [total_eq, total_eq]
  induction s.tbl with
  | nil => exact Nat.le_refl _
  | cons i l ih =>
    rw [List.map_cons, List.map_cons, List.sum_cons, List.sum_cons]
    refine Nat.add_le_add ?_ ih
    unfold val
    split
    · exact h _
    · exact Nat.le_refl _

theorem goods_env {s t : St M} (h : t.now = s.now ∧ t.oldest = s.oldest ∧ t.pmark = s.pmark) :
    goods t = total t fun it => if valid s it then 1 else 0 := by
  unfold goods
  congr 1
  funext it
  simp only [fresh_iff, valid_env h]

theorem Act.goods {s t : St M} (a : Act cfg s t) (h : Inv s) :
    goods s + s.stats.evictions ≥ goods t + t.stats.evictions - 0 * t.stats.repairs ∧ goods s + losses s ≤ goods t + losses t := by
  have e := a.env
  rw [goods_env ⟨e.1, e.2.1, e.2.2.1⟩, goods_env (s := s) ⟨rfl, rfl, rfl⟩]
  unfold losses
  cases a with
  | @evict i it c st m hi hm _ hv _ _ hu =>
    have hl := (h.wf.qOf hi (List.mem_of_getLast? hm)).1
    have t1 := total_leave (t := gone s it i none st m) h (f := fun it => if valid s it then 1 else 0) hi hl rfl rfl
    simp only [hv, if_true] at t1
    have e1 : (gone s it i none st m).stats.evictions = s.stats.evictions + 1 := hu.1
    have e2 : (gone s it i none st m).stats.repairs = s.stats.repairs + 0 := hu.2
    rw [e1, e2]
    omega
  | @dead i it st m hi hl _ hv _ hu =>
    have t1 := total_leave (t := gone s it i none st m) h (f := fun it => if valid s it then 1 else 0) hi hl rfl rfl
    simp only [hv] at t1
    have e1 : (gone s it i none st m).stats.evictions = s.stats.evictions + 0 := hu.1
    have e2 : (gone s it i none st m).stats.repairs = s.stats.repairs + 0 := hu.2
    rw [e1, e2]
    simp at t1
    omega
  | @repair i it c st m hi hm _ _ _ _ hu =>
    have hl := (h.wf.qOf hi hm).1
    have t1 := total_leave (t := gone s it i none st m) h (f := fun it => if valid s it then 1 else 0) hi hl rfl rfl
    have e1 : (gone s it i none st m).stats.evictions = s.stats.evictions + 0 := hu.1
    have e2 : (gone s it i none st m).stats.repairs = s.stats.repairs + 1 := hu.2
    rw [e1, e2]
    have : (if valid s it = true then 1 else 0) ≤ 1 := by split <;> omega
    omega
  | @drop i it c hi hm _ =>
    rw [offQ_stats, total_quiet (s := s) (t := offQ s it i) (offQ_tbl ..) hi (offQ_heap hi) rfl]
    omega
  | marks low cur _ =>
    have : total ({ s with low := low, cur := cur } : St M) (fun it => if valid s it = true then 1 else 0) = total s fun it => if valid s it = true then 1 else 0 := rfl
    rw [this]
    simp only []
    omega
  | other st m _ hu =>
    have : total ({ s with stats := st, mem := m } : St M) (fun it => if valid s it = true then 1 else 0) = total s fun it => if valid s it = true then 1 else 0 := rfl
    rw [this]
    simp only [hu.1, hu.2]
    omega

theorem Acts.goods {s t : St M} (a : Acts cfg s t) (h : Inv s) :
    Spec.goods t + t.stats.evictions ≤ Spec.goods s + s.stats.evictions ∧ Spec.goods s + losses s ≤ Spec.goods t + losses t := by
  induction a with
  | refl => exact ⟨Nat.le_refl _, Nat.le_refl _⟩
  | step a _ ih =>
    have h1 := a.goods h
    have h2 := ih (a.inv h)
    omega

end Verif.Lru
