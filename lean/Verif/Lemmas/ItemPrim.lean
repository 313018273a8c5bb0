import Verif.Lemmas.Item
/-! Specifications of the item primitives: no fault, invariant preserved, visible effect. -/
namespace Verif.Item
open Verif.Util Verif.Item.Spec

variable {cfg : Cfg} {s : St} {h : Id → Nat}

/-- The immutable part of an item object. -/
def Obj.SameAs (o' o : Obj) : Prop :=
  o'.key = o.key ∧ o'.flags = o.flags ∧ o'.exptime = o.exptime ∧ o'.cas = o.cas ∧ o'.coll = o.coll ∧
  o'.data = o.data ∧ o'.linked = o.linked

theorem Obj.SameAs.refl (o : Obj) : o.SameAs o := ⟨rfl, rfl, rfl, rfl, rfl, rfl, rfl⟩
theorem Obj.SameAs.entry {o o' : Obj} (h : o'.SameAs o) : o'.entry = o.entry := by
  obtain ⟨h1, h2, h3, h4, h5, h6, h7⟩ := h; simp [Obj.entry, *]
theorem Obj.SameAs.trans {o o' o'' : Obj} (h : o''.SameAs o') (h' : o'.SameAs o) : o''.SameAs o := by
  obtain ⟨h1, h2, h3, h4, h5, h6, h7⟩ := h; obtain ⟨g1, g2, g3, g4, g5, g6, g7⟩ := h'
  simp [Obj.SameAs, *]

/-- Every linked item is in its LRU queue. -/
def AllLru (s : St) : Prop := ∀ i o, s.heap i = some o → o.linked = true → o.inLru = true

/-- Marks of prefixes can only be kept or forgotten. -/
def MarksLe (s s' : St) : Prop := ∀ p, s'.pfxOld p = s.pfxOld p ∨ (p ≠ [] ∧ s'.pfxOld p = 0)

theorem MarksLe.refl (s : St) : MarksLe s s := fun _ => Or.inl rfl
theorem MarksLe.trans {a b c : St} (h1 : MarksLe a b) (h2 : MarksLe b c) : MarksLe a c := by
  intro p; rcases h1 p with e | ⟨e0, e⟩ <;> rcases h2 p with f | ⟨f0, f⟩ <;> simp_all

/-- Fields no primitive changes. -/
structure Fr (s s' : St) : Prop where
  now : s'.now = s.now
  oldest : s'.oldest = s.oldest
  marks : MarksLe s s'

theorem Fr.refl (s : St) : Fr s s := ⟨rfl, rfl, .refl s⟩
theorem Fr.trans {a b c : St} (h1 : Fr a b) (h2 : Fr b c) : Fr a c :=
  ⟨h2.now.trans h1.now, h2.oldest.trans h1.oldest, h1.marks.trans h2.marks⟩

/-- `vis` depends only on the objects in the table. -/
theorem vis_congr (hI : Inv cfg s h) {s' : St} (ht : s'.tbl = s.tbl)
    (ho : ∀ i o, s.heap i = some o → o.linked = true → ∃ o', s'.heap i = some o' ∧ o'.SameAs o ∧
      isValid cfg s' o' = isValid cfg s o) (k : Key) : vis cfg s' k = vis cfg s k := by
  unfold vis; rw [ht]
  cases hk : s.tbl.lookup k with
  | none => rfl
  | some i =>
    obtain ⟨o, g1, g2, g3⟩ := (hI.tblIff k i).mp hk
    obtain ⟨o', g4, g5, g6⟩ := ho i o g1 g2
    simp only [Option.bind_some, g1, g4, g6, g5.entry]

/-- Moving a valid item's time to now keeps it valid. -/
theorem isValid_touch {o o' : Obj} (hv : isValid cfg s o = true) (hle : o.time ≤ s.now) (h4 : o'.key = o.key)
    (h5 : o'.time = s.now) (h6 : o'.exptime = o.exptime) : isValid cfg s o' = true := by
  unfold isValid flushedBy at *
  rw [h4, h5, h6]
  simp only [Bool.and_eq_true, Bool.not_eq_true', Bool.and_eq_false_iff, bne_eq_false_iff_eq, decide_eq_false_iff_not,
    bne_iff_ne] at *
  refine ⟨⟨hv.1.1, ?_⟩, ?_⟩
  · have := hv.1.2
    rcases this with (h | h) | h
    · exact Or.inl (Or.inl h)
    · exact Or.inl (Or.inr h)
    · by_cases hh : s.oldest ≤ s.now
      · right; omega
      · exact Or.inl (Or.inr hh)
  · have := hv.2
    rcases this with (h | h) | h
    · exact Or.inl (Or.inl h)
    · exact Or.inl (Or.inr h)
    · by_cases hh : s.pfxOld (pfxOf cfg o.key) ≤ s.now
      · right; omega
      · exact Or.inl (Or.inr hh)

/-! ### queue primitives -/

theorem unlinkQ_linkQ (hI : Inv cfg s h) {i : Id} {o : Obj} (ho : s.heap i = some o) (hl : o.linked = true) :
    ∃ s1, itemUnlinkQ cfg s i = some s1 ∧ s1.heap i = some { o with inLru := false } ∧
      itemLinkQ cfg { s1 with heap := upd s1.heap i (some { o with inLru := false, time := s1.now }) } i =
      some { s with lru := upd s.lru (qid cfg o) (i :: (s.lru (qid cfg o)).erase i),
                    heap := upd s.heap i (some { o with time := s.now, inLru := true }) } := by
  have hq : ∀ b t, qid cfg { o with inLru := b, time := t } = qid cfg o := fun b t => qid_congr rfl rfl rfl rfl
  unfold itemUnlinkQ; rw [ho]; simp only
  cases hin : o.inLru with
  | true =>
    refine ⟨_, rfl, by simp [upd_self], ?_⟩
    simp only [itemLinkQ, upd_self, hq]
    congr 2
    · funext j; simp only [upd]; split <;> rfl
    · funext q; simp only [upd]; split <;> simp_all
  | false =>
    refine ⟨_, rfl, by rw [ho, ← hin], ?_⟩
    simp only [itemLinkQ, upd_self, hq]
    have hnm : i ∉ s.lru (qid cfg o) := by
      intro hm; obtain ⟨a, h1, h2, -⟩ := (hI.lruMem _ i).mp hm
      rw [ho] at h1; injection h1 with h1; subst h1; simp [hin] at h2
    rw [List.erase_of_not_mem hnm]
    congr 2
    · funext j; simp only [upd]; split <;> rfl

/-- State after moving a linked item to the head of its queue with time now. -/
def touched (cfg : Cfg) (s : St) (i : Id) (o : Obj) : St :=
  { s with lru := upd s.lru (qid cfg o) (i :: (s.lru (qid cfg o)).erase i),
           heap := upd s.heap i (some { o with time := s.now, inLru := true }) }

theorem Inv.touch (hI : Inv cfg s h) {i : Id} {o : Obj} (ho : s.heap i = some o) (hl : o.linked = true) :
    Inv cfg (touched cfg s i o) h := by
  have hq : qid cfg { o with time := s.now, inLru := true } = qid cfg o := qid_congr rfl rfl rfl rfl
  have hlk := (hI.tblIff o.key i).mpr ⟨o, ho, hl, rfl⟩
  have := hI.toFront (o' := { o with time := s.now, inLru := true }) (tbl' := s.tbl) (cas' := s.casId) ho
    hI.keysNodup
    (by intro k; split
        · next hk => rw [hk]; exact hlk
        · rfl)
    (by intro j hj; rw [hlk] at hj; injection hj with hj; exact hj.symm)
    (fun _ => rfl) rfl hl rfl rfl (fun _ => hq) (Or.inl ⟨rfl, hl, rfl⟩) (hI.nameOk i o ho hl)
  simpa [touched, hq] using this

theorem vis_touch (hI : Inv cfg s h) {i : Id} {o : Obj} (ho : s.heap i = some o) (hl : o.linked = true)
    (hv : isValid cfg s o = true) (k : Key) : vis cfg (touched cfg s i o) k = vis cfg s k := by
  refine vis_congr hI (by rfl) ?_ k
  intro j a h1 h2
  by_cases hj : j = i
  · subst hj; rw [ho] at h1; injection h1 with h1; subst h1
    refine ⟨{ o with time := s.now, inLru := true }, by simp [touched, upd_self], ⟨rfl, rfl, rfl, rfl, rfl, rfl, rfl⟩, ?_⟩
    rw [hv]; exact isValid_touch (s := s) (o := o) hv (hI.timeLe j o ho hl) rfl rfl rfl
  · exact ⟨a, by simp [touched, upd, hj, h1], .refl a, rfl⟩

theorem touched_fr (i : Id) (o : Obj) : Fr s (touched cfg s i o) := ⟨rfl, rfl, .refl _⟩

/-- `do_item_update` on a linked item. -/
theorem update_spec (hI : Inv cfg s h) {i : Id} {o : Obj} (ho : s.heap i = some o) (hl : o.linked = true) (f : Bool) :
    doItemUpdate cfg s i f = some s ∧ f = false ∨ doItemUpdate cfg s i f = some (touched cfg s i o) := by
  unfold doItemUpdate; rw [ho]; simp only [hl, Bool.not_true, Bool.false_eq_true, if_false]
  split
  · right
    obtain ⟨s1, e1, e2, e3⟩ := unlinkQ_linkQ hI ho hl
    rw [e1]; simp only [e2]; rw [touched, ← e3]
  · next hc => left; refine ⟨rfl, ?_⟩; simp at hc; exact hc.1

/-! ### release -/

/-- State with the counter pair of one object changed. -/
def setRef (s : St) (i : Id) (o : Obj) (r : Ref) : St := { s with heap := upd s.heap i (some { o with ref := r }) }

theorem Inv.setRef (hI : Inv cfg s h) {i : Id} {o : Obj} (ho : s.heap i = some o) {h' : Id → Nat} {r : Ref}
    (hh : ∀ j, j ≠ i → h' j = h j) (hwf : r.WF) (hv : r.val = h' i) (hz : h' i = 0 → o.linked = true) :
    Inv cfg (setRef s i o r) h' :=
  hI.modify (o' := { o with ref := r }) ho hh hwf hv rfl rfl rfl rfl rfl rfl rfl rfl hz

theorem setRef_same {i : Id} {o : Obj} (r : Ref) : (setRef s i o r).heap i = some { o with ref := r } := upd_self _ _ _
theorem setRef_other {i j : Id} {o : Obj} (r : Ref) (hj : j ≠ i) : (setRef s i o r).heap j = s.heap j := upd_ne _ _ hj

theorem vis_setRef (hI : Inv cfg s h) {i : Id} {o : Obj} (ho : s.heap i = some o) (r : Ref) (k : Key) :
    vis cfg (setRef s i o r) k = vis cfg s k := by
  refine vis_congr hI (by rfl) ?_ k
  intro j a g1 g2
  by_cases hj : j = i
  · subst hj; rw [ho] at g1; injection g1 with g1; subst g1
    exact ⟨{ o with ref := r }, setRef_same r, ⟨rfl, rfl, rfl, rfl, rfl, rfl, rfl⟩, rfl⟩
  · exact ⟨a, by rw [setRef_other r hj, g1], .refl a, rfl⟩

theorem allLru_setRef {i : Id} {o : Obj} (ho : s.heap i = some o) (r : Ref) (hA : AllLru s) : AllLru (setRef s i o r) := by
  intro j a g1 g2
  by_cases hj : j = i
  · subst hj; rw [setRef_same] at g1; injection g1 with g1; subst g1; exact hA j o ho g2
  · rw [setRef_other r hj] at g1; exact hA j a g1 g2

/-- `do_item_unlink` on a linked item, with frame facts. -/
theorem unlink_spec (hI : Inv cfg s h) {i : Id} {o : Obj} (ho : s.heap i = some o) (hl : o.linked = true) :
    ∃ s', doItemUnlink cfg s i = some s' ∧ Inv cfg s' h ∧ Fr s s' ∧ s'.casId = s.casId ∧ s'.nextId = s.nextId ∧
      (∀ k, vis cfg s' k = if k = o.key then none else vis cfg s k) ∧
      (∀ k, s'.tbl.lookup k = if k = o.key then none else s.tbl.lookup k) ∧
      s'.heap i = (if h i = 0 then none else some { o with linked := false, inLru := false }) ∧
      (∀ j, j ≠ i → s'.heap j = s.heap j) ∧ (∀ q, (s'.lru q).Sublist (s.lru q)) ∧
      (AllLru s → AllLru s') := by
  obtain ⟨s', e0, -⟩ := unlink_eq hI ho hl
  obtain ⟨f1, f2, f3, f4, f5, f6, f7, f8, f9, f10, f11, f12⟩ := hI.unlinked ho hl e0
  refine ⟨s', e0, f1, ⟨f6, f8, f12⟩, f7, f9, f2, f3, f4, f5, f10, ?_⟩
  intro hA j a g1 g2
  by_cases hj : j = i
  · subst hj; rw [f4] at g1; split at g1
    · simp at g1
    · injection g1 with g1; subst g1; simp at g2
  · rw [f5 j hj] at g1; exact hA j a g1 g2

theorem release_spec (hI : Inv cfg s h) {i : Id} (hh : 0 < h i) :
    ∃ s', doItemRelease cfg s i = some s' ∧ Inv cfg s' (upd h i (h i - 1)) ∧ Fr s s' ∧ s'.casId = s.casId ∧
      s'.nextId = s.nextId ∧
      (∀ k, vis cfg s' k = vis cfg s k) ∧ (∀ j, j ≠ i → s'.heap j = s.heap j) ∧
      (∀ o, s.heap i = some o → 1 < h i → ∃ o', s'.heap i = some o' ∧ o'.SameAs o) ∧
      (AllLru s → AllLru s') := by
  obtain ⟨o, ho⟩ := hI.heldOk i hh
  obtain ⟨hwf, hv⟩ := hI.refs i o ho
  obtain ⟨d1, d2, d3⟩ := Ref.decr_spec hwf (by omega)
  have hz := Ref.zero_iff d2
  have hui : (upd h i (h i - 1)) i = h i - 1 := upd_self _ _ _
  have huj : ∀ j, j ≠ i → (upd h i (h i - 1)) j = h j := fun j hj => upd_ne _ _ hj
  have hval : o.ref.decr.val = (upd h i (h i - 1)) i := by rw [hui]; omega
  have hdef : doItemRelease cfg s i =
      (if o.ref.decr.cnt = 0 then
        if !o.linked then doItemFree (setRef s i o o.ref.decr) i
        else if !o.inLru then
          if isValid cfg s o then
            itemLinkQ cfg { s with heap := upd (setRef s i o o.ref.decr).heap i (some { o with ref := o.ref.decr, time := s.now }) } i
          else doItemUnlink cfg (setRef s i o o.ref.decr) i
        else some (setRef s i o o.ref.decr)
      else some (setRef s i o o.ref.decr)) := by
    unfold doItemRelease; rw [ho]; simp only [if_pos d1]; rfl
  rw [hdef]
  by_cases hc : o.ref.decr.cnt = 0
  · -- last reference
    have h1 : h i = 1 := by have := hz.mp hc; omega
    rw [if_pos hc]
    by_cases hl : o.linked = true
    · rw [if_neg (by simp [hl])]
      have hS := hI.setRef ho huj d2 hval (fun _ => hl)
      by_cases hq : o.inLru = true
      · rw [if_neg (by simp [hq])]
        exact ⟨_, rfl, hS, ⟨rfl, rfl, .refl _⟩, rfl, rfl, vis_setRef hI ho _, fun j hj => setRef_other _ hj,
          fun a _ hx => by omega, allLru_setRef ho _⟩
      · rw [if_pos (by simpa using hq)]
        by_cases hval : isValid cfg s o = true
        · rw [if_pos hval]
          have hnm : i ∉ s.lru (qid cfg o) := by
            intro hm; obtain ⟨a, g1, g2, -⟩ := (hI.lruMem _ i).mp hm
            rw [ho] at g1; injection g1 with g1; subst g1; exact hq g2
          have hst : itemLinkQ cfg (St.mk s.now s.casId s.oldest s.pfxOld s.tbl
                (upd (Item.setRef s i o o.ref.decr).heap i (some { o with ref := o.ref.decr, time := s.now }))
                s.nextId s.lru) i =
              some (Item.setRef (touched cfg s i o) i { o with time := s.now, inLru := true } o.ref.decr) := by
            simp only [itemLinkQ, upd_self, touched, Item.setRef]
            have : qid cfg { o with ref := o.ref.decr, time := s.now } = qid cfg o := qid_congr rfl rfl rfl rfl
            rw [this, List.erase_of_not_mem hnm]
            congr 2
            funext j; simp only [upd]; split <;> rfl
          have hT := hI.touch ho hl
          have hTo : (touched cfg s i o).heap i = some { o with time := s.now, inLru := true } := by
            simp [touched, upd_self]
          refine ⟨_, hst, hT.setRef hTo huj d2 (by rw [hui]; omega) (fun _ => hl), ⟨rfl, rfl, .refl _⟩, rfl, rfl,
            ?_, ?_, ?_, ?_⟩
          · intro k; rw [vis_setRef hT hTo, vis_touch hI ho hl hval]
          · intro j hj; rw [setRef_other _ hj]; simp [upd, touched, hj]
          · intro a _ hx; omega
          · intro hA; exact absurd (hA i o ho hl) hq
        · rw [if_neg hval]
          have hSo := setRef_same (s := s) (i := i) (o := o) o.ref.decr
          obtain ⟨s', e0, f1, f2, f3, f4, f5, f6, f7, f8, f9, f10⟩ := unlink_spec hS hSo hl
          refine ⟨s', e0, f1, ⟨f2.now, f2.oldest, f2.marks⟩, f3, f4, ?_, ?_, ?_, ?_⟩
          · intro k; rw [f5 k, vis_setRef hI ho]
            by_cases hk : k = o.key
            · rw [if_pos hk, hk, hI.vis_of ho hl, if_neg hval]
            · rw [if_neg hk]
          · intro j hj; rw [f8 j hj, setRef_other _ hj]
          · intro a _ hx; omega
          · intro hA; exact absurd (hA i o ho hl) hq
    · have hl : o.linked = false := by simpa using hl
      rw [if_pos (by simp [hl])]
      have hfree : doItemFree (Item.setRef s i o o.ref.decr) i = some { s with heap := upd s.heap i none } := by
        unfold doItemFree; rw [setRef_same]; simp only [hc, hl]
        simp only [Item.setRef, Bool.false_eq_true, ne_eq, not_true_eq_false, or_self, if_false, Option.some.injEq]
        congr 1
        funext j; simp only [upd]; split <;> rfl
      refine ⟨_, hfree, hI.freeLast ho hl huj (by rw [hui]; omega), ⟨rfl, rfl, .refl _⟩, rfl, rfl, ?_, ?_, ?_, ?_⟩
      · intro k; refine vis_congr hI (by rfl) ?_ k
        intro j a g1 g2
        by_cases hj : j = i
        · subst hj; rw [ho] at g1; injection g1 with g1; subst g1; simp [hl] at g2
        · exact ⟨a, by simp [upd, hj, g1], .refl a, rfl⟩
      · intro j hj; simp [upd, hj]
      · intro a _ hx; omega
      · intro hA j a g1 g2
        simp only [upd] at g1
        by_cases hj : j = i
        · simp [hj] at g1
        · simp [hj] at g1; exact hA j a g1 g2
  · have h1 : 1 < h i := by
      have : o.ref.decr.val ≠ 0 := fun e => hc (hz.mpr e)
      omega
    rw [if_neg hc]
    refine ⟨_, rfl, hI.setRef ho huj d2 hval (fun e => by rw [hui] at e; omega), ⟨rfl, rfl, .refl _⟩, rfl, rfl,
      vis_setRef hI ho _, fun j hj => setRef_other _ hj, ?_, allLru_setRef ho _⟩
    intro a ha _
    rw [ho] at ha; injection ha with ha; subst ha
    exact ⟨_, setRef_same _, ⟨rfl, rfl, rfl, rfl, rfl, rfl, rfl⟩⟩

/-! ### get -/

/-- Facts after a miss of `do_item_get`. -/
structure Miss (cfg : Cfg) (s s' : St) (h : Id → Nat) (k : Key) : Prop where
  inv : Inv cfg s' h
  fr : Fr s s'
  cas : s'.casId = s.casId
  next : s'.nextId = s.nextId
  was : vis cfg s k = none
  vis_eq : ∀ k', vis cfg s' k' = vis cfg s k'
  gone : s'.tbl.lookup k = none
  objs : ∀ j o, s.heap j = some o → (o.linked = false ∨ 0 < h j) → ∃ o', s'.heap j = some o' ∧
    (o.linked = false ∨ o.key ≠ k → o' = o) ∧ o'.key = o.key ∧ o'.flags = o.flags ∧ o'.exptime = o.exptime ∧
    o'.cas = o.cas ∧ o'.coll = o.coll ∧ o'.data = o.data
  lru : AllLru s → AllLru s'

/-- Facts after a hit of `do_item_get` on item `i`. -/
structure Hit (cfg : Cfg) (s s' : St) (h : Id → Nat) (k : Key) (i : Id) (o : Obj) : Prop where
  inv : Inv cfg s' (upd h i (h i + 1))
  fr : Fr s s'
  cas : s'.casId = s.casId
  next : s'.nextId = s.nextId
  obj : s.heap i = some o
  linked : o.linked = true
  key : o.key = k
  was : vis cfg s k = some o.entry
  valid : isValid cfg s o = true
  obj' : ∃ o', s'.heap i = some o' ∧ o'.SameAs o ∧ isValid cfg s' o' = true
  vis_eq : ∀ k', vis cfg s' k' = vis cfg s k'
  tbl : s'.tbl = s.tbl
  pfx : s'.pfxOld = s.pfxOld
  other : ∀ j, j ≠ i → s'.heap j = s.heap j
  lru : AllLru s → AllLru s'

theorem allLru_touched {i : Id} {o : Obj} (hA : AllLru s) : AllLru (touched cfg s i o) := by
  intro j a g1 g2
  by_cases hj : j = i
  · subst hj; simp [touched, upd_self] at g1; subst g1; rfl
  · simp [touched, upd, hj] at g1; exact hA j a g1 g2

theorem get_spec (hI : Inv cfg s h) (hb : ∀ i, h i < maxRefs) (k : Key) (u : Bool) :
    (∃ s', doItemGet cfg s k u = some (s', none) ∧ Miss cfg s s' h k) ∨
    (∃ s' i o, doItemGet cfg s k u = some (s', some i) ∧ Hit cfg s s' h k i o) := by
  unfold doItemGet assocFind
  cases hk : s.tbl.lookup k with
  | none =>
    left
    exact ⟨s, rfl, hI, .refl s, rfl, rfl, vis_none hk, fun _ => rfl, hk,
      fun j o h1 _ => ⟨o, h1, fun _ => rfl, rfl, rfl, rfl, rfl, rfl, rfl⟩, id⟩
  | some i =>
    obtain ⟨o, ho, hl, hkey⟩ := (hI.tblIff k i).mp hk
    simp only [ho]
    by_cases hv : isValid cfg s o = true
    · right
      rw [if_pos hv]
      obtain ⟨hwf, hval⟩ := hI.refs i o ho
      obtain ⟨r, e1, e2, e3, e4⟩ := Ref.incr_spec hwf (by rw [hval]; exact hb i)
      simp only [e1]
      have hS : Inv cfg (setRef s i o r) (upd h i (h i + 1)) :=
        hI.setRef ho (fun j hj => upd_ne _ _ hj) e2 (by rw [upd_self, e3, hval]) (fun _ => hl)
      have hSo := setRef_same (s := s) (i := i) (o := o) r
      have hvis : vis cfg s k = some o.entry := by rw [← hkey, hI.vis_of ho hl, if_pos hv]
      have base : Hit cfg s (setRef s i o r) h k i o :=
        { inv := hS, fr := ⟨rfl, rfl, .refl _⟩, cas := rfl, next := rfl, obj := ho, linked := hl, key := hkey,
          was := hvis, valid := hv, obj' := ⟨_, hSo, ⟨rfl, rfl, rfl, rfl, rfl, rfl, rfl⟩, hv⟩,
          vis_eq := vis_setRef hI ho r, tbl := rfl, pfx := rfl, other := fun j hj => setRef_other _ hj,
          lru := allLru_setRef ho _ }
      cases u with
      | false =>
        exact ⟨_, i, o, rfl, base⟩
      | true =>
        simp only [if_true]
        rcases update_spec hS hSo hl false with ⟨e, -⟩ | e
        · simp only [Item.setRef] at e ⊢
          rw [e]; exact ⟨_, i, o, rfl, base⟩
        · have e' : doItemUpdate cfg { s with heap := upd s.heap i (some { o with ref := r }) } i false = _ := e
          rw [e']
          refine ⟨_, i, o, rfl, ?_⟩
          exact
            { inv := hS.touch hSo hl, fr := ⟨rfl, rfl, .refl _⟩, cas := rfl, next := rfl, obj := ho, linked := hl,
              key := hkey, was := hvis, valid := hv,
              obj' := ⟨{ o with ref := r, time := s.now, inLru := true }, by simp [touched, upd_self, Item.setRef],
                ⟨rfl, rfl, rfl, rfl, rfl, rfl, rfl⟩,
                isValid_touch (s := s) (o := o) hv (hI.timeLe i o ho hl) rfl rfl rfl⟩
              vis_eq := fun k' => by rw [vis_touch hS hSo hl hv, vis_setRef hI ho r]
              tbl := rfl, pfx := rfl, other := fun j hj => by simp [touched, upd, hj, Item.setRef]
              lru := fun hA => allLru_touched (allLru_setRef ho _ hA) }
    · left
      rw [if_neg hv]
      obtain ⟨s', e0, f1, f2, f3, f4, f5, f6, f7, f8, f9, f10⟩ := unlink_spec hI ho hl
      rw [e0]
      have hvis : vis cfg s k = none := by rw [← hkey, hI.vis_of ho hl, if_neg hv]
      refine ⟨s', rfl, f1, f2, f3, f4, hvis, ?_, ?_, ?_, f10⟩
      · intro k'; rw [f5 k']; split
        · next e => rw [e, hkey, hvis]
        · rfl
      · rw [f6 k, if_pos hkey.symm]
      · intro j a g1 g2
        by_cases hj : j = i
        · subst hj; rw [ho] at g1; injection g1 with g1; subst g1
          rcases g2 with g2 | g2
          · simp [hl] at g2
          · rw [f7, if_neg (by omega)]
            exact ⟨_, rfl, fun e => by rcases e with e | e
                                       · simp [hl] at e
                                       · exact absurd hkey e, rfl, rfl, rfl, rfl, rfl, rfl⟩
        · exact ⟨a, by rw [f8 j hj, g1], fun _ => rfl, rfl, rfl, rfl, rfl, rfl, rfl⟩

/-! ### link -/

theorem any_eq_false_iff (cfg : Cfg) (t : List (Key × Id)) (hn : (t.map (·.1)).Nodup) (p : List Nat) :
    (t.any fun e => pfxOf cfg e.1 == p) = false ↔ ∀ k i, t.lookup k = some i → pfxOf cfg k ≠ p := by
  rw [← all_ne_iff cfg t hn p]
  induction t with
  | nil => simp
  | cons a t ih => simp

/-- The prefix name test only depends on the prefix. -/
theorem pfxNameOk_congr {k k' : Key} (hp : pfxOf cfg k' = pfxOf cfg k) (hk : pfxNameOk cfg k' = true) :
    pfxNameOk cfg k = true := by
  have htake : ∀ k : Key, pfxOf cfg k = k.take (pfxOf cfg k).length := by
    intro k
    cases k with
    | nil => rfl
    | cons c r =>
      simp only [pfxOf]
      split
      · simp only [List.length_cons, List.take_succ_cons, List.cons.injEq, true_and]
        exact (List.prefix_iff_eq_take.mp (List.takeWhile_prefix _))
      · simp
  have hval : ∀ (k : List Nat) n, 0 < n → n ≤ k.length → isValidName k n = isValidName (k.take n) n := by
    intro k n hpos hn
    unfold isValidName
    cases k with
    | nil => simp
    | cons c r =>
      cases n with
      | zero => simp at hpos
      | succ n => simp [List.take_take]
  have hlen : ∀ k : Key, (pfxOf cfg k).length ≤ k.length := by
    intro k; have := congrArg List.length (htake k); simp at this; omega
  unfold pfxNameOk at *
  simp only [hp] at hk
  simp only [Bool.or_eq_true] at *
  rcases hk with hk | hk
  · exact Or.inl hk
  · by_cases he : pfxOf cfg k = []
    · left; simp [he]
    · right
      have hpos := List.length_pos_iff.mpr he
      rw [← hp, hval _ _ (by rw [hp]; exact hpos) (hlen k'), ← htake k', hp] at hk
      rw [hval _ _ hpos (hlen k), ← htake k]
      exact hk

theorem link_spec (hI : Inv cfg s h) {i : Id} {o : Obj} (ho : s.heap i = some o) (hl : o.linked = false)
    (hkey : s.tbl.lookup o.key = none) :
    (pfxNameOk cfg o.key = false → ∃ s', doItemLink cfg s i = some (s', .ename) ∧ Inv cfg s' h ∧ Fr s s' ∧
      s'.casId = s.casId + 1 ∧ (∀ k, vis cfg s' k = vis cfg s k) ∧ s'.heap i = some { o with cas := s.casId + 1 } ∧
      (∀ j, j ≠ i → s'.heap j = s.heap j) ∧ (AllLru s → AllLru s')) ∧
    (pfxNameOk cfg o.key = true → ∃ s' o', doItemLink cfg s i = some (s', .stored (s.casId + 1)) ∧ Inv cfg s' h ∧
      Fr s s' ∧ s'.casId = s.casId + 1 ∧
      o' = { o with cas := s.casId + 1, linked := true, inLru := true, time := s.now } ∧
      (∀ k, vis cfg s' k = if k = o.key then (if isValid cfg s o' then some o'.entry else none) else vis cfg s k) ∧
      s'.heap i = some o' ∧ (∀ j, j ≠ i → s'.heap j = s.heap j) ∧ (AllLru s → AllLru s')) := by
  obtain ⟨hwf, hval⟩ := hI.refs i o ho
  have hpos := hI.noLeak i o ho hl
  have hq : o.inLru = false := by
    cases hx : o.inLru
    · rfl
    · have := hI.lruLinked i o ho hx; simp [hl] at this
  constructor
  · intro hn
    have hany : (s.tbl.any fun e => pfxOf cfg e.1 == pfxOf cfg o.key) = false := by
      rw [any_eq_false_iff cfg _ hI.keysNodup]
      intro k j hj hp
      obtain ⟨a, g1, g2, g3⟩ := (hI.tblIff k j).mp hj
      have := hI.nameOk j a g1 g2
      rw [pfxNameOk_congr (by rw [g3, hp]) this] at hn; simp at hn
    refine ⟨{ s with casId := s.casId + 1, heap := upd s.heap i (some { o with cas := s.casId + 1 }) }, ?_, ?_,
      ⟨rfl, rfl, .refl _⟩, rfl, ?_, upd_self _ _ _, fun j hj => upd_ne _ _ hj, ?_⟩
    · unfold doItemLink; rw [ho]; simp [hl, hany, hn]
    · have := hI.modifyUnlinked (o' := { o with cas := s.casId + 1 }) ho hl hl hq (fun _ _ => rfl) hwf hval hpos
      exact { this with casLe := fun j a g1 g2 => Nat.le_succ_of_le (this.casLe j a g1 g2) }
    · intro k; refine vis_congr hI (by rfl) ?_ k
      intro j a g1 g2
      by_cases hj : j = i
      · subst hj; rw [ho] at g1; injection g1 with g1; subst g1; simp [hl] at g2
      · exact ⟨a, by simp [upd, hj, g1], .refl a, rfl⟩
    · intro hA j a g1 g2
      by_cases hj : j = i
      · subst hj; simp [upd] at g1; subst g1; simp [hl] at g2
      · simp [upd, hj] at g1; exact hA j a g1 g2
  · intro hn
    let o' : Obj := { o with cas := s.casId + 1, linked := true, inLru := true, time := s.now }
    have hnm : ∀ q, i ∉ s.lru q := by
      intro q hm; obtain ⟨a, g1, g2, -⟩ := (hI.lruMem _ i).mp hm
      rw [ho] at g1; injection g1 with g1; subst g1; simp [hq] at g2
    have hlk : ∀ k, ((o.key, i) :: s.tbl).lookup k = if k = o.key then some i else s.tbl.lookup k := by
      intro k; rw [List.lookup_cons]
      by_cases hk : k = o.key
      · simp [hk]
      · have : (k == o.key) = false := by simpa using hk
        simp [this, hk]
    have hInv := hI.toFront (o' := o') (tbl' := (o.key, i) :: s.tbl) (cas' := s.casId + 1) ho
      (by
        rw [List.map_cons, List.nodup_cons]; refine ⟨?_, hI.keysNodup⟩
        intro hm; obtain ⟨⟨k, j⟩, g1, g2⟩ := List.mem_map.mp hm
        simp only at g2; subst g2
        rw [(lookup_iff_mem _ hI.keysNodup _ _).mpr g1] at hkey; simp at hkey)
      hlk (by intro j hj; simp only [o'] at hj; rw [hkey] at hj; simp at hj)
      (by simp [hl]) rfl rfl rfl rfl (by simp [hq]) (Or.inr ⟨rfl, rfl⟩) hn
    rw [List.erase_of_not_mem (hnm _)] at hInv
    refine ⟨_, o', ?_, hInv, ⟨rfl, rfl, .refl _⟩, rfl, rfl, ?_, upd_self _ _ _, fun j hj => upd_ne _ _ hj, ?_⟩
    · unfold doItemLink; rw [ho]
      simp only [hl, Bool.false_eq_true, if_false, hn, Bool.not_true, Bool.and_false, assocFind, hkey, Option.isSome_none,
        itemLinkQ, upd_self]
      have : qid cfg { o with cas := s.casId + 1, linked := true, time := s.now } = qid cfg o' := qid_congr rfl rfl rfl rfl
      rw [this]
      congr 3
      funext j; simp only [upd, o']; split <;> rfl
    · intro k
      by_cases hk : k = o.key
      · rw [if_pos hk]; subst hk
        have := hInv.vis_of (i := i) (o := o') (upd_self _ _ _) rfl
        exact this
      · rw [if_neg hk]
        unfold vis; simp only; rw [hlk, if_neg hk]
        cases hx : s.tbl.lookup k with
        | none => rfl
        | some j =>
          have hj : j ≠ i := by
            rintro rfl; obtain ⟨a, g1, g2, -⟩ := (hI.tblIff k j).mp hx
            rw [ho] at g1; injection g1 with g1; subst g1; simp [hl] at g2
          simp only [Option.bind_some]; rw [upd_ne _ _ hj]; rfl
    · intro hA j a g1 g2
      by_cases hj : j = i
      · subst hj; simp [upd] at g1; subst g1; rfl
      · simp [upd, hj] at g1; exact hA j a g1 g2

/-! ### replace -/

attribute [ext] St

theorem Inv.setPfx (hI : Inv cfg s h) {f : List Nat → Nat}
    (hf : ∀ p, p ≠ [] → (∀ k i, s.tbl.lookup k = some i → pfxOf cfg k ≠ p) → f p = 0) :
    Inv cfg { s with pfxOld := f } h :=
  { hI with pfxZero := hf }

theorem ite_valid {α : Type} {s s' : St} {o : Obj} {x y : α} (e : isValid cfg s' o = isValid cfg s o) :
    (if isValid cfg s' o then x else y) = if isValid cfg s o then x else y := by rw [e]

theorem replace_spec (hI : Inv cfg s h) {old new : Id} {o n : Obj} (ho : s.heap old = some o)
    (hl : o.linked = true) (hh : 0 < h old) (hn : s.heap new = some n) (hnl : n.linked = false)
    (hkey : n.key = o.key) :
    ∃ s' n', doItemReplace cfg s old new = some (s', s.casId + 1) ∧ Inv cfg s' h ∧
      Fr s s' ∧ s'.casId = s.casId + 1 ∧
      n' = { n with cas := s.casId + 1, linked := true, inLru := true, time := s.now } ∧
      (∀ k, vis cfg s' k = if k = n.key then (if isValid cfg s n' then some n'.entry else none) else vis cfg s k) ∧
      s'.heap new = some n' ∧ s'.heap old = some { o with linked := false, inLru := false } ∧
      (∀ j, j ≠ old → j ≠ new → s'.heap j = s.heap j) ∧ (AllLru s → AllLru s') := by
  have hne : new ≠ old := by rintro rfl; rw [ho] at hn; injection hn with hn; subst hn; simp [hl] at hnl
  obtain ⟨s1, e0, e1, e2, e3, e4, e5, e6, e7, e8⟩ := unlink_eq hI ho hl
  obtain ⟨f1, f2, f3, f4, f5, f6, f7, f8, f9, f10, f11, f12⟩ := hI.unlinked ho hl e0
  have hn1 : s1.heap new = some n := by rw [f5 new hne, hn]
  have hq : n.inLru = false := by
    cases hx : n.inLru
    · rfl
    · have := hI.lruLinked new n hn hx; simp [hnl] at this
  have hnm : ∀ q, new ∉ s1.lru q := by
    intro q hm; obtain ⟨a, g1, g2, -⟩ := (f1.lruMem _ new).mp hm
    rw [hn1] at g1; injection g1 with g1; subst g1; simp [hq] at g2
  let n' : Obj := { n with cas := s.casId + 1, linked := true, inLru := true, time := s.now }
  have hlko := (hI.tblIff o.key old).mpr ⟨o, ho, hl, rfl⟩
  have huniq : ∀ k, s.tbl.lookup k = some old → k = o.key := by
    intro k hk; obtain ⟨a, g1, g2, g3⟩ := (hI.tblIff k old).mp hk
    rw [ho] at g1; injection g1 with g1; subst g1; exact g3.symm
  have hlk : ∀ k, (assocReplace s.tbl old new).lookup k = if k = n.key then some new else s1.tbl.lookup k := by
    intro k; rw [lookup_replace, f3 k, hkey]
    by_cases hk : k = o.key
    · simp [hk, hlko]
    · simp only [hk, if_false]
      cases hx : s.tbl.lookup k with
      | none => rfl
      | some j =>
        have : j ≠ old := by rintro rfl; exact hk (huniq k hx)
        simp [this]
  have hlk2 : ∀ k, k ≠ n.key → (assocReplace s.tbl old new).lookup k = s.tbl.lookup k := by
    intro k hk; rw [hlk, if_neg hk, f3, if_neg (by rw [← hkey]; exact hk)]
  have hInv := f1.toFront (o' := n') (tbl' := assocReplace s.tbl old new) (cas' := s1.casId + 1) hn1
      (by rw [keys_replace]; exact hI.keysNodup) hlk
      (by intro j hj; simp only [n'] at hj; rw [hkey, f3, if_pos rfl] at hj; simp at hj)
      (by simp [hnl]) rfl rfl rfl (by simp [n', e1]) (by simp [hq])
      (Or.inr ⟨by simp [n', e2], rfl⟩) (by simp only [n', hkey]; exact hI.nameOk old o ho hl)
  rw [List.erase_of_not_mem (hnm _)] at hInv
  have hInv := hInv.setPfx (f := s.pfxOld) (by
    intro p hp hall
    refine hI.pfxZero p hp ?_
    intro k j hj
    by_cases hk : k = n.key
    · refine hall k new ?_; simp only; rw [hlk, if_pos hk]
    · refine hall k j ?_; simp only; rw [hlk2 k hk, hj])
  have hcnt : o.ref.cnt ≠ 0 := by
    obtain ⟨hwf, hv⟩ := hI.refs old o ho
    intro hc; rw [Ref.zero_iff hwf, hv] at hc; omega
  have hqn : qid cfg { n with cas := s.casId + 1, linked := true, time := s.now } = qid cfg n' := qid_congr rfl rfl rfl rfl
  have hh0 : h old ≠ 0 := by omega
  refine ⟨_, n', ?_, hInv, ⟨e1, e3, .refl _⟩, by simp [e2], rfl, ?_, by simp [upd], ?_, ?_, ?_⟩
  · unfold doItemReplace itemUnlinkQ; rw [ho]
    simp only [hl, Bool.not_true, Bool.false_eq_true, if_false]
    cases hin : o.inLru with
    | true =>
      simp only [Bool.not_true, Bool.false_eq_true, if_false]
      rw [upd_ne _ _ hne, hn]
      simp only
      rw [upd_ne _ _ (Ne.symm hne), upd_self]
      simp only [hcnt, if_false, itemLinkQ]
      rw [upd_ne _ _ hne, upd_self]
      simp only [hqn]
      congr 2
      ext1
      · exact e1.symm
      · simp [e2]
      · exact e3.symm
      · rfl
      · rfl
      · funext j; simp only [upd, n']; rw [e7 j]
        by_cases h1 : j = new
        · simp [h1]
        · by_cases h2 : j = old <;> simp [h1, h2, hh0, Ne.symm hne]
      · exact e4.symm
      · funext q; simp only [upd]
        by_cases h1 : q = qid cfg n'
        · subst h1
          by_cases h2 : qid cfg n' = qid cfg o <;> simp [h2, e6]
        · rw [if_neg h1, if_neg h1, e6]
          by_cases h2 : q = qid cfg o
          · rw [if_pos h2, if_pos h2, h2]
          · rw [if_neg h2, if_neg h2]
    | false =>
      have hno : ∀ q, old ∉ s.lru q := by
        intro q hm; obtain ⟨a, g1, g2, -⟩ := (hI.lruMem _ old).mp hm
        rw [ho] at g1; injection g1 with g1; subst g1; simp [hin] at g2
      have e6' : ∀ q, s1.lru q = s.lru q := by
        intro q; rw [e6, List.erase_of_not_mem (hno q)]; split <;> rfl
      simp only [Bool.not_false, if_true, hn]
      rw [upd_ne _ _ (Ne.symm hne), ho]
      simp only [hcnt, if_false, itemLinkQ]
      rw [upd_ne _ _ hne, upd_self]
      simp only [hqn]
      congr 2
      ext1
      · exact e1.symm
      · simp [e2]
      · exact e3.symm
      · rfl
      · rfl
      · funext j; simp only [upd, n']; rw [e7 j]
        by_cases h1 : j = new
        · simp [h1]
        · by_cases h2 : j = old
          · simp [h1, h2, hh0, Ne.symm hne, hin]
          · simp [h1, h2]
      · exact e4.symm
      · funext q; simp only [upd, e6']
  · intro k
    by_cases hk : k = n.key
    · rw [if_pos hk]; subst hk
      have := hInv.vis_of (i := new) (o := n') (upd_self _ _ _) rfl
      exact this.trans (ite_valid (isValid_congr e1 e3 rfl rfl rfl rfl))
    · rw [if_neg hk]
      unfold vis; simp only; rw [hlk2 k hk]
      cases hx : s.tbl.lookup k with
      | none => rfl
      | some j =>
        obtain ⟨a, g1, g2, g3⟩ := (hI.tblIff k j).mp hx
        have hj : j ≠ new := by
          rintro rfl; rw [hn] at g1; injection g1 with g1; subst g1; simp [hnl] at g2
        have hj2 : j ≠ old := by rintro rfl; exact hk (by rw [hkey]; exact huniq k hx)
        simp only [Option.bind_some]; rw [upd_ne _ _ hj, e7, if_neg hj2, g1]
        simp only [Option.bind_some]
        exact ite_valid (isValid_congr e1 e3 rfl rfl rfl rfl)
  · exact (upd_ne _ _ (Ne.symm hne)).trans (by rw [e7, if_pos rfl, if_neg hh0])
  · intro j h1 h2; simp [upd, h2, e7, h1]
  · intro hA j a g1 g2
    by_cases hj : j = new
    · subst hj; simp [upd] at g1; subst g1; rfl
    · simp [upd, hj] at g1; rw [e7] at g1
      by_cases hj2 : j = old
      · simp [hj2, hh0] at g1; subst g1; simp at g2
      · simp [hj2] at g1; exact hA j a g1 g2

/-! ### background actions and allocation -/

/-- Only evictions and removals from the queue (no `do_item_repair`). -/
def NoRepair (acts : List EnvAct) : Prop := ∀ i, .repair i ∉ acts

/-- No referenced item is taken off its queue. -/
def NoDrop (acts : List EnvAct) : Prop := ∀ i, .lruDrop i ∉ acts

/-- What background actions leave: held objects stay (perhaps off the queue), visible entries stay or are lost. -/
structure EnvFr (cfg : Cfg) (s s' : St) (h : Id → Nat) : Prop where
  inv : Inv cfg s' h
  fr : Fr s s'
  cas : s'.casId = s.casId
  next : s'.nextId = s.nextId
  held : ∀ i o, s.heap i = some o → 0 < h i → ∃ b, s'.heap i = some { o with inLru := b }
  vis_le : ∀ k, vis cfg s' k = vis cfg s k ∨ vis cfg s' k = none
  vis_held : ∀ i o, s.heap i = some o → o.linked = true → 0 < h i → vis cfg s' o.key = vis cfg s o.key
  tbl_le : ∀ k, s.tbl.lookup k = none → s'.tbl.lookup k = none

theorem EnvFr.refl (hI : Inv cfg s h) : EnvFr cfg s s h :=
  ⟨hI, .refl s, rfl, rfl, fun _ o h1 _ => ⟨o.inLru, h1⟩, fun _ => Or.inl rfl, fun _ _ _ _ _ => rfl, fun _ h => h⟩

theorem EnvFr.trans {s' s'' : St} (h1 : EnvFr cfg s s' h) (h2 : EnvFr cfg s' s'' h) : EnvFr cfg s s'' h where
  inv := h2.inv
  fr := h1.fr.trans h2.fr
  cas := h2.cas.trans h1.cas
  next := h2.next.trans h1.next
  held := by
    intro i o g1 g2
    obtain ⟨b, g3⟩ := h1.held i o g1 g2
    obtain ⟨b', g4⟩ := h2.held i _ g3 g2
    exact ⟨b', g4⟩
  vis_le := by
    intro k
    rcases h2.vis_le k with e | e
    · rw [e]; exact h1.vis_le k
    · exact Or.inr e
  vis_held := by
    intro i o g1 g2 g3
    obtain ⟨b, g4⟩ := h1.held i o g1 g3
    rw [← h1.vis_held i o g1 g2 g3]
    exact h2.vis_held i { o with inLru := b } g4 g2 g3
  tbl_le := fun k hk => h2.tbl_le k (h1.tbl_le k hk)

theorem envAct_spec (hI : Inv cfg s h) (a : EnvAct) (hr : ∀ i, a ≠ .repair i) :
    ∃ s', envAct cfg s a = some s' ∧ EnvFr cfg s s' h ∧ ((∀ i, a ≠ .lruDrop i) → AllLru s → AllLru s') := by
  cases a with
  | repair i => exact absurd rfl (hr i)
  | evict i =>
    simp only [envAct]
    cases ho : s.heap i with
    | none => simp only; exact ⟨s, rfl, .refl hI, fun _ => id⟩
    | some o =>
      simp only
      split
      · next hc =>
        have hl := hI.lruLinked i o ho hc.1
        obtain ⟨hwf, hv⟩ := hI.refs i o ho
        have h0 : h i = 0 := by rw [← hv]; exact (Ref.zero_iff hwf).mp hc.2
        obtain ⟨s', e0, f1, f2, f3, f4, f5, f6, f7, f8, f9, f10⟩ := unlink_spec hI ho hl
        refine ⟨s', e0, ⟨f1, f2, f3, f4, ?_, ?_, ?_, ?_⟩, fun _ => f10⟩
        · intro j a g1 g2
          have hj : j ≠ i := by rintro rfl; omega
          exact ⟨a.inLru, by rw [f8 j hj, g1]⟩
        · intro k; rw [f5 k]; split <;> simp
        · intro j a g1 g2 g3
          rw [f5, if_neg]
          intro hk
          have hj := (hI.tblIff a.key j).mpr ⟨a, g1, g2, rfl⟩
          have hi := (hI.tblIff o.key i).mpr ⟨o, ho, hl, rfl⟩
          rw [hk, hi] at hj; injection hj with hj; subst hj; omega
        · intro k hk; rw [f6 k, hk]; split <;> rfl
      · exact ⟨s, rfl, .refl hI, fun _ => id⟩
  | lruDrop i =>
    simp only [envAct]
    cases ho : s.heap i with
    | none => simp only; exact ⟨s, rfl, .refl hI, fun _ => id⟩
    | some o =>
      simp only
      split
      · next hc =>
        obtain ⟨hwf, hv⟩ := hI.refs i o ho
        have h0 : 0 < h i := by
          rcases Nat.eq_zero_or_pos (h i) with e | e
          · rw [← hv] at e; exact absurd ((Ref.zero_iff hwf).mpr e) hc.2
          · exact e
        have hD := hI.lruDropped ho hc.1 h0
        have hv : ∀ k, vis cfg (St.mk s.now s.casId s.oldest s.pfxOld s.tbl
            (upd s.heap i (some { o with inLru := false })) s.nextId
            (upd s.lru (qid cfg o) ((s.lru (qid cfg o)).erase i))) k = vis cfg s k := by
          intro k; refine vis_congr hI (by rfl) ?_ k
          intro j a g1 g2
          by_cases hj : j = i
          · subst hj; rw [ho] at g1; injection g1 with g1; subst g1
            exact ⟨{ o with inLru := false }, upd_self _ _ _, ⟨rfl, rfl, rfl, rfl, rfl, rfl, rfl⟩, rfl⟩
          · exact ⟨a, by simp [upd, hj, g1], .refl a, rfl⟩
        refine ⟨_, ?_, ⟨hD, ⟨rfl, rfl, .refl _⟩, rfl, rfl, ?_, fun k => Or.inl (hv k), fun _ _ _ _ _ => hv _, fun _ h => h⟩, ?_⟩
        · unfold itemUnlinkQ; rw [ho]; simp [hc.1]
        · intro j a g1 g2
          by_cases hj : j = i
          · subst hj; rw [ho] at g1; injection g1 with g1; subst g1
            exact ⟨false, upd_self _ _ _⟩
          · exact ⟨a.inLru, by simp [upd, hj, g1]⟩
        · intro hn; exact absurd rfl (hn i)
      · exact ⟨s, rfl, .refl hI, fun _ => id⟩

theorem envActs_spec (hI : Inv cfg s h) (as : List EnvAct) (hr : NoRepair as) :
    ∃ s', envActs cfg s as = some s' ∧ EnvFr cfg s s' h ∧ (NoDrop as → AllLru s → AllLru s') ∧ (as = [] → s' = s) := by
  induction as generalizing s with
  | nil => exact ⟨s, rfl, .refl hI, fun _ => id, fun _ => rfl⟩
  | cons a as ih =>
    obtain ⟨s1, e1, f1, g1⟩ := envAct_spec hI a (fun i hi => hr i (by simp [hi]))
    obtain ⟨s2, e2, f2, g2, -⟩ := ih f1.inv (fun i hi => hr i (List.mem_cons_of_mem _ hi))
    refine ⟨s2, ?_, f1.trans f2, ?_, by simp⟩
    · unfold envActs; rw [e1]; exact e2
    · intro hd hA
      exact g2 (fun i hi => hd i (List.mem_cons_of_mem _ hi)) (g1 (fun i hi => hd i (by simp [hi])) hA)

/-- Facts after a successful allocation of item `i` with contents `o`. -/
structure Alloc (cfg : Cfg) (s s' : St) (h : Id → Nat) (i : Id) (o : Obj) (acts : List EnvAct) : Prop where
  fresh : s.heap i = none
  zero : h i = 0
  inv : Inv cfg s' (upd h i 1)
  fr : Fr s s'
  cas : s'.casId = s.casId
  obj : s'.heap i = some o
  held : ∀ j a, s.heap j = some a → 0 < h j → ∃ b, s'.heap j = some { a with inLru := b }
  vis_le : ∀ k, vis cfg s' k = vis cfg s k ∨ vis cfg s' k = none
  vis_held : ∀ j a, s.heap j = some a → a.linked = true → 0 < h j → vis cfg s' a.key = vis cfg s a.key
  tbl_le : ∀ k, s.tbl.lookup k = none → s'.tbl.lookup k = none
  noActs : acts = [] → (∀ k, vis cfg s' k = vis cfg s k) ∧ (∀ j, j ≠ i → s'.heap j = s.heap j)
  lru : NoDrop acts → AllLru s → AllLru s'

theorem alloc_spec (hI : Inv cfg s h) (env : Env) (hr : NoRepair env.acts) (key : Key) (flags exptime : Nat)
    (coll : Bool) (data : List Nat) :
    (env.ok = true → ∃ s' i, doItemAlloc cfg s env key flags exptime coll data = some (s', some i) ∧
      Alloc cfg s s' h i ⟨key, flags, exptime, 0, 0, coll, data, false, false, ⟨1, 0⟩⟩ env.acts) ∧
    (env.ok = false → ∃ s', doItemAlloc cfg s env key flags exptime coll data = some (s', none) ∧
      EnvFr cfg s s' h ∧ (NoDrop env.acts → AllLru s → AllLru s') ∧ (env.acts = [] → s' = s)) := by
  obtain ⟨s1, e1, f1, g1, k1⟩ := envActs_spec hI env.acts hr
  unfold doItemAlloc; rw [e1]
  constructor
  · intro hok
    simp only [hok, if_true]
    let o : Obj := ⟨key, flags, exptime, 0, 0, coll, data, false, false, ⟨1, 0⟩⟩
    obtain ⟨a1, a2⟩ := f1.inv.alloc (o := o) rfl rfl rfl
    have hfr : s.heap s1.nextId = none := hI.fresh _ (by rw [f1.next]; exact Nat.le_refl _)
    have hv : ∀ k, vis cfg { s1 with heap := upd s1.heap s1.nextId (some o), nextId := s1.nextId + 1 } k = vis cfg s1 k := by
      intro k; refine vis_congr f1.inv (by rfl) ?_ k
      intro j a h1 h2
      have hj : j ≠ s1.nextId := by
        rintro rfl; rw [f1.inv.fresh _ (Nat.le_refl _)] at h1; simp at h1
      exact ⟨a, by simp [upd, hj, h1], .refl a, rfl⟩
    refine ⟨_, _, rfl, ⟨hfr, a1, a2, ⟨f1.fr.now, f1.fr.oldest, f1.fr.marks⟩, f1.cas, upd_self _ _ _, ?_, ?_, ?_, ?_, ?_, ?_⟩⟩
    · intro j a h1 h2
      have hj : j ≠ s1.nextId := by rintro rfl; rw [hfr] at h1; simp at h1
      obtain ⟨b, hb⟩ := f1.held j a h1 h2
      exact ⟨b, by simp [upd, hj, hb]⟩
    · intro k; rw [hv]; exact f1.vis_le k
    · intro j a h1 h2 h3; rw [hv]; exact f1.vis_held j a h1 h2 h3
    · exact f1.tbl_le
    · intro hn
      have := k1 hn; subst this
      exact ⟨hv, fun j hj => by simp [upd, hj]⟩
    · intro hd hA j a h1 h2
      by_cases hj : j = s1.nextId
      · subst hj; simp [upd] at h1; subst h1; simp [o] at h2
      · simp [upd, hj] at h1; exact g1 hd hA j a h1 h2
  · intro hok
    simp only [hok, Bool.false_eq_true, if_false]
    exact ⟨s1, rfl, f1, g1, k1⟩

/-! ### flush -/

/-- Facts about a flush walk: nothing new, held objects stay, everything out of scope stays. -/
structure FlushFr (cfg : Cfg) (scope : Key → Bool) (s s' : St) (h : Id → Nat) : Prop where
  inv : Inv cfg s' h
  fr : Fr s s'
  cas : s'.casId = s.casId
  sub : ∀ q, (s'.lru q).Sublist (s.lru q)
  back : ∀ i o', s'.heap i = some o' → ∃ o, s.heap i = some o ∧ o'.time = o.time ∧ o'.key = o.key ∧
    (o'.linked = true → o' = o)
  held : ∀ i o, s.heap i = some o → 0 < h i → ∃ o', s'.heap i = some o' ∧ o'.key = o.key ∧ o'.flags = o.flags ∧
    o'.exptime = o.exptime ∧ o'.cas = o.cas ∧ o'.coll = o.coll ∧ o'.data = o.data ∧ (o.linked = false → o' = o)
  vis_le : ∀ k, vis cfg s' k = vis cfg s k ∨ vis cfg s' k = none
  vis_out : ∀ k, scope k = false → vis cfg s' k = vis cfg s k
  lru : AllLru s → AllLru s'

theorem FlushFr.refl (hI : Inv cfg s h) (sc : Key → Bool) : FlushFr cfg sc s s h :=
  ⟨hI, .refl s, rfl, fun _ => .refl _, fun _ o h1 => ⟨o, h1, rfl, rfl, fun _ => rfl⟩,
   fun _ o h1 _ => ⟨o, h1, rfl, rfl, rfl, rfl, rfl, rfl, fun _ => rfl⟩, fun _ => Or.inl rfl, fun _ _ => rfl, id⟩

theorem FlushFr.trans {sc : Key → Bool} {s' s'' : St} (h1 : FlushFr cfg sc s s' h) (h2 : FlushFr cfg sc s' s'' h) :
    FlushFr cfg sc s s'' h where
  inv := h2.inv
  fr := h1.fr.trans h2.fr
  cas := h2.cas.trans h1.cas
  sub := fun q => (h2.sub q).trans (h1.sub q)
  back := by
    intro i o' g1
    obtain ⟨o1, g2, g3, g4, g5⟩ := h2.back i o' g1
    obtain ⟨o2, k2, k3, k4, k5⟩ := h1.back i o1 g2
    refine ⟨o2, k2, g3.trans k3, g4.trans k4, ?_⟩
    intro hl; have e := g5 hl; subst e; exact k5 hl
  held := by
    intro i o g1 g2
    obtain ⟨o1, a1, a2, a3, a4, a5, a6, a7, a8⟩ := h1.held i o g1 g2
    obtain ⟨o2, b1, b2, b3, b4, b5, b6, b7, b8⟩ := h2.held i o1 a1 g2
    refine ⟨o2, b1, b2.trans a2, b3.trans a3, b4.trans a4, b5.trans a5, b6.trans a6, b7.trans a7, ?_⟩
    intro hl; have e := a8 hl; subst e; exact b8 hl
  vis_le := by
    intro k
    rcases h2.vis_le k with e | e
    · rw [e]; exact h1.vis_le k
    · exact Or.inr e
  vis_out := fun k hk => (h2.vis_out k hk).trans (h1.vis_out k hk)
  lru := fun hA => h2.lru (h1.lru hA)

/-- Unlinking one in-scope item is a flush step. -/
theorem unlink_flush (hI : Inv cfg s h) {i : Id} {o : Obj} (ho : s.heap i = some o) (hl : o.linked = true)
    {sc : Key → Bool} (hsc : sc o.key = true) :
    ∃ s', doItemUnlink cfg s i = some s' ∧ FlushFr cfg sc s s' h ∧
      (∀ o', s'.heap i = some o' → o'.linked = false) ∧ ∀ j, j ≠ i → s'.heap j = s.heap j := by
  obtain ⟨s', e0, f1, f2, f3, f4, f5, f6, f7, f8, f9, f10⟩ := unlink_spec hI ho hl
  refine ⟨s', e0, ⟨f1, f2, f3, f9, ?_, ?_, ?_, ?_, f10⟩, ?_, f8⟩
  · intro j o' g
    by_cases hj : j = i
    · subst hj; rw [f7] at g; split at g
      · simp at g
      · injection g with g; subst g; exact ⟨o, ho, rfl, rfl, by simp⟩
    · rw [f8 j hj] at g; exact ⟨o', g, rfl, rfl, fun _ => rfl⟩
  · intro j a g1 g2
    by_cases hj : j = i
    · subst hj; rw [ho] at g1; injection g1 with g1; subst g1
      rw [f7, if_neg (by omega)]
      exact ⟨_, rfl, rfl, rfl, rfl, rfl, rfl, rfl, by simp [hl]⟩
    · exact ⟨a, by rw [f8 j hj, g1], rfl, rfl, rfl, rfl, rfl, rfl, fun _ => rfl⟩
  · intro k; rw [f5 k]; split <;> simp
  · intro k hk; rw [f5 k, if_neg]; rintro rfl; simp [hsc] at hk
  · intro o' g; rw [f7] at g; split at g
    · simp at g
    · injection g with g; subst g; rfl

theorem flushWalk_spec (sc : Key → Bool) (mark : Nat) :
    ∀ (ids : List Id) (s : St), Inv cfg s h → ids.Nodup →
      (∀ i ∈ ids, ∃ o, s.heap i = some o ∧ o.linked = true) →
      ids.Pairwise (fun i j => ∀ a b, s.heap i = some a → s.heap j = some b → b.time ≤ a.time) →
      ∃ s', flushWalk cfg sc mark s ids = some s' ∧ FlushFr cfg sc s s' h ∧
        ∀ i ∈ ids, ∀ o', s'.heap i = some o' → o'.linked = true → mark ≤ o'.time → sc o'.key = false := by
  intro ids
  induction ids with
  | nil => intro s hI _ _ _; exact ⟨s, rfl, .refl hI sc, by simp⟩
  | cons i rest ih =>
    intro s hI hnd hal hpw
    obtain ⟨o, ho, hl⟩ := hal i (by simp)
    rw [List.nodup_cons] at hnd
    rw [List.pairwise_cons] at hpw
    unfold flushWalk; rw [ho]; simp only
    split
    · next hlt =>
      refine ⟨s, rfl, .refl hI sc, ?_⟩
      intro j hj o' g1 g2 g3
      rcases List.mem_cons.mp hj with rfl | hj
      · rw [ho] at g1; injection g1 with g1; subst g1; omega
      · have := hpw.1 j hj o o' ho g1; omega
    · split
      · next hge hsc =>
        obtain ⟨s1, e1, f1, f2, f3⟩ := unlink_flush hI ho hl hsc
        rw [e1]; simp only
        have hne : ∀ j ∈ rest, j ≠ i := fun j hj e => hnd.1 (e ▸ hj)
        obtain ⟨s2, e2, g1, g2⟩ := ih s1 f1.inv hnd.2
          (by intro j hj; rw [f3 j (hne j hj)]; exact hal j (List.mem_cons_of_mem _ hj))
          (by
            refine hpw.2.imp_of_mem ?_
            intro a b ha hb hab x y hx hy
            rw [f3 a (hne a ha)] at hx; rw [f3 b (hne b hb)] at hy
            exact hab x y hx hy)
        refine ⟨s2, e2, f1.trans g1, ?_⟩
        intro j hj o' k1 k2 k3
        rcases List.mem_cons.mp hj with rfl | hj
        · obtain ⟨o1, m1, m2, m3, m4⟩ := g1.back j o' k1
          have := f2 o1 m1; rw [← m4 k2, k2] at this; simp at this
        · exact g2 j hj o' k1 k2 k3
      · next hge hsc =>
        obtain ⟨s2, e2, g1, g2⟩ := ih s hI hnd.2 (fun j hj => hal j (List.mem_cons_of_mem _ hj)) hpw.2
        refine ⟨s2, e2, g1, ?_⟩
        intro j hj o' k1 k2 k3
        rcases List.mem_cons.mp hj with rfl | hj
        · obtain ⟨o1, m1, m2, m3, m4⟩ := g1.back j o' k1
          rw [ho] at m1; injection m1 with m1; subst m1
          rw [m3]; simpa using hsc
        · exact g2 j hj o' k1 k2 k3

theorem flushClasses_spec (sc : Key → Bool) (mark : Nat) :
    ∀ (qs : List (Nat × Bool)) (s : St), Inv cfg s h →
      ∃ s', flushClasses cfg sc mark s qs = some s' ∧ FlushFr cfg sc s s' h ∧
        ∀ q ∈ qs, ∀ i ∈ s'.lru q, ∀ o', s'.heap i = some o' → mark ≤ o'.time → sc o'.key = false := by
  intro qs
  induction qs with
  | nil => intro s hI; exact ⟨s, rfl, .refl hI sc, by simp⟩
  | cons q qs ih =>
    intro s hI
    obtain ⟨s1, e1, f1, g1⟩ := flushWalk_spec (cfg := cfg) (h := h) sc mark (s.lru q) s hI (hI.lruNodup q)
      (by intro i hi; obtain ⟨o, k1, k2, k3⟩ := (hI.lruMem q i).mp hi; exact ⟨o, k1, hI.lruLinked i o k1 k2⟩)
      (hI.sorted q)
    obtain ⟨s2, e2, f2, g2⟩ := ih s1 f1.inv
    unfold flushClasses; rw [e1]; simp only
    refine ⟨s2, e2, f1.trans f2, ?_⟩
    intro q' hq' i hi o' k1 k2
    rcases List.mem_cons.mp hq' with rfl | hq'
    · obtain ⟨o1, m1, m2, m3, m4⟩ := f2.back i o' k1
      obtain ⟨o2, n1, n2, n3⟩ := (f2.inv.lruMem q' i).mp hi
      rw [k1] at n1; injection n1 with n1; subst n1
      have hl := f2.inv.lruLinked i o' k1 n2
      have := m4 hl; subst this
      exact g1 i ((f1.sub q').subset ((f2.sub q').subset hi)) o' m1 hl k2
    · exact g2 q' hq' i hi o' k1 k2

theorem mem_allQueues (cfg : Cfg) (o : Obj) : qid cfg o ∈ allQueues cfg := by
  unfold allQueues qid
  rw [List.mem_flatMap]
  refine ⟨if o.coll ∨ ntotal o ≤ cfg.maxSm then 0 else cfg.clsid (ntotal o), List.mem_range.mpr ?_, ?_⟩
  · split
    · omega
    · have := cfg.clsid_le (ntotal o); omega
  · cases (o.exptime == sticky) <;> simp

end Verif.Item
