import Verif.Spec.Item
/-! Invariant of the item model and the effect of every primitive on it. -/
namespace Verif.Item
open Verif.Util Verif.Item.Spec

/-! ## Reference counter pairs -/

/-- Number of references a counter pair stands for. -/
def Ref.val (r : Ref) : Nat := r.cnt + 32768 * r.chunk

/-- Well-formed counter pair. -/
def Ref.WF (r : Ref) : Prop := r.cnt < 65535 ∧ r.chunk < 256 ∧ (r.cnt = 0 → r.chunk = 0)

/-- A bound on the number of references below which the pair cannot overflow. -/
def maxRefs : Nat := 32768 * 255

theorem Ref.incr_spec {r : Ref} (h : r.WF) (hb : r.val < maxRefs) :
    ∃ r', r.incr = some r' ∧ r'.WF ∧ r'.val = r.val + 1 ∧ r'.cnt ≠ 0 := by
  obtain ⟨h1, h2, h3⟩ := h
  unfold Ref.val maxRefs at hb
  unfold Ref.incr
  have e1 : (r.cnt + 1) % 65536 = r.cnt + 1 := Nat.mod_eq_of_lt (by omega)
  simp only [e1]
  split
  · have e2 : (r.chunk + 1) % 256 = r.chunk + 1 := Nat.mod_eq_of_lt (by omega)
    simp only [e2]
    rw [if_neg (by omega)]
    refine ⟨_, rfl, ⟨?_, ?_, ?_⟩, ?_, ?_⟩ <;> simp [Ref.val] <;> omega
  · refine ⟨_, rfl, ⟨?_, ?_, ?_⟩, ?_, ?_⟩ <;> simp [Ref.val] <;> omega

theorem Ref.decr_spec {r : Ref} (h : r.WF) (hb : 0 < r.val) :
    r.cnt ≠ 0 ∧ r.decr.WF ∧ r.decr.val = r.val - 1 := by
  obtain ⟨h1, h2, h3⟩ := h
  unfold Ref.val at hb
  have h0 : r.cnt ≠ 0 := by omega
  refine ⟨h0, ?_⟩
  unfold Ref.decr
  simp only
  split
  · refine ⟨⟨?_, ?_, ?_⟩, ?_⟩ <;> simp [Ref.val] <;> omega
  · refine ⟨⟨?_, ?_, ?_⟩, ?_⟩ <;> simp [Ref.val] <;> omega

theorem Ref.zero_iff {r : Ref} (h : r.WF) : r.cnt = 0 ↔ r.val = 0 := by
  obtain ⟨h1, h2, h3⟩ := h; unfold Ref.val; omega

/-! ## The table -/

section table
variable {α : Type}

theorem lookup_iff_mem (t : List (Key × Id)) (hn : (t.map (·.1)).Nodup) (k : Key) (i : Id) :
    t.lookup k = some i ↔ (k, i) ∈ t := by
  induction t with
  | nil => simp
  | cons p t ih =>
    obtain ⟨k', i'⟩ := p
    simp only [List.map_cons, List.nodup_cons] at hn
    rw [List.lookup_cons]
    by_cases h : k = k'
    · subst h
      simp only [beq_self_eq_true, List.mem_cons, Prod.mk.injEq, true_and, Option.some.injEq]
      constructor
      · intro h; exact Or.inl h.symm
      · rintro (h | h)
        · exact h.symm
        · exact absurd (List.mem_map_of_mem (f := (·.1)) h) hn.1
    · have : (k == k') = false := by simpa using h
      simp [this, ih hn.2, h]

theorem lookup_delete (t : List (Key × Id)) (k k' : Key) :
    (assocDelete t k).lookup k' = if k' = k then none else t.lookup k' := by
  induction t with
  | nil => simp [assocDelete]
  | cons p t ih =>
    obtain ⟨a, b⟩ := p
    unfold assocDelete at ih ⊢
    by_cases h : a = k
    · subst h
      simp only [List.filter_cons, bne_self_eq_false, Bool.false_eq_true, if_false]
      rw [ih]
      by_cases h2 : k' = a
      · simp [h2]
      · have h3 : (k' == a) = false := by simpa using h2
        rw [List.lookup_cons]; simp [h2, h3]
    · have : (a != k) = true := by simpa using h
      simp only [List.filter_cons, this, if_true]
      rw [List.lookup_cons, List.lookup_cons, ih]
      by_cases h2 : k' = a
      · subst h2; simp [h]
      · have h3 : (k' == a) = false := by simpa using h2
        simp [h3]

theorem nodup_delete (t : List (Key × Id)) (k : Key) (h : (t.map (·.1)).Nodup) :
    ((assocDelete t k).map (·.1)).Nodup :=
  h.sublist (List.Sublist.map _ List.filter_sublist)

theorem lookup_replace (t : List (Key × Id)) (a b : Id) (k : Key) :
    (assocReplace t a b).lookup k = (t.lookup k).map (fun i => if i = a then b else i) := by
  induction t with
  | nil => simp [assocReplace]
  | cons p t ih =>
    obtain ⟨k', i⟩ := p
    unfold assocReplace at ih ⊢
    simp only [List.map_cons]
    by_cases h : i = a
    · subst h
      simp only [if_true]
      rw [List.lookup_cons, List.lookup_cons, ih]
      by_cases h2 : k = k'
      · subst h2; simp
      · have h3 : (k == k') = false := by simpa using h2
        simp [h3]
    · simp only [h, if_false]
      rw [List.lookup_cons, List.lookup_cons, ih]
      by_cases h2 : k = k'
      · subst h2; simp [h]
      · have h3 : (k == k') = false := by simpa using h2
        simp [h3]

theorem keys_replace (t : List (Key × Id)) (a b : Id) : (assocReplace t a b).map (·.1) = t.map (·.1) := by
  unfold assocReplace
  rw [List.map_map]
  apply List.map_congr_left
  intro p _
  simp only [Function.comp]
  split <;> rfl

end table

theorem all_ne_iff (cfg : Cfg) (t : List (Key × Id)) (hn : (t.map (·.1)).Nodup) (p : List Nat) :
    (t.all fun e => pfxOf cfg e.1 != p) = true ↔ ∀ k i, t.lookup k = some i → pfxOf cfg k ≠ p := by
  rw [List.all_eq_true]
  constructor
  · intro h k i hl
    have := h (k, i) ((lookup_iff_mem t hn k i).mp hl)
    simpa using this
  · rintro h ⟨k, i⟩ hm
    have := h k i ((lookup_iff_mem t hn k i).mpr hm)
    simpa using this

/-! ## The invariant -/

/-- Invariant between engine calls; `h i` is the number of outstanding references of item `i`. -/
structure Inv (cfg : Cfg) (s : St) (h : Id → Nat) : Prop where
  keysNodup : (s.tbl.map (·.1)).Nodup
  tblIff : ∀ k i, s.tbl.lookup k = some i ↔ ∃ o, s.heap i = some o ∧ o.linked = true ∧ o.key = k
  refs : ∀ i o, s.heap i = some o → o.ref.WF ∧ o.ref.val = h i
  heldOk : ∀ i, 0 < h i → ∃ o, s.heap i = some o
  noLeak : ∀ i o, s.heap i = some o → o.linked = false → 0 < h i
  fresh : ∀ i, s.nextId ≤ i → s.heap i = none
  lruMem : ∀ q i, i ∈ s.lru q ↔ ∃ o, s.heap i = some o ∧ o.inLru = true ∧ qid cfg o = q
  lruNodup : ∀ q, (s.lru q).Nodup
  lruLinked : ∀ i o, s.heap i = some o → o.inLru = true → o.linked = true
  sorted : ∀ q, (s.lru q).Pairwise (fun i j => ∀ a b, s.heap i = some a → s.heap j = some b → b.time ≤ a.time)
  timeLe : ∀ i o, s.heap i = some o → o.linked = true → o.time ≤ s.now
  casLe : ∀ i o, s.heap i = some o → o.linked = true → o.cas ≤ s.casId
  casInj : ∀ i j a b, s.heap i = some a → s.heap j = some b → a.linked = true → b.linked = true →
    a.cas = b.cas → i = j
  pfxZero : ∀ p, p ≠ [] → (∀ k i, s.tbl.lookup k = some i → pfxOf cfg k ≠ p) → s.pfxOld p = 0
  nameOk : ∀ i o, s.heap i = some o → o.linked = true → pfxNameOk cfg o.key = true

theorem inv_init (cfg : Cfg) (now : Nat) : Inv cfg (init now) (fun _ => 0) := by
  constructor <;> simp [init]

def Obj.entry (o : Obj) : Entry := ⟨o.flags, o.exptime, o.cas, o.coll, o.data⟩

/-- The visible contents: the valid entries of the table. -/
def vis (cfg : Cfg) (s : St) (k : Key) : Option Entry :=
  (s.tbl.lookup k).bind fun i => (s.heap i).bind fun o => if isValid cfg s o then some o.entry else none

theorem upd_self {α β : Type} [DecidableEq α] (f : α → β) (a : α) (b : β) : upd f a b a = b := by simp [upd]
theorem upd_ne {α β : Type} [DecidableEq α] (f : α → β) {a x : α} (b : β) (h : x ≠ a) : upd f a b x = f x := by
  simp [upd, h]

variable {cfg : Cfg} {s : St} {h : Id → Nat}

theorem isValid_congr {cfg : Cfg} {s s' : St} {o o' : Obj} (h1 : s'.now = s.now) (h2 : s'.oldest = s.oldest)
    (h3 : s'.pfxOld (pfxOf cfg o.key) = s.pfxOld (pfxOf cfg o.key)) (h4 : o'.key = o.key) (h5 : o'.time = o.time)
    (h6 : o'.exptime = o.exptime) : isValid cfg s' o' = isValid cfg s o := by
  unfold isValid; rw [h4, h5, h6, h1, h2, h3]

theorem Inv.vis_of (hI : Inv cfg s h) {i : Id} {o : Obj} (ho : s.heap i = some o) (hl : o.linked = true) :
    vis cfg s o.key = if isValid cfg s o then some o.entry else none := by
  have := (hI.tblIff o.key i).mpr ⟨o, ho, hl, rfl⟩
  simp [vis, this, ho]

theorem vis_none (hl : s.tbl.lookup k = none) : vis cfg s k = none := by simp [vis, hl]

theorem qid_congr {o o' : Obj} (h1 : o.key = o'.key) (h2 : o.data = o'.data) (h3 : o.coll = o'.coll)
    (h4 : (o.exptime == sticky) = (o'.exptime == sticky)) : qid cfg o = qid cfg o' := by
  unfold qid ntotal; rw [h1, h2, h3, h4]

/-! ### unlink -/

/-- Closed form of `do_item_unlink` on a linked item. -/
theorem unlink_eq (hI : Inv cfg s h) {i : Id} {o : Obj} (ho : s.heap i = some o) (hl : o.linked = true) :
    ∃ s', doItemUnlink cfg s i = some s' ∧
      s'.now = s.now ∧ s'.casId = s.casId ∧ s'.oldest = s.oldest ∧ s'.nextId = s.nextId ∧
      s'.tbl = assocDelete s.tbl o.key ∧
      (∀ q, s'.lru q = if q = qid cfg o then (s.lru q).erase i else s.lru q) ∧
      (∀ j, s'.heap j = if j = i then (if h i = 0 then none else some { o with linked := false, inLru := false })
        else s.heap j) ∧
      (∀ p, s'.pfxOld p = if p = pfxOf cfg o.key ∧ p ≠ [] ∧
        (s'.tbl.all fun e => pfxOf cfg e.1 != p) = true then 0 else s.pfxOld p) := by
  obtain ⟨hwf, hv⟩ := hI.refs i o ho
  have hz : o.ref.cnt = 0 ↔ h i = 0 := by rw [Ref.zero_iff hwf, hv]
  have hq : itemUnlinkQ cfg s i = some { s with
      lru := fun q => if q = qid cfg o then (s.lru q).erase i else s.lru q
      heap := upd s.heap i (some { o with inLru := false }) } := by
    unfold itemUnlinkQ; rw [ho]; simp only
    by_cases hin : o.inLru = true
    · simp only [hin, Bool.not_true, Bool.false_eq_true, if_false, Option.some.injEq]
      congr 1
      funext q; unfold upd; split <;> simp_all
    · have hin' : o.inLru = false := by simpa using hin
      have h1 : ∀ q, (if q = qid cfg o then (s.lru q).erase i else s.lru q) = s.lru q := by
        intro q; split
        · apply List.erase_of_not_mem
          intro hm; obtain ⟨o', h1, h2, -⟩ := (hI.lruMem q i).mp hm
          rw [ho] at h1; injection h1 with h1; subst h1; simp [hin'] at h2
        · rfl
      have h2 : upd s.heap i (some { o with inLru := false }) = s.heap := by
        funext j; unfold upd; split
        · next hj => subst hj; rw [ho]; cases o; simp_all
        · rfl
      simp only [h1, h2, hin', Bool.not_false, if_true]
  unfold doItemUnlink; rw [ho]; simp only [hl, Bool.not_true, Bool.false_eq_true, if_false, hq, upd_self]
  unfold pfxDrop
  by_cases hc : o.ref.cnt = 0
  · have hh := hz.mp hc
    simp only [hc, if_true]
    split
    all_goals
      simp only [doItemFree, upd_self, hc, Bool.false_eq_true, ne_eq, not_true_eq_false, or_self, if_false]
      refine ⟨_, rfl, rfl, rfl, rfl, rfl, rfl, fun q => rfl, ?_, ?_⟩
      · intro j; simp only [upd]; split <;> simp_all
      · intro p
        simp only [upd]
        grind
  · have hh : h i ≠ 0 := fun e => hc (hz.mpr e)
    simp only [hc, if_false]
    split
    all_goals
      refine ⟨_, rfl, rfl, rfl, rfl, rfl, rfl, fun q => rfl, ?_, ?_⟩
      · intro j; simp only [upd]; split <;> simp_all
      · intro p
        simp only [upd]
        grind

theorem pairwise_erase {R : Id → Id → Prop} {l : List Id} (hp : l.Pairwise R) (i : Id) : (l.erase i).Pairwise R :=
  hp.sublist List.erase_sublist

theorem Inv.unlinked (hI : Inv cfg s h) {i : Id} {o : Obj} (ho : s.heap i = some o) (hl : o.linked = true)
    {s' : St} (hs : doItemUnlink cfg s i = some s') :
    Inv cfg s' h ∧ (∀ k, vis cfg s' k = if k = o.key then none else vis cfg s k) ∧
    (∀ k, s'.tbl.lookup k = if k = o.key then none else s.tbl.lookup k) ∧
    s'.heap i = (if h i = 0 then none else some { o with linked := false, inLru := false }) ∧
    (∀ j, j ≠ i → s'.heap j = s.heap j) ∧
    s'.now = s.now ∧ s'.casId = s.casId ∧ s'.oldest = s.oldest ∧ s'.nextId = s.nextId ∧
    (∀ q, (s'.lru q).Sublist (s.lru q)) ∧
    (∀ k, s'.tbl.lookup k ≠ none → s'.pfxOld (pfxOf cfg k) = s.pfxOld (pfxOf cfg k)) ∧
    (∀ p, s'.pfxOld p = s.pfxOld p ∨ (p ≠ [] ∧ s'.pfxOld p = 0)) := by
  obtain ⟨s1, e0, e1, e2, e3, e4, e5, e6, e7, e8⟩ := unlink_eq hI ho hl
  rw [hs] at e0; injection e0 with e0; subst e0
  have hnd : (s'.tbl.map (·.1)).Nodup := by rw [e5]; exact nodup_delete _ _ hI.keysNodup
  have hlk : ∀ k, s'.tbl.lookup k = if k = o.key then none else s.tbl.lookup k := by
    intro k; rw [e5, lookup_delete]
  have hlki := (hI.tblIff o.key i).mpr ⟨o, ho, hl, rfl⟩
  have hpfx : ∀ k, s'.tbl.lookup k ≠ none → s'.pfxOld (pfxOf cfg k) = s.pfxOld (pfxOf cfg k) := by
    intro k hk
    rw [e8]
    rw [if_neg]
    rintro ⟨-, -, hall⟩
    have := (all_ne_iff cfg _ hnd _).mp hall
    cases hx : s'.tbl.lookup k with
    | none => exact hk hx
    | some j => exact this k j hx rfl
  have hvis : ∀ k, vis cfg s' k = if k = o.key then none else vis cfg s k := by
    intro k
    by_cases hk : k = o.key
    · simp only [hk, if_true]; exact vis_none (by rw [hlk]; simp)
    · have hx := hlk k; simp only [hk, if_false] at hx ⊢
      unfold vis; rw [hx]
      cases hk' : s.tbl.lookup k with
      | none => rfl
      | some j =>
        obtain ⟨o', h1, h2, h3⟩ := (hI.tblIff k j).mp hk'
        have hji : j ≠ i := by rintro rfl; rw [ho] at h1; injection h1 with h1; subst h1; exact hk h3.symm
        have hp := hpfx k (by rw [hx, hk']; simp)
        simp only [Option.bind_some, e7 j, hji, if_false, h1]
        rw [isValid_congr e1 e3 (by rw [h3]; exact hp) rfl rfl rfl]
  refine ⟨?_, hvis, hlk, by rw [e7 i]; simp, fun j hj => by rw [e7 j]; simp [hj], e1, e2, e3, e4, ?_, hpfx, ?_⟩
  · constructor
    case keysNodup => exact hnd
    case tblIff =>
      intro k j; rw [hlk k]
      by_cases hk : k = o.key
      · subst hk; simp only [if_true, reduceCtorEq, false_iff]
        rintro ⟨o', h1, h2, h3⟩
        rw [e7 j] at h1
        by_cases hj : j = i
        · subst hj; simp only [if_true] at h1; split at h1
          · simp at h1
          · injection h1 with h1; subst h1; simp at h2
        · simp only [hj, if_false] at h1
          have := (hI.tblIff o.key j).mpr ⟨o', h1, h2, h3⟩
          rw [hlki] at this; injection this with this; exact hj this.symm
      · simp only [hk, if_false, hI.tblIff k j, e7 j]
        by_cases hj : j = i
        · subst hj; simp only [if_true]
          constructor
          · rintro ⟨o', h1, h2, h3⟩; rw [ho] at h1; injection h1 with h1; subst h1; exact absurd h3.symm hk
          · rintro ⟨o', h1, h2, h3⟩; split at h1
            · simp at h1
            · injection h1 with h1; subst h1; simp at h2
        · simp [hj]
    case refs =>
      intro j o' h1; rw [e7 j] at h1; split at h1
      · next hj => subst hj; split at h1
                   · simp at h1
                   · injection h1 with h1; subst h1; exact hI.refs j o ho
      · exact hI.refs j o' h1
    case heldOk =>
      intro j hj; rw [e7 j]; split
      · next e => subst e; rw [if_neg (by omega)]; exact ⟨_, rfl⟩
      · exact hI.heldOk j hj
    case noLeak =>
      intro j o' h1 h2; rw [e7 j] at h1; split at h1
      · next e => subst e; split at h1
                  · simp at h1
                  · omega
      · exact hI.noLeak j o' h1 h2
    case fresh =>
      intro j hj; rw [e7 j]; rw [e4] at hj
      have := hI.fresh j hj
      split
      · next e => subst e; rw [ho] at this; simp at this
      · exact this
    case lruMem =>
      intro q j; rw [e6 q, e7 j]
      by_cases hj : j = i
      · subst hj; simp only [if_true]
        have hno : ¬ ∃ o', (if h j = 0 then none else some { o with linked := false, inLru := false }) = some o' ∧
            o'.inLru = true ∧ qid cfg o' = q := by
          rintro ⟨o', h1, h2, h3⟩; split at h1
          · simp at h1
          · injection h1 with h1; subst h1; simp at h2
        simp only [hno, iff_false]
        split
        · intro hm; exact ((List.Nodup.mem_erase_iff (hI.lruNodup q)).mp hm).1 rfl
        · next hq => intro hm; obtain ⟨o', h1, h2, h3⟩ := (hI.lruMem q j).mp hm
                     rw [ho] at h1; injection h1 with h1; subst h1; exact hq h3.symm
      · simp only [hj, if_false]
        split
        · rw [List.mem_erase_of_ne hj]; exact hI.lruMem q j
        · exact hI.lruMem q j
    case lruNodup =>
      intro q; rw [e6 q]; split
      · exact (hI.lruNodup q).erase i
      · exact hI.lruNodup q
    case lruLinked => have hf := hI.lruLinked; clear hnd hlk hvis hpfx e5 e6 e8 hlki hs; grind
    case sorted =>
      intro q; rw [e6 q]
      have h1 := hI.sorted q
      have h2 : (s.lru q).Pairwise (fun i j => ∀ a b, s'.heap i = some a → s'.heap j = some b → b.time ≤ a.time) := by
        refine h1.imp ?_
        intro a b hab x y hx hy
        rw [e7 a] at hx; rw [e7 b] at hy
        grind
      split
      · exact pairwise_erase h2 i
      · exact h2
    case timeLe => have hf := hI.timeLe; clear hnd hlk hvis hpfx e5 e6 e8 hlki hs; grind
    case casLe => have hf := hI.casLe; clear hnd hlk hvis hpfx e5 e6 e8 hlki hs; grind
    case casInj => have hf := hI.casInj; clear hnd hlk hvis hpfx e5 e6 e8 hlki hs; grind
    case pfxZero =>
      intro p hp hall
      rw [e8 p]
      split
      · rfl
      · next hc =>
        by_cases hpk : p = pfxOf cfg o.key
        · exact absurd ⟨hpk, hp, (all_ne_iff cfg _ hnd p).mpr hall⟩ hc
        · apply hI.pfxZero p hp
          intro k j hkj
          by_cases hk : k = o.key
          · subst hk; exact fun e => hpk e.symm
          · exact hall k j (by rw [hlk k]; simp [hk, hkj])
    case nameOk => have hf := hI.nameOk; clear hnd hlk hvis hpfx e5 e6 e8 hlki hs; grind
  · intro q; rw [e6 q]; split
    · exact List.erase_sublist
    · exact List.Sublist.refl _
  · intro p; rw [e8]; split
    · next hc => exact Or.inr ⟨hc.2.1, rfl⟩
    · exact Or.inl rfl

/-! ### changes to a single object -/

/-- Replacing object `i` by one that keeps place, key, time and cas; only references, flags, expiry
(with the same stickiness) may change. -/
theorem Inv.modify (hI : Inv cfg s h) {i : Id} {o o' : Obj} (ho : s.heap i = some o) {h' : Id → Nat}
    (hh : ∀ j, j ≠ i → h' j = h j) (hwf : o'.ref.WF) (hv : o'.ref.val = h' i)
    (hk : o'.key = o.key) (hd : o'.data = o.data) (hc : o'.coll = o.coll) (ht : o'.time = o.time)
    (hcas : o'.cas = o.cas) (hl : o'.linked = o.linked) (hq : o'.inLru = o.inLru)
    (he : (o'.exptime == sticky) = (o.exptime == sticky))
    (hz : h' i = 0 → o.linked = true) :
    Inv cfg { s with heap := upd s.heap i (some o') } h' := by
  have e7 : ∀ j, (upd s.heap i (some o')) j = if j = i then some o' else s.heap j := fun j => rfl
  have hqid : qid cfg o' = qid cfg o := qid_congr hk hd hc he
  constructor
  case keysNodup => exact hI.keysNodup
  case tblIff =>
    intro k j; simp only; rw [hI.tblIff k j, e7 j]
    by_cases hj : j = i
    · subst hj; simp [ho, hl, hk]
    · simp [hj]
  case refs =>
    intro j a h1; simp only [e7 j] at h1
    by_cases hj : j = i
    · subst hj; simp at h1; subst h1; exact ⟨hwf, hv⟩
    · simp [hj] at h1; rw [hh j hj]; exact hI.refs j a h1
  case heldOk =>
    intro j hj; simp only [e7 j]
    by_cases e : j = i
    · simp [e]
    · simp only [e, if_false]; exact hI.heldOk j (by rw [← hh j e]; exact hj)
  case noLeak =>
    intro j a h1 h2; simp only [e7 j] at h1
    by_cases e : j = i
    · subst e; simp at h1; subst h1
      rw [hl] at h2
      rcases Nat.eq_zero_or_pos (h' j) with h3 | h3
      · have := hz h3; simp [h2] at this
      · exact h3
    · simp [e] at h1; rw [hh j e]; exact hI.noLeak j a h1 h2
  case fresh =>
    intro j hj; simp only [e7 j]
    have := hI.fresh j hj
    split
    · next e => subst e; rw [ho] at this; simp at this
    · exact this
  case lruMem =>
    intro q j; simp only; rw [hI.lruMem q j, e7 j]
    by_cases e : j = i
    · subst e; simp [ho, hq, hqid]
    · simp [e]
  case lruNodup => exact hI.lruNodup
  case lruLinked =>
    intro j a h1 h2; simp only [e7 j] at h1
    have hf := hI.lruLinked
    grind
  case sorted =>
    intro q; refine (hI.sorted q).imp ?_
    intro a b hab x y hx hy
    simp only [e7 a, e7 b] at hx hy
    grind
  case timeLe =>
    intro j a h1 h2; simp only [e7 j] at h1
    have hf := hI.timeLe
    grind
  case casLe =>
    intro j a h1 h2; simp only [e7 j] at h1
    have hf := hI.casLe
    grind
  case casInj =>
    intro j l a b h1 h2 h3 h4 h5; simp only [e7 j, e7 l] at h1 h2
    have hf := hI.casInj
    grind
  case pfxZero => exact hI.pfxZero
  case nameOk =>
    intro j a h1 h2; simp only [e7 j] at h1
    have hf := hI.nameOk
    grind

/-- Any change to an unlinked, still referenced object. -/
theorem Inv.modifyUnlinked (hI : Inv cfg s h) {i : Id} {o o' : Obj} (ho : s.heap i = some o)
    (hl : o.linked = false) (hl' : o'.linked = false) (hq' : o'.inLru = false) {h' : Id → Nat}
    (hh : ∀ j, j ≠ i → h' j = h j) (hwf : o'.ref.WF) (hv : o'.ref.val = h' i) (hz : 0 < h' i) :
    Inv cfg { s with heap := upd s.heap i (some o') } h' := by
  have e7 : ∀ j, (upd s.heap i (some o')) j = if j = i then some o' else s.heap j := fun j => rfl
  have hq : o.inLru = false := by
    have := hI.lruLinked i o ho
    cases hx : o.inLru
    · rfl
    · have := this hx; simp [hl] at this
  constructor
  case keysNodup => exact hI.keysNodup
  case tblIff =>
    intro k j; simp only; rw [hI.tblIff k j, e7 j]
    by_cases hj : j = i
    · subst hj; simp [ho, hl, hl']
    · simp [hj]
  case refs =>
    intro j a h1; simp only [e7 j] at h1
    by_cases hj : j = i
    · subst hj; simp at h1; subst h1; exact ⟨hwf, hv⟩
    · simp [hj] at h1; rw [hh j hj]; exact hI.refs j a h1
  case heldOk =>
    intro j hj; simp only [e7 j]
    by_cases e : j = i
    · simp [e]
    · simp only [e, if_false]; exact hI.heldOk j (by rw [← hh j e]; exact hj)
  case noLeak =>
    intro j a h1 h2; simp only [e7 j] at h1
    by_cases e : j = i
    · subst e; exact hz
    · simp [e] at h1; rw [hh j e]; exact hI.noLeak j a h1 h2
  case fresh =>
    intro j hj; simp only [e7 j]
    have := hI.fresh j hj
    split
    · next e => subst e; rw [ho] at this; simp at this
    · exact this
  case lruMem =>
    intro q j; simp only; rw [hI.lruMem q j, e7 j]
    by_cases e : j = i
    · subst e; simp [ho, hq, hq']
    · simp [e]
  case lruNodup => exact hI.lruNodup
  case lruLinked =>
    intro j a h1 h2; simp only [e7 j] at h1
    have hf := hI.lruLinked
    grind
  case sorted =>
    intro q
    have h2 := hI.lruMem q
    refine List.Pairwise.imp_of_mem ?_ (hI.sorted q)
    intro a b ha hb hab x y hx hy
    simp only [e7 a, e7 b] at hx hy
    grind
  case timeLe =>
    intro j a h1 h2; simp only [e7 j] at h1
    have hf := hI.timeLe
    grind
  case casLe =>
    intro j a h1 h2; simp only [e7 j] at h1
    have hf := hI.casLe
    grind
  case casInj =>
    intro j l a b h1 h2 h3 h4 h5; simp only [e7 j, e7 l] at h1 h2
    have hf := hI.casInj
    grind
  case pfxZero => exact hI.pfxZero
  case nameOk =>
    intro j a h1 h2; simp only [e7 j] at h1
    have hf := hI.nameOk
    grind

/-- Allocation of a fresh object. -/
theorem Inv.alloc (hI : Inv cfg s h) {o : Obj} (hl : o.linked = false) (hq : o.inLru = false)
    (hr : o.ref = ⟨1, 0⟩) :
    h s.nextId = 0 ∧
    Inv cfg { s with heap := upd s.heap s.nextId (some o), nextId := s.nextId + 1 } (upd h s.nextId 1) := by
  have hn := hI.fresh s.nextId (Nat.le_refl _)
  have h0 : h s.nextId = 0 := by
    rcases Nat.eq_zero_or_pos (h s.nextId) with e | e
    · exact e
    · obtain ⟨o', h1⟩ := hI.heldOk _ e; rw [hn] at h1; simp at h1
  refine ⟨h0, ?_⟩
  generalize hi : s.nextId = i at *
  have e7 : ∀ j, (upd s.heap i (some o)) j = if j = i then some o else s.heap j := fun j => rfl
  have eh : ∀ j, (upd h i 1) j = if j = i then 1 else h j := fun j => rfl
  constructor
  case keysNodup => exact hI.keysNodup
  case tblIff =>
    intro k j; simp only; rw [hI.tblIff k j, e7 j]
    by_cases hj : j = i
    · subst hj; simp [hn, hl]
    · simp [hj]
  case refs =>
    intro j a h1; simp only [e7 j] at h1; rw [eh j]
    by_cases hj : j = i
    · subst hj; simp at h1; subst h1; rw [hr]; simp [Ref.WF, Ref.val]
    · simp [hj] at h1; simp only [hj, if_false]; exact hI.refs j a h1
  case heldOk =>
    intro j hj; simp only [e7 j]; rw [eh j] at hj
    by_cases e : j = i
    · simp [e]
    · simp only [e, if_false] at hj ⊢; exact hI.heldOk j hj
  case noLeak =>
    intro j a h1 h2; simp only [e7 j] at h1; rw [eh j]
    by_cases e : j = i
    · simp [e]
    · simp [e] at h1 ⊢; exact hI.noLeak j a h1 h2
  case fresh =>
    intro j hj; simp only [e7 j] at hj ⊢
    have hj' : @LE.le Nat _ (i + 1) j := hj
    have hne : j ≠ i := by intro e; subst e; exact absurd hj' (Nat.not_succ_le_self _)
    rw [if_neg hne]
    exact hI.fresh j (by rw [hi]; exact Nat.le_of_succ_le hj')
  case lruMem =>
    intro q j; simp only; rw [hI.lruMem q j, e7 j]
    by_cases e : j = i
    · subst e; simp [hn, hq]
    · simp [e]
  case lruNodup => exact hI.lruNodup
  case lruLinked =>
    intro j a h1 h2; simp only [e7 j] at h1
    have hf := hI.lruLinked
    grind
  case sorted =>
    intro q
    have h2 := hI.lruMem q
    refine List.Pairwise.imp_of_mem ?_ (hI.sorted q)
    intro a b ha hb hab x y hx hy
    simp only [e7 a, e7 b] at hx hy
    grind
  case timeLe =>
    intro j a h1 h2; simp only [e7 j] at h1
    have hf := hI.timeLe
    grind
  case casLe =>
    intro j a h1 h2; simp only [e7 j] at h1
    have hf := hI.casLe
    grind
  case casInj =>
    intro j l a b h1 h2 h3 h4 h5; simp only [e7 j, e7 l] at h1 h2
    have hf := hI.casInj
    grind
  case pfxZero => exact hI.pfxZero
  case nameOk =>
    intro j a h1 h2; simp only [e7 j] at h1
    have hf := hI.nameOk
    grind

/-- Freeing an unlinked, unreferenced object: the last release. -/
theorem Inv.freeLast (hI : Inv cfg s h) {i : Id} {o : Obj} (ho : s.heap i = some o) (hl : o.linked = false)
    {h' : Id → Nat} (hh : ∀ j, j ≠ i → h' j = h j) (hz : h' i = 0) :
    Inv cfg { s with heap := upd s.heap i none } h' := by
  have e7 : ∀ j, (upd s.heap i none) j = if j = i then none else s.heap j := fun j => rfl
  have hq : o.inLru = false := by
    have := hI.lruLinked i o ho
    cases hx : o.inLru
    · rfl
    · have := this hx; simp [hl] at this
  constructor
  case keysNodup => exact hI.keysNodup
  case tblIff =>
    intro k j; simp only; rw [hI.tblIff k j, e7 j]
    by_cases hj : j = i
    · subst hj; simp [ho, hl]
    · simp [hj]
  case refs =>
    intro j a h1; simp only [e7 j] at h1
    by_cases hj : j = i
    · subst hj; simp at h1
    · simp [hj] at h1; rw [hh j hj]; exact hI.refs j a h1
  case heldOk =>
    intro j hj; simp only [e7 j]
    by_cases e : j = i
    · subst e; omega
    · simp only [e, if_false]; exact hI.heldOk j (by rw [← hh j e]; exact hj)
  case noLeak =>
    intro j a h1 h2; simp only [e7 j] at h1
    by_cases e : j = i
    · subst e; simp at h1
    · simp [e] at h1; rw [hh j e]; exact hI.noLeak j a h1 h2
  case fresh =>
    intro j hj; simp only [e7 j]
    have := hI.fresh j hj
    split
    · rfl
    · exact this
  case lruMem =>
    intro q j; simp only; rw [hI.lruMem q j, e7 j]
    by_cases e : j = i
    · subst e; simp [ho, hq]
    · simp [e]
  case lruNodup => exact hI.lruNodup
  case lruLinked =>
    intro j a h1 h2; simp only [e7 j] at h1
    have hf := hI.lruLinked
    grind
  case sorted =>
    intro q; refine (hI.sorted q).imp ?_
    intro a b hab x y hx hy
    simp only [e7 a, e7 b] at hx hy
    grind
  case timeLe =>
    intro j a h1 h2; simp only [e7 j] at h1
    have hf := hI.timeLe
    grind
  case casLe =>
    intro j a h1 h2; simp only [e7 j] at h1
    have hf := hI.casLe
    grind
  case casInj =>
    intro j l a b h1 h2 h3 h4 h5; simp only [e7 j, e7 l] at h1 h2
    have hf := hI.casInj
    grind
  case pfxZero => exact hI.pfxZero
  case nameOk =>
    intro j a h1 h2; simp only [e7 j] at h1
    have hf := hI.nameOk
    grind

/-- Taking a referenced item off its LRU queue. -/
theorem Inv.lruDropped (hI : Inv cfg s h) {i : Id} {o : Obj} (ho : s.heap i = some o) (hin : o.inLru = true)
    (hz : 0 < h i) :
    Inv cfg { s with lru := upd s.lru (qid cfg o) ((s.lru (qid cfg o)).erase i),
                     heap := upd s.heap i (some { o with inLru := false }) } h := by
  have e7 : ∀ j, (upd s.heap i (some { o with inLru := false })) j =
    if j = i then some { o with inLru := false } else s.heap j := fun j => rfl
  have hq : qid cfg { o with inLru := false } = qid cfg o := qid_congr rfl rfl rfl rfl
  have hl := hI.lruLinked i o ho hin
  have e6 : ∀ q, (upd s.lru (qid cfg o) ((s.lru (qid cfg o)).erase i)) q =
      if q = qid cfg o then (s.lru q).erase i else s.lru q := by
    intro q; unfold upd; split <;> simp_all
  constructor
  case keysNodup => exact hI.keysNodup
  case tblIff =>
    intro k j; simp only; rw [hI.tblIff k j, e7 j]
    by_cases hj : j = i
    · subst hj; simp [ho]
    · simp [hj]
  case refs =>
    intro j a h1; simp only [e7 j] at h1
    have hf := hI.refs
    grind
  case heldOk =>
    intro j hj; simp only [e7 j]
    have hf := hI.heldOk
    grind
  case noLeak =>
    intro j a h1 h2; simp only [e7 j] at h1
    have hf := hI.noLeak
    grind
  case fresh =>
    intro j hj; simp only [e7 j]
    have := hI.fresh j hj
    grind
  case lruMem =>
    intro q j; simp only; rw [e6 q, e7 j]
    by_cases hj : j = i
    · subst hj; simp only [if_true]
      have hno : ¬ ∃ o', some { o with inLru := false } = some o' ∧ o'.inLru = true ∧ qid cfg o' = q := by
        rintro ⟨o', h1, h2, h3⟩; injection h1 with h1; subst h1; simp at h2
      simp only [hno, iff_false]
      split
      · intro hm; exact ((List.Nodup.mem_erase_iff (hI.lruNodup q)).mp hm).1 rfl
      · next hq => intro hm; obtain ⟨o', h1, h2, h3⟩ := (hI.lruMem q j).mp hm
                   rw [ho] at h1; injection h1 with h1; subst h1; exact hq h3.symm
    · simp only [hj, if_false]
      split
      · rw [List.mem_erase_of_ne hj]; exact hI.lruMem q j
      · exact hI.lruMem q j
  case lruNodup =>
    intro q; simp only; rw [e6 q]; split
    · exact (hI.lruNodup q).erase i
    · exact hI.lruNodup q
  case lruLinked =>
    intro j a h1 h2; simp only [e7 j] at h1
    have hf := hI.lruLinked
    grind
  case sorted =>
    intro q; simp only; rw [e6 q]
    have h2 : (s.lru q).Pairwise (fun a b => ∀ x y, (upd s.heap i (some { o with inLru := false })) a = some x →
        (upd s.heap i (some { o with inLru := false })) b = some y → y.time ≤ x.time) := by
      refine (hI.sorted q).imp ?_
      intro a b hab x y hx hy
      simp only [e7 a, e7 b] at hx hy
      grind
    split
    · exact pairwise_erase h2 i
    · exact h2
  case timeLe =>
    intro j a h1 h2; simp only [e7 j] at h1
    have hf := hI.timeLe
    grind
  case casLe =>
    intro j a h1 h2; simp only [e7 j] at h1
    have hf := hI.casLe
    grind
  case casInj =>
    intro j l a b h1 h2 h3 h4 h5; simp only [e7 j, e7 l] at h1 h2
    have hf := hI.casInj
    grind
  case pfxZero => exact hI.pfxZero
  case nameOk =>
    intro j a h1 h2; simp only [e7 j] at h1
    have hf := hI.nameOk
    grind

/-! ### putting an item at the head of its queue -/

/-- Item `i` becomes (stays) linked under key `o'.key` with time `now` and moves to the head of its queue.
Used for link, replace, update and relink; `tbl'` is the new table. -/
theorem Inv.toFront (hI : Inv cfg s h) {i : Id} {o o' : Obj} (ho : s.heap i = some o)
    {tbl' : List (Key × Id)} {cas' : Nat}
    (hkn : (tbl'.map (·.1)).Nodup)
    (hlk : ∀ k, tbl'.lookup k = if k = o'.key then some i else s.tbl.lookup k)
    (hcur : ∀ j, s.tbl.lookup o'.key = some j → j = i)
    (hold : o.linked = true → o.key = o'.key)
    (href : o'.ref = o.ref) (hl' : o'.linked = true) (hq' : o'.inLru = true)
    (ht : o'.time = s.now) (hqq : o.inLru = true → qid cfg o' = qid cfg o)
    (hcas : (o'.cas = o.cas ∧ o.linked = true ∧ cas' = s.casId) ∨ (o'.cas = s.casId + 1 ∧ cas' = s.casId + 1))
    (hname : pfxNameOk cfg o'.key = true) :
    Inv cfg { s with tbl := tbl', casId := cas',
                     lru := upd s.lru (qid cfg o') (i :: (s.lru (qid cfg o')).erase i),
                     heap := upd s.heap i (some o') } h := by
  have e7 : ∀ j, (upd s.heap i (some o')) j = if j = i then some o' else s.heap j := fun j => rfl
  have e6 : ∀ q, (upd s.lru (qid cfg o') (i :: (s.lru (qid cfg o')).erase i)) q =
      if q = qid cfg o' then i :: (s.lru q).erase i else s.lru q := by
    intro q; unfold upd; split <;> simp_all
  have hiq : ∀ q, q ≠ qid cfg o' → i ∉ s.lru q := by
    intro q hq hm
    obtain ⟨a, h1, h2, h3⟩ := (hI.lruMem q i).mp hm
    rw [ho] at h1; injection h1 with h1; subst h1
    exact hq (by rw [hqq h2, h3])
  constructor
  case keysNodup => exact hkn
  case tblIff =>
    intro k j; simp only; rw [hlk k, e7 j]
    by_cases hk : k = o'.key
    · subst hk; simp only [if_true, Option.some.injEq]
      constructor
      · rintro rfl; exact ⟨o', by simp, hl', rfl⟩
      · rintro ⟨a, h1, h2, h3⟩
        by_cases hj : j = i
        · exact hj.symm
        · simp only [hj, if_false] at h1
          exact (hcur j ((hI.tblIff _ j).mpr ⟨a, h1, h2, h3⟩)).symm
    · simp only [hk, if_false, hI.tblIff k j]
      by_cases hj : j = i
      · subst hj; simp only [if_true]
        constructor
        · rintro ⟨a, h1, h2, h3⟩; rw [ho] at h1; injection h1 with h1; subst h1
          exact absurd (h3 ▸ hold h2) hk
        · rintro ⟨a, h1, h2, h3⟩; injection h1 with h1; subst h1; exact absurd h3.symm hk
      · simp [hj]
  case refs =>
    intro j a h1; simp only [e7 j] at h1
    by_cases hj : j = i
    · subst hj; simp at h1; subst h1; rw [href]; exact hI.refs j o ho
    · simp [hj] at h1; exact hI.refs j a h1
  case heldOk =>
    intro j hj; simp only [e7 j]
    by_cases e : j = i
    · simp [e]
    · simp only [e, if_false]; exact hI.heldOk j hj
  case noLeak =>
    intro j a h1 h2; simp only [e7 j] at h1
    have hf := hI.noLeak
    grind
  case fresh =>
    intro j hj; simp only [e7 j]
    have := hI.fresh j hj
    grind
  case lruMem =>
    intro q j; simp only; rw [e6 q, e7 j]
    by_cases hj : j = i
    · subst hj; simp only [if_true, Option.some.injEq, exists_eq_left', hq', true_and]
      split
      · next hq => simp [hq]
      · next hq => simp only [hiq q hq, false_iff]; exact fun e => hq e.symm
    · simp only [hj, if_false, ← hI.lruMem q j]
      split
      · simp only [List.mem_cons, hj, false_or]; exact List.mem_erase_of_ne hj
      · rfl
  case lruNodup =>
    intro q; simp only; rw [e6 q]; split
    · refine List.nodup_cons.mpr ⟨?_, (hI.lruNodup q).erase i⟩
      intro hm; exact ((List.Nodup.mem_erase_iff (hI.lruNodup q)).mp hm).1 rfl
    · exact hI.lruNodup q
  case lruLinked =>
    intro j a h1 h2; simp only [e7 j] at h1
    have hf := hI.lruLinked
    grind
  case sorted =>
    intro q; simp only; rw [e6 q]
    split
    · refine List.pairwise_cons.mpr ⟨?_, ?_⟩
      · intro b hb x y hx hy
        simp only [e7] at hx hy
        obtain ⟨hbi, hbm⟩ := (List.Nodup.mem_erase_iff (hI.lruNodup q)).mp hb
        simp only [if_true, Option.some.injEq] at hx; subst hx
        simp only [hbi, if_false] at hy
        obtain ⟨z, h1, h2, h3⟩ := (hI.lruMem q b).mp hbm
        rw [hy] at h1; injection h1 with h1; subst h1
        rw [ht]; exact hI.timeLe b y hy (hI.lruLinked b y hy h2)
      · refine List.Pairwise.imp_of_mem ?_ (pairwise_erase (hI.sorted q) i)
        intro a b ha hb hab x y hx hy
        have h1 := ((List.Nodup.mem_erase_iff (hI.lruNodup q)).mp ha).1
        have h2 := ((List.Nodup.mem_erase_iff (hI.lruNodup q)).mp hb).1
        simp only [e7, h1, h2, if_false] at hx hy
        exact hab x y hx hy
    · next hq =>
      refine List.Pairwise.imp_of_mem ?_ (hI.sorted q)
      intro a b ha hb hab x y hx hy
      have h1 : a ≠ i := fun e => hiq q hq (e ▸ ha)
      have h2 : b ≠ i := fun e => hiq q hq (e ▸ hb)
      simp only [e7, h1, h2, if_false] at hx hy
      exact hab x y hx hy
  case timeLe =>
    intro j a h1 h2; simp only [e7 j] at h1 ⊢
    have hf := hI.timeLe
    grind
  case casLe =>
    intro j a h1 h2; simp only [e7 j] at h1 ⊢
    have hf := hI.casLe
    grind
  case casInj =>
    intro j l a b h1 h2 h3 h4 h5; simp only [e7 j, e7 l] at h1 h2
    have hf := hI.casInj
    have hg := hI.casLe
    grind
  case pfxZero =>
    intro p hp hall
    apply hI.pfxZero p hp
    intro k j hkj
    simp only at hall
    by_cases hk : k = o'.key
    · exact hall k i (by rw [hlk k]; simp [hk])
    · exact hall k j (by rw [hlk k]; simp [hk, hkj])
  case nameOk =>
    intro j a h1 h2; simp only [e7 j] at h1
    have hf := hI.nameOk
    grind

end Verif.Item
