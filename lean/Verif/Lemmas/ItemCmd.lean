import Verif.Lemmas.ItemPrim
/-! Every engine call simulates the map specification. -/
namespace Verif.Item
open Verif.Util Verif.Item.Spec

variable {cfg : Cfg} {s s' s1 s2 : St} {h h' h1 h2 : Id → Nat}

/-- The contents part of an item object. -/
def Obj.Cont (o' o : Obj) : Prop :=
  o'.key = o.key ∧ o'.flags = o.flags ∧ o'.cas = o.cas ∧ o'.coll = o.coll ∧ o'.data = o.data ∧
  (o.linked = false → o'.linked = false ∧ o'.exptime = o.exptime)

theorem Obj.Cont.refl (o : Obj) : o.Cont o := ⟨rfl, rfl, rfl, rfl, rfl, fun h => ⟨h, rfl⟩⟩
theorem Obj.Cont.trans {a b c : Obj} (h1 : b.Cont a) (h2 : c.Cont b) : c.Cont a := by
  obtain ⟨a1, a2, a3, a4, a5, a6⟩ := h1; obtain ⟨b1, b2, b3, b4, b5, b6⟩ := h2
  exact ⟨b1.trans a1, b2.trans a2, b3.trans a3, b4.trans a4, b5.trans a5,
    fun h => ⟨(b6 (a6 h).1).1, (b6 (a6 h).1).2.trans (a6 h).2⟩⟩
theorem Obj.SameAs.cont {o o' : Obj} (h : o'.SameAs o) : o'.Cont o := by
  obtain ⟨h1, h2, h3, h4, h5, h6, h7⟩ := h
  exact ⟨h1, h2, h4, h5, h6, fun e => ⟨h7.trans e, h3⟩⟩

/-- Common part of all postconditions: invariant, frame, held objects (outside `ex`) keep their contents. -/
structure Post (cfg : Cfg) (ex : Id → Prop) (nd : Prop) (s s' : St) (h h' : Id → Nat) : Prop where
  inv : Inv cfg s' h'
  fr : Fr s s'
  keep : ∀ j o, s.heap j = some o → 0 < h j → 0 < h' j → ¬ ex j → ∃ o', s'.heap j = some o' ∧ o'.Cont o
  lru : nd → AllLru s → AllLru s'

theorem Post.trans {ex : Id → Prop} {nd : Prop} (p1 : Post cfg ex nd s s1 h h1) (p2 : Post cfg ex nd s1 s2 h1 h2)
    (hm : ∀ j, 0 < h j → 0 < h2 j → 0 < h1 j) : Post cfg ex nd s s2 h h2 where
  inv := p2.inv
  fr := p1.fr.trans p2.fr
  keep := by
    intro j o g1 g2 g3 g4
    obtain ⟨o1, k1, k2⟩ := p1.keep j o g1 g2 (hm j g2 g3) g4
    obtain ⟨o2, m1, m2⟩ := p2.keep j o1 k1 (hm j g2 g3) g3 g4
    exact ⟨o2, m1, k2.trans m2⟩
  lru := fun hn hA => p2.lru hn (p1.lru hn hA)

theorem Post.trans' {ex ex1 ex2 : Id → Prop} {nd : Prop} (p1 : Post cfg ex1 nd s s1 h h1)
    (p2 : Post cfg ex2 nd s1 s2 h1 h2) (he : ∀ j, 0 < h j → ex1 j ∨ ex2 j → ex j)
    (hm : ∀ j, 0 < h j → 0 < h2 j → 0 < h1 j) : Post cfg ex nd s s2 h h2 where
  inv := p2.inv
  fr := p1.fr.trans p2.fr
  keep := by
    intro j o g1 g2 g3 g4
    obtain ⟨o1, k1, k2⟩ := p1.keep j o g1 g2 (hm j g2 g3) (fun e => g4 (he j g2 (Or.inl e)))
    obtain ⟨o2, m1, m2⟩ := p2.keep j o1 k1 (hm j g2 g3) g3 (fun e => g4 (he j g2 (Or.inr e)))
    exact ⟨o2, m1, k2.trans m2⟩
  lru := fun hn hA => p2.lru hn (p1.lru hn hA)

theorem Post.weaken {ex ex' : Id → Prop} {nd nd' : Prop} (p : Post cfg ex nd s s' h h') (he : ∀ j, ex j → ex' j)
    (hn : nd' → nd) : Post cfg ex' nd' s s' h h' :=
  ⟨p.inv, p.fr, fun j o a b c d => p.keep j o a b c (fun e => d (he j e)), fun n => p.lru (hn n)⟩

theorem Miss.post (m : Miss cfg s s' h k) (ex : Id → Prop) (nd : Prop) : Post cfg ex nd s s' h h where
  inv := m.inv
  fr := m.fr
  keep := by
    intro j o g1 g2 _ _
    obtain ⟨o', k1, k2, k3, k4, k5, k6, k7, k8⟩ := m.objs j o g1 (Or.inr g2)
    refine ⟨o', k1, k3, k4, k6, k7, k8, fun hl => ?_⟩
    have := k2 (Or.inl hl); subst this; exact ⟨hl, rfl⟩
  lru := fun _ => m.lru

theorem Hit.post {i : Id} {o : Obj} (m : Hit cfg s s' h k i o) (ex : Id → Prop) (nd : Prop) :
    Post cfg ex nd s s' h (upd h i (h i + 1)) where
  inv := m.inv
  fr := m.fr
  keep := by
    intro j a g1 _ _ _
    by_cases hj : j = i
    · subst hj; rw [m.obj] at g1; injection g1 with g1; subst g1
      obtain ⟨o', k1, k2, -⟩ := m.obj'
      exact ⟨o', k1, k2.cont⟩
    · exact ⟨a, by rw [m.other j hj, g1], .refl a⟩
  lru := fun _ => m.lru

theorem EnvFr.post (m : EnvFr cfg s s' h) (ex : Id → Prop) {nd : Prop} (hn : nd → AllLru s → AllLru s') :
    Post cfg ex nd s s' h h where
  inv := m.inv
  fr := m.fr
  keep := by
    intro j o g1 g2 _ _
    obtain ⟨b, hb⟩ := m.held j o g1 g2
    exact ⟨_, hb, rfl, rfl, rfl, rfl, rfl, fun e => ⟨e, rfl⟩⟩
  lru := hn

theorem Alloc.post {i : Id} {o : Obj} {acts} (m : Alloc cfg s s' h i o acts) (ex : Id → Prop) :
    Post cfg ex (NoDrop acts) s s' h (upd h i 1) where
  inv := m.inv
  fr := m.fr
  keep := by
    intro j a g1 g2 _ _
    obtain ⟨b, hb⟩ := m.held j a g1 g2
    exact ⟨_, hb, rfl, rfl, rfl, rfl, rfl, fun e => ⟨e, rfl⟩⟩
  lru := m.lru

theorem FlushFr.post {sc} (m : FlushFr cfg sc s s' h) (ex : Id → Prop) (nd : Prop) : Post cfg ex nd s s' h h where
  inv := m.inv
  fr := m.fr
  keep := by
    intro j o g1 g2 _ _
    obtain ⟨o', k1, k2, k3, k4, k5, k6, k7, k8⟩ := m.held j o g1 g2
    refine ⟨o', k1, k2, k3, k5, k6, k7, fun hl => ?_⟩
    have := k8 hl; subst this; exact ⟨hl, rfl⟩
  lru := fun _ => m.lru

theorem upd_back (h : Id → Nat) (i : Id) : upd (upd h i (h i + 1)) i ((upd h i (h i + 1)) i - 1) = h := by
  funext j; simp only [upd]; split <;> simp_all

/-- Release as a step. -/
theorem release_post (hI : Inv cfg s h) {i : Id} (hh : 0 < h i) (ex : Id → Prop) (nd : Prop) :
    ∃ s', doItemRelease cfg s i = some s' ∧ Post cfg ex nd s s' h (upd h i (h i - 1)) ∧ s'.casId = s.casId ∧
      (∀ k, vis cfg s' k = vis cfg s k) ∧ (∀ j, j ≠ i → s'.heap j = s.heap j) := by
  obtain ⟨s', e, f1, f2, f3, f3', f4, f5, f6, f7⟩ := release_spec hI hh
  refine ⟨s', e, ⟨f1, f2, ?_, fun _ => f7⟩, f3, f4, f5⟩
  intro j o g1 g2 g3 _
  by_cases hj : j = i
  · subst hj; rw [upd_self] at g3
    obtain ⟨o', k1, k2⟩ := f6 o g1 (by omega)
    exact ⟨o', k1, k2.cont⟩
  · exact ⟨o, by rw [f5 j hj, g1], .refl o⟩

/-- Giving back the reference just taken. -/
theorem release_back {h : Id → Nat} {i : Id} (hI : Inv cfg s (upd h i (h i + 1))) (ex : Id → Prop) (nd : Prop) :
    ∃ s', doItemRelease cfg s i = some s' ∧ Post cfg ex nd s s' (upd h i (h i + 1)) h ∧ s'.casId = s.casId ∧
      (∀ k, vis cfg s' k = vis cfg s k) ∧ (∀ j, j ≠ i → s'.heap j = s.heap j) := by
  have := release_post hI (i := i) (by rw [upd_self]; omega) ex nd
  rwa [upd_back] at this

/-- No flush mark is in the current second or the future. -/
def MarksOk (s : St) : Prop := (s.oldest = 0 ∨ s.oldest < s.now) ∧ ∀ p, s.pfxOld p = 0 ∨ s.pfxOld p < s.now

theorem MarksOk.fr (hm : MarksOk s) (f : Fr s s') : MarksOk s' := by
  refine ⟨by rw [f.oldest, f.now]; exact hm.1, fun p => ?_⟩
  rcases f.marks p with e | ⟨-, e⟩
  · rw [e, f.now]; exact hm.2 p
  · exact Or.inl e

/-- A just stored item is visible unless it is born expired. -/
theorem valid_new (hm : MarksOk s) {o : Obj} (ht : o.time = s.now) :
    isValid cfg s o = !decide (o.exptime ≠ 0 ∧ o.exptime ≤ s.now) := by
  have h1 : flushedBy s.now s.oldest o.time = false := by
    unfold flushedBy; rw [ht]; have := hm.1
    simp only [Bool.and_eq_false_iff, bne_eq_false_iff_eq, decide_eq_false_iff_not]; omega
  have h2 : flushedBy s.now (s.pfxOld (pfxOf cfg o.key)) o.time = false := by
    unfold flushedBy; rw [ht]; have := hm.2 (pfxOf cfg o.key)
    simp only [Bool.and_eq_false_iff, bne_eq_false_iff_eq, decide_eq_false_iff_not]; omega
  unfold isValid; rw [h1, h2]
  simp only [Bool.not_false, Bool.and_true]
  by_cases a : o.exptime = 0 <;> by_cases b : o.exptime ≤ s.now <;> simp [a, b]

/-- The simulation relation. -/
structure R (cfg : Cfg) (fl : Bool) (σ : S) (s : St) (h : Id → Nat) : Prop where
  inv : Inv cfg s h
  now : s.now = σ.now
  cas : s.casId = σ.cas
  marks : MarksOk s
  vis : ∀ k, vis cfg s k = σ.live k
  pend : ∀ i p, σ.pend i = some p → 0 < h i ∧ ∃ o, s.heap i = some o ∧ o.linked = false ∧ o.key = p.key ∧
    o.flags = p.flags ∧ o.exptime = p.exptime ∧ o.cas = p.cas ∧ o.coll = false ∧ o.data = p.data
  lru : fl = true → AllLru s

theorem R.init (cfg : Cfg) (fl : Bool) (now : Nat) : R cfg fl (start now) (init now) (fun _ => 0) where
  inv := inv_init cfg now
  now := rfl
  cas := rfl
  marks := ⟨Or.inl rfl, fun _ => Or.inl rfl⟩
  vis := by intro k; simp [Item.vis, Item.init, S.live, start]
  pend := by simp [start]
  lru := by intro _ i o; simp [Item.init]

/-- The conclusion for one call. -/
def Sim (cfg : Cfg) (fl : Bool) (σ : S) (s : St) (h : Id → Nat) (op : Op) : Prop :=
  ∃ s' r σ', step cfg s op = some (s', r) ∧ Step cfg.delim σ op r σ' ∧ R cfg fl σ' s' (heldStep h op r) ∧
    ∀ j o, s.heap j = some o → 0 < h j → 0 < heldStep h op r j → (∀ sop env, op ≠ .store j sop env) →
      ∃ o', s'.heap j = some o' ∧ o'.Cont o

/-! ### prefixes -/

theorem takeWhile_ne_append (d : Nat) (a b : List Nat) (h : d ∉ a) :
    (a ++ d :: b).takeWhile (· != d) = a := by
  induction a with
  | nil => simp
  | cons c a ih =>
    simp only [List.mem_cons, not_or] at h
    have : (c != d) = true := by simpa using fun e => h.1 e.symm
    rw [List.cons_append, List.takeWhile_cons_of_pos (p := (· != d)) this, ih h.2]

theorem hasPrefix_iff (d : Nat) (p : List Nat) (k : Key) (cfg : Cfg) (hd : cfg.delim = d) :
    HasPrefix d p k ↔ p ≠ [] ∧ pfxOf cfg k = p := by
  subst hd
  constructor
  · rintro ⟨h1, r, rfl, h2⟩
    refine ⟨h1, ?_⟩
    cases p with
    | nil => exact absurd rfl h1
    | cons c p =>
      simp only [List.tail_cons] at h2
      simp only [List.cons_append, pfxOf]
      rw [if_pos (by simp), takeWhile_ne_append _ _ _ h2]
  · rintro ⟨h1, h2⟩
    refine ⟨h1, ?_⟩
    cases k with
    | nil => simp [pfxOf] at h2; exact absurd h2.symm (by simpa using h1)
    | cons c r =>
      simp only [pfxOf] at h2
      split at h2
      · next hm =>
        subst h2
        obtain ⟨a, b, hab⟩ := List.append_of_mem hm
        have hsp := List.takeWhile_append_dropWhile (p := (· != cfg.delim)) (l := r)
        have hne : r.dropWhile (· != cfg.delim) ≠ [] := by
          intro he; rw [he, List.append_nil] at hsp
          have : ∀ x ∈ r, (x != cfg.delim) = true := by
            intro x hx; rw [← hsp] at hx
            exact List.all_takeWhile (p := (· != cfg.delim)) (l := r) |> List.all_eq_true.mp |> fun f => f x hx
          have := this _ hm; simp at this
        cases hdw : r.dropWhile (· != cfg.delim) with
        | nil => exact absurd hdw hne
        | cons x t =>
          have hx : x = cfg.delim := by
            have := List.head?_dropWhile_not (p := (· != cfg.delim)) (l := r)
            rw [hdw] at this; simpa using this
          refine ⟨t, ?_, ?_⟩
          · rw [hdw, hx] at hsp; rw [List.cons_append, hsp]
          · simp only [List.tail_cons]; intro hmem
            have := List.all_takeWhile (p := (· != cfg.delim)) (l := r) |> List.all_eq_true.mp |> fun f => f _ hmem
            simp at this
      · exact absurd h2.symm h1

theorem isNameChar_iff (c : Nat) : isNameChar c = true ↔ NameChar c := by
  unfold isNameChar NameChar; simp; omega

theorem nameOk_iff (k : Key) : pfxNameOk cfg k = true ↔ NameOk cfg.delim k := by
  have hh : ∀ p, HasPrefix cfg.delim p k ↔ p ≠ [] ∧ pfxOf cfg k = p := fun p => hasPrefix_iff _ p k cfg rfl
  unfold NameOk
  simp only [hh]
  constructor
  · intro h p hp
    obtain ⟨h1, h2⟩ := hp
    unfold pfxNameOk at h; rw [h2] at h
    simp only [Bool.or_eq_true, List.isEmpty_iff, h1, false_or] at h
    obtain ⟨-, r, rfl, -⟩ := (hh p).mpr ⟨h1, h2⟩
    cases p with
    | nil => exact absurd rfl h1
    | cons c p =>
      simp only [isValidName, List.cons_append, beq_iff_eq] at h
      split at h
      · simp at h
      · next hc =>
        simp only [List.length_cons, List.take_succ_cons, List.take_left, Option.some.injEq] at h
        have h' : ((c :: p).all isNameChar) = true := h
        refine ⟨fun x hx => (isNameChar_iff x).mp (List.all_eq_true.mp h' x hx), ?_⟩
        simp only [List.head?_cons, ne_eq, Option.some.injEq]; exact hc
  · intro h
    unfold pfxNameOk
    by_cases he : pfxOf cfg k = []
    · simp [he]
    · obtain ⟨h1, h2⟩ := h _ ⟨he, rfl⟩
      obtain ⟨-, r, hk, -⟩ := (hh _).mpr ⟨he, rfl⟩
      simp only [Bool.or_eq_true]; right
      generalize pfxOf cfg k = p at *
      subst hk
      cases p with
      | nil => exact absurd rfl he
      | cons c p =>
        simp only [isValidName, List.cons_append, beq_iff_eq]
        simp only [List.head?_cons, ne_eq, Option.some.injEq] at h2
        rw [if_neg h2]
        simp only [List.length_cons, List.take_succ_cons, List.take_left, Option.some.injEq]
        exact List.all_eq_true.mpr (fun x hx => (isNameChar_iff x).mpr (h1 x hx))

theorem inScope_iff (p : List Nat) (k : Key) : InScope cfg.delim (some p) k ↔ pfxOf cfg k = p := by
  unfold InScope
  simp only [hasPrefix_iff _ _ k cfg rfl]
  split
  · next h =>
    subst h
    constructor
    · intro h; by_cases he : pfxOf cfg k = []
      · exact he
      · exact absurd ⟨he, rfl⟩ (h _)
    · rintro h p' ⟨h1, h2⟩; exact h1 (h2 ▸ h)
  · next h => exact ⟨fun e => e.2, fun e => ⟨h, e⟩⟩

/-! ### link and replace with visible effect -/

/-- The visible entry of a new item. -/
def newVis (now : Nat) (o : Obj) (cas : Nat) : Option Entry :=
  if o.exptime ≠ 0 ∧ o.exptime ≤ now then none else some ⟨o.flags, o.exptime, cas, o.coll, o.data⟩

theorem ite_new (hm : MarksOk s) {o : Obj} (ht : o.time = s.now) :
    (if isValid cfg s o then some o.entry else none) = newVis s.now o o.cas := by
  rw [valid_new hm ht]; unfold newVis Obj.entry
  by_cases hc : o.exptime ≠ 0 ∧ o.exptime ≤ s.now
  · rw [if_pos hc, if_neg]; simp only [Bool.not_eq_true', decide_eq_false_iff_not]; exact fun h => h hc
  · rw [if_neg hc, if_pos]; simp only [Bool.not_eq_true', decide_eq_false_iff_not]; exact hc

theorem link_sim (hI : Inv cfg s h) (hm : MarksOk s) {i : Id} {o : Obj} (ho : s.heap i = some o)
    (hl : o.linked = false) (hkey : s.tbl.lookup o.key = none) (nd : Prop) :
    ∃ s' r, doItemLink cfg s i = some (s', r) ∧ Post cfg (· = i) nd s s' h h ∧ s'.casId = s.casId + 1 ∧
      ((NameOk cfg.delim o.key ∧ r = .stored (s.casId + 1) ∧
        ∀ k, vis cfg s' k = if k = o.key then newVis s.now o (s.casId + 1) else vis cfg s k) ∨
       (¬ NameOk cfg.delim o.key ∧ r = .ename ∧ ∀ k, vis cfg s' k = vis cfg s k)) := by
  obtain ⟨a, b⟩ := link_spec hI ho hl hkey
  cases hn : pfxNameOk cfg o.key with
  | false =>
    obtain ⟨s', e1, e2, e3, e4, e5, e6, e7, e8⟩ := a hn
    refine ⟨s', .ename, e1, ⟨e2, e3, ?_, fun _ => e8⟩, e4, Or.inr ⟨?_, rfl, e5⟩⟩
    · intro j x g1 _ _ g4; exact ⟨x, by rw [e7 j g4, g1], .refl x⟩
    · rw [← nameOk_iff, hn]; simp
  | true =>
    obtain ⟨s', o', e1, e2, e3, e4, e5, e6, e7, e8, e9⟩ := b hn
    refine ⟨s', _, e1, ⟨e2, e3, ?_, fun _ => e9⟩, e4, Or.inl ⟨(nameOk_iff _).mp hn, rfl, ?_⟩⟩
    · intro j x g1 _ _ g4; exact ⟨x, by rw [e8 j g4, g1], .refl x⟩
    · intro k; rw [e6 k, ite_new hm (by rw [e5]), e5]; rfl

theorem repl_sim (hI : Inv cfg s h) (hm : MarksOk s) {old new : Id} {o n : Obj} (ho : s.heap old = some o)
    (hl : o.linked = true) (hh : 0 < h old) (hn : s.heap new = some n) (hnl : n.linked = false)
    (hkey : n.key = o.key) (nd : Prop) :
    ∃ s', doItemReplace cfg s old new = some (s', s.casId + 1) ∧ Post cfg (· = new) nd s s' h h ∧
      s'.casId = s.casId + 1 ∧
      (∀ k, vis cfg s' k = if k = o.key then newVis s.now n (s.casId + 1) else vis cfg s k) ∧
      ∀ j, j ≠ old → j ≠ new → s'.heap j = s.heap j := by
  obtain ⟨s', n', e1, e2, e3, e4, e5, e6, e7, e8, e9, e10⟩ := replace_spec hI ho hl hh hn hnl hkey
  refine ⟨s', e1, ⟨e2, e3, ?_, fun _ => e10⟩, e4, ?_, e9⟩
  · intro j x g1 _ _ g4
    by_cases hj : j = old
    · subst hj; rw [ho] at g1; injection g1 with g1; subst g1
      exact ⟨_, e8, rfl, rfl, rfl, rfl, rfl, fun e => by simp [hl] at e⟩
    · exact ⟨x, by rw [e9 j hj g4, g1], .refl x⟩
  · intro k; rw [e6 k, ite_new hm (by rw [e5]), e5, hkey]; rfl

theorem live_put (σ : S) (k : Key) (f e : Nat) (c : Bool) (dat : List Nat) (k' : Key) :
    (σ.put k f e c dat).live k' =
      if k' = k then (if e ≠ 0 ∧ e ≤ σ.now then none else some ⟨f, e, σ.cas + 1, c, dat⟩) else σ.live k' := by
  unfold S.live S.put upd
  by_cases h : k' = k <;> simp [h]

theorem live_of_m {σ σ' : S} (hn : σ'.now = σ.now) {k : Key} (hm : σ'.m k = σ.m k) : σ'.live k = σ.live k := by
  unfold S.live; rw [hn, hm]

theorem live_m (σ : S) {m' : Key → Option Entry} {k : Key} (hm : m' k = σ.m k) :
    ({ σ with m := m' } : S).live k = σ.live k := by
  unfold S.live; simp only [hm]

theorem live_none {σ : S} {k : Key} (hm : σ.m k = none) : σ.live k = none := by
  unfold S.live; rw [hm]

/-- A map after eviction that matches the visible entries. -/
theorem evict_pick (acts : List EnvAct) (keep : Option Key) (σ : S) (v : Key → Option Entry)
    (hv : ∀ k, v k = σ.live k ∨ (v k = none ∧ acts ≠ [] ∧ keep ≠ some k)) :
    ∃ σ', Evict acts keep σ σ' ∧ ∀ k, v k = σ'.live k := by
  classical
  refine ⟨{ σ with m := fun k => if v k = σ.live k then σ.m k else none }, ⟨rfl, rfl, rfl, ?_⟩, ?_⟩
  · intro k; by_cases hk : v k = σ.live k
    · left; simp [hk]
    · right; rcases hv k with e | ⟨e1, e2, e3⟩
      · exact absurd e hk
      · exact ⟨by simp [hk], e2, e3⟩
  · intro k; by_cases hk : v k = σ.live k
    · have : (if v k = σ.live k then σ.m k else none) = σ.m k := by rw [if_pos hk]
      exact hk.trans (live_m σ this).symm
    · rcases hv k with e | ⟨e1, -, -⟩
      · exact absurd e hk
      · rw [e1]; rw [e1] at hk
        have : (if v k = σ.live k then σ.m k else none) = none := by rw [e1, if_neg hk]
        exact (live_none this).symm

theorem evict_refl (keep : Option Key) (σ : S) : Evict [] keep σ σ := ⟨rfl, rfl, rfl, fun _ => Or.inl rfl⟩

/-! ### store -/

/-- What a store leaves: reply and map of the specification, up to evictions. -/
def StoreRes (cfg : Cfg) (σ : S) (s : St) (h : Id → Nat) (i : Id) (p : Pend) (sop : StoreOp) (env : Env)
    (res : Option (St × Rep)) : Prop :=
  ∃ s' r σ1, res = some (s', r) ∧ StoreStep cfg.delim σ p sop env.ok r σ1 ∧
    Post cfg (· = i) (NoDrop env.acts) s s' h h ∧ s'.casId = σ1.cas ∧ σ1.now = σ.now ∧ σ1.pend = σ.pend ∧
    ∀ k, vis cfg s' k = σ1.live k ∨ (vis cfg s' k = none ∧ env.acts ≠ [] ∧ some p.key ≠ some k)

/-- Facts about a pending item. -/
def PendObj (o : Obj) (p : Pend) : Prop :=
  o.linked = false ∧ o.key = p.key ∧ o.flags = p.flags ∧ o.exptime = p.exptime ∧ o.cas = p.cas ∧ o.coll = false ∧
  o.data = p.data

/-- Outcome "refused, map unchanged" after releasing the item found. -/
theorem refuse {σ : S} {fl : Bool} (hR : R cfg fl σ s h) {k : Key} {i oi : Id} {oo : Obj} {s1 : St}
    (H : Hit cfg s s1 h k oi oo) (nd : Prop) :
    ∃ s', doItemRelease cfg s1 oi = some s' ∧ Post cfg (· = i) nd s s' h h ∧ s'.casId = σ.cas ∧
      ∀ k, vis cfg s' k = σ.live k := by
  obtain ⟨s', e1, e2, e3, e4, e5⟩ := release_back H.inv (· = i) nd
  refine ⟨s', e1, (H.post _ _).trans e2 (fun j hj _ => ?_), by rw [e3, H.cas, hR.cas], ?_⟩
  · simp only [upd]; split <;> omega
  · intro k; rw [e4, H.vis_eq, hR.vis]

/-- Outcome "stored in place of the item found". -/
theorem overwrite {σ : S} {fl : Bool} (hR : R cfg fl σ s h) {i oi : Id} {oo : Obj} {p : Pend} {s1 : St}
    (H : Hit cfg s s1 h p.key oi oo) {it1 : Obj} (hi : s1.heap i = some it1) (hp : PendObj it1 p) (nd : Prop) :
    ∃ s2 s', doItemReplace cfg s1 oi i = some (s2, σ.cas + 1) ∧ doItemRelease cfg s2 oi = some s' ∧
      Post cfg (· = i) nd s s' h h ∧ s'.casId = σ.cas + 1 ∧
      ∀ k, vis cfg s' k = (σ.put p.key p.flags p.exptime false p.data).live k := by
  obtain ⟨oo', k1, k2, k3⟩ := H.obj'
  obtain ⟨hp1, hp2, hp3, hp4, hp5, hp6, hp7⟩ := hp
  have hm1 := hR.marks.fr H.fr
  obtain ⟨s2, a1, a2, a3, a4, a5⟩ := repl_sim H.inv hm1 k1 (by rw [k2.2.2.2.2.2.2]; exact H.linked)
    (by rw [upd_self]; omega) hi hp1 (by rw [hp2, k2.1, H.key]) nd
  obtain ⟨s', e1, e2, e3, e4, e5⟩ := release_back a2.inv (· = i) nd
  rw [H.cas, hR.cas] at a1 a3
  have hle : ∀ j, 0 < h j → 0 < (upd h oi (h oi + 1)) j := by intro j hj; simp only [upd]; split <;> omega
  refine ⟨s2, s', a1, e1, ((H.post _ _).trans a2 (fun j hj _ => hle j hj)).trans e2 (fun j hj _ => hle j hj), by rw [e3, a3], ?_⟩
  intro k; rw [e4, a4, live_put, k2.1, H.key, H.fr.now, hR.now, H.cas, hR.cas]
  split
  · unfold newVis; rw [hp3, hp4, hp6, hp7]
  · rw [H.vis_eq, hR.vis]

theorem hit_live {σ : S} {fl : Bool} (hR : R cfg fl σ s h) {k : Key} {i : Id} {o : Obj} {s1 : St}
    (H : Hit cfg s s1 h k i o) : σ.live k = some o.entry := by rw [← hR.vis, H.was]

/-- The item found by `do_item_get`, in the state after it. -/
theorem hit_obj {k : Key} {i : Id} {o : Obj} {s1 : St} (H : Hit cfg s s1 h k i o) :
    ∃ o1, s1.heap i = some o1 ∧ o1.SameAs o ∧ isValid cfg s1 o1 = true := H.obj'

/-- A new item with new data takes the place of the item found (append, prepend, incr, decr). -/
theorem rebuild {σ : S} {fl : Bool} (hR : R cfg fl σ s h) {k : Key} {oi : Id} {oo : Obj} {s1 : St}
    (H : Hit cfg s s1 h k oi oo) (env : Env) (hr : NoRepair env.acts) (dat : List Nat) :
    (env.ok = true → ∃ s2 ni s3 s4 s5, doItemAlloc cfg s1 env k oo.flags oo.exptime false dat = some (s2, some ni) ∧
      doItemReplace cfg s2 oi ni = some (s3, σ.cas + 1) ∧ doItemRelease cfg s3 ni = some s4 ∧
      doItemRelease cfg s4 oi = some s5 ∧ Post cfg (fun _ => False) (NoDrop env.acts) s s5 h h ∧
      s5.casId = σ.cas + 1 ∧
      ∀ k', vis cfg s5 k' = (σ.put k oo.flags oo.exptime false dat).live k' ∨
        (vis cfg s5 k' = none ∧ env.acts ≠ [] ∧ some k ≠ some k')) ∧
    (env.ok = false → ∃ s2 s5, doItemAlloc cfg s1 env k oo.flags oo.exptime false dat = some (s2, none) ∧
      doItemRelease cfg s2 oi = some s5 ∧ Post cfg (fun _ => False) (NoDrop env.acts) s s5 h h ∧ s5.casId = σ.cas ∧
      ∀ k', vis cfg s5 k' = σ.live k' ∨ (vis cfg s5 k' = none ∧ env.acts ≠ [] ∧ some k ≠ some k')) := by
  obtain ⟨o1, k1, k2, k3⟩ := hit_obj H
  have hl1 : o1.linked = true := by rw [k2.2.2.2.2.2.2]; exact H.linked
  have hkey1 : o1.key = k := by rw [k2.1, H.key]
  have hpos : 0 < (upd h oi (h oi + 1)) oi := by rw [upd_self]; omega
  have hle : ∀ j, 0 < h j → 0 < (upd h oi (h oi + 1)) j := by intro j hj; simp only [upd]; split <;> omega
  obtain ⟨A, B⟩ := alloc_spec H.inv env hr k oo.flags oo.exptime false dat
  constructor
  · intro hok
    obtain ⟨s2, ni, a1, a2⟩ := A hok
    obtain ⟨b, hb⟩ := a2.held oi o1 k1 hpos
    have hz := a2.zero
    have hne : ni ≠ oi := by rintro rfl; omega
    have hnz : h ni = 0 := by rw [← hz, upd_ne _ _ hne]
    have hm2 := hR.marks.fr (H.fr.trans a2.fr)
    obtain ⟨s3, c1, c2, c3, c4, c5⟩ := repl_sim a2.inv hm2 (new := ni) hb hl1 (by rw [upd_ne _ _ (Ne.symm hne)]; exact hpos)
      a2.obj rfl hkey1.symm (NoDrop env.acts)
    obtain ⟨s4, d1, d2, d3, d4, d5⟩ := release_post c2.inv (i := ni) (by rw [upd_self]; omega) (fun _ => False) (NoDrop env.acts)
    have hh1 : upd (upd (upd h oi (h oi + 1)) ni 1) ni (upd (upd h oi (h oi + 1)) ni 1 ni - 1) = upd h oi (h oi + 1) := by
      funext j; simp only [upd]
      by_cases hj : j = ni
      · subst hj; simp [hne, hnz]
      · simp [hj]
    rw [hh1] at d2
    obtain ⟨s5, e1, e2, e3, e4, e5⟩ := release_back d2.inv (fun _ => False) (NoDrop env.acts)
    rw [a2.cas, H.cas, hR.cas] at c1 c3
    have hle2 : ∀ j, 0 < h j → 0 < (upd (upd h oi (h oi + 1)) ni 1) j := by
      intro j hj; have := hle j hj; simp only [upd] at this ⊢; split
      · omega
      · exact this
    refine ⟨s2, ni, s3, s4, s5, a1, c1, d1, e1, ?_, by rw [e3, d3, c3], ?_⟩
    · have P1 := (H.post (fun _ => False) (NoDrop env.acts)).trans (a2.post (fun _ => False)) (fun j hj _ => hle j hj)
      have P2 : Post cfg (fun _ => False) (NoDrop env.acts) s s3 h _ := P1.trans' c2
        (fun j hj hx => by rcases hx with hx | hx
                           · exact hx
                           · subst hx; omega) (fun j hj _ => hle2 j hj)
      exact (P2.trans d2 (fun j hj _ => hle2 j hj)).trans e2 (fun j hj _ => hle j hj)
    · intro k'
      rw [e4, d4, c4, live_put, hkey1, a2.fr.now, H.fr.now, hR.now, a2.cas, H.cas, hR.cas]
      by_cases hk : k' = k
      · left; rw [if_pos hk, if_pos hk]; rfl
      · rw [if_neg hk, if_neg hk]
        by_cases ha : env.acts = []
        · left; rw [(a2.noActs ha).1, H.vis_eq, hR.vis]
        · rcases a2.vis_le k' with e | e
          · left; rw [e, H.vis_eq, hR.vis]
          · right; exact ⟨e, ha, by simpa using fun e => hk e.symm⟩
  · intro hok
    obtain ⟨s2, a1, a2, a3, a4⟩ := B hok
    obtain ⟨s5, e1, e2, e3, e4, e5⟩ := release_back a2.inv (fun _ => False) (NoDrop env.acts)
    refine ⟨s2, s5, a1, e1, ?_, by rw [e3, a2.cas, H.cas, hR.cas], ?_⟩
    · exact ((H.post _ _).trans (a2.post _ a3) (fun j hj _ => hle j hj)).trans e2 (fun j hj _ => hle j hj)
    · intro k'; rw [e4]
      by_cases hk : k' = k
      · left
        have := a2.vis_held oi o1 k1 hl1 hpos
        rw [hkey1] at this; rw [hk, this, H.vis_eq, hR.vis]
      · by_cases ha : env.acts = []
        · left; rw [a4 ha, H.vis_eq, hR.vis]
        · rcases a2.vis_le k' with e | e
          · left; rw [e, H.vis_eq, hR.vis]
          · right; exact ⟨e, ha, by simpa using fun e => hk e.symm⟩

theorem refsBound {fl : Bool} {σ : S} {op : Op} (hL : Legal fl σ h op) : ∀ i, h i < maxRefs := hL.1

theorem store_sim {σ : S} {fl : Bool} (hR : R cfg fl σ s h) (hb : ∀ i, h i < maxRefs) {i : Id} {p : Pend}
    (hp : σ.pend i = some p) (sop : StoreOp) (env : Env) (hr : NoRepair env.acts) :
    StoreRes cfg σ s h i p sop env (itemStore cfg s i sop env) := by
  obtain ⟨hh, it, hi, hp1, hp2, hp3, hp4, hp5, hp6, hp7⟩ := hR.pend i p hp
  have unch : ∀ {s' : St} {r : Rep} {res}, res = some (s', r) → Post cfg (· = i) (NoDrop env.acts) s s' h h →
      s'.casId = σ.cas → (∀ k, vis cfg s' k = σ.live k) → StoreStep cfg.delim σ p sop env.ok r σ →
      StoreRes cfg σ s h i p sop env res :=
    fun {s' r res} e1 e2 e3 e4 e5 => ⟨s', r, σ, e1, e5, e2, e3, rfl, rfl, fun k => Or.inl (e4 k)⟩
  rcases get_spec hR.inv hb p.key false with ⟨s1, g1, M⟩ | ⟨s1, oi, oo, g1, H⟩
  · -- miss
    have hlive : σ.live p.key = none := by rw [← hR.vis, M.was]
    obtain ⟨it1, k1, k2, -⟩ := M.objs i it hi (Or.inl hp1)
    have := k2 (Or.inl hp1); subst this
    have miss : ∀ {r : Rep} {res}, res = some (s1, r) → StoreStep cfg.delim σ p sop env.ok r σ →
        StoreRes cfg σ s h i p sop env res :=
      fun e1 e2 => unch e1 (M.post _ _) (by rw [M.cas, hR.cas]) (fun k => by rw [M.vis_eq, hR.vis]) e2
    have linked : ∀ {res}, (sop = .set ∨ sop = .add) → res = doItemLink cfg s1 i → StoreRes cfg σ s h i p sop env res := by
      rintro res hs rfl
      obtain ⟨s2, r, a1, a2, a3, a4⟩ := link_sim M.inv (hR.marks.fr M.fr) k1 hp1 (by rw [hp2]; exact M.gone) (NoDrop env.acts)
      have hP := (M.post (· = i) (NoDrop env.acts)).trans a2 (fun j hj _ => hj)
      rw [hp2] at a4
      rw [M.cas, hR.cas] at a3 a4
      rcases a4 with ⟨b1, b2, b3⟩ | ⟨b1, b2, b3⟩
      · refine ⟨s2, r, σ.put p.key p.flags p.exptime false p.data, a1, ?_, hP, a3, rfl, rfl, fun k => Or.inl ?_⟩
        · unfold StoreStep; rw [hlive]; rcases hs with rfl | rfl <;> exact Or.inl ⟨b1, b2, rfl⟩
        · rw [b3 k, live_put, M.fr.now, hR.now]
          split
          · unfold newVis; rw [hp3, hp4, hp6, hp7]
          · rw [M.vis_eq, hR.vis]
      · refine ⟨s2, r, { σ with cas := σ.cas + 1 }, a1, ?_, hP, a3, rfl, rfl, fun k => Or.inl ?_⟩
        · unfold StoreStep; rw [hlive]; rcases hs with rfl | rfl <;> exact Or.inr ⟨b1, b2, rfl⟩
        · rw [b3 k, M.vis_eq, hR.vis]; rfl
    cases sop with
    | set => exact linked (Or.inl rfl) (by simp only [itemStore, storeSet, hi, hp2, g1])
    | add => exact linked (Or.inr rfl) (by simp only [itemStore, storeAdd, hi, hp2, g1])
    | replace =>
      exact miss (r := .notStored) (by simp only [itemStore, storeReplace, hi, hp2, g1])
        (by unfold StoreStep; rw [hlive]; exact ⟨rfl, rfl⟩)
    | cas =>
      exact miss (r := .enoent) (by simp only [itemStore, storeCas, hi, hp2, g1])
        (by unfold StoreStep; rw [hlive]; exact ⟨rfl, rfl⟩)
    | append =>
      exact miss (r := .notStored) (by simp only [itemStore, storeAttach, hi, hp2, g1])
        (by unfold StoreStep; rw [hlive]; exact ⟨rfl, rfl⟩)
    | prepend =>
      exact miss (r := .notStored) (by simp only [itemStore, storeAttach, hi, hp2, g1])
        (by unfold StoreStep; rw [hlive]; exact ⟨rfl, rfl⟩)
  · -- hit
    have hlive := hit_live hR H
    obtain ⟨o1, k1, k2, k3⟩ := hit_obj H
    have hne : i ≠ oi := by
      rintro rfl; have := H.obj; rw [hi] at this; injection this with this; subst this
      have := H.linked; simp [hp1] at this
    have hi1 : s1.heap i = some it := by rw [H.other i hne, hi]
    have hcoll : o1.coll = oo.coll := k2.2.2.2.2.1
    obtain ⟨sr, f1, f2, f3, f4⟩ := refuse (i := i) hR H (NoDrop env.acts)
    obtain ⟨sa, sb, w1, w2, w3, w4, w5⟩ := overwrite hR H hi1 ⟨hp1, hp2, hp3, hp4, hp5, hp6, hp7⟩ (NoDrop env.acts)
    have refused : ∀ {r : Rep} {res}, res = some (sr, r) → StoreStep cfg.delim σ p sop env.ok r σ →
        StoreRes cfg σ s h i p sop env res := fun e1 e2 => unch e1 f2 f3 f4 e2
    have stored : ∀ {res}, res = some (sb, .stored (σ.cas + 1)) →
        StoreStep cfg.delim σ p sop env.ok (.stored (σ.cas + 1)) (σ.put p.key p.flags p.exptime false p.data) →
        StoreRes cfg σ s h i p sop env res :=
      fun e1 e2 => ⟨sb, _, _, e1, e2, w3, w4, rfl, rfl, fun k => Or.inl (w5 k)⟩
    by_cases hc : oo.coll = true
    · -- collection: refused by every store
      have hbad : StoreStep cfg.delim σ p sop env.ok .ebadtype σ := by
        unfold StoreStep; rw [hlive]; simp [Obj.entry, hc]
      cases sop with
      | set => exact refused (r := .ebadtype) (by simp only [itemStore, storeSet, hi, hp2, g1, k1, hcoll, hc, if_true, f1]) hbad
      | add => exact refused (r := .ebadtype) (by simp only [itemStore, storeAdd, hi, hp2, g1, k1, hcoll, hc, if_true, f1]) hbad
      | replace => exact refused (r := .ebadtype) (by simp only [itemStore, storeReplace, hi, hp2, g1, k1, hcoll, hc, if_true, f1]) hbad
      | cas => exact refused (r := .ebadtype) (by simp only [itemStore, storeCas, hi, hp2, g1, k1, hcoll, hc, if_true, f1]) hbad
      | append => exact refused (r := .ebadtype) (by simp only [itemStore, storeAttach, hi, hp2, g1, k1, hcoll, hc, if_true, f1]) hbad
      | prepend => exact refused (r := .ebadtype) (by simp only [itemStore, storeAttach, hi, hp2, g1, k1, hcoll, hc, if_true, f1]) hbad
    · have hc : oo.coll = false := by simpa using hc
      have hco : oo.entry.coll = false := hc
      have hcas : o1.cas = oo.cas := k2.2.2.2.1
      have hec : oo.entry.cas = oo.cas := rfl
      have attach : ∀ app : Bool, sop = (if app then .append else .prepend) →
          StoreRes cfg σ s h i p sop env (storeAttach cfg s i app env) := by
        intro app hs
        by_cases hcc : p.cas ≠ 0 ∧ p.cas ≠ oo.cas
        · refine refused (r := .eexists) ?_ ?_
          · simp only [storeAttach, hi, hp2, g1, k1, hcoll, hc, Bool.false_eq_true, if_false, hp5, hcas, hcc, ne_eq,
              not_false_eq_true, and_self, if_true, f1]
          · unfold StoreStep; rw [hlive]; simp only [hco, Bool.false_eq_true, if_false]
            cases app <;> simp only [hs, if_true, Bool.false_eq_true, if_false, hec] <;> rw [if_pos hcc] <;> exact ⟨trivial, trivial⟩
        · obtain ⟨A, B⟩ := rebuild hR H env hr (attachData app o1.data it.data)
          have hd : o1.data = oo.data := k2.2.2.2.2.2.1
          rw [← k2.2.1, ← k2.2.2.1] at A B
          cases hok : env.ok with
          | true =>
            obtain ⟨s2, ni, s3, s4, s5, a1, a2, a3, a4, a5, a6, a7⟩ := A hok
            refine ⟨s5, .stored (σ.cas + 1), σ.put p.key o1.flags o1.exptime false (attachData app o1.data it.data), ?_, ?_, a5.weaken (fun _ e => e.elim) id, a6, rfl, rfl, a7⟩
            · simp only [storeAttach, hi, hp2, g1, k1, hcoll, hc, Bool.false_eq_true, if_false, hp5, hcas, if_neg hcc, a1, a2,
                a3, a4]
            · unfold StoreStep; rw [hlive]; simp only [hco, Bool.false_eq_true, if_false]
              cases app <;> simp only [hs, if_true, Bool.false_eq_true, if_false, hec] <;> rw [if_neg hcc, if_pos hok] <;>
                simp [attachData, hd, hp7, k2.2.1, k2.2.2.1, Obj.entry]
          | false =>
            obtain ⟨s2, s5, a1, a4, a5, a6, a7⟩ := B hok
            refine ⟨s5, .notStored, σ, ?_, ?_, a5.weaken (fun _ e => e.elim) id, a6, rfl, rfl, a7⟩
            · simp only [storeAttach, hi, hp2, g1, k1, hcoll, hc, Bool.false_eq_true, if_false, hp5, hcas, if_neg hcc, a1, a4]
            · unfold StoreStep; rw [hlive]; simp only [hco, Bool.false_eq_true, if_false]
              cases app <;> simp only [hs, if_true, Bool.false_eq_true, if_false, hec] <;>
                rw [if_neg hcc, if_neg (by simp [hok])] <;> exact ⟨trivial, trivial⟩
      cases sop with
      | set =>
        refine stored ?_ ?_
        · simp only [itemStore, storeSet, hi, hp2, g1, k1, hcoll, hc, Bool.false_eq_true, if_false, w1, w2]
        · unfold StoreStep; rw [hlive]; simp only [hco, Bool.false_eq_true, if_false]; exact ⟨trivial, trivial⟩
      | replace =>
        refine stored ?_ ?_
        · simp only [itemStore, storeReplace, hi, hp2, g1, k1, hcoll, hc, Bool.false_eq_true, if_false, w1, w2]
        · unfold StoreStep; rw [hlive]; simp only [hco, Bool.false_eq_true, if_false]; exact ⟨trivial, trivial⟩
      | cas =>
        by_cases hcc : p.cas = oo.cas
        · refine stored ?_ ?_
          · simp only [itemStore, storeCas, hi, hp2, g1, k1, hcoll, hc, Bool.false_eq_true, if_false, hp5, hcas, hcc,
              if_true, w1, w2]
          · unfold StoreStep; rw [hlive]; simp only [hco, Bool.false_eq_true, if_false, hec, hcc, if_true]; exact ⟨trivial, trivial⟩
        · refine refused (r := .eexists) ?_ ?_
          · simp only [itemStore, storeCas, hi, hp2, g1, k1, hcoll, hc, Bool.false_eq_true, if_false, hp5, hcas, hcc,
              f1]
          · unfold StoreStep; rw [hlive]; simp only [hco, Bool.false_eq_true, if_false, hec, hcc]; exact ⟨trivial, trivial⟩
      | add =>
        have hadd : StoreStep cfg.delim σ p .add env.ok .notStored σ := by
          unfold StoreStep; rw [hlive]; simp only [hco, Bool.false_eq_true, if_false]; exact ⟨trivial, trivial⟩
        have hl1 : o1.linked = true := by rw [k2.2.2.2.2.2.2]; exact H.linked
        rcases update_spec H.inv k1 hl1 false with ⟨u1, -⟩ | u1
        · exact refused (r := .notStored)
            (by simp only [itemStore, storeAdd, hi, hp2, g1, k1, hcoll, hc, Bool.false_eq_true, if_false, u1, f1]) hadd
        · have hT := H.inv.touch k1 hl1
          obtain ⟨s', e1, e2, e3, e4, e5⟩ := release_back hT (· = i) (NoDrop env.acts)
          have hle : ∀ j, 0 < h j → 0 < (upd h oi (h oi + 1)) j := by intro j hj; simp only [upd]; split <;> omega
          have PT : Post cfg (· = i) (NoDrop env.acts) s1 (touched cfg s1 oi o1) (upd h oi (h oi + 1)) (upd h oi (h oi + 1)) := by
            refine ⟨hT, touched_fr _ _, ?_, fun _ => allLru_touched⟩
            intro j x q1 _ _ _
            by_cases hj : j = oi
            · subst hj; rw [k1] at q1; injection q1 with q1; subst q1
              exact ⟨{ o1 with time := s1.now, inLru := true }, by simp [touched, upd], rfl, rfl, rfl, rfl, rfl, fun e => ⟨e, rfl⟩⟩
            · exact ⟨x, by simp [touched, upd, hj, q1], .refl x⟩
          refine unch (r := .notStored) (s' := s') ?_
            (((H.post _ _).trans PT (fun j hj _ => hle j hj)).trans e2 (fun j hj _ => hle j hj))
            (by rw [e3]; exact H.cas.trans hR.cas) ?_ hadd
          · simp only [itemStore, storeAdd, hi, hp2, g1, k1, hcoll, hc, Bool.false_eq_true, if_false, u1, e1]
          · intro k; rw [e4, vis_touch H.inv k1 hl1 k3, H.vis_eq, hR.vis]
      | append => exact attach true rfl
      | prepend => exact attach false rfl

/-! ### assembling the simulation -/

theorem mkSim {σ σ1 : S} {fl : Bool} {op : Op} (hR : R cfg fl σ s h) (hL : Legal fl σ h op) {r : Rep}
    {ex : Id → Prop} (hs : step cfg s op = some (s', r)) (hc : Core cfg.delim σ op r σ1)
    (P : Post cfg ex (NoDrop (opActs op)) s s' h (heldStep h op r))
    (hex : ∀ j, ex j → ∃ sop env, op = .store j sop env) (hnow : σ1.now = σ.now) (hcas : s'.casId = σ1.cas)
    (hpend : ∀ i p, σ1.pend i = some p → 0 < heldStep h op r i ∧
      ((σ.pend i = some p ∧ ¬ ex i) ∨ ∃ o, s'.heap i = some o ∧ PendObj o p))
    (hvis : ∀ k, vis cfg s' k = σ1.live k ∨ (vis cfg s' k = none ∧ opActs op ≠ [] ∧ opKey σ op ≠ some k)) :
    Sim cfg fl σ s h op := by
  obtain ⟨σ', e1, e2⟩ := evict_pick (opActs op) (opKey σ op) σ1 (vis cfg s') hvis
  refine ⟨s', r, σ', hs, ⟨σ1, hc, e1⟩, ?_, ?_⟩
  · refine ⟨P.inv, by rw [P.fr.now, e1.1, hnow, hR.now], by rw [hcas, e1.2.1], hR.marks.fr P.fr, e2, ?_, ?_⟩
    · intro i p hp
      rw [e1.2.2.1] at hp
      obtain ⟨a, b⟩ := hpend i p hp
      refine ⟨a, ?_⟩
      rcases b with ⟨b1, b2⟩ | b
      · obtain ⟨c1, o, c2, c3, c4, c5, c6, c7, c8, c9⟩ := hR.pend i p b1
        obtain ⟨o', d1, d2, d3, d4, d5, d6, d7⟩ := P.keep i o c2 c1 a b2
        exact ⟨o', d1, (d7 c3).1, by rw [d2, c4], by rw [d3, c5], by rw [(d7 c3).2, c6], by rw [d4, c7],
          by rw [d5, c8], by rw [d6, c9]⟩
      · exact b
    · intro hf; exact P.lru (hL.2.2.1 hf) (hR.lru hf)
  · intro j o g1 g2 g3 g4
    refine P.keep j o g1 g2 g3 (fun e => ?_)
    obtain ⟨sop, env, he⟩ := hex j e
    exact g4 sop env he

/-- Pending items of the state before. -/
theorem pendKeep {σ : S} {fl : Bool} (hR : R cfg fl σ s h) {ex : Id → Prop} (hex : ∀ j, ex j → False) (h' : Id → Nat)
    (hm : ∀ j, 0 < h j → 0 < h' j) (s' : St) : ∀ i p, σ.pend i = some p → 0 < h' i ∧
      ((σ.pend i = some p ∧ ¬ ex i) ∨ ∃ o, s'.heap i = some o ∧ PendObj o p) :=
  fun i p hp => ⟨hm i (hR.pend i p hp).1, Or.inl ⟨hp, fun e => hex i e⟩⟩

theorem sim_tick {σ : S} {fl : Bool} (hR : R cfg fl σ s h) (dt : Nat) : Sim cfg fl σ s h (.tick dt) := by
  have hI : Inv cfg { s with now := s.now + dt } h :=
    { hR.inv with timeLe := fun i o h1 h2 => Nat.le_trans (hR.inv.timeLe i o h1 h2) (Nat.le_add_right _ _) }
  have hm : MarksOk { s with now := s.now + dt } := by
    refine ⟨?_, fun p => ?_⟩
    · rcases hR.marks.1 with e | e
      · exact Or.inl e
      · exact Or.inr (Nat.lt_of_lt_of_le e (Nat.le_add_right _ _))
    · rcases hR.marks.2 p with e | e
      · exact Or.inl e
      · exact Or.inr (Nat.lt_of_lt_of_le e (Nat.le_add_right _ _))
  refine ⟨_, _, { σ with now := σ.now + dt }, rfl, ⟨{ σ with now := σ.now + dt }, ⟨rfl, rfl⟩, evict_refl _ _⟩,
    ⟨hI, by simp [hR.now], hR.cas, hm, ?_, hR.pend, hR.lru⟩, fun j o g1 _ _ _ => ⟨o, g1, .refl o⟩⟩
  intro k
  have hv := hR.vis k
  have hfl : ∀ mark t, (mark = 0 ∨ mark < s.now) → t ≤ s.now →
      flushedBy (s.now + dt) mark t = flushedBy s.now mark t := by
    intro mark t h1 h2
    unfold flushedBy
    rcases h1 with h1 | h1
    · simp [h1]
    · have e1 : decide (mark ≤ s.now + dt) = true := by simp; omega
      have e2 : decide (mark ≤ s.now) = true := by simp; omega
      rw [e1, e2]
  unfold S.live
  simp only
  unfold vis at hv ⊢
  simp only
  cases hl : s.tbl.lookup k with
  | none =>
    rw [hl] at hv; simp only [Option.bind_none] at hv ⊢
    unfold S.live at hv
    cases hm : σ.m k with
    | none => rfl
    | some e =>
      rw [hm] at hv; simp only at hv
      split at hv
      · next hx => simp only; rw [if_pos]; exact ⟨hx.1, Nat.le_trans hx.2 (Nat.le_add_right _ _)⟩
      · simp at hv
  | some i =>
    obtain ⟨o, h1, h2, h3⟩ := (hR.inv.tblIff k i).mp hl
    rw [hl] at hv
    simp only [Option.bind_some, h1] at hv ⊢
    have ht := hR.inv.timeLe i o h1 h2
    have hval : isValid cfg { s with now := s.now + dt } o =
        (isValid cfg s o && !(o.exptime != 0 && decide (o.exptime ≤ s.now + dt))) := by
      unfold isValid
      simp only
      rw [hfl _ _ hR.marks.1 ht, hfl _ _ (hR.marks.2 _) ht]
      by_cases a : o.exptime = 0
      · simp [a]
      · by_cases b : o.exptime ≤ s.now
        · have : o.exptime ≤ s.now + dt := by omega
          simp [a, b, this]
        · generalize flushedBy s.now s.oldest o.time = x
          generalize flushedBy s.now (s.pfxOld (pfxOf cfg o.key)) o.time = y
          by_cases c : o.exptime ≤ s.now + dt <;> cases x <;> cases y <;> simp [a, b, c]
    rw [hval]
    unfold S.live at hv
    cases hvv : isValid cfg s o with
    | false =>
      rw [hvv] at hv; simp only [Bool.false_eq_true, if_false, Bool.false_and] at hv ⊢
      cases hm : σ.m k with
      | none => rfl
      | some e =>
        rw [hm] at hv; simp only at hv
        split at hv
        · next hx => simp only; rw [if_pos]; exact ⟨hx.1, Nat.le_trans hx.2 (Nat.le_add_right _ _)⟩
        · simp at hv
    | true =>
      rw [hvv] at hv; simp only [if_true, Bool.true_and] at hv ⊢
      cases hm : σ.m k with
      | none => rw [hm] at hv; simp at hv
      | some e =>
        rw [hm] at hv; simp only at hv ⊢
        split at hv
        · simp at hv
        · injection hv with hv
          have he : e.exptime = o.exptime := by rw [← hv]; rfl
          rw [he, ← hR.now, hv]
          by_cases c : o.exptime ≠ 0 ∧ o.exptime ≤ s.now + dt
          · rw [if_pos c, if_neg]; simp [c.1, c.2]
          · rw [if_neg c, if_pos]
            by_cases a : o.exptime = 0
            · simp [a]
            · have : ¬ o.exptime ≤ s.now + dt := fun e => c ⟨a, e⟩
              simp [this]

theorem sim_release {σ : S} {fl : Bool} (hR : R cfg fl σ s h) {i : Id} (hL : Legal fl σ h (.release i)) :
    Sim cfg fl σ s h (.release i) := by
  obtain ⟨s', e1, e2, e3, e4, e5⟩ := release_post hR.inv (i := i) hL.2.2.2 (fun _ => False) (NoDrop (opActs (.release i)))
  refine mkSim (σ1 := { σ with pend := upd σ.pend i none }) (r := .ok) hR hL (s' := s') ?_ ⟨rfl, rfl⟩ e2
    (fun _ e => e.elim) rfl (by rw [e3, hR.cas]) ?_ (fun k => Or.inl ?_)
  · simp [step, e1]
  · intro j p hp
    simp only [upd] at hp
    by_cases hj : j = i
    · simp [hj] at hp
    · simp only [hj, if_false] at hp
      refine ⟨?_, Or.inl ⟨hp, id⟩⟩
      show 0 < upd h i (h i - 1) j
      rw [upd_ne _ _ hj]; exact (hR.pend j p hp).1
  · rw [e4, hR.vis]; rfl

theorem sim_alloc {σ : S} {fl : Bool} (hR : R cfg fl σ s h) {k : Key} {f e c : Nat} {dat : List Nat} {env : Env}
    (hL : Legal fl σ h (.alloc k f e c dat env)) : Sim cfg fl σ s h (.alloc k f e c dat env) := by
  obtain ⟨A, B⟩ := alloc_spec hR.inv env hL.2.1 k f e false dat
  cases hok : env.ok with
  | true =>
    obtain ⟨s1, i, a1, a2⟩ := A hok
    have hu : heldStep h (.alloc k f e c dat env) (.allocated i) = upd h i 1 := by
      simp only [heldStep, a2.zero]
    have hpn : σ.pend i = none := by
      cases hp : σ.pend i with
      | none => rfl
      | some p => have := (hR.pend i p hp).1; have := a2.zero; omega
    have hI := a2.inv.modifyUnlinked (o' := ⟨k, f, e, 0, c, false, dat, false, false, ⟨1, 0⟩⟩) a2.obj rfl rfl rfl
      (fun _ _ => rfl) (a2.inv.refs i _ a2.obj).1 (a2.inv.refs i _ a2.obj).2 (by rw [upd_self]; omega)
    refine mkSim (σ1 := { σ with pend := upd σ.pend i (some ⟨k, f, e, c, dat⟩) }) (r := .allocated i) hR hL
      (s' := { s1 with heap := upd s1.heap i (some ⟨k, f, e, 0, c, false, dat, false, false, ⟨1, 0⟩⟩) })
      (ex := fun _ => False) ?_ ?_ ?_ (fun _ e => e.elim) rfl ?_ ?_ ?_
    · simp only [step, itemAlloc, a1, a2.obj]
    · exact Or.inr ⟨hok, i, rfl, hpn, rfl⟩
    · rw [hu]
      refine ⟨hI, ⟨a2.fr.now, a2.fr.oldest, a2.fr.marks⟩, ?_, ?_⟩
      · intro j o g1 g2 g3 _
        have hj : j ≠ i := by rintro rfl; have := a2.zero; omega
        obtain ⟨b, hb⟩ := a2.held j o g1 g2
        exact ⟨{ o with inLru := b }, by simp only; rw [upd_ne _ _ hj, hb], rfl, rfl, rfl, rfl, rfl, fun e => ⟨e, rfl⟩⟩
      · intro hn hA j o g1 g2
        by_cases hj : j = i
        · subst hj; simp only [upd_self] at g1; injection g1 with g1; subst g1; simp at g2
        · simp only [upd_ne _ _ hj] at g1; exact a2.lru hn hA j o g1 g2
    · exact a2.cas.trans hR.cas
    · intro j p hp
      rw [hu]
      simp only [upd] at hp
      by_cases hj : j = i
      · subst hj; simp at hp; subst hp
        exact ⟨by rw [upd_self]; omega, Or.inr ⟨_, upd_self _ _ _, rfl, rfl, rfl, rfl, rfl, rfl, rfl⟩⟩
      · simp only [hj, if_false] at hp
        refine ⟨?_, Or.inl ⟨hp, id⟩⟩
        rw [upd_ne _ _ hj]; exact (hR.pend j p hp).1
    · intro k'
      have hv : vis cfg { s1 with heap := upd s1.heap i (some ⟨k, f, e, 0, c, false, dat, false, false, ⟨1, 0⟩⟩) } k' =
          vis cfg s1 k' := by
        refine vis_congr a2.inv (by rfl) ?_ k'
        intro j a g1 g2
        by_cases hj : j = i
        · subst hj; rw [a2.obj] at g1; injection g1 with g1; subst g1; simp at g2
        · exact ⟨a, by simp only; rw [upd_ne _ _ hj, g1], .refl a, rfl⟩
      rw [hv]
      by_cases ha : env.acts = []
      · left; rw [(a2.noActs ha).1, hR.vis]; rfl
      · rcases a2.vis_le k' with q | q
        · left; rw [q, hR.vis]; rfl
        · right; exact ⟨q, ha, by simp [opKey]⟩
  | false =>
    obtain ⟨s1, a1, a2, a3, a4⟩ := B hok
    refine mkSim (σ1 := σ) (r := .enomem) hR hL (s' := s1) (ex := fun _ => False) ?_ ?_ (a2.post _ a3)
      (fun _ e => e.elim) rfl (by rw [a2.cas, hR.cas]) (pendKeep hR (fun _ e => e) _ (fun _ e => e) _) ?_
    · simp only [step, itemAlloc, a1]
    · exact Or.inl ⟨hok, rfl, rfl⟩
    · intro k'
      by_cases ha : env.acts = []
      · left; rw [a4 ha, hR.vis]
      · rcases a2.vis_le k' with q | q
        · left; rw [q, hR.vis]
        · right; exact ⟨q, ha, by simp [opKey]⟩

theorem sim_store {σ : S} {fl : Bool} (hR : R cfg fl σ s h) {i : Id} {sop : StoreOp} {env : Env}
    (hL : Legal fl σ h (.store i sop env)) : Sim cfg fl σ s h (.store i sop env) := by
  obtain ⟨p, hp⟩ := Option.isSome_iff_exists.mp hL.2.2.2
  obtain ⟨s', r, σ1, e1, e2, e3, e4, e5, e6, e7⟩ := store_sim hR hL.1 hp sop env hL.2.1
  have hh : heldStep h (.store i sop env) r = h := by cases r <;> rfl
  refine mkSim (σ1 := { σ1 with pend := upd σ.pend i none }) (r := r) hR hL (s' := s') (ex := (· = i)) e1
    ⟨p, σ1, hp, e2, rfl⟩ (by rw [hh]; exact e3) (fun j e => ⟨sop, env, by rw [e]⟩) e5 e4 ?_ ?_
  · intro j q hq
    rw [hh]; simp only [upd] at hq
    by_cases hj : j = i
    · simp [hj] at hq
    · simp only [hj, if_false] at hq
      exact ⟨(hR.pend j q hq).1, Or.inl ⟨hq, hj⟩⟩
  · intro k; rcases e7 k with q | ⟨q1, q2, q3⟩
    · left; rw [q]; rfl
    · right; exact ⟨q1, q2, by simpa [opKey, hp] using q3⟩

theorem sim_get {σ : S} {fl : Bool} (hR : R cfg fl σ s h) {k : Key} (hL : Legal fl σ h (.get k)) :
    Sim cfg fl σ s h (.get k) := by
  rcases get_spec hR.inv hL.1 k true with ⟨s1, g1, M⟩ | ⟨s1, i, o, g1, H⟩
  · have hlive : σ.live k = none := by rw [← hR.vis, M.was]
    refine mkSim (σ1 := σ) (r := .enoent) hR hL (s' := s1) (ex := fun _ => False) ?_ ?_ (M.post _ _) (fun _ e => e.elim) rfl
      (by rw [M.cas, hR.cas]) (pendKeep hR (fun _ e => e) _ (fun _ e => e) _) (fun k' => Or.inl (by rw [M.vis_eq, hR.vis]))
    · simp only [step, itemGet, g1]
    · simp only [Core, hlive, and_self]
  · have hlive := hit_live hR H
    obtain ⟨o1, k1, k2, k3⟩ := hit_obj H
    have hcoll : o1.coll = o.coll := k2.2.2.2.2.1
    cases hc : o.coll with
    | true =>
      obtain ⟨sr, f1, f2, f3, f4⟩ := refuse (i := i) hR H (NoDrop (opActs (.get k)))
      obtain ⟨sr', f1', f2', f3', f4', f5'⟩ := release_back H.inv (fun _ => False) (NoDrop (opActs (.get k)))
      rw [f1] at f1'; injection f1' with f1'; subst f1'
      refine mkSim (σ1 := σ) (r := .ebadtype) hR hL (s' := sr) (ex := fun _ => False) ?_ ?_
        ((H.post _ _).trans f2' (fun j hj _ => by simp only [upd]; split <;> omega)) (fun _ e => e.elim) rfl
        f3 (pendKeep hR (fun _ e => e) _ (fun _ e => e) _) (fun k' => Or.inl (f4 k'))
      · simp only [step, itemGet, g1, k1, hcoll, hc, if_true, f1]
      · simp only [Core, hlive, Obj.entry, hc, if_true, and_self]
    | false =>
      refine mkSim (σ1 := σ) (r := .hit i o1.flags o1.cas o1.data) hR hL (s' := s1) (ex := fun _ => False) ?_ ?_ (H.post _ _)
        (fun _ e => e.elim) rfl (by rw [H.cas, hR.cas])
        (pendKeep hR (fun _ e => e) _ (fun j e => by simp only [heldStep, upd]; split <;> omega) _)
        (fun k' => Or.inl (by rw [H.vis_eq, hR.vis]))
      · simp only [step, itemGet, g1, k1, hcoll, hc, Bool.false_eq_true, if_false]
      · simp only [Core, hlive, Obj.entry, hc, Bool.false_eq_true, if_false, true_and]
        exact ⟨i, by rw [k2.2.1, k2.2.2.2.1, k2.2.2.2.2.2.1]⟩

theorem sim_delete {σ : S} {fl : Bool} (hR : R cfg fl σ s h) {k : Key} {c : Nat} (hL : Legal fl σ h (.delete k c)) :
    Sim cfg fl σ s h (.delete k c) := by
  have hhs : ∀ r, heldStep h (.delete k c) r = h := by intro r; cases r <;> rfl
  rcases get_spec hR.inv hL.1 k false with ⟨s1, g1, M⟩ | ⟨s1, i, o, g1, H⟩
  · have hlive : σ.live k = none := by rw [← hR.vis, M.was]
    refine mkSim (σ1 := σ) (r := .enoent) hR hL (s' := s1) (ex := fun _ => False) ?_ ?_ (M.post _ _) (fun _ e => e.elim) rfl
      (by rw [M.cas, hR.cas]) (pendKeep hR (fun _ e => e) _ (fun _ e => e) _) (fun k' => Or.inl (by rw [M.vis_eq, hR.vis]))
    · simp only [step, itemDelete, g1]
    · simp only [Core, hlive, and_self]
  · have hlive := hit_live hR H
    obtain ⟨o1, k1, k2, k3⟩ := hit_obj H
    have hcas : o1.cas = o.cas := k2.2.2.2.1
    have hl1 : o1.linked = true := by rw [k2.2.2.2.2.2.2]; exact H.linked
    have hkey1 : o1.key = k := by rw [k2.1, H.key]
    have hle : ∀ j, 0 < h j → 0 < (upd h i (h i + 1)) j := by intro j hj; simp only [upd]; split <;> omega
    by_cases hc : c = 0 ∨ c = o.cas
    · obtain ⟨s2, u1, u2, u3, u4, u5, u6, u7, u8, u9, u10, u11⟩ := unlink_spec H.inv k1 hl1
      obtain ⟨s3, f1, f2, f3, f4, f5⟩ := release_back u2 (fun _ => False) (NoDrop (opActs (.delete k c)))
      have PU : Post cfg (fun _ => False) (NoDrop (opActs (.delete k c))) s1 s2 (upd h i (h i + 1)) (upd h i (h i + 1)) := by
        refine ⟨u2, u3, ?_, fun _ => u11⟩
        intro j a q1 q2 _ _
        by_cases hj : j = i
        · subst hj; rw [k1] at q1; injection q1 with q1; subst q1
          rw [u8, if_neg (by omega)]
          exact ⟨_, rfl, rfl, rfl, rfl, rfl, rfl, fun e => by simp [hl1] at e⟩
        · exact ⟨a, by rw [u9 j hj, q1], .refl a⟩
      refine mkSim (σ1 := { σ with m := upd σ.m k none }) (r := .ok) hR hL (s' := s3) (ex := fun _ => False) ?_ ?_
        (((H.post _ _).trans PU (fun j hj _ => hle j hj)).trans f2 (fun j hj _ => hle j hj)) (fun _ e => e.elim) rfl
        (by rw [f3, u4, H.cas, hR.cas]) (pendKeep hR (fun _ e => e) _ (fun _ e => e) _) (fun k' => Or.inl ?_)
      · simp only [step, itemDelete, g1, k1, hcas, hc, if_true, u1, f1]
      · simp only [Core, hlive]; rw [if_pos (by simpa [Obj.entry] using hc)]; exact ⟨trivial, trivial⟩
      · rw [f4, u6, hkey1, H.vis_eq, hR.vis]
        by_cases hk : k' = k
        · subst hk; rw [if_pos rfl]; exact (live_none (by simp [upd])).symm
        · rw [if_neg hk]; exact (live_m σ (by simp [upd, hk])).symm
    · obtain ⟨sr, f1, f2, f3, f4, f5⟩ := release_back H.inv (fun _ => False) (NoDrop (opActs (.delete k c)))
      refine mkSim (σ1 := σ) (r := .eexists) hR hL (s' := sr) (ex := fun _ => False) ?_ ?_
        ((H.post _ _).trans f2 (fun j hj _ => hle j hj)) (fun _ e => e.elim) rfl
        (by rw [f3, H.cas, hR.cas]) (pendKeep hR (fun _ e => e) _ (fun _ e => e) _)
        (fun k' => Or.inl (by rw [f4, H.vis_eq, hR.vis]))
      · simp only [step, itemDelete, g1, k1, hcas, hc, if_false, f1]
      · simp only [Core, hlive]; rw [if_neg (by simpa [Obj.entry] using hc)]; exact ⟨trivial, trivial⟩

theorem sim_background {σ : S} {fl : Bool} (hR : R cfg fl σ s h) {acts : List EnvAct}
    (hL : Legal fl σ h (.background acts)) : Sim cfg fl σ s h (.background acts) := by
  obtain ⟨s1, a1, a2, a3, a4⟩ := envActs_spec hR.inv acts hL.2.1
  refine mkSim (σ1 := σ) (r := .ok) hR hL (s' := s1) (ex := fun _ => False) ?_ ⟨rfl, rfl⟩ (a2.post _ a3)
      (fun _ e => e.elim) rfl (by rw [a2.cas, hR.cas]) (pendKeep hR (fun _ e => e) _ (fun _ e => e) _) ?_
  · simp [step, a1]
  · intro k'
    by_cases ha : acts = []
    · left; rw [a4 ha, hR.vis]
    · rcases a2.vis_le k' with q | q
      · left; rw [q, hR.vis]
      · right; exact ⟨q, ha, by simp [opKey]⟩

/-- Touching keeps the visible entries when the moved item's validity does not change. -/
theorem vis_touch' (hI : Inv cfg s h) {i : Id} {o : Obj} (ho : s.heap i = some o)
    (hv : isValid cfg s { o with time := s.now, inLru := true } = isValid cfg s o) (k : Key) :
    vis cfg (touched cfg s i o) k = vis cfg s k := by
  refine vis_congr hI (by rfl) ?_ k
  intro j a h1 h2
  by_cases hj : j = i
  · subst hj; rw [ho] at h1; injection h1 with h1; subst h1
    exact ⟨{ o with time := s.now, inLru := true }, by simp [touched, upd_self], ⟨rfl, rfl, rfl, rfl, rfl, rfl, rfl⟩, hv⟩
  · exact ⟨a, by simp [touched, upd, hj, h1], .refl a, rfl⟩

/-- State with the expiry time of one object changed. -/
def setExpSt (s : St) (i : Id) (o : Obj) (x : Nat) : St := { s with heap := upd s.heap i (some { o with exptime := x }) }

theorem setExp_valid {o : Obj} (hv : isValid cfg s o = true) (x : Nat) {s' : St} (h1 : s'.now = s.now)
    (h2 : s'.oldest = s.oldest) (h3 : s'.pfxOld = s.pfxOld) :
    isValid cfg s' { o with exptime := x } = !decide (x ≠ 0 ∧ x ≤ s.now) := by
  unfold isValid at hv ⊢
  simp only [Bool.and_eq_true] at hv
  simp only [h1, h2, h3, hv.1.2, hv.2, Bool.and_true]
  by_cases a : x = 0 <;> by_cases b : x ≤ s.now <;> simp [a, b]

theorem setExp_sim {σ : S} {fl : Bool} (hR : R cfg fl σ s h) {k : Key} {i : Id} {o : Obj} {s1 : St}
    (H : Hit cfg s s1 h k i o) {o1 : Obj} (k1 : s1.heap i = some o1) (k2 : o1.SameAs o) (k3 : isValid cfg s1 o1 = true)
    (x : Nat) (hst : (x == sticky) = (o.exptime == sticky)) (nd : Prop) (force : Bool) :
    ∃ s2 s3, (if force then doItemUpdate cfg (setExpSt s1 i o1 x) i true else some (setExpSt s1 i o1 x)) = some s2 ∧
      doItemRelease cfg s2 i = some s3 ∧ Post cfg (fun _ => False) nd s s3 h h ∧ s3.casId = σ.cas ∧
      ∀ k', vis cfg s3 k' = (({ σ with m := upd σ.m k (some { o.entry with exptime := x }) } : S)).live k' := by
  have hl1 : o1.linked = true := by rw [k2.2.2.2.2.2.2]; exact H.linked
  have hkey1 : o1.key = k := by rw [k2.1, H.key]
  have hpos : 0 < (upd h i (h i + 1)) i := by rw [upd_self]; omega
  have hle : ∀ j, 0 < h j → 0 < (upd h i (h i + 1)) j := by intro j hj; simp only [upd]; split <;> omega
  have hS : Inv cfg (setExpSt s1 i o1 x) (upd h i (h i + 1)) :=
    H.inv.modify (o' := { o1 with exptime := x }) k1 (fun _ _ => rfl) (H.inv.refs i o1 k1).1 (H.inv.refs i o1 k1).2
      rfl rfl rfl rfl rfl rfl rfl (by simp only; rw [hst, k2.2.2.1]) (fun _ => hl1)
  have hSo : (setExpSt s1 i o1 x).heap i = some { o1 with exptime := x } := upd_self _ _ _
  have hval : isValid cfg (setExpSt s1 i o1 x) { o1 with exptime := x } = !decide (x ≠ 0 ∧ x ≤ s1.now) :=
    setExp_valid k3 x rfl rfl rfl
  have hvis : ∀ k', vis cfg (setExpSt s1 i o1 x) k' =
      ({ σ with m := upd σ.m k (some { o.entry with exptime := x }) } : S).live k' := by
    intro k'
    by_cases hk : k' = k
    · subst hk
      have hvo := hS.vis_of hSo hl1
      have hkk : ({ o1 with exptime := x } : Obj).key = k' := hkey1
      rw [← hkk]
      rw [hvo, hval]; unfold S.live; simp only [upd, if_true]
      rw [H.fr.now, hR.now]
      have he : ({ o1 with exptime := x } : Obj).entry = { o.entry with exptime := x } := by
        unfold Obj.entry; simp [k2.2.1, k2.2.2.2.1, k2.2.2.2.2.1, k2.2.2.2.2.2.1]
      rw [he]
      by_cases c : x ≠ 0 ∧ x ≤ σ.now
      · rw [if_pos c, if_neg]; simp only [Bool.not_eq_true', decide_eq_false_iff_not]; exact fun e => e c
      · rw [if_neg c, if_pos]; simp only [Bool.not_eq_true', decide_eq_false_iff_not]; exact c
    · rw [live_m σ (by simp [upd, hk]), ← hR.vis, ← H.vis_eq]
      unfold vis
      show (s1.tbl.lookup k').bind _ = _
      cases hx : s1.tbl.lookup k' with
      | none => rfl
      | some j =>
        have hj : j ≠ i := by
          rintro rfl; obtain ⟨a, q1, q2, q3⟩ := (H.inv.tblIff k' j).mp hx
          rw [k1] at q1; injection q1 with q1; subst q1; exact hk (by rw [← q3, hkey1])
        simp only [Option.bind_some, setExpSt]; rw [upd_ne _ _ hj]; rfl
  have PS : Post cfg (fun _ => False) nd s1 (setExpSt s1 i o1 x) (upd h i (h i + 1)) (upd h i (h i + 1)) := by
    refine ⟨hS, ⟨rfl, rfl, .refl _⟩, ?_, ?_⟩
    · intro j a q1 _ _ _
      by_cases hj : j = i
      · subst hj; rw [k1] at q1; injection q1 with q1; subst q1
        exact ⟨_, hSo, rfl, rfl, rfl, rfl, rfl, fun e => by simp [hl1] at e⟩
      · exact ⟨a, by simp only [setExpSt]; rw [upd_ne _ _ hj, q1], .refl a⟩
    · intro _ hA j a q1 q2
      by_cases hj : j = i
      · subst hj; rw [hSo] at q1; injection q1 with q1; subst q1; exact hA j o1 k1 hl1
      · simp only [setExpSt] at q1; rw [upd_ne _ _ hj] at q1; exact hA j a q1 q2
  have P1 := (H.post (fun _ => False) nd).trans PS (fun j hj _ => hle j hj)
  have hcas : (setExpSt s1 i o1 x).casId = σ.cas := H.cas.trans hR.cas
  have fin : ∀ s2, Inv cfg s2 (upd h i (h i + 1)) → Post cfg (fun _ => False) nd s s2 h (upd h i (h i + 1)) →
      s2.casId = σ.cas → (∀ k', vis cfg s2 k' = vis cfg (setExpSt s1 i o1 x) k') →
      ∃ s3, doItemRelease cfg s2 i = some s3 ∧ Post cfg (fun _ => False) nd s s3 h h ∧ s3.casId = σ.cas ∧
      ∀ k', vis cfg s3 k' = (({ σ with m := upd σ.m k (some { o.entry with exptime := x }) } : S)).live k' := by
    intro s2 i2 p2 c2 v2
    obtain ⟨s3, f1, f2, f3, f4, f5⟩ := release_back i2 (fun _ => False) nd
    exact ⟨s3, f1, p2.trans f2 (fun j hj _ => hle j hj), by rw [f3, c2], fun k' => by rw [f4, v2, hvis]⟩
  cases force with
  | false =>
    obtain ⟨s3, a, b⟩ := fin _ hS P1 hcas (fun _ => rfl)
    exact ⟨_, s3, rfl, a, b⟩
  | true =>
    rcases update_spec hS hSo hl1 true with ⟨-, u⟩ | u
    · simp at u
    · have hT := hS.touch hSo hl1
      have PT : Post cfg (fun _ => False) nd (setExpSt s1 i o1 x) (touched cfg (setExpSt s1 i o1 x) i { o1 with exptime := x })
          (upd h i (h i + 1)) (upd h i (h i + 1)) := by
        refine ⟨hT, touched_fr _ _, ?_, fun _ => allLru_touched⟩
        intro j a q1 _ _ _
        by_cases hj : j = i
        · subst hj; rw [hSo] at q1; injection q1 with q1; subst q1
          exact ⟨{ o1 with exptime := x, time := s1.now, inLru := true }, by simp [touched, upd, setExpSt],
            rfl, rfl, rfl, rfl, rfl, fun e => ⟨e, rfl⟩⟩
        · exact ⟨a, by simp only [touched]; rw [upd_ne _ _ hj, q1], .refl a⟩
      obtain ⟨s3, a, b⟩ := fin _ hT (P1.trans PT (fun j hj _ => hle j hj)) hcas (by
        intro k'
        refine vis_touch' hS hSo ?_ k'
        rw [hval]
        exact setExp_valid (s := s1) (o := { o1 with time := s1.now, inLru := true })
          (isValid_touch (s := s1) (o := o1) k3 (H.inv.timeLe i o1 k1 hl1) rfl rfl rfl) x rfl rfl rfl)
      exact ⟨_, s3, by simpa using u, a, b⟩

theorem sim_setExp {σ : S} {fl : Bool} (hR : R cfg fl σ s h) {k : Key} {x : Nat} (hL : Legal fl σ h (.setExp k x)) :
    Sim cfg fl σ s h (.setExp k x) := by
  rcases get_spec hR.inv hL.1 k false with ⟨s1, g1, M⟩ | ⟨s1, i, o, g1, H⟩
  · have hlive : σ.live k = none := by rw [← hR.vis, M.was]
    refine mkSim (σ1 := σ) (r := .enoent) hR hL (s' := s1) (ex := fun _ => False) ?_ ?_ (M.post _ _) (fun _ e => e.elim) rfl
      (by rw [M.cas, hR.cas]) (pendKeep hR (fun _ e => e) _ (fun _ e => e) _) (fun k' => Or.inl (by rw [M.vis_eq, hR.vis]))
    · simp only [step, itemSetExp, g1]
    · simp only [Core, hlive, and_self]
  · have hlive := hit_live hR H
    obtain ⟨o1, k1, k2, k3⟩ := hit_obj H
    have hexp : o1.exptime = o.exptime := k2.2.2.1
    have hle : ∀ j, 0 < h j → 0 < (upd h i (h i + 1)) j := by intro j hj; simp only [upd]; split <;> omega
    by_cases hc : (o.exptime = sticky ↔ x = sticky)
    · have hst : (x == sticky) = (o.exptime == sticky) := by
        by_cases a : x = sticky
        · have := hc.mpr a; simp [a, this]
        · have := fun e => a (hc.mp e)
          have e1 : (x == sticky) = false := by simpa using a
          have e2 : (o.exptime == sticky) = false := by simpa using this
          rw [e1, e2]
      obtain ⟨s2, s3, u1, u2, u3, u4, u5⟩ := setExp_sim hR H k1 k2 k3 x hst (NoDrop (opActs (.setExp k x)))
        (decide (o.exptime = 0 ∧ x ≠ 0))
      refine mkSim (σ1 := { σ with m := upd σ.m k (some { o.entry with exptime := x }) }) (r := .ok) hR hL (s' := s3)
        (ex := fun _ => False) ?_ ?_ u3 (fun _ e => e.elim) ?_ u4 ?_ (fun k' => Or.inl (u5 k'))
      · simp only [decide_eq_true_eq, setExpSt] at u1
        simp only [step, itemSetExp, g1, k1, hexp]
        rw [if_neg (by intro e; rcases e with ⟨a, b⟩ | ⟨a, b⟩
                       · exact b (hc.mp a)
                       · exact a (hc.mpr b))]
        simp only [u1, u2]
      · simp only [Core, hlive]; rw [if_pos (by simpa [Obj.entry] using hc)]; exact ⟨trivial, trivial⟩
      · rfl
      · exact pendKeep hR (fun _ e => e) _ (fun _ e => e) _
    · obtain ⟨sr, f1, f2, f3, f4, f5⟩ := release_back H.inv (fun _ => False) (NoDrop (opActs (.setExp k x)))
      refine mkSim (σ1 := σ) (r := .ebadvalue) hR hL (s' := sr) (ex := fun _ => False) ?_ ?_
        ((H.post _ _).trans f2 (fun j hj _ => hle j hj)) (fun _ e => e.elim) rfl
        (by rw [f3, H.cas, hR.cas]) (pendKeep hR (fun _ e => e) _ (fun _ e => e) _)
        (fun k' => Or.inl (by rw [f4, H.vis_eq, hR.vis]))
      · simp only [step, itemSetExp, g1, k1, hexp]
        rw [if_pos (by
          by_cases a : o.exptime = sticky <;> by_cases b : x = sticky
          · exact absurd ⟨fun _ => b, fun _ => a⟩ hc
          · exact Or.inl ⟨a, b⟩
          · exact Or.inr ⟨a, b⟩
          · exact absurd ⟨fun e => absurd e a, fun e => absurd e b⟩ hc)]
        simp only [f1]
      · simp only [Core, hlive]; rw [if_neg (by simpa [Obj.entry] using hc)]; exact ⟨trivial, trivial⟩

/-- Allocation of a new item for an absent key, its insertion, and release (collection creation, incr with create). -/
theorem create_sim {σ : S} {fl : Bool} (hR : R cfg fl σ s h) {k : Key} {s1 : St} (M : Miss cfg s s1 h k) (env : Env)
    (hr : NoRepair env.acts) (f e : Nat) (coll : Bool) (dat : List Nat) :
    (env.ok = true → ∃ s2 i s3 r s4 σ1, doItemAlloc cfg s1 env k f e coll dat = some (s2, some i) ∧
      s2.heap i = some ⟨k, f, e, 0, 0, coll, dat, false, false, ⟨1, 0⟩⟩ ∧ s2.tbl.lookup k = none ∧
      doItemLink cfg s2 i = some (s3, r) ∧ doItemRelease cfg s3 i = some s4 ∧
      ((NameOk cfg.delim k ∧ r = .stored (σ.cas + 1) ∧ σ1 = σ.put k f e coll dat) ∨
       (¬ NameOk cfg.delim k ∧ r = .ename ∧ σ1 = { σ with cas := σ.cas + 1 })) ∧
      Post cfg (fun _ => False) (NoDrop env.acts) s s4 h h ∧ s4.casId = σ.cas + 1 ∧
      ∀ k', vis cfg s4 k' = σ1.live k' ∨ (vis cfg s4 k' = none ∧ env.acts ≠ [] ∧ some k ≠ some k')) ∧
    (env.ok = false → ∃ s2, doItemAlloc cfg s1 env k f e coll dat = some (s2, none) ∧
      Post cfg (fun _ => False) (NoDrop env.acts) s s2 h h ∧ s2.casId = σ.cas ∧
      ∀ k', vis cfg s2 k' = σ.live k' ∨ (vis cfg s2 k' = none ∧ env.acts ≠ [] ∧ some k ≠ some k')) := by
  have hlive : σ.live k = none := by rw [← hR.vis, M.was]
  have viz : ∀ {s2 : St}, (∀ k', vis cfg s2 k' = vis cfg s1 k' ∨ vis cfg s2 k' = none) →
      (env.acts = [] → ∀ k', vis cfg s2 k' = vis cfg s1 k') →
      ∀ k', vis cfg s2 k' = σ.live k' ∨ (vis cfg s2 k' = none ∧ env.acts ≠ [] ∧ some k ≠ some k') := by
    intro s2 h1 h2 k'
    by_cases hk : k' = k
    · left; subst hk; rw [hlive]
      rcases h1 k' with q | q
      · rw [q, M.vis_eq, M.was]
      · exact q
    · by_cases ha : env.acts = []
      · left; rw [h2 ha, M.vis_eq, hR.vis]
      · rcases h1 k' with q | q
        · left; rw [q, M.vis_eq, hR.vis]
        · right; exact ⟨q, ha, by simpa using fun e => hk e.symm⟩
  obtain ⟨A, B⟩ := alloc_spec M.inv env hr k f e coll dat
  constructor
  · intro hok
    obtain ⟨s2, i, a1, a2⟩ := A hok
    have hlk := a2.tbl_le k M.gone
    have hm2 := hR.marks.fr (M.fr.trans a2.fr)
    obtain ⟨s3, r, b1, b2, b3, b4⟩ := link_sim a2.inv hm2 a2.obj rfl hlk (NoDrop env.acts)
    obtain ⟨s4, d1, d2, d3, d4, d5⟩ := release_post b2.inv (i := i) (by rw [upd_self]; omega) (fun _ => False) (NoDrop env.acts)
    have hh1 : upd (upd h i 1) i (upd h i 1 i - 1) = h := by
      funext j; simp only [upd]
      by_cases hj : j = i
      · subst hj; simp [a2.zero]
      · simp [hj]
    rw [hh1] at d2
    have hle : ∀ j, 0 < h j → 0 < (upd h i 1) j := by intro j hj; simp only [upd]; split <;> omega
    have P1 := (M.post (fun _ => False) (NoDrop env.acts)).trans (a2.post (fun _ => False)) (fun j hj _ => hj)
    have P2 : Post cfg (fun _ => False) (NoDrop env.acts) s s3 h _ := P1.trans' b2
        (fun j hj hx => by rcases hx with hx | hx
                           · exact hx
                           · subst hx; have := a2.zero; omega) (fun j hj _ => hle j hj)
    have P3 := P2.trans d2 (fun j hj _ => hle j hj)
    have hv2 := viz a2.vis_le (fun ha => (a2.noActs ha).1)
    rw [a2.cas, M.cas, hR.cas] at b3 b4
    rcases b4 with ⟨c1, c2, c3⟩ | ⟨c1, c2, c3⟩
    · refine ⟨s2, i, s3, r, s4, _, a1, a2.obj, hlk, b1, d1, Or.inl ⟨c1, c2, rfl⟩, P3, by rw [d3, b3], ?_⟩
      intro k'; rw [d4, c3, live_put, a2.fr.now, M.fr.now, hR.now]
      by_cases hk : k' = k
      · left; rw [if_pos hk, if_pos hk]; rfl
      · rw [if_neg hk, if_neg hk]; exact hv2 k'
    · refine ⟨s2, i, s3, r, s4, _, a1, a2.obj, hlk, b1, d1, Or.inr ⟨c1, c2, rfl⟩, P3, by rw [d3, b3], ?_⟩
      intro k'; rw [d4, c3]; exact hv2 k'
  · intro hok
    obtain ⟨s2, a1, a2, a3, a4⟩ := B hok
    refine ⟨s2, a1, (M.post _ _).trans (a2.post _ a3) (fun j hj _ => hj), by rw [a2.cas, M.cas, hR.cas], ?_⟩
    exact viz a2.vis_le (fun ha k' => by rw [a4 ha])

theorem sim_collCreate {σ : S} {fl : Bool} (hR : R cfg fl σ s h) {k : Key} {f e : Nat} {env : Env}
    (hL : Legal fl σ h (.collCreate k f e env)) : Sim cfg fl σ s h (.collCreate k f e env) := by
  have hhs : ∀ r, heldStep h (.collCreate k f e env) r = h := by intro r; cases r <;> rfl
  rcases get_spec hR.inv hL.1 k false with ⟨s1, g1, M⟩ | ⟨s1, i, o, g1, H⟩
  · have hlive : σ.live k = none := by rw [← hR.vis, M.was]
    obtain ⟨A, B⟩ := create_sim hR M env hL.2.1 f e true []
    cases hok : env.ok with
    | true =>
      obtain ⟨s2, i, s3, r, s4, σ1, a1, a2, a3, a4, a5, a6, a7, a8, a9⟩ := A hok
      have hσ : σ1.now = σ.now ∧ σ1.cas = σ.cas + 1 ∧ σ1.pend = σ.pend := by
        rcases a6 with ⟨-, -, rfl⟩ | ⟨-, -, rfl⟩ <;> exact ⟨rfl, rfl, rfl⟩
      refine mkSim (r := r) hR hL (s' := s4) (σ1 := σ1) (ex := fun _ => False) ?_ ?_ (by rw [hhs]; exact a7)
        (fun _ e => e.elim) hσ.1 (by rw [a8, hσ.2.1]) ?_ a9
      · simp only [step, collCreate, g1, a1, a4, a5]
      · simp only [Core, hlive, hok, if_true]; exact a6
      · rw [hσ.2.2, hhs]; exact pendKeep hR (fun _ e => e) _ (fun _ e => e) _
    | false =>
      obtain ⟨s2, a1, a2, a3, a4⟩ := B hok
      refine mkSim (r := .enomem) hR hL (s' := s2) (σ1 := σ) (ex := fun _ => False) ?_ ?_ a2
        (fun _ e => e.elim) rfl a3 (pendKeep hR (fun _ e => e) _ (fun _ e => e) _) a4
      · simp only [step, collCreate, g1, a1]
      · simp only [Core, hlive, hok, Bool.false_eq_true, if_false, and_self]
  · have hlive := hit_live hR H
    obtain ⟨sr, f1, f2, f3, f4, f5⟩ := release_back H.inv (fun _ => False) (NoDrop (opActs (.collCreate k f e env)))
    refine mkSim (σ1 := σ) (r := .eexists) hR hL (s' := sr) (ex := fun _ => False) ?_ ?_
        ((H.post _ _).trans f2 (fun j hj _ => by simp only [upd]; split <;> omega)) (fun _ e => e.elim) rfl
        (by rw [f3, H.cas, hR.cas]) (pendKeep hR (fun _ e => e) _ (fun _ e => e) _)
        (fun k' => Or.inl (by rw [f4, H.vis_eq, hR.vis]))
    · simp only [step, collCreate, g1, f1]
    · simp only [Core, hlive, and_self]

theorem addDelta_eq (inc : Bool) (v d : Nat) : addDelta inc v d = if inc then (v + d) % 2 ^ 64 else v - d := by
  unfold addDelta; cases inc with
  | true => rfl
  | false => simp only [Bool.false_eq_true, if_false]; split <;> omega

theorem sim_arith {σ : S} {fl : Bool} (hR : R cfg fl σ s h) {k : Key} {inc create : Bool} {delta initial f e : Nat}
    {rest : List Nat} {env : Env} (hL : Legal fl σ h (.arith k inc create delta initial f e rest env)) :
    Sim cfg fl σ s h (.arith k inc create delta initial f e rest env) := by
  have hhs : ∀ r, heldStep h (.arith k inc create delta initial f e rest env) r = h := by intro r; cases r <;> rfl
  rcases get_spec hR.inv hL.1 k false with ⟨s1, g1, M⟩ | ⟨s1, i, o, g1, H⟩
  · have hlive : σ.live k = none := by rw [← hR.vis, M.was]
    cases create with
    | false =>
      refine mkSim (σ1 := σ) (r := .enoent) hR hL (s' := s1) (ex := fun _ => False) ?_ ?_ (M.post _ _) (fun _ e => e.elim) rfl
        (by rw [M.cas, hR.cas]) (pendKeep hR (fun _ e => e) _ (fun _ e => e) _) (fun k' => Or.inl (by rw [M.vis_eq, hR.vis]))
      · simp only [step, itemArithmetic, g1, Bool.false_eq_true, if_false]
      · simp only [Core, hlive, Bool.false_eq_true, if_false, and_self]
    | true =>
      obtain ⟨A, B⟩ := create_sim hR M env hL.2.1 f e false (showNat initial ++ [13, 10])
      cases hok : env.ok with
      | true =>
        obtain ⟨s2, i, s3, r, s4, σ1, a1, a2, a3, a4, a5, a6, a7, a8, a9⟩ := A hok
        have hσ : σ1.now = σ.now ∧ σ1.cas = σ.cas + 1 ∧ σ1.pend = σ.pend := by
          rcases a6 with ⟨-, -, rfl⟩ | ⟨-, -, rfl⟩ <;> exact ⟨rfl, rfl, rfl⟩
        have hget : doItemGet cfg s2 k false = some (s2, none) := by simp [doItemGet, assocFind, a3]
        have hadd : storeAdd cfg s2 i = some (s3, r) := by simp only [storeAdd, a2, hget, a4]
        rcases a6 with ⟨c1, c2, c3⟩ | ⟨c1, c2, c3⟩
        · refine mkSim (r := .num initial (σ.cas + 1)) hR hL (s' := s4) (σ1 := σ1) (ex := fun _ => False) ?_ ?_
            a7 (fun _ e => e.elim) hσ.1 (by rw [a8, hσ.2.1]) ?_ a9
          · simp only [step, itemArithmetic, g1, if_true, a1, hadd, a5, c2]
          · simp only [Core, hlive, hok, if_true]; exact Or.inl ⟨c1, trivial, c3⟩
          · rw [hσ.2.2, hhs]; exact pendKeep hR (fun _ e => e) _ (fun _ e => e) _
        · refine mkSim (r := .ename) hR hL (s' := s4) (σ1 := σ1) (ex := fun _ => False) ?_ ?_
            a7 (fun _ e => e.elim) hσ.1 (by rw [a8, hσ.2.1]) ?_ a9
          · simp only [step, itemArithmetic, g1, if_true, a1, hadd, a5, c2]
          · simp only [Core, hlive, hok, if_true]; exact Or.inr ⟨c1, trivial, c3⟩
          · rw [hσ.2.2, hhs]; exact pendKeep hR (fun _ e => e) _ (fun _ e => e) _
      | false =>
        obtain ⟨s2, a1, a2, a3, a4⟩ := B hok
        refine mkSim (r := .enomem) hR hL (s' := s2) (σ1 := σ) (ex := fun _ => False) ?_ ?_ a2
          (fun _ e => e.elim) rfl a3 (pendKeep hR (fun _ e => e) _ (fun _ e => e) _) a4
        · simp only [step, itemArithmetic, g1, if_true, a1]
        · simp only [Core, hlive, hok, Bool.false_eq_true, if_false, if_true, and_self]
  · have hlive := hit_live hR H
    obtain ⟨hnc, hpar⟩ := hL.2.2.2 _ hlive
    have hc : o.coll = false := hnc
    have hp : safeStrtoull (o.data ++ rest) ≠ none := hpar
    obtain ⟨o1, k1, k2, k3⟩ := hit_obj H
    have hcoll : o1.coll = o.coll := k2.2.2.2.2.1
    have hdata : o1.data = o.data := k2.2.2.2.2.2.1
    have hkey1 : o1.key = k := by rw [k2.1, H.key]
    have hle : ∀ j, 0 < h j → 0 < (upd h i (h i + 1)) j := by intro j hj; simp only [upd]; split <;> omega
    cases hv : safeStrtoull (o.data ++ rest) with
    | none => exact absurd hv hp
    | some w =>
      cases w with
      | none =>
        obtain ⟨sr, f1, f2, f3, f4, f5⟩ := release_back H.inv (fun _ => False) (NoDrop env.acts)
        refine mkSim (σ1 := σ) (r := .einval) hR hL (s' := sr) (ex := fun _ => False) ?_ ?_
          ((H.post _ _).trans f2 (fun j hj _ => hle j hj)) (fun _ e => e.elim) rfl
          (by rw [f3, H.cas, hR.cas]) (pendKeep hR (fun _ e => e) _ (fun _ e => e) _)
          (fun k' => Or.inl (by rw [f4, H.vis_eq, hR.vis]))
        · simp only [step, itemArithmetic, g1, k1, hcoll, hc, Bool.false_eq_true, if_false, doAddDelta, hdata, hv, f1]
        · simp only [Core, hlive, Obj.entry, hv, and_self]
      | some v =>
        obtain ⟨A, B⟩ := rebuild hR H env hL.2.1 (showNat (addDelta inc v delta) ++ [13, 10])
        cases hok : env.ok with
        | true =>
          obtain ⟨s2, ni, s3, s4, s5, a1, a2, a3, a4, a5, a6, a7⟩ := A hok
          refine mkSim (r := .num (addDelta inc v delta) (σ.cas + 1)) hR hL (s' := s5)
            (σ1 := σ.put k o.flags o.exptime false (showNat (addDelta inc v delta) ++ [13, 10])) (ex := fun _ => False) ?_ ?_
            a5 (fun _ e => e.elim) rfl a6 (pendKeep hR (fun _ e => e) _ (fun _ e => e) _) a7
          · simp only [step, itemArithmetic, g1, k1, hcoll, hc, Bool.false_eq_true, if_false, doAddDelta, hdata, hv,
              hkey1, k2.2.1, k2.2.2.1, a1, a2, a3, a4]
          · simp only [Core, hlive, Obj.entry, hv, hok, if_true, addDelta_eq]; exact ⟨trivial, trivial⟩
        | false =>
          obtain ⟨s2, s5, a1, a2, a3, a4, a5⟩ := B hok
          refine mkSim (r := .enomem) hR hL (s' := s5) (σ1 := σ) (ex := fun _ => False) ?_ ?_
            a3 (fun _ e => e.elim) rfl a4 (pendKeep hR (fun _ e => e) _ (fun _ e => e) _) a5
          · simp only [step, itemArithmetic, g1, k1, hcoll, hc, Bool.false_eq_true, if_false, doAddDelta, hdata, hv,
              hkey1, k2.2.1, k2.2.2.1, a1, a2]
          · simp only [Core, hlive, Obj.entry, hv, hok, Bool.false_eq_true, if_false, and_self]

/-- A flush pass leaves nothing visible in its scope. -/
theorem flush_vis (hI : Inv cfg s h) (hA : AllLru s) (sc : Key → Bool) (mark : Nat)
    (hold : ∀ i o, s.heap i = some o → o.linked = true → sc o.key = true → o.time < mark → isValid cfg s o = false) :
    ∃ s', flushClasses cfg sc mark s (allQueues cfg) = some s' ∧ FlushFr cfg sc s s' h ∧
      ∀ k, vis cfg s' k = if sc k = true then none else vis cfg s k := by
  obtain ⟨s', e1, F, g⟩ := flushClasses_spec sc mark (allQueues cfg) s hI
  refine ⟨s', e1, F, fun k => ?_⟩
  cases hk : sc k with
  | false => simpa using F.vis_out k hk
  | true =>
    rw [if_pos rfl]
    cases hl : s'.tbl.lookup k with
    | none => exact vis_none hl
    | some i =>
      obtain ⟨o', a1, a2, a3⟩ := (F.inv.tblIff k i).mp hl
      obtain ⟨o, b1, b2, b3, b4⟩ := F.back i o' a1
      have := b4 a2; subst this
      by_cases ht : mark ≤ o'.time
      · have := g (qid cfg o') (mem_allQueues cfg o') i ((F.inv.lruMem _ i).mpr ⟨o', a1, F.lru hA i o' a1 a2, rfl⟩) o' a1 ht
        rw [a3, hk] at this; simp at this
      · have hinv := hold i o' b1 a2 (by rw [a3, hk]) (by omega)
        have hv := hI.vis_of b1 a2
        rw [hinv, a3] at hv; simp only [Bool.false_eq_true, if_false] at hv
        rcases F.vis_le k with q | q
        · rw [q, hv]
        · exact q

theorem flush_R {σ : S} {fl : Bool} (hR : R cfg fl σ s h) {s0 s' : St} {sc : Key → Bool} (F : FlushFr cfg sc s0 s' h)
    (hheap : s0.heap = s.heap) (hnow : s0.now = s.now) (hcas : s0.casId = s.casId) (hA : AllLru s) (hm : MarksOk s0)
    (σ' : S) (h1 : σ'.now = σ.now) (h2 : σ'.cas = σ.cas) (h3 : σ'.pend = σ.pend) (hv : ∀ k, vis cfg s' k = σ'.live k) :
    R cfg fl σ' s' h ∧ ∀ j o, s.heap j = some o → 0 < h j → ∃ o', s'.heap j = some o' ∧ o'.Cont o := by
  have P := F.post (fun _ => False) True
  have kp : ∀ j o, s.heap j = some o → 0 < h j → ∃ o', s'.heap j = some o' ∧ o'.Cont o := by
    intro j o g1 g2; exact P.keep j o (by rw [hheap, g1]) g2 g2 (by simp)
  refine ⟨⟨F.inv, by rw [F.fr.now, hnow, hR.now, h1], by rw [F.cas, hcas, hR.cas, h2], hm.fr F.fr, hv, ?_, ?_⟩, kp⟩
  · intro i p hp
    rw [h3] at hp
    obtain ⟨c1, o, c2, c3, c4, c5, c6, c7, c8, c9⟩ := hR.pend i p hp
    obtain ⟨o', d1, d2, d3, d4, d5, d6, d7⟩ := kp i o c2 c1
    exact ⟨c1, o', d1, (d7 c3).1, by rw [d2, c4], by rw [d3, c5], by rw [(d7 c3).2, c6], by rw [d4, c7],
      by rw [d5, c8], by rw [d6, c9]⟩
  · intro _; exact F.lru (by intro i o; rw [hheap]; exact hA i o)

open Classical in
theorem sim_flush {σ : S} {fl : Bool} (hR : R cfg fl σ s h) {sc : Option (List Nat)} {w : Nat}
    (hL : Legal fl σ h (.flush sc w)) : Sim cfg fl σ s h (.flush sc w) := by
  obtain ⟨hfl, rfl, hnow⟩ := hL.2.2.2
  have hA := hR.lru hfl
  have hn : 2 ≤ s.now := by rw [hR.now]; exact hnow
  have hfb : ∀ t, t < s.now - 1 → flushedBy s.now (s.now - 1) t = true := by
    intro t ht; unfold flushedBy; simp; omega
  let σ' : S := { σ with m := fun k => if InScope cfg.delim sc k then none else σ.m k }
  have hlive : ∀ k, σ'.live k = if InScope cfg.delim sc k then none else σ.live k := by
    intro k
    by_cases hk : InScope cfg.delim sc k
    · rw [if_pos hk]; exact live_none (by simp [σ', hk])
    · rw [if_neg hk]; exact live_m σ (by simp [σ', hk])
  have hcore : ∀ r, (r = Rep.ok ∨ (r = .pfxEnoent ∧ ∃ p, p ≠ [] ∧ sc = some p ∧ ∀ k, HasPrefix cfg.delim p k → σ.live k = none)) →
      Step cfg.delim σ (.flush sc 0) r σ' := by
    intro r hr
    exact ⟨σ', ⟨fun k => ⟨fun e => by simp [σ', e], fun e => by simp [σ', e]⟩, rfl, rfl, rfl, hr⟩, evict_refl _ _⟩
  cases sc with
  | none =>
    have hI0 : Inv cfg { s with oldest := s.now - 1 } h := { hR.inv with }
    have hm0 : MarksOk { s with oldest := s.now - 1 } := ⟨Or.inr (by simp only; omega), hR.marks.2⟩
    obtain ⟨s', f1, F, f3⟩ := flush_vis hI0 (by intro i o; exact hA i o) (fun _ => true) (s.now - 1) (by
      intro i o _ _ _ ht
      unfold isValid; simp only [hfb _ ht]; simp)
    obtain ⟨r1, r2⟩ := flush_R hR F rfl rfl rfl hA hm0 σ' rfl rfl rfl (by
      intro k; rw [f3, hlive]; simp [InScope])
    refine ⟨s', .ok, σ', ?_, hcore _ (Or.inl rfl), r1, fun j o g1 g2 _ _ => r2 j o g1 g2⟩
    simp only [step, itemFlush, if_true]
    rw [if_pos (by omega)]; simp only [f1]
  | some p =>
    by_cases hp : p ≠ [] ∧ (s.tbl.all fun e => pfxOf cfg e.1 != p) = true
    · have hno : ∀ k, pfxOf cfg k = p → s.tbl.lookup k = none := by
        intro k hk
        cases hl : s.tbl.lookup k with
        | none => rfl
        | some i =>
          have hmem := (lookup_iff_mem _ hR.inv.keysNodup k i).mp hl
          have := List.all_eq_true.mp hp.2 _ hmem
          simp [hk] at this
      have hlz : ∀ k, pfxOf cfg k = p → σ.live k = none := by
        intro k hk; rw [← hR.vis]; exact vis_none (hno k hk)
      refine ⟨s, .pfxEnoent, σ', ?_, hcore _ (Or.inr ⟨rfl, p, hp.1, rfl, ?_⟩), ?_, fun j o g1 _ _ _ => ⟨o, g1, .refl o⟩⟩
      · simp only [step, itemFlush]; rw [if_pos hp]
      · intro k hk; exact hlz k ((hasPrefix_iff _ p k cfg rfl).mp hk).2
      · refine ⟨hR.inv, hR.now, hR.cas, hR.marks, ?_, hR.pend, hR.lru⟩
        intro k; rw [hlive]
        split
        · next hk => rw [hR.vis]; exact hlz k ((inScope_iff p k).mp hk)
        · exact hR.vis k
    · have hI0 : Inv cfg { s with pfxOld := upd s.pfxOld p (s.now - 1) } h := by
        refine hR.inv.setPfx ?_
        intro p' hp' hall
        by_cases he : p' = p
        · subst he
          exfalso; apply hp; refine ⟨hp', List.all_eq_true.mpr ?_⟩
          intro e he
          have hl := (lookup_iff_mem _ hR.inv.keysNodup e.1 e.2).mpr he
          have := hall _ _ hl
          simpa using this
        · rw [upd_ne _ _ he]; exact hR.inv.pfxZero p' hp' hall
      have hm0 : MarksOk { s with pfxOld := upd s.pfxOld p (s.now - 1) } := by
        refine ⟨hR.marks.1, fun p' => ?_⟩
        by_cases he : p' = p
        · subst he; right; simp only [upd_self]; omega
        · simp only; rw [upd_ne _ _ he]; exact hR.marks.2 p'
      obtain ⟨s', f1, F, f3⟩ := flush_vis hI0 (by intro i o; exact hA i o) (fun k => pfxOf cfg k == p) (s.now - 1) (by
        intro i o _ _ hk ht
        simp only [beq_iff_eq] at hk
        unfold isValid; simp only [hk, upd_self, hfb _ ht]; simp)
      have hv0 : ∀ k, pfxOf cfg k ≠ p → vis cfg { s with pfxOld := upd s.pfxOld p (s.now - 1) } k = vis cfg s k := by
        intro k hk
        unfold vis
        show (s.tbl.lookup k).bind _ = _
        cases hl : s.tbl.lookup k with
        | none => rfl
        | some i =>
          obtain ⟨o, a1, a2, a3⟩ := (hR.inv.tblIff k i).mp hl
          simp only [Option.bind_some, a1]
          refine ite_valid ?_
          exact isValid_congr rfl rfl (by simp only; rw [upd_ne _ _ (by rw [a3]; exact hk)]) rfl rfl rfl
      obtain ⟨r1, r2⟩ := flush_R hR F rfl rfl rfl hA hm0 σ' rfl rfl rfl (by
        intro k; rw [f3, hlive]
        by_cases hk : pfxOf cfg k = p
        · rw [if_pos (by simpa using hk), if_pos ((inScope_iff p k).mpr hk)]
        · rw [if_neg (by simpa using hk), if_neg (fun e => hk ((inScope_iff p k).mp e)), hv0 k hk, hR.vis])
      refine ⟨s', .ok, σ', ?_, hcore _ (Or.inl rfl), r1, fun j o g1 g2 _ _ => r2 j o g1 g2⟩
      simp only [step, itemFlush, if_true]
      rw [if_neg hp, if_pos (by omega)]; simp only [f1]

theorem step_sim {σ : S} {fl : Bool} (hR : R cfg fl σ s h) {op : Op} (hL : Legal fl σ h op) : Sim cfg fl σ s h op := by
  cases op with
  | tick dt => exact sim_tick hR dt
  | alloc k f e c dat env => exact sim_alloc hR hL
  | store i sop env => exact sim_store hR hL
  | release i => exact sim_release hR hL
  | get k => exact sim_get hR hL
  | delete k c => exact sim_delete hR hL
  | arith k inc cr d ini f e rest env => exact sim_arith hR hL
  | setExp k x => exact sim_setExp hR hL
  | collCreate k f e env => exact sim_collCreate hR hL
  | flush sc w => exact sim_flush hR hL
  | background acts => exact sim_background hR hL

end Verif.Item
