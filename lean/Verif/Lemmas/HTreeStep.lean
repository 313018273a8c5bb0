import Verif.Lemmas.HTreeSim
/-! # Every set and map call simulates the specification -/
namespace Verif.HT
open Verif.HT.Spec

theorem nodup_length_le {a b : List Nat} (hn : a.Nodup) (hs : ∀ i ∈ a, i ∈ b) : a.length ≤ b.length := by
  induction a generalizing b with
  | nil => simp
  | cons x a ih =>
    rw [List.nodup_cons] at hn
    have h1 := List.perm_cons_erase (hs x (by simp))
    have := ih (b := b.erase x) hn.2 (fun i hi => by
      have hne : i ≠ x := by rintro rfl; exact hn.1 hi
      exact (List.mem_erase_of_ne hne).mpr (hs i (by simp [hi])))
    rw [h1.length_eq]; simp; omega

theorem newNode_spec (k : Kind) (h : Heap) : isNode (newNode 0) = true ∧ WF k h (newNode 0) 0 0 ∧ ids (newNode 0) = [] := by
  refine ⟨rfl, ?_, ?_⟩
  · refine ⟨rfl, by omega, ?_, ?_, ?_, ?_⟩
    · symm; apply List.length_eq_zero_iff.mpr
      rw [List.flatMap_eq_nil_iff]; intro i _
      cases k <;> simp [own, ids, isNode]
    · intro _; symm; rw [List.countP_eq_zero]; intro i _; simp [isNode]
    · intro i hi; simp [isNode] at hi
    · intro i; exact ⟨rfl, by omega, by simp⟩
  · simp only [newNode, ids]
    rw [List.flatMap_eq_nil_iff]; intro i _; rfl

/-- The root in use by an insertion. -/
theorem root_spec {k : Kind} {cfg : Cfg} {h : Heap} {info : Info} {L : List Nat} {c : C} (r : CR k cfg h info L c) :
    isNode (info.root.getD (newNode 0)) = true ∧ WF k h (info.root.getD (newNode 0)) 0 0 ∧ ids (info.root.getD (newNode 0)) = L := by
  have h1 := r.rids
  have h2 := r.root
  cases hr : info.root with
  | none =>
    rw [hr] at h1
    obtain ⟨q1, q2, q3⟩ := newNode_spec k h
    exact ⟨q1, q2, by rw [h1]; exact q3⟩
  | some t =>
    rw [hr] at h1
    obtain ⟨q1, q2⟩ := h2 t hr
    exact ⟨q1, q2, h1.symm⟩

theorem crowd_vals {hash : Key → Nat} {h : Heap} {key : Key} {L : List Nat} (ha : ∀ i ∈ L, ∃ e, h i = some e ∧ e.hval = hash e.key) :
    crowd h (hash key) L = (vals h L).countP fun p => hash p.1 % 2 ^ 28 == hash key % 2 ^ 28 := by
  induction L with
  | nil => rfl
  | cons a L ih =>
    obtain ⟨e, e1, e2⟩ := ha a (by simp)
    have := ih (fun i hi => ha i (by simp [hi]))
    unfold crowd at this ⊢
    rw [List.countP_cons, this, vals_cons (x := (e.key, e.val)) (by simp [kv, e1]), List.countP_cons]
    simp only [e1, e2]

section
variable {k : Kind} {cfg : Cfg} {pend : Nat → Option KV} {s : St} {held : Nat → Nat} {info : Info} {L : List Nat} {c : C}

/-- The element `i` got into the collection. -/
def Done (k : Kind) (cfg : Cfg) (pend : Nat → Option KV) (held : Nat → Nat) (s s' : St) (i : Nat) (info' : Info) (c' : C) : Prop :=
  ∃ L', Mem cfg.hash (upd pend i none) s'.heap s'.nextId held L' ∧ CR k cfg s'.heap info' L' c' ∧ s'.coll = s.coll ∧
    Keep held s.heap s'.heap

/-- Placing a new element. -/
theorem add_spec (m : Mem cfg.hash pend s.heap s.nextId held L) (r : CR k cfg s.heap info L c) {i : Nat} {x : KV} (hp : pend i = some x)
    (hcr : (c.elems.countP fun p => cfg.hash p.1 % 2 ^ 28 == cfg.hash x.1 % 2 ^ 28) < 64) (hl : lookup c.elems x.1 = none)
    (hroom : c.elems.length < c.cap cfg.maxSize) (mem : Bool) :
    (mem = false ∧ place k s.heap mem i (cfg.hash x.1) (info.root.getD (newNode 0)) = some none) ∨
    ∃ t h', place k s.heap mem i (cfg.hash x.1) (info.root.getD (newNode 0)) = some (some t) ∧ markLinked s.heap i (cfg.hash x.1) = some h' ∧
      Done k cfg pend held s { s with heap := h' } i { info with root := some t, ccnt := info.ccnt + 1 } { c with elems := x :: c.elems } := by
  obtain ⟨q1, q2, q3⟩ := root_spec r
  obtain ⟨h', k1, k2, k3, k4, k5⟩ := m.link hp
  have hni : i ∉ L := (m.pnd i x hp).1
  have hcr' : crowd s.heap (cfg.hash x.1) (ids (info.root.getD (newNode 0))) < 64 := by
    rw [q3, crowd_vals (hash := cfg.hash)]
    · rw [r.vals.countP_eq]; exact hcr
    · intro j hj; obtain ⟨e, he⟩ := m.alive j hj; exact ⟨e, he, m.hv j e he hj⟩
  rcases place_spec (k := k) (mem := mem) (id := i) (h' := h') q1 q2 (Nat.mod_one _) hcr'
    (fun x hx => by rw [k4 x (by rintro rfl; rw [q3] at hx; exact hni hx)]) k5 with ⟨w1, w2⟩ | ⟨t, w1, w2, w3, w4⟩
  · exact Or.inl ⟨w1, w2⟩
  · rw [q3] at w4
    refine Or.inr ⟨t, h', w1, k1, ids t, k2.perm (fun j => w4.mem_iff), ?_, rfl, fun j _ _ => k3 j⟩
    refine r.next rfl ?_ ?_ ?_ ?_ ?_
    · intro t' ht'; injection ht' with ht'; subst ht'; exact ⟨w3, w2⟩
    · refine (vals_perm w4).trans ?_
      have hx : kv h' i = some x := by
        rw [k3 i]
        obtain ⟨-, -, e, e1, e2⟩ := m.pnd i x hp
        simp [kv, e1, e2]
      rw [vals_cons hx, vals_congr (fun j _ => k3 j)]
      exact r.vals.cons x
    · rw [List.map_cons, List.nodup_cons]
      exact ⟨lookup_none.mp hl, r.keys⟩
    · rw [r.ccnt]; rfl
    · simp; omega

/-- What an insertion does. -/
def InsOut (k : Kind) (cfg : Cfg) (pend : Nat → Option KV) (held : Nat → Nat) (s s' : St) (i : Nat) (x : KV) (repl mem full : Bool)
    (info info' : Info) (c : C) (rep : Rep) : Prop :=
  ((rep = .enomem ∨ rep = .eoverflow ∨ rep = .elemEexists) ∧ Insert k cfg.maxSize c x repl mem full (some rep) c ∧ s' = s ∧ info' = info) ∨
  (rep = .ok ∧ ∃ c', Insert k cfg.maxSize c x repl mem full (some .ok) c' ∧ Done k cfg pend held s s' i info' c') ∨
  (rep = .exist true ∧ ∃ c', Insert k cfg.maxSize c x repl mem full none c' ∧ Done k cfg pend held s s' i info' c')

theorem setInsert_sim (m : Mem cfg.hash pend s.heap s.nextId held L) (r : CR .set cfg s.heap info L c) {i : Nat} {x : KV} (hp : pend i = some x)
    (hcr : (c.elems.countP fun p => cfg.hash p.1 % 2 ^ 28 == cfg.hash x.1 % 2 ^ 28) < 64) (repl mem full : Bool) :
    ∃ s' info' rep, setInsert cfg s info i mem full = some (s', info', rep) ∧ InsOut .set cfg pend held s s' i x repl mem full info info' c rep := by
  obtain ⟨q1, q2, q3⟩ := root_spec r
  have hcap := r.cap
  have hcc := r.ccnt
  unfold setInsert
  simp only [hcap]
  by_cases hs : info.sticky = true ∧ full = true
  · rw [if_pos hs]
    rw [r.sticky] at hs
    exact ⟨_, _, _, rfl, Or.inl ⟨Or.inl rfl, .stickyFull hs.1 hs.2 (Or.inl rfl), rfl, rfl⟩⟩
  · rw [if_neg hs, if_neg (by simp [r.ovfl])]
    rw [r.sticky] at hs
    by_cases ho : (info.ccnt : Int) ≥ (c.cap cfg.maxSize : Nat)
    · rw [if_pos ho]
      exact ⟨_, _, _, rfl, Or.inl ⟨Or.inr (Or.inl rfl), .overflow hs (by omega) (Or.inl rfl), rfl, rfl⟩⟩
    · rw [if_neg ho]
      by_cases hm : info.root.isNone = true ∧ (!mem) = true
      · rw [if_pos hm]
        exact ⟨_, _, _, rfl, Or.inl ⟨Or.inl rfl, .nomem (by simpa using hm.2), rfl, rfl⟩⟩
      · rw [if_neg hm]
        obtain ⟨p1, p2, e, p3, p4⟩ := m.pnd i x hp
        rw [p3]
        have hek : e.key = x.1 := by rw [← p4]
        simp only [hek]
        have hroom : c.elems.length < c.cap cfg.maxSize := by omega
        rcases find_lookup (hash := cfg.hash) (el := c.elems) (fun j hj e he => m.hv j e he (q3 ▸ hj)) q2 (by rw [q3]; exact r.vals) r.keys x.1 with
          ⟨f1, f2⟩ | ⟨j, ej, f1, f2, f3, f4, f5, f6⟩
        · rw [f1]
          simp only
          rcases add_spec m r hp hcr f2 hroom mem with ⟨w1, w2⟩ | ⟨t, h', w1, w2, w3⟩
          · rw [w2]; exact ⟨_, _, _, rfl, Or.inl ⟨Or.inl rfl, .nomem w1, rfl, rfl⟩⟩
          · rw [w1]; simp only; rw [w2]
            exact ⟨_, _, _, rfl, Or.inr (Or.inl ⟨rfl, _, .new hs hroom f2, w3⟩)⟩
        · rw [f1]
          exact ⟨_, _, _, rfl, Or.inl ⟨Or.inr (Or.inr rfl), .dup (fun _ => ⟨hs, hroom⟩) (by simp) ⟨_, f6⟩, rfl, rfl⟩⟩

/-- Replacing the element `old` in the tree by the pending element `i` with the same key. -/
theorem swap_spec (m : Mem cfg.hash pend s.heap s.nextId held L) (r : CR .map cfg s.heap info L c) {i old : Nat} {x : KV} {eo : Elem}
    (hp : pend i = some x) {t : T} (hq1 : isNode t = true) (hq2 : WF .map s.heap t 0 0) (hq3 : ids t = L) (ho : old ∈ L)
    (heo : s.heap old = some eo) (hk : eo.key = x.1) (hkv : eo.hval = cfg.hash x.1) :
    ∃ t' h1 h2, replace (cfg.hash x.1) old i t = some t' ∧ markLinked s.heap i (cfg.hash x.1) = some h1 ∧
      markUnlinked h1 old = some h2 ∧
      Done .map cfg pend held s { s with heap := h2 } i { info with root := some t' } { c with elems := x :: without c.elems [x.1] } := by
  obtain ⟨h1, k1, k2, k3, k4, k5⟩ := m.link hp
  have hni : i ∉ L := (m.pnd i x hp).1
  have hio : i ≠ old := by rintro rfl; exact hni ho
  have hnd := nodup_ids m r
  obtain ⟨t', rest, w1, w2, w3, w4, w5⟩ := replace_spec (h' := h1) hq2 (Nat.mod_one _) (hq3 ▸ hnd) (hq3 ▸ ho) ⟨eo, heo, hkv, hk⟩
    (fun y hy _ => by rw [k4 y (by rintro rfl; exact hni (hq3 ▸ hy))]) k5
  rw [hq3] at w4
  have hor : old ∉ rest := by
    have := w4.nodup_iff.mp hnd; rw [List.nodup_cons] at this; exact this.1
  have hir : i ∉ rest := fun h => hni (w4.mem_iff.mpr (by simp [h]))
  have m1 : Mem cfg.hash (upd pend i none) h1 s.nextId held (old :: i :: rest) := k2.perm (fun j => by
    simp only [List.mem_cons, w4.mem_iff (a := j)]
    constructor
    · rintro (h | h | h)
      · exact Or.inr (Or.inl h)
      · exact Or.inl h
      · exact Or.inr (Or.inr h)
    · rintro (h | h | h)
      · exact Or.inr (Or.inl h)
      · exact Or.inl h
      · exact Or.inr (Or.inr h))
  obtain ⟨h2, q1, q2, q3, q4⟩ := m1.unlink (by simp [hor, Ne.symm hio])
  have hx : kv h2 i = some x := by
    unfold kv; rw [q4 i hio]
    show kv h1 i = some x
    rw [k3 i]
    obtain ⟨-, -, e, e1, e2⟩ := m.pnd i x hp
    simp [kv, e1, e2]
  have hold : kv s.heap old = some (x.1, eo.val) := by simp [kv, heo, hk]
  have hel : c.elems.Perm ((x.1, eo.val) :: vals s.heap rest) := by
    refine r.vals.symm.trans ((vals_perm w4).trans ?_)
    rw [vals_cons hold]
  have hrest : (without c.elems [x.1]).Perm (vals s.heap rest) := without_split (outs := [(x.1, eo.val)]) r.keys hel
  refine ⟨t', h1, h2, w1, k1, q1, ids t', q2.perm (fun j => w5.mem_iff), ?_, rfl, ?_⟩
  · have := r.next (k := .map) (h' := h2) (root' := some t') (n := info.ccnt) (es := x :: without c.elems [x.1]) rfl ?_ ?_ ?_ ?_ ?_
    · exact this
    · intro t2 ht2; injection ht2 with ht2; subst ht2
      refine ⟨w3.trans hq1, w2.congr ?_⟩
      intro y hy
      have : y ≠ old := by
        rintro rfl
        rcases List.mem_cons.mp (w5.mem_iff.mp hy) with h | h
        · exact hio h.symm
        · exact hor h
      rw [q4 y this]
    · refine (vals_perm w5).trans ?_
      rw [vals_cons hx]
      refine List.Perm.cons x ?_
      rw [vals_congr (h := s.heap)]
      · exact hrest.symm
      · intro j hj
        have h1 : j ≠ old := by rintro rfl; exact hor hj
        unfold kv; rw [q4 j h1]; exact k3 j
    · rw [List.map_cons, List.nodup_cons]
      refine ⟨?_, without_nodup r.keys _⟩
      intro hx
      obtain ⟨p, hp, he⟩ := List.mem_map.mp hx
      unfold without at hp
      have := (List.mem_filter.mp hp).2
      simp [he] at this
    · rw [r.ccnt, hel.length_eq, List.length_cons, List.length_cons, hrest.length_eq]
    · have := r.le
      rw [hel.length_eq] at this
      rw [List.length_cons] at this ⊢
      rw [hrest.length_eq]; exact this
  · intro j hj hsome
    rw [q3 j hsome, k3 j]

theorem mapInsert_sim (m : Mem cfg.hash pend s.heap s.nextId held L) (r : CR .map cfg s.heap info L c) {i : Nat} {x : KV} (hp : pend i = some x)
    (hcr : (c.elems.countP fun p => cfg.hash p.1 % 2 ^ 28 == cfg.hash x.1 % 2 ^ 28) < 64) (repl mem full : Bool) :
    ∃ s' info' rep, mapInsert cfg s info i repl mem full = some (s', info', rep) ∧ InsOut .map cfg pend held s s' i x repl mem full info info' c rep := by
  obtain ⟨q1, q2, q3⟩ := root_spec r
  have hcap := r.cap
  have hcc := r.ccnt
  unfold mapInsert
  by_cases hm : info.root.isNone = true ∧ (!mem) = true
  · rw [if_pos hm]
    exact ⟨_, _, _, rfl, Or.inl ⟨Or.inl rfl, .nomem (by simpa using hm.2), rfl, rfl⟩⟩
  · rw [if_neg hm]
    obtain ⟨p1, p2, e, p3, p4⟩ := m.pnd i x hp
    rw [p3]
    have hek : e.key = x.1 := by rw [← p4]
    have hev : e.val = x.2 := by rw [← p4]
    simp only [hek, hev]
    rcases find_lookup (hash := cfg.hash) (el := c.elems) (fun j hj e he => m.hv j e he (q3 ▸ hj)) q2 (by rw [q3]; exact r.vals) r.keys x.1 with
      ⟨f1, f2⟩ | ⟨j, ej, f1, f2, f3, f4, f5, f6⟩
    · rw [f1]
      simp only
      by_cases hs : info.sticky = true ∧ full = true
      · rw [if_pos hs]
        rw [r.sticky] at hs
        exact ⟨_, _, _, rfl, Or.inl ⟨Or.inl rfl, .stickyFull hs.1 hs.2 (Or.inr f2), rfl, rfl⟩⟩
      · rw [if_neg hs, if_neg (by simp [r.ovfl])]
        rw [r.sticky] at hs
        rw [hcap]
        by_cases ho : (info.ccnt : Int) ≥ (c.cap cfg.maxSize : Nat)
        · rw [if_pos ho]
          exact ⟨_, _, _, rfl, Or.inl ⟨Or.inr (Or.inl rfl), .overflow hs (by omega) (Or.inr f2), rfl, rfl⟩⟩
        · rw [if_neg ho]
          have hroom : c.elems.length < c.cap cfg.maxSize := by omega
          rcases add_spec m r hp hcr f2 hroom mem with ⟨w1, w2⟩ | ⟨t, h', w1, w2, w3⟩
          · rw [w2]; exact ⟨_, _, _, rfl, Or.inl ⟨Or.inl rfl, .nomem w1, rfl, rfl⟩⟩
          · rw [w1]; simp only; rw [w2]
            exact ⟨_, _, _, rfl, Or.inr (Or.inl ⟨rfl, _, .new hs hroom f2, w3⟩)⟩
    · rw [f1]
      simp only
      cases hrep : repl with
      | false =>
        exact ⟨_, _, _, rfl, Or.inl ⟨Or.inr (Or.inr rfl), .dup (by simp) (fun _ => rfl) ⟨_, f6⟩, rfl, rfl⟩⟩
      | true =>
        simp only [if_true]
        rw [f3]
        simp only
        by_cases hs : info.sticky = true ∧ ej.val.length < x.2.length ∧ full = true
        · rw [if_pos hs]
          have hs' := hs
          rw [r.sticky] at hs'
          exact ⟨_, _, _, rfl, Or.inl ⟨Or.inl rfl, .replFull _ rfl rfl f6 hs'.1 hs'.2.2 hs'.2.1, rfl, rfl⟩⟩
        · rw [if_neg hs]
          obtain ⟨t', h1, h2, w1, w2, w3, w4⟩ := swap_spec m r hp q1 q2 q3 (q3 ▸ f2) f3 f4 f5
          rw [w1]; simp only; rw [w2]; simp only; rw [w3]
          refine ⟨_, _, _, rfl, Or.inr (Or.inr ⟨rfl, _, .repl _ rfl rfl f6 ?_, w4⟩)⟩
          rintro ⟨a, b, d⟩
          exact hs ⟨by rw [r.sticky]; exact a, d, b⟩

/-- One call: the model's state, the reply and the specification's state. -/
def Sim (k : Kind) (cfg : Cfg) (σ : S) (s : St) (held : Nat → Nat) (op : Op) (res : Option (St × Rep)) : Prop :=
  ∃ s' r σ', res = some (s', r) ∧ Step k cfg.maxSize σ op r (kv s'.heap) σ' ∧ R k cfg σ' s' (heldStep held op r) ∧ Keep held s.heap s'.heap

theorem collInsert_sim (hmx : 4000 ≤ cfg.maxSize) {σ : S} {i : Nat} {repl imem mem full : Bool} {a : Option Attr} (hR : R k cfg σ s held)
    (hL : Legal k cfg σ held (.insert i repl a imem mem full)) :
    Sim k cfg σ s held (.insert i repl a imem mem full) (collInsert k cfg s i repl a imem mem full) := by
  obtain ⟨L, m, hc⟩ := hR
  obtain ⟨-, x, hp, hcol⟩ := hL
  have ins : ∀ (info : Info) (L : List Nat) (c : C), Mem cfg.hash σ.pend s.heap s.nextId held L → CR k cfg s.heap info L c →
      (c.elems.countP fun p => cfg.hash p.1 % 2 ^ 28 == cfg.hash x.1 % 2 ^ 28) < 64 →
      ∃ s' info' rep, insertBy k cfg s info i repl mem full = some (s', info', rep) ∧
        InsOut k cfg σ.pend held s s' i x repl mem full info info' c rep := by
    intro info L c m r hcr
    cases k with
    | set => exact setInsert_sim m r hp hcr repl mem full
    | map => exact mapInsert_sim m r hp hcr repl mem full
  have self : ∀ rep, R k cfg σ s (heldStep held (.insert i repl a imem mem full) rep) := fun rep => ⟨L, m, hc⟩
  unfold collInsert
  rcases hc with ⟨h1, h2, rfl⟩ | ⟨info, c, h1, h2, r⟩
  · rw [h1]
    cases a with
    | none => exact ⟨s, .enoent, σ, rfl, by simp [Step, h2], self _, Keep.refl _ _⟩
    | some a =>
      simp only
      cases himem : imem with
      | false => exact ⟨s, .enomem, σ, by simp, by simp [Step, h2], by rw [himem] at self; exact self _, Keep.refl _ _⟩
      | true =>
        simp only [Bool.not_true, Bool.false_eq_true, if_false]
        obtain ⟨s', info', rep, w1, w2⟩ := ins (newInfo cfg a) [] (fresh cfg.maxSize a) m (CR.fresh hmx _ a) (by simp [fresh])
        rw [w1]
        rcases w2 with ⟨hrep, hi, rfl, rfl⟩ | ⟨rfl, c', hi, L', m', r', hco, hk⟩ | ⟨rfl, c', hi, L', m', r', hco, hk⟩
        · refine ⟨s', rep, σ, ?_, ?_, by rw [himem] at self; exact self _, Keep.refl _ _⟩
          · rcases hrep with rfl | rfl | rfl <;> rfl
          · simp only [Step, h2]
            rw [if_neg (by simp)]
            refine ⟨x, _, some rep, hp, hi, ?_⟩
            rcases hrep with rfl | rfl | rfl <;> simp
        · refine ⟨{ s' with coll := some info' }, .inserted true false, ⟨some c', upd σ.pend i none⟩, rfl, ?_,
            ⟨L', m', Or.inr ⟨info', c', rfl, rfl, r'⟩⟩, hk⟩
          simp only [Step, h2]
          rw [if_neg (by simp)]
          exact ⟨x, c', some .ok, hp, hi, by simp⟩
        · refine ⟨{ s' with coll := some info' }, .inserted true true, ⟨some c', upd σ.pend i none⟩, rfl, ?_,
            ⟨L', m', Or.inr ⟨info', c', rfl, rfl, r'⟩⟩, hk⟩
          simp only [Step, h2]
          rw [if_neg (by simp)]
          exact ⟨x, c', none, hp, hi, by simp⟩
  · rw [h1]
    simp only
    obtain ⟨s', info', rep, w1, w2⟩ := ins info L c m r (by simpa [collisions, h2] using hcol)
    rw [w1]
    rcases w2 with ⟨hrep, hi, rfl, rfl⟩ | ⟨rfl, c', hi, L', m', r', hco, hk⟩ | ⟨rfl, c', hi, L', m', r', hco, hk⟩
    · have hs : ({ s' with coll := some info' } : St) = s' := by cases s'; simp only at h1; rw [h1]
      refine ⟨s', rep, σ, ?_, ?_, self _, Keep.refl _ _⟩
      · rcases hrep with rfl | rfl | rfl <;> simp [hs]
      · simp only [Step, h2]
        refine ⟨x, _, some rep, hp, hi, ?_⟩
        rcases hrep with rfl | rfl | rfl <;> simp
    · refine ⟨{ s' with coll := some info' }, .inserted false false, ⟨some c', upd σ.pend i none⟩, rfl, ?_,
        ⟨L', m', Or.inr ⟨info', c', rfl, rfl, r'⟩⟩, hk⟩
      simp only [Step, h2]
      exact ⟨x, c', some .ok, hp, hi, by simp⟩
    · refine ⟨{ s' with coll := some info' }, .inserted false true, ⟨some c', upd σ.pend i none⟩, rfl, ?_,
        ⟨L', m', Or.inr ⟨info', c', rfl, rfl, r'⟩⟩, hk⟩
      simp only [Step, h2]
      exact ⟨x, c', none, hp, hi, by simp⟩

theorem keep_of {h h' : Heap} (hk : ∀ j, (h' j).isSome → kv h' j = kv h j) : Keep held h h' := fun j _ hs => hk j hs

theorem collDelete_sim {σ : S} {keys : List Key} {drop : Bool} (hR : R k cfg σ s held) :
    Sim k cfg σ s held (.delete keys drop) (collDelete k cfg s keys drop) := by
  have hR0 := hR
  obtain ⟨L, m, hc⟩ := hR
  unfold collDelete
  rcases hc with ⟨h1, h2, rfl⟩ | ⟨info, c, h1, h2, r⟩
  · rw [h1]; exact ⟨s, .enoent, σ, rfl, by simp [Step, h2], hR0, Keep.refl _ _⟩
  · rw [h1]
    simp only
    cases hr : info.root with
    | none =>
      have hnil : L = [] := by rw [r.rids, hr]; rfl
      have hel : c.elems = [] := by
        have := r.vals; rw [hnil] at this; exact (List.nil_perm.mp this)
      refine ⟨s, .elemEnoent, σ, rfl, ?_, hR0, Keep.refl _ _⟩
      simp only [Step, h2]
      rw [if_pos (by
        rw [hel]
        have : ∀ ks : List Key, picks ks [] = [] := by
          intro ks; induction ks with
          | nil => rfl
          | cons a ks ih => simp [picks, lookup, ih]
        rw [this]; simp)]
      simp
    | some t =>
      have hL : L = ids t := by rw [r.rids, hr]; rfl
      obtain ⟨q1, q2⟩ := r.root t hr
      simp only
      obtain ⟨t', out, w1, w2, w3, w4, w5, w6, w7⟩ : ∃ t' out, (if keys = [] then dfs k true t 0 else delKeys k cfg s.heap keys t []) = some (t', out) ∧
          WF k s.heap t' 0 0 ∧ isNode t' = true ∧ (ids t).Perm (out ++ ids t') ∧ out.length = (if keys = [] then c.elems else picks keys c.elems).length ∧
          (vals s.heap (ids t')).Perm (if keys = [] then [] else without c.elems keys) ∧
          (keys ≠ [] → picks keys c.elems = [] → without c.elems keys = c.elems) := by
        by_cases hk : keys = []
        · rw [if_pos hk, if_pos hk, if_pos hk]
          obtain ⟨t', out, w1, w2, w3, w4, w5⟩ := dfs_true (by decide) q2 0
          have hlen : (ids t).length = c.elems.length := by
            rw [← hL, ← r.vals.length_eq, vals_len m.alive]
          have h0 : ids t' = [] := by
            have := w4.length_eq
            rw [List.length_append, w5] at this
            simp only [takes, if_true] at this
            exact List.length_eq_zero_iff.mp (by omega)
          refine ⟨t', out, w1, w2, w3.trans q1, w4, ?_, ?_, fun h => absurd hk h⟩
          · rw [w5]; simp [takes, hlen]
          · rw [h0]; exact List.Perm.refl _
        · rw [if_neg hk, if_neg hk, if_neg hk]
          obtain ⟨t', new, w1, w2, w3, w4, w5, w6, w7⟩ := delKeys_spec (k := k) (cfg := cfg) keys [] (fun j hj e he => m.hv j e he (hL ▸ hj)) q2 (hL ▸ r.vals) r.keys
          refine ⟨t', new, by simpa using w1, w2, w3.trans q1, w4, ?_, w7, ?_⟩
          · rw [← w5, vals_len w6]
          · intro _ hpk
            rw [hpk] at w5
            have hnew : new = [] := List.length_eq_zero_iff.mp (by rw [← vals_len w6, w5]; rfl)
            rw [hnew, List.nil_append] at w4
            have h1 := (without_sub c.elems keys).length_le
            have h2 := w7.length_eq
            have h3 : (vals s.heap (ids t')).length = c.elems.length := by
              rw [← r.vals.length_eq, hL]; exact (vals_perm w4).length_eq.symm
            exact (without_sub c.elems keys).eq_of_length (by omega)
      rw [w1]
      simp only
      obtain ⟨h', u1, u2, u3, u4, u5, u6, u7⟩ := cut_spec m r hr w2 w3 w4 w6
      rw [u1]
      simp only
      by_cases hout : out = []
      · rw [if_pos hout]
        subst hout
        have hgone : (if keys = [] then c.elems else picks keys c.elems) = [] := List.length_eq_zero_iff.mp (by rw [← w5]; rfl)
        have hes : (if keys = [] then [] else without c.elems keys) = c.elems := by
          by_cases hk : keys = []
          · rw [if_pos hk] at hgone ⊢; exact hgone.symm
          · rw [if_neg hk] at hgone ⊢; exact w7 hk hgone
        rw [hes] at u3
        refine ⟨_, .elemEnoent, σ, rfl, ?_, ⟨ids t', u2, Or.inr ⟨_, c, rfl, h2, u3⟩⟩, keep_of u4⟩
        simp only [Step, h2]
        rw [if_pos hgone]; simp
      · rw [if_neg hout]
        have hgone : (if keys = [] then c.elems else picks keys c.elems) ≠ [] := by
          intro h; rw [h] at w5; exact hout (List.length_eq_zero_iff.mp w5)
        have hcc0 : info.ccnt - out.length = 0 ↔ (if keys = [] then [] else without c.elems keys) = [] := by
          rw [r.ccnt, u6, Nat.add_sub_cancel_left]; exact List.length_eq_zero_iff
        by_cases hd : info.ccnt - out.length = 0 ∧ drop = true
        · rw [if_pos hd, if_neg (by
            rintro ⟨-, hx⟩
            have := u5.mpr (hcc0.mp hd.1)
            rw [this] at hx; cases hx)]
          have hes := hcc0.mp hd.1
          rw [hes] at u3
          have hids : ids t' = [] := by
            have := u3.vals
            rw [List.perm_nil] at this
            exact List.length_eq_zero_iff.mp (by rw [← vals_len u2.alive, this]; rfl)
          refine ⟨_, .deleted out.length true, { σ with coll := none }, rfl, ?_, ⟨ids t', u2, Or.inl ⟨rfl, rfl, hids⟩⟩, keep_of u4⟩
          simp only [Step, h2]
          rw [if_neg hgone, w5]
          simp [shrink, hes, hd.2]
        · rw [if_neg hd]
          have hd' : ¬ ((if keys = [] then [] else without c.elems keys) = [] ∧ drop = true) := fun h => hd ⟨hcc0.mpr h.1, h.2⟩
          refine ⟨_, .deleted out.length false, { σ with coll := some _ }, rfl, ?_, ⟨ids t', u2, Or.inr ⟨_, _, rfl, rfl, u3⟩⟩, keep_of u4⟩
          simp only [Step, h2]
          rw [if_neg hgone, w5]
          unfold shrink
          rw [if_neg hd']
          refine ⟨?_, rfl⟩
          congr 1
          exact (decide_eq_false hd').symm

theorem setExist_sim {σ : S} {v : Key} (hR : R .set cfg σ s held) : Sim .set cfg σ s held (.exist v) (setExist cfg s v) := by
  have hR0 := hR
  obtain ⟨L, m, hc⟩ := hR
  unfold setExist
  rcases hc with ⟨h1, h2, rfl⟩ | ⟨info, c, h1, h2, r⟩
  · rw [h1]; exact ⟨s, .enoent, σ, rfl, by simp [Step, h2], hR0, Keep.refl _ _⟩
  · rw [h1]
    simp only
    rw [r.readable]
    cases hrd : c.readable with
    | false => exact ⟨s, .unreadable, σ, by simp, by simp [Step, h2, hrd], hR0, Keep.refl _ _⟩
    | true =>
      simp only [Bool.not_true, Bool.false_eq_true, if_false]
      cases hr : info.root with
      | none =>
        have hel : c.elems = [] := by
          have := r.vals; rw [r.rids, hr] at this; exact (List.nil_perm.mp this)
        exact ⟨s, .exist false, σ, rfl, by simp [Step, h2, hrd, hel], hR0, Keep.refl _ _⟩
      | some t =>
        have hL : L = ids t := by rw [r.rids, hr]; rfl
        obtain ⟨q1, q2⟩ := r.root t hr
        simp only
        rcases find_lookup (hash := cfg.hash) (el := c.elems) (fun j hj e he => m.hv j e he (hL ▸ hj)) q2 (hL ▸ r.vals) r.keys v with
          ⟨f1, f2⟩ | ⟨j, ej, f1, f2, f3, f4, f5, f6⟩
        · rw [f1]
          refine ⟨s, .exist false, σ, rfl, ?_, hR0, Keep.refl _ _⟩
          simp only [Step, h2]
          rw [if_neg (by simp [hrd])]
          refine ⟨?_, trivial⟩
          congr 1
          exact (decide_eq_false (lookup_none.mp f2)).symm
        · rw [f1]
          refine ⟨s, .exist true, σ, rfl, ?_, hR0, Keep.refl _ _⟩
          simp only [Step, h2]
          rw [if_neg (by simp [hrd])]
          refine ⟨?_, trivial⟩
          congr 1
          exact (decide_eq_true (List.mem_map.mpr ⟨_, (lookup_mem f6).1, rfl⟩)).symm


/-- The end of a get. -/
theorem finish_sim {σ : S} (m : Mem cfg.hash σ.pend s.heap s.nextId held L) (hσ : σ.coll = some c)
    (r : CR k cfg s.heap info L c) (hh : ∀ i, held i < 65535) {t t' : T} {out : List Nat} {cap : Nat} {del drop : Bool} (ht : info.root = some t)
    (hne : out ≠ []) (hcap : out.length ≤ cap) (hdd : drop = true → del = true) (hnd : out.Nodup) (hsub : ∀ i ∈ out, i ∈ ids t)
    (hdel : del = true → WF k s.heap t' 0 0 ∧ isNode t' = true ∧ (ids t).Perm (out ++ ids t')) :
    ∃ s' σ' fl dr, finishGet k s info t' out cap del drop = some (s', .elems fl out dr) ∧
      Spec.Got σ c out (vals s.heap out) del drop (.elems fl out dr) (kv s'.heap) σ' ∧
      R k cfg σ' s' (fun i => held i + out.count i) ∧ Keep held s.heap s'.heap := by
  have hL : L = ids t := by rw [r.rids, ht]; rfl
  have halive : ∀ i ∈ out, ∃ e, s.heap i = some e := fun i hi => m.alive i (hL ▸ hsub i hi)
  obtain ⟨h1, k1, k2, k3, k4⟩ := m.refAll hnd (fun i hi => hL ▸ hsub i hi) (fun i _ => hh i)
  have hv1 : ∀ A, vals h1 A = vals s.heap A := fun A => vals_congr (fun j _ => k3 j)
  have r1 := r.heap (h' := h1) (fun j _ => k4 j) (fun j _ => k3 j)
  unfold finishGet
  rw [if_neg (by omega), k1]
  simp only
  cases hd : del with
  | false =>
    have hdr : drop = false := by
      cases hx : drop with
      | false => rfl
      | true => have := hdd hx; rw [hd] at this; cases this
    simp only [Bool.false_eq_true, if_false]
    rw [if_neg hne, hdr]
    simp only [Bool.false_eq_true, and_false, if_false]
    refine ⟨_, σ, info.flags, false, rfl, ⟨?_, hnd, ?_⟩, ⟨L, k2, Or.inr ⟨info, c, rfl, hσ, r1⟩⟩, fun j _ _ => k3 j⟩
    · show out.map (kv h1) = _
      rw [vals_map (fun i hi => k2.alive i (hL ▸ hsub i hi)), hv1]
    · simp [r.flags]
  | true =>
    obtain ⟨w1, w2, w3⟩ := hdel hd
    simp only [if_true]
    obtain ⟨h2, u1, u2, u3, u4, u5, u6, u7⟩ := cut_spec k2 r1 ht (w1.congr (fun x _ => k4 x)) w2 w3 (List.Perm.refl _)
    rw [u1]
    simp only
    rw [if_neg hne]
    have hel : c.elems.Perm (vals s.heap out ++ vals s.heap (ids t')) := by
      refine r.vals.symm.trans ?_
      rw [hL, ← vals_append]; exact vals_perm w3
    have hwo := without_split r.keys hel
    rw [hv1] at u3 u5 u6
    have hidsome : ∀ j ∈ out, (h2 j).isSome := by
      intro j hj
      obtain ⟨e, he⟩ := u2.hld j (by
        have := List.count_pos_iff.mpr hj; omega)
      rw [he]; rfl
    have hmap : out.map (kv h2) = (vals s.heap out).map some := by
      rw [← vals_map halive]
      apply List.map_congr_left
      intro j hj
      rw [u4 j (hidsome j hj), k3]
    have hcc0 : info.ccnt - out.length = 0 ↔ without c.elems ((vals s.heap out).map Prod.fst) = [] := by
      rw [r.ccnt, u6, Nat.add_sub_cancel_left]
      rw [← hwo.length_eq]; exact List.length_eq_zero_iff
    by_cases hx : info.ccnt - out.length = 0 ∧ drop = true
    · rw [if_pos hx]
      have hes := hcc0.mp hx.1
      have hnil : vals s.heap (ids t') = [] := by rw [hes] at hwo; exact List.nil_perm.mp hwo
      have hids : ids t' = [] := by
        have h3 := u3.vals
        rw [hnil, List.perm_nil] at h3
        exact List.length_eq_zero_iff.mp (by rw [← vals_len u2.alive, h3]; rfl)
      refine ⟨_, { σ with coll := none }, info.flags, true, rfl, ⟨hmap, hnd, ?_⟩, ⟨ids t', u2, Or.inl ⟨rfl, rfl, hids⟩⟩, ?_⟩
      · simp [hes, hx.2, shrink, r.flags]
      · intro j _ hj; rw [u4 j hj, k3]
    · rw [if_neg hx]
      have hx' : ¬ (without c.elems ((vals s.heap out).map Prod.fst) = [] ∧ drop = true) := fun h => hx ⟨hcc0.mpr h.1, h.2⟩
      have u3' : CR k cfg h2 { info with root := dropRoot k t', ccnt := info.ccnt - out.length } (ids t')
          { c with elems := without c.elems ((vals s.heap out).map Prod.fst) } := by
        refine ⟨u3.rids, u3.root, u3.vals.trans hwo.symm, without_nodup r.keys _, ?_, u3.mcnt, u3.mpos, u3.ovfl, u3.readable, u3.sticky, u3.flags, ?_⟩
        · have := u3.ccnt; rw [this]; exact hwo.length_eq.symm
        · have := u3.le; rw [hwo.length_eq]; exact this
      refine ⟨_, { σ with coll := some _ }, info.flags, false, rfl, ⟨hmap, hnd, ?_⟩, ⟨ids t', u2, Or.inr ⟨_, _, rfl, rfl, u3'⟩⟩, ?_⟩
      · rw [if_pos rfl]
        unfold shrink
        rw [if_neg hx', r.flags]
        exact ⟨by rw [decide_eq_false hx'], rfl⟩
      · intro j _ hj; rw [u4 j hj, k3]

theorem setGet_spec (m : Mem cfg.hash pend s.heap s.nextId held L) (r : CR .set cfg s.heap info L c) {t : T} (ht : info.root = some t)
    (hne : c.elems ≠ []) (count : Nat) (del hmem : Bool) (rnd : Nat → Nat) (rounds : Nat) :
    (setGet info t count del hmem rnd rounds = some .running ∧ (count ≠ 0 ∧ del = false ∧ 10 * count ≤ c.elems.length)) ∨
    (setGet info t count del hmem rnd rounds = some (.done t []) ∧ (count ≠ 0 ∧ del = false ∧ 10 * count ≤ c.elems.length) ∧ hmem = false) ∨
    ∃ t' out, setGet info t count del hmem rnd rounds = some (.done t' out) ∧ out.length = Spec.takes count c.elems.length ∧ out.Nodup ∧
      (∀ i ∈ out, i ∈ ids t) ∧ (del = true → WF .set s.heap t' 0 0 ∧ isNode t' = true ∧ (ids t).Perm (out ++ ids t')) := by
  have hL : L = ids t := by rw [r.rids, ht]; rfl
  obtain ⟨q1, q2⟩ := r.root t ht
  have hlen : (ids t).length = c.elems.length := by rw [← hL, ← r.vals.length_eq, vals_len m.alive]
  have hnd : (ids t).Nodup := hL ▸ nodup_ids m r
  have hn0 : c.elems.length ≠ 0 := fun h => hne (List.length_eq_zero_iff.mp h)
  unfold setGet
  rw [r.ccnt]
  have htk : HT.takes = Spec.takes := rfl
  by_cases h1 : count ≥ c.elems.length ∨ count = 0
  · rw [if_pos h1]
    right; right
    cases del with
    | true =>
      obtain ⟨t', out, w1, w2, w3, w4, w5⟩ := dfs_true (by decide) q2 count
      rw [w1]
      have hn2 := w4.nodup_iff.mp hnd
      refine ⟨t', out, rfl, by rw [w5, hlen, htk], (List.nodup_append.mp hn2).1, fun i hi => w4.mem_iff.mpr (by simp [hi]), fun _ => ⟨w2, w3.trans q1, w4⟩⟩
    | false =>
      obtain ⟨out, rest, w1, w2, w3⟩ := dfs_false q2 count
      rw [w1]
      have hn2 := w2.nodup_iff.mp hnd
      exact ⟨t, out, rfl, by rw [w3, hlen, htk], (List.nodup_append.mp hn2).1, fun i hi => w2.mem_iff.mpr (by simp [hi]), by simp⟩
  · rw [if_neg h1]
    have htak : Spec.takes count c.elems.length = count := by unfold Spec.takes; rw [if_neg (by omega)]; omega
    cases del with
    | true =>
      simp only [if_true]
      right; right
      obtain ⟨t', new, w1, w2, w3, w4, w5⟩ := randDel_spec rnd count (by decide) q2 c.elems.length 0 [] hlen.symm (by omega)
      rw [w1]
      have hn2 := w4.nodup_iff.mp hnd
      exact ⟨t', new, by simp, by rw [w5, htak], (List.nodup_append.mp hn2).1, fun i hi => w4.mem_iff.mpr (by simp [hi]), fun _ => ⟨w2, w3.trans q1, w4⟩⟩
    | false =>
      simp only [Bool.false_eq_true, if_false]
      by_cases h2 : count ≤ c.elems.length / 10
      · rw [if_pos h2]
        have few : count ≠ 0 ∧ True ∧ 10 * count ≤ c.elems.length := ⟨by omega, trivial, by omega⟩
        cases hmem with
        | false => exact Or.inr (Or.inl ⟨by simp, few, rfl⟩)
        | true =>
          simp only [Bool.not_true, Bool.false_eq_true, if_false]
          rcases randHash_spec rnd (by decide) q2 hnd c.elems.length count (13 * count / 10) hlen.symm (by omega) hn0 rounds 0 (fun _ => []) []
            (by simp) (by simp) (by simp) with w | ⟨res, w1, w2, w3, w4⟩
          · rw [w]; exact Or.inl ⟨rfl, few⟩
          · rw [w1]
            exact Or.inr (Or.inr ⟨t, res, rfl, by rw [w4, htak], w2, w3, by simp⟩)
      · rw [if_neg h2]
        right; right
        obtain ⟨out, p', w1, w2, w3, w4⟩ := sample_spec rnd q1 q2 c.elems.length count 0 (by omega) (by omega) (by omega)
        rw [w1]
        simp only
        have hol : out.length = count := by omega
        obtain ⟨b, b1, b2⟩ := shuffle_spec rnd (out.length - 1) p' out.toArray (by simp; omega)
        rw [b1]
        simp only at b2
        refine ⟨t, b.toList, rfl, ?_, ?_, ?_, by simp⟩
        · rw [b2.length_eq, htak]; exact hol
        · exact b2.nodup_iff.mpr (hnd.sublist w2)
        · intro i hi; exact w2.subset (b2.mem_iff.mp hi)

theorem setElemGet_sim {σ : S} {count : Nat} {del drop mem hmem : Bool} {rnd : Nat → Nat} {rounds : Nat} (hR : R .set cfg σ s held)
    (hL : Legal .set cfg σ held (.getRandom count del drop mem hmem rnd rounds)) :
    Sim .set cfg σ s held (.getRandom count del drop mem hmem rnd rounds) (setElemGet s count del drop mem hmem rnd rounds) := by
  have hR0 := hR
  obtain ⟨L, m, hc⟩ := hR
  obtain ⟨hh, -, hdd⟩ := hL
  unfold setElemGet
  rcases hc with ⟨h1, h2, rfl⟩ | ⟨info, c, h1, h2, r⟩
  · rw [h1]; exact ⟨s, .enoent, σ, rfl, by simp [Step, h2], hR0, Keep.refl _ _⟩
  · rw [h1]
    simp only
    rw [r.readable]
    cases hrd : c.readable with
    | false => exact ⟨s, .unreadable, σ, by simp, by simp [Step, h2, hrd], hR0, Keep.refl _ _⟩
    | true =>
      simp only [Bool.not_true, Bool.false_eq_true, if_false]
      rw [r.ccnt]
      by_cases hel : c.elems = []
      · rw [if_pos (by simp [hel])]
        exact ⟨s, .elemEnoent, σ, rfl, by simp [Step, h2, hrd, hel], hR0, Keep.refl _ _⟩
      · have hn0 : c.elems.length ≠ 0 := fun h => hel (List.length_eq_zero_iff.mp h)
        rw [if_neg hn0]
        cases mem with
        | false => exact ⟨s, .enomem, σ, by simp, by simp [Step, h2, hrd, hel], hR0, Keep.refl _ _⟩
        | true =>
          simp only [Bool.not_true, Bool.false_eq_true, if_false]
          cases hr : info.root with
          | none =>
            exfalso
            have := r.vals; rw [r.rids, hr] at this
            exact hel (List.nil_perm.mp this)
          | some t =>
            simp only
            have hL' : L = ids t := by rw [r.rids, hr]; rfl
            rcases setGet_spec m r hr hel count del hmem rnd rounds with ⟨w1, w2⟩ | ⟨w1, w2, w3⟩ | ⟨t', out, w1, w2, w3, w4, w5⟩
            · rw [w1]
              refine ⟨s, .running, σ, rfl, ?_, hR0, Keep.refl _ _⟩
              simp only [Step, h2]
              rw [if_neg (by simp [hrd]), if_neg hel, if_neg (by simp)]
              exact Or.inr ⟨w2, trivial, Or.inl trivial⟩
            · rw [w1]
              refine ⟨s, .enomem, σ, ?_, ?_, hR0, Keep.refl _ _⟩
              · simp [finishGet, refAll, w2.2.1]
                have hdr : drop = false := by
                  cases hx : drop with
                  | false => rfl
                  | true => have := hdd hx; rw [w2.2.1] at this; cases this
                cases s; simp only at h1; rw [h1]
              · simp only [Step, h2]
                rw [if_neg (by simp [hrd]), if_neg hel, if_neg (by simp)]
                exact Or.inr ⟨w2, trivial, Or.inr ⟨trivial, w3⟩⟩
            · rw [w1]
              simp only
              have hout : out ≠ [] := by
                intro h; rw [h] at w2; unfold Spec.takes at w2
                split at w2 <;> simp at w2 <;> omega
              obtain ⟨s', σ', fl, dr, f1, f2, f3, f4⟩ := finish_sim (cap := if count = 0 ∨ c.elems.length < count then c.elems.length else count)
                m h2 r hh hr hout (by rw [w2]; unfold Spec.takes; split <;> split <;> omega) hdd w3 w4 w5
              refine ⟨s', _, σ', f1, ?_, f3, f4⟩
              simp only [Step, h2]
              rw [if_neg (by simp [hrd]), if_neg hel, if_neg (by simp)]
              refine Or.inl ⟨out, vals s.heap out, ?_, ?_, ?_, f2⟩
              · have halive : ∀ i ∈ out, ∃ e, s.heap i = some e := fun i hi => m.alive i (hL' ▸ w4 i hi)
                have hsubl : ∀ p ∈ vals s.heap out, p ∈ c.elems := by
                  intro p hp
                  obtain ⟨i, hi, hk⟩ := mem_vals.mp hp
                  exact r.vals.mem_iff.mp (mem_vals.mpr ⟨i, hL' ▸ w4 i hi, hk⟩)
                -- distinct elements have distinct contents
                have hinj : ∀ i ∈ ids t, ∀ j ∈ ids t, kv s.heap i = kv s.heap j → i = j := by
                  have hvn : ((ids t).map (kv s.heap)).Nodup := by
                    rw [vals_map (fun i hi => m.alive i (hL' ▸ hi))]
                    have h1 : ((vals s.heap (ids t)).map Prod.fst).Nodup := by
                      rw [← hL']; exact ((r.vals.map Prod.fst).nodup_iff).mpr r.keys
                    have h2 : (vals s.heap (ids t)).Nodup := List.Pairwise.of_map Prod.fst (fun a b hab h => hab (by rw [h])) h1
                    rw [List.Nodup, List.pairwise_map]
                    exact h2.imp (fun hab h => hab (by simpa using h))
                  intro i hi j hj he
                  obtain ⟨a, ha, ha'⟩ := List.getElem_of_mem hi
                  obtain ⟨b, hb, hb'⟩ := List.getElem_of_mem hj
                  have := (List.getElem_inj (xs := (ids t).map (kv s.heap)) (h₀ := by simpa using ha) (h₁ := by simpa using hb) hvn).mp (by simp [ha', hb', he])
                  subst this; rw [← ha', hb']
                have : ((vals s.heap out).map some).Nodup := by
                  rw [← vals_map halive, List.Nodup, List.pairwise_map]
                  exact (List.Pairwise.and_mem.mp w3).imp (fun {a b} h he => h.2.2 (hinj a (w4 a h.1) b (w4 b h.2.1) he))
                exact List.Pairwise.of_map some (fun a b hab h => hab (by rw [h])) this
              · intro p hp
                obtain ⟨i, hi, hk⟩ := mem_vals.mp hp
                exact r.vals.mem_iff.mp (mem_vals.mpr ⟨i, hL' ▸ w4 i hi, hk⟩)
              · rw [vals_len (fun i hi => m.alive i (hL' ▸ w4 i hi))]; exact w2

theorem mapElemGet_sim {σ : S} {fs : List Key} {del drop mem : Bool} (hR : R .map cfg σ s held)
    (hL : Legal .map cfg σ held (.getFields fs del drop mem)) :
    Sim .map cfg σ s held (.getFields fs del drop mem) (mapElemGet cfg s fs del drop mem) := by
  have hR0 := hR
  obtain ⟨L, m, hc⟩ := hR
  obtain ⟨hh, -, hdd, hfn⟩ := hL
  unfold mapElemGet
  rcases hc with ⟨h1, h2, rfl⟩ | ⟨info, c, h1, h2, r⟩
  · rw [h1]; exact ⟨s, .enoent, σ, rfl, by simp [Step, h2], hR0, Keep.refl _ _⟩
  · rw [h1]
    simp only
    rw [r.readable]
    cases hrd : c.readable with
    | false => exact ⟨s, .unreadable, σ, by simp, by simp [Step, h2, hrd], hR0, Keep.refl _ _⟩
    | true =>
      simp only [Bool.not_true, Bool.false_eq_true, if_false]
      rw [r.ccnt]
      by_cases hel : c.elems = []
      · rw [if_pos (by simp [hel])]
        exact ⟨s, .elemEnoent, σ, rfl, by simp [Step, h2, hrd, hel], hR0, Keep.refl _ _⟩
      · have hn0 : c.elems.length ≠ 0 := fun h => hel (List.length_eq_zero_iff.mp h)
        rw [if_neg hn0]
        cases mem with
        | false => exact ⟨s, .enomem, σ, by simp, by simp [Step, h2, hrd, hel], hR0, Keep.refl _ _⟩
        | true =>
          simp only [Bool.not_true, Bool.false_eq_true, if_false]
          cases hr : info.root with
          | none =>
            exfalso
            have := r.vals; rw [r.rids, hr] at this
            exact hel (List.nil_perm.mp this)
          | some t =>
            simp only
            have hL' : L = ids t := by rw [r.rids, hr]; rfl
            obtain ⟨q1, q2⟩ := r.root t hr
            have hnd : (ids t).Nodup := hL' ▸ nodup_ids m r
            have hlen : (ids t).length = c.elems.length := by rw [← hL', ← r.vals.length_eq, vals_len m.alive]
            obtain ⟨t', out, w1, w2, w3, w4, w5, w6⟩ : ∃ t' out, mapGet cfg s.heap t fs del = some (.done t' out) ∧ out.Nodup ∧ (∀ i ∈ out, i ∈ ids t) ∧
                (del = true → WF .map s.heap t' 0 0 ∧ isNode t' = true ∧ (ids t).Perm (out ++ ids t')) ∧
                (if fs = [] then (vals s.heap out).Perm c.elems else vals s.heap out = picks fs c.elems) ∧
                (out = [] → t' = t ∨ (del = true ∧ (vals s.heap (ids t')).Perm c.elems)) := by
              unfold mapGet
              by_cases hf : fs = []
              · rw [if_pos hf]
                simp only [if_pos hf]
                cases del with
                | true =>
                  obtain ⟨t', out, w1, w2, w3, w4, w5⟩ := dfs_true (by decide) q2 0
                  have hn2 := w4.nodup_iff.mp hnd
                  have h0 : ids t' = [] := by
                    have := w4.length_eq
                    rw [List.length_append, w5] at this
                    simp only [HT.takes, if_true] at this
                    exact List.length_eq_zero_iff.mp (by omega)
                  rw [w1]
                  refine ⟨t', out, rfl, (List.nodup_append.mp hn2).1, fun i hi => w4.mem_iff.mpr (by simp [hi]), fun _ => ⟨w2, w3.trans q1, w4⟩, ?_, ?_⟩
                  · rw [h0, List.append_nil] at w4
                    exact (vals_perm w4.symm).trans (hL' ▸ r.vals)
                  · intro ho
                    exfalso
                    rw [ho] at w5
                    simp [HT.takes] at w5
                    omega
                | false =>
                  obtain ⟨out, rest, w1, w2, w3⟩ := dfs_false q2 0
                  have hn2 := w2.nodup_iff.mp hnd
                  rw [w1]
                  refine ⟨t, out, rfl, (List.nodup_append.mp hn2).1, fun i hi => w2.mem_iff.mpr (by simp [hi]), by simp, ?_, fun _ => Or.inl rfl⟩
                  have h0 : rest = [] := by
                    have := w2.length_eq
                    rw [List.length_append, w3] at this
                    simp only [HT.takes, if_true] at this
                    exact List.length_eq_zero_iff.mp (by omega)
                  rw [h0, List.append_nil] at w2
                  exact (vals_perm w2.symm).trans (hL' ▸ r.vals)
              · rw [if_neg hf]
                simp only [if_neg hf]
                cases del with
                | true =>
                  obtain ⟨t', new, w1, w2, w3, w4, w5, w6, w7⟩ := delKeys_spec (k := .map) (cfg := cfg) fs [] (fun j hj e he => m.hv j e he (hL' ▸ hj)) q2 (hL' ▸ r.vals) r.keys
                  have hn2 := w4.nodup_iff.mp hnd
                  rw [w1]
                  refine ⟨t', new, rfl, (List.nodup_append.mp hn2).1, fun i hi => w4.mem_iff.mpr (by simp [hi]), fun _ => ⟨w2, w3.trans q1, w4⟩, w5, ?_⟩
                  intro ho
                  rw [ho, List.nil_append] at w4
                  exact Or.inr ⟨rfl, (vals_perm w4.symm).trans (hL' ▸ r.vals)⟩
                | false =>
                  obtain ⟨new, w1, w2, w3, w4, w5⟩ := findKeys_spec (cfg := cfg) fs [] (fun j hj e he => m.hv j e he (hL' ▸ hj)) q2 (hL' ▸ r.vals) r.keys (hfn rfl)
                  simp only [Bool.false_eq_true, if_false]
                  rw [w1]
                  exact ⟨t, new, rfl, w5, w2, by simp, w3, fun _ => Or.inl rfl⟩
            rw [w1]
            simp only
            by_cases hout : out = []
            · have hkeep : ∃ info', finishGet .map s info t' out (if fs.length = 0 ∨ c.elems.length < fs.length then c.elems.length else fs.length) del drop =
                  some ({ s with coll := some info' }, .elemEnoent) ∧ ∃ L', Mem cfg.hash σ.pend s.heap s.nextId held L' ∧ CR .map cfg s.heap info' L' c := by
                subst hout
                cases hd : del with
                | false =>
                  refine ⟨info, by simp [finishGet, refAll], L, m, r⟩
                | true =>
                  obtain ⟨v1, v2, v3⟩ := w4 hd
                  obtain ⟨h', u1, u2, u3, u4, u5, u6, u7⟩ := cut_spec m r hr v1 v2 v3 (List.Perm.refl _)
                  simp only [unlinkAll] at u1
                  injection u1 with u1; subst u1
                  refine ⟨{ info with root := dropRoot .map t', ccnt := info.ccnt - ([] : List Nat).length }, by simp [finishGet, refAll, unlinkAll], ids t', u2, ?_⟩
                  have hpv : (vals s.heap (ids t')).Perm c.elems := by
                    rw [List.nil_append] at v3
                    exact (vals_perm v3.symm).trans (hL' ▸ r.vals)
                  refine ⟨u3.rids, u3.root, hpv, r.keys, by simp [r.ccnt], r.mcnt, r.mpos, r.ovfl, r.readable, r.sticky, r.flags, r.le⟩
              obtain ⟨info', g1, L', g2, g3⟩ := hkeep
              rw [g1]
              refine ⟨_, .elemEnoent, σ, rfl, ?_, ⟨L', g2, Or.inr ⟨info', c, rfl, h2, g3⟩⟩, Keep.refl _ _⟩
              simp only [Step, h2]
              rw [if_neg (by simp [hrd]), if_neg hel, if_neg (by simp)]
              refine ⟨vals s.heap out, w5, Or.inl ⟨by rw [hout]; rfl, by simp⟩⟩
            · have halive : ∀ i ∈ out, ∃ e, s.heap i = some e := fun i hi => m.alive i (hL' ▸ w3 i hi)
              have hole : out.length ≤ c.elems.length := by
                rw [← hlen]
                exact nodup_length_le w2 w3
              have hofs : fs ≠ [] → out.length ≤ fs.length := by
                intro hf
                rw [if_neg hf] at w5
                rw [← vals_len halive, w5]; exact picks_len _ _
              obtain ⟨s', σ', fl, dr, f1, f2, f3, f4⟩ := finish_sim (cap := if fs.length = 0 ∨ c.elems.length < fs.length then c.elems.length else fs.length)
                m h2 r hh hr hout (by
                  split
                  · exact hole
                  · rename_i hx
                    exact hofs (fun h => hx (Or.inl (by rw [h]; rfl)))) hdd w2 w3 w4
              refine ⟨s', _, σ', f1, ?_, f3, f4⟩
              simp only [Step, h2]
              rw [if_neg (by simp [hrd]), if_neg hel, if_neg (by simp)]
              refine ⟨vals s.heap out, w5, Or.inr ⟨?_, out, f2⟩⟩
              intro hx
              exact hout (List.length_eq_zero_iff.mp (by rw [← vals_len halive, hx]; rfl))


theorem mapUpdate_sim {σ : S} {f v : List Nat} {emem full : Bool} (hR : R .map cfg σ s held) :
    Sim .map cfg σ s held (.update f v emem full) (mapUpdate cfg s f v emem full) := by
  have hR0 := hR
  obtain ⟨L, m, hc⟩ := hR
  unfold mapUpdate
  rcases hc with ⟨h1, h2, rfl⟩ | ⟨info, c, h1, h2, r⟩
  · rw [h1]; exact ⟨s, .enoent, σ, rfl, by simp [Step, h2], hR0, Keep.refl _ _⟩
  · rw [h1]
    simp only
    cases hr : info.root with
    | none =>
      have hel : c.elems = [] := by
        have := r.vals; rw [r.rids, hr] at this; exact (List.nil_perm.mp this)
      exact ⟨s, .elemEnoent, σ, rfl, by simp [Step, h2, hel, lookup], hR0, Keep.refl _ _⟩
    | some t =>
      have hL : L = ids t := by rw [r.rids, hr]; rfl
      obtain ⟨q1, q2⟩ := r.root t hr
      simp only
      rcases find_lookup (hash := cfg.hash) (el := c.elems) (fun j hj e he => m.hv j e he (hL ▸ hj)) q2 (hL ▸ r.vals) r.keys f with
        ⟨f1, f2⟩ | ⟨j, ej, f1, f2, f3, f4, f5, f6⟩
      · rw [f1]
        exact ⟨s, .elemEnoent, σ, rfl, by simp [Step, h2, f2], hR0, Keep.refl _ _⟩
      · rw [f1]
        simp only
        rw [f3]
        simp only
        have hjL : j ∈ L := hL ▸ f2
        have hel : c.elems.Perm ((f, ej.val) :: without c.elems [f]) := by
          have := split_one r.keys (lookup_mem f6).1
          exact this
        by_cases hin : ej.refcount = 0 ∧ ej.val.length = v.length
        · rw [if_pos hin]
          have hj0 : held j = 0 := by rw [← m.ref j ej f3]; exact hin.1
          have m' := m.write hjL f3 v
          refine ⟨_, .ok, { σ with coll := some { c with elems := (f, v) :: without c.elems [f] } }, rfl, ?_, ⟨L, m', Or.inr ⟨info, _, rfl, rfl, ?_⟩⟩, ?_⟩
          · simp only [Step, h2, f6]
            refine Or.inl ⟨trivial, ?_, by simp⟩
            rintro ⟨-, -, hx⟩; omega
          · have hv0 : ∀ A : List Nat, (∀ i ∈ A, i ≠ j) → vals (upd s.heap j (some { ej with val := v })) A = vals s.heap A := by
              intro A hA; apply vals_congr; intro i hi; simp [kv, upd_ne _ _ (hA i hi)]
            have hnd := nodup_ids m r
            have hpe := List.perm_cons_erase hjL
            have hje : ∀ i ∈ L.erase j, i ≠ j := by
              intro i hi he; subst he
              have := hpe.nodup_iff.mp hnd
              rw [List.nodup_cons] at this; exact this.1 hi
            refine ⟨r.rids, ?_, ?_, ?_, ?_, r.mcnt, r.mpos, r.ovfl, r.readable, r.sticky, r.flags, ?_⟩
            · intro t' ht'
              obtain ⟨w1, w2⟩ := r.root t' ht'
              refine ⟨w1, w2.congr ?_⟩
              intro x _
              by_cases hx : x = j
              · subst hx; simp [upd_self, f3]
              · simp [upd_ne _ _ hx]
            · refine (vals_perm hpe).trans ?_
              rw [vals_cons (x := (f, v)) (by simp [kv, upd_self, f4]), hv0 _ hje]
              refine List.Perm.cons _ ?_
              have h3 : c.elems.Perm ((f, ej.val) :: vals s.heap (L.erase j)) := by
                refine r.vals.symm.trans ((vals_perm hpe).trans ?_)
                rw [vals_cons (x := (f, ej.val)) (by simp [kv, f3, f4])]
              exact (without_split (outs := [(f, ej.val)]) r.keys h3).symm
            · have := (hel.map Prod.fst).nodup_iff.mp r.keys
              simpa using this
            · rw [r.ccnt, hel.length_eq]; rfl
            · have := r.le; rw [hel.length_eq] at this; exact this
          · intro i hi _
            have : i ≠ j := by rintro rfl; omega
            simp [kv, upd_ne _ _ this]
        · rw [if_neg hin]
          by_cases hs : info.sticky = true ∧ ej.val.length < v.length ∧ full = true
          · rw [if_pos hs]
            rw [r.sticky] at hs
            refine ⟨s, .enomem, σ, rfl, ?_, hR0, Keep.refl _ _⟩
            simp only [Step, h2, f6]
            exact Or.inr ⟨trivial, trivial, Or.inr ⟨hs.1, hs.2.2, hs.2.1⟩⟩
          · rw [if_neg hs]
            cases emem with
            | false =>
              refine ⟨s, .enomem, σ, by simp, ?_, hR0, Keep.refl _ _⟩
              simp [Step, h2, f6]
            | true =>
              simp only [Bool.not_true, Bool.false_eq_true, if_false, elemAlloc]
              have hnf := m.next_free
              have ma := m.alloc ej.key v
              have hLn : ∀ i ∈ L, i ≠ s.nextId := fun i hi he => hnf.2.1 (he ▸ hi)
              have ra : CR .map cfg (upd s.heap s.nextId (some ⟨0, false, 0, ej.key, v⟩)) info L c :=
                r.heap (fun i hi => by rw [upd_ne _ _ (hLn i hi)]) (fun i hi => by simp [kv, upd_ne _ _ (hLn i hi)])
              obtain ⟨w1, w2⟩ := ra.root t hr
              have hjn : j ≠ s.nextId := hLn j hjL
              obtain ⟨t', h1', h2', e1, e2, e3, L', e4, e5, e6, e7⟩ := swap_spec
                (s := { s with heap := upd s.heap s.nextId (some ⟨0, false, 0, ej.key, v⟩), nextId := s.nextId + 1 })
                (i := s.nextId) (old := j) (x := (ej.key, v)) (eo := ej) ma ra (upd_self _ _ _) w1 w2 hL.symm hjL
                (by simp only; rw [upd_ne _ _ hjn]; exact f3) rfl (by rw [f5, f4])
              simp only [f4] at e1 e2
              rw [e1]
              simp only
              rw [f5, f4, e2]
              simp only
              rw [e3]
              refine ⟨_, .ok, { σ with coll := some { c with elems := (f, v) :: without c.elems [f] } }, rfl, ?_, ⟨L', ?_, Or.inr ⟨_, _, rfl, rfl, ?_⟩⟩, ?_⟩
              · simp only [Step, h2, f6]
                refine Or.inl ⟨trivial, ?_, by simp⟩
                rintro ⟨a, b, d⟩
                exact hs ⟨by rw [r.sticky]; exact a, d, b⟩
              · have : upd (upd σ.pend s.nextId (some (ej.key, v))) s.nextId none = σ.pend := by
                  funext i
                  by_cases hi : i = s.nextId
                  · subst hi; rw [upd_self, hnf.2.2.1]
                  · rw [upd_ne _ _ hi, upd_ne _ _ hi]
                rw [this] at e4; exact e4
              · rw [f4] at e5; exact e5
              · intro i hi hsome
                rw [e7 i hi hsome]
                have : i ≠ s.nextId := by rintro rfl; have := hnf.2.2.2; omega
                simp [kv, upd_ne _ _ this]

theorem remove_sim {σ : S} (hR : R k cfg σ s held) : Sim k cfg σ s held .remove (remove k s) := by
  have hR0 := hR
  obtain ⟨L, m, hc⟩ := hR
  unfold remove
  rcases hc with ⟨h1, h2, rfl⟩ | ⟨info, c, h1, h2, r⟩
  · rw [h1]; exact ⟨s, .enoent, σ, rfl, by simp [Step, h2], hR0, Keep.refl _ _⟩
  · rw [h1]
    simp only
    cases hr : info.root with
    | none =>
      have hL : L = [] := by rw [r.rids, hr]; rfl
      exact ⟨_, .ok, { σ with coll := none }, rfl, by simp [Step, h2], ⟨L, m, Or.inl ⟨rfl, rfl, hL⟩⟩, Keep.refl _ _⟩
    | some t =>
      have hL : L = ids t := by rw [r.rids, hr]; rfl
      obtain ⟨q1, q2⟩ := r.root t hr
      simp only
      obtain ⟨t', out, w1, w2, w3, w4, w5⟩ := dfs_true (by decide) q2 0
      have h0 : ids t' = [] := by
        have := w4.length_eq
        rw [List.length_append, w5] at this
        simp only [HT.takes, if_true] at this
        exact List.length_eq_zero_iff.mp (by omega)
      rw [w1]
      simp only
      obtain ⟨h', u1, u2, u3, u4, u5, u6, u7⟩ := cut_spec m r hr w2 (w3.trans q1) w4 (List.Perm.refl _)
      rw [u1]
      exact ⟨_, .ok, { σ with coll := none }, rfl, by simp [Step, h2], ⟨_, u2, Or.inl ⟨rfl, rfl, h0⟩⟩, keep_of u4⟩

theorem setattr_sim (hmx : 4000 ≤ cfg.maxSize) {σ : S} {mc : Option Int} {o : Option Nat} {rd : Option Bool} (hR : R k cfg σ s held) :
    Sim k cfg σ s held (.setattr mc o rd) (setattr cfg s mc o rd) := by
  have hR0 := hR
  obtain ⟨L, m, hc⟩ := hR
  unfold setattr
  rcases hc with ⟨h1, h2, rfl⟩ | ⟨info, c, h1, h2, r⟩
  · rw [h1]; exact ⟨s, .enoent, σ, rfl, by simp [Step, h2], hR0, Keep.refl _ _⟩
  · rw [h1]
    simp only
    have hb1 : (∃ x, mc.map (realMaxcount cfg.maxSize) = some x ∧ x > 0 ∧ x < (info.ccnt : Int)) ↔
        ∃ x n, mc = some x ∧ wantCap cfg.maxSize x = some n ∧ n < c.elems.length := by
      rw [r.ccnt]
      constructor
      · rintro ⟨x, e1, e2, e3⟩
        cases mc with
        | none => cases e1
        | some y =>
          simp only [Option.map_some, Option.some.injEq] at e1
          rw [realMax_want] at e1
          cases hw : wantCap cfg.maxSize y with
          | none => rw [hw] at e1; simp only at e1; omega
          | some n => rw [hw] at e1; simp only at e1; exact ⟨y, n, rfl, hw, by omega⟩
      · rintro ⟨x, n, rfl, e2, e3⟩
        refine ⟨n, by simp [realMax_want, e2], ?_, by omega⟩
        have := (want_pos hmx e2).1; omega
    by_cases b1 : ∃ x, mc.map (realMaxcount cfg.maxSize) = some x ∧ x > 0 ∧ x < (info.ccnt : Int)
    · rw [if_pos b1]
      refine ⟨s, .ebadvalue, σ, rfl, ?_, hR0, Keep.refl _ _⟩
      simp only [Step, h2]
      exact Or.inl ⟨Or.inl (hb1.mp b1), trivial, trivial⟩
    · rw [if_neg b1]
      by_cases b2 : ∃ x, o = some x ∧ x ≠ ovflError
      · rw [if_pos b2]
        refine ⟨s, .ebadvalue, σ, rfl, ?_, hR0, Keep.refl _ _⟩
        simp only [Step, h2]
        exact Or.inl ⟨Or.inr (Or.inl b2), trivial, trivial⟩
      · rw [if_neg b2]
        by_cases b3 : rd = some false
        · rw [if_pos b3]
          refine ⟨s, .ebadvalue, σ, rfl, ?_, hR0, Keep.refl _ _⟩
          simp only [Step, h2]
          exact Or.inl ⟨Or.inr (Or.inr b3), trivial, trivial⟩
        · rw [if_neg b3]
          refine ⟨_, .ok, { σ with coll := some (Spec.setAttrs cfg.maxSize c mc rd) }, rfl, ?_, ⟨L, m, Or.inr ⟨_, _, rfl, rfl, ?_⟩⟩, Keep.refl _ _⟩
          · simp only [Step, h2]
            refine Or.inr ⟨?_, trivial, trivial⟩
            rintro (h | h | h)
            · exact b1 (hb1.mpr h)
            · exact b2 h
            · exact b3 h
          · have hle : c.elems.length ≤ (Spec.setAttrs cfg.maxSize c mc rd).cap cfg.maxSize := by
              unfold Spec.setAttrs C.cap
              simp only
              cases hmc : mc with
              | none => exact r.le
              | some x =>
                simp only
                cases hw : wantCap cfg.maxSize x with
                | none =>
                  have := r.le
                  unfold C.cap at this
                  simp only
                  cases hq : c.maxcount with
                  | none => rw [hq] at this; exact this
                  | some n => rw [hq] at this; have h9 := (r.mpos n hq).2; simp only at this ⊢; omega
                | some n =>
                  simp only
                  rcases Nat.lt_or_ge n c.elems.length with hlt | hge
                  · exact absurd (hb1.mpr ⟨x, n, hmc, hw, hlt⟩) b1
                  · exact hge
            have ho : ∀ x, o = some x → x = ovflError := fun x hx => Classical.byContradiction fun hne => b2 ⟨x, hx, hne⟩
            cases mc with
            | none =>
              cases o with
              | none =>
                cases rd with
                | none => exact ⟨r.rids, r.root, r.vals, r.keys, r.ccnt, r.mcnt, r.mpos, r.ovfl, r.readable, r.sticky, r.flags, hle⟩
                | some b => exact ⟨r.rids, r.root, r.vals, r.keys, r.ccnt, r.mcnt, r.mpos, r.ovfl, rfl, r.sticky, r.flags, hle⟩
              | some x =>
                have hx := ho x rfl
                cases rd with
                | none => exact ⟨r.rids, r.root, r.vals, r.keys, r.ccnt, r.mcnt, r.mpos, hx, r.readable, r.sticky, r.flags, hle⟩
                | some b => exact ⟨r.rids, r.root, r.vals, r.keys, r.ccnt, r.mcnt, r.mpos, hx, rfl, r.sticky, r.flags, hle⟩
            | some y =>
              have hy : realMaxcount cfg.maxSize y = (match wantCap cfg.maxSize y with | some m => (m : Int) | none => -1) := realMax_want _ _
              have hp : ∀ n, wantCap cfg.maxSize y = some n → 1 ≤ n ∧ n ≤ cfg.maxSize := fun n hn => want_pos hmx hn
              cases o with
              | none =>
                cases rd with
                | none => exact ⟨r.rids, r.root, r.vals, r.keys, r.ccnt, hy, hp, r.ovfl, r.readable, r.sticky, r.flags, hle⟩
                | some b => exact ⟨r.rids, r.root, r.vals, r.keys, r.ccnt, hy, hp, r.ovfl, rfl, r.sticky, r.flags, hle⟩
              | some x =>
                have hx := ho x rfl
                cases rd with
                | none => exact ⟨r.rids, r.root, r.vals, r.keys, r.ccnt, hy, hp, hx, r.readable, r.sticky, r.flags, hle⟩
                | some b => exact ⟨r.rids, r.root, r.vals, r.keys, r.ccnt, hy, hp, hx, rfl, r.sticky, r.flags, hle⟩

theorem R_init (k : Kind) (cfg : Cfg) : R k cfg start init (fun _ => 0) := by
  refine ⟨[], ⟨?_, ?_, ?_, ?_, ?_, ?_, ?_, ?_⟩, Or.inl ⟨rfl, rfl, rfl⟩⟩
  · intro i e he; cases he
  · intro i e he; cases he
  · intro i e he; cases he
  · intro i e he; cases he
  · intro i hi; cases hi
  · intro i x hx; cases hx
  · intro i hi; omega
  · intro i e he; cases he

theorem step_sim (hmx : 4000 ≤ cfg.maxSize) {σ : S} {op : Op} (hR : R k cfg σ s held) (hL : Legal k cfg σ held op) :
    Sim k cfg σ s held op (step k cfg s op) := by
  have hR0 := hR
  cases op with
  | create a mem =>
    obtain ⟨L, m, hc⟩ := hR
    show Sim k cfg σ s held _ (create cfg s a mem)
    unfold create
    rcases hc with ⟨h1, h2, rfl⟩ | ⟨info, c, h1, h2, r⟩
    · rw [h1]
      cases mem with
      | true =>
        exact ⟨_, .ok, { σ with coll := some (fresh cfg.maxSize a) }, rfl, by simp [Step, h2], ⟨[], m, Or.inr ⟨_, _, rfl, rfl, CR.fresh hmx _ a⟩⟩, Keep.refl _ _⟩
      | false => exact ⟨s, .enomem, σ, rfl, by simp [Step, h2], hR0, Keep.refl _ _⟩
    · rw [h1]; exact ⟨s, .eexists, σ, rfl, by simp [Step, h2], hR0, Keep.refl _ _⟩
  | alloc key v =>
    obtain ⟨L, m, hc⟩ := hR
    have hnf := m.next_free
    refine ⟨_, _, { σ with pend := upd σ.pend s.nextId (some (key, v)) }, rfl, ⟨s.nextId, hnf.2.2.1, rfl, rfl⟩, ⟨L, m.alloc key v, ?_⟩, m.alloc_keep _⟩
    rcases hc with ⟨h1, h2, rfl⟩ | ⟨info, c, h1, h2, r⟩
    · exact Or.inl ⟨h1, h2, rfl⟩
    · refine Or.inr ⟨info, c, h1, h2, ?_⟩
      have hLn : ∀ i ∈ L, i ≠ s.nextId := fun i hi he => hnf.2.1 (he ▸ hi)
      exact r.heap (fun i hi => by simp only [elemAlloc]; rw [upd_ne _ _ (hLn i hi)]) (fun i hi => by simp [elemAlloc, kv, upd_ne _ _ (hLn i hi)])
  | free i =>
    obtain ⟨L, m, hc⟩ := hR
    obtain ⟨-, hp⟩ := hL
    obtain ⟨x, hx⟩ := Option.isSome_iff_exists.mp hp
    obtain ⟨k1, ⟨e, e1, e2⟩, k3, k4⟩ := m.free hx
    show Sim k cfg σ s held _ (free s i)
    unfold free
    rw [e1]
    simp only [e2, Bool.false_eq_true, if_false, k1, Option.map_some]
    refine ⟨_, .ok, { σ with pend := upd σ.pend i none }, rfl, ⟨rfl, rfl⟩, ⟨L, k3, ?_⟩, k4⟩
    have hni := (m.pnd i x hx).1
    rcases hc with ⟨h1, h2, rfl⟩ | ⟨info, c, h1, h2, r⟩
    · exact Or.inl ⟨h1, h2, rfl⟩
    · refine Or.inr ⟨info, c, h1, h2, ?_⟩
      have hLn : ∀ j ∈ L, j ≠ i := fun j hj he => hni (he ▸ hj)
      exact r.heap (fun j hj => by simp only; rw [upd_ne _ _ (hLn j hj)]) (fun j hj => by simp [kv, upd_ne _ _ (hLn j hj)])
  | insert i repl a imem mem full => exact collInsert_sim hmx hR hL
  | update f v emem full => obtain ⟨-, rfl⟩ := hL; exact mapUpdate_sim hR
  | delete keys drop => exact collDelete_sim hR
  | exist v => obtain ⟨-, rfl⟩ := hL; exact setExist_sim hR
  | getRandom count del drop mem hmem rnd rounds => obtain ⟨h1, rfl, h2⟩ := hL; exact setElemGet_sim hR ⟨h1, rfl, h2⟩
  | getFields fs del drop mem => obtain ⟨h1, rfl, h2⟩ := hL; exact mapElemGet_sim hR ⟨h1, rfl, h2⟩
  | release i =>
    obtain ⟨L, m, hc⟩ := hR
    obtain ⟨h', k1, k2, k3, k4⟩ := m.release hL.2
    refine ⟨{ s with heap := h' }, .ok, σ, by simp [step, k1], ⟨rfl, rfl⟩, ⟨L, k2, ?_⟩, keep_of k3⟩
    rcases hc with ⟨h1, h2, rfl⟩ | ⟨info, c, h1, h2, r⟩
    · exact Or.inl ⟨h1, h2, rfl⟩
    · exact Or.inr ⟨info, c, h1, h2, r.heap (fun j hj => (k4 j hj).1) (fun j hj => (k4 j hj).2)⟩
  | setattr mc o rd => exact setattr_sim hmx hR
  | getattr =>
    obtain ⟨L, m, hc⟩ := hR
    show Sim k cfg σ s held _ (getattr cfg s)
    unfold getattr
    rcases hc with ⟨h1, h2, rfl⟩ | ⟨info, c, h1, h2, r⟩
    · rw [h1]; exact ⟨s, .enoent, σ, rfl, by simp [Step, h2], hR0, Keep.refl _ _⟩
    · rw [h1]
      simp only
      rw [r.cap, r.ccnt, r.ovfl, r.readable]
      exact ⟨s, _, σ, rfl, by simp [Step, h2], hR0, Keep.refl _ _⟩
  | remove => exact remove_sim hR

end
end Verif.HT
