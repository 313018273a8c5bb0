import Verif.Spec.Restart
/-! # Lemmas: with flushes without delay, the server is one map across restarts -/
namespace Verif.Restart.Lemmas
open Verif.Restart Verif.Restart.Spec

/-- One item for a key. -/
def U (l : List It) : Prop := ∀ a ∈ l, ∀ b ∈ l, a.key = b.key → a = b

/-- What a state holds as a map. -/
def V (pfx : Bytes → Bytes) (s : St) (m : Map) : Prop :=
  ∀ k c, m k = some c ↔ ∃ it ∈ s.items, it.key = k ∧ valid pfx s it = true ∧ c = (it.value, it.cas)

structure R0 (pfx : Bytes → Bytes) (m : Map) (s : St) : Prop where
  u : U s.items
  time : ∀ it ∈ s.items, it.time ≤ s.now
  now : 2 ≤ s.now
  old : s.old < s.now
  pold : ∀ p, s.pold p < s.now
  v : V pfx s m

/-- The effect of a record on the map. -/
def redoMap (pfx : Bytes → Bytes) (m : Map) : Rec → Map
  | .link k v cas => m.put k (some (v, cas))
  | .unlink k => m.put k none
  | .flush scope => fun k => if inScope pfx scope k = true then none else m k

theorem map_ext {m m' : Map} (h : ∀ k c, m k = some c ↔ m' k = some c) : m = m' := by
  funext k
  cases hm : m k with
  | none =>
    cases hm' : m' k with
    | none => rfl
    | some c => exact absurd ((h k c).2 hm') (by rw [hm]; simp)
  | some c => exact ((h k c).1 hm).symm

theorem V.unique {pfx s m m'} (h : V pfx s m) (h' : V pfx s m') : m = m' :=
  map_ext fun k c => (h k c).trans (h' k c).symm

theorem V.none {pfx s m k} (h : V pfx s m) : m k = none ↔ ∀ it ∈ s.items, it.key = k → valid pfx s it = false := by
  constructor
  · intro hm it hit hk
    cases hv : valid pfx s it with
    | false => rfl
    | true => exact absurd ((h k _).2 ⟨it, hit, hk, hv, rfl⟩) (by rw [hm]; simp)
  · intro hh
    cases hm : m k with
    | none => rfl
    | some c =>
      obtain ⟨it, hit, hk, hv, -⟩ := (h k c).1 hm
      rw [hh it hit hk] at hv; cases hv

theorem find_some {l k it} (h : find l k = some it) : it ∈ l ∧ it.key = k := by
  unfold find at h
  exact ⟨List.mem_of_find?_eq_some h, by simpa using List.find?_some h⟩

theorem find_none {l k} (h : find l k = none) : ∀ it ∈ l, it.key ≠ k := by
  unfold find at h
  intro it hit
  simpa using List.find?_eq_none.1 h it hit

theorem mem_erase {l k it} : it ∈ erase l k ↔ it ∈ l ∧ it.key ≠ k := by
  unfold erase; simp [List.mem_filter]

theorem U.filter {l} (h : U l) (p : It → Bool) : U (l.filter p) :=
  fun a ha b hb e => h a (List.mem_filter.1 ha).1 b (List.mem_filter.1 hb).1 e

theorem valid_now {pfx} {s : St} {it : It} (hold : s.old < s.now) (hp : ∀ p, s.pold p < s.now) (ht : it.time = s.now) :
    valid pfx s it = true := by
  unfold valid flushedBy
  have := hp (pfx it.key)
  simp only [Bool.and_eq_true, Bool.not_eq_true', Bool.and_eq_false_iff, decide_eq_false_iff_not]
  constructor
  · right; omega
  · right; omega

theorem valid_congr {pfx} {s s' : St} {it : It} (hn : s'.now = s.now) (ho : s'.old = s.old)
    (hp : s'.pold (pfx it.key) = s.pold (pfx it.key)) : valid pfx s' it = valid pfx s it := by
  unfold valid; rw [hn, ho, hp]

theorem known_mem {pfx l} {it : It} (h : it ∈ l) : known pfx l (pfx it.key) = true := by
  unfold known
  simp only [Bool.or_eq_true, List.any_eq_true]
  right; exact ⟨it, h, by simp⟩

theorem settle_valid {pfx} {s : St} {it : It} (h : it ∈ s.items) : valid pfx (settle pfx s) it = valid pfx s it := by
  apply valid_congr
  · rfl
  · rfl
  · unfold settle; simp only [known_mem h, if_true]

theorem settle_R0 {pfx m} {s : St} (h : R0 pfx m s) : R0 pfx m (settle pfx s) := by
  refine ⟨h.u, h.time, h.now, h.old, ?_, ?_⟩
  · intro p
    unfold settle
    simp only
    have := h.pold p
    have := h.now
    split <;> omega
  · intro k c
    rw [h.v k c]
    constructor
    · rintro ⟨it, hit, hk, hv, hc⟩
      exact ⟨it, hit, hk, by rw [settle_valid hit]; exact hv, hc⟩
    · rintro ⟨it, hit, hk, hv, hc⟩
      have hit' : it ∈ s.items := hit
      exact ⟨it, hit', hk, by rw [settle_valid hit'] at hv; exact hv, hc⟩

/-- Taking items away. -/
theorem filter_R0 {pfx m} {s : St} (h : R0 pfx m s) (p : It → Bool) (m' : Map)
    (hm : ∀ k c, m' k = some c ↔ ∃ it ∈ s.items, p it = true ∧ it.key = k ∧ valid pfx s it = true ∧ c = (it.value, it.cas)) :
    R0 pfx m' { s with items := s.items.filter p } := by
  refine ⟨h.u.filter p, ?_, h.now, h.old, h.pold, ?_⟩
  · intro it hit; exact h.time it (List.mem_filter.1 hit).1
  · intro k c
    rw [hm k c]
    constructor
    · rintro ⟨it, hit, hp, hk, hv, hc⟩
      exact ⟨it, List.mem_filter.2 ⟨hit, hp⟩, hk, hv, hc⟩
    · rintro ⟨it, hit, hk, hv, hc⟩
      obtain ⟨h1, h2⟩ := List.mem_filter.1 hit
      exact ⟨it, h1, h2, hk, hv, hc⟩

theorem unlink_R0 {pfx m} {s : St} (h : R0 pfx m s) (k : Bytes) : R0 pfx (m.put k none) (unlink pfx s k) := by
  unfold unlink
  apply settle_R0
  unfold erase
  apply filter_R0 h
  intro k' c
  unfold Map.put
  by_cases hk : k' = k
  · simp only [hk, if_true]
    constructor
    · intro h; cases h
    · rintro ⟨it, -, hp, rfl, -⟩; simp at hp
  · simp only [hk, if_false]
    rw [h.v k' c]
    constructor
    · rintro ⟨it, hit, rfl, hv, hc⟩; exact ⟨it, hit, by simpa using hk, rfl, hv, hc⟩
    · rintro ⟨it, hit, -, hk', hv, hc⟩; exact ⟨it, hit, hk', hv, hc⟩

theorem put_none {m : Map} {k} (h : m k = none) : m.put k none = m := by
  funext k'
  unfold Map.put
  split
  · next e => rw [e, h]
  · rfl

/-- A lookup. -/
theorem lookup_R0 {pfx m} {s : St} (h : R0 pfx m s) (k : Bytes) :
    R0 pfx m (lookup pfx s k).1 ∧ (lookup pfx s k).1.log = s.log ∧ (lookup pfx s k).1.ctr = s.ctr ∧
    (match (lookup pfx s k).2 with
     | none => m k = none
     | some it => (lookup pfx s k).1 = s ∧ it ∈ s.items ∧ it.key = k ∧ valid pfx s it = true ∧ m k = some (it.value, it.cas)) := by
  unfold lookup
  cases hf : find s.items k with
  | none =>
    refine ⟨h, rfl, rfl, ?_⟩
    exact h.v.none.2 fun it hit hk => absurd hk (find_none hf it hit)
  | some it =>
    obtain ⟨hit, hk⟩ := find_some hf
    cases hv : valid pfx s it with
    | true =>
      refine ⟨?_, ?_, ?_, ?_⟩
      · simpa [hv] using h
      · simp [hv]
      · simp [hv]
      · simp only [hv, if_true]
        exact ⟨trivial, hit, hk, trivial, (h.v k _).2 ⟨it, hit, hk, hv, rfl⟩⟩
    | false =>
      have hm : m k = none := h.v.none.2 fun b hb hkb => by rw [h.u b hb it hit (by rw [hk, hkb])]; exact hv
      have := unlink_R0 h k
      rw [put_none hm] at this
      refine ⟨?_, ?_, ?_, ?_⟩
      · simpa [hv] using this
      · simp [hv, unlink, settle]
      · simp [hv, unlink, settle]
      · simpa [hv] using hm

theorem cons_R0 {pfx m} {s : St} (h : R0 pfx m s) (k v : Bytes) (cas ctr : Nat) (log : List Rec) :
    R0 pfx (m.put k (some (v, cas)))
      { s with items := ⟨k, v, cas, s.now⟩ :: erase s.items k, ctr := ctr, log := log } := by
  refine ⟨?_, ?_, h.now, h.old, h.pold, ?_⟩
  · intro a ha b hb e
    rcases List.mem_cons.1 ha with rfl | ha <;> rcases List.mem_cons.1 hb with rfl | hb
    · rfl
    · exact absurd e.symm (mem_erase.1 hb).2
    · exact absurd e (mem_erase.1 ha).2
    · exact h.u a (mem_erase.1 ha).1 b (mem_erase.1 hb).1 e
  · intro it hit
    rcases List.mem_cons.1 hit with rfl | hit
    · exact Nat.le_refl _
    · exact h.time it (mem_erase.1 hit).1
  · intro k' c
    unfold Map.put
    by_cases hk : k' = k
    · simp only [hk, if_true]
      constructor
      · intro e
        injection e with e
        refine ⟨_, List.mem_cons_self .., rfl, valid_now h.old h.pold rfl, e.symm⟩
      · rintro ⟨it, hit, hkk, hv, hc⟩
        rcases List.mem_cons.1 hit with rfl | hit
        · rw [hc]
        · exact absurd hkk (mem_erase.1 hit).2
    · simp only [hk, if_false]
      rw [h.v k' c]
      constructor
      · rintro ⟨it, hit, rfl, hv, hc⟩
        exact ⟨it, List.mem_cons_of_mem _ (mem_erase.2 ⟨hit, hk⟩), rfl, hv, hc⟩
      · rintro ⟨it, hit, hkk, hv, hc⟩
        rcases List.mem_cons.1 hit with rfl | hit
        · exact absurd hkk (fun e => hk e.symm)
        · exact ⟨it, (mem_erase.1 hit).1, hkk, hv, hc⟩

theorem concerns_iff {pfx scope k} : Concerns pfx scope k ↔ inScope pfx scope k = true := by
  unfold Concerns inScope
  cases scope with
  | none => simp
  | some p => simp

theorem flush_log {pfx} {s : St} {scope w} : (flush pfx s scope w).1.log = s.log := by
  unfold flush
  cases scope with
  | none => simp only; split <;> split <;> rfl
  | some p =>
    simp only
    split
    · split <;> split <;> rfl
    · rfl

theorem flushed_time {now mark t : Nat} (h0 : mark ≠ 0) (h : mark < now) (ht : t ≤ mark) : flushedBy now mark t = true := by
  unfold flushedBy
  simp only [Bool.and_eq_true, bne_iff_ne, ne_eq, decide_eq_true_eq]
  omega

/-- A flush without delay. -/
theorem flush_R0 {pfx m} {s : St} (h : R0 pfx m s) (scope : Option Bytes) :
    R0 pfx (redoMap pfx m (.flush scope)) (flush pfx s scope 0).1 ∧
    ((flush pfx s scope 0).2 = false → ∀ k, inScope pfx scope k = true → m k = none) := by
  have hnow := h.now
  have hm0 : s.now - 1 ≠ 0 := by omega
  cases scope with
  | none =>
    unfold flush
    simp only [if_true, hm0, if_false]
    refine ⟨?_, fun h => by cases h⟩
    apply settle_R0
    refine ⟨h.u.filter _, fun it hit => h.time it (List.mem_filter.1 hit).1, h.now, by simp only; omega, h.pold, ?_⟩
    intro k c
    constructor
    · intro e; simp [redoMap, inScope] at e
    · rintro ⟨it, hit, hk, hv, hc⟩
      obtain ⟨h1, h2⟩ := List.mem_filter.1 hit
      have h2' : it.time < s.now - 1 := by simp at h2; omega
      have : flushedBy s.now (s.now - 1) it.time = true := flushed_time hm0 (by omega) (by omega)
      unfold valid at hv
      simp only [this] at hv
      simp at hv
  | some p =>
    unfold flush
    cases hkn : known pfx s.items p with
    | true =>
      simp only [if_true, hm0, if_false, hkn]
      refine ⟨?_, fun h => by cases h⟩
      apply settle_R0
      refine ⟨h.u.filter _, fun it hit => h.time it (List.mem_filter.1 hit).1, h.now, h.old, ?_, ?_⟩
      · intro q
        simp only
        have := h.pold q
        split <;> omega
      · intro k c
        constructor
        · intro e
          by_cases hs : inScope pfx (some p) k = true
          · simp [redoMap, hs] at e
          · simp only [redoMap, hs] at e
            obtain ⟨it, hit, hk, hv, hc⟩ := (h.v k c).1 e
            have hp : pfx it.key ≠ p := by
              rw [hk]; simpa [inScope] using hs
            refine ⟨it, List.mem_filter.2 ⟨hit, ?_⟩, hk, ?_, hc⟩
            · simp [inScope, hp]
            · simpa only [valid, hp, if_false] using hv
        · rintro ⟨it, hit, hk, hv, hc⟩
          obtain ⟨h1, h2⟩ := List.mem_filter.1 hit
          by_cases hp : pfx it.key = p
          · have h2' : it.time < s.now - 1 := by simp [inScope, hp] at h2; omega
            have : flushedBy s.now (s.now - 1) it.time = true := flushed_time hm0 (by omega) (by omega)
            unfold valid at hv
            simp only [hp, if_true, this] at hv
            simp at hv
          · have hs : ¬ inScope pfx (some p) k = true := by rw [← hk]; simpa [inScope] using hp
            simp only [redoMap, hs]
            exact (h.v k c).2 ⟨it, h1, hk, by simpa only [valid, hp, if_false] using hv, hc⟩
    | false =>
      have hno : ∀ k, inScope pfx (some p) k = true → m k = none := by
        intro k hs
        refine h.v.none.2 fun it hit hk => ?_
        have : known pfx s.items p = true := by
          have := known_mem (pfx := pfx) hit
          rw [hk] at this
          have e : pfx k = p := by simpa [inScope] using hs
          rwa [e] at this
        rw [hkn] at this; cases this
      refine ⟨?_, fun _ => hno⟩
      have : redoMap pfx m (.flush (some p)) = m := by
        funext k
        simp only [redoMap]
        split
        · next hs => exact (hno k hs).symm
        · rfl
      rw [this]
      simpa [hkn] using h

theorem redo_R0 {pfx m} {s : St} (h : R0 pfx m s) (r : Rec) : R0 pfx (redoMap pfx m r) (redo pfx s r) := by
  cases r with
  | link k v cas =>
    obtain ⟨h1, -, -, -⟩ := lookup_R0 h k
    exact cons_R0 h1 k v cas _ _
  | unlink k =>
    obtain ⟨h1, -, -, h2⟩ := lookup_R0 h k
    unfold redo
    simp only [redoMap]
    cases hl : lookup pfx s k with
    | mk s' o =>
      rw [hl] at h1 h2
      cases o with
      | none => simp only at h1 h2 ⊢; rw [put_none h2]; exact h1
      | some it => simp only at h1 h2 ⊢; exact unlink_R0 h1 k
  | flush scope => exact (flush_R0 h scope).1

theorem redo_log {pfx} {s : St} (r : Rec) : (redo pfx s r).log = s.log := by
  have hl : ∀ k, (lookup pfx s k).1.log = s.log := by
    intro k
    unfold lookup
    cases find s.items k with
    | none => rfl
    | some it =>
      cases hv : valid pfx s it with
      | true => simp [hv]
      | false => simp [hv, unlink, settle]
  cases r with
  | link k v cas => exact hl k
  | unlink k =>
    unfold redo
    simp only
    have := hl k
    cases h : lookup pfx s k with
    | mk s' o =>
      rw [h] at this
      cases o <;> exact this
  | flush scope => exact flush_log

theorem foldl_log {pfx} (l : List Rec) (s : St) : (l.foldl (redo pfx) s).log = s.log := by
  induction l generalizing s with
  | nil => rfl
  | cons r l ih => rw [List.foldl_cons, ih, redo_log]

theorem foldl_R0 {pfx} (l : List Rec) {m} {s : St} (h : R0 pfx m s) :
    R0 pfx (l.foldl (redoMap pfx) m) (l.foldl (redo pfx) s) := by
  induction l generalizing m s with
  | nil => exact h
  | cons r l ih => exact ih (redo_R0 h r)

/-- The map a log stands for. -/
def logMap (pfx : Bytes → Bytes) (l : List Rec) : Map := l.foldl (redoMap pfx) fun _ => none

theorem fresh_R0 (pfx : Bytes → Bytes) (d : Nat) (l : List Rec) : R0 pfx (fun _ => none) (fresh d l) := by
  refine ⟨?_, ?_, ?_, ?_, ?_, ?_⟩
  · intro a ha; cases ha
  · intro a ha; cases ha
  · simp [fresh]
  · simp only [fresh]; omega
  · intro p; simp only [fresh]; omega
  · intro k c
    constructor
    · intro h; cases h
    · rintro ⟨it, hit, -⟩; cases hit

theorem logMap_snoc (pfx : Bytes → Bytes) (l : List Rec) (r : Rec) :
    logMap pfx (l ++ [r]) = redoMap pfx (logMap pfx l) r := by
  unfold logMap; rw [List.foldl_append]; rfl

theorem foldl_links {pfx} (l : List It) (hu : U l) (m : Map) (k : Bytes) (c : Bytes × Nat) :
    (l.map fun it => Rec.link it.key it.value it.cas).foldl (redoMap pfx) m k = some c ↔
      (∃ it ∈ l, it.key = k ∧ c = (it.value, it.cas)) ∨ ((∀ it ∈ l, it.key ≠ k) ∧ m k = some c) := by
  induction l generalizing m with
  | nil => simp
  | cons a l ih =>
    rw [List.map_cons, List.foldl_cons, ih (fun x hx y hy e => hu x (List.mem_cons_of_mem _ hx) y (List.mem_cons_of_mem _ hy) e)]
    simp only [redoMap, Map.put]
    constructor
    · rintro (⟨it, hit, hk, hc⟩ | ⟨hno, hm⟩)
      · exact .inl ⟨it, List.mem_cons_of_mem _ hit, hk, hc⟩
      · by_cases hk : k = a.key
        · simp only [hk, if_true] at hm
          injection hm with hm
          exact .inl ⟨a, List.mem_cons_self .., hk.symm, hm.symm⟩
        · simp only [hk, if_false] at hm
          refine .inr ⟨?_, hm⟩
          intro it hit
          rcases List.mem_cons.1 hit with rfl | hit
          · exact fun e => hk e.symm
          · exact hno it hit
    · rintro (⟨it, hit, hk, hc⟩ | ⟨hno, hm⟩)
      · by_cases hl : ∃ b ∈ l, b.key = k
        · obtain ⟨b, hb, hbk⟩ := hl
          have := hu b (List.mem_cons_of_mem _ hb) it hit (by rw [hbk, hk])
          exact .inl ⟨b, hb, hbk, by rw [this]; exact hc⟩
        · rcases List.mem_cons.1 hit with rfl | hit
          · refine .inr ⟨fun b hb e => hl ⟨b, hb, e⟩, ?_⟩
            simp only [hk, if_true]; rw [hc]
          · exact absurd ⟨it, hit, hk⟩ hl
      · refine .inr ⟨fun it hit => hno it (List.mem_cons_of_mem _ hit), ?_⟩
        have : ¬ k = a.key := fun e => hno a (List.mem_cons_self ..) e.symm
        simp only [this, if_false]; exact hm

/-- The relation between the map and the server. -/
structure R (pfx : Bytes → Bytes) (m : Map) (s : St) : Prop where
  r0 : R0 pfx m s
  log : logMap pfx s.log = m

theorem start_R (pfx : Bytes → Bytes) (d : Nat) (l : List Rec) : R pfx (logMap pfx l) (start pfx d l) := by
  refine ⟨foldl_R0 l (fresh_R0 pfx d l), ?_⟩
  unfold start; rw [foldl_log]; rfl

theorem R0.relog {pfx m} {s : St} (h : R0 pfx m s) (l : List Rec) : R0 pfx m { s with log := l } :=
  ⟨h.u, h.time, h.now, h.old, h.pold, h.v⟩

theorem touch_R0 {pfx m} {s : St} (h : R0 pfx m s) {it : It} (hit : it ∈ s.items) (hv : valid pfx s it = true) :
    R0 pfx m (touch s it.key) := by
  have hval : ∀ a ∈ s.items, valid pfx (touch s it.key)
      (if a.key = it.key ∧ (s.now < 60 ∨ a.time < s.now - 60) then { a with time := s.now } else a) = valid pfx s a := by
    intro a ha
    split
    · next hc =>
      rw [h.u a ha it hit hc.1, hv]
      exact valid_now (s := touch s it.key) h.old h.pold rfl
    · exact valid_congr rfl rfl rfl
  refine ⟨?_, ?_, h.now, h.old, h.pold, ?_⟩
  · intro a ha b hb e
    obtain ⟨a', ha', rfl⟩ := List.mem_map.1 ha
    obtain ⟨b', hb', rfl⟩ := List.mem_map.1 hb
    have : a'.key = b'.key := by
      split at e <;> split at e <;> exact e
    rw [h.u a' ha' b' hb' this]
  · intro a ha
    obtain ⟨a', ha', rfl⟩ := List.mem_map.1 ha
    have := h.time a' ha'
    split
    · exact Nat.le_refl _
    · exact this
  · intro k c
    rw [h.v k c]
    constructor
    · rintro ⟨a, ha, hk, hva, hc⟩
      refine ⟨_, List.mem_map.2 ⟨a, ha, rfl⟩, ?_, ?_, ?_⟩
      · split <;> exact hk
      · rw [hval a ha]; exact hva
      · split <;> exact hc
    · rintro ⟨a, ha, hk, hva, hc⟩
      obtain ⟨a', ha', rfl⟩ := List.mem_map.1 ha
      rw [hval a' ha'] at hva
      refine ⟨a', ha', ?_, hva, ?_⟩
      · split at hk <;> exact hk
      · split at hc <;> exact hc

theorem tick_R0 {pfx m} {s : St} (h : R0 pfx m s) (d : Nat) : R0 pfx m { s with now := s.now + d } := by
  have hv : ∀ it, valid pfx { s with now := s.now + d } it = valid pfx s it := by
    intro it
    unfold valid flushedBy
    have h1 := h.old
    have h2 := h.pold (pfx it.key)
    have e1 : decide (s.old ≤ s.now + d) = decide (s.old ≤ s.now) := by simp; omega
    have e2 : decide (s.pold (pfx it.key) ≤ s.now + d) = decide (s.pold (pfx it.key) ≤ s.now) := by simp; omega
    simp only [e1, e2]
  refine ⟨h.u, ?_, ?_, ?_, ?_, ?_⟩
  · intro it hit; have := h.time it hit; simp only; omega
  · have := h.now; simp only; omega
  · have := h.old; simp only; omega
  · intro p; have := h.pold p; simp only; omega
  · intro k c
    rw [h.v k c]
    simp only [hv]

/-- One step. -/
theorem step_R {pfx m} {s : St} (h : R pfx m s) (op : Op) (himm : ∀ scope w, op = .flush scope w → w = 0) :
    ∃ m', Step pfx m op (step pfx s op).2 m' ∧ R pfx m' (step pfx s op).1 := by
  cases op with
  | tick d => exact ⟨m, .tick m d, tick_R0 h.r0 d, h.log⟩
  | set k v =>
    obtain ⟨h1, h2, h3, -⟩ := lookup_R0 h.r0 k
    refine ⟨_, .set m k v _, cons_R0 h1 k v _ _ _, ?_⟩
    show logMap pfx ((lookup pfx s k).1.log ++ _) = _
    rw [logMap_snoc, h2, h.log]; rfl
  | cas k v id =>
    obtain ⟨h1, h2, h3, h4⟩ := lookup_R0 h.r0 k
    cases hl : lookup pfx s k with
    | mk s' o =>
      rw [hl] at h1 h2 h3 h4
      cases o with
      | none => simp only [step, hl]; exact ⟨m, .casNone m k v id h4, h1, by simp only at h2; rw [h2]; exact h.log⟩
      | some it =>
        simp only [step, hl] at h1 h2 h3 h4 ⊢
        obtain ⟨-, -, -, -, hm⟩ := h4
        split
        · next e =>
          subst e
          refine ⟨_, .casOk m k v _ _ _ hm, cons_R0 h1 k v _ _ _, ?_⟩
          simp only [link]
          rw [logMap_snoc, h2, h.log]; rfl
        · next e =>
          exact ⟨m, .casNo m k v _ id _ hm (fun e' => e e'.symm), h1, by rw [h2]; exact h.log⟩
  | delete k =>
    obtain ⟨h1, h2, h3, h4⟩ := lookup_R0 h.r0 k
    cases hl : lookup pfx s k with
    | mk s' o =>
      rw [hl] at h1 h2 h3 h4
      cases o with
      | none => simp only [step, hl]; exact ⟨m, .deleteNone m k h4, h1, by simp only at h2; rw [h2]; exact h.log⟩
      | some it =>
        simp only [step, hl] at h1 h2 h3 h4 ⊢
        refine ⟨_, .delete m k _ h4.2.2.2.2, (unlink_R0 h1 k).relog _, ?_⟩
        simp only
        rw [logMap_snoc, h2, h.log]; rfl
  | get k =>
    obtain ⟨h1, h2, h3, h4⟩ := lookup_R0 h.r0 k
    cases hl : lookup pfx s k with
    | mk s' o =>
      rw [hl] at h1 h2 h3 h4
      cases o with
      | none => simp only [step, hl]; exact ⟨m, .getNone m k h4, h1, by simp only at h2; rw [h2]; exact h.log⟩
      | some it =>
        simp only [step, hl] at h1 h2 h3 h4 ⊢
        obtain ⟨rfl, hit, rfl, hv, hm⟩ := h4
        exact ⟨m, .get m _ _ _ hm, touch_R0 h1 hit hv, h.log⟩
  | flush scope w =>
    obtain rfl := himm scope w rfl
    obtain ⟨h1, h2⟩ := flush_R0 h.r0 scope
    have hlog := flush_log (pfx := pfx) (s := s) (scope := scope) (w := 0)
    have hnow := h.r0.now
    cases hl : flush pfx s scope 0 with
    | mk s' b =>
      rw [hl] at h1 h2 hlog
      cases b with
      | false =>
        simp only [step, hl] at h1 h2 hlog ⊢
        have e : redoMap pfx m (.flush scope) = m := by
          funext k
          simp only [redoMap]
          split
          · next hs => exact (h2 trivial k hs).symm
          · rfl
        rw [e] at h1
        exact ⟨m, .flushNone m scope fun k hk => h2 trivial k (concerns_iff.1 hk), h1, by rw [hlog]; exact h.log⟩
      | true =>
        simp only [step, hl] at h1 h2 hlog ⊢
        have hc : (True ∧ s.now - 1 ≠ 0) := ⟨trivial, by omega⟩
        rw [if_pos hc]
        refine ⟨redoMap pfx m (.flush scope), .flush m _ scope ?_ ?_, h1.relog _, ?_⟩
        · intro k hk; simp only [redoMap, concerns_iff.1 hk, if_true]
        · intro k hk
          have : ¬ inScope pfx scope k = true := fun e => hk (concerns_iff.2 e)
          simp only [redoMap, this]; rfl
        · simp only; rw [logMap_snoc, hlog, h.log]
  | evict k =>
    cases hf : find s.items k with
    | none =>
      simp only [step, hf]
      have hm : m k = none := h.r0.v.none.2 fun it hit hk => absurd hk (find_none hf it hit)
      refine ⟨m.put k none, .evict m k, ?_⟩
      rw [put_none hm]; exact h
    | some it =>
      simp only [step, hf]
      refine ⟨m.put k none, .evict m k, (unlink_R0 h.r0 k).relog _, ?_⟩
      simp only
      rw [logMap_snoc, h.log]; rfl
  | reclaim k =>
    have h1 := lookup_R0 h.r0 k
    refine ⟨m, ?_, ?_⟩
    · cases hf : find s.items k with
      | none => simp only [step, hf]; exact .reclaim m k
      | some it => cases hv : valid pfx s it <;> (simp only [step, hf, hv]; exact .reclaim m k)
    · have : (step pfx s (.reclaim k)).1 = (lookup pfx s k).1 := by
        cases hf : find s.items k with
        | none => simp only [step, lookup, hf]
        | some it => cases hv : valid pfx s it <;> simp [step, lookup, hf, hv]
      rw [this]
      exact ⟨h1.1, by rw [h1.2.1]; exact h.log⟩
  | checkpoint =>
    refine ⟨m, .checkpoint m, h.r0.relog _, ?_⟩
    refine map_ext fun k c => ?_
    show logMap pfx ((s.items.filter (valid pfx s)).map _) k = some c ↔ _
    unfold logMap
    rw [foldl_links _ (h.r0.u.filter _), h.r0.v k c]
    constructor
    · rintro (⟨it, hit, hk, hc⟩ | ⟨-, e⟩)
      · obtain ⟨h1, h2⟩ := List.mem_filter.1 hit
        exact ⟨it, h1, hk, h2, hc⟩
      · cases e
    · rintro ⟨it, hit, hk, hv, hc⟩
      exact .inl ⟨it, List.mem_filter.2 ⟨hit, hv⟩, hk, hc⟩
  | restart d =>
    refine ⟨m, .restart m d, ?_⟩
    have := start_R pfx d s.log
    rw [h.log] at this
    exact this

theorem run_R {pfx} (ops : List Op) {m} {s : St} (h : R pfx m s) (himm : Immediate ops) :
    Runs pfx m (run pfx s ops).1 := by
  induction ops generalizing m s with
  | nil => exact .nil m
  | cons op ops ih =>
    obtain ⟨m', h1, h2⟩ := step_R h op fun sc w e => himm sc w (by rw [e]; exact List.mem_cons_self ..)
    exact .cons m m' op _ _ h1 (ih h2 fun sc w hm => himm sc w (List.mem_cons_of_mem _ hm))

end Verif.Restart.Lemmas
