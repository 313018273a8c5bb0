import Verif.Spec.Assoc
/-! # Transcripts of the hash table -/
namespace Verif.Assoc
open Spec

/-- A run of the specification with legal calls from a state to a state. -/
inductive Seg (hp : Nat) (hash : List Nat → Nat) : S → List (Op × (Rep × Bool)) → S → Prop where
  | nil {σ} : Seg hp hash σ [] σ
  | cons {σ op r σ1 t σ'} : Legal σ op → Step hp hash σ op r σ1 → Seg hp hash σ1 t σ' → Seg hp hash σ ((op, r) :: t) σ'

variable {hp : Nat} {hash : List Nat → Nat}

theorem Seg.append {σ σ1 σ2 : S} {t1 t2 : List (Op × (Rep × Bool))} (h1 : Seg hp hash σ t1 σ1) (h2 : Seg hp hash σ1 t2 σ2) :
    Seg hp hash σ (t1 ++ t2) σ2 := by
  induction h1 with
  | nil => exact h2
  | cons a b _ ih => exact .cons a b (ih h2)

theorem Seg.split {σ σ2 : S} {t1 t2 : List (Op × (Rep × Bool))} (h : Seg hp hash σ (t1 ++ t2) σ2) :
    ∃ σ1, Seg hp hash σ t1 σ1 ∧ Seg hp hash σ1 t2 σ2 := by
  induction t1 generalizing σ with
  | nil => exact ⟨σ, .nil, h⟩
  | cons x t1 ih =>
    cases h with
    | cons a b c =>
      obtain ⟨σ1, k1, k2⟩ := ih c
      exact ⟨σ1, .cons a b k1, k2⟩

theorem Seg.of_run {c : Run.Client Op (Rep × Bool)} (hc : Run.LegalClient (Step hp hash) Legal start c) {t : List (Op × (Rep × Bool))}
    {σ : S} (h : Run.SpecRun (Step hp hash) start c t σ) : Seg hp hash start t σ := by
  induction h with
  | nil => exact .nil
  | snoc h1 h2 ih => exact ih.append (.cons (hc _ _ h1) h2 .nil)

/-- Scans owe only keys of the map. -/
def Sane (σ : S) : Prop := ∀ sid o, owed σ sid = some o → ∀ k ∈ o.todo, k ∈ keys σ.items

theorem mem_keys {l : List Item} {k : List Nat} : k ∈ keys l ↔ ∃ it ∈ l, it.key = k := by
  simp [keys]

theorem owed_lt' {σ : S} {sid : Nat} {o : Owed} (h : owed σ sid = some o) : sid < σ.scans.length := by
  rcases Nat.lt_or_ge sid σ.scans.length with h2 | h2
  · exact h2
  · unfold owed at h; rw [List.getElem?_eq_none h2] at h; simp at h

theorem owed_set' {σ : S} {sid : Nat} (v : Option Owed) (i : Nat) (h : i = sid → sid < σ.scans.length) :
    owed { σ with scans := σ.scans.set sid v } i = if i = sid then v else owed σ i := by
  unfold owed
  by_cases hi : i = sid
  · simp only [hi, List.getElem?_set_self (h hi), if_pos]
    cases v <;> rfl
  · simp only [List.getElem?_set_ne (Ne.symm hi), if_neg hi]

theorem owed_append' {σ : S} (o : Owed) (i : Nat) :
    owed { σ with scans := σ.scans ++ [some o] } i = if i = σ.scans.length then some o else owed σ i := by
  unfold owed
  by_cases hi : i = σ.scans.length
  · subst hi; simp
  · rw [if_neg hi]
    rcases Nat.lt_or_ge i σ.scans.length with h | h
    · simp only [List.getElem?_append_left h]
    · rw [List.getElem?_eq_none h, List.getElem?_eq_none (by simp; omega)]

theorem owed_shrunk {σ : S} (key : List Nat) (its : List Item) (i : Nat) :
    owed { σ with items := its, scans := σ.scans.map (shrunk key) } i = shrunk key (owed σ i) := by
  unfold owed
  simp only [List.getElem?_map]
  cases σ.scans[i]? with
  | none => rfl
  | some o => cases o <;> rfl

theorem owed_next {σ : S} {sid : Nat} {o : Owed} (h : owed σ sid = some o) (v : Owed) (i : Nat) :
    owed { σ with scans := σ.scans.set sid (some v) } i = if i = sid then some v else owed σ i :=
  owed_set' _ _ fun _ => owed_lt' h

/-- What one step does to a key that is not deleted, for one scan. -/
structure Fate (key : List Nat) (sid : Nat) (σ : S) (x : Op × (Rep × Bool)) (σ' : S) : Prop where
  /-- It stays in the map. -/
  stay : key ∈ keys σ.items → key ∈ keys σ'.items
  /-- It comes into the map by an insertion only, and then it is not delivered. -/
  come : key ∉ keys σ.items → delivered sid key [x] = 0
  /-- A scan in progress that does not owe it goes on not to owe it. -/
  paid : ∀ o o', owed σ sid = some o → owed σ' sid = some o' → key ∈ keys σ.items → key ∉ o.todo → key ∉ o'.todo ∧ delivered sid key [x] = 0
  /-- A scan in progress that owes it goes on to owe it, or delivers it once. -/
  due : ∀ o o', owed σ sid = some o → owed σ' sid = some o' → key ∈ o.todo →
    (key ∈ o'.todo ∧ delivered sid key [x] = 0) ∨ (key ∉ o'.todo ∧ delivered sid key [x] = 1)
  /-- A scan that is over, or not begun, delivers nothing. -/
  off : owed σ sid = none → delivered sid key [x] = 0
  /-- A scan that is over does not begin again. -/
  over : owed σ sid = none → sid < σ.scans.length → owed σ' sid = none
  /-- There are never fewer scans. -/
  more : σ.scans.length ≤ σ'.scans.length
  /-- A step that ends the scan delivers nothing. -/
  last : owed σ' sid = none → delivered sid key [x] = 0

theorem delivered_cons (sid : Nat) (key : List Nat) (x : Op × (Rep × Bool)) (t : List (Op × (Rep × Bool))) :
    delivered sid key (x :: t) = delivered sid key [x] + delivered sid key t := by
  obtain ⟨op, r, b⟩ := x
  cases op <;> try (simp only [delivered, Nat.zero_add])
  cases r <;> try (simp only [delivered, Nat.zero_add])
  rename_i l
  cases l <;> simp only [delivered, Nat.zero_add, Nat.add_zero]

theorem delivered_append (sid : Nat) (key : List Nat) (t t' : List (Op × (Rep × Bool))) :
    delivered sid key (t ++ t') = delivered sid key t + delivered sid key t' := by
  induction t with
  | nil => simp [delivered]
  | cons x t ih => rw [List.cons_append, delivered_cons, ih, delivered_cons sid key x t]; omega

theorem keys_replace (items : List Item) {key : List Nat} {new : Item} (h : new.key = key) :
    keys (items.map fun it => if it.key = key then new else it) = keys items := by
  unfold keys
  rw [List.map_map]
  apply List.map_congr_left
  intro it _
  simp only [Function.comp]
  split
  · rename_i h1; rw [h, h1]
  · rfl

theorem sane_step {σ σ' : S} {op : Op} {r : Rep × Bool} (hs : Sane σ) (hl : Legal σ op) (h : Step hp hash σ op r σ') : Sane σ' := by
  cases op with
  | find key => obtain ⟨-, rfl⟩ := h; exact hs
  | insert it m1 m2 =>
    obtain ⟨-, h2, -, -, h4⟩ := h
    intro sid o ho k hk
    have h5 := h4 sid
    rw [ho] at h5
    cases hoo : owed σ sid with
    | none => rw [hoo] at h5; exact absurd h5 (by simp [Grown])
    | some o0 =>
      rw [hoo] at h5
      obtain ⟨-, h5⟩ := h5
      rw [h2, mem_keys]
      rcases h5 with h5 | h5
      · rw [h5] at hk
        obtain ⟨x, hx, hxk⟩ := mem_keys.mp (hs sid o0 hoo k hk)
        exact ⟨x, List.mem_cons_of_mem _ hx, hxk⟩
      · rw [h5] at hk
        rcases List.mem_cons.mp hk with rfl | hk
        · exact ⟨it, List.mem_cons_self, rfl⟩
        · obtain ⟨x, hx, hxk⟩ := mem_keys.mp (hs sid o0 hoo k hk)
          exact ⟨x, List.mem_cons_of_mem _ hx, hxk⟩
  | replace key new =>
    obtain ⟨-, rfl⟩ := h
    intro sid o ho k hk
    simp only [keys_replace σ.items hl.2]
    exact hs sid o ho k hk
  | delete key =>
    obtain ⟨-, rfl⟩ := h
    intro sid o ho k hk
    rw [owed_shrunk] at ho
    cases hoo : owed σ sid with
    | none => rw [hoo] at ho; cases ho
    | some o0 =>
      rw [hoo] at ho
      simp only [shrunk, Option.map_some, Option.some.injEq] at ho
      subst ho
      simp only [List.mem_filter, decide_eq_true_eq] at hk
      obtain ⟨x, hx, hxk⟩ := mem_keys.mp (hs sid o0 hoo k hk.1)
      exact mem_keys.mpr ⟨x, List.mem_filter.mpr ⟨hx, by simp only [decide_eq_true_eq]; rw [hxk]; exact hk.2⟩, hxk⟩
  | scanInit junk =>
    obtain ⟨-, rfl⟩ := h
    intro sid o ho k hk
    rw [owed_append'] at ho
    split at ho
    · cases ho; exact hk
    · exact hs sid o ho k hk
  | scanNext sid arr lim =>
    obtain ⟨o, ho, h⟩ := h
    have hc : ∃ v : Owed, σ' = { σ with scans := σ.scans.set sid (some v) } ∧ ∀ k ∈ v.todo, k ∈ o.todo := by
      rcases h with ⟨-, -, h⟩ | ⟨l, -, -, -, -, -, h⟩
      · exact ⟨_, h, fun k hk => hk⟩
      · exact ⟨_, h, fun k hk => (List.mem_filter.mp hk).1⟩
    obtain ⟨v, rfl, hv⟩ := hc
    intro i o' ho' k hk
    rw [owed_next ho] at ho'
    split at ho'
    · cases ho'; exact hs sid o ho k (hv k hk)
    · exact hs i o' ho' k hk
  | visited sid it => obtain ⟨o, -, -, rfl⟩ := h; exact hs
  | scanFinal sid =>
    obtain ⟨-, rfl⟩ := h
    intro i o ho k hk
    obtain ⟨o0, ho0⟩ := Option.ne_none_iff_exists'.mp hl
    rw [owed_set' _ _ fun _ => owed_lt' ho0] at ho
    split at ho
    · cases ho
    · exact hs i o ho k hk
  | scanDirect c req arr => obtain ⟨l, c', -, -, -, -, rfl⟩ := h; exact hs

theorem fate_same {key : List Nat} {sid : Nat} {σ σ' : S} {x : Op × (Rep × Bool)} (hd : delivered sid key [x] = 0)
    (hk : key ∈ keys σ.items → key ∈ keys σ'.items) (ho : ∀ o', owed σ' sid = some o' → ∃ o, owed σ sid = some o ∧
      (key ∈ keys σ.items → (key ∈ o'.todo ↔ key ∈ o.todo)))
    (hs : Sane σ) (hm : σ.scans.length ≤ σ'.scans.length) : Fate key sid σ x σ' := by
  refine ⟨hk, fun _ => hd, ?_, ?_, fun _ => hd, ?_, hm, fun _ => hd⟩
  · intro o o' h1 h2 h3 h4
    obtain ⟨o1, h5, h6⟩ := ho o' h2
    rw [h1] at h5; cases h5
    exact ⟨fun h => h4 ((h6 h3).mp h), hd⟩
  · intro o o' h1 h2 h3
    obtain ⟨o1, h5, h6⟩ := ho o' h2
    rw [h1] at h5; cases h5
    exact .inl ⟨(h6 (hs sid o h1 key h3)).mpr h3, hd⟩
  · intro h1 _
    cases h2 : owed σ' sid with
    | none => rfl
    | some o' =>
      obtain ⟨o1, h5, -⟩ := ho o' h2
      rw [h1] at h5; cases h5

theorem fate {key : List Nat} {sid : Nat} {σ σ' : S} {op : Op} {r : Rep × Bool} (hs : Sane σ) (hl : Legal σ op)
    (h : Step hp hash σ op r σ') (hnd : op ≠ .delete key) : Fate key sid σ (op, r) σ' := by
  cases op with
  | find k => obtain ⟨-, rfl⟩ := h; exact fate_same rfl id (fun o' h1 => ⟨o', h1, fun _ => Iff.rfl⟩) hs (Nat.le_refl _)
  | insert it m1 m2 =>
    obtain ⟨-, h2, -, h3, h4⟩ := h
    refine fate_same rfl ?_ ?_ hs (by omega)
    · rw [h2, mem_keys, mem_keys]
      rintro ⟨x, hx, hxk⟩
      exact ⟨x, List.mem_cons_of_mem _ hx, hxk⟩
    · intro o' ho'
      have h5 := h4 sid
      rw [ho'] at h5
      cases hoo : owed σ sid with
      | none => rw [hoo] at h5; exact absurd h5 (by simp [Grown])
      | some o0 =>
        rw [hoo] at h5
        refine ⟨o0, rfl, fun hk => ?_⟩
        rcases h5.2 with h6 | h6
        · rw [h6]
        · rw [h6, List.mem_cons]
          constructor
          · rintro (h7 | h7)
            · rw [h7] at hk; exact absurd hk hl.2
            · exact h7
          · exact .inr
  | replace k new =>
    obtain ⟨-, rfl⟩ := h
    refine fate_same rfl ?_ (fun o' h1 => ⟨o', h1, fun _ => Iff.rfl⟩) hs (Nat.le_refl _)
    simp only [keys_replace σ.items hl.2]; exact id
  | delete k =>
    obtain ⟨-, rfl⟩ := h
    have hne : key ≠ k := fun h => hnd (by rw [h])
    refine fate_same rfl ?_ ?_ hs (by simp)
    · intro hk
      obtain ⟨x, hx, hxk⟩ := mem_keys.mp hk
      exact mem_keys.mpr ⟨x, List.mem_filter.mpr ⟨hx, by simp only [decide_eq_true_eq]; rw [hxk]; exact hne⟩, hxk⟩
    · intro o' ho'
      rw [owed_shrunk] at ho'
      cases hoo : owed σ sid with
      | none => rw [hoo] at ho'; cases ho'
      | some o0 =>
        rw [hoo] at ho'
        simp only [shrunk, Option.map_some, Option.some.injEq] at ho'
        subst ho'
        refine ⟨o0, rfl, fun _ => ?_⟩
        simp only [List.mem_filter, decide_eq_true_eq]
        exact ⟨fun h => h.1, fun h => ⟨h, hne⟩⟩
  | scanInit junk =>
    obtain ⟨-, rfl⟩ := h
    refine ⟨id, fun _ => rfl, ?_, ?_, fun _ => rfl, ?_, by simp, fun _ => rfl⟩
    · intro o o' h1 h2 _ h4
      have := owed_lt' h1
      rw [owed_append', if_neg (by omega), h1] at h2
      cases h2; exact ⟨h4, rfl⟩
    · intro o o' h1 h2 h4
      have := owed_lt' h1
      rw [owed_append', if_neg (by omega), h1] at h2
      cases h2; exact .inl ⟨h4, rfl⟩
    · intro h1 h2
      rw [owed_append', if_neg (by omega), h1]
  | scanNext i arr lim =>
    obtain ⟨o, ho, h⟩ := h
    rcases h with ⟨h0, h1, rfl⟩ | ⟨l, h1, -, -, h4, h5, rfl⟩
    · have hd : delivered sid key [(Op.scanNext i arr lim, r)] = 0 := by
        obtain ⟨r1, r2⟩ := r; simp only at h0; subst h0; rfl
      refine fate_same hd id ?_ hs (by simp)
      intro o' ho'
      rw [owed_next ho] at ho'
      split at ho'
      · rename_i hi; subst hi; cases ho'; exact ⟨o, ho, fun _ => Iff.rfl⟩
      · exact ⟨o', ho', fun _ => Iff.rfl⟩
    · by_cases hi : sid = i
      · subst hi
        have hd : delivered sid key [(Op.scanNext sid arr lim, r)] = (keys l).count key := by
          obtain ⟨r1, r2⟩ := r; simp only at h1; subst h1; simp [delivered]
        have hsub : ∀ k, k ∈ keys l → k ∈ o.todo := by
          intro k hk
          obtain ⟨x, hx, rfl⟩ := mem_keys.mp hk
          exact (h4 x hx).2
        refine ⟨id, ?_, ?_, ?_, ?_, ?_, by simp, ?_⟩
        · intro hn
          rw [hd]
          apply List.count_eq_zero.mpr
          intro hk
          exact hn (hs sid o ho key (hsub key hk))
        · intro o1 o' k1 k2 _ k4
          rw [ho] at k1; cases k1
          rw [owed_next ho, if_pos rfl] at k2; cases k2
          refine ⟨fun h => k4 (List.mem_filter.mp h).1, ?_⟩
          rw [hd]
          exact List.count_eq_zero.mpr fun h => k4 (hsub key h)
        · intro o1 o' k1 k2 k3
          rw [ho] at k1; cases k1
          rw [owed_next ho, if_pos rfl] at k2; cases k2
          simp only [List.mem_filter, decide_eq_true_eq]
          rw [hd]
          by_cases hk : key ∈ keys l
          · refine .inr ⟨fun h => h.2 hk, ?_⟩
            have h6 := List.nodup_iff_count.mp h5 key
            have h7 := List.count_pos_iff.mpr hk
            omega
          · exact .inl ⟨⟨k3, hk⟩, List.count_eq_zero.mpr hk⟩
        · intro hn; rw [ho] at hn; cases hn
        · intro hn; rw [ho] at hn; cases hn
        · intro hn; rw [owed_next ho, if_pos rfl] at hn; cases hn
      · have hd : delivered sid key [(Op.scanNext i arr lim, r)] = 0 := by
          obtain ⟨r1, r2⟩ := r; simp only at h1; subst h1; simp [delivered, Ne.symm hi]
        refine fate_same hd id ?_ hs (by simp)
        intro o' ho'
        rw [owed_next ho, if_neg hi] at ho'
        exact ⟨o', ho', fun _ => Iff.rfl⟩
  | visited i it => obtain ⟨o, -, -, rfl⟩ := h; exact fate_same rfl id (fun o' h1 => ⟨o', h1, fun _ => Iff.rfl⟩) hs (Nat.le_refl _)
  | scanFinal i =>
    obtain ⟨-, rfl⟩ := h
    obtain ⟨o0, ho0⟩ := Option.ne_none_iff_exists'.mp hl
    refine fate_same rfl id ?_ hs (by simp)
    intro o' ho'
    rw [owed_set' _ _ fun _ => owed_lt' ho0] at ho'
    split at ho'
    · cases ho'
    · exact ⟨o', ho', fun _ => Iff.rfl⟩
  | scanDirect c req arr =>
    obtain ⟨l, c', -, -, -, -, rfl⟩ := h
    exact fate_same rfl id (fun o' h1 => ⟨o', h1, fun _ => Iff.rfl⟩) hs (Nat.le_refl _)

theorem noDelete_cons {key : List Nat} {op : Op} {r : Rep × Bool} {t : List (Op × (Rep × Bool))} (h : NoDelete key ((op, r) :: t)) :
    op ≠ .delete key ∧ NoDelete key t :=
  ⟨fun h1 => h r (by rw [h1]; exact List.mem_cons_self), fun r' h1 => h r' (List.mem_cons_of_mem _ h1)⟩

theorem Seg.sane {σ σ' : S} {t : List (Op × (Rep × Bool))} (h : Seg hp hash σ t σ') (hs : Sane σ) : Sane σ' := by
  induction h with
  | nil => exact hs
  | cons a b _ ih => exact ih (sane_step hs a b)

theorem sane_start : Sane start := by
  intro sid o h; simp [owed, start] at h

theorem Seg.stay {σ σ' : S} {t : List (Op × (Rep × Bool))} (h : Seg hp hash σ t σ') (hs : Sane σ) {key : List Nat}
    (hn : NoDelete key t) (hk : key ∈ keys σ.items) : key ∈ keys σ'.items := by
  induction h with
  | nil => exact hk
  | cons a b _ ih =>
    obtain ⟨h1, h2⟩ := noDelete_cons hn
    exact ih (sane_step hs a b) h2 ((fate (sid := 0) hs a b h1).stay hk)

theorem Seg.over {σ σ' : S} {t : List (Op × (Rep × Bool))} (h : Seg hp hash σ t σ') (hs : Sane σ) {sid : Nat}
    (ho : owed σ sid = none) (hl : sid < σ.scans.length) : owed σ' sid = none := by
  induction h with
  | nil => exact ho
  | @cons σ op r σ1 t σ' a b _ ih =>
    have hf : owed σ1 sid = none ∧ sid < σ1.scans.length := by
      by_cases hd : ∃ k, op = .delete k
      · obtain ⟨k, rfl⟩ := hd
        have hf := fate (key := k ++ [0]) (sid := sid) hs a b (by simp)
        exact ⟨hf.over ho hl, Nat.lt_of_lt_of_le hl hf.more⟩
      · have hf := fate (key := []) (sid := sid) hs a b (fun h => hd ⟨_, h⟩)
        exact ⟨hf.over ho hl, Nat.lt_of_lt_of_le hl hf.more⟩
    exact ih (sane_step hs a b) hf.1 hf.2

/-- The state of the scan between two states where it is in progress: it was in progress all the time. -/
theorem Seg.middle {σ σ1 σ' : S} {op : Op} {r : Rep × Bool} {t : List (Op × (Rep × Bool))} (a : Legal σ op) (b : Step hp hash σ op r σ1)
    (h : Seg hp hash σ1 t σ') (hs : Sane σ) {sid : Nat} {o o' : Owed} (ho : owed σ sid = some o) (ho' : owed σ' sid = some o') :
    ∃ o1, owed σ1 sid = some o1 := by
  cases h1 : owed σ1 sid with
  | some o1 => exact ⟨o1, rfl⟩
  | none =>
    have hl : sid < σ1.scans.length := by
      have h2 := owed_lt' ho
      by_cases hd : ∃ k, op = .delete k
      · obtain ⟨k, rfl⟩ := hd
        exact Nat.lt_of_lt_of_le h2 (fate (key := k ++ [0]) (sid := sid) hs a b (by simp)).more
      · exact Nat.lt_of_lt_of_le h2 (fate (key := []) (sid := sid) hs a b (fun h => hd ⟨_, h⟩)).more
    rw [h.over (sane_step hs a b) h1 hl] at ho'
    cases ho'

/-- A key that a scan does not owe. -/
theorem Seg.paid {σ σ' : S} {t : List (Op × (Rep × Bool))} (h : Seg hp hash σ t σ') (hs : Sane σ) {key : List Nat} (hn : NoDelete key t)
    {sid : Nat} {o : Owed} (ho : owed σ sid = some o) (hk : key ∈ keys σ.items) (hp : key ∉ o.todo) :
    delivered sid key t = 0 ∧ ∀ o', owed σ' sid = some o' → key ∉ o'.todo := by
  suffices H : (∃ o, owed σ sid = some o ∧ key ∉ o.todo) ∨ (owed σ sid = none ∧ sid < σ.scans.length) →
      delivered sid key t = 0 ∧ ∀ o', owed σ' sid = some o' → key ∉ o'.todo from H (.inl ⟨o, ho, hp⟩)
  clear ho hp o
  induction h with
  | nil =>
    rintro (⟨o, h1, h2⟩ | ⟨h1, -⟩)
    · exact ⟨rfl, fun o' h3 => by rw [h1] at h3; cases h3; exact h2⟩
    · exact ⟨rfl, fun o' h3 => by rw [h1] at h3; cases h3⟩
  | @cons σ op r σ1 t σ' a b h ih =>
    obtain ⟨n1, n2⟩ := noDelete_cons hn
    have hf := fate (sid := sid) hs a b n1
    intro hc
    rw [delivered_cons]
    rcases hc with ⟨o, h1, h2⟩ | ⟨h1, h2⟩
    · cases h3 : owed σ1 sid with
      | none =>
        have := ih (sane_step hs a b) n2 (hf.stay hk) (.inr ⟨h3, Nat.lt_of_lt_of_le (owed_lt' h1) hf.more⟩)
        exact ⟨by rw [hf.last h3, this.1], this.2⟩
      | some o1 =>
        obtain ⟨k1, k2⟩ := hf.paid o o1 h1 h3 hk h2
        have := ih (sane_step hs a b) n2 (hf.stay hk) (.inl ⟨o1, h3, k1⟩)
        exact ⟨by rw [k2, this.1], this.2⟩
    · have := ih (sane_step hs a b) n2 (hf.stay hk) (.inr ⟨hf.over h1 h2, Nat.lt_of_lt_of_le h2 hf.more⟩)
      exact ⟨by rw [hf.off h1, this.1], this.2⟩

/-- A key that a scan owes. -/
theorem Seg.due {σ σ' : S} {t : List (Op × (Rep × Bool))} (h : Seg hp hash σ t σ') (hs : Sane σ) {key : List Nat} (hn : NoDelete key t)
    {sid : Nat} {o o' : Owed} (ho : owed σ sid = some o) (ho' : owed σ' sid = some o') (hk : key ∈ o.todo) :
    (key ∈ o'.todo ∧ delivered sid key t = 0) ∨ (key ∉ o'.todo ∧ delivered sid key t = 1) := by
  induction h generalizing o with
  | nil => rw [ho] at ho'; cases ho'; exact .inl ⟨hk, rfl⟩
  | @cons σ op r σ1 t σ' a b h ih =>
    obtain ⟨n1, n2⟩ := noDelete_cons hn
    have hf := fate (sid := sid) hs a b n1
    obtain ⟨o1, h1⟩ := Seg.middle a b h hs ho ho'
    rw [delivered_cons]
    rcases hf.due o o1 ho h1 hk with ⟨k1, k2⟩ | ⟨k1, k2⟩
    · rw [k2, Nat.zero_add]
      exact ih (sane_step hs a b) n2 h1 ho' k1
    · have := h.paid (sane_step hs a b) n2 h1 (hf.stay (hs sid o ho key hk)) k1
      exact .inr ⟨this.2 o' ho', by rw [k2, this.1]⟩

/-- Without deletion a key is delivered at most once. -/
theorem Seg.once {σ σ' : S} {t : List (Op × (Rep × Bool))} (h : Seg hp hash σ t σ') (hs : Sane σ) {key : List Nat} (hn : NoDelete key t)
    (sid : Nat) : delivered sid key t ≤ 1 := by
  induction h with
  | nil => simp [delivered]
  | @cons σ op r σ1 t σ' a b h ih =>
    obtain ⟨n1, n2⟩ := noDelete_cons hn
    have hf := fate (sid := sid) hs a b n1
    have h1 := ih (sane_step hs a b) n2
    rw [delivered_cons]
    by_cases hk : key ∈ keys σ.items
    · cases ho : owed σ sid with
      | none => rw [hf.off ho]; omega
      | some o =>
        cases ho1 : owed σ1 sid with
        | none => rw [hf.last ho1]; omega
        | some o1 =>
          by_cases hkt : key ∈ o.todo
          · rcases hf.due o o1 ho ho1 hkt with ⟨-, k2⟩ | ⟨k1, k2⟩
            · omega
            · rw [(h.paid (sane_step hs a b) n2 ho1 (hf.stay hk) k1).1]; omega
          · rw [(hf.paid o o1 ho ho1 hk hkt).2]; omega
    · rw [hf.come hk]; omega

/-- Following the cursors: what lies before the cursor has been seen. -/
theorem Seg.follows {σ σ' : S} {t : List (Op × (Rep × Bool))} (h : Seg hp hash σ t σ') (hs : Sane σ) {key : List Nat} (hn : NoDelete key t)
    (hk : key ∈ keys σ.items) {c c' : Nat} {ls : List (List Item)} (hf : Follows c t ls c')
    (hc : ¬ Covered hp hash c key) :
    (∃ l ∈ ls, ∃ it ∈ l, it.key = key) ∨ (¬ Covered hp hash c' key ∧ (c' = 0 → ls = [])) := by
  induction h generalizing c ls with
  | nil => cases hf; exact .inr ⟨hc, fun _ => rfl⟩
  | @cons σ op r σ1 t σ' a b h ih =>
    obtain ⟨n1, n2⟩ := noDelete_cons hn
    have hfa := fate (sid := 0) hs a b n1
    cases hf with
    | other hf => exact ih (sane_step hs a b) n2 (hfa.stay hk) hf hc
    | @call c req arr l c1 t ls c' hf =>
      obtain ⟨l', c'', h1, h2, h3, h4, h5⟩ := b
      simp only [Rep.direct.injEq, Option.some.injEq, Prod.mk.injEq] at h1
      obtain ⟨rfl, rfl⟩ := h1
      obtain ⟨it, hit, hik⟩ := mem_keys.mp hk
      by_cases hcc : c1 = 0 ∨ Covered hp hash c1 key
      · exact .inl ⟨l, List.mem_cons_self, it, h4 rfl it hit (by rw [hik]; exact hc) (by rw [hik]; exact hcc), hik⟩
      · rw [not_or] at hcc
        rcases ih (sane_step hs a ⟨l, c1, rfl, h2, h3, h4, h5⟩) n2 (hfa.stay hk) hf hcc.2 with ⟨l1, m1, m2⟩ | ⟨m1, m2⟩
        · exact .inl ⟨l1, List.mem_cons_of_mem _ m1, m2⟩
        · refine .inr ⟨m1, fun h0 => ?_⟩
          exfalso
          have hls := m2 h0
          subst hls
          have : ∀ {x : Nat} {tt : List (Op × (Rep × Bool))} {ll : List (List Item)} {y : Nat}, Follows x tt ll y → ll = [] → x = y := by
            intro x tt ll y hx
            induction hx with
            | nil => intro _; rfl
            | other _ ihx => exact ihx
            | call _ _ => intro h; cases h
          exact hcc.1 ((this hf rfl).trans h0)

theorem not_covered_zero (key : List Nat) : ¬ Covered hp hash 0 key := by
  rintro (h | ⟨-, i, -, -, h⟩)
  · simp at h
  · simp at h

end Verif.Assoc
