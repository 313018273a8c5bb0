import Verif.Lemmas.RestartMap
/-! # Lemmas: traces of one map, and unique ids as long as no restart follows a checkpoint -/
namespace Verif.Restart.Lemmas
open Verif.Restart Verif.Restart.Spec

/-! ## Traces -/

theorem step_keep_none {pfx m op r m' k} (h : Step pfx m op r m') (hm : m k = none) (hs : ¬ Stores k (op, r)) : m' k = none := by
  have hput : ∀ k', (m.put k' none) k = none := by
    intro k'; unfold Map.put; split
    · rfl
    · exact hm
  cases h with
  | set k' v id =>
    unfold Map.put
    split
    · next e => subst e; exact absurd ⟨v, id, .inl rfl⟩ hs
    · exact hm
  | casOk k' v v' id id' hh =>
    unfold Map.put
    split
    · next e => subst e; exact absurd ⟨v, id', .inr ⟨id, rfl⟩⟩ hs
    · exact hm
  | delete k' c hh => exact hput k'
  | evict k' => exact hput k'
  | flush _ sc h1 h2 =>
    by_cases hc : Concerns pfx sc k
    · exact h1 k hc
    · rw [h2 k hc]; exact hm
  | _ => exact hm

theorem Runs.split {pfx m} (t1 : List (Op × Rep)) {t2} (h : Runs pfx m (t1 ++ t2)) : ∃ m', Runs pfx m' t2 := by
  induction t1 generalizing m with
  | nil => exact ⟨m, h⟩
  | cons e t1 ih =>
    cases h with
    | cons _ m' op r _ h1 h2 => exact ih h2

theorem Runs.none {pfx m k r} (t2 : List (Op × Rep)) {t3} (h : Runs pfx m (t2 ++ (.get k, r) :: t3)) (hm : m k = none)
    (hs : ∀ e ∈ t2, ¬ Stores k e) : r = .miss := by
  induction t2 generalizing m with
  | nil =>
    cases h with
    | cons _ m' op r _ h1 h2 =>
      cases h1 with
      | get _ v id hh => rw [hm] at hh; cases hh
      | getNone => rfl
  | cons e t2 ih =>
    cases h with
    | cons _ m' op r _ h1 h2 =>
      exact ih h2 (step_keep_none h1 hm (hs _ (List.mem_cons_self ..))) fun e he => hs e (List.mem_cons_of_mem _ he)

theorem Runs.noReturn {pfx m t} (h : Runs pfx m t) : NoReturn t := by
  intro t1 t2 t3 k r e hs
  subst e
  obtain ⟨m1, h1⟩ := Runs.split t1 h
  cases h1 with
  | cons _ m' op r _ h2 h3 =>
    cases h2 with
    | getNone _ hm => exact Runs.none t2 h3 hm hs

/-! ## Unique ids -/

def isLink : Rec → Bool
  | .link .. => true
  | _ => false

def links (l : List Rec) : Nat := (l.filter isLink).length

def lastStep (f : Bytes → Option Nat) : Rec → Bytes → Option Nat
  | .link k _ c => fun k' => if k' = k then some c else f k'
  | _ => f

def lastCas (l : List Rec) : Bytes → Option Nat := l.foldl lastStep fun _ => none

theorem lastCas_snoc (l : List Rec) (r : Rec) : lastCas (l ++ [r]) = lastStep (lastCas l) r := by
  unfold lastCas; rw [List.foldl_append]; rfl

theorem links_snoc (l : List Rec) (r : Rec) : links (l ++ [r]) = links l + (if isLink r = true then 1 else 0) := by
  unfold links
  rw [List.filter_append, List.length_append]
  cases h : isLink r <;> simp [h]

/-- Fewer items, with the same ids; as many links on disk. -/
structure Shrink (s s' : St) : Prop where
  items : ∀ it ∈ s'.items, ∃ a ∈ s.items, a.key = it.key ∧ a.cas = it.cas
  ctr : s'.ctr = s.ctr
  links : links s'.log = links s.log
  last : lastCas s'.log = lastCas s.log

theorem Shrink.refl (s : St) : Shrink s s := ⟨fun it h => ⟨it, h, rfl, rfl⟩, rfl, rfl, rfl⟩

theorem Shrink.trans {a b c : St} (h : Shrink a b) (h' : Shrink b c) : Shrink a c := by
  refine ⟨?_, h'.ctr.trans h.ctr, h'.links.trans h.links, h'.last.trans h.last⟩
  intro it hit
  obtain ⟨x, hx, e1, e2⟩ := h'.items it hit
  obtain ⟨y, hy, e3, e4⟩ := h.items x hx
  exact ⟨y, hy, e3.trans e1, e4.trans e2⟩

theorem Shrink.of_mem {s s' : St} (h : ∀ it ∈ s'.items, it ∈ s.items) (hc : s'.ctr = s.ctr) (hl : s'.log = s.log) : Shrink s s' :=
  ⟨fun it hit => ⟨it, h it hit, rfl, rfl⟩, hc, by rw [hl], by rw [hl]⟩

theorem shrink_unlink (pfx : Bytes → Bytes) (s : St) (k : Bytes) : Shrink s (unlink pfx s k) :=
  .of_mem (fun _ hit => (mem_erase.1 hit).1) rfl rfl

theorem shrink_lookup (pfx : Bytes → Bytes) (s : St) (k : Bytes) : Shrink s (lookup pfx s k).1 := by
  unfold lookup
  cases hf : find s.items k with
  | none => exact .refl s
  | some it =>
    cases hv : valid pfx s it with
    | true => simpa [hv] using Shrink.refl s
    | false => simpa [hv] using shrink_unlink pfx s k

theorem shrink_flush (pfx : Bytes → Bytes) (s : St) (scope : Option Bytes) (w : Nat) : Shrink s (flush pfx s scope w).1 := by
  have hl := flush_log (pfx := pfx) (s := s) (scope := scope) (w := w)
  apply Shrink.of_mem
  · intro it hit
    unfold flush at hit
    cases scope with
    | none =>
      simp only at hit
      split at hit <;> split at hit
      all_goals first
        | exact hit
        | exact (List.mem_filter.1 hit).1
    | some p =>
      simp only at hit
      split at hit
      · split at hit <;> split at hit
        all_goals first
          | exact hit
          | exact (List.mem_filter.1 hit).1
      · exact hit
  · unfold flush
    cases scope with
    | none => simp only; split <;> split <;> rfl
    | some p =>
      simp only
      split
      · split <;> split <;> rfl
      · rfl
  · exact hl

theorem shrink_touch (s : St) (k : Bytes) : Shrink s (touch s k) := by
  refine ⟨?_, rfl, rfl, rfl⟩
  intro it hit
  obtain ⟨a, ha, rfl⟩ := List.mem_map.1 hit
  refine ⟨a, ha, ?_, ?_⟩ <;> (split <;> rfl)

theorem Shrink.snoc {s s' : St} (h : Shrink s s') (r : Rec) (hr : isLink r = false) :
    Shrink s { s' with log := s'.log ++ [r] } := by
  refine ⟨h.items, h.ctr, ?_, ?_⟩
  · simp only; rw [links_snoc, hr, ← h.links]; simp
  · simp only
    rw [lastCas_snoc, ← h.last]
    cases r with
    | link => cases hr
    | _ => rfl

/-- `ph`: no checkpoint has been made. -/
structure Inv (ph : Bool) (s : St) : Prop where
  le : ∀ it ∈ s.items, it.cas ≤ s.ctr
  cnt : ph = true → links s.log = s.ctr
  last : ph = true → ∀ k c, lastCas s.log k = some c → c ≤ s.ctr
  item : ph = true → ∀ it ∈ s.items, lastCas s.log it.key = some it.cas

/-- The ids under the key are greater than `c`. -/
structure Newer (ph : Bool) (k : Bytes) (c : Nat) (s : St) : Prop where
  item : ∀ it ∈ s.items, it.key = k → c < it.cas
  last : ph = true → ∀ c', lastCas s.log k = some c' → c < c'

theorem Shrink.inv {ph s s'} (h : Shrink s s') (hi : Inv ph s) : Inv ph s' := by
  refine ⟨?_, ?_, ?_, ?_⟩
  · intro it hit
    obtain ⟨a, ha, -, e⟩ := h.items it hit
    rw [h.ctr, ← e]; exact hi.le a ha
  · intro hp; rw [h.links, h.ctr]; exact hi.cnt hp
  · intro hp k c; rw [h.last, h.ctr]; exact hi.last hp k c
  · intro hp it hit
    obtain ⟨a, ha, e1, e2⟩ := h.items it hit
    rw [h.last, ← e1, ← e2]; exact hi.item hp a ha

theorem Shrink.newer {ph k c s s'} (h : Shrink s s') (hn : Newer ph k c s) : Newer ph k c s' := by
  refine ⟨?_, ?_⟩
  · intro it hit hk
    obtain ⟨a, ha, e1, e2⟩ := h.items it hit
    rw [← e2]; exact hn.item a ha (e1.trans hk)
  · intro hp c'; rw [h.last]; exact hn.last hp c'

theorem link_inv {ph s} (h : Inv ph s) (k v : Bytes) : Inv ph (link s k v) := by
  refine ⟨?_, ?_, ?_, ?_⟩
  · intro it hit
    rcases List.mem_cons.1 hit with rfl | hit
    · exact Nat.le_refl _
    · exact Nat.le_succ_of_le (h.le it (mem_erase.1 hit).1)
  · intro hp
    simp only [link]
    rw [links_snoc, h.cnt hp]; simp [isLink]
  · intro hp k' c
    simp only [link]
    rw [lastCas_snoc]
    simp only [lastStep]
    split
    · intro e; injection e with e; omega
    · intro e; exact Nat.le_succ_of_le (h.last hp k' c e)
  · intro hp it hit
    simp only [link]
    rw [lastCas_snoc]
    simp only [lastStep]
    rcases List.mem_cons.1 hit with rfl | hit
    · simp
    · simp only [(mem_erase.1 hit).2, if_false]; exact h.item hp it (mem_erase.1 hit).1

theorem link_newer {ph s k c} (h : Newer ph k c s) (hc : c ≤ s.ctr) (k' v : Bytes) : Newer ph k c (link s k' v) := by
  refine ⟨?_, ?_⟩
  · intro it hit hk
    rcases List.mem_cons.1 hit with rfl | hit
    · exact Nat.lt_succ_of_le hc
    · exact h.item it (mem_erase.1 hit).1 hk
  · intro hp c'
    simp only [link]
    rw [lastCas_snoc]
    simp only [lastStep]
    split
    · intro e; injection e with e; omega
    · exact h.last hp c'

theorem link_newer_self {ph} (s : St) (k v : Bytes) : Newer ph k s.ctr (link s k v) := by
  refine ⟨?_, ?_⟩
  · intro it hit hk
    rcases List.mem_cons.1 hit with rfl | hit
    · exact Nat.lt_succ_self _
    · exact absurd hk (mem_erase.1 hit).2
  · intro hp c'
    simp only [link]
    rw [lastCas_snoc]
    simp only [lastStep, if_true]
    intro e; injection e with e; omega

/-- The recovery, up to some record. -/
structure Redone (l : List Rec) (s : St) : Prop where
  cnt : s.ctr = links l
  item : ∀ it ∈ s.items, lastCas l it.key = some it.cas

theorem redo_redone {pfx l s} (h : Redone l s) (r : Rec) : Redone (l ++ [r]) (redo pfx s r) := by
  have hsh : ∀ {s'}, Shrink s s' → isLink r = false → Redone (l ++ [r]) s' := by
    intro s' hs hr
    refine ⟨?_, ?_⟩
    · rw [hs.ctr, h.cnt, links_snoc, hr]; simp
    · intro it hit
      obtain ⟨a, ha, e1, e2⟩ := hs.items it hit
      rw [lastCas_snoc, ← e1, ← e2]
      cases r with
      | link => cases hr
      | _ => exact h.item a ha
  cases r with
  | link k v c =>
    have hl := shrink_lookup pfx s k
    refine ⟨?_, ?_⟩
    · show (lookup pfx s k).1.ctr + 1 = _
      rw [hl.ctr, h.cnt, links_snoc]; simp [isLink]
    · intro it hit
      rw [lastCas_snoc]
      simp only [lastStep]
      rcases List.mem_cons.1 hit with rfl | hit
      · simp
      · obtain ⟨h1, h2⟩ := mem_erase.1 hit
        obtain ⟨a, ha, e1, e2⟩ := hl.items it h1
        simp only [h2, if_false]
        rw [← e1, ← e2]; exact h.item a ha
  | unlink k =>
    refine hsh ?_ rfl
    have hl := shrink_lookup pfx s k
    unfold redo
    simp only
    cases he : lookup pfx s k with
    | mk s' o =>
      rw [he] at hl
      cases o with
      | none => exact hl
      | some it => exact hl.trans (shrink_unlink pfx s' k)
  | flush scope => exact hsh (shrink_flush pfx s scope 0) rfl

theorem foldl_redone {pfx} (l : List Rec) {l0 s} (h : Redone l0 s) : Redone (l0 ++ l) (l.foldl (redo pfx) s) := by
  induction l generalizing l0 s with
  | nil => simpa using h
  | cons r l ih =>
    have := ih (redo_redone (pfx := pfx) h r)
    simpa using this

theorem start_redone (pfx : Bytes → Bytes) (d : Nat) (l : List Rec) : Redone l (start pfx d l) := by
  have := foldl_redone (pfx := pfx) l (l0 := []) (s := fresh d l) ⟨rfl, fun _ h => by cases h⟩
  simpa [start] using this

theorem start_log (pfx : Bytes → Bytes) (d : Nat) (l : List Rec) : (start pfx d l).log = l := by
  unfold start; rw [foldl_log]; rfl

def notCheckpoint : Op → Bool
  | .checkpoint => false
  | _ => true

/-- What a step does to the ids. -/
structure Good (ph0 ph : Bool) (s : St) (op : Op) (r : Rep) (s' : St) : Prop where
  inv : Inv ph s'
  ctr : s.ctr ≤ s'.ctr
  keep : ∀ k c, Newer ph0 k c s → c ≤ s.ctr → Newer ph k c s'
  stores : ∀ k, Stores k (op, r) → Newer ph k s.ctr s'
  tells : ∀ k id, Tells k id (op, r) → id ≤ s'.ctr

theorem Shrink.good {ph s s' op r} (h : Shrink s s') (hi : Inv ph s) (hs : ∀ k, ¬ Stores k (op, r))
    (ht : ∀ k id, Tells k id (op, r) → ∃ it ∈ s.items, it.cas = id) : Good ph ph s op r s' := by
  refine ⟨h.inv hi, by rw [h.ctr]; exact Nat.le_refl _, fun k c hn _ => h.newer hn, fun k hk => absurd hk (hs k), ?_⟩
  intro k id hk
  obtain ⟨it, hit, e⟩ := ht k id hk
  rw [h.ctr, ← e]; exact hi.le it hit

theorem link_good {ph s s1 op k v} (h : Shrink s s1) (hi : Inv ph s)
    (hk : ∀ k', Stores k' (op, .stored (s1.ctr + 1)) → k' = k) : Good ph ph s op (.stored (s1.ctr + 1)) (link s1 k v) := by
  refine ⟨link_inv (h.inv hi) k v, ?_, ?_, ?_, ?_⟩
  · simp only [link]; rw [h.ctr]; omega
  · intro k' c hn hc
    exact link_newer (h.newer hn) (by rw [h.ctr]; exact hc) k v
  · intro k' hs
    rw [hk k' hs, ← h.ctr]; exact link_newer_self s1 k v
  · intro k' id ht
    simp only [link]
    rcases ht with ⟨v', e⟩ | ⟨v', e⟩ | ⟨v', id', e⟩
    · cases e
    · injection e with _ e; injection e with e; omega
    · injection e with _ e; injection e with e; omega

theorem not_stores {k op r} (h : ∀ id, r ≠ .stored id) : ¬ Stores k (op, r) := by
  rintro ⟨v, id, e | ⟨id', e⟩⟩ <;> (injection e with _ e; exact h id e)

theorem not_tells {k id op r} (h : ∀ id, r ≠ .stored id) (h' : ∀ v id, r ≠ .value v id) : ¬ Tells k id (op, r) := by
  rintro (⟨v, e⟩ | ⟨v, e⟩ | ⟨v, id', e⟩)
  · injection e with _ e; exact h' v id e
  · injection e with _ e; exact h id e
  · injection e with _ e; exact h id e

theorem step_good {pfx ph s} (hi : Inv ph s) (op : Op) (hr : ∀ d, op = .restart d → ph = true) :
    Good ph (ph && notCheckpoint op) s op (step pfx s op).2 (step pfx s op).1 := by
  have plain : ∀ {s' r}, notCheckpoint op = true → Shrink s s' → (∀ id, r ≠ Rep.stored id) → (∀ v id, r ≠ Rep.value v id) →
      Good ph (ph && notCheckpoint op) s op r s' := by
    intro s' r hp hs h1 h2
    rw [hp, Bool.and_true]
    exact hs.good hi (fun k => not_stores h1) fun k id ht => absurd ht (not_tells h1 h2)
  cases op with
  | tick d => exact plain rfl (.of_mem (fun _ h => h) rfl rfl) (fun _ h => by cases h) (fun _ _ h => by cases h)
  | set k v =>
    rw [show (ph && notCheckpoint (.set k v)) = ph from Bool.and_true ph]
    refine link_good (shrink_lookup pfx s k) hi ?_
    rintro k' ⟨v', id, e | ⟨id', e⟩⟩
    · injection e with e _; injection e with e _; exact e.symm
    · cases e
  | cas k v id =>
    have hl := shrink_lookup pfx s k
    cases he : lookup pfx s k with
    | mk s1 o =>
      rw [he] at hl
      cases o with
      | none =>
        simp only [step, he]
        exact plain rfl hl (fun _ h => by cases h) (fun _ _ h => by cases h)
      | some it =>
        simp only [step, he]
        split
        · rw [show (ph && notCheckpoint (.cas k v id)) = ph from Bool.and_true ph]
          refine link_good hl hi ?_
          rintro k' ⟨v', id, e | ⟨id', e⟩⟩
          · cases e
          · injection e with e _; injection e with e _; exact e.symm
        · exact plain rfl hl (fun _ h => by cases h) (fun _ _ h => by cases h)
  | delete k =>
    have hl := shrink_lookup pfx s k
    cases he : lookup pfx s k with
    | mk s1 o =>
      rw [he] at hl
      cases o with
      | none =>
        simp only [step, he]
        exact plain rfl hl (fun _ h => by cases h) (fun _ _ h => by cases h)
      | some it =>
        simp only [step, he]
        exact plain rfl ((hl.trans (shrink_unlink pfx s1 k)).snoc (.unlink k) rfl) (fun _ h => by cases h) (fun _ _ h => by cases h)
  | get k =>
    have hl := shrink_lookup pfx s k
    cases he : lookup pfx s k with
    | mk s1 o =>
      cases o with
      | none =>
        rw [he] at hl
        simp only [step, he]
        exact plain rfl hl (fun _ h => by cases h) (fun _ _ h => by cases h)
      | some it =>
        have hit : it ∈ s.items := by
          unfold lookup at he
          cases hf : find s.items k with
          | none => rw [hf] at he; cases he
          | some a =>
            rw [hf] at he
            simp only at he
            split at he
            · injection he with _ e; injection e with e; rw [← e]; exact (find_some hf).1
            · cases he
        rw [he] at hl
        simp only [step, he]
        rw [show (ph && notCheckpoint (.get k)) = ph from Bool.and_true ph]
        refine (hl.trans (shrink_touch s1 k)).good hi (fun k => not_stores fun _ h => by cases h) ?_
        rintro k' id (⟨v, e⟩ | ⟨v, e⟩ | ⟨v, id', e⟩)
        · injection e with _ e; injection e with _ e; exact ⟨it, hit, e⟩
        · cases e
        · cases e
  | flush scope w =>
    have hl := shrink_flush pfx s scope w
    cases he : flush pfx s scope w with
    | mk s1 b =>
      rw [he] at hl
      cases b with
      | false =>
        simp only [step, he]
        exact plain rfl hl (fun _ h => by cases h) (fun _ _ h => by cases h)
      | true =>
        simp only [step, he]
        refine plain rfl ?_ (fun _ h => by cases h) (fun _ _ h => by cases h)
        split
        · exact hl.snoc (.flush scope) rfl
        · exact hl
  | evict k =>
    cases hf : find s.items k with
    | none =>
      simp only [step, hf]
      exact plain rfl (.refl s) (fun _ h => by cases h) (fun _ _ h => by cases h)
    | some it =>
      simp only [step, hf]
      exact plain rfl ((shrink_unlink pfx s k).snoc (.unlink k) rfl) (fun _ h => by cases h) (fun _ _ h => by cases h)
  | reclaim k =>
    cases hf : find s.items k with
    | none =>
      simp only [step, hf]
      exact plain rfl (.refl s) (fun _ h => by cases h) (fun _ _ h => by cases h)
    | some it =>
      simp only [step, hf]
      cases hv : valid pfx s it
      · simp only [Bool.false_eq_true, if_false]
        exact plain rfl (shrink_unlink pfx s k) (fun _ h => by cases h) (fun _ _ h => by cases h)
      · simp only [if_true]
        exact plain rfl (.refl s) (fun _ h => by cases h) (fun _ _ h => by cases h)
  | checkpoint =>
    rw [show (ph && notCheckpoint .checkpoint) = false from Bool.and_false ph]
    refine ⟨⟨hi.le, (fun h => by cases h), (fun h => by cases h), (fun h => by cases h)⟩, Nat.le_refl _, ?_, ?_, ?_⟩
    · intro k c hn _
      exact ⟨hn.item, fun h => by cases h⟩
    · intro k hs; exact absurd hs (not_stores fun _ h => by cases h)
    · intro k id ht; exact absurd ht (not_tells (fun _ h => by cases h) (fun _ _ h => by cases h))
  | restart d =>
    have hp := hr d rfl
    subst hp
    have h := start_redone pfx d s.log
    have hlog := start_log pfx d s.log
    rw [show (true && notCheckpoint (.restart d)) = true from rfl]
    have hc : (start pfx d s.log).ctr = s.ctr := by rw [h.cnt, hi.cnt rfl]
    refine ⟨⟨?_, ?_, ?_, ?_⟩, ?_, ?_, ?_, ?_⟩
    · intro it hit
      show it.cas ≤ (start pfx d s.log).ctr
      rw [hc]; exact hi.last rfl _ _ (h.item it hit)
    · intro _; show links (start pfx d s.log).log = (start pfx d s.log).ctr
      rw [hlog, hc]; exact hi.cnt rfl
    · intro _ k c e
      show c ≤ (start pfx d s.log).ctr
      rw [hc]
      have e' : lastCas (start pfx d s.log).log k = some c := e
      rw [hlog] at e'; exact hi.last rfl k c e'
    · intro _ it hit
      show lastCas (start pfx d s.log).log it.key = _
      rw [hlog]; exact h.item it hit
    · show s.ctr ≤ (start pfx d s.log).ctr
      rw [hc]; exact Nat.le_refl _
    · intro k c hn _
      refine ⟨?_, ?_⟩
      · intro it hit hk
        have := h.item it hit
        rw [hk] at this
        exact hn.last rfl _ this
      · intro _ c' e
        have e' : lastCas (start pfx d s.log).log k = some c' := e
        rw [hlog] at e'; exact hn.last rfl c' e'
    · intro k hs; exact absurd hs (not_stores fun _ h => by cases h)
    · intro k id ht; exact absurd ht (not_tells (fun _ h => by cases h) (fun _ _ h => by cases h))

/-! ## Runs -/

/-- A restart only while no checkpoint has been made. -/
def OK : Bool → List Op → Prop
  | _, [] => True
  | ph, op :: ops => (∀ d, op = .restart d → ph = true) ∧ OK (ph && notCheckpoint op) ops

theorem ok_of {pre ops : List Op} (h : RestartsFirst (pre ++ ops)) : OK (pre.all notCheckpoint) ops := by
  induction ops generalizing pre with
  | nil => trivial
  | cons op ops ih =>
    refine ⟨?_, ?_⟩
    · rintro d rfl
      have := h pre ops d rfl
      simp only [List.all_eq_true]
      intro x hx
      cases x with
      | checkpoint => exact absurd hx this
      | _ => rfl
    · have := ih (pre := pre ++ [op]) (by simpa using h)
      simpa [List.all_append] using this

theorem run_cons {pfx s op ops} : (run pfx s (op :: ops)).1 = (op, (step pfx s op).2) :: (run pfx (step pfx s op).1 ops).1 := rfl

theorem cas_newer {pfx k v id id' t3} (t2 : List (Op × Rep)) {ph s ops c} (hi : Inv ph s) (ho : OK ph ops)
    (e : (run pfx s ops).1 = t2 ++ (.cas k v id, .stored id') :: t3) (hn : Newer ph k c s) (hid : id ≤ c) (hc : c ≤ s.ctr) : False := by
  induction t2 generalizing ph s ops with
  | nil =>
    cases ops with
    | nil => cases e
    | cons op ops =>
      rw [run_cons] at e
      injection e with e _
      injection e with e1 e2
      subst e1
      simp only [step] at e2
      have hl := shrink_lookup pfx s k
      cases he : lookup pfx s k with
      | mk s1 o =>
        rw [he] at hl e2
        cases o with
        | none => cases e2
        | some it =>
          simp only at e2
          split at e2
          · next h =>
            have hit : it ∈ s.items ∧ it.key = k := by
              unfold lookup at he
              cases hf : find s.items k with
              | none => rw [hf] at he; cases he
              | some a =>
                rw [hf] at he
                simp only at he
                split at he
                · injection he with _ e; injection e with e; rw [← e]; exact find_some hf
                · cases he
            have := hn.item it hit.1 hit.2
            omega
          · cases e2
  | cons x t2 ih =>
    cases ops with
    | nil => cases e
    | cons op ops =>
      rw [run_cons] at e
      injection e with e1 e2
      have g := step_good (pfx := pfx) hi op ho.1
      exact ih g.inv ho.2 e2 (g.keep k c hn hc) (Nat.le_trans hc g.ctr)

theorem cas_told {pfx k v id id' t3} (t2 : List (Op × Rep)) {ph s ops} (hi : Inv ph s) (ho : OK ph ops)
    (e : (run pfx s ops).1 = t2 ++ (.cas k v id, .stored id') :: t3) (hid : id ≤ s.ctr) : ∀ x ∈ t2, ¬ Stores k x := by
  induction t2 generalizing ph s ops with
  | nil => intro x hx; cases hx
  | cons y t2 ih =>
    cases ops with
    | nil => cases e
    | cons op ops =>
      rw [run_cons] at e
      injection e with e1 e2
      have g := step_good (pfx := pfx) hi op ho.1
      intro x hx
      rcases List.mem_cons.1 hx with rfl | hx
      · intro hs
        rw [← e1] at hs
        exact cas_newer t2 g.inv ho.2 e2 (g.stores k hs) hid g.ctr
      · exact ih g.inv ho.2 e2 (Nat.le_trans hid g.ctr) x hx

theorem told {pfx k v id id' e0 t2 t3} (t1 : List (Op × Rep)) {ph s ops} (hi : Inv ph s) (ho : OK ph ops)
    (e : (run pfx s ops).1 = t1 ++ e0 :: (t2 ++ (.cas k v id, .stored id') :: t3)) (ht : Tells k id e0) : ∀ x ∈ t2, ¬ Stores k x := by
  induction t1 generalizing ph s ops with
  | nil =>
    cases ops with
    | nil => cases e
    | cons op ops =>
      rw [run_cons] at e
      injection e with e1 e2
      have g := step_good (pfx := pfx) hi op ho.1
      rw [← e1] at ht
      exact cas_told t2 g.inv ho.2 e2 (g.tells k id ht)
  | cons y t1 ih =>
    cases ops with
    | nil => cases e
    | cons op ops =>
      rw [run_cons] at e
      injection e with e1 e2
      have g := step_good (pfx := pfx) hi op ho.1
      exact ih g.inv ho.2 e2

theorem start_inv (pfx : Bytes → Bytes) (d : Nat) : Inv true (start pfx d []) :=
  ⟨(fun _ h => by cases h), (fun _ => rfl), (fun _ _ _ h => by cases h), (fun _ _ h => by cases h)⟩

end Verif.Restart.Lemmas
