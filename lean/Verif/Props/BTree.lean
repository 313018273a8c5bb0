import Verif.Lemmas.BTreeFacts
/-!
# Properties C18 to C23: the b+tree commands
-/
namespace Verif.BT.Props
open Verif.BT Verif.BT.Spec Verif.Run

/-! ## C18: a sorted map -/

/-- C18: the b+tree commands behave like operations on a list of elements sorted by bkey, with distinct and valid bkeys of one kind,
for every sequence of calls, sizes up to the configured maximum and filters; splits, merges and counts in the upper nodes never show.
A call faults only in an insertion into a tree of the greatest depth whose top node is full. -/
theorem C18_sorted_map (cfg : Cfg) (h : 0 < cfg.maxSize) :
    ImplementsUntil (step cfg) none (fun σ op r σ' => Step cfg.maxSize σ op r σ' ∧ ∀ c, σ' = some c → Ordered c) Legal start Stuck := by
  refine of_simulation_until RelS trivial ?_
  intro σ s op R hl
  rcases step_sim h R hl with h1 | ⟨s', r, σ', h1, h2, h3⟩
  · exact .inl h1
  · refine .inr ⟨s', r, σ', h1, ⟨h2, ?_⟩, h3⟩
    intro c hc
    subst hc
    cases s' with
    | none => exact h3.elim
    | some info => exact Rel.ordered h3

/-- C18: an insertion that reports success without replacement, without overflow and without a maximum range, adds exactly this
element. -/
theorem C18_insert {mx : Nat} {c c' : C} {e : Elem} {rp : Bool} {a : Option Attr} {want imem : Bool} {mem : Nat} {full created : Bool}
    {t : Option (Elem × Nat)} (ho : Ordered c) (hl : Legal (some c) (.insert e rp a want imem mem full)) (hr : c.maxRange = none)
    (hc : c.elems.length < c.cap mx)
    (h : Step mx (some c) (.insert e rp a want imem mem full) (.inserted created false t) (some c')) :
    created = false ∧ t = none ∧ (∀ x ∈ c.elems, x.bkey ≠ e.bkey) ∧ ∀ x, x ∈ c'.elems ↔ x = e ∨ x ∈ c.elems := by
  simp only [Step] at h
  obtain ⟨o, c1, h1, h2, h3⟩ := h
  cases h3
  cases h1 with
  | alien => simp [insertRep] at h2
  | nomem => simp [insertRep] at h2
  | stickyFull => simp [insertRep] at h2
  | dup => simp [insertRep] at h2
  | replFull => simp [insertRep] at h2
  | repl => simp [insertRep] at h2
  | first ha he =>
    refine ⟨by simp [insertRep] at h2; exact h2.1, by simp [insertRep] at h2; exact h2.2, ha.2.1, ?_⟩
    intro x; simp [he]
  | new ha he hn hlt =>
    refine ⟨by simp [insertRep] at h2; exact h2.1, by simp [insertRep] at h2; exact h2.2, ha.2.1, ?_⟩
    intro x; exact mem_place ho hl.1 ha
  | overflow => simp [insertRep] at h2
  | underTrimmed => simp [insertRep] at h2
  | overTrimmed => simp [insertRep] at h2
  | trimLow _ _ _ _ _ hge => omega
  | trimHigh _ _ _ _ _ hge => omega
  | tooLow => simp [insertRep] at h2
  | tooHigh => simp [insertRep] at h2
  | rangeLow mr _ _ _ hov => have h0 := hov.1; rw [hr] at h0; cases h0
  | rangeHigh mr _ _ _ hov => have h0 := hov.1; rw [hr] at h0; cases h0

/-- C18: an insertion that reports a replacement puts the element in place of the one with this bkey and changes nothing else. -/
theorem C18_replace {mx : Nat} {c c' : C} {e : Elem} {rp : Bool} {a : Option Attr} {want imem : Bool} {mem : Nat} {full created : Bool}
    {t : Option (Elem × Nat)}
    (h : Step mx (some c) (.insert e rp a want imem mem full) (.inserted created true t) (some c')) :
    rp = true ∧ (∃ old ∈ c.elems, old.bkey = e.bkey) ∧ (∀ x, x ∈ c'.elems ↔ x = e ∨ (x ∈ c.elems ∧ x.bkey ≠ e.bkey)) ∧
      c'.elems.map Elem.bkey = c.elems.map Elem.bkey := by
  simp only [Step] at h
  obtain ⟨o, c1, h1, h2, h3⟩ := h
  cases h3
  cases h1 with
  | alien => simp [insertRep] at h2
  | nomem => simp [insertRep] at h2
  | stickyFull => simp [insertRep] at h2
  | dup => simp [insertRep] at h2
  | replFull => simp [insertRep] at h2
  | repl old ho he hrp =>
    refine ⟨hrp, ⟨old, ho, he⟩, ?_, ?_⟩
    · intro x
      rw [List.mem_map]
      constructor
      · rintro ⟨y, hy, rfl⟩
        split
        · exact .inl rfl
        · rename_i hne; exact .inr ⟨hy, hne⟩
      · rintro (rfl | ⟨hx, hne⟩)
        · exact ⟨old, ho, if_pos he⟩
        · exact ⟨x, hx, if_neg hne⟩
    · rw [List.map_map]
      refine List.map_congr_left fun x _ => ?_
      simp only [Function.comp]
      split
      · rename_i hx; exact hx.symm
      · rfl
  | first => simp [insertRep] at h2
  | new => simp [insertRep] at h2
  | overflow => simp [insertRep] at h2
  | underTrimmed => simp [insertRep] at h2
  | overTrimmed => simp [insertRep] at h2
  | trimLow => simp [insertRep] at h2
  | trimHigh => simp [insertRep] at h2
  | tooLow => simp [insertRep] at h2
  | tooHigh => simp [insertRep] at h2
  | rangeLow => simp [insertRep] at h2
  | rangeHigh => simp [insertRep] at h2

/-- C18, C21: an insertion that is refused leaves all elements as they are. -/
theorem C18_refused {mx : Nat} {c : C} {σ' : S} {e : Elem} {rp : Bool} {a : Option Attr} {want imem : Bool} {mem : Nat} {full : Bool} {r : Rep}
    (h : Step mx (some c) (.insert e rp a want imem mem full) r σ') (hr : ∀ b p t, r ≠ .inserted b p t) :
    ∃ c', σ' = some c' ∧ c'.elems = c.elems := by
  simp only [Step] at h
  obtain ⟨o, c1, h1, rfl, rfl⟩ := h
  refine ⟨c1, rfl, ?_⟩
  cases h1 with
  | alien => rfl
  | nomem => rfl
  | stickyFull => rfl
  | dup => rfl
  | replFull => rfl
  | repl => exact absurd rfl (hr _ _ _)
  | first => exact absurd rfl (hr _ _ _)
  | new => exact absurd rfl (hr _ _ _)
  | overflow => rfl
  | underTrimmed => rfl
  | overTrimmed => rfl
  | trimLow => exact absurd rfl (hr _ _ _)
  | trimHigh => exact absurd rfl (hr _ _ _)
  | tooLow => rfl
  | tooHigh => rfl
  | rangeLow => exact absurd rfl (hr _ _ _)
  | rangeHigh => exact absurd rfl (hr _ _ _)

/-- An insertion without anything special, for the examples. -/
def ins (k v : Nat) : Op := .insert ⟨.num k, [], [v, 13, 10]⟩ false none true true 8 false

/-- The same with a binary bkey. -/
def insB (k : List Nat) (v : Nat) : Op := .insert ⟨.bin k, [], [v, 13, 10]⟩ false none true true 8 false

/-- A creation with an overflow action and a maximum count. -/
def crt (o : Ovfl) (m : Int) : Op := .create ⟨m, some o, true, false, 7⟩ true

/-- The element such an insertion makes. -/
def el (k v : Nat) : Elem := ⟨.num k, [], [v, 13, 10]⟩

/-- A read without filter. -/
def get (lo hi : Nat) (offset count : Nat) : Op := .get ⟨.num lo, some (.num hi)⟩ none offset count false false true

/-- Example: insertions in any order, a duplicate, a replacement, reads in both directions, a deletion, the attributes. -/
example : answers (step ⟨50000⟩) none
    [crt .smallest 0, ins 30 1, ins 10 2, ins 20 3, ins 10 9, .insert (el 20 4) true none true true 8 false, get 0 99 0 0, get 99 0 1 1,
     .delete ⟨.num 10, some (.num 20)⟩ none 0 false, get 0 99 0 0, .getattr] =
    some [.ok, .inserted false false none, .inserted false false none, .inserted false false none, .elemEexists, .inserted false true none,
      .elems 7 [el 10 2, el 20 4, el 30 1] false false, .elems 7 [el 20 4] false false, .deleted 2 false, .elems 7 [el 30 1] false false,
      .attrs 1 4000 .smallest true false none (some (.num 30, .num 30))] := by
  decide +kernel

/-- The answers after the first `k` calls. -/
def later (k : Nat) (a : Option (List Rep)) : Option (List Rep) := a.map (List.drop k)

/-- Example: 200 insertions in mixed order give a tree of two levels; half of it is deleted again. -/
example : later 201 (answers (step ⟨50000⟩) none
    (crt .smallest 0 :: (List.range 200).map (fun i => ins (i * 79 % 211) 1) ++
      [.count ⟨.num 0, some (.num 1000)⟩ none, .delete ⟨.num 50, some (.num 150)⟩ none 0 false, .count ⟨.num 0, some (.num 1000)⟩ none,
       get 40 160 3 4])) =
    some [.count 200, .deleted 95 false, .count 105, .elems 7 [el 43 1, el 44 1, el 45 1, el 46 1] false false] := by
  decide +kernel

/-! ## C19: ranges -/

/-- C19: a read of a range gives exactly the elements in the range that pass the filter, in the order of the range: `offset` of them are
passed over, then up to `count` (all, if 0) are given.  With delete, exactly the elements given are gone; without, nothing changes. -/
theorem C19_get {mx : Nat} {c : C} {σ' : S} {r : Range} {f : Option EFilter} {offset count : Nat} {del drop rmem : Bool} {flags : Nat}
    {l : List Elem} {dropped hint : Bool} (ho : Ordered c)
    (h : Step mx (some c) (.get r f offset count del drop rmem) (.elems flags l dropped hint) σ') :
    flags = c.flags ∧ l ≠ [] ∧
    (∃ pre post, (∀ x, x ∈ pre ++ l ++ post ↔ x ∈ c.elems ∧ Spec.InRange r x.bkey ∧ Passes f x.eflag) ∧
      (pre ++ l ++ post).Pairwise (Sooner r) ∧ pre.length = offset ∧ (count ≠ 0 → l.length ≤ count) ∧
      (post ≠ [] → count ≠ 0 ∧ l.length = count)) ∧
    (del = false → σ' = some c ∧ dropped = false) ∧
    (del = true → ∃ rest, (∀ x, x ∈ rest ↔ x ∈ c.elems ∧ x ∉ l) ∧ (dropped = true ↔ rest = [] ∧ drop = true) ∧
      σ' = if dropped then none else some { c with elems := rest }) := by
  simp only [Step] at h
  split at h
  · cases h.1
  · rcases h with ⟨-, h, -⟩ | ⟨-, -, h, -⟩ | ⟨-, -, h⟩
    · cases h
    · cases h
    · split at h
      · cases h.1
      · obtain ⟨hint', -, ⟨-, h, -⟩ | ⟨hne, h⟩⟩ := h
        · split at h <;> cases h
        · have hl : ∃ l', select r f offset count c.elems = l' ∧ l' = l := by
            refine ⟨_, rfl, ?_⟩
            split at h
            · injection h.1 with _ h2; exact h2.symm
            · injection h.1 with _ h2; exact h2.symm
          obtain ⟨l', hl1, rfl⟩ := hl
          obtain ⟨pre, post, p1, p2, p3, p4⟩ := select_cut r f offset count c.elems hne
          rw [hl1] at hne h p1 p3 p4
          refine ⟨?_, hne, ⟨pre, post, ?_, ?_, p2, p3, p4⟩, ?_, ?_⟩
          · split at h
            · injection h.1
            · injection h.1
          · intro x; rw [← p1]; exact mem_matching
          · rw [← p1]; exact matching_before ho
          · intro hd
            rw [if_pos hd] at h
            exact ⟨h.2, by injection h.1⟩
          · intro hd
            rw [if_neg (by simp [hd])] at h
            refine ⟨without c.elems l', ?_, ?_, ?_⟩
            · intro x; rw [without, List.mem_filter, decide_eq_true_eq]
            · injection h.1 with _ _ h3
              rw [h3, decide_eq_true_eq]
            · injection h.1 with _ _ h3
              rw [h.2, h3, shrink]
              split
              · rename_i hx; rw [if_pos (decide_eq_true hx)]
              · rename_i hx; rw [if_neg (by rw [decide_eq_true_eq]; exact hx)]

/-- C19: an answer that there is nothing means that at most `offset` elements of the range pass the filter. -/
theorem C19_nothing {mx : Nat} {c : C} {σ' : S} {r : Range} {f : Option EFilter} {offset count : Nat} {del drop rmem : Bool} {rep : Rep}
    (ho : Ordered c) (hrep : rep = .elemEnoent ∨ rep = .ebkeyoor)
    (h : Step mx (some c) (.get r f offset count del drop rmem) rep σ') :
    σ' = some c ∧ ∀ l : List Elem, l.Nodup → (∀ x ∈ l, x ∈ c.elems ∧ Spec.InRange r x.bkey ∧ Passes f x.eflag) → l.length ≤ offset := by
  have hnd : c.elems.Nodup := nodup ho
  have key : (matching r f c.elems).length ≤ offset →
      ∀ l : List Elem, l.Nodup → (∀ x ∈ l, x ∈ c.elems ∧ Spec.InRange r x.bkey ∧ Passes f x.eflag) → l.length ≤ offset := by
    intro h1 l h2 h3
    exact Nat.le_trans (h2.length_le_of_subset fun x hx => mem_matching.mpr (h3 x hx)) h1
  simp only [Step] at h
  split at h
  · rcases hrep with rfl | rfl <;> cases h.1
  · rcases h with ⟨h0, -, h⟩ | ⟨-, -, h, -⟩ | ⟨-, -, h⟩
    · refine ⟨h, key (Nat.le_trans ?_ h0)⟩
      exact (matching_nodup hnd).length_le_of_subset fun x hx => (mem_matching.mp hx).1
    · rcases hrep with rfl | rfl <;> cases h
    · split at h
      · rcases hrep with rfl | rfl <;> cases h.1
      · obtain ⟨hint', -, ⟨h1, -, h2⟩ | ⟨hne, h⟩⟩ := h
        · exact ⟨h2, key (select_empty h1)⟩
        · split at h <;> rcases hrep with rfl | rfl <;> cases h.1

/-- C19: a count is the number of elements in the range that pass the filter. -/
theorem C19_count {mx : Nat} {c : C} {σ' : S} {r : Range} {f : Option EFilter} {n : Nat} (ho : Ordered c)
    (h : Step mx (some c) (.count r f) (.count n) σ') :
    σ' = some c ∧ ∃ l : List Elem, l.Nodup ∧ l.length = n ∧ ∀ x, x ∈ l ↔ x ∈ c.elems ∧ Spec.InRange r x.bkey ∧ Passes f x.eflag := by
  have hnd : c.elems.Nodup := nodup ho
  simp only [Step] at h
  obtain ⟨h1, h2⟩ := h
  refine ⟨h1, matching r f c.elems, matching_nodup hnd, ?_, fun x => mem_matching⟩
  split at h2
  · cases h2
  · rcases h2 with ⟨-, h2⟩ | ⟨-, h2⟩
    · cases h2
    · injection h2 with h2; exact h2.symm

/-- C18, C19: a deletion takes away exactly the first `count` elements (all, if 0) of the range that pass the filter. -/
theorem C19_delete {mx : Nat} {c : C} {σ' : S} {r : Range} {f : Option EFilter} {count n : Nat} {drop dropped : Bool} (ho : Ordered c)
    (h : Step mx (some c) (.delete r f count drop) (.deleted n dropped) σ') :
    ∃ gone post rest, (∀ x, x ∈ gone ++ post ↔ x ∈ c.elems ∧ Spec.InRange r x.bkey ∧ Passes f x.eflag) ∧
      (gone ++ post).Pairwise (Sooner r) ∧ gone.length = n ∧ 0 < n ∧ (count ≠ 0 → n ≤ count) ∧ (post ≠ [] → n = count) ∧
      (∀ x, x ∈ rest ↔ x ∈ c.elems ∧ x ∉ gone) ∧ (dropped = true ↔ rest = [] ∧ drop = true) ∧
      σ' = if dropped then none else some { c with elems := rest } := by
  simp only [Step] at h
  rcases h with ⟨-, h, -⟩ | ⟨-, -, h, -⟩ | ⟨-, -, ⟨-, h, -⟩ | ⟨hne, h, h'⟩⟩
  · cases h
  · cases h
  · cases h
  · obtain ⟨pre, post, p1, p2, p3, p4⟩ := select_cut r f 0 count c.elems hne
    have : pre = [] := List.length_eq_zero_iff.mp p2
    subst this
    rw [List.nil_append] at p1
    injection h with h1 h2
    refine ⟨select r f 0 count c.elems, post, without c.elems (select r f 0 count c.elems), ?_, ?_, h1.symm, ?_, ?_, ?_, ?_, ?_, ?_⟩
    · intro x; rw [← p1]; exact mem_matching
    · rw [← p1]; exact matching_before ho
    · rw [h1]; exact List.length_pos_iff.mpr hne
    · intro hc; rw [h1]; exact p3 hc
    · intro hp; rw [h1]; exact (p4 hp).2
    · intro x; rw [without, List.mem_filter, decide_eq_true_eq]
    · rw [h2, decide_eq_true_eq]
    · rw [h', h2, shrink]
      split
      · rename_i hx; rw [if_pos (decide_eq_true hx)]
      · rename_i hx; rw [if_neg (by rw [decide_eq_true_eq]; exact hx)]

/-- A filter: the first eflag byte AND 0x0f equals 3. -/
def flt : EFilter :=
  { offset := 0, bitwval := [15], nbitwval := 1, ncompval := 1, bitwop := .and, compop := .eq, compvcnt := 1, compval := [3] }

/-- Example: of 20 elements, two pass the filter; they are given in descending order. -/
example : later 21 (answers (step ⟨50000⟩) none
    (crt .smallest 0 :: (List.range 20).map (fun i => .insert ⟨.num i, [i], [49, 13, 10]⟩ false none true true 8 false) ++
      [.count ⟨.num 0, some (.num 1000)⟩ (some flt), .get ⟨.num 30, some (.num 0)⟩ (some flt) 0 0 false false true])) =
    some [.count 2, .elems 7 [⟨.num 19, [19], [49, 13, 10]⟩, ⟨.num 3, [3], [49, 13, 10]⟩] false false] := by
  decide +kernel

/-! ## C20: positions -/

open Classical in
/-- C20: the position of a bkey is the number of elements before it in the order asked for. -/
theorem C20_rank {mx : Nat} {c : C} {σ' : S} {key : BKey} {desc : Bool} {b : Nat} (ho : Ordered c)
    (h : Step mx (some c) (.position key desc) (.position b) σ') :
    σ' = some c ∧ (∃ e ∈ c.elems, e.bkey = key) ∧
      b = c.elems.countP fun x => decide (if desc then KLt key x.bkey else KLt x.bkey key) := by
  simp only [Step] at h
  obtain ⟨h1, h2⟩ := h
  refine ⟨h1, ?_⟩
  split at h2
  · cases h2
  · rcases h2 with ⟨-, -, h2⟩ | ⟨-, ⟨-, h2⟩ | ⟨b', e, hb, he, h2⟩⟩
    · cases h2
    · cases h2
    · injection h2 with h2
      subst h2
      subst he
      cases desc with
      | false =>
        have hb : c.elems[b]? = some e := hb
        refine ⟨⟨e, List.mem_of_getElem? hb, rfl⟩, ?_⟩
        refine (countP_before ho.1 hb ?_ ?_ ?_).symm
        · intro x hx; exact decide_eq_true hx
        · exact decide_eq_false (klt_irrefl _)
        · intro x hx; exact decide_eq_false fun h => klt_asymm hx h
      | true =>
        have hb : c.elems.reverse[b]? = some e := hb
        refine ⟨⟨e, List.mem_reverse.mp (List.mem_of_getElem? hb), rfl⟩, ?_⟩
        rw [← List.countP_reverse]
        refine (countP_before (List.pairwise_reverse.mpr ho.1) hb ?_ ?_ ?_).symm
        · intro x hx; exact decide_eq_true hx
        · exact decide_eq_false (klt_irrefl _)
        · intro x hx; exact decide_eq_false fun h => klt_asymm hx h

/-- C20: reading by position the position of a bkey gives the element with this bkey. -/
theorem C20_inverse {mx : Nat} {c : C} {σ1 σ2 : S} {key : BKey} {desc : Bool} {b : Nat} {r : Rep}
    (h : Step mx (some c) (.position key desc) (.position b) σ1) (h' : Step mx σ1 (.byPosition desc b b true) r σ2) :
    ∃ e ∈ c.elems, e.bkey = key ∧ r = .elems c.flags [e] false false := by
  simp only [Step] at h
  obtain ⟨rfl, h2⟩ := h
  split at h2
  · cases h2
  · rename_i hrd
    rcases h2 with ⟨-, -, h2⟩ | ⟨-, ⟨-, h2⟩ | ⟨b', e, hb, he, h2⟩⟩
    · cases h2
    · cases h2
    · injection h2 with h2
      subst h2
      have hlen : (ordered c desc).length = c.elems.length := by rw [ordered]; split <;> simp
      have hlt : b < c.elems.length := by
        rw [← hlen]
        exact (List.getElem?_eq_some_iff.mp hb).1
      have hmem : e ∈ c.elems := by
        have := List.mem_of_getElem? hb
        rw [ordered] at this
        split at this
        · exact List.mem_reverse.mp this
        · exact this
      refine ⟨e, hmem, he, ?_⟩
      simp only [Step] at h'
      obtain ⟨-, h'⟩ := h'
      rw [if_neg hrd, if_neg (by omega), if_neg (by decide)] at h'
      rw [h', Nat.min_eq_left (by omega), slice, if_pos (Nat.le_refl _), Nat.sub_self, Nat.zero_add]
      congr 1
      obtain ⟨h1, h2⟩ := List.getElem?_eq_some_iff.mp hb
      rw [List.drop_eq_getElem_cons h1, h2, List.take_succ_cons, List.take_zero]

/-- C20: reading by position and asking for the position: the element at a position has this position. -/
theorem C20_inverse' {mx : Nat} {c : C} {σ1 σ2 : S} {desc : Bool} {b : Nat} {flags : Nat} {e : Elem} {l : List Elem} {x y : Bool} {r : Rep}
    (ho : Ordered c) (hb : b < c.elems.length)
    (h : Step mx (some c) (.byPosition desc b b true) (.elems flags l x y) σ1) (he : e ∈ l)
    (h' : Step mx σ1 (.position e.bkey desc) r σ2) : l = [e] ∧ r = .position b := by
  simp only [Step] at h
  obtain ⟨rfl, h⟩ := h
  split at h
  · cases h
  · rename_i hrd
    rw [if_neg (by omega), if_neg (by decide), Nat.min_eq_left (by omega), slice, if_pos (Nat.le_refl _), Nat.sub_self, Nat.zero_add] at h
    have hlen : (ordered c desc).length = c.elems.length := by rw [ordered]; split <;> simp
    have hb' : b < (ordered c desc).length := by omega
    rw [List.drop_eq_getElem_cons hb', List.take_succ_cons, List.take_zero] at h
    injection h with _ h
    subst h
    rw [List.mem_singleton] at he
    refine ⟨by rw [he], ?_⟩
    have hget : (ordered c desc)[b]? = some e := by rw [he]; exact List.getElem?_eq_getElem hb'
    have hsub : ∀ z, z ∈ ordered c desc ↔ z ∈ c.elems := by
      intro z; rw [ordered]; split
      · exact List.mem_reverse
      · rfl
    have hmem : e ∈ c.elems := (hsub e).mp (List.mem_of_getElem? hget)
    have hinj : ∀ i z, (ordered c desc)[i]? = some z → z.bkey = e.bkey → i = b := by
      intro i z hi hz
      obtain ⟨i1, i2⟩ := List.getElem?_eq_some_iff.mp hi
      obtain ⟨b1, b2⟩ := List.getElem?_eq_some_iff.mp hget
      have hp : (ordered c desc).Pairwise (fun p q => p.bkey ≠ q.bkey) := by
        rw [ordered]; split
        · rw [List.pairwise_reverse]
          exact ho.1.imp fun {p q} h1 (h2 : q.bkey = p.bkey) => absurd h1 (by rw [h2]; exact klt_irrefl _)
        · exact ho.1.imp fun {p q} h1 (h2 : p.bkey = q.bkey) => absurd h1 (by rw [h2]; exact klt_irrefl _)
      rcases Nat.lt_trichotomy i b with hlt | hlt | hlt
      · have := List.pairwise_iff_getElem.mp hp i b i1 b1 hlt
        rw [i2, b2] at this; exact absurd hz this
      · exact hlt
      · have := List.pairwise_iff_getElem.mp hp b i b1 i1 hlt
        rw [i2, b2] at this; exact absurd hz.symm this
    simp only [Step] at h'
    obtain ⟨-, h'⟩ := h'
    rw [if_neg hrd] at h'
    rcases h' with ⟨-, ⟨t, h1, h2⟩, -⟩ | ⟨-, ⟨h1, -⟩ | ⟨i, z, h1, h2, h3⟩⟩
    · rw [(ho.2 e hmem).2] at h1
      injection h1 with h1
      exact absurd h1.symm h2
    · exact absurd rfl (h1 e hmem)
    · rw [h3, hinj i z h1 h2]

/-- C20: position with get: the answer holds the elements around the bkey and tells where among them the bkey is. -/
theorem C20_around {mx : Nat} {c : C} {σ' : S} {key : BKey} {desc : Bool} {count b flags i : Nat} {l : List Elem} {rmem : Bool}
    (h : Step mx (some c) (.around key desc count rmem) (.around b flags l i) σ') :
    ∃ e : Elem, (ordered c desc)[b]? = some e ∧ e.bkey = key ∧ l[i]? = some e ∧ i = min b count ∧
      l.length = i + 1 + min count (c.elems.length - 1 - b) ∧
      ∀ j, j < l.length → l[j]? = (ordered c desc)[b - i + j]? := by
  simp only [Step] at h
  obtain ⟨-, h⟩ := h
  split at h
  · cases h
  · split at h
    · cases h
    · rcases h with ⟨-, h⟩ | ⟨-, h⟩
      · cases h
      · split at h
        · cases h
        · rcases h with ⟨-, h⟩ | ⟨b', e, hb, he, h⟩
          · cases h
          · injection h with h1 h2 h3 h4
            subst h1 h3 h4
            have hlen : (ordered c desc).length = c.elems.length := by rw [ordered]; split <;> simp
            obtain ⟨b1, b2⟩ := List.getElem?_eq_some_iff.mp hb
            have hl : (slice (ordered c desc) (b - count) (b + count)).length = min b count + 1 + min count (c.elems.length - 1 - b) := by
              rw [slice, if_pos (by omega), List.length_take, List.length_drop]; omega
            have hj : ∀ j, j < (slice (ordered c desc) (b - count) (b + count)).length →
                (slice (ordered c desc) (b - count) (b + count))[j]? = (ordered c desc)[b - min b count + j]? := by
              intro j hj
              rw [hl] at hj
              rw [slice, if_pos (by omega), List.getElem?_take_of_lt (by omega), List.getElem?_drop]
              congr 1; omega
            refine ⟨e, hb, he, ?_, rfl, hl, hj⟩
            rw [hj (min b count) (by omega), ← hb]
            congr 1; omega

/-- Example: positions in both directions, elements around a bkey, elements by position. -/
example : later 6 (answers (step ⟨50000⟩) none
    [crt .smallest 0, ins 50 1, ins 10 2, ins 40 3, ins 20 4, ins 30 5, .position (.num 40) false, .position (.num 40) true,
     .position (.num 41) false, .around (.num 20) false 2 true, .byPosition true 1 1 true, .byPosition false 4 2 true]) =
    some [.position 3, .position 1, .elemEnoent, .around 1 7 [el 10 2, el 20 4, el 30 5, el 40 3] 1, .elems 7 [el 40 3] false false,
      .elems 7 [el 50 1, el 40 3, el 30 5] false false] := by
  decide +kernel

/-! ## C21: overflow -/

/-- C21: never more elements than the maximum count, in every state of every run. -/
theorem C21_bound (cfg : Cfg) (h : 4000 ≤ cfg.maxSize) :
    ImplementsUntil (step cfg) none (fun σ op r σ' => Step cfg.maxSize σ op r σ' ∧ Bounded cfg.maxSize σ') Legal start Stuck := by
  refine of_simulation_until (fun σ s => RelS σ s ∧ Bounded cfg.maxSize σ) ⟨trivial, fun c hc => by cases hc⟩ ?_
  rintro σ s op ⟨R, hb⟩ hl
  rcases step_sim (Nat.lt_of_lt_of_le (by decide) h) R hl with h1 | ⟨s', r, σ', h1, h2, h3⟩
  · exact .inl h1
  · have := step_bounded h hb h2
    exact .inr ⟨s', r, σ', h1, ⟨h2, this⟩, h3, this⟩

/-- A new element comes to a full collection; its key is of the right kind, memory suffices, and no maximum range is set. -/
structure Overflows (mx : Nat) (c : C) (e : Elem) (mem : Nat) (full : Bool) : Prop where
  isfull : c.cap mx ≤ c.elems.length
  some : c.elems ≠ []
  fresh : ∀ x ∈ c.elems, x.bkey ≠ e.bkey
  kind : ¬ c.Alien e.bkey
  range : c.maxRange = none
  mem : 8 ≤ mem
  room : ¬ (c.sticky = true ∧ full = true)

/-- C21: with the overflow action `error`, an insertion into a full collection is refused and changes nothing; with
`smallest_trim` and `smallest_silent_trim` exactly the smallest element goes, unless the new one would be the smallest: then it is
refused as out of range; with `largest_trim` and `largest_silent_trim` exactly the largest.  The trimmed mark is set for the two
actions that are not silent, and the trimmed element is reported if this was asked for. -/
theorem C21_overflow {mx : Nat} {c : C} {σ' : S} {e : Elem} {rp : Bool} {a : Option Attr} {want imem : Bool} {mem : Nat} {full : Bool} {r : Rep}
    (ho : Ordered c) (hl : Legal (some c) (.insert e rp a want imem mem full)) (hf : Overflows mx c e mem full)
    (h : Step mx (some c) (.insert e rp a want imem mem full) r σ') :
    ∃ c', σ' = some c' ∧ c'.trimmed = (c.trimmed || decide (c.ovfl = .smallest ∨ c.ovfl = .largest)) ∧
      ((c.ovfl = .error ∧ r = .eoverflow ∧ c' = c) ∨
       (TrimsLow c.ovfl ∧ Under c e.bkey ∧ r = .ebkeyoor ∧ c'.elems = c.elems) ∨
       (TrimsHigh c.ovfl ∧ Over c e.bkey ∧ r = .ebkeyoor ∧ c'.elems = c.elems) ∨
       (TrimsLow c.ovfl ∧ ∃ m ∈ c.elems, (∀ x ∈ c.elems, x ≠ m → KLt m.bkey x.bkey) ∧ KLt m.bkey e.bkey ∧
         r = .inserted false false (if want then some (m, c.flags) else none) ∧ ∀ x, x ∈ c'.elems ↔ x = e ∨ (x ∈ c.elems ∧ x ≠ m)) ∨
       (TrimsHigh c.ovfl ∧ ∃ m ∈ c.elems, (∀ x ∈ c.elems, x ≠ m → KLt x.bkey m.bkey) ∧ KLt e.bkey m.bkey ∧
         r = .inserted false false (if want then some (m, c.flags) else none) ∧ ∀ x, x ∈ c'.elems ↔ x = e ∨ (x ∈ c.elems ∧ x ≠ m))) := by
  simp only [Step] at h
  obtain ⟨o, c', h1, rfl, rfl⟩ := h
  refine ⟨c', rfl, ?_⟩
  have low : TrimsLow c.ovfl → decide (c.ovfl = .smallest) = decide (c.ovfl = .smallest ∨ c.ovfl = .largest) := by
    rintro (h | h) <;> rw [h] <;> decide
  have high : TrimsHigh c.ovfl → decide (c.ovfl = .largest) = decide (c.ovfl = .smallest ∨ c.ovfl = .largest) := by
    rintro (h | h) <;> rw [h] <;> decide
  cases h1 with
  | alien _ h => exact absurd h hf.kind
  | nomem h => exact absurd hf.mem (by omega)
  | stickyFull h1 h2 => exact absurd ⟨h1, h2⟩ hf.room
  | dup old h1 h2 => exact absurd h2 (hf.fresh old h1)
  | replFull old h1 h2 => exact absurd h2 (hf.fresh old h1)
  | repl old h1 h2 => exact absurd h2 (hf.fresh old h1)
  | first _ h => exact absurd h hf.some
  | new _ _ _ h => exact absurd hf.isfull (by omega)
  | overflow _ _ _ _ h => exact ⟨by rw [h]; simp, .inl ⟨h, rfl, rfl⟩⟩
  | underTrimmed _ _ _ _ h hu => exact ⟨by rw [← low h], .inr (.inl ⟨h, hu, rfl, rfl⟩)⟩
  | overTrimmed _ _ _ _ h hu => exact ⟨by rw [← high h], .inr (.inr (.inl ⟨h, hu, rfl, rfl⟩))⟩
  | trimLow m l ha _ _ _ h hu hp =>
    obtain ⟨p1, p2, p3, p4⟩ := place_head ho hl.1 ha hu hp
    exact ⟨by rw [← low h], .inr (.inr (.inr (.inl ⟨h, m, p1, p2, p3, rfl, p4⟩)))⟩
  | trimHigh m l ha _ _ _ h hu hp =>
    obtain ⟨p1, p2, p3, p4⟩ := place_last ho hl.1 ha hu hp
    exact ⟨by rw [← high h], .inr (.inr (.inr (.inr ⟨h, m, p1, p2, p3, rfl, p4⟩)))⟩
  | tooLow mr _ h => have h0 := h.1; rw [hf.range] at h0; cases h0
  | tooHigh mr _ h => have h0 := h.1; rw [hf.range] at h0; cases h0
  | rangeLow mr _ _ _ h => have h0 := h.1; rw [hf.range] at h0; cases h0
  | rangeHigh mr _ _ _ h => have h0 := h.1; rw [hf.range] at h0; cases h0

/-- C21: the trimmed mark appears only through an insertion into a full collection with a trimming action that is not silent. -/
theorem C21_mark {mx : Nat} {c c' : C} {op : Op} {r : Rep} (h : Step mx (some c) op r (some c')) (h0 : c.trimmed = false) (h1 : c'.trimmed = true) :
    (c.ovfl = .smallest ∨ c.ovfl = .largest) ∧ c.cap mx ≤ c.elems.length := by
  have hshrink : ∀ l d, shrink c l d = some c' → False := by
    intro l d hs
    rw [shrink] at hs
    split at hs
    · cases hs
    · cases hs; rw [h0] at h1; cases h1
  have hsame : some c' = some c → False := fun hs => by cases hs; rw [h0] at h1; cases h1
  have hins : ∀ e rp mem full o, Insert mx c e rp mem full o c' → (c.ovfl = .smallest ∨ c.ovfl = .largest) ∧ c.cap mx ≤ c.elems.length := by
    intro e rp mem full o hi
    cases hi with
    | alien => exact absurd h1 (by rw [h0]; exact Bool.false_ne_true)
    | nomem => exact absurd h1 (by rw [h0]; exact Bool.false_ne_true)
    | stickyFull => exact absurd h1 (by rw [h0]; exact Bool.false_ne_true)
    | dup => exact absurd h1 (by rw [h0]; exact Bool.false_ne_true)
    | replFull => exact absurd h1 (by rw [h0]; exact Bool.false_ne_true)
    | repl => exact absurd h1 (by simp only; rw [h0]; exact Bool.false_ne_true)
    | first => exact absurd h1 (by simp only; rw [h0]; exact Bool.false_ne_true)
    | new => exact absurd h1 (by simp only; rw [h0]; exact Bool.false_ne_true)
    | overflow => exact absurd h1 (by rw [h0]; exact Bool.false_ne_true)
    | underTrimmed _ _ _ hf => simp only [h0, Bool.false_or, decide_eq_true_eq] at h1; exact ⟨.inl h1, hf⟩
    | overTrimmed _ _ _ hf => simp only [h0, Bool.false_or, decide_eq_true_eq] at h1; exact ⟨.inr h1, hf⟩
    | trimLow _ _ _ _ _ hf => simp only [h0, Bool.false_or, decide_eq_true_eq] at h1; exact ⟨.inl h1, hf⟩
    | trimHigh _ _ _ _ _ hf => simp only [h0, Bool.false_or, decide_eq_true_eq] at h1; exact ⟨.inr h1, hf⟩
    | tooLow => exact absurd h1 (by rw [h0]; exact Bool.false_ne_true)
    | tooHigh => exact absurd h1 (by rw [h0]; exact Bool.false_ne_true)
    | rangeLow => exact absurd h1 (by simp only; rw [h0]; exact Bool.false_ne_true)
    | rangeHigh => exact absurd h1 (by simp only; rw [h0]; exact Bool.false_ne_true)
  cases op with
  | create a imem => simp only [Step] at h; exact (hsame h.2).elim
  | insert e rp a want imem mem full =>
    simp only [Step] at h
    obtain ⟨o, c1, h2, -, h3⟩ := h
    cases h3
    exact hins _ _ _ _ _ h2
  | update key u v busy amem full =>
    simp only [Step] at h
    rcases h with ⟨-, -, h⟩ | ⟨-, -, -, h⟩ | ⟨-, -, ⟨-, -, h⟩ | ⟨e, -, -, ⟨-, -, h⟩ | ⟨-, -, h, -⟩ | ⟨-, -, h⟩⟩⟩
    · exact (hsame h).elim
    · exact (hsame h).elim
    · exact (hsame h).elim
    · exact (hsame h).elim
    · exact (hsame h).elim
    · cases h; exact absurd h1 (by simp only; rw [h0]; exact Bool.false_ne_true)
  | delete r f count drop =>
    simp only [Step] at h
    rcases h with ⟨-, -, h⟩ | ⟨-, -, -, h⟩ | ⟨-, -, ⟨-, -, h⟩ | ⟨-, -, h⟩⟩
    · exact (hsame h).elim
    · exact (hsame h).elim
    · exact (hsame h).elim
    · exact (hshrink _ _ h.symm).elim
  | arith key incr create delta initial eflag busy amem mem full rest =>
    simp only [Step] at h
    rcases h with ⟨-, -, h⟩ | ⟨-, ⟨-, h⟩ | ⟨e, -, -, h⟩⟩
    · exact (hsame h).elim
    · split at h
      · exact (hsame h.2).elim
      · rcases h with ⟨-, -, h⟩ | ⟨o, c1, h2, h3, -⟩
        · exact (hsame h).elim
        · cases h3
          exact hins _ _ _ _ _ h2
    · split at h
      · split at h
        · exact (hsame h.2).elim
        · rcases h with ⟨-, h⟩ | ⟨-, h, -⟩
          · cases h; exact absurd h1 (by simp only; rw [h0]; exact Bool.false_ne_true)
          · exact (hsame h).elim
      · exact (hsame h.2).elim
  | get r f offset count del drop rmem =>
    simp only [Step] at h
    split at h
    · exact (hsame h.2).elim
    · rcases h with ⟨-, -, h⟩ | ⟨-, -, -, h⟩ | ⟨-, -, h⟩
      · exact (hsame h).elim
      · exact (hsame h).elim
      · split at h
        · exact (hsame h.2).elim
        · obtain ⟨hint, -, ⟨-, -, h⟩ | ⟨-, h⟩⟩ := h
          · exact (hsame h).elim
          · split at h
            · exact (hsame h.2).elim
            · exact (hshrink _ _ h.2.symm).elim
  | count r f => simp only [Step] at h; exact (hsame h.1).elim
  | position key desc => simp only [Step] at h; exact (hsame h.1).elim
  | around key desc count rmem => simp only [Step] at h; exact (hsame h.1).elim
  | byPosition desc lo hi rmem => simp only [Step] at h; exact (hsame h.1).elim
  | setattr m o rd mr =>
    simp only [Step] at h
    rcases h with ⟨-, -, h⟩ | ⟨-, -, h⟩
    · exact (hsame h).elim
    · cases h
      cases o with
      | none => exact absurd h1 (by simp only [setAttrs]; rw [h0]; exact Bool.false_ne_true)
      | some x => exact absurd h1 (by simp only [setAttrs]; rw [h0]; exact Bool.false_ne_true)
  | getattr => simp only [Step] at h; exact (hsame h.1).elim
  | remove => simp only [Step] at h; cases h.2

/-- Example: a full collection of three; the new element 5 is refused, 25 pushes out 10; the mark is set. -/
example : later 4 (answers (step ⟨50000⟩) none
    [crt .smallest 3, ins 10 1, ins 20 2, ins 30 3, ins 5 4, ins 25 5, get 0 99 0 0, .getattr]) =
    some [.ebkeyoor, .inserted false false (some (el 10 1, 7)), .elems 7 [el 20 2, el 25 5, el 30 3] false true,
      .attrs 3 3 .smallest true true none (some (.num 20, .num 30))] := by
  decide +kernel

/-- Example: silent trimming of the largest leaves no mark; `error` refuses. -/
example : later 4 (answers (step ⟨50000⟩) none
    [crt .largestSilent 3, ins 10 1, ins 20 2, ins 30 3, ins 25 5, get 0 99 0 0, .setattr none (some .error) none none, ins 1 6]) =
    some [.inserted false false (some (el 30 3, 7)), .elems 7 [el 10 1, el 20 2, el 25 5] false false, .ok, .eoverflow] := by
  decide +kernel

/-! ## C22: the maximum range -/

/-- C22: in every state of every run the difference of two keys is at most the maximum range.  Partial: keys are numbers, or byte
strings exactly as long as the maximum range (`Uniform`); `C22_mixed_false` shows that the claim fails otherwise. -/
theorem C22_range_partial (cfg : Cfg) (h : 0 < cfg.maxSize) :
    ImplementsUntil (step cfg) none (fun σ op r σ' => Step cfg.maxSize σ op r σ' ∧ SpannedS σ')
      (fun σ op => Legal σ op ∧ Uniform σ op) start Stuck := by
  refine of_simulation_until (fun σ s => RelS σ s ∧ SpannedS σ) ⟨trivial, fun c hc => by cases hc⟩ ?_
  rintro σ s op ⟨R, hb⟩ ⟨hl, hu⟩
  rcases step_sim h R hl with h1 | ⟨s', r, σ', h1, h2, h3⟩
  · exact .inl h1
  · have := step_spanned R hl hu hb h2
    exact .inr ⟨s', r, σ', h1, ⟨h2, this⟩, h3, this⟩

/-- C22 fails for byte strings of mixed lengths: with a maximum range of 5 (one byte), a collection ends up with the smallest key
0x0409 and the largest key 0x0a, which are 6 apart in their first byte. -/
theorem C22_mixed_false : later 5 (answers (step ⟨50000⟩) none
    [crt .smallest 0, .setattr none none none (some (some (.bin [5]))), insB [4, 7] 1, insB [4, 9] 2, insB [10] 3, .getattr]) =
      some [.attrs 2 4000 .smallest true false (some (.bin [5])) (some (.bin [4, 9], .bin [10]))] ∧
    Wide (.bin [5]) (.bin [10]) (.bin [4, 9]) := by
  refine ⟨by decide +kernel, ?_⟩
  show Value 1 (.bin [5]) < Value 1 (.bin [10]) - Value 1 (.bin [4, 9])
  decide +kernel

/-- Example: a maximum range of 10; 25 makes 10 go, 50 all others; a key too low is refused. -/
example : later 5 (answers (step ⟨50000⟩) none
    [crt .smallest 0, .setattr none none none (some (some (.num 10))), ins 10 1, ins 20 2, ins 15 3, ins 25 4, get 0 99 0 0, ins 14 5, ins 50 6,
     get 0 99 0 0]) =
    some [.inserted false false none, .elems 7 [el 15 3, el 20 2, el 25 4] false false, .ebkeyoor, .inserted false false none,
      .elems 7 [el 50 6] false false] := by
  decide +kernel

/-! ## C23: the trimmed indicator -/

/-- The read asks for elements beyond the end at which elements were trimmed, and walks that far. -/
def Reaches (c : C) (r : Range) (f : Option EFilter) (offset count : Nat) : Prop :=
  (c.ovfl = .smallest ∧ (∃ k, Spec.InRange r k ∧ Under c k) ∧ ¬ (Descending r ∧ Satisfied c r f offset count)) ∨
  (c.ovfl = .largest ∧ (∃ k, Spec.InRange r k ∧ Over c k) ∧ ¬ (Ascending r ∧ Satisfied c r f offset count))

/-- C23: if elements were trimmed and the read covers keys beyond that end, the answer says `TRIMMED`, or that the range is out of
bounds if nothing is left of it.  Partial: the read is without delete, and its offset is below the number of elements
(`C23_offset_false`, `C23_delete_false`). -/
theorem C23_told_partial {mx : Nat} {c : C} {σ' : S} {r : Range} {f : Option EFilter} {offset count : Nat} {drop : Bool} {rep : Rep}
    (hrd : c.readable = true) (hk : ¬ c.Alien r.lo) (ht : c.trimmed = true) (hoff : offset < c.elems.length) (hr : Reaches c r f offset count)
    (h : Step mx (some c) (.get r f offset count false drop true) rep σ') :
    rep = .ebkeyoor ∨ ∃ l, rep = .elems c.flags l false true := by
  have hh : Hint c r f offset count := by
    refine ⟨ht, ?_⟩
    rcases hr with ⟨ho, ⟨k, h1, h2⟩, h3⟩ | ⟨ho, ⟨k, h1, h2⟩, h3⟩
    · left
      refine ⟨ho, ?_⟩
      by_cases hd : Descending r
      · obtain ⟨b, hb, hlt⟩ := hd
        exact .inr ⟨⟨b, hb, hlt⟩, fun hs => h3 ⟨⟨b, hb, hlt⟩, hs⟩, .inl ⟨b, hb, Under.le h2 (range_desc hb hlt h1).1⟩⟩
      · exact .inl ⟨hd, Under.le h2 (range_asc hd h1)⟩
    · right
      refine ⟨ho, ?_⟩
      by_cases hd : Ascending r
      · obtain ⟨b, hb, hlt⟩ := hd
        exact .inr ⟨⟨b, hb, hlt⟩, fun hs => h3 ⟨⟨b, hb, hlt⟩, hs⟩, .inl ⟨b, hb, Over.le h2 (range_asc' hb hlt h1).2⟩⟩
      · exact .inl ⟨hd, Over.le h2 (range_not_asc hd h1)⟩
  simp only [Step] at h
  rw [if_neg (by simp [hrd])] at h
  rcases h with ⟨h0, -⟩ | ⟨-, h0, -⟩ | ⟨-, -, h⟩
  · omega
  · exact absurd h0 hk
  · rw [if_neg (by decide)] at h
    obtain ⟨hint, h1, h⟩ := h
    have : hint = true := h1.mpr hh
    subst this
    rcases h with ⟨-, h, -⟩ | ⟨-, h⟩
    · exact .inl h
    · rw [if_pos trivial] at h
      exact .inr ⟨_, h.1⟩

/-- C23: the answer says so only if elements were trimmed. -/
theorem C23_only {mx : Nat} {c : C} {σ' : S} {r : Range} {f : Option EFilter} {offset count : Nat} {del drop rmem : Bool} {rep : Rep}
    (h : Step mx (some c) (.get r f offset count del drop rmem) rep σ') (hrep : rep = .ebkeyoor ∨ ∃ fl l d, rep = .elems fl l d true) :
    c.trimmed = true := by
  simp only [Step] at h
  split at h
  · rcases hrep with rfl | ⟨fl, l, d, rfl⟩ <;> cases h.1
  · rcases h with ⟨-, h, -⟩ | ⟨-, -, h, -⟩ | ⟨-, -, h⟩
    · rcases hrep with rfl | ⟨fl, l, d, rfl⟩ <;> cases h
    · rcases hrep with rfl | ⟨fl, l, d, rfl⟩ <;> cases h
    · split at h
      · rcases hrep with rfl | ⟨fl, l, d, rfl⟩ <;> cases h.1
      · obtain ⟨hint, h1, h⟩ := h
        cases hint with
        | true => exact (h1.mp rfl).1
        | false =>
          rcases h with ⟨-, h, -⟩ | ⟨-, h⟩
          · rcases hrep with rfl | ⟨fl, l, d, rfl⟩ <;> cases h
          · split at h
            · rcases hrep with rfl | ⟨fl, l, d, rfl⟩ <;> cases h.1
            · rcases hrep with rfl | ⟨fl, l, d, rfl⟩ <;> cases h.1

/-- Example: after 10 was trimmed, a read from 0 tells it, a read from 20 does not, a read of 0..5 is out of range; a descending
read that is satisfied before does not tell it. -/
example : later 5 (answers (step ⟨50000⟩) none
    [crt .smallest 3, ins 10 1, ins 20 2, ins 30 3, ins 40 4, get 0 20 0 0, get 20 99 0 0, get 0 5 0 0, get 99 0 0 0, get 99 0 0 2]) =
    some [.elems 7 [el 20 2] false true, .elems 7 [el 20 2, el 30 3, el 40 4] false false, .ebkeyoor,
      .elems 7 [el 40 4, el 30 3, el 20 2] false true, .elems 7 [el 40 4, el 30 3] false false] := by
  decide +kernel

/-- C23 fails for offsets not below the number of elements: the same read of the trimmed area with offset 3 answers that there is
no element; with offset 2 it is told. -/
theorem C23_offset_false : later 5 (answers (step ⟨50000⟩) none
    [crt .smallest 3, ins 10 1, ins 20 2, ins 30 3, ins 40 4, get 0 5 2 0, get 0 5 3 0]) = some [.ebkeyoor, .elemEnoent] := by
  decide +kernel

/-- C23 fails for reads with delete: the answer does not tell that 10 was trimmed. -/
theorem C23_delete_false : later 5 (answers (step ⟨50000⟩) none
    [crt .smallest 3, ins 10 1, ins 20 2, ins 30 3, ins 40 4, .get ⟨.num 0, some (.num 20)⟩ none 0 0 true false true]) =
      some [.elems 7 [el 20 2] false false] := by
  decide +kernel

/-- The answer may also say `TRIMMED` wrongly: 30 was trimmed at the upper end, and a read of 21..25 that holds the largest element 25
as its only one says so although it does not pass this element. -/
theorem C23_spurious : later 5 (answers (step ⟨50000⟩) none
    [crt .largest 3, ins 10 1, ins 20 2, ins 30 3, ins 25 4, get 21 25 0 0, get 20 25 0 0]) =
      some [.elems 7 [el 25 4] false true, .elems 7 [el 20 2, el 25 4] false false] := by
  decide +kernel

end Verif.BT.Props
