import Verif.Lemmas.PrefixAcct
/-! # The table of prefixes -/
namespace Verif.Prefix
open Verif.Util
open Spec (Itm under owner figures S GoodName NameByte internalName place record)

abbrev Held := List (Option Nat × Option (List Nat))

/-- How often a prefix is referred to by scans. -/
def refs (held : Held) (i : Nat) : Nat := (held.filter fun h => decide (h.1 = some i)).length

/-- A prefix in memory. -/
structure PtOk (held : Held) (fresh i : Nat) (pt : Pt) : Prop where
  lt : i < fresh
  len : pt.nprefix = pt.bytes.length
  ne : pt.bytes ≠ []
  short : pt.bytes.length ≤ 255
  good : GoodName pt.bytes
  int : pt.internal = decide (pt.bytes = internalName)
  ref : pt.refcount = refs held i
  alive : pt.islinked = true ∨ 0 < pt.refcount

/-- The table, apart from the counters. -/
structure Shape (cfg : Cfg) (held : Held) (s : St) : Prop where
  pts : ∀ i pt, s.heap i = some pt → PtOk held s.fresh i pt
  tab : ∀ b i, i ∈ s.table b ↔ ∃ pt, s.heap i = some pt ∧ pt.islinked = true ∧ bucket (cfg.hash pt.bytes) = b
  nd : ∀ b, (s.table b).Nodup
  uniq : ∀ i j pt pt', s.heap i = some pt → s.heap j = some pt' → pt.islinked = true → pt'.islinked = true → pt.bytes = pt'.bytes → i = j
  total : s.total = (allIds s).length
  few : s.total < 2 ^ 31
  held : ∀ p nm, (p, nm) ∈ held → (p = none ∧ nm = none) ∨ ∃ i pt, p = some i ∧ s.heap i = some pt ∧ nm = some pt.bytes

/-- A pointer refers to the prefix of the given name. -/
def Points (s : St) (p : Option Nat) (o : Option (List Nat)) : Prop :=
  (p = none ∧ o = none) ∨ ∃ i pt, p = some i ∧ s.heap i = some pt ∧ pt.islinked = true ∧ o = some pt.bytes

theorem owner_eq (d : Nat) (key : List Nat) : owner d key = (firstDelim d key).map fun n => key.take n := by
  cases key with
  | nil => rfl
  | cons a r =>
    simp only [owner, firstDelim]
    by_cases h : d ∈ r
    · rw [if_pos h, if_pos h]
      simp only [Option.map_some, Option.some.injEq, Nat.add_comm 1, List.take_succ_cons, List.cons.injEq, true_and]
      exact (List.prefix_iff_eq_take.mp (List.takeWhile_prefix _))
    · rw [if_neg h, if_neg h]; rfl

theorem firstDelim_le {d : Nat} {key : List Nat} {n : Nat} (h : firstDelim d key = some n) : 0 < n ∧ n ≤ key.length := by
  cases key with
  | nil => simp [firstDelim] at h
  | cons a r =>
    simp only [firstDelim] at h
    split at h
    · simp only [Option.some.injEq] at h
      have : (r.takeWhile (· != d)).length ≤ r.length := List.IsPrefix.length_le (List.takeWhile_prefix _)
      simp only [List.length_cons]
      omega
    · simp at h

theorem named_iff {pt : Pt} {name : List Nat} {n : Nat} (hl : pt.nprefix = pt.bytes.length) (hn : n ≤ name.length) :
    named pt name n = true ↔ pt.bytes = name.take n := by
  unfold named
  rw [hl]
  simp only [Bool.and_eq_true, decide_eq_true_eq]
  constructor
  · rintro ⟨h1, h2⟩
    rw [h1, List.take_length] at h2
    rw [h1]; exact h2
  · intro h
    have h1 : n = pt.bytes.length := by rw [h, List.length_take]; omega
    refine ⟨h1, ?_⟩
    rw [← h, h1, List.take_length]

theorem findChain_spec {heap : Nat → Option Pt} {name : List Nat} {n : Nat} :
    ∀ {l : List Nat}, (∀ i ∈ l, ∃ pt, heap i = some pt) →
      (findChain heap name n l = some none ∧ ∀ i ∈ l, ∀ pt, heap i = some pt → named pt name n = false) ∨
      ∃ i ∈ l, ∃ pt, heap i = some pt ∧ named pt name n = true ∧ findChain heap name n l = some (some i) := by
  intro l
  induction l with
  | nil => intro _; exact .inl ⟨rfl, by simp⟩
  | cons i l ih =>
    intro h
    obtain ⟨pt, hp⟩ := h i (by simp)
    simp only [findChain, hp]
    by_cases hn : named pt name n = true
    · exact .inr ⟨i, by simp, pt, hp, hn, by rw [if_pos hn]⟩
    · rw [if_neg hn]
      rcases ih fun j hj => h j (by simp [hj]) with ⟨h1, h2⟩ | ⟨j, hj, pt', h1, h2, h3⟩
      · refine .inl ⟨h1, ?_⟩
        intro j hj pt' hp'
        rw [List.mem_cons] at hj
        rcases hj with rfl | hj
        · rw [hp] at hp'; cases hp'; simpa using hn
        · exact h2 j hj pt' hp'
      · exact .inr ⟨j, by simp [hj], pt', h1, h2, h3⟩

/-- Lookup of a name. -/
theorem Shape.find {cfg : Cfg} {held : Held} {s : St} (h : Shape cfg held s) {name : List Nat} {n : Nat} (hn : n ≤ name.length) :
    (find s name n (cfg.hash (name.take n)) = some none ∧
      ∀ i pt, s.heap i = some pt → pt.islinked = true → pt.bytes ≠ name.take n) ∨
    ∃ i pt, s.heap i = some pt ∧ pt.islinked = true ∧ pt.bytes = name.take n ∧
      find s name n (cfg.hash (name.take n)) = some (some i) := by
  have hal : ∀ i ∈ s.table (bucket (cfg.hash (name.take n))), ∃ pt, s.heap i = some pt := by
    intro i hi
    obtain ⟨pt, h1, -⟩ := (h.tab _ _).mp hi
    exact ⟨pt, h1⟩
  rcases findChain_spec (name := name) (n := n) hal with ⟨h1, h2⟩ | ⟨i, hi, pt, h1, h2, h3⟩
  · refine .inl ⟨h1, ?_⟩
    intro i pt hp hl hb
    have := h2 i ((h.tab _ _).mpr ⟨pt, hp, hl, by rw [hb]⟩) pt hp
    rw [(named_iff (h.pts i pt hp).len hn).mpr hb] at this
    cases this
  · obtain ⟨pt', k1, k2, -⟩ := (h.tab _ _).mp hi
    rw [h1] at k1; cases k1
    exact .inr ⟨i, pt, h1, k2, (named_iff (h.pts i pt h1).len hn).mp h2, h3⟩

theorem isValidName_iff {key : List Nat} {n : Nat} (h0 : 0 < n) (hn : n ≤ key.length) :
    isValidName key n = some true ∧ GoodName (key.take n) ∨ isValidName key n = some false ∧ ¬ GoodName (key.take n) := by
  have hc : ∀ c, isNameChar c = true ↔ NameByte c := by
    intro c
    simp only [isNameChar, NameByte, Bool.or_eq_true, Bool.and_eq_true, decide_eq_true_eq, beq_iff_eq]
    omega
  cases key with
  | nil => simp at hn; omega
  | cons a r =>
    cases n with
    | zero => omega
    | succ n =>
      simp only [isValidName, GoodName, List.take_succ_cons, List.head?_cons, ne_eq, Option.some.injEq]
      by_cases ha : a = 45
      · simp [ha]
      · simp only [beq_iff_eq, ha, if_false, not_false_eq_true, true_and, Option.some.injEq]
        cases hb : (a :: r.take n).all isNameChar with
        | true =>
          left
          refine ⟨rfl, ?_⟩
          intro c hc'
          rw [List.all_eq_true] at hb
          exact (hc c).mp (hb c hc')
        | false =>
          right
          refine ⟨rfl, ?_⟩
          intro hg
          rw [List.all_eq_true.mpr fun c hc' => (hc c).mpr (hg c hc')] at hb
          cases hb

theorem isRsvd_iff {key : List Nat} {n : Nat} (hn : n ≤ key.length) : isRsvd key n = decide (key.take n = internalName) := by
  unfold isRsvd internalName
  by_cases h : n = 5
  · subst h; simp
  · rw [decide_eq_false h, Bool.false_and]
    symm
    rw [decide_eq_false_iff_not]
    intro e
    have := congrArg List.length e
    rw [List.length_take] at this
    simp at this
    omega

theorem upd_same {α : Type} (f : Nat → α) (i : Nat) (a : α) : upd f i a i = a := by simp [upd]
theorem upd_ne {α : Type} (f : Nat → α) {i j : Nat} (a : α) (h : j ≠ i) : upd f i a j = f j := by simp [upd, h]

theorem refs_zero {cfg : Cfg} {held : Held} {s : St} (h : Shape cfg held s) {i : Nat} (hi : s.heap i = none) : refs held i = 0 := by
  unfold refs
  rw [List.length_eq_zero_iff, List.filter_eq_nil_iff]
  rintro ⟨p, nm⟩ hm hp
  simp only [decide_eq_true_eq] at hp
  rcases h.held p nm hm with ⟨h1, -⟩ | ⟨j, pt, h1, h2, -⟩
  · rw [hp] at h1; cases h1
  · rw [hp] at h1; cases h1; rw [hi] at h2; cases h2

theorem sum_split (f : Nat → Nat) (n b : Nat) (hb : b < n) (v : Nat) :
    ((List.range n).map fun j => if j = b then v else f j).sum + f b = ((List.range n).map f).sum + v := by
  induction n with
  | zero => omega
  | succ n ih =>
    rw [List.range_succ, List.map_append, List.map_append, List.sum_append, List.sum_append]
    simp only [List.map_cons, List.map_nil, List.sum_cons, List.sum_nil, Nat.add_zero]
    by_cases h : n = b
    · subst h
      have : ((List.range n).map fun j => if j = n then v else f j) = (List.range n).map f := by
        apply List.map_congr_left
        intro j hj
        rw [List.mem_range] at hj
        rw [if_neg (by omega)]
      rw [this, if_pos rfl]
      omega
    · rw [if_neg h]
      have := ih (by omega)
      omega

theorem allIds_length (s : St) : (allIds s).length = ((List.range buckets).map fun b => (s.table b).length).sum := by
  unfold allIds; rw [List.length_flatMap]

theorem allIds_upd (s s' : St) (b : Nat) (hb : b < buckets) (l : List Nat) (h : s'.table = upd s.table b l) :
    (allIds s').length + (s.table b).length = (allIds s).length + l.length := by
  have := sum_split (fun b => (s.table b).length) buckets b hb l.length
  rw [allIds_length, allIds_length]
  have e : (fun b => (s'.table b).length) = fun j => if j = b then l.length else (s.table j).length := by
    funext j
    rw [h]
    by_cases hj : j = b
    · subst hj; rw [upd_same, if_pos rfl]
    · rw [upd_ne _ _ hj, if_neg hj]
  rw [e]
  exact this

theorem bucket_lt (h : Nat) : bucket h < buckets := Nat.mod_lt _ (by decide)

/-- The result of finding or making a prefix. -/
structure Got (cfg : Cfg) (s s' : St) (key : List Nat) (p : Option Nat) : Prop where
  points : Points s' p (owner cfg.delim key)
  null : s'.null = s.null
  items : s'.items = s.items
  cur : s'.currItems = s.currItems ∧ s'.currBytes = s.currBytes
  old : ∀ i pt, s.heap i = some pt → s'.heap i = some pt
  new : ∀ i pt, s'.heap i = some pt → s.heap i = some pt ∨
    (pt.acct = .zero ∧ pt.islinked = true ∧ owner cfg.delim key = some pt.bytes ∧ ∀ j pt', s.heap j = some pt' → pt'.islinked = true → pt'.bytes ≠ pt.bytes)

theorem Shape.getPrefix {cfg : Cfg} {held : Held} {s : St} (h : Shape cfg held s) {key : List Nat} {mem : Bool} (hk : key ≠ [])
    (hs : ∀ p, owner cfg.delim key = some p → p.length ≤ 255) (hf : s.total + 1 < 2 ^ 31) :
    (∃ s' p, getPrefix cfg s key mem = some (.ok (s', p)) ∧ Shape cfg held s' ∧ Got cfg s s' key p ∧
      (∀ nm, owner cfg.delim key = some nm → (∀ i pt, s.heap i = some pt → pt.islinked = true → pt.bytes ≠ nm) → GoodName nm ∧ mem = true)) ∨
    (∃ nm, owner cfg.delim key = some nm ∧ (∀ i pt, s.heap i = some pt → pt.islinked = true → pt.bytes ≠ nm) ∧
      ((getPrefix cfg s key mem = some (.error .ename) ∧ ¬ GoodName nm) ∨
       (getPrefix cfg s key mem = some (.error .nomem) ∧ GoodName nm ∧ mem = false))) := by
  have ho := owner_eq cfg.delim key
  cases hd : firstDelim cfg.delim key with
  | none =>
    rw [hd] at ho
    left
    refine ⟨s, none, by simp only [Prefix.getPrefix, hd], h, ⟨.inl ⟨rfl, ho⟩, rfl, rfl, ⟨rfl, rfl⟩, fun _ _ h => h, fun _ _ h => .inl h⟩, ?_⟩
    intro nm hnm; rw [ho] at hnm; cases hnm
  | some n =>
    rw [hd] at ho
    simp only [Option.map_some] at ho
    obtain ⟨hn0, hn⟩ := firstDelim_le hd
    have hlen : (key.take n).length = n := by rw [List.length_take]; omega
    have hn255 : n ≤ 255 := by have := hs _ ho; omega
    rcases h.find (name := key) hn with ⟨h1, h2⟩ | ⟨i, pt, h1, h2, h3, h4⟩
    · rcases isValidName_iff hn0 hn with ⟨k1, k2⟩ | ⟨k1, k2⟩
      · cases mem with
        | false =>
          right
          exact ⟨_, ho, h2, .inr ⟨by simp only [Prefix.getPrefix, hd, h1, k1]; rfl, k2, rfl⟩⟩
        | true =>
          left
          have hmod : n % 256 = n := Nat.mod_eq_of_lt (by omega)
          have hfind : Prefix.find s (key.take n) n (cfg.hash (key.take n)) = some none := by
            rcases h.find (name := key.take n) (n := n) (by omega) with ⟨e1, -⟩ | ⟨i, pt, e1, e2, e3, -⟩
            · rw [List.take_take, Nat.min_self] at e1; exact e1
            · rw [List.take_take, Nat.min_self] at e3
              exact absurd e3 (h2 i pt e1 e2)
          have hw : (2 : Nat) ^ 31 < w32 := by decide
          have htot : (s.total + 1) % w32 = s.total + 1 := Nat.mod_eq_of_lt (by omega)
          have hfr : s.heap s.fresh = none := by
            cases hh : s.heap s.fresh with
            | none => rfl
            | some pt => exact absurd (h.pts _ _ hh).lt (Nat.lt_irrefl _)
          have hg : Prefix.getPrefix cfg s key true = some (.ok ({ s with
              heap := upd s.heap s.fresh (some ⟨key.take n, n, isRsvd key n, true, 0, .zero⟩)
              fresh := s.fresh + 1
              table := upd s.table (bucket (cfg.hash (key.take n))) (s.fresh :: s.table (bucket (cfg.hash (key.take n))))
              total := s.total + 1 }, some s.fresh)) := by
            simp only [Prefix.getPrefix, hd, h1, k1, insertPt, hmod, hfind, htot, Bool.not_true, Bool.false_eq_true, if_false]
          refine ⟨_, _, hg, ?_, ?_, ?_⟩
          · refine ⟨?_, ?_, ?_, ?_, ?_, ?_, ?_⟩
            · intro i pt hp
              simp only at hp
              by_cases hi : i = s.fresh
              · subst hi
                rw [upd_same] at hp
                cases hp
                refine ⟨Nat.lt_succ_self _, hlen.symm, ?_, by simp only; omega, k2, ?_, ?_, .inl rfl⟩
                · intro e; simp only at e; rw [e] at hlen; simp at hlen; omega
                · exact isRsvd_iff hn
                · exact (refs_zero h hfr).symm
              · rw [upd_ne _ _ hi] at hp
                have w := h.pts i pt hp
                exact ⟨Nat.lt_succ_of_lt w.lt, w.len, w.ne, w.short, w.good, w.int, w.ref, w.alive⟩
            · intro b i
              simp only
              by_cases hi : i = s.fresh
              · subst hi
                have hnot : ∀ b, s.fresh ∉ s.table b := by
                  intro b hb
                  obtain ⟨pt, e, -⟩ := (h.tab _ _).mp hb
                  rw [hfr] at e; cases e
                constructor
                · intro hm
                  by_cases hb : b = bucket (cfg.hash (key.take n))
                  · exact ⟨_, upd_same _ _ _, rfl, hb.symm⟩
                  · rw [upd_ne _ _ hb] at hm; exact absurd hm (hnot b)
                · rintro ⟨pt, e1, e2, e3⟩
                  rw [upd_same] at e1
                  cases e1
                  simp only at e3
                  rw [← e3, upd_same]; simp
              · rw [upd_ne _ _ hi, ← h.tab]
                by_cases hb : b = bucket (cfg.hash (key.take n))
                · subst hb; rw [upd_same]; simp [hi]
                · rw [upd_ne _ _ hb]
            · intro b
              simp only
              by_cases hb : b = bucket (cfg.hash (key.take n))
              · subst hb; rw [upd_same, List.nodup_cons]
                refine ⟨?_, h.nd _⟩
                intro hm
                obtain ⟨pt, e, -⟩ := (h.tab _ _).mp hm
                rw [hfr] at e; cases e
              · rw [upd_ne _ _ hb]; exact h.nd b
            · intro i j pt pt' hi hj hl hl' he
              simp only at hi hj
              by_cases hi' : i = s.fresh
              · by_cases hj' : j = s.fresh
                · omega
                · subst hi'
                  rw [upd_same] at hi; rw [upd_ne _ _ hj'] at hj
                  cases hi
                  exact absurd he.symm (h2 j pt' hj hl')
              · by_cases hj' : j = s.fresh
                · subst hj'
                  rw [upd_same] at hj; rw [upd_ne _ _ hi'] at hi
                  cases hj
                  exact absurd he (h2 i pt hi hl)
                · rw [upd_ne _ _ hi'] at hi; rw [upd_ne _ _ hj'] at hj
                  exact h.uniq i j pt pt' hi hj hl hl' he
            · simp only
              have := allIds_upd s { s with
                  heap := upd s.heap s.fresh (some ⟨key.take n, n, isRsvd key n, true, 0, .zero⟩)
                  fresh := s.fresh + 1
                  table := upd s.table (bucket (cfg.hash (key.take n))) (s.fresh :: s.table (bucket (cfg.hash (key.take n))))
                  total := s.total + 1 } _ (bucket_lt _) _ rfl
              rw [List.length_cons] at this
              have := h.total
              omega
            · simp only; exact hf
            · intro p nm hm
              rcases h.held p nm hm with w | ⟨i, pt, w1, w2, w3⟩
              · exact .inl w
              · refine .inr ⟨i, pt, w1, ?_, w3⟩
                simp only
                rw [upd_ne _ _ (fun e => by rw [e, hfr] at w2; cases w2)]; exact w2
          · refine ⟨.inr ⟨s.fresh, _, rfl, upd_same _ _ _, rfl, ho⟩, rfl, rfl, ⟨rfl, rfl⟩, ?_, ?_⟩
            · intro i pt hp
              simp only
              rw [upd_ne _ _ (fun e => by rw [e, hfr] at hp; cases hp)]; exact hp
            · intro i pt hp
              simp only at hp
              by_cases hi : i = s.fresh
              · subst hi
                rw [upd_same] at hp
                cases hp
                exact .inr ⟨rfl, rfl, ho, fun j pt' a b => h2 j pt' a b⟩
              · rw [upd_ne _ _ hi] at hp; exact .inl hp
          · intro nm hnm _
            rw [ho] at hnm; cases hnm; exact ⟨k2, rfl⟩
      · right
        exact ⟨_, ho, h2, .inl ⟨by simp only [Prefix.getPrefix, hd, h1, k1], k2⟩⟩
    · left
      refine ⟨s, some i, by simp only [Prefix.getPrefix, hd, h4], h, ⟨.inr ⟨i, pt, rfl, h1, h2, by rw [ho, h3]⟩, rfl, rfl, ⟨rfl, rfl⟩, fun _ _ h => h, fun _ _ h => .inl h⟩, ?_⟩
      intro nm hnm hno
      rw [ho] at hnm; cases hnm
      exact absurd h3 (hno i pt h1 h2)

end Verif.Prefix
