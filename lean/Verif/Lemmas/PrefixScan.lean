import Verif.Lemmas.PrefixStep
/-! # Dumps, scans and releases -/
namespace Verif.Prefix
open Verif.Util
open Spec (Itm under owner figures S GoodName NameByte internalName place record crowd)

/-! ## Dumps -/

theorem deref_spec {heap : Nat → Option Pt} : ∀ {l : List Nat}, (∀ i ∈ l, ∃ pt, heap i = some pt) →
    ∃ pts, deref heap l = some pts ∧ pts.map some = l.map heap := by
  intro l
  induction l with
  | nil => intro _; exact ⟨[], rfl, rfl⟩
  | cons i l ih =>
    intro h
    obtain ⟨pt, hp⟩ := h i (by simp)
    obtain ⟨pts, h1, h2⟩ := ih fun j hj => h j (by simp [hj])
    exact ⟨pt :: pts, by simp only [deref, hp, h1], by simp [hp, h2]⟩

theorem Rel.line_eq {cfg : Cfg} {σ : S} {s : St} (h : Rel cfg σ s) {i : Nat} {pt : Pt} (hi : s.heap i = some pt) (hl : pt.islinked = true) :
    line (some pt.bytes) pt.acct = record cfg.delim σ (some pt.bytes) := by
  have hu := wsum_lt_items h.itms (some pt.bytes)
  simp only [line, record, h.acc.acct i pt hi hl, ← acct_figures hu.1 hu.2]

theorem Rel.line_null {cfg : Cfg} {σ : S} {s : St} (h : Rel cfg σ s) : line none s.null = record cfg.delim σ none := by
  have hu := wsum_lt_items h.itms none
  simp only [line, record, h.acc.null, ← acct_figures hu.1 hu.2]

theorem Rel.null_pos {cfg : Cfg} {σ : S} {s : St} (h : Rel cfg σ s) : 0 < s.null.tcnt ↔ under cfg.delim σ none ≠ [] := by
  have hu := wsum_lt_items h.itms none
  have := acct_empty hu.2
  rw [h.acc.null]
  constructor
  · intro hp e; rw [this.mpr e] at hp; omega
  · intro hne
    have : (acctOf (under cfg.delim σ none)).tcnt ≠ 0 := fun e => hne (this.mp e)
    omega

/-- The names of the prefixes with items. -/
def names (s : St) : List (Option (List Nat)) := (if 0 < s.null.tcnt then [none] else []) ++ (allIds s).map (nameAt s)

theorem Rel.names {cfg : Cfg} {σ : S} {s : St} (h : Rel cfg σ s) :
    (names s).Nodup ∧ (∀ p, p ∈ names s ↔ under cfg.delim σ p ≠ []) := by
  have hne : ∀ nm ∈ (allIds s).map (nameAt s), ∃ i pt, nm = some pt.bytes ∧ s.heap i = some pt ∧ pt.islinked = true := by
    intro nm hm
    rw [List.mem_map] at hm
    obtain ⟨i, hi, e⟩ := hm
    obtain ⟨pt, k1, k2⟩ := (h.shape.mem_all i).mp hi
    exact ⟨i, pt, by rw [← e, nameAt, k1]; rfl, k1, k2⟩
  constructor
  · unfold Prefix.names
    apply nodup_append'
    · split <;> simp
    · exact h.shape.names_nodup (h.shape.nodup_range buckets) fun i hi => (h.shape.mem_all i).mp hi
    · intro nm h1 h2
      obtain ⟨i, pt, e, -⟩ := hne nm h2
      split at h1
      · simp only [List.mem_singleton] at h1; rw [h1] at e; cases e
      · simp at h1
  · intro p
    unfold Prefix.names
    rw [List.mem_append]
    cases p with
    | none =>
      rw [← h.null_pos]
      constructor
      · rintro (h1 | h1)
        · split at h1
          · assumption
          · simp at h1
        · obtain ⟨i, pt, e, -⟩ := hne _ h1; cases e
      · intro hp; left; rw [if_pos hp]; simp
    | some nm =>
      rw [h.linked_iff]
      constructor
      · rintro (h1 | h1)
        · split at h1 <;> simp at h1
        · obtain ⟨i, pt, e, k1, k2⟩ := hne _ h1
          simp only [Option.some.injEq] at e
          exact ⟨i, pt, k1, k2, e.symm⟩
      · rintro ⟨i, pt, k1, k2, k3⟩
        right
        rw [List.mem_map]
        exact ⟨i, (h.shape.mem_all i).mpr ⟨pt, k1, k2⟩, by rw [nameAt, k1, ← k3]; rfl⟩

theorem Rel.statsAll {cfg : Cfg} {σ : S} {s : St} (h : Rel cfg σ s) :
    ∃ s' r σ', step cfg s .statsAll = some (s', r) ∧ Spec.Step cfg.delim cfg.hash σ .statsAll r σ' ∧ Rel cfg σ' s' := by
  obtain ⟨pts, h1, h2⟩ := deref_spec (heap := s.heap) (l := allIds s) fun i hi => by
    obtain ⟨pt, k, -⟩ := (h.shape.mem_all i).mp hi; exact ⟨pt, k⟩
  have hp : ∀ pt ∈ pts, ∃ i, s.heap i = some pt ∧ pt.islinked = true := by
    intro pt hpt
    have : some pt ∈ (allIds s).map s.heap := h2 ▸ List.mem_map_of_mem hpt
    rw [List.mem_map] at this
    obtain ⟨i, hi, e⟩ := this
    obtain ⟨pt', k1, k2⟩ := (h.shape.mem_all i).mp hi
    rw [k1] at e; cases e
    exact ⟨i, k1, k2⟩
  have hlen : pts.length = s.total := by
    have := congrArg List.length h2
    rw [List.length_map, List.length_map] at this
    rw [this, h.shape.total]
  have hnm : pts.map (fun pt => some pt.bytes) = (allIds s).map (nameAt s) := by
    have e1 : pts.map (fun pt => some pt.bytes) = (pts.map some).map (fun o : Option Pt => o.map (·.bytes)) := by
      rw [List.map_map]; rfl
    rw [e1, h2, List.map_map]
    apply List.map_congr_left
    intro i _; rfl
  let null := decide (0 < s.null.tcnt)
  have hsum : (pts.map fun pt => pt.bytes.length) = pts.map (·.nprefix) := by
    apply List.map_congr_left
    intro pt hpt
    obtain ⟨i, k1, -⟩ := hp pt hpt
    exact (h.shape.pts i pt k1).len.symm
  obtain ⟨n, hn⟩ := writeLines_fits (buflen := bufLen ((pts.map (·.nprefix)).sum + if null then 6 else 0) (s.total + if null then 1 else 0))
    (l := (if null then [(nullName, s.null)] else []) ++ pts.map fun pt => (pt.bytes, pt.acct)) (pos := 0)
    (by
      intro x hx
      rw [List.mem_append] at hx
      rcases hx with hx | hx
      · split at hx
        · simp only [List.mem_singleton] at hx
          subst hx
          simp only
          rw [h.acc.null]
          exact lineLen_acctOf _ _
        · simp at hx
      · rw [List.mem_map] at hx
        obtain ⟨pt, hpt, rfl⟩ := hx
        obtain ⟨i, k1, k2⟩ := hp pt hpt
        simp only
        rw [h.acc.acct i pt k1 k2]
        exact lineLen_acctOf _ _)
    (by
      rw [List.map_append, List.sum_append, List.length_append, List.map_map, List.length_map, hlen]
      have e : ((fun x : List Nat × Acct => x.1.length) ∘ fun pt : Pt => (pt.bytes, pt.acct)) = fun pt => pt.bytes.length := rfl
      rw [e, hsum]
      unfold bufLen
      have e6 : nullName.length = 6 := rfl
      cases null <;> simp [e6] <;> omega)
  have hst : step cfg s .statsAll = some (s, .stats ((if null then [line none s.null] else []) ++ pts.map fun pt => line (some pt.bytes) pt.acct)) := by
    have e1 : dumpLines (bufLen ((pts.map (·.nprefix)).sum + if null then 6 else 0) (s.total + if null then 1 else 0)) null s.null pts =
        some (.stats ((if null then [line none s.null] else []) ++ pts.map fun pt => line (some pt.bytes) pt.acct)) := by
      unfold dumpLines; rw [hn]
    have e2 : Prefix.statsAll s = some (s, .stats ((if null then [line none s.null] else []) ++ pts.map fun pt => line (some pt.bytes) pt.acct)) := by
      unfold Prefix.statsAll
      rw [h1]
      show (match dumpLines (bufLen ((pts.map (·.nprefix)).sum + if null then 6 else 0) (s.total + if null then 1 else 0)) null s.null pts with
        | none => none | some r => some (s, r)) = _
      rw [e1]
    exact e2
  refine ⟨s, _, σ, hst, ⟨rfl, Prefix.names s, ?_, h.names.1, h.names.2⟩, h⟩
  refine congrArg Rep.stats ?_
  unfold Prefix.names
  rw [List.map_append]
  refine congr (congrArg _ ?_) ?_
  · rw [apply_ite (List.map (record cfg.delim σ))]
    simp only [List.map_cons, List.map_nil, h.line_null, decide_eq_true_eq, null]
  · rw [← hnm, List.map_map]
    apply List.map_congr_left
    intro pt hpt
    obtain ⟨i, k1, k2⟩ := hp pt hpt
    exact h.line_eq k1 k2

theorem Rel.count {cfg : Cfg} {σ : S} {s : St} (h : Rel cfg σ s) :
    ∃ s' r σ', step cfg s .count = some (s', r) ∧ Spec.Step cfg.delim cfg.hash σ .count r σ' ∧ Rel cfg σ' s' := by
  refine ⟨s, _, σ, rfl, ⟨rfl, Prefix.names s, ?_, h.names.1, h.names.2⟩, h⟩
  unfold Prefix.count Prefix.names
  rw [List.length_append, List.length_map, h.shape.total]
  split <;> simp <;> omega

theorem Rel.totals {cfg : Cfg} {σ : S} {s : St} (h : Rel cfg σ s) :
    ∃ s' r σ', step cfg s .totals = some (s', r) ∧ Spec.Step cfg.delim cfg.hash σ .totals r σ' ∧ Rel cfg σ' s' := by
  refine ⟨s, _, σ, rfl, ⟨rfl, ?_⟩, h⟩
  have h1 := wsum_lt (fun x hx => (h.itms.fit x hx).2.2) h.itms.few
  have h2 := h.itms.few
  have hw : (2 : Nat) ^ 31 < w64 := by decide
  rw [h.itms.curI, h.itms.curB, Nat.mod_eq_of_lt h1, Nat.mod_eq_of_lt (by omega)]
  rfl

theorem Rel.lookups {cfg : Cfg} {σ : S} {s : St} (h : Rel cfg σ s) : ∀ toks : List (List Nat),
    ∃ r, lookups cfg s toks = some r ∧
      r.map (fun x => line x.2.1 x.2.2) = ((toks.map Spec.ofToken).filter fun p => !(under cfg.delim σ p).isEmpty).map (record cfg.delim σ) ∧
      r.length ≤ toks.length ∧ (r.map fun x => x.1.length).sum ≤ (toks.map List.length).sum ∧
      ∀ x ∈ r, lineLen x.1 x.2.2 ≤ x.1.length + 339 := by
  intro toks
  induction toks with
  | nil => exact ⟨[], rfl, rfl, Nat.le_refl _, Nat.le_refl _, by simp⟩
  | cons t ts ih =>
    obtain ⟨r, h1, h2, h3, h4, h5⟩ := ih
    by_cases ht : t = nullName
    · have e : Spec.ofToken t = none := if_pos ht
      by_cases hp : 0 < s.null.tcnt
      · refine ⟨(nullName, none, s.null) :: r, by simp only [Prefix.lookups, h1, ht, if_true, hp], ?_, by simp; omega, by simp [ht]; omega, ?_⟩
        · have hne := h.null_pos.mp hp
          rw [List.map_cons, List.map_cons, List.filter_cons_of_pos (by simpa [e] using hne), List.map_cons, h2, e, h.line_null]
        · intro x hx
          rw [List.mem_cons] at hx
          rcases hx with rfl | hx
          · simp only; rw [h.acc.null]; exact lineLen_acctOf _ _
          · exact h5 x hx
      · refine ⟨r, by simp only [Prefix.lookups, h1, ht, if_true, hp, if_false], ?_, by simp; omega, by simp; omega, h5⟩
        have hne : under cfg.delim σ none = [] := Classical.byContradiction fun e => hp (h.null_pos.mpr e)
        rw [List.map_cons, List.filter_cons_of_neg (by simp [e, hne]), h2]
    · have e : Spec.ofToken t = some t := if_neg ht
      have htk : t.take t.length = t := List.take_length
      rcases h.shape.find (name := t) (n := t.length) (Nat.le_refl _) with ⟨f1, f2⟩ | ⟨i, pt, f1, f2, f3, f4⟩
      · rw [htk] at f1 f2
        refine ⟨r, by simp only [Prefix.lookups, h1, ht, if_false, f1], ?_, by simp; omega, by simp; omega, h5⟩
        have hne : under cfg.delim σ (some t) = [] := Classical.byContradiction fun e => by
          obtain ⟨i, pt, k1, k2, k3⟩ := (h.linked_iff t).mp e
          exact f2 i pt k1 k2 k3
        rw [List.map_cons, List.filter_cons_of_neg (by simp [e, hne]), h2]
      · rw [htk] at f3 f4
        refine ⟨(pt.bytes, some pt.bytes, pt.acct) :: r, by simp only [Prefix.lookups, h1, ht, if_false, f4, f1], ?_, by simp; omega,
          by simp [f3]; omega, ?_⟩
        · have hne := (h.linked_iff t).mpr ⟨i, pt, f1, f2, f3⟩
          rw [List.map_cons, List.map_cons, List.filter_cons_of_pos (by simpa [e] using hne), List.map_cons, h2, e, ← f3, h.line_eq f1 f2]
        · intro x hx
          rw [List.mem_cons] at hx
          rcases hx with rfl | hx
          · simp only; rw [h.acc.acct i pt f1 f2]; exact lineLen_acctOf _ _
          · exact h5 x hx

theorem Rel.statsOf {cfg : Cfg} {σ : S} {s : St} (h : Rel cfg σ s) (toks : List (List Nat)) :
    ∃ s' r σ', step cfg s (.statsOf toks) = some (s', r) ∧ Spec.Step cfg.delim cfg.hash σ (.statsOf toks) r σ' ∧ Rel cfg σ' s' := by
  obtain ⟨r, h1, h2, h3, h4, h5⟩ := h.lookups toks
  obtain ⟨n, hn⟩ := writeLines_fits (buflen := bufLen (toks.map List.length).sum toks.length) (l := r.map fun x => (x.1, x.2.2)) (pos := 0)
    (by
      intro x hx
      rw [List.mem_map] at hx
      obtain ⟨y, hy, rfl⟩ := hx
      exact h5 y hy)
    (by
      rw [List.map_map, List.length_map]
      have e : ((fun x : List Nat × Acct => x.1.length) ∘ fun x : List Nat × Option (List Nat) × Acct => (x.1, x.2.2)) = fun x => x.1.length := rfl
      rw [e]
      unfold bufLen
      have : r.length * 339 ≤ toks.length * 339 := Nat.mul_le_mul_right _ h3
      omega)
  exact ⟨s, .stats (r.map fun x => line x.2.1 x.2.2), σ, by simp only [step, Prefix.statsOf, h1, hn], ⟨rfl, by rw [h2]⟩, h⟩

/-! ## Scans -/

/-- Whether a scan reports a prefix. -/
def reps (heap : Nat → Option Pt) (i : Nat) : Bool :=
  match heap i with
  | none => false
  | some pt => !pt.internal && decide (pt.acct.tcnt ≠ 0)

/-- References are taken. -/
def bump (heap : Nat → Option Pt) (l : List (Option Nat)) : Nat → Option Pt :=
  fun j => (heap j).map fun pt => { pt with refcount := pt.refcount + l.count (some j) }

theorem bump_nil (heap : Nat → Option Pt) : bump heap [] = heap := by
  funext j
  unfold bump
  cases heap j <;> simp

theorem bump_bump (heap : Nat → Option Pt) (l l' : List (Option Nat)) : bump (bump heap l) l' = bump heap (l ++ l') := by
  funext j
  unfold bump
  cases heap j with
  | none => rfl
  | some pt => simp [List.count_append, Nat.add_assoc]

theorem bump_upd {heap : Nat → Option Pt} {i : Nat} {pt : Pt} (hi : heap i = some pt) :
    upd heap i (some { pt with refcount := pt.refcount + 1 }) = bump heap [some i] := by
  funext j
  unfold bump upd
  by_cases hj : j = i
  · subst hj; simp [hi]
  · rw [if_neg hj]
    have : List.count (some j) [some i] = 0 := by
      rw [List.count_eq_zero]; simpa using hj
    rw [this]
    cases heap j <;> simp

theorem reps_bump (heap : Nat → Option Pt) (l : List (Option Nat)) : reps (bump heap l) = reps heap := by
  funext j
  unfold reps bump
  cases heap j <;> rfl

theorem scanChain_spec : ∀ {l : List Nat} {heap : Nat → Option Pt} {room : Nat}, l.Nodup →
    (∀ i ∈ l, ∃ pt, heap i = some pt ∧ pt.refcount < 65535) → (l.filter (reps heap)).length ≤ room →
    scanChain heap room l = some (bump heap ((l.filter (reps heap)).map some), (l.filter (reps heap)).map some) := by
  intro l
  induction l with
  | nil => intro heap room _ _ _; simp [scanChain, bump_nil]
  | cons i l ih =>
    intro heap room hn ha hr
    rw [List.nodup_cons] at hn
    obtain ⟨pt, h1, h2⟩ := ha i (by simp)
    have hrep : reps heap i = (!pt.internal && decide (pt.acct.tcnt ≠ 0)) := by unfold reps; rw [h1]
    simp only [scanChain, h1]
    by_cases hc : (!pt.internal && decide (pt.acct.tcnt ≠ 0)) = true
    · rw [if_pos hc]
      rw [List.filter_cons_of_pos (by rw [hrep]; exact hc), List.length_cons] at hr
      rw [if_neg (by omega), bump_upd h1]
      have := ih (heap := bump heap [some i]) (room := room - 1) hn.2 (by
        intro j hj
        obtain ⟨pt', k1, k2⟩ := ha j (by simp [hj])
        refine ⟨_, by unfold bump; rw [k1]; rfl, ?_⟩
        have : List.count (some j) [some i] = 0 := by
          rw [List.count_eq_zero]
          have : j ≠ i := fun e => hn.1 (e ▸ hj)
          simpa using this
        simp only [this]; omega) (by rw [reps_bump]; omega)
      rw [this, reps_bump, bump_bump]
      simp only [List.filter_cons_of_pos (by rw [hrep]; exact hc : reps heap i = true), List.map_cons, List.singleton_append]
    · rw [if_neg hc]
      rw [List.filter_cons_of_neg (by rw [hrep]; exact hc)] at hr ⊢
      exact ih hn.2 (fun j hj => ha j (by simp [hj])) hr

/-- What a scan reports of one bucket. -/
def cell (s : St) (b : Nat) : List (Option Nat) :=
  (if b = 0 ∧ s.null.tcnt ≠ 0 then [none] else []) ++ ((s.table b).filter (reps s.heap)).map some

theorem scanLoop_spec {cfg : Cfg} {held : Held} {s : St} (h : Shape cfg held s) {req arr : Nat} (hroom : ∀ b, req + (cell s b).length ≤ arr + 1)
    (href : ∀ i pt, s.heap i = some pt → pt.refcount < 65535) : ∀ fuel b got (gl : List (Option Nat)), b < buckets →
    (∀ i, some i ∈ gl → ∃ c, c < b ∧ i ∈ s.table c) →
    ∃ b', scanLoop s req arr fuel (bump s.heap gl) b got =
        some (bump s.heap (gl ++ (List.range' b (b' - b)).flatMap (cell s)), (List.range' b (b' - b)).flatMap (cell s), b') ∧
      b ≤ b' ∧ b' ≤ buckets ∧ (0 < fuel → got < req → b < b') ∧
      got + ((List.range' b (b' - b)).flatMap (cell s)).length ≤ max got arr := by
  intro fuel
  induction fuel with
  | zero =>
    intro b got gl hb _
    exact ⟨b, by simp [scanLoop], Nat.le_refl _, by omega, by omega, by simp; omega⟩
  | succ fuel ih =>
    intro b got gl hb hgl
    by_cases hg : req ≤ got
    · exact ⟨b, by simp [scanLoop, hg], Nat.le_refl _, by omega, by omega, by simp; omega⟩
    · let nul : List (Option Nat) := if b = 0 ∧ s.null.tcnt ≠ 0 then [none] else []
      have hcell : cell s b = nul ++ ((s.table b).filter (reps s.heap)).map some := rfl
      have hr := hroom b
      rw [hcell, List.length_append, List.length_map] at hr
      have hch : scanChain (bump s.heap gl) (arr - (got + nul.length)) (s.table b) =
          some (bump s.heap (gl ++ ((s.table b).filter (reps s.heap)).map some), ((s.table b).filter (reps s.heap)).map some) := by
        rw [scanChain_spec (h.nd b), reps_bump, bump_bump]
        · intro i hi
          obtain ⟨pt, k1, -, k2⟩ := (h.tab b i).mp hi
          refine ⟨_, by unfold bump; rw [k1]; rfl, ?_⟩
          have : gl.count (some i) = 0 := by
            rw [List.count_eq_zero]
            intro hm
            obtain ⟨c, hc, hic⟩ := hgl i hm
            obtain ⟨pt', k3, -, k4⟩ := (h.tab c i).mp hic
            rw [k1] at k3; cases k3; omega
          simp only [this]; exact href i pt k1
        · rw [reps_bump]; omega
      have hbn : bump s.heap (gl ++ ((s.table b).filter (reps s.heap)).map some) = bump s.heap (gl ++ cell s b) := by
        rw [hcell]
        funext j
        unfold bump
        have : nul.count (some j) = 0 := by
          rw [List.count_eq_zero]; simp only [nul]; split <;> simp
        simp [List.count_append, this]
      have hstep : scanLoop s req arr (fuel + 1) (bump s.heap gl) b got =
          if buckets ≤ b + 1 then some (bump s.heap (gl ++ cell s b), cell s b, b + 1)
          else
            match scanLoop s req arr fuel (bump s.heap (gl ++ cell s b)) (b + 1) (got + nul.length + (((s.table b).filter (reps s.heap)).map some).length) with
            | none => none
            | some (h', l', b') => some (h', cell s b ++ l', b') := by
        rw [scanLoop, if_neg hg]
        simp only
        rw [if_neg (by show ¬ arr < got + nul.length; omega)]
        rw [hch, hbn]
        rfl
      have hone : (List.range' b 1).flatMap (cell s) = cell s b := by simp
      by_cases hend : buckets ≤ b + 1
      · refine ⟨b + 1, ?_, by omega, by omega, by omega, ?_⟩
        · rw [hstep, if_pos hend, Nat.add_sub_cancel_left, hone]
        · rw [Nat.add_sub_cancel_left, hone, hcell, List.length_append, List.length_map]; omega
      · obtain ⟨b', e1, e2, e3, e4, e5⟩ := ih (b + 1) (got + nul.length + (((s.table b).filter (reps s.heap)).map some).length) (gl ++ cell s b) (by omega) (by
          intro i hi
          rw [List.mem_append] at hi
          rcases hi with hi | hi
          · obtain ⟨c, hc, hic⟩ := hgl i hi
            exact ⟨c, by omega, hic⟩
          · rw [hcell, List.mem_append] at hi
            rcases hi with hi | hi
            · simp only [nul] at hi
              split at hi <;> simp at hi
            · rw [List.mem_map] at hi
              obtain ⟨j, hj, e⟩ := hi
              cases e
              exact ⟨b, by omega, (List.mem_filter.mp hj).1⟩)
        have hrange : (List.range' b (b' - b)).flatMap (cell s) = cell s b ++ (List.range' (b + 1) (b' - (b + 1))).flatMap (cell s) := by
          have : b' - b = (b' - (b + 1)) + 1 := by omega
          rw [this, List.range'_succ, List.flatMap_cons]
        refine ⟨b', ?_, by omega, e3, by omega, ?_⟩
        · rw [hstep, if_neg hend, e1, hrange, List.append_assoc]
        · rw [hrange, List.length_append]
          have hcl : (cell s b).length = nul.length + (((s.table b).filter (reps s.heap)).map some).length := by rw [hcell, List.length_append]
          rw [List.length_map] at hcl e5
          omega

/-- The name a pointer stands for. -/
def nameOf (s : St) : Option Nat → Option (List Nat)
  | none => none
  | some i => nameAt s i

theorem refs_append (l l' : Held) (i : Nat) : refs (l ++ l') i = refs l i + refs l' i := by
  unfold refs; rw [List.filter_append, List.length_append]

theorem refs_pairs (f : Option Nat → Option (List Nat)) (l : List (Option Nat)) (i : Nat) :
    refs (l.map fun p => (p, f p)) i = l.count (some i) := by
  unfold refs
  rw [List.filter_map, List.length_map, List.count, List.countP_eq_length_filter]
  congr 1
  apply List.filter_congr
  intro p _
  simp only [Function.comp_apply]
  by_cases h : p = some i
  · subst h; simp
  · simp [h]

theorem namesIn_spec {cfg : Cfg} {held : Held} {s : St} (h : Shape cfg held s) (l' : List (Option Nat)) : ∀ {l : List (Option Nat)},
    (∀ i, some i ∈ l → ∃ pt, s.heap i = some pt) → namesIn (bump s.heap l') l = some (l.map fun p => (p, nameOf s p)) := by
  intro l
  induction l with
  | nil => intro _; rfl
  | cons p l ih =>
    intro ha
    have h1 := ih fun i hi => ha i (by simp [hi])
    cases p with
    | none => simp only [namesIn, nameIn, h1]; rfl
    | some i =>
      obtain ⟨pt, hp⟩ := ha i (by simp)
      have h2 : nameIn (bump s.heap l') (some i) = some (nameOf s (some i)) := by
        simp only [nameIn, bump, hp, nameOf, nameAt, Option.map_some]
        rw [(h.pts i pt hp).len, List.take_length]
      simp only [namesIn, h2, h1]; rfl

/-- Taking references. -/
theorem Rel.bumped {cfg : Cfg} {σ : S} {s : St} (h : Rel cfg σ s) {l : List (Option Nat)} (hl : ∀ i, some i ∈ l → ∃ pt, s.heap i = some pt) :
    Rel cfg { σ with held := l.map (fun p => (p, nameOf s p)) ++ σ.held } { s with heap := bump s.heap l } := by
  have hold : ∀ j pt, s.heap j = some pt → bump s.heap l j = some { pt with refcount := pt.refcount + l.count (some j) } := by
    intro j pt hj; unfold bump; rw [hj]; rfl
  have hnew : ∀ j pt, bump s.heap l j = some pt → ∃ pt', s.heap j = some pt' ∧ pt = { pt' with refcount := pt'.refcount + l.count (some j) } := by
    intro j pt hj
    unfold bump at hj
    cases hh : s.heap j with
    | none => rw [hh] at hj; cases hj
    | some pt' => rw [hh] at hj; simp only [Option.map_some, Option.some.injEq] at hj; exact ⟨pt', rfl, hj.symm⟩
  have hpts : ∀ p o, Points s p o → Points { s with heap := bump s.heap l } p o := by
    rintro p o (e | ⟨j, pt, e1, e2, e3, e4⟩)
    · exact .inl e
    · exact .inr ⟨j, _, e1, hold j pt e2, e3, e4⟩
  refine ⟨⟨?_, ?_, h.shape.nd, ?_, h.shape.total, h.shape.few, ?_⟩, ⟨h.acc.null, ?_⟩, ⟨h.itms.ids, h.itms.fit, h.itms.few, ?_, h.itms.curI, h.itms.curB⟩, ?_⟩
  · intro j pt hj
    obtain ⟨pt', k1, rfl⟩ := hnew j pt hj
    have w := h.shape.pts j pt' k1
    refine ⟨w.lt, w.len, w.ne, w.short, w.good, w.int, ?_, ?_⟩
    · simp only
      rw [refs_append, refs_pairs, w.ref, Nat.add_comm]
    · rcases w.alive with e | e
      · exact .inl e
      · right; simp only; omega
  · intro b j
    rw [h.shape.tab]
    constructor
    · rintro ⟨pt, h1, h2, h3⟩; exact ⟨_, hold j pt h1, h2, h3⟩
    · rintro ⟨pt, h1, h2, h3⟩
      obtain ⟨pt', h4, rfl⟩ := hnew j pt h1
      exact ⟨_, h4, h2, h3⟩
  · intro j k pt1 pt2 hj hk hl1 hl2 he
    obtain ⟨pt1', w1, rfl⟩ := hnew j pt1 hj
    obtain ⟨pt2', w2, rfl⟩ := hnew k pt2 hk
    exact h.shape.uniq j k _ _ w1 w2 hl1 hl2 he
  · intro p nm hm
    rw [List.mem_append] at hm
    rcases hm with hm | hm
    · rw [List.mem_map] at hm
      obtain ⟨q, hq, e⟩ := hm
      simp only [Prod.mk.injEq] at e
      obtain ⟨rfl, rfl⟩ := e
      cases q with
      | none => exact .inl ⟨rfl, rfl⟩
      | some i =>
        obtain ⟨pt, hp⟩ := hl i hq
        exact .inr ⟨i, _, rfl, hold i pt hp, by simp only [nameOf, nameAt, hp]; rfl⟩
    · rcases h.shape.held p nm hm with e | ⟨j, pt, e1, e2, e3⟩
      · exact .inl e
      · exact .inr ⟨j, _, e1, hold j pt e2, e3⟩
  · intro j pt hj hlk
    obtain ⟨pt', k1, rfl⟩ := hnew j pt hj
    exact h.acc.acct j pt' k1 hlk
  · intro x hx
    obtain ⟨p, k1, k2⟩ := h.itms.itm x hx
    exact ⟨p, k1, hpts _ _ k2⟩
  · intro j pt hj hlk
    obtain ⟨pt', k1, rfl⟩ := hnew j pt hj
    exact h.full j pt' k1 hlk

theorem Rel.reps {cfg : Cfg} {σ : S} {s : St} (h : Rel cfg σ s) {i : Nat} {pt : Pt} (hi : s.heap i = some pt) (hl : pt.islinked = true) :
    reps s.heap i = true ↔ pt.bytes ≠ internalName := by
  have hne := h.full i pt hi hl
  have hu := wsum_lt_items h.itms (some pt.bytes)
  have : pt.acct.tcnt ≠ 0 := by
    rw [h.acc.acct i pt hi hl]
    exact fun e => hne ((acct_empty hu.2).mp e)
  unfold Prefix.reps
  rw [hi]
  simp only
  rw [(h.shape.pts i pt hi).int]
  simp [this]

/-- What a bucket reports: the prefixes with items that are placed there. -/
theorem Rel.mem_cell {cfg : Cfg} {σ : S} {s : St} (h : Rel cfg σ s) (b : Nat) (nm : Option (List Nat)) :
    nm ∈ (cell s b).map (nameOf s) ↔ under cfg.delim σ nm ≠ [] ∧ nm ≠ some internalName ∧ place cfg.hash nm = b := by
  have hnull := h.null_pos
  rw [List.mem_map]
  constructor
  · rintro ⟨p, hp, rfl⟩
    unfold cell at hp
    rw [List.mem_append] at hp
    rcases hp with hp | hp
    · split at hp
      · rename_i hc
        simp only [List.mem_singleton] at hp
        subst hp
        exact ⟨hnull.mp (by omega), by simp [nameOf], by simp [nameOf, place, hc.1]⟩
      · simp at hp
    · rw [List.mem_map] at hp
      obtain ⟨i, hi, rfl⟩ := hp
      rw [List.mem_filter] at hi
      obtain ⟨pt, k1, k2, k3⟩ := (h.shape.tab b i).mp hi.1
      have e : nameOf s (some i) = some pt.bytes := by simp only [nameOf, nameAt, k1]; rfl
      rw [e]
      exact ⟨h.full i pt k1 k2, by simpa using (h.reps k1 k2).mp hi.2, k3⟩
  · rintro ⟨h1, h2, h3⟩
    cases nm with
    | none =>
      refine ⟨none, ?_, rfl⟩
      unfold cell
      rw [List.mem_append]
      left
      have := hnull.mpr h1
      rw [if_pos ⟨h3.symm, by omega⟩]; simp
    | some nm =>
      obtain ⟨i, pt, k1, k2, rfl⟩ := (h.linked_iff nm).mp h1
      refine ⟨some i, ?_, by simp only [nameOf, nameAt, k1]; rfl⟩
      unfold cell
      rw [List.mem_append]
      right
      rw [List.mem_map]
      exact ⟨i, List.mem_filter.mpr ⟨(h.shape.tab b i).mpr ⟨pt, k1, k2, h3⟩, (h.reps k1 k2).mpr (by simpa using h2)⟩, rfl⟩

theorem Rel.cell_nodup {cfg : Cfg} {σ : S} {s : St} (h : Rel cfg σ s) (b : Nat) : ((cell s b).map (nameOf s)).Nodup := by
  unfold cell
  rw [List.map_append]
  apply nodup_append'
  · split <;> simp
  · rw [List.map_map]
    have : (nameOf s ∘ some) = nameAt s := rfl
    rw [this]
    refine h.shape.names_nodup ((h.shape.nd b).sublist List.filter_sublist) ?_
    intro i hi
    obtain ⟨pt, k1, k2, -⟩ := (h.shape.tab b i).mp (List.mem_filter.mp hi).1
    exact ⟨pt, k1, k2⟩
  · intro nm h1 h2
    rw [List.map_map, List.mem_map] at h2
    obtain ⟨i, hi, e⟩ := h2
    obtain ⟨pt, k1, -, -⟩ := (h.shape.tab b i).mp (List.mem_filter.mp hi).1
    have e1 : nameOf s (some i) = some pt.bytes := by simp only [nameOf, nameAt, k1]; rfl
    simp only [Function.comp_apply, e1] at e
    split at h1
    · simp only [List.map_cons, List.map_nil, List.mem_singleton, nameOf] at h1
      rw [h1] at e; cases e
    · simp at h1

theorem Rel.cells_nodup {cfg : Cfg} {σ : S} {s : St} (h : Rel cfg σ s) (b n : Nat) :
    (((List.range' b n).flatMap (cell s)).map (nameOf s)).Nodup := by
  induction n generalizing b with
  | zero => simp
  | succ n ih =>
    rw [List.range'_succ, List.flatMap_cons, List.map_append]
    refine nodup_append' (h.cell_nodup b) (ih (b + 1)) ?_
    intro nm h1 h2
    rw [List.mem_map] at h2
    obtain ⟨p, hp, e⟩ := h2
    rw [List.mem_flatMap] at hp
    obtain ⟨c, hc, hp⟩ := hp
    rw [List.mem_range'_1] at hc
    have k1 := (h.mem_cell b nm).mp h1
    have k2 := (h.mem_cell c nm).mp (e ▸ List.mem_map_of_mem hp)
    omega

theorem Rel.crowd {cfg : Cfg} {σ : S} {s : St} (h : Rel cfg σ s) (b : Nat) : (cell s b).length ≤ crowd cfg.delim cfg.hash σ b := by
  unfold Spec.crowd
  have := (h.cell_nodup b).length_le_of_subset (l₂ := ((σ.items.map fun x => owner cfg.delim x.key).filter fun p => decide (place cfg.hash p = b)).eraseDups) (by
    intro nm hm
    obtain ⟨h1, -, h3⟩ := (h.mem_cell b nm).mp hm
    rw [List.mem_eraseDups, List.mem_filter, List.mem_map]
    obtain ⟨x, hx⟩ := List.exists_mem_of_ne_nil _ h1
    rw [mem_under] at hx
    exact ⟨⟨x, hx.1, hx.2⟩, by simpa using h3⟩)
  rw [List.length_map] at this
  exact this

theorem Rel.scan {cfg : Cfg} {σ : S} {s : St} (h : Rel cfg σ s) {cur req arr : Nat} (hl : Spec.Legal cfg.delim cfg.hash σ (.scan cur req arr)) :
    ∃ s' r σ', step cfg s (.scan cur req arr) = some (s', r) ∧ Spec.Step cfg.delim cfg.hash σ (.scan cur req arr) r σ' ∧ Rel cfg σ' s' := by
  obtain ⟨l1, l2, l3, l4⟩ := hl
  by_cases hc : buckets ≤ cur
  · refine ⟨s, .scan [] 0, σ, by simp only [step, Prefix.scan]; rw [if_neg (by omega), if_pos hc], ⟨[], 0, rfl, by simp, rfl, by simp, .inl rfl, ?_⟩, h⟩
    intro p
    have : ¬ cur < 1024 := by have : buckets = 1024 := rfl
                              omega
    simp [this]
  · obtain ⟨b', e1, e2, e3, e4, e5⟩ := scanLoop_spec h.shape (req := req) (arr := arr) (fun b => by have := h.crowd b; have := l3 b; omega)
      (fun i pt hi => by rw [(h.shape.pts i pt hi).ref]; exact l4 i) (req * 4) cur 0 [] (by omega) (by simp)
    rw [bump_nil, List.nil_append] at e1
    let l := (List.range' cur (b' - cur)).flatMap (cell s)
    have hmem : ∀ nm, nm ∈ l.map (nameOf s) ↔ under cfg.delim σ nm ≠ [] ∧ nm ≠ some internalName ∧ cur ≤ place cfg.hash nm ∧ place cfg.hash nm < b' := by
      intro nm
      simp only [l, List.map_flatMap, List.mem_flatMap, h.mem_cell, List.mem_range'_1]
      constructor
      · rintro ⟨c, hc, h1, h2, h3⟩; exact ⟨h1, h2, by omega, by omega⟩
      · rintro ⟨h1, h2, h3, h4⟩; exact ⟨_, ⟨h3, by omega⟩, h1, h2, rfl⟩
    have halive : ∀ i, some i ∈ l → ∃ pt, s.heap i = some pt := by
      intro i hi
      simp only [l, List.mem_flatMap] at hi
      obtain ⟨c, -, hi⟩ := hi
      unfold cell at hi
      rw [List.mem_append] at hi
      rcases hi with hi | hi
      · split at hi <;> simp at hi
      · rw [List.mem_map] at hi
        obtain ⟨j, hj, e⟩ := hi
        cases e
        obtain ⟨pt, k, -⟩ := (h.shape.tab c i).mp (List.mem_filter.mp hj).1
        exact ⟨pt, k⟩
    have hbk : buckets = 1024 := rfl
    have hlt : cur < b' := e4 (by omega) (by omega)
    have hm2 : (l.map fun p => (p, nameOf s p)).map (·.2) = l.map (nameOf s) := by
      rw [List.map_map]; rfl
    have hplace : ∀ nm, place cfg.hash nm < 1024 := by
      intro nm; cases nm with
      | none => simp [place]
      | some nm => exact Nat.mod_lt _ (by decide)
    refine ⟨{ s with heap := bump s.heap l }, .scan (l.map fun p => (p, nameOf s p)) (if buckets ≤ b' then 0 else b'), _, ?_, ⟨l.map fun p => (p, nameOf s p), if buckets ≤ b' then 0 else b', rfl, ?_, rfl, ?_, ?_, ?_⟩, h.bumped halive⟩
    · simp only [step, Prefix.scan]
      rw [if_neg (by omega), if_neg hc, e1]
      simp only [l, namesIn_spec h.shape _ halive]
    · rw [List.length_map]
      simp only [l]; omega
    · rw [hm2]; exact h.cells_nodup _ _
    · by_cases hb : buckets ≤ b'
      · rw [if_pos hb]; exact .inl rfl
      · rw [if_neg hb]; exact .inr ⟨hlt, by omega⟩
    · intro nm
      rw [hm2, hmem]
      have := hplace nm
      by_cases hb : buckets ≤ b'
      · rw [if_pos hb]
        constructor
        · rintro ⟨a1, a2, a3, a4⟩; exact ⟨a1, a2, a3, .inl rfl, by omega⟩
        · rintro ⟨a1, a2, a3, a4, a5⟩; exact ⟨a1, a2, a3, by omega⟩
      · rw [if_neg hb]
        constructor
        · rintro ⟨a1, a2, a3, a4⟩; exact ⟨a1, a2, a3, .inr a4, by omega⟩
        · rintro ⟨a1, a2, a3, a4, a5⟩; exact ⟨a1, a2, a3, by omega⟩

/-! ## Releases -/

theorem Rel.name {cfg : Cfg} {σ : S} {s : St} (h : Rel cfg σ s) {p : Option Nat} (hl : Spec.Legal cfg.delim cfg.hash σ (.name p)) :
    ∃ s' r σ', step cfg s (.name p) = some (s', r) ∧ Spec.Step cfg.delim cfg.hash σ (.name p) r σ' ∧ Rel cfg σ' s' := by
  simp only [Spec.Legal, List.mem_map] at hl
  obtain ⟨⟨p', nm⟩, hm, rfl⟩ := hl
  rcases h.shape.held p' nm hm with ⟨e1, e2⟩ | ⟨i, pt, e1, e2, e3⟩
  · simp only at *
    subst e1
    refine ⟨s, .name none, σ, rfl, ⟨rfl, none, rfl, ?_⟩, h⟩
    intro nm' hm'
    rcases h.shape.held none nm' hm' with ⟨-, e⟩ | ⟨i, pt, e, -⟩
    · exact e
    · cases e
  · simp only at *
    subst e1
    refine ⟨s, .name (some pt.bytes), σ, ?_, ⟨rfl, some pt.bytes, rfl, ?_⟩, h⟩
    · simp only [step, Prefix.name, nameIn, e2]
      rw [(h.shape.pts i pt e2).len, List.take_length]
    · intro nm' hm'
      rcases h.shape.held (some i) nm' hm' with ⟨e, -⟩ | ⟨j, pt', k1, k2, k3⟩
      · cases e
      · cases k1; rw [e2] at k2; cases k2; exact k3

theorem refs_cons (p : Option Nat) (nm : Option (List Nat)) (l : Held) (i : Nat) :
    refs ((p, nm) :: l) i = (if p = some i then 1 else 0) + refs l i := by
  unfold refs
  rw [List.filter_cons]
  by_cases h : p = some i
  · simp [h]; omega
  · simp [h]

theorem Rel.release {cfg : Cfg} {σ : S} {s : St} (h : Rel cfg σ s) {p : Option Nat} (hl : Spec.Legal cfg.delim cfg.hash σ (.release p)) :
    ∃ s' r σ', step cfg s (.release p) = some (s', r) ∧ Spec.Step cfg.delim cfg.hash σ (.release p) r σ' ∧ Rel cfg σ' s' := by
  simp only [Spec.Legal, List.mem_map] at hl
  obtain ⟨⟨p', nm⟩, hm, rfl⟩ := hl
  obtain ⟨l1, l2, hsplit⟩ := List.append_of_mem hm
  have hsub : ∀ x, x ∈ l1 ++ l2 → x ∈ σ.held := by
    intro x hx
    rw [hsplit]
    rw [List.mem_append] at hx ⊢
    rcases hx with hx | hx
    · exact .inl hx
    · exact .inr (List.mem_cons_of_mem _ hx)
  have hrefs : ∀ i, refs σ.held i = (if p' = some i then 1 else 0) + refs (l1 ++ l2) i := by
    intro i
    rw [hsplit, refs_append, refs_cons, refs_append]
    omega
  rcases h.shape.held p' nm hm with ⟨e1, e2⟩ | ⟨i, pt, e1, e2, e3⟩
  · simp only at *
    subst e1
    refine ⟨s, .ok, { σ with held := l1 ++ l2 }, rfl, ⟨rfl, nm, l1, l2, hsplit, rfl⟩, ?_⟩
    refine ⟨⟨?_, h.shape.tab, h.shape.nd, h.shape.uniq, h.shape.total, h.shape.few, fun p nm hm => h.shape.held p nm (hsub _ hm)⟩,
      ⟨h.acc.null, h.acc.acct⟩, ⟨h.itms.ids, h.itms.fit, h.itms.few, h.itms.itm, h.itms.curI, h.itms.curB⟩, h.full⟩
    intro j pt hj
    have w := h.shape.pts j pt hj
    refine ⟨w.lt, w.len, w.ne, w.short, w.good, w.int, ?_, w.alive⟩
    rw [w.ref, hrefs]; simp
  · simp only at *
    subst e1
    have w := h.shape.pts i pt e2
    have hri := hrefs i
    rw [if_pos rfl] at hri
    have hpos : pt.refcount ≠ 0 := by rw [w.ref]; omega
    let v : Option Pt := if pt.refcount - 1 = 0 ∧ pt.islinked = false then none else some { pt with refcount := pt.refcount - 1 }
    let s' : St := { s with heap := upd s.heap i v }
    have hother : ∀ j, j ≠ i → s'.heap j = s.heap j := fun j hj => upd_ne _ _ hj
    have hself : s'.heap i = v := upd_same _ _ _
    have hnew : ∀ j pt', s'.heap j = some pt' → ∃ pt'', s.heap j = some pt'' ∧ ∃ r, pt' = { pt'' with refcount := r } := by
      intro j pt' hj
      by_cases hji : j = i
      · subst hji
        rw [hself] at hj
        simp only [v] at hj
        split at hj
        · cases hj
        · cases hj; exact ⟨pt, e2, _, rfl⟩
      · rw [hother j hji] at hj; exact ⟨pt', hj, pt'.refcount, rfl⟩
    have hold : ∀ j pt', s.heap j = some pt' → (pt'.islinked = true ∨ 0 < refs (l1 ++ l2) j) → ∃ r, s'.heap j = some { pt' with refcount := r } := by
      intro j pt' hj ha
      by_cases hji : j = i
      · subst hji
        rw [e2] at hj; cases hj
        refine ⟨pt.refcount - 1, ?_⟩
        rw [hself]
        simp only [v]
        rw [if_neg]
        rintro ⟨k1, k2⟩
        rw [w.ref] at k1
        rcases ha with ha | ha
        · rw [ha] at k2; cases k2
        · omega
      · exact ⟨pt'.refcount, by rw [hother j hji]; exact hj⟩
    refine ⟨s', .ok, { σ with held := l1 ++ l2 }, by simp only [step, Prefix.release, e2]; rw [if_neg hpos], ⟨rfl, nm, l1, l2, hsplit, rfl⟩, ?_⟩
    refine ⟨⟨?_, ?_, h.shape.nd, ?_, h.shape.total, h.shape.few, ?_⟩, ⟨h.acc.null, ?_⟩, ⟨h.itms.ids, h.itms.fit, h.itms.few, ?_, h.itms.curI, h.itms.curB⟩, ?_⟩
    · intro j pt' hj
      by_cases hji : j = i
      · subst hji
        rw [hself] at hj
        simp only [v] at hj
        split at hj
        · cases hj
        · rename_i hnot
          cases hj
          refine ⟨w.lt, w.len, w.ne, w.short, w.good, w.int, by simp only; rw [w.ref]; omega, ?_⟩
          simp only
          rcases Bool.eq_false_or_eq_true pt.islinked with e | e
          · exact .inl e
          · right
            have : ¬ pt.refcount - 1 = 0 := fun e' => hnot ⟨e', e⟩
            omega
      · rw [hother j hji] at hj
        have w' := h.shape.pts j pt' hj
        refine ⟨w'.lt, w'.len, w'.ne, w'.short, w'.good, w'.int, ?_, w'.alive⟩
        rw [w'.ref, hrefs, if_neg (by simpa using Ne.symm hji)]; exact Nat.zero_add _
    · intro b j
      rw [h.shape.tab]
      constructor
      · rintro ⟨pt', k1, k2, k3⟩
        obtain ⟨r, k4⟩ := hold j pt' k1 (.inl k2)
        exact ⟨_, k4, k2, k3⟩
      · rintro ⟨pt', k1, k2, k3⟩
        obtain ⟨pt'', k4, r, rfl⟩ := hnew j pt' k1
        exact ⟨_, k4, k2, k3⟩
    · intro j k pt1 pt2 hj hk hl1 hl2 he
      obtain ⟨pt1', w1, r1, rfl⟩ := hnew j pt1 hj
      obtain ⟨pt2', w2, r2, rfl⟩ := hnew k pt2 hk
      exact h.shape.uniq j k _ _ w1 w2 hl1 hl2 he
    · intro p nm' hm'
      rcases h.shape.held p nm' (hsub _ hm') with e | ⟨j, pt', k1, k2, k3⟩
      · exact .inl e
      · obtain ⟨r, k4⟩ := hold j pt' k2 (.inr (by
          unfold refs
          apply List.length_pos_of_mem (a := (p, nm'))
          rw [List.mem_filter]
          exact ⟨hm', by simp [k1]⟩))
        exact .inr ⟨j, _, k1, k4, k3⟩
    · intro j pt' hj hlk
      obtain ⟨pt'', k4, r, rfl⟩ := hnew j pt' hj
      exact h.acc.acct j pt'' k4 hlk
    · intro x hx
      obtain ⟨q, k1, k2⟩ := h.itms.itm x hx
      refine ⟨q, k1, ?_⟩
      rcases k2 with e | ⟨j, pt', m1, m2, m3, m4⟩
      · exact .inl e
      · obtain ⟨r, k4⟩ := hold j pt' m2 (.inl m3)
        exact .inr ⟨j, _, m1, k4, m3, m4⟩
    · intro j pt' hj hlk
      obtain ⟨pt'', k4, r, rfl⟩ := hnew j pt' hj
      exact h.full j pt'' k4 hlk

theorem Rel.step {cfg : Cfg} {σ : S} {s : St} {op : Op} (h : Rel cfg σ s) (hl : Spec.Legal cfg.delim cfg.hash σ op) :
    ∃ s' r σ', step cfg s op = some (s', r) ∧ Spec.Step cfg.delim cfg.hash σ op r σ' ∧ Rel cfg σ' s' := by
  cases op with
  | link => exact h.link hl
  | unlink => exact h.unlink hl
  | grow => exact h.grow hl
  | shrink => exact h.shrink hl
  | replace => exact h.replace hl
  | statsAll => exact h.statsAll
  | statsOf => exact h.statsOf _
  | count => exact h.count
  | totals => exact h.totals
  | scan => exact h.scan hl
  | release => exact h.release hl
  | name => exact h.name hl

end Verif.Prefix
