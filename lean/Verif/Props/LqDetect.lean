/-
Properties of the long query detection (C103-C107).
-/
import Verif.Lemmas.LqThreads

namespace Verif.LqDetect.Props

open Spec (args cost shown line same whole OkCall OkEvent OkAct Calm samples view report text Forwards)

/-- A `bop get` of all, which touches `n` elements. -/
def bget (key : String) (n : Nat) : Call :=
  { ip := "10.0.0.1".toList, key := key.toList,
    query := .bopGet n (.num 0 (some 9)) false 0 0 false false, hour := 1, min := 2, sec := 3, usec := 4 }

/-- A `lop get`. -/
def lget (n : Nat) (f t : Int) : Call :=
  { ip := "10.0.0.1".toList, key := "k".toList, query := .lopGet n f t false false,
    hour := 1, min := 2, sec := 3, usec := 4 }

theorem bget_ok (key : String) (n : Nat) (h : n < 1073741824) : OkCall (bget key n) :=
  ⟨by show 8 ≤ 15; omega, by show 1 < 100; omega, by show 2 < 100; omega, by show 3 < 100; omega,
    by show 4 < 1000000; omega, h, ⟨by decide, fun x hx => by injection hx; omega⟩, by decide, by decide⟩

/-- **C103 (part).**  After any sequence of starts, stops and calls (none with the least or the
    greatest `int` as an index), `lqdetect show` is the report on the history, and
    `lqdetect stats` its state, total and threshold: nothing faults, no line is cut. -/
theorem C103_partial (es : List Event) (he : ∀ e ∈ es, OkEvent e) (hl : es.length < 2147483648) :
    ∃ s, run init es = some s ∧ showText s = some (report (view es.reverse).long) ∧
      stats s = ((view es.reverse).state, ((view es.reverse).long.length : Int), (view es.reverse).thr) := by
  obtain ⟨s, hr, ho⟩ := run_ok (h := []) ok_init he (by simp only [List.length_nil]; omega)
  rw [List.append_nil] at ho
  have hlen := view_long_len es.reverse
  rw [List.length_reverse] at hlen
  exact ⟨s, hr, show_ok ho (by omega), stats_ok ho (by omega)⟩

example : ∃ s, run init [.start 5, .call (bget "k" 7), .call (bget "k" 4), .stop, .call (bget "k" 9)] = some s ∧
    showText s = some (("sop get : 0\nmop delete : 0\nmop get : 0\nlop insert : 0\nlop delete : 0\n" ++
      "lop get : 0\nbop delete : 0\nbop get : 1\n01:02:03.000004 10.0.0.1 <7> bop get k 0..9 0 0\n" ++
      "bop count : 0\nbop gbp : 0\n").toList) ∧ stats s = (.explicitStop, 1, 5) := by
  obtain ⟨s, h1, h2, h3⟩ := C103_partial
    [.start 5, .call (bget "k" 7), .call (bget "k" 4), .stop, .call (bget "k" 9)]
    (by
      intro e he
      simp only [List.mem_cons, List.not_mem_nil, or_false] at he
      rcases he with rfl | rfl | rfl | rfl | rfl
      · trivial
      · exact bget_ok _ _ (by decide)
      · exact bget_ok _ _ (by decide)
      · trivial
      · exact bget_ok _ _ (by decide)) (by decide)
  refine ⟨s, h1, ?_, ?_⟩
  · rw [h2]; decide +kernel
  · rw [h3]; decide +kernel

/-- **C103 is false.**  `lop get k 2147483647..0` and `lop get k -2147483648..0` overflow an
    `int`; on a list with one element both get it. -/
theorem C103_false :
    run init [.start 0, .call (lget 1 2147483647 0)] = none ∧
    run init [.start 0, .call (lget 1 (-2147483648) 0)] = none ∧
    lopGetVisits 1 2147483647 0 = some (1, 1) ∧ lopGetVisits 1 (-2147483648) 0 = some (1, 1) := by
  decide +kernel

theorem samples_cover {h : List Call} {c : Call} (hc : c ∈ h) :
    20 ≤ (samples c.query.cmd h).length ∨ ∃ o ∈ samples c.query.cmd h, same c o = true := by
  induction h with
  | nil => cases hc
  | cons d h ih =>
    have hmono : ∀ o ∈ samples c.query.cmd h, o ∈ samples c.query.cmd (d :: h) := by
      intro o ho
      simp only [samples]
      split
      · exact List.mem_append_left _ ho
      · exact ho
    have hlen : (samples c.query.cmd h).length ≤ (samples c.query.cmd (d :: h)).length := by
      simp only [samples]
      split
      · rw [List.length_append]; omega
      · exact Nat.le_refl _
    rcases List.mem_cons.mp hc with rfl | hc
    · by_cases h1 : (samples c.query.cmd h).length < 20
      · by_cases h2 : (samples c.query.cmd h).any (same c) = true
        · obtain ⟨o, ho, hs⟩ := List.any_eq_true.mp h2
          exact Or.inr ⟨o, hmono o ho, hs⟩
        · refine Or.inr ⟨c, ?_, ?_⟩
          · simp only [samples]
            rw [if_pos ⟨trivial, h1, h2⟩]
            exact List.mem_append_right _ (List.mem_singleton.mpr rfl)
          · simp [same]
      · left; omega
    · rcases ih hc with h1 | ⟨o, ho, hs⟩
      · left; omega
      · exact Or.inr ⟨o, hmono o ho, hs⟩

/-- **C104 (part).**  Every long query of the run is shown, by a line with the same arguments
    (and the same key as shown, if it asks for a whole set or map), unless its command has 20
    lines. -/
theorem C104_partial (es : List Event) (he : ∀ e ∈ es, OkEvent e) (hl : es.length < 2147483648)
    (c : Call) (hc : c ∈ (view es.reverse).long) :
    ∃ s n L, run init es = some s ∧ showText s = some (text n L) ∧
      ((L c.query.cmd).length = 20 ∨ ∃ o ∈ L c.query.cmd, args o.query = args c.query ∧
        (whole c.query = true → shown o.key = shown c.key)) := by
  obtain ⟨s, hr, hs, _⟩ := C103_partial es he hl
  refine ⟨s, _, _, hr, hs, ?_⟩
  have h20 := samples_len c.query.cmd (view es.reverse).long
  rcases samples_cover hc with h | ⟨o, ho, h⟩
  · left; show (samples c.query.cmd (view es.reverse).long).length = 20; omega
  · right
    simp only [same, Bool.and_eq_true, beq_iff_eq, Bool.or_eq_true, Bool.not_eq_true'] at h
    refine ⟨o, ho, h.1.symm, ?_⟩
    intro hw
    rcases h.2 with h2 | h2
    · rw [hw] at h2; cases h2
    · exact h2.symm

example : bget "k" 7 ∈ (view [.stop, .call (bget "k" 7), .start 5]).long := by decide +kernel

/-- **C104 is false.**  Of two long `bop get` of different keys, the report shows one: the other
    key is never named. -/
theorem C104_false :
    ∃ s n, run init [.start 5, .call (bget "slow" 7), .call (bget "slower" 900000)] = some s ∧
      showText s = some (text n (fun cmd => if cmd = .bopGet then [bget "slow" 7] else [])) ∧
      stats s = (.running, 2, 5) := by
  obtain ⟨s, h1, h2, h3⟩ := C103_partial
    [.start 5, .call (bget "slow" 7), .call (bget "slower" 900000)]
    (by
      intro e he
      simp only [List.mem_cons, List.not_mem_nil, or_false] at he
      rcases he with rfl | rfl | rfl
      · trivial
      · exact bget_ok _ _ (by decide)
      · exact bget_ok _ _ (by decide)) (by decide)
  refine ⟨s, fun cmd => if cmd = .bopGet then 2 else 0, h1, ?_, ?_⟩
  · rw [h2]; decide +kernel
  · rw [h3]; decide +kernel

/-- **C105 (part).**  What `lop get`, a `lop delete` of a range that runs forwards, and
    `lop insert` are taken to cost is at least what they visit, up to one element for the insert:
    with a threshold that they reach by far they are recorded. -/
theorem C105_partial (ccnt f t : Int) :
    (∀ v n del drop, lopGetVisits ccnt f t = some (v, n) → v ≤ cost (.lopGet n f t del drop)) ∧
    (Forwards ccnt f t → ∀ v n drop, lopDeleteVisits ccnt f t = some (v, n) →
      v ≤ cost (.lopDelete n f t drop)) ∧
    (∀ v, lopInsertVisits ccnt f = some v → v ≤ cost (.lopInsert f) + 1) := by
  have key : ∀ f' t', Lst.adjustRange ccnt f t = some (f', t') →
      0 ≤ f' ∧ f' < ccnt ∧ findSteps ccnt f' ≤ Spec.reach f ∧ (Forwards ccnt f t → f' ≤ t') := by
    intro f' t' h
    unfold Lst.adjustRange at h
    split at h
    · cases h
    · rename_i hpos
      simp only at h
      split at h
      · cases h
      · rename_i hf
        simp only [Option.some.injEq, Prod.mk.injEq] at h
        obtain ⟨rfl, rfl⟩ := h
        rename_i g
        have hg : 0 ≤ g ∧ g < ccnt ∧ (f ≥ 0 → g ≤ f) ∧ (f < 0 → ccnt - g ≤ -f) ∧
            (g ≤ (if f < 0 then f + ccnt else f) ∨ g = 0) := by
          generalize hF : (if f < 0 then f + ccnt else f) = F at *
          have hF2 : (f < 0 ∧ F = f + ccnt) ∨ (f ≥ 0 ∧ F = f) := by
            rw [← hF]; split <;> omega
          by_cases h1 : F < 0
          · rw [if_pos h1] at hf
            by_cases h3 : (if t < 0 then t + ccnt else t) < 0
            · rw [if_pos h3] at hf; cases hf
            · rw [if_neg h3] at hf; injection hf with hf; omega
          · rw [if_neg h1] at hf
            by_cases h2 : F ≥ ccnt
            · rw [if_pos h2] at hf
              by_cases h3 : (if t < 0 then t + ccnt else t) ≥ ccnt
              · rw [if_pos h3] at hf; cases hf
              · rw [if_neg h3] at hf; injection hf with hf; omega
            · rw [if_neg h2] at hf; injection hf with hf; omega
        have hfind := find_le hg.1 hg.2.1
        refine ⟨hg.1, hg.2.1, ?_, ?_⟩
        · unfold Spec.reach
          split
          · have := hg.2.2.1 (by omega); omega
          · have := hg.2.2.2.1 (by omega); omega
        · unfold Forwards
          intro hfw
          obtain ⟨g0, g1, _, _, g2⟩ := hg
          generalize (if f < 0 then f + ccnt else f) = F at *
          generalize (if t < 0 then t + ccnt else t) = T at *
          split
          · omega
          · split <;> omega
  refine ⟨?_, ?_, ?_⟩
  · intro v n del drop h
    unfold lopGetVisits at h
    split at h
    · cases h
    · rename_i f' t' hadj
      obtain ⟨_, _, hs, _⟩ := key f' t' hadj
      simp only [Option.some.injEq, Prod.mk.injEq] at h
      obtain ⟨rfl, rfl⟩ := h
      simp only [cost]
      omega
  · intro hfw v n drop h
    unfold lopDeleteVisits at h
    split at h
    · cases h
    · rename_i f' t' hadj
      obtain ⟨_, _, hs, hle⟩ := key f' t' hadj
      simp only [Option.some.injEq, Prod.mk.injEq] at h
      obtain ⟨rfl, rfl⟩ := h
      simp only [cost, if_pos (hle hfw)]
      omega
  · intro v h
    unfold lopInsertVisits at h
    split at h
    · cases h
    · rename_i hr
      simp only [Option.some.injEq] at h
      subst h
      simp only [cost, Spec.reach, findSteps]
      repeat' split
      all_goals omega

example : lopGetVisits 6000 3000 3999 = some (4000, 1000) ∧ lopDeleteVisits 6000 2500 3999 = some (4000, 1500) ∧
    lopInsertVisits 6000 2500 = some 2500 ∧ lopInsertVisits 6000 (-3000) = some 3001 := by decide +kernel

/-- **C105 is false.**  With the usual threshold of 4000, `lop delete k -1..3000` on a list of
    6000 elements visits 6000 and is not recorded, while `lop get k 4000..0` on a list of one
    element visits one and is. -/
theorem C105_false :
    (lopDeleteVisits 6000 (-1) 3000 = some (6000, 3000) ∧
      ∃ s, run init [.start 0, .call { lget 0 0 0 with query := .lopDelete 3000 (-1) 3000 false }] = some s ∧
        stats s = (.running, 0, 4000)) ∧
    (lopGetVisits 1 4000 0 = some (1, 1) ∧
      ∃ s, run init [.start 0, .call (lget 1 4000 0)] = some s ∧ stats s = (.running, 1, 4000)) := by
  refine ⟨⟨by decide +kernel, ?_⟩, by decide +kernel, ?_⟩
  · obtain ⟨s, h1, _, h3⟩ := C103_partial
      [.start 0, .call { lget 0 0 0 with query := .lopDelete 3000 (-1) 3000 false }]
      (by
        intro e he
        simp only [List.mem_cons, List.not_mem_nil, or_false] at he
        rcases he with rfl | rfl
        · trivial
        · exact ⟨by decide, by decide, by decide, by decide, by decide, by decide,
            ⟨by decide, by decide⟩, by decide, by decide⟩) (by decide)
    exact ⟨s, h1, by rw [h3]; decide +kernel⟩
  · obtain ⟨s, h1, _, h3⟩ := C103_partial [.start 0, .call (lget 1 4000 0)]
      (by
        intro e he
        simp only [List.mem_cons, List.not_mem_nil, or_false] at he
        rcases he with rfl | rfl
        · trivial
        · exact ⟨by decide, by decide, by decide, by decide, by decide, by decide,
            ⟨by decide, by decide⟩, by decide, by decide⟩) (by decide)
    exact ⟨s, h1, by rw [h3]; decide +kernel⟩

/-- **C106.**  However the steps of the threads interleave, nothing faults, and `lqdetect show`
    at any time gives for each command a number and at most 20 whole lines, each of a call of
    this command that a thread really made. -/
theorem C106 (as : List Act) (ha : ∀ a ∈ as, OkAct a) :
    ∃ s n L, Sys.run Sys.init as = some s ∧ showText s.lq = some (text n L) ∧
      ∀ cmd, (L cmd).length ≤ 20 ∧ ∀ c ∈ L cmd, c.query.cmd = cmd ∧ ∃ w, Act.check w c ∈ as := by
  obtain ⟨s, hr, hi⟩ := inv_run (calm := False) as (inv_init False) ha (fun h => h.elim)
  obtain ⟨n, L, hL, hs⟩ := inv_show hi
  refine ⟨s, n, L, hr, hs, ?_⟩
  intro cmd
  refine ⟨(hL cmd).1, fun c hc => ⟨((hL cmd).2 c hc).1, ?_⟩⟩
  obtain ⟨w, hw⟩ := ((hL cmd).2 c hc).2.1
  rw [List.append_nil, List.mem_reverse] at hw
  exact ⟨w, hw⟩

/-- Two workers in the midst of calls while detection is stopped and started again. -/
def mixed : List Act :=
  [.clear 5, .begin_, .check 0 (bget "a" 7), .check 1 (bget "b" 8), .compare 0, .stop, .clear 5, .begin_,
   .compare 1, .save 1, .save 0]

theorem mixed_ok : ∀ a ∈ mixed, OkAct a := by
  intro a ha
  simp only [mixed, List.mem_cons, List.not_mem_nil, or_false] at ha
  rcases ha with rfl | rfl | rfl | rfl | rfl | rfl | rfl | rfl | rfl | rfl | rfl <;>
    trivial

example : ∃ s n L, Sys.run Sys.init mixed = some s ∧ showText s.lq = some (text n L) ∧
      ∀ cmd, (L cmd).length ≤ 20 ∧ ∀ c ∈ L cmd, c.query.cmd = cmd ∧ ∃ w, Act.check w c ∈ mixed :=
  C106 mixed mixed_ok

/-- **C107 (part).**  If no detection begins while a thread is within a call, only calls that
    cost as much as the threshold that `lqdetect stats` shows are recorded. -/
theorem C107_partial (as : List Act) (ha : ∀ a ∈ as, OkAct a) (hc : Calm Sys.init as) :
    ∃ s n L, Sys.run Sys.init as = some s ∧ showText s.lq = some (text n L) ∧
      ∀ cmd, ∀ c ∈ L cmd, (∃ w, Act.check w c ∈ as) ∧ (stats s.lq).2.2 ≤ cost c.query := by
  obtain ⟨s, hr, hi⟩ := inv_run (calm := True) as (inv_init True) ha (fun _ => hc)
  obtain ⟨n, L, hL, hs⟩ := inv_show hi
  refine ⟨s, n, L, hr, hs, ?_⟩
  intro cmd c hcl
  obtain ⟨_, ⟨w, hw⟩, h2⟩ := (hL cmd).2 c hcl
  rw [List.append_nil, List.mem_reverse] at hw
  exact ⟨⟨w, hw⟩, h2 trivial⟩

example : Calm Sys.init [.clear 5, .begin_, .check 0 (bget "a" 7), .compare 0, .stop, .save 0] := by
  refine ⟨fun _ _ _ w => rfl, fun s h => ?_⟩
  refine ⟨(fun t ht => by cases ht), fun s h => ?_⟩
  refine ⟨(fun t ht => by cases ht), fun s h => ?_⟩
  refine ⟨(fun t ht => by cases ht), fun s h => ?_⟩
  refine ⟨(fun t ht => by cases ht), fun s h => ?_⟩
  refine ⟨(fun t ht => by cases ht), fun s h => trivial⟩

/-- A worker that checks the threshold while `lqdetect start` has just cleared it. -/
def race : List Act :=
  [.clear 4000, .begin_, .check 0 (bget "fast" 1), .stop, .clear 4000, .compare 0, .begin_, .save 0]

/-- **C107 is false.**  A query that touches one element is recorded although the threshold has
    always been 4000. -/
theorem C107_false :
    ∃ s n, Sys.run Sys.init race = some s ∧
      showText s.lq = some (text n (fun cmd => if cmd = .bopGet then [bget "fast" 1] else [])) ∧
      stats s.lq = (.running, 1, 4000) ∧ cost (bget "fast" 1).query = 1 := by
  have h1 : (Sys.run Sys.init race).bind (fun s => showText s.lq) =
      some (text (fun cmd => if cmd = .bopGet then 1 else 0)
        (fun cmd => if cmd = .bopGet then [bget "fast" 1] else [])) := by decide +kernel
  have h2 : (Sys.run Sys.init race).map (fun s => stats s.lq) = some (.running, 1, 4000) := by
    decide +kernel
  cases hr : Sys.run Sys.init race with
  | none => rw [hr] at h1; cases h1
  | some s =>
    rw [hr] at h1 h2
    simp only [Option.bind_some, Option.map_some, Option.some.injEq] at h1 h2
    exact ⟨s, _, rfl, h1, h2, by decide⟩

end Verif.LqDetect.Props
