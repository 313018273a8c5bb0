import Verif.Lemmas.LogFile
import Verif.Spec.Recover
/-! # Lemmas on recovery of key-value items -/
namespace Verif.Log
open Spec

/-- The conversion of an expiry time through the log. -/
theorem life_eq {start start' : Nat} {c c' : Clock} {e : Nat} (hg : GoodExp start e)
    (hs : InStep start c) (hs' : InStep start' c') (hw : c.wall ≤ c'.wall)
    (hm : c'.wall < 4294967295) (h1 : 1 ≤ c'.cur) :
    (passed c'.wall (deadline start e) → relExp c' (absExp c e) = 1) ∧
    (¬ passed c'.wall (deadline start e) →
      relExp c' (absExp c e) ≠ 1 ∧
      deadline start' (relExp c' (absExp c e)) = deadline start e ∧
      ¬ (relExp c' (absExp c e) ≠ 0 ∧ relExp c' (absExp c e) ≤ c'.cur) ∧
      relExp c' (absExp c e) < 4294967296) := by
  unfold InStep at hs hs'
  by_cases h0 : e = 0 ∨ e = 4294967295
  · have hd : deadline start e = none := by unfold deadline; rw [if_pos h0]
    have ha : absExp c e = e := by unfold absExp; rw [if_pos h0]
    have hr : relExp c' e = e := by unfold relExp; rw [if_pos h0]
    rw [hd, ha, hr]
    refine ⟨fun h => absurd h (by simp [passed]), fun _ => ⟨by omega, ?_, ?_, by omega⟩⟩
    · unfold deadline; rw [if_pos h0]
    · omega
  · have hd : deadline start e = some (start + e) := by unfold deadline; rw [if_neg h0]
    have hlt : start + e < 4294967295 := by unfold GoodExp at hg; omega
    rw [hd]
    simp only [passed]
    have hwm : c'.wall % 4294967296 = c'.wall := Nat.mod_eq_of_lt (by omega)
    by_cases he : e > c.cur
    · have ha : absExp c e = start + e := by
        unfold absExp; rw [if_neg h0, if_pos he, Nat.mod_eq_of_lt (by omega)]; omega
      rw [ha]
      constructor
      · intro h
        unfold relExp
        rw [if_neg (by omega), hwm, if_neg (by omega)]
      · intro h
        have hr : relExp c' (start + e) = c'.cur + (start + e - c'.wall) := by
          unfold relExp
          rw [if_neg (by omega), hwm, if_pos (by omega), Nat.mod_eq_of_lt (by omega)]
        rw [hr]
        refine ⟨by omega, ?_, by omega, by omega⟩
        unfold deadline
        rw [if_neg (by omega)]
        congr 1; omega
    · have ha : absExp c e = c.wall := by
        unfold absExp; rw [if_neg h0, if_neg he, Nat.mod_eq_of_lt (by omega)]
      rw [ha]
      constructor
      · intro _
        unfold relExp
        rw [if_neg (by omega), hwm, if_neg (by omega)]
      · intro h; omega

/-- The recovered store stands for the live one at key `k`. -/
def Rel (start start' : Nat) (c' : Clock) (k : Bytes) (s s' : Store) : Prop :=
  (∃ v v', s k = some v ∧ s' k = some v' ∧ v.flags = v'.flags ∧ v.value = v'.value ∧
      v.cas = v'.cas ∧ deadline start' v'.exp = deadline start v.exp ∧
      ¬ passed c'.wall (deadline start v.exp)) ∨
    ((∀ v, s k = some v → passed c'.wall (deadline start v.exp)) ∧ s'.find c'.cur k = none)

theorem find_none {s : Store} {cur : Nat} {k : Bytes} :
    s.find cur k = none ↔ ∀ v, s k = some v → v.exp ≠ 0 ∧ v.exp ≤ cur := by
  unfold Store.find
  cases h : s k with
  | none => simp
  | some v =>
    simp only [Option.some.injEq, forall_eq']
    unfold KV.valid
    by_cases hv : v.exp ≠ 0 ∧ v.exp ≤ cur
    · simp [hv]
    · simp [hv]

theorem find_some {s : Store} {cur : Nat} {k : Bytes} {v : KV} (h : s.find cur k = some v) :
    s k = some v ∧ ¬ (v.exp ≠ 0 ∧ v.exp ≤ cur) := by
  unfold Store.find at h
  cases hs : s k with
  | none => rw [hs] at h; simp at h
  | some w =>
    rw [hs] at h
    simp only at h
    unfold KV.valid at h
    by_cases hv : w.exp ≠ 0 ∧ w.exp ≤ cur
    · simp [hv] at h
    · simp only [hv, decide_false, Bool.not_false, if_true, Option.some.injEq] at h
      subst h
      exact ⟨rfl, hv⟩

theorem put_self (s : Store) (k : Bytes) (v : Option KV) : (s.put k v) k = v := by
  simp [Store.put]
theorem put_other (s : Store) {k k' : Bytes} (v : Option KV) (h : k' ≠ k) :
    (s.put k v) k' = s k' := by simp [Store.put, h]
theorem find_put_other (s : Store) {k k' : Bytes} (v : Option KV) (cur : Nat) (h : k' ≠ k) :
    (s.put k v).find cur k' = s.find cur k' := by unfold Store.find; rw [put_other s v h]
theorem find_put_none (s : Store) (k : Bytes) (cur : Nat) :
    (s.put k none).find cur k = none := by unfold Store.find; rw [put_self]

/-- What an invalid item of the live store means at recovery. -/
theorem invalid_passed {start : Nat} {c : Clock} {w : Nat} (hs : InStep start c) (hw : c.wall ≤ w)
    (hm : w < 4294967295) {e : Nat} (h : e ≠ 0 ∧ e ≤ c.cur) : passed w (deadline start e) := by
  unfold InStep at hs
  unfold deadline
  rw [if_neg (by omega)]
  simp only [passed]; omega

theorem Rel.other {start start' : Nat} {c' : Clock} {k k' : Bytes} {s s' : Store}
    (h : Rel start start' c' k s s') (hk : k ≠ k') (v w : Option KV) :
    Rel start start' c' k (s.put k' v) (s'.put k' w) := by
  unfold Rel
  rw [put_other _ _ hk, put_other _ _ hk, find_put_other _ _ _ hk]
  exact h

theorem Rel.other_live {start start' : Nat} {c' : Clock} {k k' : Bytes} {s s' : Store}
    (h : Rel start start' c' k s s') (hk : k ≠ k') (v : Option KV) :
    Rel start start' c' k (s.put k' v) s' := by
  unfold Rel
  rw [put_other _ _ hk]
  exact h

theorem Rel.put_none {start start' : Nat} {c' : Clock} {k : Bytes} {s s' : Store}
    (h : Rel start start' c' k s s') (k' : Bytes) :
    Rel start start' c' k (s.put k' none) (s'.put k' none) := by
  by_cases hk : k = k'
  · subst hk
    right
    rw [put_self, find_put_none]
    exact ⟨fun v hv => by simp at hv, rfl⟩
  · exact h.other hk _ _

theorem Rel.drop_live {start start' : Nat} {c' : Clock} {k : Bytes} {s s' : Store}
    (h : Rel start start' c' k s s') (k' : Bytes)
    (hp : ∀ v, s k' = some v → passed c'.wall (deadline start v.exp)) :
    Rel start start' c' k (s.put k' none) s' := by
  by_cases hk : k = k'
  · subst hk
    right
    rw [put_self]
    refine ⟨fun v hv => by simp at hv, ?_⟩
    rcases h with ⟨v, v', hs, _, _, _, _, _, hnp⟩ | ⟨_, h2⟩
    · exact absurd (hp v hs) hnp
    · exact h2
  · exact h.other_live hk _

theorem Rel.flush {start start' : Nat} {c' : Clock} {k : Bytes} {s s' : Store}
    (h : Rel start start' c' k s s')
    (p : Bytes → Bool) : Rel start start' c' k (s.flush p) (s'.flush p) := by
  unfold Rel Store.flush Store.find
  by_cases hp : p k
  · right; simp [hp]
  · simp only [hp, if_false, Bool.false_eq_true]
    exact h

/-- The replay of a logged change. -/
def replay (sc : Scope) (c' : Clock) (s' : Store) (c : Clock) : Option Op → Option Store
  | none => some s'
  | some op => kvApply sc c'.cur s' (callOf c' ⟨c, op⟩)

/-- One change and its replay. -/
theorem step_rel {sc : Scope} {start start' : Nat} {c c' : Clock} {k : Bytes} {s s' : Store} {ev : Ev}
    (h : Rel start start' c' k s s') (hs : InStep start c) (hw : c.wall ≤ c'.wall)
    (hs' : InStep start' c') (hm : c'.wall < 4294967295) (h1 : 1 ≤ c'.cur)
    (hc : match ev with
      | .store it => it.key = k → it.ittype = 0 ∧ GoodExp start it.exptime ∧
          (passed c'.wall (deadline start it.exptime) → served start s c'.wall k = none)
      | .touch k' e => k' = k → GoodExp start e ∧
          ∀ v, s.find c.cur k = some v → ¬ passed c'.wall (deadline start v.exp)
      | _ => True) :
    ∃ s1', replay sc c' s' c (liveStep sc c s ev).2 = some s1' ∧
      Rel start start' c' k (liveStep sc c s ev).1 s1' := by
  have hgone : ∀ k, s.find c.cur k = none →
      ∀ v, s k = some v → passed c'.wall (deadline start v.exp) := by
    intro k hf v hv
    exact invalid_passed hs hw hm (find_none.1 hf v hv)
  cases ev with
  | store it =>
    by_cases hk : k = it.key
    · subst hk
      obtain ⟨hty, hg, hsup⟩ := hc rfl
      obtain ⟨hl1, hl2⟩ := life_eq hg hs hs' hw hm h1
      simp only [liveStep, replay, callOf, meaning, hty, if_true]
      by_cases hp : passed c'.wall (deadline start it.exptime)
      · rw [if_pos (hl1 hp)]
        refine ⟨s', rfl, ?_⟩
        right
        rw [put_self]
        refine ⟨fun v hv => by cases Option.some.inj hv; exact hp, ?_⟩
        rcases h with ⟨v, v', hs1, _, _, _, _, _, hnp⟩ | ⟨_, h2⟩
        · have := hsup hp
          unfold served at this
          rw [hs1] at this
          simp only at this
          rw [if_neg hnp] at this
          simp at this
        · exact h2
      · obtain ⟨hne, hd, hval, _⟩ := hl2 hp
        rw [if_neg hne]
        refine ⟨_, rfl, ?_⟩
        left
        rw [put_self, put_self]
        exact ⟨_, _, rfl, rfl, rfl, rfl, rfl, hd, hp⟩
    · simp only [liveStep, replay, callOf, meaning]
      split
      · exact ⟨s', rfl, h.other_live hk _⟩
      · split
        · exact ⟨_, rfl, h.other hk _ _⟩
        · exact ⟨s', rfl, h.other_live hk _⟩
  | delete k =>
    simp only [liveStep]
    cases hf : s.find c.cur k with
    | none =>
      exact ⟨s', rfl, h.drop_live k (hgone k hf)⟩
    | some v =>
      exact ⟨_, rfl, h.put_none k⟩
  | evict k =>
    simp only [liveStep]
    cases hf : s k with
    | none => exact ⟨s', rfl, h⟩
    | some v => exact ⟨_, rfl, h.put_none k⟩
  | reclaim k =>
    simp only [liveStep]
    cases hf : s.find c.cur k with
    | none => exact ⟨s', rfl, h.drop_live k (hgone k hf)⟩
    | some v => exact ⟨s', rfl, h⟩
  | touch k' e =>
    simp only [liveStep]
    cases hf : s.find c.cur k' with
    | none => exact ⟨s', rfl, h.drop_live k' (hgone k' hf)⟩
    | some v =>
      by_cases hk : k = k'
      · subst hk
        obtain ⟨hg, hnp⟩ := hc rfl
        obtain ⟨hl1, hl2⟩ := life_eq hg hs hs' hw hm h1
        have hv := find_some hf
        rcases h with ⟨w, v', hs1, hs1', hfl, hva, hca, hdl, hnp'⟩ | ⟨h2, _⟩
        · rw [hv.1] at hs1
          cases Option.some.inj hs1
          have hfv : s'.find c'.cur k = some v' := by
            cases hf' : s'.find c'.cur k with
            | none =>
              have := find_none.1 hf' v' hs1'
              have := invalid_passed hs' (Nat.le_refl _) hm this
              rw [hdl] at this
              exact absurd this hnp'
            | some x =>
              have := (find_some hf').1
              rw [hs1'] at this
              exact this.symm
          simp only [replay, callOf, meaning, if_true, kvApply, KV.item, hfv]
          refine ⟨_, rfl, ?_⟩
          by_cases hp : passed c'.wall (deadline start e)
          · right
            rw [put_self, hl1 hp]
            refine ⟨fun x hx => by cases Option.some.inj hx; exact hp, ?_⟩
            rw [find_none]
            intro x hx
            rw [put_self] at hx
            cases Option.some.inj hx
            exact ⟨Nat.one_ne_zero, h1⟩
          · obtain ⟨hne, hd, hval, _⟩ := hl2 hp
            left
            rw [put_self, put_self]
            exact ⟨_, _, rfl, rfl, hfl, hva, hca, hd, hp⟩
        · exact absurd (h2 v hv.1) (hnp v hf)
      · simp only [replay, callOf, meaning, if_true, kvApply, KV.item]
        cases s'.find c'.cur k' with
        | none => exact ⟨_, rfl, h.other hk _ _⟩
        | some w => exact ⟨_, rfl, h.other hk _ _⟩
  | flushAll =>
    simp only [liveStep, replay, callOf, meaning]
    rw [if_pos (by decide)]
    exact ⟨_, rfl, h.flush _⟩
  | flushPrefix p =>
    simp only [liveStep, replay, callOf, meaning]
    rw [if_neg (by omega)]
    by_cases hp : p = []
    · subst hp
      simp only [if_true, List.length_nil]
      exact ⟨_, rfl, h.flush _⟩
    · have : ((p.length : Int)) ≠ 0 := by
        have : p.length ≠ 0 := fun e => hp (List.length_eq_zero_iff.1 e)
        omega
      rw [if_neg hp, if_neg this]
      exact ⟨_, rfl, h.flush _⟩

theorem run_rel {sc : Scope} {start start' : Nat} {c' : Clock} {k : Bytes} (hs' : InStep start' c')
    (hm : c'.wall < 4294967295) (h1 : 1 ≤ c'.cur) (evs : List (Clock × Ev)) :
    ∀ (s s' : Store), Rel start start' c' k s s' → Calm sc start c'.wall k s evs →
      ∃ s1', after (kvApply sc c'.cur) s' ((liveLog sc s evs).map (callOf c')) = some s1' ∧
        Rel start start' c' k (liveStore sc s evs) s1' := by
  induction evs with
  | nil => intro s s' h _; exact ⟨s', rfl, h⟩
  | cons x evs ih =>
    intro s s' h hc
    obtain ⟨c, ev⟩ := x
    obtain ⟨⟨hs, hw, hev⟩, hrest⟩ := hc
    obtain ⟨s1', hr, hrel⟩ := step_rel (sc := sc) h hs hw hs' hm h1 hev
    obtain ⟨s2', h2, hrel2⟩ := ih _ s1' hrel hrest
    refine ⟨s2', ?_, hrel2⟩
    simp only [liveLog]
    cases hst : liveStep sc c s ev with
    | mk t op =>
      rw [hst] at hr h2
      cases op with
      | none =>
        simp only [replay, Option.some.injEq] at hr
        subst hr
        exact h2
      | some op =>
        simp only [replay] at hr
        simp only [List.map_cons, after, hr]
        exact h2

theorem Calm.take {sc : Scope} {start w : Nat} {k : Bytes} {evs : List (Clock × Ev)} :
    ∀ {s : Store} (_ : Calm sc start w k s evs) (j : Nat), Calm sc start w k s (evs.take j) := by
  induction evs with
  | nil => intro s h j; simpa using h
  | cons x evs ih =>
    intro s h j
    cases j with
    | zero => simp [Calm]
    | succ j =>
      obtain ⟨h1, h2⟩ := h
      exact ⟨h1, ih h2 j⟩

theorem liveLog_take {sc : Scope} (evs : List (Clock × Ev)) :
    ∀ (s : Store) (m : Nat), ∃ j, j ≤ evs.length ∧
      liveLog sc s (evs.take j) = (liveLog sc s evs).take m := by
  induction evs with
  | nil => intro s m; exact ⟨0, by simp, by simp [liveLog]⟩
  | cons x evs ih =>
    intro s m
    obtain ⟨c, ev⟩ := x
    cases m with
    | zero => exact ⟨0, by simp, by simp [liveLog]⟩
    | succ m =>
      cases hst : liveStep sc c s ev with
      | mk t op =>
        cases op with
        | none =>
          obtain ⟨j, hj, he⟩ := ih t (m + 1)
          refine ⟨j + 1, by simp only [List.length_cons]; omega, ?_⟩
          simp only [List.take_succ_cons, liveLog, hst]
          exact he
        | some op =>
          obtain ⟨j, hj, he⟩ := ih t m
          refine ⟨j + 1, by simp only [List.length_cons]; omega, ?_⟩
          simp only [List.take_succ_cons, liveLog, hst]
          rw [he]

theorem whole_take (log : List (Entry × Bytes)) :
    ∀ cut, ∃ m, m ≤ log.length ∧ whole log cut = log.take m := by
  induction log with
  | nil => intro cut; exact ⟨0, by simp, rfl⟩
  | cons x log ih =>
    intro cut
    simp only [whole]
    by_cases h : x.2.length ≤ cut
    · rw [if_pos h]
      obtain ⟨m, hm, he⟩ := ih (cut - x.2.length)
      exact ⟨m + 1, by simp only [List.length_cons]; omega, by rw [he]; rfl⟩
    · rw [if_neg h]; exact ⟨0, by simp, rfl⟩

theorem rel_served {start start' : Nat} {c' : Clock} {k : Bytes} {s s' : Store}
    (h : Rel start start' c' k s s')
    (hs' : InStep start' c') (hm : c'.wall < 4294967295) (t : Nat) (ht : c'.wall ≤ t) :
    served start' s' t k = served start s t k := by
  have mono : ∀ d, passed c'.wall d → passed t d := by
    intro d hd
    cases d with
    | none => exact hd
    | some d => simp only [passed] at *; omega
  unfold served
  rcases h with ⟨v, v', h1, h1', hf, hv, hc, hd, _⟩ | ⟨h1, h2⟩
  · rw [h1, h1']
    simp only
    rw [hd, hf, hv, hc]
  · have e1 : served start s t k = none := by
      unfold served
      cases hk : s k with
      | none => rfl
      | some v => simp only; rw [if_pos (mono _ (h1 v hk))]
    unfold served at e1
    rw [e1]
    cases hk : s' k with
    | none => rfl
    | some v =>
      simp only
      rw [if_pos (mono _ (invalid_passed hs' (Nat.le_refl _) hm (find_none.1 h2 v hk)))]

theorem rel_empty (start start' : Nat) (c' : Clock) (k : Bytes) :
    Rel start start' c' k (fun _ => none) (fun _ => none) := by
  right
  exact ⟨fun v hv => by simp at hv, rfl⟩

end Verif.Log
