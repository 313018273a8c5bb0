import Verif.Lemmas.Recover
import Verif.Spec.Snapshot
/-! # Lemmas on checkpoints of key-value items -/
namespace Verif.Log
open Spec

/-- Replay of records. -/
def R (sc : Scope) (c' : Clock) (s : Store) (l : List Logged) (s' : Store) : Prop :=
  after (kvApply sc c'.cur) s (l.map (callOf c')) = some s'

theorem R.append {sc : Scope} {c' : Clock} {s s1 s2 : Store} {a b : List Logged}
    (h1 : R sc c' s a s1) (h2 : R sc c' s1 b s2) : R sc c' s (a ++ b) s2 := by
  unfold R at *
  induction a generalizing s with
  | nil => simp only [List.map_nil, after, Option.some.injEq] at h1; subst h1; exact h2
  | cons x a ih =>
    simp only [List.map_cons, after, List.cons_append] at h1 ⊢
    cases hx : kvApply sc c'.cur s (callOf c' x) with
    | none => rw [hx] at h1; simp at h1
    | some y => rw [hx] at h1; exact ih h1

theorem R.nil {sc : Scope} {c' : Clock} (s : Store) : R sc c' s [] s := rfl

theorem R.one {sc : Scope} {c c' : Clock} {s s' : Store} {op : Op}
    (h : replay sc c' s c (some op) = some s') : R sc c' s [⟨c, op⟩] s' := by
  unfold R
  simp only [replay] at h
  simp only [List.map_cons, List.map_nil, after, h]

theorem kvApply_local {sc : Scope} {cur : Nat} {k : Bytes} {s1 s2 s1' : Store} {a : Call} (h : s2 k = s1 k)
    (h1 : kvApply sc cur s1 a = some s1') : ∃ s2', kvApply sc cur s2 a = some s2' ∧ s2' k = s1' k := by
  have hput : ∀ k' w, s1.put k' w = s1' → ∃ s2', some (s2.put k' w) = some s2' ∧ s2' k = s1' k := by
    intro k' w e
    subst e
    refine ⟨_, rfl, ?_⟩
    by_cases hk : k = k'
    · subst hk; rw [put_self, put_self]
    · rw [put_other _ _ hk, put_other _ _ hk, h]
  have hflush : ∀ p, s1.flush p = s1' → ∃ s2', some (s2.flush p) = some s2' ∧ s2' k = s1' k := by
    intro p e
    subst e
    refine ⟨_, rfl, ?_⟩
    unfold Store.flush
    rw [h]
  cases a with
  | kvLink k' f e v cas => exact hput _ _ (Option.some.inj h1)
  | unlink k' => exact hput _ _ (Option.some.inj h1)
  | setExptime k' e =>
    by_cases hk : k = k'
    · subst hk
      have hf : s2.find cur k = s1.find cur k := by unfold Store.find; rw [h]
      simp only [kvApply, hf] at h1 ⊢
      cases hx : s1.find cur k with
      | none => rw [hx] at h1; exact hput _ _ (Option.some.inj h1)
      | some v => rw [hx] at h1; exact hput _ _ (Option.some.inj h1)
    · have e1 : s1' k = s1 k := by
        simp only [kvApply] at h1
        split at h1 <;> (cases Option.some.inj h1; exact put_other _ _ hk)
      simp only [kvApply]
      rw [e1, ← h]
      cases s2.find cur k' with
      | none => exact ⟨_, rfl, put_other _ _ hk⟩
      | some v => exact ⟨_, rfl, put_other _ _ hk⟩
  | flushAll => exact hflush _ (Option.some.inj h1)
  | flushNull => exact hflush _ (Option.some.inj h1)
  | flushPrefix p => exact hflush _ (Option.some.inj h1)
  | _ =>
    cases Option.some.inj h1
    exact ⟨_, rfl, h⟩

theorem R.congr {sc : Scope} {c' : Clock} {k : Bytes} {l : List Logged} :
    ∀ {s1 s2 s1' : Store}, R sc c' s1 l s1' → s2 k = s1 k → ∃ s2', R sc c' s2 l s2' ∧ s2' k = s1' k := by
  induction l with
  | nil => intro s1 s2 s1' h e; cases Option.some.inj h; exact ⟨_, rfl, e⟩
  | cons x l ih =>
    intro s1 s2 s1' h e
    unfold R at h ⊢
    simp only [List.map_cons, after] at h ⊢
    cases hx : kvApply sc c'.cur s1 (callOf c' x) with
    | none => rw [hx] at h; simp at h
    | some y =>
      rw [hx] at h
      obtain ⟨y2, hy, ey⟩ := kvApply_local e hx
      obtain ⟨z, hz, ez⟩ := ih (s1 := y) (s2 := y2) h ey
      rw [hy]
      exact ⟨z, hz, ez⟩

/-- Records without effect on `k`. -/
def Blank (sc : Scope) (c' : Clock) (k : Bytes) (l : List Logged) : Prop :=
  ∀ s, ∃ s', R sc c' s l s' ∧ s' k = s k

theorem Blank.nil {sc : Scope} {c' : Clock} {k : Bytes} : Blank sc c' k [] := fun s => ⟨s, rfl, rfl⟩

theorem Blank.append {sc : Scope} {c' : Clock} {k : Bytes} {a b : List Logged}
    (ha : Blank sc c' k a) (hb : Blank sc c' k b) : Blank sc c' k (a ++ b) := by
  intro s
  obtain ⟨s1, h1, e1⟩ := ha s
  obtain ⟨s2, h2, e2⟩ := hb s1
  exact ⟨s2, h1.append h2, e2.trans e1⟩

/-- A change that does not concern `k`. -/
def Foreign (sc : Scope) (k : Bytes) (ev : Ev) : Prop := ev.key ≠ some k ∧ flushes sc k ev = false

theorem foreign_live {sc : Scope} {c : Clock} {k : Bytes} {s : Store} {ev : Ev} (h : Foreign sc k ev) :
    (liveStep sc c s ev).1 k = s k := by
  obtain ⟨h1, h2⟩ := h
  cases ev with
  | store it =>
    simp only [Ev.key, ne_eq, Option.some.injEq] at h1
    exact put_other _ _ (fun e => h1 e.symm)
  | delete k' =>
    simp only [Ev.key, ne_eq, Option.some.injEq] at h1
    simp only [liveStep]
    split <;> exact put_other _ _ (fun e => h1 e.symm)
  | evict k' =>
    simp only [Ev.key, ne_eq, Option.some.injEq] at h1
    simp only [liveStep]
    split
    · exact put_other _ _ (fun e => h1 e.symm)
    · rfl
  | reclaim k' =>
    simp only [Ev.key, ne_eq, Option.some.injEq] at h1
    simp only [liveStep]
    split
    · rfl
    · exact put_other _ _ (fun e => h1 e.symm)
  | touch k' e =>
    simp only [Ev.key, ne_eq, Option.some.injEq] at h1
    simp only [liveStep]
    split <;> exact put_other _ _ (fun e => h1 e.symm)
  | flushAll => simp [flushes] at h2
  | flushPrefix p =>
    simp only [flushes] at h2
    simp only [liveStep, Store.flush]
    rw [h2]; rfl

theorem foreign_blank {sc : Scope} {c c' : Clock} {k : Bytes} {s : Store} {ev : Ev} {op : Op}
    (h : Foreign sc k ev) (ho : (liveStep sc c s ev).2 = some op) : Blank sc c' k [⟨c, op⟩] := by
  obtain ⟨h1, h2⟩ := h
  intro t
  suffices hs : ∃ t', replay sc c' t c (some op) = some t' ∧ t' k = t k by
    obtain ⟨t', e1, e2⟩ := hs
    exact ⟨t', R.one e1, e2⟩
  cases ev with
  | store it =>
    simp only [Ev.key, ne_eq, Option.some.injEq] at h1
    simp only [liveStep, Option.some.injEq] at ho
    subst ho
    simp only [replay, callOf, meaning]
    split
    · exact ⟨t, rfl, rfl⟩
    · split
      · exact ⟨_, rfl, put_other _ _ (fun e => h1 e.symm)⟩
      · exact ⟨t, rfl, rfl⟩
  | delete k' =>
    simp only [Ev.key, ne_eq, Option.some.injEq] at h1
    simp only [liveStep] at ho
    cases hf : s.find c.cur k' with
    | none => rw [hf] at ho; simp at ho
    | some v =>
      rw [hf] at ho
      simp only [Option.some.injEq] at ho
      subst ho
      exact ⟨_, rfl, put_other _ _ (fun e => h1 e.symm)⟩
  | evict k' =>
    simp only [Ev.key, ne_eq, Option.some.injEq] at h1
    simp only [liveStep] at ho
    cases hf : s k' with
    | none => rw [hf] at ho; simp at ho
    | some v =>
      rw [hf] at ho
      simp only [Option.some.injEq] at ho
      subst ho
      exact ⟨_, rfl, put_other _ _ (fun e => h1 e.symm)⟩
  | reclaim k' =>
    simp only [liveStep] at ho
    split at ho <;> simp at ho
  | touch k' e =>
    simp only [Ev.key, ne_eq, Option.some.injEq] at h1
    simp only [liveStep] at ho
    cases hf : s.find c.cur k' with
    | none => rw [hf] at ho; simp at ho
    | some v =>
      rw [hf] at ho
      simp only [Option.some.injEq] at ho
      subst ho
      simp only [replay, callOf, meaning, if_true, kvApply, KV.item]
      cases t.find c'.cur k' with
      | none => exact ⟨_, rfl, put_other _ _ (fun e => h1 e.symm)⟩
      | some w => exact ⟨_, rfl, put_other _ _ (fun e => h1 e.symm)⟩
  | flushAll => simp [flushes] at h2
  | flushPrefix p =>
    simp only [flushes] at h2
    simp only [liveStep, Option.some.injEq] at ho
    subst ho
    simp only [replay, callOf, meaning]
    rw [if_neg (by omega)]
    by_cases hp : p = []
    · subst hp
      simp only [if_true, List.length_nil] at h2 ⊢
      refine ⟨_, rfl, ?_⟩
      simp only [Store.flush, h2]
      simp
    · have : ((p.length : Int)) ≠ 0 := by
        have : p.length ≠ 0 := fun e => hp (List.length_eq_zero_iff.1 e)
        omega
      rw [if_neg hp] at h2
      rw [if_neg this]
      refine ⟨_, rfl, ?_⟩
      simp only [Store.flush, h2]
      simp

theorem foreign_unlinks {sc : Scope} {c : Clock} {k : Bytes} {s : Store} {ev : Ev} (h : Foreign sc k ev) :
    unlinks sc c s k ev = false := by
  obtain ⟨h1, h2⟩ := h
  cases ev with
  | store it => simpa [Ev.key, unlinks] using h1
  | delete k' => simpa [Ev.key, unlinks] using h1
  | evict k' => simpa [Ev.key, unlinks] using h1
  | reclaim k' =>
    have : k' ≠ k := by simpa [Ev.key] using h1
    simp [unlinks, this]
  | touch k' e =>
    have : k' ≠ k := by simpa [Ev.key] using h1
    simp [unlinks, this]
  | flushAll => simp [flushes] at h2
  | flushPrefix p => simpa only [flushes, unlinks] using h2

theorem foreign_change {sc : Scope} {c : Clock} {s : Store} {ev : Ev} {h : Held}
    (hf : Foreign sc h.key ev) (hl : h.linked = true) : h.change sc c s ev = h := by
  unfold Held.change
  rw [foreign_unlinks hf, hl]
  simp only [Bool.not_false, Bool.and_self, if_true]
  cases ev <;> try rfl
  rename_i k' e
  have : k' ≠ h.key := by have := hf.1; simpa [Ev.key] using this
  simp [this]

theorem change_key (sc : Scope) (c : Clock) (s : Store) (ev : Ev) (h : Held) :
    (h.change sc c s ev).key = h.key := by
  unfold Held.change
  split
  · split
    · split <;> rfl
    · rfl
  · rfl

theorem change_unlinked {sc : Scope} {c : Clock} {s : Store} {ev : Ev} {h : Held}
    (hl : h.linked = false) : h.change sc c s ev = h := by
  unfold Held.change
  rw [hl]
  simp only [Bool.false_and, Bool.false_eq_true, if_false]
  cases h; simp_all

theorem rel_congr {start start' : Nat} {c' : Clock} {k : Bytes} {s1 s2 t1 t2 : Store}
    (h : Rel start start' c' k s1 t1) (e1 : s2 k = s1 k) (e2 : t2 k = t1 k) :
    Rel start start' c' k s2 t2 := by
  unfold Rel Store.find at *
  rw [e1, e2]
  exact h

/-- The held object after it has been dumped: a store with this item at every key. -/
def one (v : KV) : Store := fun _ => some v

/-- An object that is still linked: its changes so far are setattrs. -/
structure Linked (sc : Scope) (start start' : Nat) (c' : Clock) (k : Bytes) (live : Store) (v : KV)
    (new : List Logged) : Prop where
  now : live k = some v
  gone : ∀ s', s'.find c'.cur k = none → ∃ s'', R sc c' s' new s'' ∧ s''.find c'.cur k = none
  more : Blank sc c' k new ∨
    ∀ s' x, s' k = some x → x.flags = v.flags → x.value = v.value → x.cas = v.cas →
      ¬ passed c'.wall (deadline start' x.exp) →
      ∃ s'', R sc c' s' new s'' ∧ Rel start start' c' k live s''

/-- An object that has been dumped, or will be: the records of the new log bring it up to date. -/
def Fixed (sc : Scope) (start start' : Nat) (c' : Clock) (k : Bytes) (live : Store) (v : KV)
    (new : List Logged) : Prop :=
  ∀ s', Rel start start' c' k (one v) s' →
    ∃ s'', R sc c' s' new s'' ∧ Rel start start' c' k live s''

theorem Linked.fixed {sc : Scope} {start start' : Nat} {c' : Clock} {k : Bytes} {live : Store} {v : KV}
    {new : List Logged} (h : Linked sc start start' c' k live v new) :
    Fixed sc start start' c' k live v new := by
  intro s' hr
  rcases hr with ⟨w, x, hw, hx, hf, hv, hc, hd, hp⟩ | ⟨h1, h2⟩
  · cases Option.some.inj hw
    rcases h.more with hb | hm
    · obtain ⟨s'', hR, he⟩ := hb s'
      refine ⟨s'', hR, ?_⟩
      left
      exact ⟨v, x, h.now, by rw [he, hx], hf, hv, hc, hd, hp⟩
    · exact hm s' x hx hf.symm hv.symm hc.symm (by rw [hd]; exact hp)
  · obtain ⟨s'', hR, he⟩ := h.gone s' h2
    refine ⟨s'', hR, ?_⟩
    right
    refine ⟨fun w hw => ?_, he⟩
    rw [h.now] at hw
    cases Option.some.inj hw
    exact h1 v rfl

theorem valid_of {start' : Nat} {c' : Clock} (hs' : InStep start' c') (hm : c'.wall < 4294967295)
    {s' : Store} {k : Bytes} {x : KV} (hx : s' k = some x)
    (hp : ¬ passed c'.wall (deadline start' x.exp)) : s'.find c'.cur k = some x := by
  cases hf : s'.find c'.cur k with
  | none => exact absurd (invalid_passed hs' (Nat.le_refl _) hm (find_none.1 hf x hx)) hp
  | some y =>
    have := (find_some hf).1
    rw [hx] at this
    exact this.symm

/-- The replay of a setattr. -/
theorem setattr_rel {sc : Scope} {start start' : Nat} {c c' : Clock} {k : Bytes} {v : KV} {e : Nat}
    {s' : Store} {x : KV} (hs : InStep start c) (hw : c.wall ≤ c'.wall)
    (hs' : InStep start' c') (hm : c'.wall < 4294967295) (h1 : 1 ≤ c'.cur) (hg : GoodExp start e)
    (hx : s' k = some x) (hf : x.flags = v.flags) (hv : x.value = v.value) (hc : x.cas = v.cas)
    (hp : ¬ passed c'.wall (deadline start' x.exp)) {live : Store} (hl : live k = some { v with exp := e }) :
    ∃ s'', R sc c' s' [⟨c, .setattr ({ v with exp := e }.item k) 2⟩] s'' ∧
      Rel start start' c' k live s'' := by
  obtain ⟨hl1, hl2⟩ := life_eq hg hs hs' hw hm h1
  refine ⟨s'.put k (some { x with exp := relExp c' (absExp c e) }), R.one ?_, ?_⟩
  · simp only [replay, callOf, meaning, if_true, kvApply, KV.item, valid_of hs' hm hx hp]
  · by_cases hp' : passed c'.wall (deadline start e)
    · right
      rw [hl1 hp']
      refine ⟨fun w hw => by rw [hl] at hw; cases Option.some.inj hw; exact hp', ?_⟩
      rw [find_none]
      intro w hw
      rw [put_self] at hw
      cases Option.some.inj hw
      exact ⟨Nat.one_ne_zero, h1⟩
    · obtain ⟨hne, hd, hval, _⟩ := hl2 hp'
      left
      rw [put_self]
      exact ⟨_, _, hl, rfl, hf.symm, hv.symm, hc.symm, hd, hp'⟩

theorem setattr_gone {sc : Scope} {c c' : Clock} {k : Bytes} {v : KV} {s' : Store}
    (h : s'.find c'.cur k = none) :
    ∃ s'', R sc c' s' [⟨c, .setattr (v.item k) 2⟩] s'' ∧ s''.find c'.cur k = none := by
  refine ⟨s'.put k none, R.one ?_, find_put_none ..⟩
  simp only [replay, callOf, meaning, if_true, kvApply, KV.item, h]

/-- A setattr of a linked object. -/
theorem Linked.touch {sc : Scope} {start start' : Nat} {c c' : Clock} {k : Bytes} {live : Store} {v : KV}
    {new : List Logged} (h : Linked sc start start' c' k live v new) {e : Nat}
    (hs : InStep start c) (hw : c.wall ≤ c'.wall) (hs' : InStep start' c')
    (hm : c'.wall < 4294967295) (h1 : 1 ≤ c'.cur) (hg : GoodExp start e)
    (hnp : ¬ passed c'.wall (deadline start v.exp)) :
    Linked sc start start' c' k (live.put k (some { v with exp := e })) { v with exp := e }
      (new ++ [⟨c, .setattr ({ v with exp := e }.item k) 2⟩]) := by
  refine ⟨put_self _ _ _, ?_, ?_⟩
  · intro s' hn
    obtain ⟨s1, r1, n1⟩ := h.gone s' hn
    obtain ⟨s2, r2, n2⟩ := setattr_gone (sc := sc) (c := c) (v := { v with exp := e }) n1
    exact ⟨s2, r1.append r2, n2⟩
  · right
    intro s' x hx hf hv hc hp
    rcases h.more with hb | hmo
    · obtain ⟨s1, r1, e1⟩ := hb s'
      obtain ⟨s2, r2, rel2⟩ := setattr_rel (sc := sc) (v := v) hs hw hs' hm h1 hg (e1.trans hx) hf hv hc hp
        (put_self live k (some { v with exp := e }))
      exact ⟨s2, r1.append r2, rel2⟩
    · obtain ⟨s1, r1, rel1⟩ := hmo s' x hx hf hv hc hp
      rcases rel1 with ⟨w, y, hw', hy, hf1, hv1, hc1, hd1, hp1⟩ | ⟨hpass, _⟩
      · rw [h.now] at hw'
        cases Option.some.inj hw'
        obtain ⟨s2, r2, rel2⟩ := setattr_rel (sc := sc) (v := v) hs hw hs' hm h1 hg hy hf1.symm hv1.symm
          hc1.symm (by rw [hd1]; exact hp1) (put_self live k (some { v with exp := e }))
        exact ⟨s2, r1.append r2, rel2⟩
      · exact absurd (hpass v h.now) hnp

theorem Linked.foreign {sc : Scope} {start start' : Nat} {c' : Clock} {k : Bytes} {live live' : Store}
    {v : KV} {new l : List Logged} (h : Linked sc start start' c' k live v new)
    (hl : live' k = live k) (hb : Blank sc c' k l) :
    Linked sc start start' c' k live' v (new ++ l) := by
  refine ⟨hl.trans h.now, ?_, ?_⟩
  · intro s' hn
    obtain ⟨s1, r1, n1⟩ := h.gone s' hn
    obtain ⟨s2, r2, e2⟩ := hb s1
    refine ⟨s2, r1.append r2, ?_⟩
    unfold Store.find at *
    rw [e2]; exact n1
  · rcases h.more with hb' | hm
    · exact .inl (hb'.append hb)
    · right
      intro s' x hx hf hv hc hp
      obtain ⟨s1, r1, rel1⟩ := hm s' x hx hf hv hc hp
      obtain ⟨s2, r2, e2⟩ := hb s1
      exact ⟨s2, r1.append r2, rel_congr rel1 hl e2⟩

/-- The records a change appends to the new log. -/
def added (c : Clock) : Option Op → List Logged
  | some op => [⟨c, op⟩]
  | none => []

theorem replay_R {sc : Scope} {c c' : Clock} {s s' : Store} {op : Option Op}
    (h : replay sc c' s c op = some s') : R sc c' s (added c op) s' := by
  cases op with
  | none => simp only [replay, Option.some.injEq] at h; subst h; rfl
  | some op => exact R.one h

theorem foreign_added {sc : Scope} {c c' : Clock} {k : Bytes} {s : Store} {ev : Ev}
    (h : Foreign sc k ev) : Blank sc c' k (added c (liveStep sc c s ev).2) := by
  cases ho : (liveStep sc c s ev).2 with
  | none => exact Blank.nil
  | some op => exact foreign_blank h ho

end Verif.Log
