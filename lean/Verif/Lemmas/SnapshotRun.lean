import Verif.Lemmas.Snapshot
/-! # The invariant of a checkpoint -/
namespace Verif.Log
open Spec

/-- The objects of key `k` in the hands of the snapshot. -/
def ofKey (k : Bytes) (l : List Held) : List Held := l.filter fun h => h.key = k

theorem ofKey_map (sc : Scope) (c : Clock) (s : Store) (ev : Ev) (k : Bytes) (l : List Held) :
    ofKey k (l.map (Held.change sc c s ev)) = (ofKey k l).map (Held.change sc c s ev) := by
  unfold ofKey
  rw [List.filter_map]
  congr 1
  apply List.filter_congr
  intro h _
  simp only [Function.comp, change_key]

theorem ofKey_hand (c : Clock) (s : Store) (k : Bytes) (ks : List Bytes) (hn : ks.Nodup) :
    ofKey k (hand c s ks) =
      if k ∈ ks then (match s.find c.cur k with | some v => [⟨k, v, true⟩] | none => []) else [] := by
  unfold ofKey hand
  induction ks with
  | nil => rfl
  | cons a ks ih =>
    rw [List.nodup_cons] at hn
    have ih := ih hn.2
    by_cases ha : a = k
    · subst ha
      rw [if_pos (by simp)]
      rw [if_neg hn.1] at ih
      simp only [List.filterMap_cons]
      cases hf : s.find c.cur a with
      | none => simpa [hf] using ih
      | some v => simp [hf] at ih ⊢; exact ih
    · have hm : (k ∈ a :: ks) ↔ k ∈ ks := by
        simp only [List.mem_cons]; constructor
        · rintro (h | h)
          · exact absurd h.symm ha
          · exact h
        · exact .inr
      simp only [hm]
      rw [← ih]
      simp only [List.filterMap_cons]
      cases hf : s.find c.cur a with
      | none => simp
      | some v => simp [ha]

/-- Where key `k` is in the checkpoint. -/
inductive Phase (sc : Scope) (start start' : Nat) (c' : Clock) (k : Bytes) (s : Chk) (t : Store) : Prop
  | ahead (v : s.vis k = false) (c : s.closed = false) (h : ofKey k s.held = []) (n : t k = none)
      (b : Blank sc c' k s.new)
  | linked (v : s.vis k = true) (g : s.begun = true) (n : t k = none) (w : KV)
      (h : ofKey k s.held = [⟨k, w, true⟩]) (l : Linked sc start start' c' k s.live w s.new)
  | off (v : s.vis k = true) (g : s.begun = true) (n : t k = none) (w : KV)
      (h : ofKey k s.held = [⟨k, w, false⟩]) (e : GoodExp start w.exp)
      (l : Fixed sc start start' c' k s.live w s.new)
  | saved (v : s.vis k = true ∨ s.closed = true) (g : s.begun = true) (h : ofKey k s.held = [])
      (r : ∃ t', R sc c' t s.new t' ∧ Rel start start' c' k s.live t')

/-- The invariant. -/
structure CInv (sc : Scope) (start start' : Nat) (c' : Clock) (k : Bytes) (s : Chk) : Prop where
  exp : ∀ v, s.live k = some v → GoodExp start v.exp
  phase : ∃ t, R sc c' (fun _ => none) s.snap t ∧ Phase sc start start' c' k s t

theorem CInv.start {sc : Scope} {start start' : Nat} {c' : Clock} {k : Bytes} {live : Store}
    (h : ∀ v, live k = some v → GoodExp start v.exp) :
    CInv sc start start' c' k (Chk.start live) :=
  ⟨h, fun _ => none, rfl, .ahead rfl rfl rfl rfl Blank.nil⟩

section
variable {sc : Scope} {junk : Bytes → Bool} {start start' : Nat} {c' : Clock} {k : Bytes}

/-- The lifetimes stay in range. -/
theorem live_exp {s : Store} {c : Clock} {ev : Ev} (h : ∀ v, s k = some v → GoodExp start v.exp)
    (hc : match ev with
      | .store it => it.key = k → it.ittype = 0 ∧ GoodExp start it.exptime ∧
          (passed c'.wall (deadline start it.exptime) → served start s c'.wall k = none)
      | .touch k' e => k' = k → GoodExp start e ∧
          ∀ v, s.find c.cur k = some v → ¬ passed c'.wall (deadline start v.exp)
      | _ => True) :
    ∀ v, (liveStep sc c s ev).1 k = some v → GoodExp start v.exp := by
  have hput : ∀ k' w, (k' = k → ∀ x, w = some x → GoodExp start x.exp) →
      ∀ v, (s.put k' w) k = some v → GoodExp start v.exp := by
    intro k' w hw v hv
    by_cases hk : k = k'
    · subst hk; rw [put_self] at hv; exact hw rfl v hv
    · rw [put_other _ _ hk] at hv; exact h v hv
  have hflush : ∀ p v, (s.flush p) k = some v → GoodExp start v.exp := by
    intro p v hv
    unfold Store.flush at hv
    split at hv
    · simp at hv
    · exact h v hv
  cases ev with
  | store it =>
    exact hput _ _ (fun hk x hx => by cases Option.some.inj hx; exact (hc hk).2.1)
  | delete k' =>
    simp only [liveStep]
    split <;> exact hput _ _ (fun _ x hx => by simp at hx)
  | evict k' =>
    simp only [liveStep]
    split
    · exact hput _ _ (fun _ x hx => by simp at hx)
    · exact h
  | reclaim k' =>
    simp only [liveStep]
    split
    · exact h
    · exact hput _ _ (fun _ x hx => by simp at hx)
  | touch k' e =>
    simp only [liveStep]
    split
    · exact hput _ _ (fun hk x hx => by cases Option.some.inj hx; exact (hc hk).1)
    · exact hput _ _ (fun _ x hx => by simp at hx)
  | flushAll => exact hflush (fun _ => true)
  | flushPrefix p => exact hflush (if p = [] then sc.bare else sc.under p)

/-- The state behind a change. -/
theorem client_eq (s : Chk) (c : Clock) (ev : Ev) :
    s.step sc junk (.client c ev) = some { s with
      live := (liveStep sc c s.live ev).1
      held := s.held.map (Held.change sc c s.live ev)
      new := s.new ++ (if s.dual junk ev then added c (liveStep sc c s.live ev).2 else []) } := by
  simp only [Chk.step]
  congr 2
  split
  · cases (liveStep sc c s.live ev).2 with
    | none => simp [added]
    | some op => rfl
  · simp

/-- A change in the scanned area is logged in the new log, unless it is one of another key. -/
theorem dual_or_foreign {s : Chk} (g : s.begun = true) (v : s.vis k = true ∨ s.closed = true) (ev : Ev) :
    s.dual junk ev = true ∨ Foreign sc k ev := by
  unfold Chk.dual Chk.visited
  rw [g]
  simp only [if_true]
  by_cases hk : ev.key = some k
  · left
    rw [hk]
    rcases v with v | v <;> simp [v]
  · cases hn : ev.key with
    | none => left; simp
    | some k' =>
      right
      refine ⟨hk, ?_⟩
      cases ev <;> simp [Ev.key] at hn <;> rfl

/-- What is neither a change of `k` nor a flush of it. -/
theorem step_client {s : Chk} (h : CInv sc start start' c' k s) {c : Clock} {ev : Ev}
    (hs' : InStep start' c') (hm : c'.wall < 4294967295) (h1 : 1 ≤ c'.cur)
    (ha : SafeAct sc junk start c'.wall k s (.client c ev)) {s' : Chk}
    (hst : s.step sc junk (.client c ev) = some s') : CInv sc start start' c' k s' := by
  obtain ⟨⟨hs, hw, hev⟩, hfl, hju⟩ := ha
  rw [client_eq, Option.some.injEq] at hst
  subst hst
  refine ⟨live_exp h.exp hev, ?_⟩
  obtain ⟨t, hR, hp⟩ := h.phase
  refine ⟨t, hR, ?_⟩
  have hadd : Foreign sc k ev →
      Blank sc c' k (if s.dual junk ev then added c (liveStep sc c s.live ev).2 else []) := by
    intro hf
    split
    · exact foreign_added hf
    · exact Blank.nil
  cases hp with
  | ahead v cl hh n b =>
    refine .ahead v cl ?_ n ?_
    · show ofKey k (s.held.map _) = []
      rw [ofKey_map, hh]; rfl
    · show Blank sc c' k (s.new ++ _)
      by_cases hk : ev.key = some k
      · have hd : s.dual junk ev = false := by
          unfold Chk.dual Chk.visited
          rw [cl, hk]
          simp only [Bool.false_or]
          cases hb : s.begun with
          | true => simpa using v
          | false =>
            simp only [Bool.false_eq_true, if_false]
            cases hj : junk k with
            | false => rfl
            | true => exact absurd hk (hju hb hj)
        rw [hd]
        simpa using b
      · exact b.append (hadd ⟨hk, hfl cl v⟩)
  | linked v g n w hh l =>
    have hck : ofKey k (s.held.map (Held.change sc c s.live ev)) =
        [Held.change sc c s.live ev ⟨k, w, true⟩] := by
      rw [ofKey_map, hh]; rfl
    by_cases hf : Foreign sc k ev
    · refine .linked v g n w ?_ ?_
      · show ofKey k (s.held.map _) = _
        rw [hck, foreign_change hf rfl]
      · exact l.foreign (foreign_live hf) (hadd hf)
    · have hd : s.dual junk ev = true := by
        rcases dual_or_foreign (sc := sc) (junk := junk) g (.inl v) ev with h | h
        · exact h
        · exact absurd h hf
      have hoff : unlinks sc c s.live k ev = true →
          Phase sc start start' c' k { s with
            live := (liveStep sc c s.live ev).1
            held := s.held.map (Held.change sc c s.live ev)
            new := s.new ++
              (if s.dual junk ev then added c (liveStep sc c s.live ev).2 else []) } t := by
        intro hu
        refine .off v g n w ?_ (h.exp w l.now) ?_
        · show ofKey k (s.held.map _) = _
          rw [hck]
          simp only [Held.change, hu]
          simp
        · intro s1 hr
          obtain ⟨s2, r2, rel2⟩ := l.fixed s1 hr
          obtain ⟨s3, r3, rel3⟩ := step_rel (sc := sc) (ev := ev) rel2 hs hw hs' hm h1 hev
          refine ⟨s3, ?_, rel3⟩
          show R sc c' s1 (s.new ++ if s.dual junk ev then _ else []) s3
          rw [hd]
          exact r2.append (replay_R r3)
      cases ev with
      | store it =>
        apply hoff
        apply Classical.byContradiction
        intro hne
        apply hf
        simp only [unlinks, decide_eq_true_eq] at hne
        exact ⟨by simpa [Ev.key] using hne, rfl⟩
      | delete k' =>
        apply hoff
        apply Classical.byContradiction
        intro hne
        apply hf
        simp only [unlinks, decide_eq_true_eq] at hne
        exact ⟨by simpa [Ev.key] using hne, rfl⟩
      | evict k' =>
        apply hoff
        apply Classical.byContradiction
        intro hne
        apply hf
        simp only [unlinks, decide_eq_true_eq] at hne
        exact ⟨by simpa [Ev.key] using hne, rfl⟩
      | reclaim k' =>
        have hk : k' = k := by
          apply Classical.byContradiction
          intro hne
          exact hf ⟨by simpa [Ev.key] using hne, rfl⟩
        subst hk
        cases hfi : s.live.find c.cur k' with
        | none => exact hoff (by simp [unlinks, hfi])
        | some x =>
          refine .linked v g n w ?_ ?_
          · show ofKey k' (s.held.map _) = _
            rw [hck]
            simp [Held.change, unlinks, hfi]
          · show Linked sc start start' c' k' (liveStep sc c s.live (.reclaim k')).1 w (s.new ++ _)
            simp only [liveStep, hfi, hd, if_true, added, List.append_nil]
            exact l
      | touch k' e =>
        have hk : k' = k := by
          apply Classical.byContradiction
          intro hne
          exact hf ⟨by simpa [Ev.key] using hne, rfl⟩
        subst hk
        cases hfi : s.live.find c.cur k' with
        | none => exact hoff (by simp [unlinks, hfi])
        | some x =>
          obtain ⟨hg, hnp⟩ := hev rfl
          have hx := (find_some hfi).1
          rw [l.now] at hx
          cases Option.some.inj hx
          refine .linked v g n { w with exp := e } ?_ ?_
          · show ofKey k' (s.held.map _) = _
            rw [hck]
            simp [Held.change, unlinks, hfi]
          · show Linked sc start start' c' k' (liveStep sc c s.live (.touch k' e)).1 _ (s.new ++ _)
            simp only [liveStep, hfi, hd, if_true, added]
            exact l.touch hs hw hs' hm h1 hg (hnp w hfi)
      | flushAll => exact hoff rfl
      | flushPrefix p =>
        apply hoff
        apply Classical.byContradiction
        intro hne
        apply hf
        simp only [unlinks] at hne
        exact ⟨by simp [Ev.key], by simp only [flushes]; simpa using hne⟩
  | off v g n w hh he l =>
    refine .off v g n w ?_ he ?_
    · show ofKey k (s.held.map _) = _
      rw [ofKey_map, hh]
      simp only [List.map_cons, List.map_nil]
      rw [change_unlinked rfl]
    · intro s1 hr
      obtain ⟨s2, r2, rel2⟩ := l s1 hr
      show ∃ s'', R sc c' s1 (s.new ++ _) s'' ∧ Rel start start' c' k (liveStep sc c s.live ev).1 s''
      rcases dual_or_foreign (sc := sc) (junk := junk) g (.inl v) ev with hd | hf
      · obtain ⟨s3, r3, rel3⟩ := step_rel (sc := sc) (ev := ev) rel2 hs hw hs' hm h1 hev
        rw [hd]
        exact ⟨s3, r2.append (replay_R r3), rel3⟩
      · obtain ⟨s3, r3, e3⟩ := hadd hf s2
        exact ⟨s3, r2.append r3, rel_congr rel2 (foreign_live hf) e3⟩
  | saved v g hh r =>
    refine .saved v g ?_ ?_
    · show ofKey k (s.held.map _) = []
      rw [ofKey_map, hh]; rfl
    · obtain ⟨s2, r2, rel2⟩ := r
      show ∃ s'', R sc c' t (s.new ++ _) s'' ∧ Rel start start' c' k (liveStep sc c s.live ev).1 s''
      rcases dual_or_foreign (sc := sc) (junk := junk) g v ev with hd | hf
      · obtain ⟨s3, r3, rel3⟩ := step_rel (sc := sc) (ev := ev) rel2 hs hw hs' hm h1 hev
        rw [hd]
        exact ⟨s3, r2.append (replay_R r3), rel3⟩
      · obtain ⟨s3, r3, e3⟩ := hadd hf s2
        exact ⟨s3, r2.append r3, rel_congr rel2 (foreign_live hf) e3⟩

theorem step_next {s : Chk} (h : CInv sc start start' c' k s) {c : Clock} {ks : List Bytes}
    (hm : c'.wall < 4294967295)
    (ha : SafeAct sc junk start c'.wall k s (.next c ks)) {s' : Chk}
    (hst : s.step sc junk (.next c ks) = some s') : CInv sc start start' c' k s' := by
  obtain ⟨hs, hw⟩ := ha
  simp only [Chk.step] at hst
  split at hst
  · rename_i hc
    obtain ⟨hcl, hhe, hnd, hvi⟩ := hc
    cases Option.some.inj hst
    refine ⟨h.exp, ?_⟩
    obtain ⟨t, hR, hp⟩ := h.phase
    refine ⟨t, hR, ?_⟩
    have hhand := ofKey_hand c s.live k ks hnd
    cases hp with
    | ahead v cl hh n b =>
      by_cases hk : k ∈ ks
      · rw [if_pos hk] at hhand
        cases hfi : s.live.find c.cur k with
        | none =>
          rw [hfi] at hhand
          refine .saved (.inl (by simp [hk])) rfl hhand ?_
          obtain ⟨t', r', e'⟩ := b t
          refine ⟨t', r', .inr ⟨fun x hx => ?_, ?_⟩⟩
          · exact invalid_passed hs hw hm (find_none.1 hfi x hx)
          · unfold Store.find; rw [e', n]
        | some w =>
          rw [hfi] at hhand
          refine .linked (by simp [hk]) rfl n w hhand ⟨(find_some hfi).1, ?_, .inl b⟩
          intro s1 hn
          obtain ⟨s2, r2, e2⟩ := b s1
          refine ⟨s2, r2, ?_⟩
          unfold Store.find at *
          rw [e2]; exact hn
      · rw [if_neg hk] at hhand
        exact .ahead (by simp [hk, v]) cl hhand n b
    | linked v g n w hh l => rw [hhe] at hh; simp [ofKey] at hh
    | off v g n w hh he l => rw [hhe] at hh; simp [ofKey] at hh
    | saved v g hh r =>
      have hk : k ∉ ks := by
        intro hk
        rcases v with v | v
        · rw [hvi k hk] at v; simp at v
        · rw [hcl] at v; simp at v
      rw [if_neg hk] at hhand
      refine .saved ?_ rfl hhand r
      rcases v with v | v
      · exact .inl (by simp [v])
      · exact .inr v
  · simp at hst

theorem step_dump {s : Chk} (h : CInv sc start start' c' k s) {c : Clock}
    (hs' : InStep start' c') (hm : c'.wall < 4294967295) (h1 : 1 ≤ c'.cur)
    (ha : SafeAct sc junk start c'.wall k s (.dump c)) {s' : Chk}
    (hst : s.step sc junk (.dump c) = some s') : CInv sc start start' c' k s' := by
  obtain ⟨hs, hw⟩ := ha
  simp only [Chk.step] at hst
  cases hhe : s.held with
  | nil => rw [hhe] at hst; simp at hst
  | cons x r =>
    rw [hhe] at hst
    simp only [Option.some.injEq] at hst
    subst hst
    refine ⟨h.exp, ?_⟩
    obtain ⟨t, hR, hp⟩ := h.phase
    by_cases hk : x.key = k
    · have hdump : t k = none → GoodExp start x.kv.exp → ∃ t', R sc c' t [⟨c, .link (x.kv.item x.key)⟩] t' ∧
          Rel start start' c' k (one x.kv) t' := by
        intro hn hg
        have h0 : Rel start start' c' k (fun _ => none) t :=
          .inr ⟨fun v hv => by simp at hv, by unfold Store.find; rw [hn]⟩
        obtain ⟨t', r', rel'⟩ := step_rel (sc := sc) (ev := .store (x.kv.item x.key)) h0 hs hw hs' hm h1
          (fun _ => ⟨rfl, hg, fun _ => rfl⟩)
        refine ⟨t', replay_R r', rel_congr rel' ?_ rfl⟩
        simp only [liveStep, KV.item, one]
        rw [← hk, put_self]
      have hof : ofKey k s.held = x :: ofKey k r := by
        rw [hhe]; unfold ofKey; rw [List.filter_cons_of_pos (by simpa using hk)]
      cases hp with
      | ahead v cl hh n b => rw [hof] at hh; simp at hh
      | linked v g n w hh l =>
        rw [hof] at hh
        injection hh with hx hr
        subst hx
        obtain ⟨t', r', rel'⟩ := hdump n (h.exp w l.now)
        exact ⟨t', hR.append r', .saved (.inl v) g hr (l.fixed t' rel')⟩
      | off v g n w hh he l =>
        rw [hof] at hh
        injection hh with hx hr
        subst hx
        obtain ⟨t', r', rel'⟩ := hdump n he
        exact ⟨t', hR.append r', .saved (.inl v) g hr (l t' rel')⟩
      | saved v g hh r' => rw [hof] at hh; simp at hh
    · have hof : ofKey k s.held = ofKey k r := by
        rw [hhe]; unfold ofKey; rw [List.filter_cons_of_neg (by simpa using hk)]
      have hb : Blank sc c' k [⟨c, .link (x.kv.item x.key)⟩] := by
        apply foreign_blank (s := s.live) (ev := .store (x.kv.item x.key)) (sc := sc)
        · exact ⟨by simpa [Ev.key, KV.item] using hk, rfl⟩
        · rfl
      obtain ⟨t', r', e'⟩ := hb t
      refine ⟨t', hR.append r', ?_⟩
      cases hp with
      | ahead v cl hh n b => exact .ahead v cl (hof.symm.trans hh) (e'.trans n) b
      | linked v g n w hh l => exact .linked v g (e'.trans n) w (hof.symm.trans hh) l
      | off v g n w hh he l => exact .off v g (e'.trans n) w (hof.symm.trans hh) he l
      | saved v g hh rr =>
        refine .saved v g (hof.symm.trans hh) ?_
        obtain ⟨u, ru, relu⟩ := rr
        obtain ⟨u', ru', eu⟩ := ru.congr e'
        exact ⟨u', ru', rel_congr relu rfl eu⟩

theorem step_finish {s : Chk} (h : CInv sc start start' c' k s)
    (ha : SafeAct sc junk start c'.wall k s .finish) {s' : Chk}
    (hst : s.step sc junk .finish = some s') : CInv sc start start' c' k s' := by
  simp only [Chk.step] at hst
  split at hst
  · rename_i hc
    obtain ⟨hcl, hhe⟩ := hc
    cases Option.some.inj hst
    refine ⟨h.exp, ?_⟩
    obtain ⟨t, hR, hp⟩ := h.phase
    refine ⟨t, hR, ?_⟩
    cases hp with
    | ahead v cl hh n b =>
      refine .saved (.inr rfl) rfl hh ?_
      obtain ⟨t', r', e'⟩ := b t
      refine ⟨t', r', .inr ⟨fun x hx => ?_, ?_⟩⟩
      · have := ha x hx
        rw [v] at this; simp at this
      · unfold Store.find; rw [e', n]
    | linked v g n w hh l => rw [hhe] at hh; simp [ofKey] at hh
    | off v g n w hh he l => rw [hhe] at hh; simp [ofKey] at hh
    | saved v g hh r => exact .saved (.inr rfl) rfl hh r
  · simp at hst

theorem step_cinv {s : Chk} (h : CInv sc start start' c' k s) {a : Act}
    (hs' : InStep start' c') (hm : c'.wall < 4294967295) (h1 : 1 ≤ c'.cur)
    (ha : SafeAct sc junk start c'.wall k s a) {s' : Chk}
    (hst : s.step sc junk a = some s') : CInv sc start start' c' k s' := by
  cases a with
  | client c ev => exact step_client h hs' hm h1 ha hst
  | next c ks => exact step_next h hm ha hst
  | dump c => exact step_dump h hs' hm h1 ha hst
  | finish => exact step_finish h ha hst

theorem run_cinv (hs' : InStep start' c') (hm : c'.wall < 4294967295) (h1 : 1 ≤ c'.cur)
    (acts : List Act) : ∀ {s s' : Chk}, CInv sc start start' c' k s →
      Safe sc junk start c'.wall k s acts → s.run sc junk acts = some s' →
      CInv sc start start' c' k s' := by
  induction acts with
  | nil => intro s s' h _ hr; cases Option.some.inj hr; exact h
  | cons a acts ih =>
    intro s s' h hs hr
    simp only [Chk.run] at hr
    cases hst : s.step sc junk a with
    | none => rw [hst] at hr; simp at hr
    | some s1 =>
      rw [hst] at hr
      exact ih (step_cinv h hs' hm h1 hs.1 hst) (hs.2 s1 hst) hr

/-- A complete checkpoint has saved `k`. -/
theorem CInv.saved {s : Chk} (h : CInv sc start start' c' k s) (hc : s.closed = true)
    (hh : s.held = []) :
    ∃ t, recovered sc c' s = some t ∧ Rel start start' c' k s.live t := by
  obtain ⟨t, hR, hp⟩ := h.phase
  cases hp with
  | ahead v cl hh n b => rw [hc] at cl; simp at cl
  | linked v g n w hh' l => rw [hh] at hh'; simp [ofKey] at hh'
  | off v g n w hh' he l => rw [hh] at hh'; simp [ofKey] at hh'
  | saved v g hh' r =>
    obtain ⟨u, ru, rel⟩ := r
    exact ⟨u, hR.append ru, rel⟩

/-- Once closed, nothing is held. -/
theorem closed_held {s s' : Chk} (h : s.closed = true → s.held = []) {a : Act}
    (hst : s.step sc junk a = some s') : s'.closed = true → s'.held = [] := by
  cases a with
  | client c ev =>
    rw [client_eq, Option.some.injEq] at hst
    subst hst
    intro hc
    show s.held.map _ = []
    rw [h hc]; rfl
  | next c ks =>
    simp only [Chk.step] at hst
    split at hst
    · rename_i hc
      cases Option.some.inj hst
      intro h'; rw [hc.1] at h'; simp at h'
    · simp at hst
  | dump c =>
    simp only [Chk.step] at hst
    cases hh : s.held with
    | nil => rw [hh] at hst; simp at hst
    | cons x r =>
      rw [hh] at hst
      cases Option.some.inj hst
      intro hc
      have := h hc
      rw [hh] at this; simp at this
  | finish =>
    simp only [Chk.step] at hst
    split at hst
    · rename_i hc
      cases Option.some.inj hst
      intro _; exact hc.2
    · simp at hst

theorem run_closed_held (acts : List Act) : ∀ {s s' : Chk}, (s.closed = true → s.held = []) →
    s.run sc junk acts = some s' → s'.closed = true → s'.held = [] := by
  induction acts with
  | nil => intro s s' h hr; cases Option.some.inj hr; exact h
  | cons a acts ih =>
    intro s s' h hr
    simp only [Chk.run] at hr
    cases hst : s.step sc junk a with
    | none => rw [hst] at hr; simp at hr
    | some s1 => rw [hst] at hr; exact ih (closed_held h hst) hr

end

end Verif.Log
