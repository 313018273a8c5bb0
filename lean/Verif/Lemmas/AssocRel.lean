import Verif.Lemmas.AssocDirect
/-! # The hash table and its specification -/
namespace Verif.Assoc
open Spec (keys Owed owed Step Legal Grown shrunk start)

instance (cfg : Cfg) (s : St) (req arr : Nat) : Decidable (Roomy cfg s req arr) :=
  decidable_of_iff (∀ t, t < 2 ^ depth s → ∀ b, b < 2 ^ cfg.hp →
    (its (s.table t b)).length + (if s.expanding then (its (s.table (t + 2 ^ s.prevpower) b)).length else 0) + req ≤ arr)
    ⟨fun h t b h1 h2 => h t h1 b h2, fun h t h1 b h2 => h t b h1 h2⟩

/-- The flag that comes with the answers: whether there was room for the chains. -/
def roomFlag (cfg : Cfg) (s : St) : Op → Bool
  | .scanDirect _ req arr => decide (Roomy cfg s req arr)
  | _ => true

/-- The calls, with the flag. -/
def callStep (cfg : Cfg) (s : St) (op : Op) : Option (St × (Rep × Bool)) :=
  match step cfg s op with
  | none => none
  | some (s', r) => some (s', (r, roomFlag cfg s op))

structure Rel (cfg : Cfg) (σ : Spec.S) (s : St) : Prop where
  tab : Tab cfg σ.items s
  scn : Scns cfg σ.items s (fun sid => (owed σ sid).map (·.todo))
  len : s.scans.length = σ.scans.length
  st : ∀ sid o sc, owed σ sid = some o → getScan s sid = some sc → o.started = true → 0 < sc.tabcnt ∨ sc.bucket = 2 ^ cfg.hp
  cur : ∀ c ∈ σ.cursors, c / 2 ^ cfg.hp < 2 ^ depth s

theorem rel_init (cfg : Cfg) : Rel cfg start (init cfg) := by
  have hg : ∀ sid, getScan (init cfg) sid = none := by intro sid; rfl
  refine ⟨⟨?_, ?_, ?_, ?_, ?_, ?_, ?_, ?_, ?_⟩, ⟨?_, ?_, ?_, ?_, ?_, ?_, ?_⟩, rfl, ?_, ?_⟩
  · intro h; simp [init] at h
  · simp [init]
  · intro h; simp [init] at h
  · simp [init]
  · intro t b it _ _; simp [init, start]
  · intro t b _ _; simp [init, its, keys]
  · simp [start, keys]
  · simp [start]
  · rfl
  · intro sid; simp [hg, owed, start]
  · intro sid sc h; rw [hg] at h; cases h
  · intro sid sc todo h; rw [hg] at h; cases h
  · intro sid sc h; rw [hg] at h; cases h
  · intro sid t b _ _ _; simp [init]
  · intro b; simp [init]
  · intro h; simp [init] at h
  · intro sid o sc _ h; rw [hg] at h; cases h
  · simp [start]

theorem owed_get {σ : Spec.S} {sid : Nat} {o : Owed} (h : owed σ sid = some o) : σ.scans[sid]? = some (some o) := by
  unfold owed at h
  split at h
  · rename_i o' h'; rw [h', ← h]
  · simp at h

theorem owed_lt {σ : Spec.S} {sid : Nat} {o : Owed} (h : owed σ sid = some o) : sid < σ.scans.length := by
  have h1 := owed_get h
  rcases Nat.lt_or_ge sid σ.scans.length with h2 | h2
  · exact h2
  · rw [List.getElem?_eq_none h2] at h1; simp at h1

theorem owed_set {σ : Spec.S} {sid : Nat} (h : sid < σ.scans.length) (v : Option Owed) (i : Nat) :
    owed { σ with scans := σ.scans.set sid v } i = if i = sid then v else owed σ i := by
  unfold owed
  by_cases hi : i = sid
  · subst hi
    simp only [List.getElem?_set_self h, if_pos]
    cases v <;> rfl
  · simp only [List.getElem?_set_ne (Ne.symm hi), if_neg hi]

theorem owed_map {σ : Spec.S} (f : Nat → Owed → Owed) {σ' : Spec.S} (h : σ'.scans = σ.scans.mapIdx fun i o => o.map (f i)) (i : Nat) :
    owed σ' i = (owed σ i).map (f i) := by
  unfold owed
  rw [h, List.getElem?_mapIdx]
  cases σ.scans[i]? with
  | none => rfl
  | some o => cases o <;> rfl

theorem getScan_append {s : St} (sc : Scan) (i : Nat) :
    getScan { s with scans := s.scans ++ [some sc] } i = if i = s.scans.length then some sc else getScan s i := by
  unfold getScan
  by_cases hi : i = s.scans.length
  · subst hi; simp
  · rw [if_neg hi]
    rcases Nat.lt_or_ge i s.scans.length with h | h
    · simp only [List.getElem?_append_left h]
    · rw [List.getElem?_eq_none h, List.getElem?_eq_none (by simp; omega)]

theorem owed_append {σ : Spec.S} (o : Owed) (i : Nat) :
    owed { σ with scans := σ.scans ++ [some o] } i = if i = σ.scans.length then some o else owed σ i := by
  unfold owed
  by_cases hi : i = σ.scans.length
  · subst hi; simp
  · rw [if_neg hi]
    rcases Nat.lt_or_ge i σ.scans.length with h | h
    · simp only [List.getElem?_append_left h]
    · rw [List.getElem?_eq_none h, List.getElem?_eq_none (by simp; omega)]

/-- A new scan owes every key. -/
theorem Rel.scanInit {cfg : Cfg} {σ : Spec.S} {s : St} (h : Rel cfg σ s) (junk : Nat) :
    Rel cfg { σ with scans := σ.scans ++ [some ⟨keys σ.items, false⟩] } { s with scans := s.scans ++ [some ⟨0, 0, junk, false⟩] } := by
  have hnew : getScan s s.scans.length = none := by
    unfold getScan; rw [List.getElem?_eq_none (Nat.le_refl _)]
  refine ⟨⟨h.tab.geo, h.tab.pw, h.tab.lim, h.tab.sz, h.tab.place, h.tab.uniq, h.tab.nd, h.tab.ne, h.tab.cnt⟩, ⟨?_, ?_, ?_, ?_, ?_, ?_, h.scn.strict⟩, ?_, ?_, h.cur⟩
  · intro sid
    simp only [getScan_append, owed_append, ← h.len]
    by_cases hi : sid = s.scans.length
    · simp [hi]
    · rw [if_neg hi, if_neg hi]; exact h.scn.dom sid
  · intro sid sc hg
    rw [getScan_append] at hg
    by_cases hi : sid = s.scans.length
    · rw [if_pos hi] at hg
      cases hg
      exact ⟨by simp, by simp, Nat.zero_le _⟩
    · rw [if_neg hi] at hg
      have h1 := h.scn.ok sid sc hg
      exact ⟨h1.link, h1.act, h1.idle⟩
  · intro sid sc todo hg hw
    simp only [owed_append, ← h.len] at hw
    rw [getScan_append] at hg
    by_cases hi : sid = s.scans.length
    · rw [if_pos hi] at hg hw
      cases hg
      simp only [Option.map_some, Option.some.injEq] at hw
      subst hw
      refine ⟨fun k hk => hk, fun k hk => ⟨fun _ hp => ?_, fun _ => hk⟩⟩
      rcases hp with h1 | ⟨-, h1, -⟩ <;> simp at h1
    · rw [if_neg hi] at hg hw
      exact h.scn.owe sid sc todo hg hw
  · intro sid sc hg hl
    rw [getScan_append] at hg
    by_cases hi : sid = s.scans.length
    · rw [if_pos hi] at hg; cases hg; cases hl
    · rw [if_neg hi] at hg; exact h.scn.ph1 sid sc hg hl
  · intro sid t b ht hb hn
    apply h.scn.ph0 sid t b ht hb
    intro sc hg
    by_cases hi : sid = s.scans.length
    · subst hi; rw [hnew] at hg; cases hg
    · exact hn sc (by rw [getScan_append, if_neg hi]; exact hg)
  · intro b
    simp only [List.countP_append, h.scn.ref b]
    simp [holds]
  · simp [h.len]
  · intro sid o sc ho hg hst
    simp only [owed_append, ← h.len] at ho
    rw [getScan_append] at hg
    by_cases hi : sid = s.scans.length
    · rw [if_pos hi] at ho; cases ho; cases hst
    · rw [if_neg hi] at hg ho; exact h.st sid o sc ho hg hst

/-- Equal todo lists are as good. -/
theorem Scns.congr {cfg : Cfg} {items : List Item} {s : St} {W W' : Nat → Option (List (List Nat))} (h : Scns cfg items s W)
    (he : ∀ i, W' i = W i) : Scns cfg items s W' := by
  have : W' = W := funext he
  rw [this]; exact h

open Classical in
theorem Rel.step {cfg : Cfg} {σ : Spec.S} {s : St} (h : Rel cfg σ s) {op : Op} (hl : Legal σ op) :
    (callStep cfg s op = none ∧ s.expanding = true ∧ ∃ c req arr, op = .scanDirect c req arr ∧ ¬ Roomy cfg s req arr) ∨
    ∃ s' r σ', callStep cfg s op = some (s', r) ∧ Step cfg.hp cfg.hash σ op r σ' ∧ Rel cfg σ' s' := by
  cases op with
  | find key =>
    right
    refine ⟨s, (.found (σ.items.find? fun it => decide (it.key = key)), true), σ, ?_, ?_, h⟩
    · simp only [callStep, Assoc.step, find_eq h.tab hl, Option.map_some]; rfl
    · exact ⟨rfl, rfl⟩
  | insert it mem1 mem2 =>
    right
    obtain ⟨hk, hn⟩ := hl
    let f : Nat → Owed → Owed := fun sid o =>
      if ∃ sc, getScan s sid = some sc ∧ Passed cfg (pushed cfg s it) sid sc it.key then o else { o with todo := it.key :: o.todo }
    let σ' : Spec.S := { σ with items := it :: σ.items, scans := σ.scans.mapIdx fun i o => o.map (f i) }
    have how : ∀ i, owed σ' i = (owed σ i).map (f i) := owed_map f rfl
    obtain ⟨s', h1, h2, h3, h4, h5⟩ := insert_spec (W' := fun sid => (owed σ' sid).map (·.todo)) h.tab h.scn hk hn
      (by intro sid; simp only [how]; cases owed σ sid <;> simp)
      (by
        intro sid sc todo todo' hg hw hw'
        simp only [how] at hw'
        cases ho : owed σ sid with
        | none => rw [ho] at hw; cases hw
        | some o =>
          simp only [ho, Option.map_some, Option.some.injEq] at hw hw'
          subst hw hw'
          constructor
          · intro hp; simp only [f]; rw [if_pos ⟨sc, hg, hp⟩]
          · intro hp
            simp only [f]
            rw [if_neg]
            rintro ⟨sc', hg', hp'⟩
            rw [hg] at hg'; cases hg'
            exact hp hp') mem1 mem2
    refine ⟨s', (.ok, true), σ', ?_, ⟨rfl, rfl, rfl, by simp [σ'], ?_⟩, ⟨h2, h3, ?_, ?_, ?_⟩⟩
    · simp only [callStep, Assoc.step, h1, Option.map_some]; rfl
    · intro sid
      rw [how]
      cases ho : owed σ sid with
      | none => simp [Grown]
      | some o =>
        simp only [Option.map_some, Grown, f]
        split
        · exact ⟨rfl, .inl rfl⟩
        · exact ⟨rfl, .inr rfl⟩
    · rw [h4]; simp [σ', h.len]
    · intro sid o sc ho hg hst
      rw [how] at ho
      have hg' : getScan s sid = some sc := by unfold getScan at hg ⊢; rw [← h4]; exact hg
      cases hoo : owed σ sid with
      | none => rw [hoo] at ho; cases ho
      | some o0 =>
        rw [hoo, Option.map_some, Option.some.injEq] at ho
        refine h.st sid o0 sc hoo hg' ?_
        rw [← hst, ← ho]
        simp only [f]
        split <;> rfl
    · intro c hc
      exact Nat.lt_of_lt_of_le (h.cur c hc) (Nat.pow_le_pow_right (by decide) h5)
  | replace key new =>
    right
    obtain ⟨s', h1, h2, h3, h4, h5⟩ := replace_spec h.tab h.scn hl.1 hl.2
    refine ⟨s', (.ok, true), _, ?_, ⟨rfl, rfl⟩, ⟨h2, h3, ?_, ?_, ?_⟩⟩
    · simp only [callStep, Assoc.step, h1, Option.map_some]; rfl
    · rw [h4]; exact h.len
    · intro sid o sc ho hg hst
      exact h.st sid o sc ho (by unfold getScan at hg ⊢; rw [← h4]; exact hg) hst
    · intro c hc; rw [h5]; exact h.cur c hc
  | delete key =>
    right
    obtain ⟨s', h1, h2, h3, h4, h5⟩ := delete_spec h.tab h.scn hl
    have how : ∀ i, owed { σ with items := σ.items.filter fun it => decide (it.key ≠ key), scans := σ.scans.map (shrunk key) } i =
        shrunk key (owed σ i) := by
      intro i
      unfold owed
      simp only [List.getElem?_map]
      cases σ.scans[i]? with
      | none => rfl
      | some o => cases o <;> rfl
    refine ⟨s', (.ok, true), _, ?_, ⟨rfl, rfl⟩, ⟨h2, h3.congr ?_, ?_, ?_, ?_⟩⟩
    · simp only [callStep, Assoc.step, h1, Option.map_some]; rfl
    · intro i; simp only [how]; cases owed σ i <;> rfl
    · rw [h4]; simp [h.len]
    · intro sid o sc ho hg hst
      rw [how] at ho
      cases hoo : owed σ sid with
      | none => rw [hoo] at ho; cases ho
      | some o0 =>
        rw [hoo] at ho
        simp only [shrunk, Option.map_some, Option.some.injEq] at ho
        refine h.st sid o0 sc hoo (by unfold getScan at hg ⊢; rw [← h4]; exact hg) ?_
        rw [← hst, ← ho]
    · intro c hc; rw [h5]; exact h.cur c hc
  | scanInit junk =>
    right
    refine ⟨_, _, _, rfl, ⟨?_, rfl⟩, h.scanInit junk⟩
    rw [h.len]
  | scanNext sid arr lim =>
    right
    obtain ⟨ho, harr⟩ := hl
    obtain ⟨o, ho⟩ := Option.ne_none_iff_exists'.mp ho
    obtain ⟨s', sc', out, h1, h2, h3, h4, h5, h6, h7, h8, h9, h10, h11, h12, h13⟩ :=
      scanNext_spec (lim := lim) h.tab h.scn (sid := sid) (todo := o.todo) (by simp only [ho, Option.map_some]) harr
    have hlt := owed_lt ho
    have hd : depth s' = depth s := by unfold depth; rw [h11, h12, h13]
    have hrel : Rel cfg { σ with scans := σ.scans.set sid (some ⟨o.todo.filter fun k => decide (k ∉ keys out), true⟩) } s' := by
      refine ⟨h4, h5.congr ?_, ?_, ?_, ?_⟩
      · intro i
        simp only [owed_set hlt, upd]
        split <;> rfl
      · simp [h2, h.len]
      · intro i o' sc ho' hg hst
        rw [owed_set hlt] at ho'
        by_cases hi : i = sid
        · subst hi; rw [h1] at hg; cases hg; exact h3
        · rw [if_neg hi] at ho'
          rw [h10 i hi] at hg
          exact h.st i o' sc ho' hg hst
      · intro c hc; rw [hd]; exact h.cur c hc
    rcases h9 with ⟨k1, rfl, k3⟩ | ⟨k1, k2⟩
    · refine ⟨s', (.next none, true), _, ?_, ⟨o, ho, .inl ⟨rfl, k3, ?_⟩⟩, hrel⟩
      · simp only [callStep, Assoc.step, k1, Option.map_some]; rfl
      · rw [k3]; simp
    · refine ⟨s', (.next (some out), true), _, ?_, ⟨o, ho, .inr ⟨out, rfl, k2, h8, h7, h6, rfl⟩⟩, hrel⟩
      simp only [callStep, Assoc.step, k1, Option.map_some]; rfl
  | visited sid it =>
    right
    obtain ⟨hm, o, ho, hst⟩ := hl
    have hne : getScan s sid ≠ none := by
      rw [Ne, h.scn.dom sid]; simp [ho]
    obtain ⟨sc, hg⟩ := Option.ne_none_iff_exists'.mp hne
    have h1 := visited_spec h.tab h.scn (todo := o.todo) hg (by simp only [ho, Option.map_some]) (h.st sid o sc ho hg hst) hm
    refine ⟨s, (.visited _, true), σ, ?_, ⟨o, ho, rfl, rfl⟩, h⟩
    simp only [callStep, Assoc.step, h1, Option.map_some]; rfl
  | scanFinal sid =>
    right
    obtain ⟨o, ho⟩ := Option.ne_none_iff_exists'.mp hl
    have hne : getScan s sid ≠ none := by
      rw [Ne, h.scn.dom sid]; simp [ho]
    obtain ⟨sc, hg⟩ := Option.ne_none_iff_exists'.mp hne
    obtain ⟨s', h1, h2, h3, h4, h5⟩ := final_spec h.tab h.scn hg
    have hlt := owed_lt ho
    refine ⟨s', (.ok, true), _, ?_, ⟨rfl, rfl⟩, ⟨h2, h3.congr ?_, ?_, ?_, ?_⟩⟩
    · simp only [callStep, Assoc.step, h1, Option.map_some]; rfl
    · intro i
      simp only [owed_set hlt, upd]
      split <;> rfl
    · rw [h4]; simp [h.len]
    · intro i o' sc' ho' hg' hst
      rw [owed_set hlt] at ho'
      by_cases hi : i = sid
      · rw [if_pos hi] at ho'; cases ho'
      · rw [if_neg hi] at ho'
        refine h.st i o' sc' ho' ?_ hst
        unfold getScan at hg' ⊢
        rw [h4, List.getElem?_set_ne (Ne.symm hi)] at hg'
        exact hg'
    · intro c hc; rw [h5]; exact h.cur c hc
  | scanDirect c req arr =>
    obtain ⟨hc, h1, h2, h3⟩ := hl
    have hcd : c / 2 ^ cfg.hp < 2 ^ depth s := by
      rcases hc with rfl | hc
      · rw [Nat.zero_div]; exact Nat.two_pow_pos _
      · exact h.cur c hc
    rcases scanDirect_spec h.tab hcd h1 h2 h3 with ⟨k1, k2, k3⟩ | ⟨l, c', k1, k2, k3, k4, k5⟩
    · exact .inl ⟨by simp only [callStep, Assoc.step, k1, Option.map_none], k2, c, req, arr, rfl, k3⟩
    · right
      refine ⟨s, (.direct (some (l, c')), roomFlag cfg s (.scanDirect c req arr)), _, ?_, ⟨l, c', rfl, k2, k3, ?_, rfl⟩, ⟨h.tab, h.scn, h.len, h.st, ?_⟩⟩
      · simp only [callStep, Assoc.step, k1, Option.map_some]
      · intro hr
        exact k5 (of_decide_eq_true hr)
      · intro x hx
        rcases List.mem_cons.mp hx with rfl | hx
        · exact k4
        · exact h.cur x hx

/-- Every transcript of a legal client is one of the specification, and the states are related. -/
theorem play_run {cfg : Cfg} {c : Run.Client Op (Rep × Bool)}
    (hc : Run.LegalClient (Step cfg.hp cfg.hash) Legal start c) :
    ∀ {n : Nat} {s : St} {t : List (Op × (Rep × Bool))}, Run.play (callStep cfg) (init cfg) c n = some (s, t) →
      ∃ σ, Run.SpecRun (Step cfg.hp cfg.hash) start c t σ ∧ Rel cfg σ s := by
  intro n
  induction n with
  | zero => intro s t h; cases h; exact ⟨_, .nil, rel_init cfg⟩
  | succ n ih =>
    intro s t h
    simp only [Run.play] at h
    cases hp : Run.play (callStep cfg) (init cfg) c n with
    | none => rw [hp] at h; cases h
    | some st =>
      obtain ⟨s0, t0⟩ := st
      rw [hp] at h
      simp only at h
      obtain ⟨σ, h1, h2⟩ := ih hp
      rcases h2.step (hc _ _ h1) with ⟨h3, -⟩ | ⟨s', r, σ', h3, h4, h5⟩
      · rw [h3] at h; cases h
      · rw [h3] at h
        cases h
        exact ⟨σ', h1.snoc h4, h5⟩

/-- Reads with any cursor stay inside the array while the table does not grow or there is room for the first chain of each pair. -/
theorem directLoop_safe {cfg : Cfg} {s : St} (hrp : s.rootpower ≤ 15) (hgeo : s.expanding = true → s.rootpower = s.prevpower + 1)
    {req arr : Nat} (hreq : req ≤ arr)
    (hroom : s.expanding = true → ∀ t b, t < 2 ^ s.prevpower → b < 2 ^ cfg.hp → (its (s.table t b)).length + req ≤ arr) :
    ∀ (fuel t b n : Nat) (out : List Item), t < 2 ^ s.rootpower → b < 2 ^ cfg.hp → out.length ≤ arr →
      0 < fuel → (n < req * 4 → req * 4 - n + 2 ≤ fuel) → (odd s t → 2 ≤ fuel ∧ out.length < arr) →
      ∃ t' b' out', directLoop cfg s req arr fuel t b n out = some (t', b', out') ∧ out'.length ≤ arr := by
  intro fuel
  induction fuel with
  | zero => intro t b n out _ _ _ h0; omega
  | succ fuel ih =>
    intro t b n out ht hb hlen _ hfuel hodd
    simp only [directLoop]
    by_cases hc : (out.length < req ∧ n < req * 4) ∨ (s.expanding = true ∧ 2 ^ s.prevpower - 1 < t)
    · rw [if_pos hc, chain_some ht hb]
      simp only
      have hlt : out.length < arr := by
        rcases hc with hc | hc
        · omega
        · exact (hodd hc).2
      obtain ⟨l, k1, k2, k3, k4⟩ := storeChain_spec (s.table t b) out hlt
      simp only [k1]
      have hpp := Nat.two_pow_pos s.prevpower
      have heven : ¬ odd s t → out.length < req ∧ n < req * 4 := by
        intro ho
        rcases hc with hc | hc
        · exact hc
        · exact absurd hc ho
      have hf1 : 0 < fuel := by
        by_cases ho : odd s t
        · have := (hodd ho).1; omega
        · have := hfuel (heven ho).2; omega
      by_cases hz : nextTab s.rootpower t = 0
      · rw [if_pos hz]
        by_cases he : 2 ^ cfg.hp ≤ b + 1
        · rw [if_pos he]; exact ⟨_, _, _, rfl, k3⟩
        · rw [if_neg he]
          refine ih 0 (b + 1) (n + 1) (out ++ l) (Nat.two_pow_pos _) (by omega) k3 hf1 ?_ ?_
          · intro h1; have := hfuel (by omega); omega
          · rintro ⟨-, h1⟩; omega
      · rw [if_neg hz]
        refine ih _ b (n + 1) (out ++ l) (nextTab_next hrp ht hz 0).1 hb k3 hf1 ?_ ?_
        · intro h1; have := hfuel (by omega); omega
        · intro ho
          have g := hgeo ho.1
          have htp : t < 2 ^ s.prevpower := by
            rcases Nat.lt_or_ge t (2 ^ s.prevpower) with h5 | h5
            · exact h5
            · exfalso
              have h2 : t = (t - 2 ^ s.prevpower) + 2 ^ s.prevpower := by omega
              have h3 := nextTab_pair' (r := s.prevpower) (t := t - 2 ^ s.prevpower) (by omega) (by
                rw [g, two_pow_succ'] at ht; omega)
              rw [← h2, ← g] at h3
              have := ho.2
              omega
          have hno : ¬ odd s t := by rintro ⟨-, h5⟩; omega
          have h6 := heven hno
          have h7 := hroom ho.1 t b htp hb
          refine ⟨by have := hfuel h6.2; omega, ?_⟩
          by_cases h8 : out.length + (its (s.table t b)).length < arr
          · rw [k4 h8, List.length_append]; exact h8
          · omega
    · rw [if_neg hc]; exact ⟨_, _, _, rfl, hlen⟩

theorem scanDirect_safe {cfg : Cfg} {s : St} (hrp : s.rootpower ≤ 15) (hgeo : s.expanding = true → s.rootpower = s.prevpower + 1)
    {c req arr : Nat} (hreq : req ≤ arr) (harr : 0 < arr)
    (hroom : s.expanding = true → ∀ t b, t < 2 ^ s.prevpower → b < 2 ^ cfg.hp → (its (s.table t b)).length + req ≤ arr) :
    scanDirect cfg s c req arr = some none ∨ ∃ l c', scanDirect cfg s c req arr = some (some (l, c')) ∧ l.length ≤ arr := by
  unfold scanDirect
  rw [if_neg (by omega)]
  by_cases hc : 2 ^ s.rootpower ≤ c / 2 ^ cfg.hp
  · rw [if_pos hc]; exact .inl rfl
  · rw [if_neg hc]
    obtain ⟨t', b', out', h1, h2⟩ := directLoop_safe hrp hgeo hreq hroom (4 * req + 2) (c / 2 ^ cfg.hp) (c % 2 ^ cfg.hp) 0 []
      (by omega) (Nat.mod_lt _ (Nat.two_pow_pos _)) (by simp) (by omega) (by omega) (fun _ => ⟨by omega, by simpa using harr⟩)
    rw [h1]
    exact .inr ⟨_, _, rfl, h2⟩

end Verif.Assoc
