import Verif.Lemmas.BinAns

/-! Helper lemmas about the binary protocol: the status of an answer and the codes of the engine. -/

namespace Verif.Bin

open Spec

theorem storeAct_ok {op : StoreOp} {c : Code} : storeAct op c = .ok ↔ c = .success := by
  cases c <;> cases op <;> simp [storeAct, unexpected]

theorem incrAct_ok {c : Code} : incrAct c = .ok ↔ c = .success := by cases c <;> simp [incrAct]

theorem getAct_ok {c : Code} : getAct c = .ok ↔ c = .success := by cases c <;> simp [getAct]

theorem deleteAct_ok {c : Code} : deleteAct c = .ok ↔ c = .success := by cases c <;> simp [deleteAct]

theorem statAct_ok {c : Code} : statAct c = .ok ↔ c = .success := by cases c <;> simp [statAct, unexpected]

theorem unexpected_ok (c : Code) : unexpected c ≠ .ok := by cases c <;> simp [unexpected]

theorem collAct_ok {cm : Cmd} {c : Code} : collAct cm c = .ok ↔ c = .success := by
  by_cases hc : c = .success
  · subst hc
    refine ⟨fun _ => rfl, fun _ => ?_⟩
    cases cm <;> rfl
  · refine ⟨fun h => ?_, fun h => absurd h hc⟩
    exfalso
    revert h
    unfold collAct
    split <;> first
      | exact absurd rfl hc
      | exact unexpected_ok _
      | exact fun h => Act.noConfusion h

theorem response_status (h : Hdr) (c : Cmd) (q : Bool) (cas : Nat) (b : Bytes) : ∀ r ∈ response h c q cas b, r.status = 0 := by
  intro r hr
  unfold response at hr
  split at hr
  · simp only [List.mem_singleton] at hr; subst hr; rfl
  · simp at hr

theorem honest_conclude {σ : Type} (g : Cfg) (h : Hdr) (s : σ × List (Call × Code)) (u cas : Nat) (good : List Resp) (a : Act)
    (hg : ∀ r ∈ good, r.status = 0) (ha : a = .ok ↔ ∀ x ∈ s.2, x.2 = .success) (h0 : ∀ st, a = .err st → st ≠ 0)
    (hn : (s.2.filter (fun x => !isAlloc x.1)).length ≤ 1) : Honest (conclude g h s u cas good a) := by
  cases a with
  | ok => exact ⟨fun _ => ha.1 rfl, fun _ _ => hg, hn⟩
  | err st =>
    refine ⟨?_, fun _ hall => by simpa using ha.2 hall, hn⟩
    rintro ⟨r, hr, h1⟩
    simp only [List.mem_singleton] at hr
    subst hr
    exact absurd h1 (h0 st rfl)
  | disc => exact ⟨by simp, by simp, hn⟩
  | abort => trivial

theorem honest_err {σ : Type} (g : Cfg) (h : Hdr) (s : σ × List (Call × Code)) (u st cas : Nat) (nx : Next) (h0 : st ≠ 0)
    (hf : s.2 = [] ∨ ∃ x ∈ s.2, x.2 ≠ .success) (hn : (s.2.filter (fun x => !isAlloc x.1)).length ≤ 1) :
    Honest (.done { eng := s, used := u, resps := [packet g h st cas], next := nx }) := by
  refine ⟨?_, ?_, hn⟩
  · rintro ⟨r, hr, h1⟩
    simp only [List.mem_singleton] at hr
    subst hr
    exact absurd h1 h0
  · intro hne hall
    rcases hf with h | ⟨x, hx, h⟩
    · exact absurd h hne
    · exact absurd (hall x hx) h

theorem honest_refuse {σ : Type} (g : Cfg) (h : Hdr) (s : σ × List (Call × Code)) (u v : Nat) (code : Code)
    (hf : s.2 = [] ∨ ∃ x ∈ s.2, x.2 ≠ .success) (hn : (s.2.filter (fun x => !isAlloc x.1)).length ≤ 1) :
    Honest (refuse g h s u v code) := by
  cases code <;> simp only [refuse] <;> first
    | exact honest_err _ _ _ _ _ _ _ (by decide) hf hn
    | exact ⟨by simp, by simp, hn⟩

theorem honest_update {σ : Type} (e : Engine σ) (g : Cfg) (s : σ) (h : Hdr) (c : Cmd) (q : Bool) (ext key inp : Bytes) :
    Honest (doUpdate (logged e) g (s, []) h c q ext key inp) := by
  unfold doUpdate
  simp only []
  split
  · exact honest_err _ _ _ _ _ _ _ (by decide) (Or.inl rfl) (by simp)
  · split
    · exact honest_err _ _ _ _ _ _ _ (by decide) (Or.inl rfl) (by simp)
    · split
      · rename_i hsuc
        split
        · trivial
        · refine honest_conclude _ _ _ _ _ _ _ (response_status _ _ _ _ _) ?_ (fun _ => storeAct_ne) (by simp [logged, isAlloc])
          rw [storeAct_ok]
          simp only [logged] at hsuc ⊢
          simp [hsuc]
      · rename_i hsuc
        split
        · refine honest_refuse _ _ _ _ _ _ (Or.inr ?_) (by simp [logged, isAlloc])
          simp only [logged] at hsuc ⊢
          simp [hsuc]
        · refine honest_refuse _ _ _ _ _ _ (Or.inr ?_) (by simp [logged, isAlloc])
          simp only [logged] at hsuc ⊢
          simp [hsuc]

theorem honest_get {σ : Type} (e : Engine σ) (g : Cfg) (s : σ) (h : Hdr) (c : Cmd) (q : Bool) (key : Bytes) :
    Honest (doGet (logged e) g (s, []) h c q key) := by
  unfold doGet
  simp only []
  split
  · rename_i ha
    have hs := getAct_ok.1 ha
    simp only [logged] at hs
    exact ⟨fun _ => by simp [logged, hs], fun _ _ => by simp [mkResp], by simp [logged, isAlloc]⟩
  · rename_i ha
    have hs : (e.call s (.get key h.vbucket)).2.code ≠ .success := by
      intro hh
      simp only [logged] at ha
      rw [hh] at ha; simp [getAct] at ha
    have hf : ∃ x ∈ ((logged e).call (s, []) (.get key h.vbucket)).1.2, x.2 ≠ .success := by simp [logged, hs]
    split
    · exact ⟨by simp, by simp, by simp [logged, isAlloc]⟩
    · split
      · split
        · trivial
        · refine ⟨?_, ?_, by simp [logged, isAlloc]⟩
          · simp [mkResp]
          · intro _ hall
            obtain ⟨x, hx, hne⟩ := hf
            exact absurd (hall x hx) hne
      · exact honest_err _ _ _ _ _ _ _ (by decide) (Or.inr hf) (by simp [logged, isAlloc])
  · refine honest_conclude _ _ _ _ _ _ _ (by simp) ?_ (fun _ => getAct_ne) (by simp [logged, isAlloc])
    rw [getAct_ok]; simp [logged]

theorem honest_sasl {σ : Type} (e : Engine σ) (g : Cfg) (s : σ) (h : Hdr) (c : Cmd) (q : Bool) (key inp : Bytes) :
    Honest (doSasl (logged e) g (s, []) h c q key inp) := by
  unfold doSasl
  simp only []
  split
  · exact honest_err _ _ _ _ _ _ _ (by decide) (Or.inl rfl) (by simp)
  · split
    · exact honest_err _ _ _ _ _ _ _ (by decide) (Or.inl rfl) (by simp)
    · split
      · exact honest_err _ _ _ _ _ _ _ (by decide) (Or.inl rfl) (by simp)
      · split
        · trivial
        · split
          · rename_i hs
            simp only [logged] at hs
            exact ⟨fun _ => by simp [logged, hs], fun _ _ => response_status _ _ _ _ _, by simp [logged, isAlloc]⟩
          · rename_i hs
            simp only [logged] at hs
            exact ⟨by simp [mkResp], by simp [logged, hs], by simp [logged, isAlloc]⟩
          · rename_i hs1 hs2
            refine honest_err _ _ _ _ _ _ _ (by decide) (Or.inr ?_) (by simp [logged, isAlloc])
            simp only [logged] at hs1 ⊢
            simpa using hs1

theorem collGood_status (h : Hdr) (c : Cmd) (q : Bool) (r : Ret) : ∀ x ∈ collGood h c q r, x.status = 0 := by
  unfold collGood
  split
  · simp [mkResp]
  · simp [mkResp]
  · exact response_status _ _ _ _ _

theorem honest_coll {σ : Type} (e : Engine σ) (g : Cfg) (s : σ) (h : Hdr) (c : Cmd) (q : Bool) (ext key : Bytes) :
    Honest (doColl (logged e) g (s, []) h c q ext key) := by
  unfold doColl
  simp only []
  split
  · trivial
  · refine honest_conclude _ _ _ _ _ _ _ (collGood_status _ _ _ _) ?_ (fun _ => collAct_ne) (by simp [logged, isAlloc])
    rw [collAct_ok]; simp [logged]

theorem honest_collValue {σ : Type} (e : Engine σ) (g : Cfg) (s : σ) (h : Hdr) (c : Cmd) (q : Bool) (ext key inp : Bytes) :
    Honest (doCollValue (logged e) g (s, []) h c q ext key inp) := by
  unfold doCollValue
  simp only []
  split
  · exact honest_err _ _ _ _ _ _ _ (by decide) (Or.inl rfl) (by simp)
  · split
    · exact honest_err _ _ _ _ _ _ _ (by decide) (Or.inl rfl) (by simp)
    · split
      · trivial
      · split
        · refine honest_conclude _ _ _ _ _ _ _ (response_status _ _ _ _ _) ?_ (fun _ => collAct_ne) (by simp [logged, isAlloc])
          rw [collAct_ok]; simp [logged]
        · split
          · exact honest_refuse _ _ _ _ _ _ (Or.inl rfl) (by simp)
          · split
            · rename_i hsuc
              split
              · trivial
              · split
                · trivial
                · refine honest_conclude _ _ _ _ _ _ _ (response_status _ _ _ _ _) ?_ (fun _ => collAct_ne) (by simp [logged, isAlloc])
                  rw [collAct_ok]
                  simp only [logged] at hsuc ⊢
                  simp [hsuc]
            · rename_i hsuc
              refine honest_refuse _ _ _ _ _ _ (Or.inr ?_) (by simp [logged, isAlloc])
              simp only [logged] at hsuc ⊢
              simp [hsuc]

theorem statResp_status (h : Hdr) (kv : Bytes × Bytes) : ∀ r ∈ statResp h kv, r.status = 0 := by
  intro r hr
  unfold statResp at hr
  split at hr
  · simp at hr
  · simp only [List.mem_singleton] at hr; subst hr; rfl

theorem honest_handle {σ : Type} (e : Engine σ) (g : Cfg) (deny : Bool) (s : σ) (inp : Bytes)
    (hk : (cmdOf g.sasl (hdrOf inp).opcode).1 ≠ .other) : Honest (handle (logged e) g deny (s, []) inp) := by
  unfold handle
  simp only []
  split
  · exact honest_err _ _ _ _ _ _ _ (by decide) (Or.inl rfl) (by simp)
  · split
    · exact honest_err _ _ _ _ _ _ _ (by decide) (Or.inl rfl) (by simp)
    · split
      · exact honest_err _ _ _ _ _ _ _ (by decide) (Or.inl rfl) (by simp)
      · split
        · trivial
        · generalize hdrOf inp = h at *
          generalize (cmdOf g.sasl h.opcode).2 = q at *
          generalize (cmdOf g.sasl h.opcode).1 = c at *
          cases c <;> simp only [ne_eq, not_true_eq_false] at hk ⊢
          all_goals first
            | exact honest_get ..
            | exact honest_update ..
            | exact honest_sasl ..
            | exact honest_coll ..
            | exact honest_collValue ..
            | exact ⟨by simp, by simp, by simp⟩
            | (split
               · rename_i hs
                 simp only [logged] at hs
                 exact ⟨fun _ => by simp [logged, hs], fun _ _ => response_status _ _ _ _ _, by simp [logged, isAlloc]⟩
               · rename_i hs
                 refine honest_err _ _ _ _ _ _ _ (by decide) (Or.inr ?_) (by simp [logged, isAlloc])
                 simp only [logged] at hs ⊢
                 simpa using hs)
            | (unfold doDelete
               refine honest_conclude _ _ _ _ _ _ _ (response_status _ _ _ _ _) ?_ (fun _ => deleteAct_ne) (by simp [logged, isAlloc])
               rw [deleteAct_ok]; simp [logged])
            | (unfold doIncr
               refine honest_conclude _ _ _ _ _ _ _ (response_status _ _ _ _ _) ?_ (fun _ => incrAct_ne) (by simp [logged, isAlloc])
               rw [incrAct_ok]; simp [logged])
            | (unfold doFlush
               refine honest_conclude _ _ _ _ _ _ _ (response_status _ _ _ _ _) ?_ (fun _ => collAct_ne) (by simp [logged, isAlloc])
               rw [collAct_ok]; simp [logged])
            | (unfold doStat
               refine honest_conclude _ _ _ _ _ _ _ ?_ ?_ (fun _ => statAct_ne) (by simp [logged, isAlloc])
               · intro r hr
                 rcases List.mem_append.1 hr with h1 | h1
                 · obtain ⟨kv, _, h2⟩ := List.mem_flatMap.1 h1
                   exact statResp_status _ kv r h2
                 · exact statResp_status _ _ r h1
               · rw [statAct_ok]; simp [logged])

end Verif.Bin
