import Verif.Lemmas.BinClose

/-! Helper lemmas about the binary protocol: `QUIT` and an engine that wants the connection closed are obeyed. -/

namespace Verif.Bin

open Spec

variable {σ : Type}

theorem obeys_conclude (g : Cfg) (h : Hdr) (s : σ × List (Call × Code)) (u cas : Nat) (good : List Resp) (a : Act)
    (ha : ∀ x ∈ s.2, x.2 = .disconnect → heeded x.1 = true → a = .disc) : Obeys (conclude g h s u cas good a) := by
  cases a with
  | ok => intro x hx h1 h2; cases ha x hx h1 h2
  | err => intro x hx h1 h2; cases ha x hx h1 h2
  | disc => intro _ _ _ _; exact ⟨rfl, rfl⟩
  | abort => trivial

theorem obeys_refuse (g : Cfg) (h : Hdr) (s : σ × List (Call × Code)) (u v : Nat) (code : Code)
    (ha : ∀ x ∈ s.2, x.2 = .disconnect → heeded x.1 = true → code = .disconnect) : Obeys (refuse g h s u v code) := by
  by_cases hc : code = .disconnect
  · subst hc
    intro _ _ _ _; exact ⟨rfl, rfl⟩
  · have hn : ∀ x ∈ s.2, x.2 = .disconnect → heeded x.1 = true → False := fun x hx h1 h2 => hc (ha x hx h1 h2)
    cases code <;> first
      | exact absurd rfl hc
      | exact fun x hx h1 h2 => (hn x hx h1 h2).elim

theorem obeys_protoError (g : Cfg) (h : Hdr) (s : σ) (u : Nat) : Obeys (protoError g h ((s, []) : σ × List (Call × Code)) u) := by
  intro x hx; cases hx

theorem storeAct_disconnect (op : StoreOp) : storeAct op .disconnect = .disc := rfl
theorem collAct_disconnect (c : Cmd) : collAct c .disconnect = .disc := by cases c <;> rfl

theorem obeys_one (e : Engine σ) (g : Cfg) (s : σ) (h : Hdr) (cl : Call) (u cas : Nat) (good : List Resp) (a : Code → Act)
    (ha : heeded cl = true → a .disconnect = .disc) :
    Obeys (conclude g h ((logged e).call (s, []) cl).1 u cas good (a ((logged e).call (s, []) cl).2.code)) := by
  refine obeys_conclude _ _ _ _ _ _ _ fun x hx h1 h2 => ?_
  simp only [logged, List.nil_append, List.mem_singleton] at hx ⊢
  subst hx
  simp only at h1 h2
  rw [h1]; exact ha h2

theorem obeys_update (e : Engine σ) (g : Cfg) (s : σ) (h : Hdr) (c : Cmd) (q : Bool) (ext key inp : Bytes) :
    Obeys (doUpdate (logged e) g (s, []) h c q ext key inp) := by
  unfold doUpdate
  simp only []
  split
  · exact obeys_protoError _ _ _ _
  · split
    · exact obeys_protoError _ _ _ _
    · split
      · rename_i hok
        split
        · trivial
        · refine obeys_conclude _ _ _ _ _ _ _ fun x hx h1 h2 => ?_
          simp only [logged, List.nil_append, List.mem_append, List.mem_singleton] at hx hok ⊢
          rcases hx with hx | hx
          · subst hx; simp only at h1; rw [h1] at hok; cases hok
          · subst hx; simp only at h1; rw [h1]; rfl
      · split
        · refine obeys_refuse _ _ _ _ _ _ fun x hx h1 h2 => ?_
          simp only [logged, List.nil_append, List.mem_append, List.mem_singleton] at hx ⊢
          rcases hx with hx | hx
          · subst hx; exact h1
          · subst hx; cases h2
        · refine obeys_refuse _ _ _ _ _ _ fun x hx h1 h2 => ?_
          simp only [logged, List.nil_append, List.mem_singleton] at hx ⊢
          subst hx; exact h1

theorem obeys_get (e : Engine σ) (g : Cfg) (s : σ) (h : Hdr) (c : Cmd) (q : Bool) (key : Bytes) :
    Obeys (doGet (logged e) g (s, []) h c q key) := by
  by_cases hd : (e.call s (.get key h.vbucket)).2.code = .disconnect
  · unfold doGet
    simp only [logged, hd, getAct, conclude]
    intro _ _ _ _; exact ⟨rfl, rfl⟩
  · have hno : ∀ x ∈ ((logged e).call (s, []) (.get key h.vbucket)).1.2, x.2 = .disconnect → False := by
      intro x hx h1
      simp only [logged, List.nil_append, List.mem_singleton] at hx
      subst hx; exact hd h1
    unfold doGet
    simp only []
    split
    · exact fun x hx h1 _ => (hno x hx h1).elim
    · split
      · exact fun x hx h1 _ => (hno x hx h1).elim
      · split
        · split
          · trivial
          · exact fun x hx h1 _ => (hno x hx h1).elim
        · exact fun x hx h1 _ => (hno x hx h1).elim
    · exact obeys_conclude _ _ _ _ _ _ _ fun x hx h1 _ => (hno x hx h1).elim

theorem obeys_coll (e : Engine σ) (g : Cfg) (s : σ) (h : Hdr) (c : Cmd) (q : Bool) (ext key : Bytes) :
    Obeys (doColl (logged e) g (s, []) h c q ext key) := by
  unfold doColl
  simp only []
  split
  · trivial
  · exact obeys_one _ _ _ _ _ _ _ _ (collAct c) fun _ => collAct_disconnect c

theorem obeys_collValue (e : Engine σ) (g : Cfg) (s : σ) (h : Hdr) (c : Cmd) (q : Bool) (ext key inp : Bytes) :
    Obeys (doCollValue (logged e) g (s, []) h c q ext key inp) := by
  unfold doCollValue
  simp only []
  split
  · exact obeys_protoError _ _ _ _
  · split
    · exact obeys_protoError _ _ _ _
    · split
      · trivial
      · split
        · exact obeys_one _ _ _ _ _ _ _ _ (collAct c) fun _ => collAct_disconnect c
        · split
          · exact obeys_refuse _ _ _ _ _ _ fun x hx => by cases hx
          · split
            · rename_i hok
              split
              · trivial
              · split
                · trivial
                · refine obeys_conclude _ _ _ _ _ _ _ fun x hx h1 h2 => ?_
                  simp only [logged, List.nil_append, List.mem_append, List.mem_singleton] at hx hok ⊢
                  rcases hx with hx | hx
                  · subst hx; simp only at h1; rw [h1] at hok; cases hok
                  · subst hx; simp only at h1; rw [h1]; exact collAct_disconnect c
            · refine obeys_refuse _ _ _ _ _ _ fun x hx h1 h2 => ?_
              simp only [logged, List.nil_append, List.mem_singleton] at hx ⊢
              subst hx; exact h1

theorem obeys_sasl (e : Engine σ) (g : Cfg) (s : σ) (h : Hdr) (c : Cmd) (q : Bool) (key inp : Bytes) :
    Obeys (doSasl (logged e) g (s, []) h c q key inp) := by
  have hno : ∀ b m d, ∀ x ∈ ((logged e).call (s, []) (.sasl b m d)).1.2, heeded x.1 = true → False := by
    intro b m d x hx h1
    simp only [logged, List.nil_append, List.mem_singleton] at hx
    subst hx; cases h1
  unfold doSasl
  simp only []
  split
  · exact obeys_protoError _ _ _ _
  · split
    · exact obeys_protoError _ _ _ _
    · split
      · intro x hx; cases hx
      · split
        · trivial
        · split <;> exact fun x hx _ h2 => (hno _ _ _ x hx h2).elim

theorem obeys_unknown (e : Engine σ) (g : Cfg) (s : σ) (h : Hdr) (body : Bytes) : Obeys (doUnknown (logged e) g (s, []) h body) := by
  unfold doUnknown
  simp only []
  split
  · rename_i hc
    intro x hx h1 _
    simp only [logged, List.nil_append, List.mem_singleton] at hx hc
    subst hx; simp only at h1; rw [h1] at hc; cases hc
  · rename_i hc
    intro x hx h1 _
    simp only [logged, List.nil_append, List.mem_singleton] at hx hc
    subst hx; simp only at h1; rw [h1] at hc; cases hc
  · intro _ _ _ _; exact ⟨rfl, rfl⟩

theorem obeys_handle (e : Engine σ) (g : Cfg) (deny : Bool) (s : σ) (inp : Bytes) : Obeys (handle (logged e) g deny (s, []) inp) := by
  unfold handle
  simp only []
  split
  · intro x hx; cases hx
  · split
    · exact obeys_protoError _ _ _ _
    · split
      · exact obeys_protoError _ _ _ _
      · split
        · trivial
        · generalize hdrOf inp = h at *
          generalize (cmdOf g.sasl h.opcode).1 = c at *
          cases c <;> first
            | exact obeys_update _ _ _ _ _ _ _ _ _
            | exact obeys_get _ _ _ _ _ _ _
            | exact obeys_collValue _ _ _ _ _ _ _ _ _
            | exact obeys_coll _ _ _ _ _ _ _ _
            | exact obeys_sasl _ _ _ _ _ _ _ _
            | exact obeys_unknown _ _ _ _ _
            | exact obeys_one _ _ _ _ _ _ _ _ deleteAct (fun hh => by cases hh)
            | exact obeys_one _ _ _ _ _ _ _ _ incrAct (fun _ => rfl)
            | exact obeys_one _ _ _ _ _ _ _ _ (collAct _) (fun _ => rfl)
            | exact obeys_one _ _ _ _ _ _ _ _ statAct (fun _ => rfl)
            | (intro x hx; cases hx; done)
            | (simp only []
               split <;>
               · intro x hx _ h2
                 simp only [logged, List.nil_append, List.mem_singleton] at hx
                 subst hx; cases h2)

theorem quit_handle (e : Engine σ) (g : Cfg) (deny : Bool) (s : σ) (inp : Bytes)
    (hq : (hdrOf inp).opcode = 0x07 ∨ (hdrOf inp).opcode = 0x17) (hl : hdrLen ≤ inp.length) :
    ∃ o, handle e g deny s inp = .done o ∧ o.next = .closing ∧ o.eng = s ∧
      (deny = false → (hdrOf inp).extlen = 0 → (hdrOf inp).keylen = 0 → (hdrOf inp).bodylen = 0 →
        o.used = hdrLen ∧ o.resps.map (·.status) = if (hdrOf inp).opcode = 0x07 then [0] else []) := by
  have hc : cmdOf g.sasl (hdrOf inp).opcode = (.quit, decide ((hdrOf inp).opcode = 0x17)) := by
    rcases hq with h | h <;> rw [h] <;> rfl
  unfold handle
  simp only [hc]
  split
  · rename_i hd
    exact ⟨_, rfl, rfl, rfl, fun h => by rw [hd] at h; cases h⟩
  · split
    · rename_i hk
      exact ⟨_, rfl, rfl, rfl, fun _ _ h => by rw [h] at hk; exact absurd hk (by decide)⟩
    · split
      · rename_i ha
        refine ⟨_, rfl, rfl, rfl, fun _ h1 h2 h3 => ?_⟩
        simp [accepts, h1, h2, h3] at ha
      · split
        · rename_i hw
          simp only [chunkOf] at hw
          omega
        · refine ⟨_, rfl, rfl, rfl, fun _ _ _ _ => ⟨rfl, ?_⟩⟩
          rcases hq with h | h <;> simp [h, response, mkResp]

end Verif.Bin
