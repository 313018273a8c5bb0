import Verif.Lemmas.BinAcc

/-! Helper lemmas about the binary protocol: why a connection is closed; the answer to a lookup of elements. -/

namespace Verif.Bin

open Spec

theorem unexpected_disc {c : Code} (h : unexpected c = .disc) : c = .disconnect := by revert h; cases c <;> simp [unexpected]
theorem storeAct_disc {op : StoreOp} {c : Code} (h : storeAct op c = .disc) : c = .disconnect := by
  revert h; cases c <;> cases op <;> simp [storeAct, unexpected]
theorem incrAct_disc {c : Code} (h : incrAct c = .disc) : c = .disconnect := by revert h; cases c <;> simp [incrAct]
theorem getAct_disc {c : Code} (h : getAct c = .disc) : c = .disconnect := by revert h; cases c <;> simp [getAct]
theorem deleteAct_disc {c : Code} (h : deleteAct c = .disc) : c = .disconnect := by revert h; cases c <;> simp [deleteAct]
theorem statAct_disc {c : Code} (h : statAct c = .disc) : c = .disconnect := by revert h; cases c <;> simp [statAct, unexpected]
theorem collAct_disc {cm : Cmd} {c : Code} (h : collAct cm c = .disc) : c = .disconnect := by
  revert h
  unfold collAct
  split <;> intro h <;> first
    | exact unexpected_disc h
    | cases h

variable {σ : Type}

theorem reason_conclude (deny : Bool) (g : Cfg) (h : Hdr) (s : σ × List (Call × Code)) (u cas : Nat) (good : List Resp) (a : Act)
    (ha : a = .disc → ∃ x ∈ s.2, x.2 = .disconnect) : CloseReason deny h true (conclude g h s u cas good a) := by
  cases a with
  | ok => intro hh; cases hh
  | err => intro hh; cases hh
  | disc => intro _; right; right; right; exact ⟨rfl, ha rfl⟩
  | abort => trivial

theorem reason_refuse (deny : Bool) (g : Cfg) (h : Hdr) (s : σ × List (Call × Code)) (u v : Nat) (code : Code)
    (ha : code = .disconnect → ∃ x ∈ s.2, x.2 = .disconnect) : CloseReason deny h true (refuse g h s u v code) := by
  have hs : ∀ n, swallowOr n ≠ .closing := by intro n; unfold swallowOr; split <;> simp
  unfold refuse
  split
  · exact fun hh => absurd hh (hs v)
  · exact fun hh => absurd hh (hs v)
  · intro _; right; right; right; exact ⟨rfl, ha rfl⟩
  · exact fun hh => absurd hh (hs 0)
  · exact fun hh => absurd hh (hs v)

theorem reason_protoError (deny : Bool) (g : Cfg) (h : Hdr) (s : σ) (u : Nat) (k : Bool) :
    CloseReason deny h k (protoError g h ((s, []) : σ × List (Call × Code)) u) := by
  intro _; right; right; left
  exact ⟨rfl, _, rfl, Or.inl rfl⟩

theorem reason_update (deny : Bool) (e : Engine σ) (g : Cfg) (s : σ) (h : Hdr) (c : Cmd) (q : Bool) (ext key inp : Bytes) :
    CloseReason deny h true (doUpdate (logged e) g (s, []) h c q ext key inp) := by
  unfold doUpdate
  simp only []
  split
  · exact reason_protoError _ _ _ _ _ _
  · split
    · exact reason_protoError _ _ _ _ _ _
    · split
      · split
        · trivial
        · refine reason_conclude _ _ _ _ _ _ _ _ fun hh => ?_
          simp only [logged] at hh ⊢
          exact ⟨_, by simp only [List.mem_append, List.mem_singleton]; right; rfl, storeAct_disc hh⟩
      · split
        · refine reason_refuse _ _ _ _ _ _ _ fun hh => ?_
          simp only [logged] at hh ⊢
          exact ⟨_, by simp only [List.mem_append, List.mem_singleton]; left; right; rfl, hh⟩
        · refine reason_refuse _ _ _ _ _ _ _ fun hh => ?_
          simp only [logged] at hh ⊢
          exact ⟨_, by simp only [List.mem_append, List.mem_singleton]; right; rfl, hh⟩

theorem reason_get (deny : Bool) (e : Engine σ) (g : Cfg) (s : σ) (h : Hdr) (c : Cmd) (q : Bool) (key : Bytes) :
    CloseReason deny h true (doGet (logged e) g (s, []) h c q key) := by
  unfold doGet
  simp only []
  split
  · intro hh; cases hh
  · split
    · intro hh; cases hh
    · split
      · split
        · trivial
        · intro hh; cases hh
      · intro hh; cases hh
  · refine reason_conclude _ _ _ _ _ _ _ _ fun hh => ?_
    simp only [logged] at hh ⊢
    exact ⟨_, by simp only [List.nil_append, List.mem_singleton]; rfl, getAct_disc hh⟩

theorem reason_one (deny : Bool) (e : Engine σ) (g : Cfg) (s : σ) (h : Hdr) (cl : Call) (u cas : Nat) (good : List Resp) (a : Code → Act)
    (ha : ∀ c, a c = .disc → c = .disconnect) :
    CloseReason deny h true (conclude g h ((logged e).call (s, []) cl).1 u cas good (a ((logged e).call (s, []) cl).2.code)) := by
  refine reason_conclude _ _ _ _ _ _ _ _ fun hh => ?_
  simp only [logged] at hh ⊢
  exact ⟨_, by simp only [List.nil_append, List.mem_singleton]; rfl, ha _ hh⟩

theorem reason_coll (deny : Bool) (e : Engine σ) (g : Cfg) (s : σ) (h : Hdr) (c : Cmd) (q : Bool) (ext key : Bytes) :
    CloseReason deny h true (doColl (logged e) g (s, []) h c q ext key) := by
  unfold doColl
  simp only []
  split
  · trivial
  · exact reason_one _ _ _ _ _ _ _ _ _ _ fun _ => collAct_disc

theorem reason_collValue (deny : Bool) (e : Engine σ) (g : Cfg) (s : σ) (h : Hdr) (c : Cmd) (q : Bool) (ext key inp : Bytes) :
    CloseReason deny h true (doCollValue (logged e) g (s, []) h c q ext key inp) := by
  unfold doCollValue
  simp only []
  split
  · exact reason_protoError _ _ _ _ _ _
  · split
    · exact reason_protoError _ _ _ _ _ _
    · split
      · trivial
      · split
        · exact reason_one _ _ _ _ _ _ _ _ _ _ fun _ => collAct_disc
        · split
          · exact reason_refuse _ _ _ _ _ _ _ fun hh => by cases hh
          · split
            · split
              · trivial
              · split
                · trivial
                · refine reason_conclude _ _ _ _ _ _ _ _ fun hh => ?_
                  simp only [logged] at hh ⊢
                  exact ⟨_, by simp only [List.mem_append, List.mem_singleton]; right; rfl, collAct_disc hh⟩
            · refine reason_refuse _ _ _ _ _ _ _ fun hh => ?_
              simp only [logged] at hh ⊢
              exact ⟨_, by simp only [List.nil_append, List.mem_singleton]; rfl, hh⟩

theorem reason_sasl (deny : Bool) (e : Engine σ) (g : Cfg) (s : σ) (h : Hdr) (c : Cmd) (q : Bool) (key inp : Bytes) :
    CloseReason deny h true (doSasl (logged e) g (s, []) h c q key inp) := by
  unfold doSasl
  simp only []
  split
  · exact reason_protoError _ _ _ _ _ _
  · split
    · exact reason_protoError _ _ _ _ _ _
    · split
      · intro hh
        exact absurd hh (by simp only [swallowOr]; split <;> simp)
      · split
        · trivial
        · split <;> (intro hh; cases hh)

theorem reason_unknown (deny : Bool) (e : Engine σ) (g : Cfg) (s : σ) (h : Hdr) (body : Bytes) :
    CloseReason deny h false (doUnknown (logged e) g (s, []) h body) := by
  unfold doUnknown
  simp only []
  split
  · intro hh; cases hh
  · intro hh; cases hh
  · rename_i h1 h2
    intro _; right; right; right
    refine ⟨rfl, _, by simp only [logged, List.nil_append, List.mem_singleton]; rfl, ?_⟩
    exact ⟨fun hh => h1 hh, fun hh => h2 hh⟩

theorem cmdOf_quit {b : Bool} {op : Nat} (h : (cmdOf b op).1 = .quit) : op = 0x07 ∨ op = 0x17 := by
  revert h; unfold cmdOf; split <;> (try split) <;> simp

theorem reason_handle (e : Engine σ) (g : Cfg) (deny : Bool) (s : σ) (inp : Bytes) :
    CloseReason deny (hdrOf inp) (decide ((cmdOf g.sasl (hdrOf inp).opcode).1 ≠ .other)) (handle (logged e) g deny (s, []) inp) := by
  unfold handle
  simp only []
  split
  · rename_i hd
    intro _; right; right; left
    exact ⟨rfl, _, rfl, Or.inr ⟨hd, rfl⟩⟩
  · split
    · exact reason_protoError _ _ _ _ _ _
    · split
      · exact reason_protoError _ _ _ _ _ _
      · split
        · trivial
        · have hq : (cmdOf g.sasl (hdrOf inp).opcode).1 = .quit → (hdrOf inp).opcode = 0x07 ∨ (hdrOf inp).opcode = 0x17 := cmdOf_quit
          generalize hdrOf inp = h at *
          generalize hc : (cmdOf g.sasl h.opcode).1 = c at *
          cases c <;> first
            | exact reason_update _ _ _ _ _ _ _ _ _ _
            | exact reason_get _ _ _ _ _ _ _ _
            | exact reason_collValue _ _ _ _ _ _ _ _ _ _
            | exact reason_coll _ _ _ _ _ _ _ _ _
            | exact reason_sasl _ _ _ _ _ _ _ _ _
            | exact reason_unknown _ _ _ _ _ _
            | exact reason_one _ _ _ _ _ _ _ _ _ _ (fun _ => deleteAct_disc)
            | exact reason_one _ _ _ _ _ _ _ _ _ _ (fun _ => incrAct_disc)
            | exact reason_one _ _ _ _ _ _ _ _ _ _ (fun _ => collAct_disc)
            | exact reason_one _ _ _ _ _ _ _ _ _ _ (fun _ => statAct_disc)
            | (intro hh; cases hh; done)
            | (simp only []; split <;> (intro hh; cases hh); done)
            | (intro _; rcases hq rfl with h1 | h1
               · exact Or.inl h1
               · exact Or.inr (Or.inl h1))

/-- The answer to `LOP_GET` and `SOP_GET` for which the engine gives elements. -/
theorem handle_elems {e : Engine σ} {g : Cfg} {s : σ} {op vb cas : Nat} {ext key opq rest : Bytes} {c : Cmd}
    (hop : op = 0x53 ∧ ext.length = 12 ∧ c = .lopGet ∨ op = 0x64 ∧ ext.length = 8 ∧ c = .sopGet) (hk0 : 0 < key.length) (hk : key.length ≤ keyMax)
    (ho : opq.length = 4) (hvb : vb < 2 ^ 16) (hcas : cas < 2 ^ 64) (h1 : (e.call s (.coll c key ext [] vb)).2.code = .success) :
    ∃ o r, handle e g false s (encode op ext key [] opq vb cas ++ rest) = .done o ∧ o.used = 24 + ext.length + key.length ∧ o.next = .newCmd ∧
      o.eng = (e.call s (.coll c key ext [] vb)).1 ∧
      o.resps = [r] ∧ r.status = 0 ∧ r.opq = opq ∧ r.opcode = op ∧ r.extlen = 8 ∧ r.keylen = 0 ∧
      r.body = collBody c (e.call s (.coll c key ext [] vb)).2 := by
  have hxl : ext.length ≤ 12 := by omega
  have hh := hdrOf_encode op ext key [] opq vb cas rest ho (by omega)
    (by simp only [keyMax] at hk; omega) (by omega) hvb (by simp only [keyMax, List.length_nil] at *; omega) hcas
  have hlen := encode_length op ext key [] opq vb cas ho
  have hx := ext_encode op ext key [] opq vb cas rest ho
  have hky := key_encode op ext key [] opq vb cas rest ho
  simp only [List.length_nil, Nat.add_zero] at hh hlen
  unfold handle
  simp only [hh, hdrLen, hx, hky]
  rcases hop with ⟨h2, h3, h4⟩ | ⟨h2, h3, h4⟩ <;> subst h2 <;> subst h4 <;> rw [h3] at * <;>
    simp only [cmdOf, accepts, Bool.false_eq_true, if_false, beq_self_eq_true, Bool.true_and, decide_eq_true hk0, Bool.and_true,
      Nat.add_comm _ key.length, chunkOf, List.length_append, Bool.true_eq_false] <;>
    rw [if_neg (by omega), if_neg (by omega)] <;>
    simp [doColl, h1, collAct, conclude, collGood, mkResp, collExt, hdrLen] <;> omega

end Verif.Bin
