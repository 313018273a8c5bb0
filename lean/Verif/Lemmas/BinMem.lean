import Verif.Lemmas.Bin

/-! Helper lemmas about the binary protocol: copies stay inside their arrays, the read buffer holds what is asked for. -/

namespace Verif.Bin

open Spec

theorem noFault_conclude {σ : Type} (g : Cfg) (h : Hdr) (s : σ) (u cas : Nat) (good : List Resp) (a : Act) (ha : a ≠ .abort) :
    NoFault (conclude g h s u cas good a) := by
  cases a <;> simp [conclude, NoFault] at ha ⊢

theorem noFault_refuse {σ : Type} (g : Cfg) (h : Hdr) (s : σ) (u v : Nat) (code : Code) : NoFault (refuse g h s u v code) := by
  cases code <;> simp [refuse, NoFault]

theorem noFault_protoError {σ : Type} (g : Cfg) (h : Hdr) (s : σ) (u : Nat) : NoFault (protoError g h s u) := by
  simp [protoError, NoFault]

theorem unexpected_abort (c : Code) : unexpected c ≠ .abort := by cases c <;> simp [unexpected]

theorem storeAct_abort (op : StoreOp) (c : Code) : storeAct op c ≠ .abort := by cases op <;> cases c <;> simp [storeAct, unexpected]

theorem deleteAct_abort (c : Code) : deleteAct c ≠ .abort := by cases c <;> simp [deleteAct]

theorem statAct_abort (c : Code) : statAct c ≠ .abort := by cases c <;> simp [statAct, unexpected]

theorem collAct_abort (cm : Cmd) (c : Code) : collAct cm c ≠ .abort := by
  unfold collAct
  split <;> first
    | exact unexpected_abort _
    | simp

theorem noFault_update {σ : Type} (e : Engine σ) (g : Cfg) (s : σ) (h : Hdr) (c : Cmd) (q : Bool) (ext key inp : Bytes) :
    NoFault (doUpdate e g s h c q ext key inp) := by
  unfold doUpdate
  simp only []
  split
  · exact noFault_protoError ..
  · split
    · exact noFault_protoError ..
    · split
      · split
        · simp [NoFault]
        · exact noFault_conclude _ _ _ _ _ _ _ (storeAct_abort _ _)
      · split <;> exact noFault_refuse ..

theorem noFault_get {σ : Type} {e : Engine σ} (g : Cfg) (s : σ) (h : Hdr) (c : Cmd) (q : Bool) (key : Bytes) (ht : Tame e)
    (hk : c = .getk → q = false → hdrLen + key.length ≤ g.wsize) : NoFault (doGet e g s h c q key) := by
  unfold doGet
  simp only []
  split
  · simp [NoFault]
  · split
    · simp [NoFault]
    · rename_i hq
      split
      · rename_i hc
        have := hk hc (by simpa using hq)
        split
        · omega
        · simp [NoFault]
      · simp [NoFault]
  · exact noFault_conclude _ _ _ _ _ _ _ (ht.1 _ _ _)

theorem noFault_sasl {σ : Type} (e : Engine σ) (g : Cfg) (s : σ) (h : Hdr) (c : Cmd) (q : Bool) (key inp : Bytes) :
    NoFault (doSasl e g s h c q key inp) := by
  unfold doSasl
  simp only []
  split
  · exact noFault_protoError ..
  · split
    · exact noFault_protoError ..
    · split
      · simp [NoFault]
      · split
        · simp [NoFault]
        · split <;> simp [NoFault]

theorem noFault_coll {σ : Type} (e : Engine σ) (g : Cfg) (s : σ) (h : Hdr) (c : Cmd) (q : Bool) (ext key : Bytes)
    (hs : c = .setattr → byteAt ext 39 = 255 ∨ byteAt ext 39 ≤ 31) : NoFault (doColl e g s h c q ext key) := by
  unfold doColl
  simp only []
  split
  · rename_i hh
    have := hs hh.1
    omega
  · exact noFault_conclude _ _ _ _ _ _ _ (collAct_abort _ _)

theorem noFault_collValue {σ : Type} (e : Engine σ) (g : Cfg) (s : σ) (h : Hdr) (c : Cmd) (q : Bool) (ext key inp : Bytes)
    (hs : c = .bopInsert ∨ c = .bopUpsert ∨ c = .bopUpdate → byteAt ext 31 ≤ 31 ∧ byteAt ext 63 ≤ 31) :
    NoFault (doCollValue e g s h c q ext key inp) := by
  have hok : copiesOk c ext = true := by
    unfold copiesOk
    split
    · simpa using hs (Or.inl rfl)
    · simpa using hs (Or.inr (Or.inl rfl))
    · simpa using hs (Or.inr (Or.inr rfl))
    · rfl
  unfold doCollValue
  simp only [hok]
  split
  · exact noFault_protoError ..
  · split
    · exact noFault_protoError ..
    · split
      · rename_i hh; simp at hh
      · split
        · exact noFault_conclude _ _ _ _ _ _ _ (collAct_abort _ _)
        · split
          · exact noFault_refuse ..
          · split
            · split
              · rename_i hh; simp at hh
              · split
                · simp [NoFault]
                · exact noFault_conclude _ _ _ _ _ _ _ (collAct_abort _ _)
            · exact noFault_refuse ..

theorem noFault_handle {σ : Type} {e : Engine σ} {g : Cfg} {deny : Bool} {s : σ} {inp : Bytes} (ht : Tame e)
    (h1 : (hdrOf inp).opcode = 0x0c → hdrLen + (hdrOf inp).keylen ≤ g.wsize)
    (h2 : (hdrOf inp).opcode = 0x4f → byteAt (slice inp hdrLen 44) 39 = 255 ∨ byteAt (slice inp hdrLen 44) 39 ≤ 31)
    (h3 : (hdrOf inp).opcode ∈ [0x71, 0x72, 0x73, 0x7c, 0x7d, 0x7e] →
      byteAt (slice inp hdrLen (hdrOf inp).extlen) 31 ≤ 31 ∧ byteAt (slice inp hdrLen (hdrOf inp).extlen) 63 ≤ 31) :
    NoFault (handle e g deny s inp) := by
  unfold handle
  simp only []
  split
  · simp [NoFault]
  · split
    · exact noFault_protoError ..
    · split
      · exact noFault_protoError ..
      · rename_i hacc
        split
        · simp [NoFault]
        · have hk : (cmdOf g.sasl (hdrOf inp).opcode).1 = .getk → (cmdOf g.sasl (hdrOf inp).opcode).2 = false →
              hdrLen + (slice inp (hdrLen + (hdrOf inp).extlen) (hdrOf inp).keylen).length ≤ g.wsize := by
            intro hc hq
            have hop : (hdrOf inp).opcode = 0x0c := by
              rcases cmdOf_getk hc with h | h
              · exact h
              · rw [h] at hq; simp [cmdOf] at hq
            have := h1 hop
            have hl : (slice inp (hdrLen + (hdrOf inp).extlen) (hdrOf inp).keylen).length ≤ (hdrOf inp).keylen := by
              unfold slice; simp only [List.length_take]; omega
            omega
          have hs : (cmdOf g.sasl (hdrOf inp).opcode).1 = .setattr →
              byteAt (slice inp hdrLen (hdrOf inp).extlen) 39 = 255 ∨ byteAt (slice inp hdrLen (hdrOf inp).extlen) 39 ≤ 31 := by
            intro hc
            rw [hc] at hacc
            have hx : (hdrOf inp).extlen = 44 := by
              simp [accepts, bkeySize] at hacc; exact hacc.2.1
            rw [hx]; exact h2 (cmdOf_setattr hc)
          have hb : (cmdOf g.sasl (hdrOf inp).opcode).1 = .bopInsert ∨ (cmdOf g.sasl (hdrOf inp).opcode).1 = .bopUpsert ∨
              (cmdOf g.sasl (hdrOf inp).opcode).1 = .bopUpdate →
              byteAt (slice inp hdrLen (hdrOf inp).extlen) 31 ≤ 31 ∧ byteAt (slice inp hdrLen (hdrOf inp).extlen) 63 ≤ 31 := by
            intro hc
            apply h3
            revert hc
            unfold cmdOf; split <;> (try split) <;> simp_all
          generalize hdrOf inp = h at *
          generalize (cmdOf g.sasl h.opcode).2 = q at *
          generalize (cmdOf g.sasl h.opcode).1 = c at *
          have hcv := noFault_collValue e g s h c q (slice inp hdrLen h.extlen) (slice inp (hdrLen + h.extlen) h.keylen) inp hb
          have hco := noFault_coll e g s h c q (slice inp hdrLen h.extlen) (slice inp (hdrLen + h.extlen) h.keylen) hs
          have hge := noFault_get g s h c q (slice inp (hdrLen + h.extlen) h.keylen) ht hk
          cases c <;> simp only [] at *
          all_goals first
            | exact hge
            | exact hco
            | exact hcv
            | exact noFault_update ..
            | exact noFault_sasl ..
            | (simp [NoFault]; done)
            | (unfold doDelete; exact noFault_conclude _ _ _ _ _ _ _ (deleteAct_abort _))
            | (unfold doIncr; exact noFault_conclude _ _ _ _ _ _ _ (ht.2 _ _ _ _ _ _ _ _))
            | (unfold doFlush; exact noFault_conclude _ _ _ _ _ _ _ (collAct_abort _ _))
            | (unfold doStat; exact noFault_conclude _ _ _ _ _ _ _ (statAct_abort _))
            | (unfold doUnknown; simp only []; split <;> simp [NoFault])
            | (split <;> simp [NoFault])

/-! ### The read buffer -/

theorem grow_ge (f size n : Nat) (h : size ≤ n * 2 ^ f) : size ≤ grow f size n := by
  induction f generalizing n with
  | zero => simpa [grow] using h
  | succ f ih =>
    unfold grow
    split
    · apply ih
      rw [Nat.pow_succ] at h
      rw [Nat.mul_assoc, Nat.mul_comm 2]; exact h
    · omega

theorem grow_lt (f size n : Nat) : grow f size n = n ∨ grow f size n < 2 * size := by
  induction f generalizing n with
  | zero => left; rfl
  | succ f ih =>
    unfold grow
    split
    · right
      rcases ih (n * 2) with h | h <;> omega
    · left; rfl

theorem grow_mono (f size n : Nat) : n ≤ grow f size n := by
  induction f generalizing n with
  | zero => exact Nat.le_refl _
  | succ f ih =>
    unfold grow
    split
    · have := ih (n * 2); omega
    · omega

theorem readChunk_ok {b : RBuf} {chunk : Nat} (h1 : b.rsize = (b.cap : Int)) (h2 : 0 < b.cap) (h3 : b.cap < 2 ^ 31)
    (h4 : b.rcurr + b.rbytes ≤ b.cap) (h5 : chunk + hdrLen ≤ 2 ^ 30) :
    (readChunk b chunk).rsize = ((readChunk b chunk).cap : Int) ∧ 0 < (readChunk b chunk).cap ∧ (readChunk b chunk).cap < 2 ^ 31 ∧
    (readChunk b chunk).rcurr + (readChunk b chunk).rbytes ≤ (readChunk b chunk).cap ∧
    (readChunk b chunk).rcurr + hdrLen + chunk ≤ (readChunk b chunk).cap := by
  have hsz : toSize b.rsize = b.cap := by
    rw [h1]; unfold toSize
    rw [Int.emod_eq_of_lt (by omega) (by omega)]; simp
  unfold readChunk
  simp only [hsz]
  split
  · have hg1 : chunk + hdrLen ≤ grow 64 (chunk + hdrLen) b.cap := by
      apply grow_ge
      have : 1 * 2 ^ 64 ≤ b.cap * 2 ^ 64 := Nat.mul_le_mul_right _ h2
      omega
    have hg2 := grow_lt 64 (chunk + hdrLen) b.cap
    have hg3 := grow_mono 64 (chunk + hdrLen) b.cap
    generalize grow 64 (chunk + hdrLen) b.cap = n at *
    split
    · have hn : n < 2 ^ 31 := by omega
      have hi : toInt n = (n : Int) := by
        unfold toInt
        rw [Nat.mod_eq_of_lt (by omega)]
        simp [hn]
      simp only [hi]
      refine ⟨trivial, by omega, hn, by omega, by omega⟩
    · rename_i hne
      have : n = b.cap := by simpa using hne
      refine ⟨h1, h2, h3, by simp only []; omega, by simp only []; omega⟩
  · rename_i hh
    refine ⟨h1, h2, h3, h4, ?_⟩
    rw [h1] at hh
    omega

end Verif.Bin
