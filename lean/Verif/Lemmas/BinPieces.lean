import Verif.Lemmas.Bin

/-! Helper lemmas: bytes behind those a handler of the binary protocol waits for do not matter. -/

namespace Verif.Bin

theorem slice_app {b m : Bytes} {i n : Nat} (h : i + n ≤ b.length) : slice (b ++ m) i n = slice b i n := by
  unfold slice
  rw [List.drop_append_of_le_length (by omega), List.take_append_of_le_length (by rw [List.length_drop]; omega)]

theorem hdrOf_app {b m : Bytes} (h : 24 ≤ b.length) : hdrOf (b ++ m) = hdrOf b := by
  unfold hdrOf
  rw [slice_app (by omega), slice_app (by omega), slice_app (by omega), slice_app (by omega), slice_app (by omega), slice_app (by omega),
    slice_app (by omega), slice_app (by omega)]

theorem doUpdate_app {σ : Type} (e : Engine σ) (g : Cfg) (s : σ) (h : Hdr) (c : Cmd) (q : Bool) (ext key inp m : Bytes)
    (hw : doUpdate e g s h c q ext key inp ≠ .wait) : doUpdate e g s h c q ext key (inp ++ m) = doUpdate e g s h c q ext key inp := by
  by_cases hl : inp.length < hdrLen + h.keylen + h.extlen + (h.bodylen - (h.keylen + h.extlen))
  · unfold doUpdate at hw ⊢
    simp only [if_pos hl] at hw ⊢
    split
    · rfl
    · split
      · rfl
      · split
        · next h1 h2 h3 => rw [if_neg h1, if_neg h2, if_pos h3] at hw; exact absurd rfl hw
        · rfl
  · have hl' : ¬ (inp ++ m).length < hdrLen + h.keylen + h.extlen + (h.bodylen - (h.keylen + h.extlen)) := by
      rw [List.length_append]; omega
    unfold doUpdate
    simp only [if_neg hl, if_neg hl', slice_app (Nat.le_of_not_lt hl)]

theorem doCollValue_app {σ : Type} (e : Engine σ) (g : Cfg) (s : σ) (h : Hdr) (c : Cmd) (q : Bool) (ext key inp m : Bytes)
    (hw : doCollValue e g s h c q ext key inp ≠ .wait) : doCollValue e g s h c q ext key (inp ++ m) = doCollValue e g s h c q ext key inp := by
  by_cases hl : inp.length < hdrLen + h.keylen + h.extlen + (h.bodylen - (h.keylen + h.extlen))
  · unfold doCollValue at hw ⊢
    simp only [if_pos hl] at hw ⊢
    split
    · rfl
    · split
      · rfl
      · split
        · rfl
        · split
          · rfl
          · split
            · rfl
            · split
              · split
                · rfl
                · next h1 h2 h3 h4 h5 h6 h7 =>
                  rw [if_neg h1, if_neg h2, if_neg h3, if_neg h4, if_neg h5, if_pos h6, if_neg h7] at hw; exact absurd rfl hw
              · rfl
  · have hl' : ¬ (inp ++ m).length < hdrLen + h.keylen + h.extlen + (h.bodylen - (h.keylen + h.extlen)) := by
      rw [List.length_append]; omega
    unfold doCollValue
    simp only [if_neg hl, if_neg hl', slice_app (Nat.le_of_not_lt hl)]

theorem doSasl_app {σ : Type} (e : Engine σ) (g : Cfg) (s : σ) (h : Hdr) (c : Cmd) (q : Bool) (key inp m : Bytes)
    (hw : doSasl e g s h c q key inp ≠ .wait) : doSasl e g s h c q key (inp ++ m) = doSasl e g s h c q key inp := by
  by_cases hl : inp.length < hdrLen + h.keylen + h.extlen + (h.bodylen - h.keylen)
  · unfold doSasl at hw ⊢
    simp only [if_pos hl] at hw ⊢
    split
    · rfl
    · split
      · rfl
      · split
        · rfl
        · next h1 h2 h3 => rw [if_neg h1, if_neg h2, if_neg h3] at hw; exact absurd rfl hw
  · have hl' : ¬ (inp ++ m).length < hdrLen + h.keylen + h.extlen + (h.bodylen - h.keylen) := by
      rw [List.length_append]; omega
    unfold doSasl
    simp only [if_neg hl, if_neg hl', slice_app (Nat.le_of_not_lt hl)]

theorem handle_app {σ : Type} (e : Engine σ) (g : Cfg) (deny : Bool) (s : σ) (inp m : Bytes) (h24 : 24 ≤ inp.length)
    (hw : handle e g deny s inp ≠ .wait) : handle e g deny s (inp ++ m) = handle e g deny s inp := by
  unfold handle at hw ⊢
  simp only [hdrOf_app h24] at hw ⊢
  generalize hdrOf inp = h at hw ⊢
  by_cases h1 : deny = true
  · simp only [if_pos h1]
  · simp only [if_neg h1] at hw ⊢
    by_cases h2 : keyMax < h.keylen
    · simp only [if_pos h2]
    · simp only [if_neg h2] at hw ⊢
      generalize (cmdOf g.sasl h.opcode).1 = c at hw ⊢
      generalize (cmdOf g.sasl h.opcode).2 = q at hw ⊢
      by_cases h3 : accepts c h = false
      · simp only [if_pos h3]
      · simp only [if_neg h3] at hw ⊢
        by_cases h4 : inp.length < hdrLen + chunkOf c h
        · simp only [if_pos h4] at hw; exact absurd rfl hw
        · have h5 : ¬ (inp ++ m).length < hdrLen + chunkOf c h := by rw [List.length_append]; omega
          simp only [if_neg h4, if_neg h5] at hw ⊢
          cases c
          case version => rfl
          case noop => rfl
          case quit => rfl
          case saslList => rfl
          case other => simp only [chunkOf] at h4; simp only [slice_app (Nat.le_of_not_lt h4)]
          all_goals
            simp only [chunkOf] at h4
            have hx : slice (inp ++ m) hdrLen h.extlen = slice inp hdrLen h.extlen := slice_app (by omega)
            have hk : slice (inp ++ m) (hdrLen + h.extlen) h.keylen = slice inp (hdrLen + h.extlen) h.keylen := slice_app (by omega)
            first
              | (simp only [hx, hk]; done)
              | (simp only [hx, hk] at hw ⊢; exact doUpdate_app _ _ _ _ _ _ _ _ _ _ hw)
              | (simp only [hx, hk] at hw ⊢; exact doCollValue_app _ _ _ _ _ _ _ _ _ _ hw)
              | (simp only [hk] at hw ⊢; exact doSasl_app _ _ _ _ _ _ _ _ _ hw)

end Verif.Bin
