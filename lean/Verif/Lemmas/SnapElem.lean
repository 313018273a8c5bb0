import Verif.Lemmas.LogRec
/-! # Lemmas on snapshot element records -/
set_option linter.unusedSimpArgs false
namespace Verif.Log
open Spec

/-- Element bytes after the item pointer was stored into the read buffer. -/
def smash (ptr d : Bytes) : Bytes := (d.take 10 ++ ptr ++ d.drop 18).take d.length

theorem put_data (h14 r ptr : Bytes) (hh : h14.length = 14) (hr : 18 ≤ r.length)
    (hp : ptr.length = 8) :
    put (h14 ++ r) 24 ptr = some (h14 ++ (r.take 10 ++ ptr ++ r.drop 18)) := by
  unfold put
  rw [if_pos (by simp only [List.length_append]; omega)]
  congr 1
  rw [List.take_append, List.take_of_length_le (by omega), List.drop_append,
    List.drop_eq_nil_of_le (by omega), List.nil_append, hh, hp]
  simp only [List.append_assoc]

theorem smash_take (ptr d rest : Bytes) (hp : ptr.length = 8) (hr : 18 ≤ (d ++ rest).length) :
    ((d ++ rest).take 10 ++ ptr ++ (d ++ rest).drop 18).take d.length = smash ptr d := by
  unfold smash
  apply List.ext_getElem?
  intro i
  by_cases hi : i < d.length
  · simp only [List.getElem?_take, hi, if_true]
    simp only [List.getElem?_append, List.length_append, List.length_take, List.getElem?_take,
      List.getElem?_drop, hp]
    simp only [List.length_append] at hr
    by_cases h10 : i < 10
    · have e1 : i < min 10 (d.length + rest.length) + 8 := by omega
      have e2 : i < min 10 (d.length + rest.length) := by omega
      have e3 : i < min 10 d.length + 8 := by omega
      have e4 : i < min 10 d.length := by omega
      simp [e1, e2, e3, e4, h10, hi]
    · have e0 : min 10 (d.length + rest.length) = 10 := by omega
      have e0' : min 10 d.length = 10 := by omega
      rw [e0, e0']
      by_cases h18 : i < 18
      · simp [h10, h18]
      · have e2 : 18 + (i - 18) < d.length := by omega
        simp [h10, h18, e2]
  · simp only [List.getElem?_take, hi, if_false]

theorem smash_length (ptr d : Bytes) (hp : ptr.length = 8) : (smash ptr d).length = d.length := by
  unfold smash
  simp only [List.length_take, List.length_append, List.length_drop, hp]
  omega

theorem smash_short (ptr d : Bytes) (h : d.length ≤ 10) : smash ptr d = d := by
  unfold smash
  rw [List.take_of_length_le (by omega : d.length ≤ 10), List.append_assoc, List.take_left']
  rfl

theorem get_of_take {r : Bytes} {n : Nat} {d : Bytes} (h : r.take n = d) (hn : d.length = n)
    (off k : Nat) (hk : off + k ≤ n) : get r off k = some ((d.drop off).take k) := by
  have : n ≤ r.length := by
    rw [← h, List.length_take] at hn; omega
  unfold get
  rw [if_pos (by omega), ← h, List.drop_take, List.take_take]
  congr 2
  omega

/-- What recovery reads of an element: the bytes of the element with the item pointer stored over
bytes 10 to 17. -/
theorem snapElem_apply (x : Elem) (hx : GoodSnapElem x) (c : Clock) (rs : Nat → Nat)
    (buf b slack ptr : Bytes) (hb : buf.length = 8 + (construct c rs x.op).bodyLen)
    (hw : write rs (construct c rs x.op) buf = some b) (hp : ptr.length = 8)
    (hs : 32 ≤ b.length + slack.length) :
    applySnapElem x.ittype ptr (b ++ slack) =
      some (.snapElem x.ittype ((smash ptr x.bytes).take x.ekey.length)
        (((smash ptr x.bytes).drop x.ekey.length).take x.eflag.length)
        ((smash ptr x.bytes).drop (x.ekey.length + x.eflag.length))) := by
  have hv := hx.value
  have hbl : x.bytes.length = x.ekey.length + x.eflag.length + x.value.length := by
    simp [Elem.bytes]; omega
  -- facts on the kind
  have hk : snapKeyLen x.ittype x.nekey x.eflag.length = x.ekey.length + x.eflag.length ∧
      x.ekey.length ≤ 250 ∧ x.eflag.length ≤ 31 ∧
      ((x.ittype = 3 ∨ x.ittype = 4) → x.nekey < 256) := by
    rcases hx.kind with ⟨h1, h2, h3⟩ | ⟨h1, h2, h3, h4⟩ | ⟨h1, h2, h3⟩
    · rw [h2, h3]
      refine ⟨?_, by simp, by simp, by omega⟩
      unfold snapKeyLen
      rw [if_neg (by omega), if_neg (by omega)]
      rfl
    · rw [h4]
      refine ⟨?_, by omega, by simp, by omega⟩
      unfold snapKeyLen
      rw [if_pos h1]; simp [h2]
    · have h5 : realNbkey x.nekey = x.ekey.length ∧ x.ekey.length ≤ 31 ∧ x.nekey ≤ 31 := by
        unfold GoodBKey at h2
        simp only at h2
        unfold realNbkey
        split <;> omega
      refine ⟨?_, by omega, h3, by omega⟩
      unfold snapKeyLen
      rw [if_neg (by omega), if_pos h1]
      omega
  obtain ⟨hkl, hek, hef, hnk⟩ := hk
  have hcon : construct c rs x.op =
    conSnapElem rs x.ittype x.nekey x.eflag.length x.bytes x.value.length := rfl
  rw [hcon] at hb hw
  have htake : x.bytes.take (x.value.length + snapKeyLen x.ittype x.nekey x.eflag.length) = x.bytes := by
    apply List.take_of_length_le; omega
  have hflat : flat (conSnapElem rs x.ittype x.nekey x.eflag.length x.bytes x.value.length).pieces =
      x.bytes := by
    simp only [conSnapElem, flat, List.flatMap_cons, List.flatMap_nil, List.append_nil]
    exact htake
  have hbody : (conSnapElem rs x.ittype x.nekey x.eflag.length x.bytes x.value.length).body.length =
      6 := by
    simp only [conSnapElem, List.length_append, le_length]
    split <;> split <;> simp [le_length]
  obtain ⟨pad, hw', hlen⟩ := write_eq rs
    (conSnapElem rs x.ittype x.nekey x.eflag.length x.bytes x.value.length) buf
    (by simp only [conSnapElem, List.mem_singleton]; rintro p rfl; simp only; omega)
    (by
      rw [hflat, hbody]
      have : (conSnapElem rs x.ittype x.nekey x.eflag.length x.bytes x.value.length).bodyLen =
        align8 (6 + (x.value.length + snapKeyLen x.ittype x.nekey x.eflag.length)) := rfl
      rw [this]
      have := align8_ge (6 + (x.value.length + snapKeyLen x.ittype x.nekey x.eflag.length))
      omega) hb
  rw [hw, hflat] at hw'
  have hw' := Option.some.inj hw'
  generalize hh : hdrImage rs (conSnapElem rs x.ittype x.nekey x.eflag.length x.bytes x.value.length)
    = hd at hw' hlen
  generalize hbb : (conSnapElem rs x.ittype x.nekey x.eflag.length x.bytes x.value.length).body
    = bd at hw' hlen hbody
  have hdl : hd.length = 8 := by rw [← hh]; exact hdr_length _ _
  have hbs : b ++ slack = (hd ++ bd) ++ (x.bytes ++ (pad ++ slack)) := by
    rw [hw']; simp only [List.append_assoc]
  have hlen2 : (x.bytes ++ (pad ++ slack)).length = b.length + slack.length - 14 := by
    have := congrArg List.length hbs
    simp only [List.length_append] at this ⊢
    omega
  unfold applySnapElem setItem
  rw [hbs, put_data (hd ++ bd) _ ptr (by rw [List.length_append]; omega) (by omega) hp]
  simp only
  -- the fields of the body
  have hn : fld ((hd ++ bd) ++ ((x.bytes ++ (pad ++ slack)).take 10 ++ ptr ++
      (x.bytes ++ (pad ++ slack)).drop 18)) 8 4 = some x.value.length := by
    rw [List.append_assoc, fld_skip _ _ _ _ (by omega), hdl, ← hbb]
    simp only [conSnapElem, List.append_assoc]
    exact f4 _ _ (by omega)
  have hke : ∃ ke, fld ((hd ++ bd) ++ ((x.bytes ++ (pad ++ slack)).take 10 ++ ptr ++
      (x.bytes ++ (pad ++ slack)).drop 18)) 12 1 = some ke ∧
      ((x.ittype = 3 ∨ x.ittype = 4) → ke = x.nekey) := by
    rw [List.append_assoc, fld_skip _ _ _ _ (by omega), hdl, ← hbb]
    simp only [conSnapElem, List.append_assoc]
    rw [fld_skip_le _ _ _ _ _ (by omega)]
    split
    · rename_i h34
      exact ⟨x.nekey, by rw [f1 _ _ (hnk h34)], fun _ => rfl⟩
    · rename_i h34
      refine ⟨rs 12, ?_, fun h => absurd h h34⟩
      simp [fld, get, unle]
  have hne : ∃ ne, fld ((hd ++ bd) ++ ((x.bytes ++ (pad ++ slack)).take 10 ++ ptr ++
      (x.bytes ++ (pad ++ slack)).drop 18)) 13 1 = some ne ∧
      (x.ittype = 4 → ne = x.eflag.length) := by
    rw [List.append_assoc, fld_skip _ _ _ _ (by omega), hdl, ← hbb]
    simp only [conSnapElem, List.append_assoc]
    rw [fld_skip_le _ _ _ _ _ (by omega), fld_skip _ _ _ _ (by split <;> simp [le_length])]
    have : (if x.ittype = 3 ∨ x.ittype = 4 then le 1 x.nekey else [rs 12]).length = 1 := by
      split <;> simp [le_length]
    rw [this]
    split
    · exact ⟨x.eflag.length, by rw [f1 _ _ (by omega)], fun _ => rfl⟩
    · rename_i h4
      refine ⟨rs 13, ?_, fun h => absurd h h4⟩
      simp [fld, get, unle]
  obtain ⟨ke, hke1, hke2⟩ := hke
  obtain ⟨ne, hne1, hne2⟩ := hne
  have hdrop : ((hd ++ bd) ++ ((x.bytes ++ (pad ++ slack)).take 10 ++ ptr ++
      (x.bytes ++ (pad ++ slack)).drop 18)).drop 14 =
      (x.bytes ++ (pad ++ slack)).take 10 ++ ptr ++ (x.bytes ++ (pad ++ slack)).drop 18 := by
    rw [List.drop_append, List.drop_eq_nil_of_le (by rw [List.length_append]; omega),
      List.nil_append, List.length_append, hdl, hbody]
    rfl
  have hsm := smash_take ptr x.bytes (pad ++ slack) hp (by omega)
  have hsl := smash_length ptr x.bytes hp
  unfold redoSnapElem
  rw [hn, hke1, hne1]
  simp only [Option.bind_eq_bind, Option.bind_some, hdrop]
  generalize (x.bytes ++ (pad ++ slack)).take 10 ++ ptr ++ (x.bytes ++ (pad ++ slack)).drop 18 = r
    at hsm ⊢
  have hg := get_of_take hsm hsl
  rcases hx.kind with ⟨h1, h2, h3⟩ | ⟨h1, h2, h3, h4⟩ | ⟨h1, h2, h3⟩
  · rw [if_pos h1, hg 0 x.value.length (by omega)]
    have e : (smash ptr x.bytes).take x.value.length = smash ptr x.bytes := by
      apply List.take_of_length_le
      rw [hsl, hbl, h2, h3]; simp
    simp [h2, h3, e]
  · rw [if_neg (by omega), if_pos h1, hke2 (Or.inl h1), h2, hg 0 _ (by omega)]
    simp only [Option.bind_some]
    rw [hg _ _ (by omega)]
    have e : ((smash ptr x.bytes).drop x.ekey.length).take x.value.length =
        (smash ptr x.bytes).drop x.ekey.length := by
      apply List.take_of_length_le
      rw [List.length_drop, hsl, hbl, h4]; simp
    simp [h4, e]
  · have h5 : realNbkey x.nekey = x.ekey.length := by
      unfold GoodBKey at h2
      simp only at h2
      unfold realNbkey
      split <;> omega
    rw [if_neg (by omega), if_neg (by omega), if_pos h1, hke2 (Or.inr h1), h5, hne2 h1,
      hg 0 _ (by omega)]
    simp only [Option.bind_some]
    rw [hg _ _ (by omega)]
    simp only [Option.bind_some]
    rw [hg _ _ (by omega)]
    have e : ((smash ptr x.bytes).drop (x.ekey.length + x.eflag.length)).take x.value.length =
        (smash ptr x.bytes).drop (x.ekey.length + x.eflag.length) := by
      apply List.take_of_length_le
      rw [List.length_drop, hsl, hbl]; omega
    simp [e]

end Verif.Log
