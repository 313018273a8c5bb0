import Verif.Lemmas.BinLog

/-! Helper lemmas about the binary protocol: the bytes of a request and of an answer, and what is read from them. -/

namespace Verif.Bin

open Spec

theorem be_snoc (b : Bytes) (x : UInt8) : be (b ++ [x]) = be b * 256 + x.toNat := by
  unfold be; rw [List.foldl_append]; rfl

theorem toBe_length (n v : Nat) : (toBe n v).length = n := by
  induction n generalizing v with
  | zero => rfl
  | succ n ih => simp [toBe, ih]

theorem be_toBe (n v : Nat) (h : v < 256 ^ n) : be (toBe n v) = v := by
  induction n generalizing v with
  | zero => simp at h; subst h; rfl
  | succ n ih =>
    have h1 : v / 256 < 256 ^ n := by
      rw [Nat.pow_succ] at h
      exact Nat.div_lt_of_lt_mul (by rw [Nat.mul_comm]; exact h)
    rw [toBe, be_snoc, ih _ h1]
    have : (UInt8.ofNat (v % 256)).toNat = v % 256 := by simp
    rw [this]; omega

theorem slice_mid {a b c l : Bytes} {i n : Nat} (hl : l = a ++ (b ++ c)) (ha : a.length = i) (hb : b.length = n) : slice l i n = b := by
  subst hl; subst ha; subst hb
  unfold slice
  rw [List.drop_left, List.take_left]

theorem slice_append (a b : Bytes) (i n : Nat) (h : i + n ≤ a.length) : slice (a ++ b) i n = slice a i n := by
  unfold slice
  rw [List.drop_append_of_le_length (by omega), List.take_append_of_le_length (by simp; omega)]

theorem be_single (x : Nat) (h : x < 256) : be [UInt8.ofNat x] = x := by
  have := be_toBe 1 x (by simpa using h)
  simpa [toBe, Nat.mod_eq_of_lt h] using this

section
variable (op : Nat) (ext key value opq : Bytes) (vb cas : Nat) (rest : Bytes)

theorem encode_length (ho : opq.length = 4) :
    (encode op ext key value opq vb cas).length = 24 + ext.length + key.length + value.length := by
  simp [encode, toBe_length, ho]; omega

theorem hdrOf_encode (ho : opq.length = 4) (hop : op < 256) (hk : key.length < 2 ^ 16) (hx : ext.length < 256) (hv : vb < 2 ^ 16)
    (hb : ext.length + key.length + value.length < 2 ^ 32) (hc : cas < 2 ^ 64) :
    hdrOf (encode op ext key value opq vb cas ++ rest) =
      { magic := 0x80, opcode := op, keylen := key.length, extlen := ext.length, vbucket := vb,
        bodylen := ext.length + key.length + value.length, opq := opq, cas := cas } := by
  have t2 := toBe_length 2
  have t4 := toBe_length 4
  have t8 := toBe_length 8
  have e0 : slice (encode op ext key value opq vb cas ++ rest) 0 1 = [0x80] := by
    simp [encode, slice]
  have e1 : slice (encode op ext key value opq vb cas ++ rest) 1 1 = [UInt8.ofNat op] := by
    simp [encode, slice]
  have e2 : slice (encode op ext key value opq vb cas ++ rest) 2 2 = toBe 2 key.length :=
    slice_mid (a := [0x80, UInt8.ofNat op]) (c := [UInt8.ofNat ext.length, 0] ++ toBe 2 vb ++
      toBe 4 (ext.length + key.length + value.length) ++ opq ++ toBe 8 cas ++ ext ++ key ++ value ++ rest)
      (by simp [encode]) rfl (t2 _)
  have e4 : slice (encode op ext key value opq vb cas ++ rest) 4 1 = [UInt8.ofNat ext.length] :=
    slice_mid (a := [0x80, UInt8.ofNat op] ++ toBe 2 key.length) (c := [0] ++ toBe 2 vb ++
      toBe 4 (ext.length + key.length + value.length) ++ opq ++ toBe 8 cas ++ ext ++ key ++ value ++ rest)
      (by simp [encode]) (by simp [t2]) rfl
  have e6 : slice (encode op ext key value opq vb cas ++ rest) 6 2 = toBe 2 vb :=
    slice_mid (a := [0x80, UInt8.ofNat op] ++ toBe 2 key.length ++ [UInt8.ofNat ext.length, 0]) (c :=
      toBe 4 (ext.length + key.length + value.length) ++ opq ++ toBe 8 cas ++ ext ++ key ++ value ++ rest)
      (by simp [encode]) (by simp [t2]) (t2 _)
  have e8 : slice (encode op ext key value opq vb cas ++ rest) 8 4 = toBe 4 (ext.length + key.length + value.length) :=
    slice_mid (a := [0x80, UInt8.ofNat op] ++ toBe 2 key.length ++ [UInt8.ofNat ext.length, 0] ++ toBe 2 vb) (c :=
      opq ++ toBe 8 cas ++ ext ++ key ++ value ++ rest)
      (by simp [encode]) (by simp [t2]) (t4 _)
  have e12 : slice (encode op ext key value opq vb cas ++ rest) 12 4 = opq :=
    slice_mid (a := [0x80, UInt8.ofNat op] ++ toBe 2 key.length ++ [UInt8.ofNat ext.length, 0] ++ toBe 2 vb ++
      toBe 4 (ext.length + key.length + value.length)) (c := toBe 8 cas ++ ext ++ key ++ value ++ rest)
      (by simp [encode]) (by simp [t2, t4]) ho
  have e16 : slice (encode op ext key value opq vb cas ++ rest) 16 8 = toBe 8 cas :=
    slice_mid (a := [0x80, UInt8.ofNat op] ++ toBe 2 key.length ++ [UInt8.ofNat ext.length, 0] ++ toBe 2 vb ++
      toBe 4 (ext.length + key.length + value.length) ++ opq) (c := ext ++ key ++ value ++ rest)
      (by simp [encode]) (by simp [t2, t4, ho]) (t8 _)
  unfold hdrOf
  rw [e0, e1, e2, e4, e6, e8, e12, e16, be_single _ hop, be_single _ hx, be_toBe 2 _ (by omega), be_toBe 2 _ (by omega),
    be_toBe 4 _ (by omega), be_toBe 8 _ (by omega)]
  rfl

theorem ext_encode (ho : opq.length = 4) : slice (encode op ext key value opq vb cas ++ rest) 24 ext.length = ext :=
  slice_mid (a := [0x80, UInt8.ofNat op] ++ toBe 2 key.length ++ [UInt8.ofNat ext.length, 0] ++ toBe 2 vb ++
      toBe 4 (ext.length + key.length + value.length) ++ opq ++ toBe 8 cas) (c := key ++ value ++ rest)
      (by simp [encode]) (by simp [toBe_length, ho]) rfl

theorem key_encode (ho : opq.length = 4) : slice (encode op ext key value opq vb cas ++ rest) (24 + ext.length) key.length = key :=
  slice_mid (a := [0x80, UInt8.ofNat op] ++ toBe 2 key.length ++ [UInt8.ofNat ext.length, 0] ++ toBe 2 vb ++
      toBe 4 (ext.length + key.length + value.length) ++ opq ++ toBe 8 cas ++ ext) (c := value ++ rest)
      (by simp [encode]) (by simp [toBe_length, ho]; omega) rfl

theorem value_encode (ho : opq.length = 4) :
    slice (encode op ext key value opq vb cas ++ rest) (24 + key.length + ext.length) value.length = value :=
  slice_mid (a := [0x80, UInt8.ofNat op] ++ toBe 2 key.length ++ [UInt8.ofNat ext.length, 0] ++ toBe 2 vb ++
      toBe 4 (ext.length + key.length + value.length) ++ opq ++ toBe 8 cas ++ ext ++ key) (c := rest)
      (by simp [encode]) (by simp [toBe_length, ho]; omega) rfl

end

/-! ### A value that is stored and read -/

theorem handle_set {σ : Type} {e : Engine σ} {g : Cfg} {s : σ} {op exp vb : Nat} {flags key value opq rest : Bytes}
    (hop : op = 0x01 ∨ op = 0x11) (hf : flags.length = 4) (he : exp < 2 ^ 32) (hk0 : 0 < key.length) (hk : key.length ≤ keyMax)
    (hv : value.length ≤ maxVlen) (ho : opq.length = 4) (hvb : vb < 2 ^ 16) :
    ∃ q h, handle e g false s (encode op (flags ++ toBe 4 exp) key value opq vb 0 ++ rest) =
      (let r := e.call s (.alloc key (value.length + 2) flags exp 0)
       if r.2.code = .success then
         let w := e.call r.1 (.store .set key flags exp 0 (value ++ crlf) vb)
         conclude g h w.1 (32 + key.length + value.length) w.2.cas (response h .set q w.2.cas []) (storeAct .set w.2.code)
       else refuse g h (e.call r.1 (.remove key 0 vb)).1 (32 + key.length) value.length r.2.code) := by
  have hxl : (flags ++ toBe 4 exp).length = 8 := by simp [hf, toBe_length]
  have hh := hdrOf_encode op (flags ++ toBe 4 exp) key value opq vb 0 rest ho (by omega)
    (by simp only [keyMax] at hk; omega) (by omega) hvb (by simp only [keyMax, maxVlen] at *; omega) (by omega)
  have hc : (cmdOf g.sasl op).1 = .set := by rcases hop with h | h <;> subst h <;> rfl
  have hlen := encode_length op (flags ++ toBe 4 exp) key value opq vb 0 ho
  have hx := ext_encode op (flags ++ toBe 4 exp) key value opq vb 0 rest ho
  have hky := key_encode op (flags ++ toBe 4 exp) key value opq vb 0 rest ho
  have hva := value_encode op (flags ++ toBe 4 exp) key value opq vb 0 rest ho
  rw [hxl] at hh hlen hx hky hva
  refine ⟨(cmdOf g.sasl op).2, ⟨0x80, op, key.length, 8, vb, 8 + key.length + value.length, opq, 0⟩, ?_⟩
  · unfold handle
    simp only [hh, hc, hdrLen, hx, hky]
    have ha : accepts .set ⟨0x80, op, key.length, 8, vb, 8 + key.length + value.length, opq, 0⟩ = true := by
      simp [accepts]; refine ⟨?_, by omega⟩
      intro hh; rw [hh] at hk0; simp at hk0
    simp only [ha, Bool.false_eq_true, if_false]
    rw [if_neg (by omega), if_neg (by simp), if_neg (by simp only [chunkOf, List.length_append]; omega)]
    unfold doUpdate
    simp only [hdrLen]
    rw [if_neg (by omega)]
    have hvl : 8 + key.length + value.length - (key.length + 8) = value.length := by omega
    simp only [hvl]
    rw [if_neg (by omega)]
    have hfl : updFlags .set (flags ++ toBe 4 exp) = flags := by
      simp only [updFlags, reduceCtorEq, or_self, if_false]
      exact slice_mid (a := []) (c := toBe 4 exp) (by simp) rfl hf
    have hex : updExp .set (flags ++ toBe 4 exp) = exp := by
      simp only [updExp, reduceCtorEq, or_self, if_false]
      rw [slice_mid (a := flags) (b := toBe 4 exp) (c := []) (by simp) hf (toBe_length 4 _), be_toBe 4 _ (by omega)]
    simp only [hfl, hex, storeOpOf, if_true, hva]
    have hn : ¬ (encode op (flags ++ toBe 4 exp) key value opq vb 0 ++ rest).length < 24 + key.length + 8 + value.length := by
      simp only [List.length_append, hlen]; omega
    simp only [if_neg hn]
    have h24 : 24 + key.length + 8 = 32 + key.length := by omega
    simp only [h24]

theorem handle_get {σ : Type} {e : Engine σ} {g : Cfg} {s : σ} {op vb : Nat} {flags key value opq rest : Bytes}
    (hop : op = 0x00 ∨ op = 0x09 ∨ op = 0x0c ∨ op = 0x0d) (hk0 : 0 < key.length) (hk : key.length ≤ keyMax)
    (ho : opq.length = 4) (hvb : vb < 2 ^ 16) (h1 : (e.call s (.get key vb)).2.code = .success)
    (h2 : (e.call s (.get key vb)).2.flags = flags) (h3 : (e.call s (.get key vb)).2.data = value ++ crlf) :
    ∃ o r, handle e g false s (encode op [] key [] opq vb 0 ++ rest) = .done o ∧ o.used = 24 + key.length ∧ o.next = .newCmd ∧
      o.resps = [r] ∧ r.status = 0 ∧ r.opq = opq ∧ r.opcode = op ∧ r.extlen = 4 ∧
      r.keylen = (if op = 0x0c ∨ op = 0x0d then key.length else 0) ∧
      r.body = flags ++ (if op = 0x0c ∨ op = 0x0d then key else []) ++ value := by
  have hh := hdrOf_encode op [] key [] opq vb 0 rest ho (by omega)
    (by simp only [keyMax] at hk; omega) (by simp) hvb (by simp only [keyMax, List.length_nil] at *; omega) (by omega)
  have hlen := encode_length op [] key [] opq vb 0 ho
  have hky := key_encode op [] key [] opq vb 0 rest ho
  simp only [List.length_nil, Nat.add_zero, Nat.zero_add] at hh hlen hky
  have hne : key.length ≠ 0 := by omega
  unfold handle
  simp only [hh, hdrLen, Nat.add_zero, hky]
  rcases hop with h | h | h | h <;> subst h <;>
    simp only [cmdOf, accepts, Bool.false_eq_true, if_false, beq_self_eq_true, Bool.true_and, decide_eq_true hk0, Bool.true_eq_false,
      chunkOf, List.length_append, Nat.add_zero] <;>
    rw [if_neg (by omega), if_neg (by omega)] <;>
    simp [doGet, h1, h2, h3, getAct, mkResp, crlf, hdrLen]

/-! ### Answers with several elements -/

theorem toBe_flat_length (l : List Bytes) (f : Bytes → Nat) : (l.flatMap (fun v => toBe 4 (f v))).length = 4 * l.length := by
  induction l with
  | nil => rfl
  | cons v l ih => simp only [List.flatMap_cons, List.length_append, toBe_length, ih, List.length_cons]; omega

theorem splitNums_flat (l : List Bytes) (f : Bytes → Nat) (rest : Bytes) (h : ∀ v ∈ l, f v < 2 ^ 32) :
    splitNums l.length (l.flatMap (fun v => toBe 4 (f v)) ++ rest) = l.map f := by
  induction l with
  | nil => rfl
  | cons v l ih =>
    have h1 : toBe 4 (f v) ++ (l.flatMap (fun v => toBe 4 (f v)) ++ rest) = toBe 4 (f v) ++ (l.flatMap (fun v => toBe 4 (f v)) ++ rest) := rfl
    simp only [List.flatMap_cons, List.length_cons, splitNums, List.append_assoc, List.map_cons]
    have hl := toBe_length 4 (f v)
    rw [List.take_left' hl, List.drop_left' hl, be_toBe 4 _ (by have := h v (by simp); omega), ih (fun v hv => h v (by simp [hv]))]

theorem splitVals_flat (l : List Bytes) (f : Bytes → Bytes) : splitVals (l.map fun v => (f v).length) (l.flatMap f) = l.map f := by
  induction l with
  | nil => rfl
  | cons v l ih =>
    simp only [List.map_cons, splitVals, List.flatMap_cons]
    rw [List.take_left, List.drop_left, ih]

theorem decode_elems {c : Cmd} {r : Ret} (hc : c = .lopGet ∨ c = .sopGet) (hf : r.flags.length = 4) (hn : r.vals.length < 2 ^ 32)
    (hv : ∀ v ∈ r.vals, v.length - 2 < 2 ^ 32) :
    decodeElems (collBody c r) = (r.flags, r.vals.map fun v => v.take (v.length - 2)) := by
  have hb : collBody c r = r.flags ++ (toBe 4 r.vals.length ++ (r.vals.flatMap (fun v => toBe 4 (v.length - 2)) ++
      r.vals.flatMap (fun v => v.take (v.length - 2)))) := by
    rcases hc with h | h <;> subst h <;> simp [collBody]
  have h4 := toBe_length 4 r.vals.length
  have e1 : slice (collBody c r) 4 4 = toBe 4 r.vals.length := slice_mid hb hf h4
  have e2 : be (slice (collBody c r) 4 4) = r.vals.length := by rw [e1, be_toBe 4 _ (by omega)]
  have e3 : (collBody c r).take 4 = r.flags := by rw [hb]; exact List.take_left' hf
  have e4 : (collBody c r).drop 8 = r.vals.flatMap (fun v => toBe 4 (v.length - 2)) ++ r.vals.flatMap (fun v => v.take (v.length - 2)) := by
    rw [hb, ← List.append_assoc]
    exact List.drop_left' (by simp [hf, h4])
  have e5 : (collBody c r).drop (8 + 4 * r.vals.length) = r.vals.flatMap (fun v => v.take (v.length - 2)) := by
    rw [← List.drop_drop, e4]
    exact List.drop_left' (toBe_flat_length _ _)
  unfold decodeElems
  simp only [e2, e3, e4, e5]
  rw [splitNums_flat r.vals (fun v => v.length - 2) _ hv]
  have hm : r.vals.map (fun v => v.length - 2) = r.vals.map (fun v => (v.take (v.length - 2)).length) := by
    apply List.map_congr_left
    intro v _
    simp only [List.length_take]; omega
  rw [hm, splitVals_flat r.vals (fun v => v.take (v.length - 2))]

end Verif.Bin
