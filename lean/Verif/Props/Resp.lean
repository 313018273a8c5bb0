import Verif.Lemmas.RespCmd
import Verif.Model.KeyBlocks
/-!
# Properties of ASCII replies (C95-C98)
-/
namespace Verif.Resp.Props
open Verif.BT (BKey)
open Verif.Resp.Spec

/-! ## C95: the reply to `get`, `gets`, `mget`, `mgets` -/

/-- **C95.**  The client reads exactly the items that were hit, in order, with key, flags, every byte of the data, and the cas for `gets`; what follows
on the connection is not touched.  The suffix buffers suffice. -/
theorem C95 (cas : Bool) (its : List Item) (xs : List Hit) (h : Each (StoredI cas) its xs) :
    ∃ ps, getReply cas its = some ps ∧ ∀ k, its.length < k → ∀ rest, gets k (ps.flatten ++ rest) = some (xs, rest) := by
  obtain ⟨ps, e, t⟩ := getReply_eq h
  refine ⟨ps, e, fun k hk rest => ?_⟩
  rw [t]
  exact gets_read h k hk rest

/-- Key "a", flags 7, cas 9; the data is `END\r\n` in two pieces; and key "b" with no data. -/
example : ∃ its xs, Each (StoredI true) its xs ∧ xs = [([97], 7, [69, 78, 68, 13, 10], some 9), ([98], 0, [], some 4294967296)] :=
  ⟨[⟨[97], 7, 9, 7, [69, 78], [[68, 13, 10], [13, 10]]⟩, ⟨[98], 0, 4294967296, 2, [13, 10], []⟩], _,
    .cons ⟨rfl, rfl, rfl, rfl, rfl, by decide, by decide, by decide, by decide⟩
      (.cons ⟨rfl, rfl, rfl, rfl, rfl, by decide, by decide, by decide, by decide⟩ .nil), rfl⟩

/-- The longest suffix: 10 digits of flags and 9 of the length, 20 digits of cas. -/
example : suffix (suffixText ⟨[97], 4294967295, 0, 134217728, [], []⟩) 23 ≠ none ∧
    suffix ([32] ++ Verif.Util.showNat 18446744073709551615 ++ [13, 10]) 23 ≠ none := by decide +kernel

/-! ## C96: replies with elements -/

/-- **C96**, part: `lop get` and `sop get`. -/
theorem C96_partial_lop (mem : List Nat) (delete dropped : Bool) (flags : Nat) (es : List Elem) (ds : List LElem) (h : Each DataOk es ds)
    (hn : es.length ≤ 1000000) (hf : flags < 2 ^ 32) (hm : mem.length = lopSize es.length) :
    ∃ s, lopGet mem delete dropped flags es = some s ∧ ∀ r, values sized (s.text ++ r) = some ((flags, ds, tailOf delete dropped false), r) := by
  obtain ⟨s, e, t⟩ := lopGet_ok (mem := mem) (delete := delete) (dropped := dropped) (each_forall (fun _ b h => ⟨b, h⟩) h) hn hf hm
  refine ⟨s, e, fun r => ?_⟩
  rw [t, tailText_eq]
  exact values_read (fun a b r h => lelem_read h) h flags (tail_ok delete dropped false r).1

/-- **C96**, part: `mop get`. -/
theorem C96_partial_mop (mem : List Nat) (delete dropped : Bool) (flags : Nat) (es : List Elem) (xs : List MElem) (h : Each StoredM es xs)
    (hn : es.length ≤ 1000000) (hf : flags < 2 ^ 32) (hm : mem.length = mopSize es.length) :
    ∃ s, mopGet mem delete dropped flags es = some s ∧ ∀ r, values melem (s.text ++ r) = some ((flags, xs, tailOf delete dropped false), r) := by
  obtain ⟨s, e, t⟩ := mopGet_ok (mem := mem) (delete := delete) (dropped := dropped) (each_forall (fun _ b h => ⟨b, h⟩) h) hn hf hm
  refine ⟨s, e, fun r => ?_⟩
  rw [t, tailText_eq]
  exact values_read (fun a b r h => melem_read h) h flags (tail_ok delete dropped false r).1

/-- **C96**, part: `bop get`. -/
theorem C96_partial_bop (mem : List Nat) (delete dropped trimmed : Bool) (flags : Nat) (es : List Elem) (xs : List BElem) (h : Each Stored es xs)
    (hn : es.length ≤ 1000000) (hf : flags < 2 ^ 32) (hm : mem.length = bopSize es.length) :
    ∃ s, bopGet mem delete dropped trimmed flags es = some s ∧
      ∀ r, values belem (s.text ++ r) = some ((flags, xs, tailOf delete dropped trimmed), r) := by
  obtain ⟨s, e, t⟩ := bopGet_ok (mem := mem) (delete := delete) (dropped := dropped) (trimmed := trimmed)
    (each_forall (fun _ b h => ⟨b, h⟩) h) hn hf hm
  refine ⟨s, e, fun r => ?_⟩
  rw [t]
  exact values_read (fun a b r h => belem_read h) h flags (tail_ok delete dropped trimmed r).1

/-- **C96**, part: `bop gbp`. -/
theorem C96_partial_gbp (mem : List Nat) (flags : Nat) (es : List Elem) (xs : List BElem) (h : Each Stored es xs)
    (hn : es.length ≤ 1000000) (hf : flags < 2 ^ 32) (hm : mem.length = bopSize es.length) :
    ∃ s, bopGbp mem flags es = some s ∧ ∀ r, values belem (s.text ++ r) = some ((flags, xs, .fin), r) := by
  obtain ⟨s, e, t⟩ := bopGbp_ok (mem := mem) (each_forall (fun _ b h => ⟨b, h⟩) h) hn hf hm
  refine ⟨s, e, fun r => ?_⟩
  rw [t]
  exact values_read (fun a b r h => belem_read h) h flags (last_end r)

/-- **C96**, part: `bop pwg`: position, flags, the index of the element among the returned ones, elements. -/
theorem C96_partial_pwg (mem : List Nat) (pos flags idx : Nat) (es : List Elem) (xs : List BElem) (h : Each Stored es xs)
    (hn : es.length ≤ 1000000) (hp : pos < 2 ^ 31) (hf : flags < 2 ^ 32) (hi : idx < 2 ^ 32) (hm : mem.length = pwgSize es.length) :
    ∃ s, bopPwg mem pos flags idx es = some s ∧ ∀ r, pwg (s.text ++ r) = some ((pos, flags, idx, xs, .fin), r) := by
  obtain ⟨s, e, t⟩ := bopPwg_ok (mem := mem) (each_forall (fun _ b h => ⟨b, h⟩) h) hn hp hf hi hm
  refine ⟨s, e, fun r => ?_⟩
  rw [t]
  exact pwg_read h pos flags idx r

/-- **C96**, part: the element that an insertion trimmed. -/
theorem C96_partial_trim (mem : List Nat) (flags : Nat) (e : Elem) (x : BElem) (h : Stored e x) (hf : flags < 2 ^ 32) (hm : mem.length = trimSize) :
    ∃ s, bopTrim mem flags e = some s ∧ ∀ r, values belem (s.text ++ r) = some ((flags, [x], .trimmed), r) := by
  obtain ⟨s, e1, t⟩ := bopTrim_ok (mem := mem) h hf hm
  refine ⟨s, e1, fun r => ?_⟩
  have := values_read (fun a b r h => belem_read h) (.cons h .nil : Each Stored [e] [x]) flags (last_trimmed r)
  rw [t]
  simpa using this

/-- **C96**, part: `bop mget`, for keys without blank and line feed. -/
theorem C96_partial_mget (mem : List Nat) (count : Nat) (rs : List (List Nat × Found)) (xs : List (List Nat × Ans)) (h : Each (StoredA count) rs xs)
    (hw : ∀ r ∈ rs, Word r.1) (ha : mgetAccepts rs.length count) (hm : mem.length = mgetSize rs.length count) :
    ∃ s, bopMget mem rs = some s ∧ ∀ k, rs.length < k → ∀ r, Spec.mget k (s.text ++ r) = some (xs, r) := by
  simp only [mgetAccepts, decide_eq_true_eq] at ha
  obtain ⟨s, e, t⟩ := bopMget_ok (mem := mem) (each_forall (fun _ b h => ⟨b, h⟩) h) ha.2.1 ha.2.2.2 ha.1 hm
  refine ⟨s, e, fun k hk r => ?_⟩
  rw [t]
  exact mget_read h hw k hk r

/-- **C96**, part: `bop smget` with a mode, for keys without blank and line feed. -/
theorem C96_partial_smget (mem : List Nat) (numkeys offset count : Nat) (r : SmRes) (x : Merged) (he : Each StoredS r.elems x.elems)
    (hm : Each StoredMiss r.missed x.missed) (ht : r.trimmed = x.trimmed) (hd : x.tail = if r.dup then .dup else .fin)
    (hb : ∀ t ∈ r.trimmed, BkeyOk t.2) (w1 : ∀ e ∈ r.elems, Word e.1) (w2 : ∀ e ∈ r.missed, Word e.1) (w3 : ∀ e ∈ r.trimmed, Word e.1)
    (hen : r.elems.length ≤ count) (hmn : r.missed.length ≤ numkeys) (htn : r.trimmed.length ≤ numkeys)
    (ha : smgetAccepts numkeys offset count) (hs : offset + count < 2 ^ 32) (hmem : smgetSize numkeys count = some mem.length) :
    ∃ s, smget mem (smgetPtr numkeys count) r = some s ∧ ∀ rest, Spec.smget (s.text ++ rest) = some (x, rest) := by
  simp only [smgetAccepts, decide_eq_true_eq, Nat.mod_eq_of_lt hs] at ha
  obtain ⟨s, e, t⟩ := smget_ok (mem := mem) (r := r) ha.2.1 (by omega) (each_forall (fun _ b h => ⟨b, h⟩) he) hb hen hmn htn hmem
  refine ⟨s, e, fun rest => ?_⟩
  rw [t]
  exact smget_read he hm ht hd hb w1 w2 w3 rest

/-- **C96**, part: `bop smget` without a mode, for keys without blank and line feed. -/
theorem C96_partial_smgetOld (mem : List Nat) (numkeys offset count : Nat) (es : List (List Nat × Nat × Elem)) (xs : List (List Nat × Nat × BElem))
    (missed : List (List Nat)) (trimmed dup : Bool) (he : Each StoredS es xs) (w1 : ∀ e ∈ es, Word e.1) (w2 : ∀ k ∈ missed, Word k)
    (hen : es.length ≤ offset + count) (hmn : missed.length ≤ numkeys) (ha : smgetAccepts numkeys offset count) (hs : offset + count < 2 ^ 32)
    (hm : mem.length = oldSize numkeys (offset + count)) :
    ∃ s, smgetOld mem (oldPtr numkeys (offset + count)) es missed trimmed dup = some s ∧
      ∀ rest, Spec.smgetOld (s.text ++ rest) = some ((xs, missed, tailOld trimmed dup), rest) := by
  simp only [smgetAccepts, decide_eq_true_eq, Nat.mod_eq_of_lt hs] at ha
  obtain ⟨s, e, t⟩ := smgetOld_ok (mem := mem) (missed := missed) (trimmed := trimmed) (dup := dup) ha.2.1 ha.2.2.2 (by omega)
    (each_forall (fun _ b h => ⟨b, h⟩) he) hen hmn hm
  refine ⟨s, e, fun rest => ?_⟩
  rw [t]
  exact smgetOld_read he w1 w2 rest

/-- **C96 is false in full.**  The keys of `bop mget` come in a block of data in which only blanks and commas separate; a key with a line end in it is
taken, and the reply repeats it. -/
theorem C96_false :
    Verif.Keys.request 8 6 1 5 false [List.replicate 8 0] [] [[97, 13, 10, 98, 13, 10]] = some (.ok [[97, 13, 10, 98]]) ∧
    ¬ ∀ (mem : List Nat) (count : Nat) (rs : List (List Nat × Found)) (xs : List (List Nat × Ans)), Each (StoredA count) rs xs →
      (∀ r ∈ rs, r.1 ≠ [] ∧ 32 ∉ r.1) → mgetAccepts rs.length count → mem.length = mgetSize rs.length count →
      ∃ s, bopMget mem rs = some s ∧ ∀ k, rs.length < k → ∀ r, Spec.mget k (s.text ++ r) = some (xs, r) := by
  refine ⟨by decide +kernel, fun h => ?_⟩
  obtain ⟨s, e, t⟩ := h (List.replicate 227 0) 1 [([97, 13, 10, 98], .noKey)] [([97, 13, 10, 98], .status [78, 79, 84, 95, 70, 79, 85, 78, 68])]
    (.cons ⟨rfl, .status rfl, by decide⟩ .nil) (by decide) (by decide) (by decide +kernel)
  have e' : (bopMget (List.replicate 227 0) [([97, 13, 10, 98], .noKey)]).map (fun s => (Spec.mget 2 (s.text ++ [])).isSome) = some false := by
    decide +kernel
  rw [e, Option.map_some, t 2 (by decide) []] at e'
  simp at e'

/-- Elements of a list: "\r\n" as data in two pieces, and no data. -/
example : Each DataOk [⟨.num 0, [], [], 4, [13], [[10, 13, 10]]⟩, ⟨.num 0, [], [], 2, [13, 10], []⟩] [[13, 10], []] :=
  .cons ⟨rfl, rfl, by decide⟩ (.cons ⟨rfl, rfl, by decide⟩ .nil)

/-- Elements of a map and of a b+tree: the longest bkey and element flag. -/
example : Each StoredM [⟨.num 0, [102, 49], [], 3, [120, 13, 10], []⟩] [([102, 49], [120])] ∧
    Each Stored [⟨.bin (List.replicate 31 255), [], List.replicate 31 171, 3, [120, 13, 10], []⟩, ⟨.num 18446744073709551615, [], [], 3, [120, 13, 10], []⟩]
      [(.bin (List.replicate 31 255), List.replicate 31 171, [120]), (.num 18446744073709551615, [], [120])] :=
  ⟨.cons ⟨rfl, ⟨rfl, rfl, by decide⟩, by decide, by decide⟩ .nil,
    .cons ⟨rfl, rfl, ⟨rfl, rfl, by decide⟩, by decide +kernel, by decide, by decide +kernel⟩
      (.cons ⟨rfl, rfl, ⟨rfl, rfl, by decide⟩, by decide +kernel, by decide, by decide⟩ .nil)⟩

/-- A hit with an element and a miss in `bop mget`. -/
example : Each (StoredA 50) [([97], .hit true 3 [⟨.num 5, [], [], 3, [120, 13, 10], []⟩]), ([98], .badType)]
      [([97], .hit true 3 [(.num 5, [], [120])]), ([98], .status [84, 89, 80, 69, 95, 77, 73, 83, 77, 65, 84, 67, 72])] ∧ mgetAccepts 2 50 :=
  ⟨.cons ⟨rfl, .hit (by decide) (.cons ⟨rfl, rfl, ⟨rfl, rfl, by decide⟩, (by decide : (5 : Nat) < 2 ^ 64), by decide, by decide⟩ .nil), by decide⟩
    (.cons ⟨rfl, .status rfl, by decide⟩ .nil), by decide⟩

/-- An element, a missed and a trimmed key in `bop smget`. -/
example : Each StoredS [([97], 3, ⟨.num 5, [], [], 3, [120, 13, 10], []⟩)] [([97], 3, (.num 5, [], [120]))] ∧
    Each StoredMiss [([98], .outOfRange)] [([98], [79, 85, 84, 95, 79, 70, 95, 82, 65, 78, 71, 69])] ∧ BkeyOk (.num 7) ∧ smgetAccepts 3 10 20 ∧
    smgetSize 3 20 = some 3803 :=
  ⟨.cons ⟨rfl, rfl, by decide, rfl, rfl, ⟨rfl, rfl, by decide⟩, (by decide : (5 : Nat) < 2 ^ 64), by decide, by decide⟩ .nil,
    .cons ⟨rfl, .inr (.inr rfl), rfl⟩ .nil, (by decide : (7 : Nat) < 2 ^ 64), by decide, by decide +kernel⟩

/-! ## C97: the reply buffers -/

/-- **C97**, part: replies about one collection. -/
theorem C97_partial_one (mem : List Nat) (delete dropped trimmed : Bool) (pos flags idx : Nat) (es : List Elem) (hn : es.length ≤ 1000000)
    (hp : pos < 2 ^ 31) (hf : flags < 2 ^ 32) (hi : idx < 2 ^ 32) :
    ((∀ e ∈ es, ∃ d, DataOk e d) → mem.length = lopSize es.length → lopGet mem delete dropped flags es ≠ none) ∧
    ((∀ e ∈ es, ∃ x, StoredM e x) → mem.length = mopSize es.length → mopGet mem delete dropped flags es ≠ none) ∧
    ((∀ e ∈ es, ∃ x, Stored e x) → (mem.length = bopSize es.length → bopGet mem delete dropped trimmed flags es ≠ none ∧ bopGbp mem flags es ≠ none) ∧
      (mem.length = pwgSize es.length → bopPwg mem pos flags idx es ≠ none) ∧ (mem.length = trimSize → ∀ e ∈ es, bopTrim mem flags e ≠ none)) := by
  refine ⟨fun h hm => ?_, fun h hm => ?_, fun h => ⟨fun hm => ⟨?_, ?_⟩, fun hm => ?_, fun hm e he => ?_⟩⟩
  · obtain ⟨s, e, _⟩ := lopGet_ok (delete := delete) (dropped := dropped) h hn hf hm; rw [e]; exact nofun
  · obtain ⟨s, e, _⟩ := mopGet_ok (delete := delete) (dropped := dropped) h hn hf hm; rw [e]; exact nofun
  · obtain ⟨s, e, _⟩ := bopGet_ok (delete := delete) (dropped := dropped) (trimmed := trimmed) h hn hf hm; rw [e]; exact nofun
  · obtain ⟨s, e, _⟩ := bopGbp_ok h hn hf hm; rw [e]; exact nofun
  · obtain ⟨s, e, _⟩ := bopPwg_ok h hn hp hf hi hm; rw [e]; exact nofun
  · obtain ⟨x, hx⟩ := h e he
    obtain ⟨s, e, _⟩ := bopTrim_ok hx hf hm; rw [e]; exact nofun

/-- **C97**, part: `bop mget`, with any keys. -/
theorem C97_partial_mget (mem : List Nat) (count : Nat) (rs : List (List Nat × Found)) (h : ∀ r ∈ rs, ∃ x, StoredA count r x)
    (ha : mgetAccepts rs.length count) (hm : mem.length = mgetSize rs.length count) : bopMget mem rs ≠ none := by
  simp only [mgetAccepts, decide_eq_true_eq] at ha
  obtain ⟨s, e, t⟩ := bopMget_ok (mem := mem) h ha.2.1 ha.2.2.2 ha.1 hm
  rw [e]; exact nofun

/-- **C97**, part: `bop smget` with a mode and without one, with any keys, if offset and count do not wrap around. -/
theorem C97_partial_smget (numkeys offset count : Nat) (r : SmRes) (he : ∀ x ∈ r.elems, ∃ y, StoredS x y) (hb : ∀ t ∈ r.trimmed, BkeyOk t.2)
    (hmn : r.missed.length ≤ numkeys) (htn : r.trimmed.length ≤ numkeys) (ha : smgetAccepts numkeys offset count) (hs : offset + count < 2 ^ 32) :
    (r.elems.length ≤ count → ∃ n, smgetSize numkeys count = some n ∧ ∀ mem : List Nat, mem.length = n → smget mem (smgetPtr numkeys count) r ≠ none) ∧
    (r.elems.length ≤ offset + count → ∀ mem : List Nat, mem.length = oldSize numkeys (offset + count) → ∀ trimmed,
      smgetOld mem (oldPtr numkeys (offset + count)) r.elems (r.missed.map (·.1)) trimmed r.dup ≠ none) := by
  simp only [smgetAccepts, decide_eq_true_eq, Nat.mod_eq_of_lt hs] at ha
  refine ⟨fun hen => ⟨_, smgetSize_eq ha.2.1 (by omega), fun mem hm => ?_⟩, fun hen mem hm trimmed => ?_⟩
  · obtain ⟨s, e, _⟩ := smget_ok (mem := mem) (r := r) ha.2.1 (by omega) he hb hen hmn htn (by rw [hm]; exact smgetSize_eq ha.2.1 (by omega))
    rw [e]; exact nofun
  · obtain ⟨s, e, _⟩ := smgetOld_ok (mem := mem) (missed := r.missed.map (·.1)) (trimmed := trimmed) (dup := r.dup) ha.2.1 ha.2.2.2 (by omega) he hen
      (by simpa using hmn) hm
    rw [e]; exact nofun

/-- **C97 is false in full.**  `offset + count` is computed in 32 bits: with 2^31 for both, `bop smget` is accepted; the sizes wrap around too, so that
the buffer has 161 bytes, and the text is written 34 GB behind. -/
theorem C97_false : ¬ ∀ (numkeys offset count : Nat) (r : SmRes), offset < 2 ^ 32 → count < 2 ^ 32 → (∀ x ∈ r.elems, ∃ y, StoredS x y) →
    (∀ t ∈ r.trimmed, BkeyOk t.2) → r.elems.length ≤ count → r.missed.length ≤ numkeys → r.trimmed.length ≤ numkeys →
    smgetAccepts numkeys offset count → ∃ n, smgetSize numkeys count = some n ∧ ∀ mem : List Nat, mem.length = n → smget mem (smgetPtr numkeys count) r ≠ none := by
  intro h
  obtain ⟨n, e, t⟩ := h 1 2147483648 2147483648 ⟨[], [([97], .noKey)], [], false⟩ (by decide) (by decide) (fun _ h => (by cases h)) (fun _ h => (by cases h))
    (by decide) (by decide) (by decide) (by decide +kernel)
  have e' : smgetSize 1 2147483648 = some 161 := by decide +kernel
  rw [e', Option.some.injEq] at e
  subst e
  refine t (List.replicate 161 0) List.length_replicate ?_
  have hw : sprintf (List.replicate 161 0) (smgetPtr 1 2147483648) (elementsText 0) = none := by
    rw [sprintf, write, List.length_replicate, if_neg (by decide +kernel)]
  have he : emit ⟨List.replicate 161 0, smgetPtr 1 2147483648, []⟩ (elementsText 0) = none := by
    simp only [emit, hw]; rfl
  simp only [smget, List.length_nil, he]; rfl

/-! ## C98: the reply to `getattr` -/

/-- **C98.**  The client reads the attributes asked for, in that order, with their values - all attributes of the type if none is named; the buffer of 1024
bytes and the array of 11 names suffice. -/
theorem C98 (mem : List Nat) (a : Attrs) (ids : List AttrId) (hn : ids.length ≤ 11)
    (ha : ∀ i ∈ (if 0 < ids.length then ids else allAttrs a), AttrOk a i) (hm : mem.length = 1024) :
    ∃ t, getattr mem a ids = some t ∧ ∀ k, 11 < k → ∀ rest,
      attrs k (t ++ rest) = some ((if 0 < ids.length then ids else allAttrs a).map (fun i => (i, attrOf a i)), rest) := by
  refine ⟨_, getattr_ok hn ha hm, fun k hk rest => attrs_read ha k ?_ rest⟩
  split
  · omega
  · unfold allAttrs; split <;> split <;> simp <;> omega

/-- A b+tree with elements and a range of 31 bytes; the same attribute asked for 11 times. -/
example : ∃ a : Attrs, (∀ i ∈ allAttrs a, AttrOk a i) ∧ (allAttrs a).length = 11 ∧
    ∃ t, getattr (List.replicate 1024 255) a (List.replicate 11 .maxrange) = some t ∧ t.length = 929 := by
  refine ⟨⟨4, 4294967295, -2147483648, 3, 4000, 6, true, some (.bin (List.replicate 31 7)), .num 1, .num 18446744073709551615, true⟩, ?_, by decide, ?_⟩
  · have hb : BkeyOk (.bin (List.replicate 31 7)) := by decide +kernel
    intro i _
    cases i with
    | maxrange => intro k hk; simp only [Option.some.injEq] at hk; subst hk; exact hb
    | minbkey => exact fun _ => (by decide : (1 : Nat) < 2 ^ 64)
    | maxbkey => exact fun _ => (by decide : (18446744073709551615 : Nat) < 2 ^ 64)
    | _ => simp only [AttrOk, Num32] <;> decide
  · refine ⟨_, getattr_ok (by decide) (fun i hi => ?_) List.length_replicate, by decide +kernel⟩
    have : i = .maxrange := by
      rw [if_pos (by decide)] at hi
      exact List.eq_of_mem_replicate hi
    subst this
    intro k hk
    simp only [Option.some.injEq] at hk
    subst hk
    show BkeyOk (.bin (List.replicate 31 7))
    decide +kernel

end Verif.Resp.Props
