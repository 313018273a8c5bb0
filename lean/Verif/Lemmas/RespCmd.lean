import Verif.Lemmas.RespGet
/-!
# Every reply fits into its buffer and has its text
-/
namespace Verif.Resp
open Verif.Util (showNat safeHexatostr showNat_spec hexDigit)
open Verif.BT (BKey)
open Verif.Resp.Spec

theorem tail_ok (delete dropped trimmed : Bool) (r : List Nat) :
    last (bopTail delete dropped trimmed ++ r) = some (tailOf delete dropped trimmed, r) ∧ 0 ∉ bopTail delete dropped trimmed ∧
      (bopTail delete dropped trimmed).length ≤ 17 := by
  cases delete <;> cases dropped <;> cases trimmed <;> exact ⟨rfl, by decide, by decide⟩

theorem tailText_eq (delete dropped : Bool) : tailText delete dropped = bopTail delete dropped false := by
  cases delete <;> cases dropped <;> rfl

theorem count_lt {n : Nat} (h : n ≤ 1000000) : n < 2 ^ 32 := Nat.lt_of_le_of_lt h (by decide)

theorem lopGet_ok {mem : List Nat} {delete dropped : Bool} {flags : Nat} {es : List Elem} (hes : ∀ e ∈ es, ∃ d, DataOk e d) (hn : es.length ≤ 1000000)
    (hf : flags < 2 ^ 32) (hm : mem.length = lopSize es.length) :
    ∃ s, lopGet mem delete dropped flags es = some s ∧ s.text = headText flags es.length ++ es.flatMap lopAll ++ tailText delete dropped := by
  have hm : mem.length = 50 + es.length * 12 := by rw [hm, lopSize, u32Len, Nat.mod_eq_of_lt (by omega)]
  have hh := headText_len hf (count_lt hn)
  obtain ⟨s1, e1, o1, l1, p1⟩ := reply_ok (f := lopElem) (c := 6)
    (fun s t e (he : ∃ d, DataOk e d) h hr => lopElem_ok s t e (by obtain ⟨d, he⟩ := he; exact lopText_len he) h hr)
    (headText_nz flags es.length) hes (mem := mem) (by omega)
  obtain ⟨_, z, l⟩ := tail_ok delete dropped false []
  rw [tailText_eq]
  obtain ⟨s2, e2, t2⟩ := emitLast_ok o1 (w := bopTail delete dropped false) (by omega) z
  refine ⟨s2, ?_, t2⟩
  simp only [lopGet, ← tailText_eq] at *
  rw [← e2, ← Option.bind_some (f := fun s => emitLast s (tailText delete dropped)), ← e1]
  simp [Option.bind_assoc]

theorem mopGet_ok {mem : List Nat} {delete dropped : Bool} {flags : Nat} {es : List Elem} (hes : ∀ e ∈ es, ∃ x, StoredM e x) (hn : es.length ≤ 1000000)
    (hf : flags < 2 ^ 32) (hm : mem.length = mopSize es.length) :
    ∃ s, mopGet mem delete dropped flags es = some s ∧ s.text = headText flags es.length ++ es.flatMap mopAll ++ tailText delete dropped := by
  have hm : mem.length = 50 + es.length * 264 := by rw [hm, mopSize, u32Len, fieldMax, Nat.mod_eq_of_lt (by omega)]
  have hh := headText_len hf (count_lt hn)
  obtain ⟨s1, e1, o1, l1, p1⟩ := reply_ok (f := mopElem) (c := 257)
    (fun s t e (he : ∃ x, StoredM e x) h hr => mopElem_ok s t e (by obtain ⟨x, he⟩ := he; rw [he.1]; exact he.2.2.1.1)
      (by obtain ⟨x, he⟩ := he; exact mopText_len he) h hr)
    (headText_nz flags es.length) hes (mem := mem) (by omega)
  obtain ⟨_, z, l⟩ := tail_ok delete dropped false []
  rw [tailText_eq]
  obtain ⟨s2, e2, t2⟩ := emitLast_ok o1 (w := bopTail delete dropped false) (by omega) z
  refine ⟨s2, ?_, t2⟩
  simp only [mopGet, ← tailText_eq] at *
  rw [← e2, ← Option.bind_some (f := fun s => emitLast s (tailText delete dropped)), ← e1]
  simp [Option.bind_assoc]

theorem bop_ok {mem hd : List Nat} {es : List Elem} (hes : ∀ e ∈ es, ∃ x, Stored e x) (hz : 0 ∉ hd)
    (hm : hd.length + es.length * 136 + 18 ≤ mem.length) :
    ∃ s, (do let s ← emit ⟨mem, 0, []⟩ hd; each bopElem0 s es) = some s ∧ Ok s (hd ++ es.flatMap bopAll) ∧ s.ptr + 18 ≤ s.mem.length := by
  obtain ⟨s1, e1, o1, l1, p1⟩ := reply_ok (f := bopElem0) (c := 136)
    (fun s t e (he : ∃ x, Stored e x) h hr => bopElem0_ok s t e (by obtain ⟨x, he⟩ := he; exact bopText_len he) h hr)
    hz hes (mem := mem) (by omega)
  exact ⟨s1, e1, o1, by omega⟩

theorem bopSize_eq {n : Nat} (h : n ≤ 1000000) : bopSize n = 50 + n * 141 := by
  rw [bopSize, u32Len, bkeyMax, Nat.mod_eq_of_lt (by omega)]

theorem pwgSize_eq {n : Nat} (h : n ≤ 1000000) : pwgSize n = 70 + n * 141 := by
  rw [pwgSize, u32Len, bkeyMax, Nat.mod_eq_of_lt (by omega)]

theorem bopGet_ok {mem : List Nat} {delete dropped trimmed : Bool} {flags : Nat} {es : List Elem} (hes : ∀ e ∈ es, ∃ x, Stored e x) (hn : es.length ≤ 1000000)
    (hf : flags < 2 ^ 32) (hm : mem.length = bopSize es.length) :
    ∃ s, bopGet mem delete dropped trimmed flags es = some s ∧
      s.text = headText flags es.length ++ es.flatMap bopAll ++ bopTail delete dropped trimmed := by
  rw [bopSize_eq hn] at hm
  have hh := headText_len hf (count_lt hn)
  obtain ⟨s1, e1, o1, l1⟩ := bop_ok (mem := mem) hes (headText_nz flags es.length) (by omega)
  obtain ⟨_, z, l⟩ := tail_ok delete dropped trimmed []
  obtain ⟨s2, e2, t2⟩ := emitLast_ok o1 (w := bopTail delete dropped trimmed) (by omega) z
  refine ⟨s2, ?_, t2⟩
  rw [bopGet, ← e2, ← Option.bind_some (f := fun s => emitLast s (bopTail delete dropped trimmed)), ← e1]
  simp [Option.bind_assoc]

theorem bopGbp_ok {mem : List Nat} {flags : Nat} {es : List Elem} (hes : ∀ e ∈ es, ∃ x, Stored e x) (hn : es.length ≤ 1000000)
    (hf : flags < 2 ^ 32) (hm : mem.length = bopSize es.length) :
    ∃ s, bopGbp mem flags es = some s ∧ s.text = headText flags es.length ++ es.flatMap bopAll ++ tEnd := by
  rw [bopSize_eq hn] at hm
  have hh := headText_len hf (count_lt hn)
  obtain ⟨s1, e1, o1, l1⟩ := bop_ok (mem := mem) hes (headText_nz flags es.length) (by omega)
  refine ⟨ext s1 tEnd, ?_, (o1.ext tEnd).2.2⟩
  rw [bopGbp, ← Option.bind_some (f := fun s => some (ext s tEnd)), ← e1]
  simp [Option.bind_assoc]

theorem pwgHead_ok {pos flags n idx : Nat} (hp : pos < 2 ^ 32) (hf : flags < 2 ^ 32) (hn : n < 2 ^ 32) (hi : idx < 2 ^ 32) :
    0 ∉ pwgHead pos flags n idx ∧ (pwgHead pos flags n idx).length ≤ 51 := by
  have := u32_len hp; have := u32_len hf; have := u32_len hn; have := u32_len hi
  exact ⟨by simp [pwgHead, showNat_nz], by simp only [pwgHead, List.length_append, List.length_cons, List.length_nil]; omega⟩

theorem bopPwg_ok {mem : List Nat} {pos flags idx : Nat} {es : List Elem} (hes : ∀ e ∈ es, ∃ x, Stored e x) (hn : es.length ≤ 1000000)
    (hp : pos < 2 ^ 31) (hf : flags < 2 ^ 32) (hi : idx < 2 ^ 32) (hm : mem.length = pwgSize es.length) :
    ∃ s, bopPwg mem pos flags idx es = some s ∧ s.text = pwgHead pos flags es.length idx ++ es.flatMap bopAll ++ tEnd := by
  rw [pwgSize_eq hn] at hm
  obtain ⟨z, l⟩ := pwgHead_ok (Nat.lt_trans hp (by decide)) hf (count_lt hn) hi
  obtain ⟨s1, e1, o1, l1⟩ := bop_ok (mem := mem) hes z (by omega)
  refine ⟨ext s1 tEnd, ?_, (o1.ext tEnd).2.2⟩
  rw [bopPwg, ← Option.bind_some (f := fun s => some (ext s tEnd)), ← e1]
  simp [Option.bind_assoc]

theorem bopTrim_ok {mem : List Nat} {flags : Nat} {e : Elem} {x : BElem} (he : Stored e x) (hf : flags < 2 ^ 32) (hm : mem.length = trimSize) :
    ∃ s, bopTrim mem flags e = some s ∧ s.text = headText flags 1 ++ bopAll e ++ tTrimmed := by
  have hm : mem.length = 199 := hm
  have := bopText_len he
  have := headText_len hf (n := 1) (by decide)
  obtain ⟨s1, e1, o1, l1, p1⟩ := bopElem_ok (c := 165) (headText flags 1) (headText_nz _ _) ⟨mem, 8, []⟩ [] e (by omega) (ok_start (by omega)) (by simp only; omega)
  refine ⟨ext s1 tTrimmed, by simp [bopTrim, e1], ?_⟩
  have := (o1.ext tTrimmed).2.2
  simpa using this

theorem pwg_read {es : List Elem} {bs : List BElem} (h : Each Stored es bs) (pos flags idx : Nat) (r : List Nat) :
    pwg (pwgHead pos flags es.length idx ++ es.flatMap bopAll ++ tEnd ++ r) = some ((pos, flags, idx, bs, .fin), r) := by
  have e : pwgHead pos flags es.length idx ++ es.flatMap bopAll ++ tEnd ++ r =
      ([86, 65, 76, 85, 69] ++ [32] ++ showNat pos ++ [32] ++ showNat flags ++ [32] ++ showNat es.length ++ [32] ++ showNat idx) ++ [13, 10] ++
        (es.flatMap bopAll ++ (tEnd ++ r)) := by simp [pwgHead]
  rw [e, pwg, line_end (by simp [showNat10])]
  simp only [Option.bind_eq_bind, Option.bind_some]
  rw [words_five (by decide) (showNat32 _) (showNat32 _) (showNat32 _) (showNat32 _)]
  simp only [number_showNat, Option.bind_some, times_read (fun a b r h => belem_read h) h, last_end]

theorem bopMget_ok {mem : List Nat} {rs : List (List Nat × Found)} {count : Nat} (hrs : ∀ r ∈ rs, ∃ x, StoredA count r x)
    (hk : rs.length ≤ 200) (hc : count ≤ 50) (h0 : 0 < rs.length) (hm : mem.length = mgetSize rs.length count) :
    ∃ s, bopMget mem rs = some s ∧ s.text = rs.flatMap mgetText ++ tEnd := by
  have h1 : rs.length * count ≤ 10000 := Nat.mul_le_mul hk hc
  have h2 : mem.length = rs.length * 24 + rs.length * 50 + rs.length * count * 153 := by
    rw [hm, mgetSize, u32Len, bkeyMax, Nat.mod_eq_of_lt (by omega)]
  have h3 : rs.length * (30 + count * 144) = rs.length * 30 + rs.length * count * 144 := by rw [Nat.mul_add, Nat.mul_assoc]
  obtain ⟨s1, e1, o1, l1, p1⟩ := each_ok (c := 30 + count * 144) (fun s t r hr h hl => mgetOne_ok s t r hc hr h hl) rs ⟨mem, rs.length * 24, []⟩ [] hrs
    (ok_start (by omega)) (by simp only; omega)
  simp only at l1 p1
  obtain ⟨s2, e2, t2⟩ := emitLast_ok o1 (w := tEnd) (by simp only [tEnd, List.length_cons, List.length_nil]; omega) (by decide)
  exact ⟨s2, by simp [bopMget, e1, e2], by simpa using t2⟩

theorem counted_ok {w : List Nat} {n d : Nat} (hn : n < 10 ^ (d + 1)) (hz : 0 ∉ w) :
    0 ∉ w ++ showNat n ++ [13, 10] ∧ (w ++ showNat n ++ [13, 10]).length ≤ w.length + d + 3 := by
  have := showNat_len d n hn
  exact ⟨by simp [hz, showNat_nz], by simp only [List.length_append, List.length_cons, List.length_nil]; omega⟩

/-- All text of a merged reply. -/
def smAll (r : SmRes) : List Nat :=
  elementsText r.elems.length ++ r.elems.flatMap smText ++ missedText r.missed.length ++ r.missed.flatMap missAll ++ trimmedText r.trimmed.length ++
    r.trimmed.flatMap trimAll ++ (if r.dup then tDup else tEnd)

theorem smget_ok {mem : List Nat} {numkeys count : Nat} {r : SmRes} (hk : numkeys ≤ 10000) (hc : count ≤ 2000)
    (he : ∀ x ∈ r.elems, ∃ y, StoredS x y) (ht : ∀ x ∈ r.trimmed, BkeyOk x.2) (hen : r.elems.length ≤ count) (hmn : r.missed.length ≤ numkeys)
    (htn : r.trimmed.length ≤ numkeys) (hm : smgetSize numkeys count = some mem.length) :
    ∃ s, smget mem (smgetPtr numkeys count) r = some s ∧ s.text = smAll r := by
  rw [smgetSize_eq hk hc, Option.some.injEq] at hm
  have h1 : r.elems.length * 148 ≤ count * 148 := Nat.mul_le_mul_right _ hen
  have h2 : r.trimmed.length * 67 ≤ numkeys * 67 := Nat.mul_le_mul_right _ htn
  generalize smgetPtr numkeys count = p0 at hm ⊢
  obtain ⟨z1, l1⟩ := counted_ok (w := [69, 76, 69, 77, 69, 78, 84, 83, 32]) (n := r.elems.length) (d := 3) (by omega) (by decide)
  obtain ⟨z2, l2⟩ := counted_ok (w := [77, 73, 83, 83, 69, 68, 95, 75, 69, 89, 83, 32]) (n := r.missed.length) (d := 4) (by omega) (by decide)
  obtain ⟨z3, l3⟩ := counted_ok (w := [84, 82, 73, 77, 77, 69, 68, 95, 75, 69, 89, 83, 32]) (n := r.trimmed.length) (d := 4) (by omega) (by decide)
  simp only [List.length_cons, List.length_nil] at l1 l2 l3
  have l1 : (elementsText r.elems.length).length ≤ 15 := l1
  have l2 : (missedText r.missed.length).length ≤ 19 := l2
  have l3 : (trimmedText r.trimmed.length).length ≤ 20 := l3
  obtain ⟨s1, e1, o1, m1, p1⟩ := emit_ok (ok_start (mem := mem) (p := p0) (by omega)) (w := elementsText r.elems.length) (by simp only; omega) z1
  simp only at m1 p1
  obtain ⟨s2, e2, o2, m2, p2⟩ := each_ok (c := 148) smElem_ok r.elems s1 _ he o1 (by omega)
  obtain ⟨s3, e3, o3, m3, p3⟩ := emit_ok o2 (w := missedText r.missed.length) (by omega) z2
  obtain ⟨s4, e4, o4, m4, p4⟩ := each_ok (c := 0) smMiss_ok r.missed s3 _ (fun _ _ => trivial) o3 (by omega)
  obtain ⟨s5, e5, o5, m5, p5⟩ := emit_ok o4 (w := trimmedText r.trimmed.length) (by omega) z3
  obtain ⟨s6, e6, o6, m6, p6⟩ := each_ok (c := 67) (P := fun x => BkeyOk x.2) smTrim_ok r.trimmed s5 _ ht o5 (by omega)
  have hl : (if r.dup then tDup else tEnd).length ≤ 12 ∧ 0 ∉ (if r.dup then tDup else tEnd) := by cases r.dup <;> decide
  obtain ⟨s7, e7, t7⟩ := emitLast_ok o6 (w := if r.dup then tDup else tEnd) (by omega) hl.2
  refine ⟨s7, by simp only [smget, e1, e2, e3, e4, e5, e6, e7, Option.bind_eq_bind, Option.bind_some], ?_⟩
  rw [t7, smAll, List.nil_append]

theorem smget_read {r : SmRes} {x : Merged} (he : Each StoredS r.elems x.elems) (hm : Each StoredMiss r.missed x.missed) (ht : r.trimmed = x.trimmed)
    (hd : x.tail = if r.dup then .dup else .fin) (hb : ∀ t ∈ r.trimmed, BkeyOk t.2) (w1 : ∀ e ∈ r.elems, Word e.1) (w2 : ∀ e ∈ r.missed, Word e.1)
    (w3 : ∀ e ∈ r.trimmed, Word e.1) (rest : List Nat) : Spec.smget (smAll r ++ rest) = some (x, rest) := by
  obtain ⟨xe, xm, xt, xl⟩ := x
  simp only at he hm ht hd
  subst ht hd
  have e : smAll r ++ rest = [69, 76, 69, 77, 69, 78, 84, 83] ++ [32] ++ showNat r.elems.length ++ [13, 10] ++ (r.elems.flatMap smText ++
      ([77, 73, 83, 83, 69, 68, 95, 75, 69, 89, 83] ++ [32] ++ showNat r.missed.length ++ [13, 10] ++ (r.missed.flatMap missAll ++
      ([84, 82, 73, 77, 77, 69, 68, 95, 75, 69, 89, 83] ++ [32] ++ showNat r.trimmed.length ++ [13, 10] ++ (r.trimmed.flatMap trimAll ++
      ((if r.dup then tDup else tEnd) ++ rest)))))) := by simp [smAll, elementsText, missedText, trimmedText]
  have hl : last ((if r.dup then tDup else tEnd) ++ rest) = some (if r.dup then .dup else .fin, rest) := by cases r.dup <;> rfl
  rw [e, Spec.smget, heading_read (by decide) (by decide)]
  simp only [Option.bind_eq_bind, Option.bind_some]
  rw [times_read (R := fun a b => StoredS a b ∧ Word a.1) (fun a b r h => selem_read h.1 h.2) (each_and he w1)]
  simp only [Option.bind_some]
  rw [heading_read (by decide) (by decide)]
  simp only [Option.bind_some]
  rw [times_read (R := fun a b => StoredMiss a b ∧ Word a.1) (fun a b r h => miss_read h.1 h.2) (each_and hm w2)]
  simp only [Option.bind_some]
  rw [heading_read (by decide) (by decide)]
  simp only [Option.bind_some]
  rw [times_read (R := fun a b => a = b ∧ (BkeyOk b.2 ∧ Word b.1)) (fun a b r h => by obtain ⟨rfl, h⟩ := h; exact trim_read h.1 h.2)
    (each_self fun x hx => ⟨hb x hx, w3 x hx⟩)]
  simp only [Option.bind_some, hl]

/-- The last line of the older form. -/
def oldTail (trimmed dup : Bool) : List Nat := if trimmed then (if dup then tDupTrimmed else tTrimmed) else (if dup then tDup else tEnd)

/-- All text of a merged reply in the older form. -/
def oldAll (es : List (List Nat × Nat × Elem)) (missed : List (List Nat)) (trimmed dup : Bool) : List Nat :=
  oldHead es.length ++ es.flatMap smText ++ missedText missed.length ++ (missed.flatMap fun k => k ++ [13, 10]) ++ oldTail trimmed dup

theorem smgetOld_ok {mem : List Nat} {numkeys cnt : Nat} {es : List (List Nat × Nat × Elem)} {missed : List (List Nat)} {trimmed dup : Bool}
    (hk : numkeys ≤ 10000) (hc : cnt ≤ 2000) (h0 : 0 < cnt) (he : ∀ x ∈ es, ∃ y, StoredS x y) (hen : es.length ≤ cnt) (hmn : missed.length ≤ numkeys)
    (hm : mem.length = oldSize numkeys cnt) :
    ∃ s, smgetOld mem (oldPtr numkeys cnt) es missed trimmed dup = some s ∧ s.text = oldAll es missed trimmed dup := by
  have hm : mem.length = oldPtr numkeys cnt + (50 + cnt * 153) := by rw [hm, oldSize, oldPtr, u32Len, bkeyMax]; omega
  have h1 : es.length * 148 ≤ cnt * 148 := Nat.mul_le_mul_right _ hen
  generalize oldPtr numkeys cnt = p0 at hm ⊢
  obtain ⟨z1, l1⟩ := counted_ok (w := [86, 65, 76, 85, 69, 32]) (n := es.length) (d := 3) (by omega) (by decide)
  obtain ⟨z2, l2⟩ := counted_ok (w := [77, 73, 83, 83, 69, 68, 95, 75, 69, 89, 83, 32]) (n := missed.length) (d := 4) (by omega) (by decide)
  simp only [List.length_cons, List.length_nil] at l1 l2
  have l1 : (oldHead es.length).length ≤ 12 := l1
  have l2 : (missedText missed.length).length ≤ 19 := l2
  obtain ⟨s1, e1, o1, m1, p1⟩ := emit_ok (ok_start (mem := mem) (p := p0) (by omega)) (w := oldHead es.length) (by simp only; omega) z1
  simp only at m1 p1
  obtain ⟨s2, e2, o2, m2, p2⟩ := each_ok (c := 148) smElem_ok es s1 _ he o1 (by omega)
  obtain ⟨s3, e3, o3, m3, p3⟩ := emit_ok o2 (w := missedText missed.length) (by omega) z2
  obtain ⟨s4, e4, o4, m4, p4⟩ := each_ok (c := 0) oldMiss_ok missed s3 _ (fun _ _ => trivial) o3 (by omega)
  have hl : (oldTail trimmed dup).length ≤ 20 ∧ 0 ∉ oldTail trimmed dup := by cases trimmed <;> cases dup <;> decide
  obtain ⟨s7, e7, t7⟩ := emitLast_ok o4 (w := oldTail trimmed dup) (by omega) hl.2
  unfold oldTail at e7
  refine ⟨s7, by simp only [smgetOld, e1, e2, e3, e4, e7, Option.bind_eq_bind, Option.bind_some], ?_⟩
  rw [t7, oldAll, List.nil_append]

theorem smgetOld_read {es : List (List Nat × Nat × Elem)} {xs : List (List Nat × Nat × BElem)} {missed : List (List Nat)} {trimmed dup : Bool}
    (he : Each StoredS es xs) (w1 : ∀ e ∈ es, Word e.1) (w2 : ∀ k ∈ missed, Word k) (rest : List Nat) :
    Spec.smgetOld (oldAll es missed trimmed dup ++ rest) = some ((xs, missed, tailOld trimmed dup), rest) := by
  have e : oldAll es missed trimmed dup ++ rest = [86, 65, 76, 85, 69] ++ [32] ++ showNat es.length ++ [13, 10] ++ (es.flatMap smText ++
      ([77, 73, 83, 83, 69, 68, 95, 75, 69, 89, 83] ++ [32] ++ showNat missed.length ++ [13, 10] ++ ((missed.flatMap fun k => k ++ [13, 10]) ++
      (oldTail trimmed dup ++ rest)))) := by simp [oldAll, oldHead, missedText]
  have hl : last (oldTail trimmed dup ++ rest) = some (tailOld trimmed dup, rest) := by cases trimmed <;> cases dup <;> rfl
  rw [e, Spec.smgetOld, heading_read (by decide) (by decide)]
  simp only [Option.bind_eq_bind, Option.bind_some]
  rw [times_read (R := fun a b => StoredS a b ∧ Word a.1) (fun a b r h => selem_read h.1 h.2) (each_and he w1)]
  simp only [Option.bind_some]
  rw [heading_read (by decide) (by decide)]
  simp only [Option.bind_some]
  rw [times_read (R := fun a b => a = b ∧ Word b) (fun a b r h => by obtain ⟨rfl, h⟩ := h; exact line_end h.2.2) (each_self w2)]
  simp only [Option.bind_some, hl]

theorem getattr_ok {mem : List Nat} {a : Attrs} {ids : List AttrId} (hn : ids.length ≤ 11)
    (ha : ∀ i ∈ (if 0 < ids.length then ids else allAttrs a), AttrOk a i) (hm : mem.length = 1024) :
    getattr mem a ids = some ((if 0 < ids.length then ids else allAttrs a).flatMap (attrAll a) ++ tEnd) := by
  have hl : (if 0 < ids.length then ids else allAttrs a).length ≤ 11 := by
    split
    · exact hn
    · unfold allAttrs; split <;> split <;> simp
  unfold getattr
  rw [if_neg (by unfold attrEnd; omega)]
  generalize (if 0 < ids.length then ids else allAttrs a) = l at ha hl ⊢
  obtain ⟨m1, e1, g1, l1, z1⟩ := attrLoop_spec l mem 0 ha (by omega)
  have := g1.1
  obtain ⟨m2, e2, g2, s2⟩ := sprintf_spec (mem := m1) (p := 0 + (l.flatMap (attrAll a)).length) (w := [69, 78, 68]) (by simp only [List.length_cons, List.length_nil]; omega) (by decide)
  have g := g1.trans g2
  have hs := g.strlen z1 s2
  simp only [e1, e2, hs, Option.bind_eq_bind, Option.bind_some]
  have ht := g.2.2.2
  rw [List.take_zero, List.nil_append] at ht
  rw [show (l.flatMap (attrAll a)).length + [69, 78, 68].length = 0 + (l.flatMap (attrAll a)).length + [69, 78, 68].length by omega, ht]
  simp [tEnd]

end Verif.Resp
