/-
Lemmas about long query detection: texts and their lengths.
-/
import Verif.Spec.LqDetect
import Mathlib.Data.Nat.Digits.Defs

namespace Verif.LqDetect

open Spec (args cost shown line same whole OkQuery OkCall OkRange samples)

theorem dec_len {n e : Nat} (he : 0 < e) (h : n < 10 ^ e) : (dec n).length ≤ e :=
  Nat.toDigits_length 10 n e he h

theorem dec32 {n : Nat} (h : n < 4294967296) : (dec n).length ≤ 10 :=
  dec_len (by omega) (by omega)

theorem dec64 {n : Nat} (h : n < 18446744073709551616) : (dec n).length ≤ 20 :=
  dec_len (by omega) (by omega)

theorem decI_eq (i : Int) : decI i = Spec.int i := by
  cases i with
  | ofNat n =>
    have h : ¬ ((n : Int) < 0) := by omega
    simp [decI, Spec.int, Spec.num, dec, h]
  | negSucc n =>
    have h : Int.negSucc n < 0 := Int.negSucc_lt_zero n
    simp only [decI, Spec.int, h, if_true, Spec.num, dec]
    rfl

theorem int_len {i : Int} (h : Spec.Num32 i) : (Spec.int i).length ≤ 11 := by
  obtain ⟨h1, h2⟩ := h
  have : i.natAbs < 4294967296 := by omega
  have := dec32 this
  unfold Spec.int
  unfold dec at this
  unfold Spec.num
  split <;> simp <;> omega

theorem hex_eq (bs : List UInt8) : hex bs = Spec.hexa bs := by
  have hd : ∀ n, n < 16 → hexDigit n = "0123456789ABCDEF".toList.getD n ' ' := by decide
  induction bs with
  | nil => rfl
  | cons b bs ih =>
    have hb : b.toNat < 256 := b.toNat_lt
    simp only [hex, Spec.hexa, List.flatMap_cons]
    rw [hd _ (by omega), hd _ (by omega), ih]
    rfl

theorem hex_len (bs : List UInt8) : (hex bs).length = 2 * bs.length := by
  induction bs with
  | nil => rfl
  | cons b bs ih => simp only [hex, List.length_cons, ih]; omega

theorem bkey_eq (r : Range) (ef : Bool) : bkeyString r ef = Spec.range r ++ Spec.opt ef "efilter" := by
  unfold bkeyString
  congr 1
  · cases r with
    | num f t => cases t <;> rfl
    | hex f t => cases t <;> simp [Spec.range, hex_eq]

theorem bkey_len {r : Range} (ef : Bool) (h : OkRange r) : (bkeyString r ef).length ≤ 138 := by
  unfold bkeyString
  have h8 : (if ef then " efilter".toList else []).length ≤ 8 := by cases ef <;> decide
  rw [List.length_append]
  cases r with
  | num f t =>
    have h1 := dec64 h.1
    cases t with
    | none => simp only; omega
    | some t =>
      have h2 := dec64 (h.2 t rfl)
      simp only [List.length_append]
      rw [show "..".toList.length = 2 from rfl]
      omega
  | hex f t =>
    have h1 := h.1
    cases t with
    | none => simp only [List.length_cons, hex_len]; omega
    | some t =>
      have h2 := h.2 t rfl
      simp only [List.length_append, List.length_cons, hex_len]
      rw [show "..0x".toList.length = 4 from rfl]
      omega

theorem delDrop_eq (a b : Bool) : delDrop a b = Spec.rem a b := by cases a <;> cases b <;> rfl

theorem delDrop_eq' (b : Bool) : delDrop false b = Spec.opt b "drop" := by cases b <;> rfl

theorem delDrop_len (a b : Bool) : (delDrop a b).length ≤ 7 := by cases a <;> cases b <;> decide

theorem cut_id {n : Nat} {t : Text} (h : t.length < n) : cut n t = t := by
  unfold cut
  exact List.take_of_length_le (by omega)

/-- The query is shown in full. -/
theorem text_ok {q : Query} (h : OkQuery q) : q.text = some (args q) ∧ (args q).length ≤ 191 := by
  cases q with
  | lopInsert i =>
    have h1 := int_len (i := i) ⟨by have := h.1; omega, by have := h.2; omega⟩
    simp only [Query.text, args]
    rw [decI_eq, cut_id (by omega)]
    exact ⟨rfl, by omega⟩
  | lopDelete n f t drop =>
    obtain ⟨_, hf, ht⟩ := h
    have h1 := int_len (i := f) ⟨by have := hf.1; omega, by have := hf.2; omega⟩
    have h2 := int_len ht
    have h3 := delDrop_len false drop
    simp only [Query.text, args]
    have hl : (Spec.int f ++ "..".toList ++ Spec.int t ++ Spec.opt drop "drop").length ≤ 191 := by
      rw [← delDrop_eq']
      simp only [List.length_append]
      rw [show "..".toList.length = 2 from rfl]; omega
    rw [decI_eq, decI_eq, delDrop_eq', cut_id (by omega)]
    exact ⟨rfl, hl⟩
  | lopGet n f t del drop =>
    obtain ⟨_, hf, ht⟩ := h
    have h1 := int_len (i := f) ⟨by have := hf.1; omega, by have := hf.2; omega⟩
    have h2 := int_len ht
    have h3 := delDrop_len del drop
    simp only [Query.text, args]
    have hl : (Spec.int f ++ "..".toList ++ Spec.int t ++ Spec.rem del drop).length ≤ 191 := by
      rw [← delDrop_eq]
      simp only [List.length_append]
      rw [show "..".toList.length = 2 from rfl]; omega
    rw [decI_eq, decI_eq, delDrop_eq, cut_id (by omega)]
    exact ⟨rfl, hl⟩
  | sopGet n c del drop =>
    have h1 := dec32 h.2
    have h3 := delDrop_len del drop
    simp only [Query.text, args]
    have hl : (Spec.num c ++ Spec.rem del drop).length ≤ 191 := by
      rw [← delDrop_eq, List.length_append]; unfold Spec.num; unfold dec at h1; omega
    rw [delDrop_eq, show dec c = Spec.num c from rfl, cut_id (by omega)]
    exact ⟨rfl, hl⟩
  | mopGet n c del drop =>
    have h1 := dec32 h.2
    have h3 := delDrop_len del drop
    simp only [Query.text, args]
    have hl : (Spec.num c ++ Spec.rem del drop).length ≤ 191 := by
      rw [← delDrop_eq, List.length_append]; unfold Spec.num; unfold dec at h1; omega
    rw [delDrop_eq, show dec c = Spec.num c from rfl, cut_id (by omega)]
    exact ⟨rfl, hl⟩
  | mopDelete n c drop =>
    have h1 := dec32 h.2
    have h3 := delDrop_len false drop
    simp only [Query.text, args]
    have hl : (Spec.num c ++ Spec.opt drop "drop").length ≤ 191 := by
      rw [← delDrop_eq', List.length_append]; unfold Spec.num; unfold dec at h1; omega
    rw [delDrop_eq', show dec c = Spec.num c from rfl, cut_id (by omega)]
    exact ⟨rfl, hl⟩
  | bopGbp n f t asc =>
    have h1 := dec32 h.2.1
    have h2 := dec32 h.2.2
    simp only [Query.text, args]
    have hl : (dec f ++ "..".toList ++ dec t ++ ' ' :: (if asc then "asc" else "desc").toList).length ≤ 191 := by
      simp only [List.length_append, List.length_cons]
      have : (if asc then "asc" else "desc").toList.length ≤ 4 := by cases asc <;> decide
      rw [show "..".toList.length = 2 from rfl]; omega
    have e : (if asc then "asc".toList else "desc".toList) = (if asc then "asc" else "desc").toList := by
      cases asc <;> rfl
    rw [e, cut_id (by omega)]
    exact ⟨rfl, hl⟩
  | bopGet n r ef o c del drop =>
    obtain ⟨_, hr, ho, hc⟩ := h
    have h0 := bkey_len ef hr
    have h1 := dec32 ho
    have h2 := dec32 hc
    have h3 := delDrop_len del drop
    have hn : ¬ (bkeyString r ef).length ≥ 192 := by omega
    have hl : (' ' :: dec o ++ ' ' :: dec c ++ delDrop del drop).length ≤ 29 := by
      simp only [List.length_append, List.length_cons]; omega
    simp only [Query.text, args, if_neg hn]
    rw [cut_id (by omega), bkey_eq, delDrop_eq]
    rw [bkey_eq] at h0
    rw [delDrop_eq] at hl
    refine ⟨by simp only [List.append_assoc, List.cons_append]; rfl, ?_⟩
    simp only [List.length_append, List.length_cons] at hl h0 ⊢
    unfold dec at hl
    unfold Spec.num
    omega
  | bopCount n r ef =>
    have h0 := bkey_len ef h.2
    have hn : ¬ (bkeyString r ef).length ≥ 192 := by omega
    simp only [Query.text, args, if_neg hn]
    rw [← bkey_eq]
    exact ⟨rfl, by omega⟩
  | bopDelete n r ef c drop =>
    obtain ⟨_, hr, hc⟩ := h
    have h0 := bkey_len ef hr
    have h2 := dec32 hc
    have h3 := delDrop_len false drop
    have hn : ¬ (bkeyString r ef).length ≥ 192 := by omega
    have hl : (' ' :: dec c ++ delDrop false drop).length ≤ 18 := by
      simp only [List.length_append, List.length_cons]; omega
    simp only [Query.text, args, if_neg hn]
    rw [cut_id (by omega), bkey_eq, delDrop_eq']
    rw [bkey_eq] at h0
    rw [delDrop_eq'] at hl
    refine ⟨by simp only [List.append_assoc, List.cons_append]; rfl, ?_⟩
    simp only [List.length_append, List.length_cons] at hl h0 ⊢
    unfold dec at hl
    unfold Spec.num
    omega

theorem indexCost_ok {i : Int} (h : Spec.Idx i) : indexCost i = some (Spec.reach i) := by
  obtain ⟨h1, h2⟩ := h
  have hn : ¬ (i ≥ 2147483647 ∨ i ≤ -2147483648) := by omega
  unfold indexCost Spec.reach
  rw [if_neg hn]
  congr 1
  split <;> omega

theorem reach_lt {i : Int} (h : Spec.Idx i) : Spec.reach i < 2147483648 := by
  obtain ⟨h1, h2⟩ := h
  unfold Spec.reach
  split <;> omega

/-- The cost is what is computed. -/
theorem overhead_ok {q : Query} (h : OkQuery q) : q.overhead = some (cost q) ∧ cost q < 4294967296 := by
  cases q with
  | lopInsert i =>
    have := reach_lt h
    exact ⟨indexCost_ok h, by simp only [cost]; omega⟩
  | lopDelete n f t drop =>
    obtain ⟨hn, hf, _⟩ := h
    have := reach_lt hf
    simp only [Query.overhead, indexCost_ok hf, Option.bind_eq_bind, Option.bind_some, cost]
    rw [Nat.mod_eq_of_lt (by omega)]
    exact ⟨rfl, by omega⟩
  | lopGet n f t del drop =>
    obtain ⟨hn, hf, _⟩ := h
    have := reach_lt hf
    simp only [Query.overhead, indexCost_ok hf, Option.bind_eq_bind, Option.bind_some, cost]
    rw [Nat.mod_eq_of_lt (by omega)]
    exact ⟨rfl, by omega⟩
  | sopGet n c del drop => exact ⟨rfl, by have := h.1; simp only [cost]; omega⟩
  | mopGet n c del drop => exact ⟨rfl, by have := h.1; simp only [cost]; omega⟩
  | mopDelete n c drop => exact ⟨rfl, by have := h.1; simp only [cost]; omega⟩
  | bopGbp n f t asc => exact ⟨rfl, by have := h.1; simp only [cost]; omega⟩
  | bopGet n r ef o c del drop => exact ⟨rfl, by have := h.1; simp only [cost]; omega⟩
  | bopCount n r ef => exact ⟨rfl, by have := h.1; simp only [cost]; omega⟩
  | bopDelete n r ef c drop => exact ⟨rfl, by have := h.1; simp only [cost]; omega⟩

theorem keyPtr_eq (k : Text) : keyPtr k = shown k := by
  unfold keyPtr shown
  by_cases h : k.length ≤ 250
  · rw [if_neg (by omega), if_pos h]
  · rw [if_pos (by omega), if_neg h, List.take_of_length_le (l := k.drop _) (by simp; omega), cut_id]
    simp only [List.length_append, List.length_take, List.length_drop]
    rw [show "...".toList.length = 3 from rfl]
    omega

theorem shown_len (k : Text) : (shown k).length ≤ 250 := by
  unfold shown
  split
  · assumption
  · simp only [List.length_append, List.length_take, List.length_drop]
    rw [show "...".toList.length = 3 from rfl]
    omega

theorem pad_len {w n : Nat} (hw : 0 < w) (h : n < 10 ^ w) : (pad w n).length = w := by
  have := dec_len hw h
  unfold pad
  rw [List.length_append, List.length_replicate]
  omega

theorem cmdStr_eq (c : Cmd) : cmdStr c = (Spec.name c).toList := by cases c <;> rfl

theorem cmdStr_len (c : Cmd) : (cmdStr c).length ≤ 10 := by cases c <;> decide

/-- What is saved for a call. -/
def argOf (c : Call) : Arg :=
  { query := args c.query, key := if whole c.query then shown c.key else [],
    count := c.query.count, overhead := cost c.query }

/-- The line that is printed is the one of the specification, and short enough. -/
theorem line_ok {c : Call} (h : OkCall c) (a : Arg) (hq : a.query = args c.query)
    (ho : a.overhead = cost c.query) :
    lineText c.query.cmd c a (keyPtr c.key) = line c ∧ (line c).length ≤ 499 := by
  obtain ⟨h1, h2, h3, h4, h5, h6⟩ := h
  have e : lineText c.query.cmd c a (keyPtr c.key) = line c := by
    unfold lineText line
    rw [hq, ho, keyPtr_eq, cmdStr_eq]
    simp only [List.append_assoc, List.cons_append, List.nil_append]
    rfl
  refine ⟨e, ?_⟩
  rw [← e]
  unfold lineText
  have p1 := pad_len (w := 2) (n := c.hour) (by omega) (by omega)
  have p2 := pad_len (w := 2) (n := c.min) (by omega) (by omega)
  have p3 := pad_len (w := 2) (n := c.sec) (by omega) (by omega)
  have p4 := pad_len (w := 6) (n := c.usec) (by omega) (by omega)
  have p5 := dec32 (overhead_ok h6).2
  have p6 := cmdStr_len c.query.cmd
  have p7 := shown_len c.key
  have p8 := (text_ok h6).2
  rw [hq, ho, keyPtr_eq]
  simp only [List.length_append, List.length_cons, List.length_nil]
  rw [show " <".toList.length = 2 from rfl, show "> ".toList.length = 2 from rfl]
  omega

/-- The number of a whole query is zero, and the text of its arguments shows it. -/
theorem count_of_args {q o : Query} (hk : keyed q.cmd = true) (hc : o.cmd = q.cmd)
    (h : args q = args o) (h0 : q.count = 0) : o.count = 0 := by
  have hz : ∀ (n : Nat) (s t : Text), (s = [] ∨ ∃ s', s = ' ' :: s') → (t = [] ∨ ∃ t', t = ' ' :: t') →
      Spec.num 0 ++ s = Spec.num n ++ t → n = 0 := by
    intro n s t hs ht e
    have hd : ∀ c ∈ Spec.num n, c.isDigit = true :=
      fun c hc => Nat.isDigit_of_mem_toDigits (by omega) (by omega) hc
    have hsp : ∀ u : Text, (u = [] ∨ ∃ u', u = ' ' :: u') → u.takeWhile Char.isDigit = [] := by
      rintro u (rfl | ⟨u', rfl⟩)
      · rfl
      · rfl
    have e2 := congrArg (List.takeWhile Char.isDigit) e
    rw [List.takeWhile_append_of_pos (by decide), List.takeWhile_append_of_pos hd, hsp s hs, hsp t ht,
      List.append_nil, List.append_nil] at e2
    have hl : (Spec.num n).length = 1 := by rw [← e2]; rfl
    have hlt : n < 10 := by
      by_contra hge
      have h1 := (Nat.length_toDigits_le_iff (b := 10) (n := n) (k := 1) (by omega) (by omega)).mp
        (by unfold Spec.num at hl; omega)
      omega
    unfold Spec.num at e2
    rw [Nat.toDigits_of_lt_base hlt, Nat.toDigits_of_lt_base (by omega)] at e2
    injection e2 with e3
    have : n.digitChar = '0' := by rw [← e3]; rfl
    exact Nat.digitChar_eq_zero.mp this
  have hrem : ∀ a b, Spec.rem a b = [] ∨ ∃ s', Spec.rem a b = ' ' :: s' := by
    intro a b
    cases a <;> cases b
    · exact Or.inl rfl
    · exact Or.inr ⟨_, rfl⟩
    · exact Or.inr ⟨_, rfl⟩
    · exact Or.inr ⟨_, rfl⟩
  have hopt : ∀ b, Spec.opt b "drop" = [] ∨ ∃ s', Spec.opt b "drop" = ' ' :: s' := by
    intro b
    cases b
    · exact Or.inl rfl
    · exact Or.inr ⟨_, rfl⟩
  cases q <;> cases o <;> simp only [Query.cmd, keyed, reduceCtorEq, Bool.false_eq_true] at hk hc
  all_goals
    simp only [Query.count] at h0 ⊢
    subst h0
    simp only [args] at h
    first
      | exact hz _ _ _ (hrem _ _) (hrem _ _) h
      | exact hz _ _ _ (hopt _) (hopt _) h

theorem whole_iff (q : Query) : whole q = (keyed q.cmd && q.count == 0) := by
  cases q <;> rfl

/-- Recognising what is the same. -/
theorem dup_ok {b : Buf} {c : Call} {S : List Call} {a : Arg} (hb : b.args = S.map argOf)
    (hS : ∀ o ∈ S, o.query.cmd = c.query.cmd) (hq : a.query = args c.query)
    (hn : a.count = c.query.count) :
    duplicated b c.query.cmd (keyPtr c.key) a = S.any (same c) := by
  unfold duplicated
  rw [hb, List.any_map, Bool.eq_iff_iff, List.any_eq_true, List.any_eq_true]
  have hh : ∀ o ∈ S, (((fun o => o.query == a.query && (!(keyed c.query.cmd) || (decide (a.count > 0)) ||
      o.key == keyPtr c.key)) ∘ argOf) o = true ↔ same c o = true) := by
    intro o ho
    simp only [Function.comp_apply, argOf, same, hq, hn, keyPtr_eq, Bool.and_eq_true, beq_iff_eq,
      Bool.or_eq_true, Bool.not_eq_true', decide_eq_true_eq]
    constructor
    · rintro ⟨h1, h2⟩
      refine ⟨h1.symm, ?_⟩
      by_cases hw : whole c.query = true
      · right
        rw [whole_iff, Bool.and_eq_true, beq_iff_eq] at hw
        rcases h2 with (h2 | h2) | h2
        · rw [hw.1] at h2; cases h2
        · omega
        · have := count_of_args hw.1 (hS o ho) h1.symm hw.2
          have hwo : whole o.query = true := by
            rw [whole_iff, hS o ho, hw.1, this]; rfl
          rw [if_pos hwo] at h2
          exact h2.symm
      · left; simpa using hw
    · rintro ⟨h1, h2⟩
      refine ⟨h1.symm, ?_⟩
      by_cases hw : whole c.query = true
      · rcases h2 with h2 | h2
        · rw [hw] at h2; cases h2
        · right
          rw [whole_iff, Bool.and_eq_true, beq_iff_eq] at hw
          have := count_of_args hw.1 (hS o ho) h1 hw.2
          have hwo : whole o.query = true := by
            rw [whole_iff, hS o ho, hw.1, this]; rfl
          rw [if_pos hwo, h2]
      · left
        rw [whole_iff] at hw
        by_cases hk : keyed c.query.cmd = true
        · right
          simp only [hk, Bool.true_and, beq_iff_eq] at hw
          omega
        · left; simpa using hk
  constructor
  · rintro ⟨o, ho, h⟩; exact ⟨o, ho, (hh o ho).mp h⟩
  · rintro ⟨o, ho, h⟩; exact ⟨o, ho, (hh o ho).mpr h⟩

end Verif.LqDetect
