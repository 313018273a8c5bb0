import Verif.Lemmas.RespRead
/-!
# Whole replies
-/
namespace Verif.Resp
open Verif.Util (showNat safeHexatostr showNat_spec hexDigit)
open Verif.BT (BKey)
open Verif.Resp.Spec

theorem showNat10 (n : Nat) : 10 ∉ showNat n := showNat_not (by omega)
theorem showNat32 (n : Nat) : 32 ∉ showNat n := showNat_not (by omega)

theorem u32_len {n : Nat} (h : n < 2 ^ 32) : (showNat n).length ≤ 10 := showNat_len 9 n (Nat.lt_trans h (by decide))

theorem line_end {w r : List Nat} (h : 10 ∉ w) : line (w ++ [13, 10] ++ r) = some (w, r) := by
  rw [List.append_assoc]; exact line_app h

/-- The text of the first line without its end. -/
def headLine (f n : Nat) : List Nat := [86, 65, 76, 85, 69, 32] ++ showNat f ++ [32] ++ showNat n

theorem headText_nz (f n : Nat) : 0 ∉ headText f n := by simp [headText, showNat_nz]

theorem headText_len {f n : Nat} (hf : f < 2 ^ 32) (hn : n < 2 ^ 32) : (headText f n).length ≤ 29 := by
  have := u32_len hf; have := u32_len hn
  simp only [headText, List.length_append, List.length_cons, List.length_nil]; omega

theorem words_three {a b c : List Nat} (ha : 32 ∉ a) (hb : 32 ∉ b) (hc : 32 ∉ c) : words (a ++ [32] ++ b ++ [32] ++ c) = [a, b, c] := by
  have : a ++ [32] ++ b ++ [32] ++ c = a ++ 32 :: (b ++ 32 :: c) := by simp
  rw [this, words_app ha, words_app hb, words_one hc]

theorem words_four {a b c d : List Nat} (ha : 32 ∉ a) (hb : 32 ∉ b) (hc : 32 ∉ c) (hd : 32 ∉ d) :
    words (a ++ [32] ++ b ++ [32] ++ c ++ [32] ++ d) = [a, b, c, d] := by
  have : a ++ [32] ++ b ++ [32] ++ c ++ [32] ++ d = a ++ 32 :: (b ++ 32 :: (c ++ 32 :: d)) := by simp
  rw [this, words_app ha, words_app hb, words_app hc, words_one hd]

theorem words_five {a b c d e : List Nat} (ha : 32 ∉ a) (hb : 32 ∉ b) (hc : 32 ∉ c) (hd : 32 ∉ d) (he : 32 ∉ e) :
    words (a ++ [32] ++ b ++ [32] ++ c ++ [32] ++ d ++ [32] ++ e) = [a, b, c, d, e] := by
  have : a ++ [32] ++ b ++ [32] ++ c ++ [32] ++ d ++ [32] ++ e = a ++ 32 :: (b ++ 32 :: (c ++ 32 :: (d ++ 32 :: e))) := by simp
  rw [this, words_app ha, words_app hb, words_app hc, words_app hd, words_one he]

theorem values_read {α β : Type} {R : α → β → Prop} {tx : α → List Nat} {p : List Nat → Option (β × List Nat)}
    (hp : ∀ a b r, R a b → p (tx a ++ r) = some (b, r)) {as : List α} {bs : List β} (h : Each R as bs) (f : Nat) {tl r : List Nat} {x : Tail}
    (hl : last (tl ++ r) = some (x, r)) : values p (headText f as.length ++ as.flatMap tx ++ tl ++ r) = some ((f, bs, x), r) := by
  have e : headText f as.length ++ as.flatMap tx ++ tl ++ r =
      ([86, 65, 76, 85, 69] ++ [32] ++ showNat f ++ [32] ++ showNat as.length) ++ [13, 10] ++ (as.flatMap tx ++ (tl ++ r)) := by simp [headText]
  rw [e, values, line_end (by simp [showNat10])]
  simp only [Option.bind_eq_bind, Option.bind_some]
  rw [words_three (by decide) (showNat32 _) (showNat32 _)]
  simp only [number_showNat, Option.bind_some, times_read hp h, hl]

theorem last_end (r : List Nat) : last (tEnd ++ r) = some (.fin, r) := rfl
theorem last_deleted (r : List Nat) : last (tDeleted ++ r) = some (.deleted, r) := rfl
theorem last_dropped (r : List Nat) : last (tDropped ++ r) = some (.dropped, r) := rfl
theorem last_trimmed (r : List Nat) : last (tTrimmed ++ r) = some (.trimmed, r) := rfl
theorem last_dup (r : List Nat) : last (tDup ++ r) = some (.dup, r) := rfl
theorem last_dupTrimmed (r : List Nat) : last (tDupTrimmed ++ r) = some (.dupTrimmed, r) := rfl

theorem ok_start {mem : List Nat} {p : Nat} (h : p ≤ mem.length) : Ok ⟨mem, p, []⟩ [] := ⟨h, fun _ h => (by cases h), rfl⟩

/-- Head, elements and last line fit into the buffer, and the text is theirs. -/
theorem reply_ok {α : Type} {f : St → α → Option St} {tx : α → List Nat} {c : Nat} {P : α → Prop}
    (step : ∀ s t x, P x → Ok s t → s.ptr + c + 1 ≤ s.mem.length →
      ∃ s', f s x = some s' ∧ Ok s' (t ++ tx x) ∧ s'.mem.length = s.mem.length ∧ s'.ptr ≤ s.ptr + c)
    {mem hd : List Nat} (hz : 0 ∉ hd) {es : List α} (hes : ∀ x ∈ es, P x) (hr : hd.length + es.length * c + 1 ≤ mem.length) :
    ∃ s, (do let s ← emit ⟨mem, 0, []⟩ hd; each f s es) = some s ∧ Ok s (hd ++ es.flatMap tx) ∧ s.mem.length = mem.length ∧
      s.ptr ≤ hd.length + es.length * c := by
  obtain ⟨s1, e1, o1, l1, p1⟩ := emit_ok (ok_start (mem := mem) (p := 0) (by omega)) (w := hd) (by simp only; omega) hz
  simp only at l1 p1
  obtain ⟨s2, e2, o2, l2, p2⟩ := each_ok step es s1 _ hes o1 (by omega)
  refine ⟨s2, by simp [e1, e2], ?_, by omega, by omega⟩
  simpa using o2

theorem heading_read {w r : List Nat} (h32 : 32 ∉ w) (h10 : 10 ∉ w) (n : Nat) : heading w (w ++ [32] ++ showNat n ++ [13, 10] ++ r) = some (n, r) := by
  have e : w ++ [32] ++ showNat n ++ [13, 10] ++ r = (w ++ 32 :: showNat n) ++ [13, 10] ++ r := by simp
  rw [e, heading, line_end (by simp [showNat10, h10])]
  simp only [Option.bind_eq_bind, Option.bind_some]
  rw [words_app h32, words_one (showNat32 _)]
  simp only [if_true, number_showNat, Option.map_some]

/-! ## `bop mget` -/

theorem element_read {e : Elem} {x : BElem} {r : List Nat} (h : Stored e x) :
    element (([69, 76, 69, 77, 69, 78, 84, 32] ++ bopAll e) ++ r) = some (x, r) := by
  have e1 : ([69, 76, 69, 77, 69, 78, 84, 32] ++ bopAll e) ++ r = [69, 76, 69, 77, 69, 78, 84] ++ 32 :: (bopAll e ++ r) := by simp
  rw [element, e1, word_app (by decide)]
  simp only [Option.bind_eq_bind, Option.bind_some, if_true, belem_read h]

/-- The text of one key. -/
def mgetText (r : List Nat × Found) : List Nat :=
  [86, 65, 76, 85, 69, 32] ++ r.1 ++ r.2.text ++ r.2.elems.flatMap fun e => [69, 76, 69, 77, 69, 78, 84, 32] ++ bopAll e

theorem status_text {f : Found} {w : List Nat} (h : statusWord f = some w) :
    f.text = [32] ++ w ++ [13, 10] ∧ f.elems = [] ∧ 32 ∉ w ∧ 10 ∉ w ∧ 0 ∉ w ∧ w.length ≤ 17 := by
  cases f with
  | hit _ _ _ => cases h
  | _ => simp only [statusWord, Option.some.injEq] at h; subst h; refine ⟨rfl, rfl, ?_⟩; decide

theorem answer_text {f : Found} {a : Ans} (h : Answers f a) (hc : f.elems.length < 10 ^ 2) :
    0 ∉ f.text ∧ f.text.length ≤ 30 ∧ ∀ e ∈ f.elems, (bopText e).length ≤ 136 := by
  cases h with
  | hit hf he =>
    rename_i tr flags es bs
    refine ⟨?_, ?_, fun e he' => each_forall (P := fun e => (bopText e).length ≤ 136) (fun _ _ h => bopText_len h) he e he'⟩
    · simp only [Found.text]; cases tr <;> simp [showNat_nz]
    · have := u32_len hf
      have := showNat_len 1 es.length hc
      simp only [Found.text]; cases tr <;> simp <;> omega
  | status hs =>
    obtain ⟨h1, h2, _, _, h0, hl⟩ := status_text hs
    rw [h1, h2]
    refine ⟨by simp [h0], by simp; omega, fun e he => (by cases he)⟩

theorem mgetOne_ok {count : Nat} (s : St) (t : List Nat) (r : List Nat × Found) (hc : count ≤ 50)
    (hr' : ∃ x, StoredA count r x) (h : Ok s t) (hr : s.ptr + (30 + count * 144) + 1 ≤ s.mem.length) :
    ∃ s', mgetOne s r = some s' ∧ Ok s' (t ++ mgetText r) ∧ s'.mem.length = s.mem.length ∧ s'.ptr ≤ s.ptr + (30 + count * 144) := by
  obtain ⟨x, _, ha, hn⟩ := hr'
  obtain ⟨h0, hl, he⟩ := answer_text ha (by omega)
  obtain ⟨m1, e1, g1, s1⟩ := sprintf_spec (mem := s.mem) (p := s.ptr) (w := r.2.text) (by omega) h0
  have o1 := ((h.ext [86, 65, 76, 85, 69, 32]).ext r.1).buf (s := ext (ext s [86, 65, 76, 85, 69, 32]) r.1) g1
  have hm : r.2.elems.length * 144 ≤ count * 144 := Nat.mul_le_mul_right _ hn
  obtain ⟨s2, e2, o2, l2, p2⟩ := each_ok (P := fun e => (bopText e).length ≤ 136) (c := 144)
    (fun s t e he h hr => bopElem_ok [69, 76, 69, 77, 69, 78, 84, 32] (by decide) s t e (by simp only [List.length_cons, List.length_nil]; omega) h hr)
    r.2.elems _ _ he o1 (by have := g1.1; simp only; omega)
  simp only at l2 p2
  refine ⟨s2, ?_, ?_, by have := g1.1; omega, by omega⟩
  · simp only [mgetOne, e1, s1, Option.bind_eq_bind, Option.bind_some]
    rw [← e2]; simp [ext]
  · rw [mgetText, ← List.append_assoc, ← List.append_assoc, ← List.append_assoc]
    exact o2

theorem mget_read {count : Nat} {rs : List (List Nat × Found)} {xs : List (List Nat × Ans)} (h : Each (StoredA count) rs xs)
    (hw : ∀ r ∈ rs, Word r.1) : ∀ (k : Nat), rs.length < k → ∀ rest, Spec.mget k (rs.flatMap mgetText ++ tEnd ++ rest) = some (xs, rest) := by
  induction h with
  | nil => intro k hk rest; obtain ⟨k, rfl⟩ : ∃ k', k = k' + 1 := ⟨k - 1, by simp at hk; omega⟩; rfl
  | cons hx _ ih =>
    rename_i r x rs xs hrs
    intro k hk rest
    obtain ⟨k, rfl⟩ : ∃ k', k = k' + 1 := ⟨k - 1, by simp at hk; omega⟩
    have ih := ih (fun y hy => hw y (List.mem_cons_of_mem _ hy)) k (by simp at hk; omega) rest
    obtain ⟨hw1, hw2, hw3⟩ := hw r List.mem_cons_self
    obtain ⟨key, f⟩ := r
    obtain ⟨key', a⟩ := x
    obtain ⟨rfl, ha, _⟩ := hx
    simp only at ha hw1 hw2 hw3
    cases ha with
    | hit hf he =>
      rename_i tr flags es bs _
      have e : ((key, Found.hit tr flags es) :: rs).flatMap mgetText ++ tEnd ++ rest =
          ([86, 65, 76, 85, 69] ++ [32] ++ key ++ [32] ++ (if tr then [84, 82, 73, 77, 77, 69, 68] else [79, 75]) ++ [32] ++ showNat flags ++ [32] ++ showNat es.length)
            ++ [13, 10] ++ ((es.flatMap fun e => [69, 76, 69, 77, 69, 78, 84, 32] ++ bopAll e) ++ (rs.flatMap mgetText ++ tEnd ++ rest)) := by
        simp [mgetText, Found.text, Found.elems]
      rw [e, Spec.mget, line_end (by cases tr <;> simp [showNat10, hw3])]
      simp only [Option.bind_eq_bind, Option.bind_some]
      rw [words_five (by decide) hw2 (by cases tr <;> decide) (showNat32 _) (showNat32 _)]
      have ht := times_read (fun a b r h => element_read h) he (rs.flatMap mgetText ++ tEnd ++ rest)
      cases tr <;> simp only [number_showNat, Option.bind_some, ht, ih, List.cons.injEq, Nat.reduceEqDiff, reduceCtorEq, false_and, and_false, if_false,
        if_true, Bool.false_eq_true]
    | status hs =>
      rename_i w
      obtain ⟨h1, h2, h3, h4, h5, _⟩ := status_text hs
      have e : ((key, f) :: rs).flatMap mgetText ++ tEnd ++ rest =
          ([86, 65, 76, 85, 69] ++ [32] ++ key ++ [32] ++ w) ++ [13, 10] ++ (rs.flatMap mgetText ++ tEnd ++ rest) := by
        simp [mgetText, h1, h2]
      rw [e, Spec.mget, line_end (by simp [h4, hw3])]
      simp only [Option.bind_eq_bind, Option.bind_some]
      rw [words_three (by decide) hw2 h3]
      simp only [ih, Option.bind_some]

/-! ## `bop smget` -/

/-- The text of an element of a merged reply. -/
def smText (x : List Nat × Nat × Elem) : List Nat := x.1 ++ ([32] ++ showNat x.2.1 ++ [32] ++ bopAll x.2.2)

theorem selem_read {x : List Nat × Nat × Elem} {y : List Nat × Nat × BElem} {r : List Nat} (h : StoredS x y) (hw : Word x.1) :
    selem (smText x ++ r) = some (y, r) := by
  obtain ⟨k, f, e⟩ := x
  obtain ⟨k', f', y⟩ := y
  obtain ⟨rfl, rfl, _, h⟩ := h
  have e1 : smText (k, f, e) ++ r = k ++ 32 :: (showNat f ++ 32 :: (bopAll e ++ r)) := by simp [smText]
  rw [selem, e1, word_app hw.2.1]
  simp only [Option.bind_eq_bind, Option.bind_some]
  rw [word_app (showNat32 _)]
  simp only [Option.bind_some, number_showNat]
  rw [belem_read h]; rfl

theorem smElem_ok (s : St) (t : List Nat) (x : List Nat × Nat × Elem) (hx : ∃ y, StoredS x y) (h : Ok s t) (hr : s.ptr + 148 + 1 ≤ s.mem.length) :
    ∃ s', smElem s x = some s' ∧ Ok s' (t ++ smText x) ∧ s'.mem.length = s.mem.length ∧ s'.ptr ≤ s.ptr + 148 := by
  obtain ⟨y, _, hf, hf2, hs⟩ := hx
  have := bopText_len hs
  have := u32_len (hf ▸ hf2)
  obtain ⟨s1, e1, o1, l1, p1⟩ := bopElem_ok (c := 148) ([32] ++ showNat x.2.1 ++ [32]) (by simp [showNat_nz]) (ext s x.1) (t ++ x.1) x.2.2
    (by simp only [List.length_append, List.length_cons, List.length_nil]; omega) (h.ext x.1) hr
  refine ⟨s1, e1, ?_, l1, p1⟩
  rw [smText, ← List.append_assoc]; exact o1

/-- The text of a missed key. -/
def missAll (x : List Nat × Found) : List Nat := x.1 ++ missText x.2

theorem miss_text {x : List Nat × Found} {y : List Nat × List Nat} (h : StoredMiss x y) : missText x.2 = [32] ++ y.2 ++ [13, 10] ∧ 32 ∉ y.2 ∧ 10 ∉ y.2 := by
  obtain ⟨_, h2, h3⟩ := h
  obtain ⟨h4, _, h5, h6, _⟩ := status_text h3
  refine ⟨?_, h5, h6⟩
  rw [← h4]
  rcases h2 with h | h | h <;> rw [h] <;> rfl

theorem miss_read {x : List Nat × Found} {y : List Nat × List Nat} {r : List Nat} (h : StoredMiss x y) (hw : Word x.1) : miss (missAll x ++ r) = some (y, r) := by
  obtain ⟨h1, h2, h3⟩ := miss_text h
  obtain ⟨k, c⟩ := x
  obtain ⟨k', w⟩ := y
  obtain ⟨rfl, _, _⟩ := h
  simp only at h1 h2 h3
  have e1 : missAll (k, c) ++ r = (k ++ 32 :: w) ++ [13, 10] ++ r := by simp [missAll, h1]
  rw [miss, e1, line_end (by simp [hw.2.2, h3])]
  simp only [Option.bind_eq_bind, Option.bind_some]
  rw [words_app hw.2.1, words_one h2]

theorem smMiss_ok (s : St) (t : List Nat) (x : List Nat × Found) (_ : True) (h : Ok s t) (_ : s.ptr + 0 + 1 ≤ s.mem.length) :
    ∃ s', smMiss s x = some s' ∧ Ok s' (t ++ missAll x) ∧ s'.mem.length = s.mem.length ∧ s'.ptr ≤ s.ptr + 0 := by
  refine ⟨_, rfl, ?_, rfl, Nat.le_refl _⟩
  rw [missAll, ← List.append_assoc]
  exact (h.ext x.1).ext (missText x.2)

/-- The text of a trimmed key. -/
def trimAll (x : List Nat × BKey) : List Nat := x.1 ++ trimText x.2

theorem trim_read {x : List Nat × BKey} {r : List Nat} (h : BkeyOk x.2) (hw : Word x.1) : trim (trimAll x ++ r) = some (x, r) := by
  obtain ⟨k, b⟩ := x
  simp only at h
  have e1 : trimAll (k, b) ++ r = (k ++ 32 :: bkeyText b) ++ [13, 10] ++ r := by simp [trimAll, trimText]
  rw [trim, e1, line_end (by simp [hw.2.2, bkeyText_not h])]
  simp only [Option.bind_eq_bind, Option.bind_some]
  rw [words_app hw.2.1, words_one (bkeyText_not h (by omega))]
  simp only [bkey_read h, Option.bind_some]

theorem smTrim_ok (s : St) (t : List Nat) (x : List Nat × BKey) (hx : BkeyOk x.2) (h : Ok s t) (hr : s.ptr + 67 + 1 ≤ s.mem.length) :
    ∃ s', smTrim s x = some s' ∧ Ok s' (t ++ trimAll x) ∧ s'.mem.length = s.mem.length ∧ s'.ptr ≤ s.ptr + 67 := by
  have hl : (trimText x.2).length ≤ 67 := by
    have := bkeyText_len hx
    simp only [trimText, List.length_append, List.length_cons, List.length_nil]; omega
  obtain ⟨m1, p1, e1, g1⟩ := makeTrim_spec (mem := s.mem) (p := s.ptr) (k := x.2) (by omega)
  have o1 := (h.ext x.1).buf (s := ext s x.1) g1
  refine ⟨_, by simp [smTrim, e1]; rfl, ?_, g1.1, by have := g1.2.1; simp only; omega⟩
  rw [trimAll, ← List.append_assoc]
  exact o1

theorem oldMiss_ok (s : St) (t : List Nat) (k : List Nat) (_ : True) (h : Ok s t) (_ : s.ptr + 0 + 1 ≤ s.mem.length) :
    ∃ s', oldMiss s k = some s' ∧ Ok s' (t ++ (k ++ [13, 10])) ∧ s'.mem.length = s.mem.length ∧ s'.ptr ≤ s.ptr + 0 := by
  refine ⟨_, rfl, ?_, rfl, Nat.le_refl _⟩
  rw [← List.append_assoc]
  exact (h.ext k).ext [13, 10]

theorem each_self {α : Type} {P : α → Prop} : ∀ {l : List α}, (∀ x ∈ l, P x) → Each (fun a b => a = b ∧ P b) l l := by
  intro l
  induction l with
  | nil => intro _; exact .nil
  | cons x l ih => intro h; exact .cons ⟨rfl, h x List.mem_cons_self⟩ (ih fun y hy => h y (List.mem_cons_of_mem _ hy))

theorem each_and {α β : Type} {R : α → β → Prop} {P : α → Prop} {as : List α} {bs : List β} (h : Each R as bs) :
    (∀ x ∈ as, P x) → Each (fun a b => R a b ∧ P a) as bs := by
  induction h with
  | nil => intro _; exact .nil
  | cons h1 _ ih => intro h; exact .cons ⟨h1, h _ List.mem_cons_self⟩ (ih fun y hy => h y (List.mem_cons_of_mem _ hy))

theorem bmod_small {i : Int} (h1 : 0 ≤ i) (h2 : i < 2147483648) : i.bmod 4294967296 = i := by
  simp only [Int.bmod]
  split <;> omega

theorem toInt_small {n : Nat} (h : n < 2147483648) : toInt n = n := bmod_small (by omega) (by omega)

theorem smgetSize_eq {numkeys count : Nat} (hk : numkeys ≤ 10000) (hc : count ≤ 2000) :
    smgetSize numkeys count = some (smgetPtr numkeys count + (80 + count * 158 + numkeys * 69)) := by
  have e : (count + numkeys) % 4294967296 = count + numkeys := Nat.mod_eq_of_lt (by omega)
  have e1 := toInt_small (n := (count + numkeys) * 8) (by omega)
  have e2 := toInt_small (n := count * 8) (by omega)
  have e3 := toInt_small (n := numkeys * 4) (by omega)
  have e4 := toInt_small (n := count * ((31 * 2 + 2) + (31 * 2 + 2) + 10 * 2 + 10) + numkeys * ((31 * 2 + 2) + 5)) (by omega)
  have e5 := bmod_small (i := (((count + numkeys) * 8 : Nat) : Int) + ((count * 8 : Nat) : Int) + ((numkeys * 4 : Nat) : Int) + (3 * ((10 : Nat) : Int) + 50) +
    ((count * ((31 * 2 + 2) + (31 * 2 + 2) + 10 * 2 + 10) + numkeys * ((31 * 2 + 2) + 5) : Nat) : Int)) (by omega) (by omega)
  simp only [smgetSize, smgetPtr, u32Len, bkeyMax, show (2 : Nat) ^ 32 = 4294967296 from rfl, e, e1, e2, e3, e4, e5]
  rw [if_pos (by omega)]
  simp only [Option.some.injEq]
  omega

end Verif.Resp
