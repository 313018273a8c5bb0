import Verif.Lemmas.Attr
/-! # Lemmas about the text and binary forms of `setattr`, and about `getattr` -/
namespace Verif.Attr
open Verif.BT Verif.BT.Spec Verif.Util Verif.Util.Spec Verif.Attr.Spec

/-! ## Numbers are read to the end of the string -/

theorem dropWhile_nul {p : Nat → Bool} (hp : p 0 = false) : ∀ v : List Nat, ∃ w, (v ++ [0]).dropWhile p = w ++ [0]
  | [] => ⟨[], by simp [hp]⟩
  | c :: v => by
    obtain ⟨w, hw⟩ := dropWhile_nul hp v
    by_cases hc : p c = true
    · exact ⟨w, by rw [List.cons_append, List.dropWhile_cons_of_pos hc, hw]⟩
    · exact ⟨c :: v, by rw [List.cons_append, List.dropWhile_cons_of_neg hc]⟩

theorem scan_total (v : List Nat) : ∃ s, scanNum (v ++ [0]) = some s := by
  have hs : ∃ neg w, signPart (v ++ [0]) = some (neg, w ++ [0]) := by
    obtain ⟨w, hw⟩ := dropWhile_nul (p := isspace) (by decide) v
    unfold signPart
    rw [hw]
    cases w with
    | nil => exact ⟨false, [], by simp⟩
    | cons c w =>
      simp only [List.cons_append]
      split
      · exact ⟨true, w, rfl⟩
      · split
        · exact ⟨false, w, rfl⟩
        · exact ⟨false, c :: w, rfl⟩
  obtain ⟨neg, w, hw⟩ := hs
  obtain ⟨x, hx⟩ := dropWhile_nul (p := isdigit) (by decide) w
  unfold scanNum
  simp only [hw, hx]
  cases x <;> simp only [List.nil_append, List.cons_append] <;> split <;> exact ⟨_, rfl⟩

theorem strtoll_total (v : List Nat) : ∃ r, safeStrtoll (v ++ [0]) = some r := by
  obtain ⟨s, hs⟩ := scan_total v
  unfold safeStrtoll
  rw [hs]; simp only
  repeat' split
  all_goals exact ⟨_, rfl⟩

theorem strtol_total (v : List Nat) : ∃ r, safeStrtol (v ++ [0]) = some r := by
  obtain ⟨s, hs⟩ := scan_total v
  unfold safeStrtol
  rw [hs]; simp only
  repeat' split
  all_goals exact ⟨_, rfl⟩

theorem strchr_total : ∀ v : List Nat, ∃ r, strchrMinus (v ++ [0]) = some r
  | [] => ⟨false, by simp [strchrMinus]⟩
  | c :: v => by
    obtain ⟨r, hr⟩ := strchr_total v
    simp only [List.cons_append, strchrMinus, hr]
    repeat' split
    all_goals exact ⟨_, rfl⟩

theorem strtoull_total (v : List Nat) : ∃ r, safeStrtoull (v ++ [0]) = some r ∧ ∀ n, r = some n → n < 2 ^ 64 := by
  obtain ⟨s, hs⟩ := scan_total v
  obtain ⟨b, hb⟩ := strchr_total v
  unfold safeStrtoull
  rw [hs, hb]; simp only
  by_cases h1 : 2 ^ 64 ≤ digitsVal s.digits
  · rw [if_pos h1]; exact ⟨none, rfl, by simp⟩
  · rw [if_neg h1]
    have hu : (if s.neg = true then (2 ^ 64 - digitsVal s.digits) % 2 ^ 64 else digitsVal s.digits) < 2 ^ 64 := by
      split <;> omega
    generalize (if s.neg = true then (2 ^ 64 - digitsVal s.digits) % 2 ^ 64 else digitsVal s.digits) = u at hu ⊢
    by_cases h2 : endOk s = true
    · rw [if_pos h2]
      split
      · cases b
        · exact ⟨some u, rfl, by rintro n ⟨⟩; exact hu⟩
        · exact ⟨none, rfl, by simp⟩
      · exact ⟨some u, rfl, by rintro n ⟨⟩; exact hu⟩
    · rw [if_neg h2]; exact ⟨none, rfl, by simp⟩

theorem hex_valid {v b : List Nat} (hx : HexString v b) : ∀ x ∈ b, x < 256 := by
  induction hx with
  | nil => simp
  | cons ha hb _ ih =>
    intro x hx
    rcases List.mem_cons.mp hx with rfl | hx
    · unfold HexDigit at ha hb; omega
    · exact ih x hx

theorem bkey_total (v : List Nat) : ∃ r, bkeyFromStr v = some r ∧ ∀ k, r = some k → ValidKey k := by
  unfold bkeyFromStr
  split
  · cases h : safeStrtohexa (v.drop 2) 31 with
    | none => exact ⟨none, rfl, by simp⟩
    | some b =>
      obtain ⟨h1, h2, h3⟩ := (Verif.Util.Props.C44_decode_iff _ _ _).mp h
      exact ⟨_, rfl, by rintro k ⟨⟩; exact ⟨h2, h3, hex_valid h1⟩⟩
  · obtain ⟨r, h, hr⟩ := strtoull_total v
    simp only [h]
    cases r with
    | none => exact ⟨none, rfl, by simp⟩
    | some n => exact ⟨_, rfl, by rintro k ⟨⟩; exact hr n rfl⟩

/-! ## Any arguments -/

theorem splitEq_some : ∀ {t n v : List Nat}, splitEq t = some (n, v) → t = n ++ 61 :: v
  | [], n, v, h => by simp [splitEq] at h
  | c :: r, n, v, h => by
    unfold splitEq at h
    split at h
    · next hc => simp only [Option.some.injEq, Prod.mk.injEq] at h; obtain ⟨rfl, rfl⟩ := h; simp [hc]
    · cases hr : splitEq r with
      | none => simp [hr] at h
      | some x =>
        obtain ⟨a, b⟩ := x
        simp only [hr, Option.some.injEq, Prod.mk.injEq] at h
        obtain ⟨rfl, rfl⟩ := h
        simp [splitEq_some hr]

theorem asks_name {t : List Nat} {r : Req} (h : Asks t r) : ∃ v, t = nameText (idOf r) ++ 61 :: v := by
  cases h with
  | @exptime v => exact ⟨v, by rw [show str "expiretime=" = nameText .exptime ++ [61] by decide]; simp [idOf]⟩
  | @maxcount v => exact ⟨v, by rw [show str "maxcount=" = nameText .maxcount ++ [61] by decide]; simp [idOf]⟩
  | @ovfl w => exact ⟨str w, by rw [show str "overflowaction=" = nameText .ovfl ++ [61] by decide]; simp [idOf]⟩
  | readable => exact ⟨str "on", by decide⟩
  | @number v => exact ⟨v, by rw [show str "maxbkeyrange=" = nameText .maxrange ++ [61] by decide]; simp [idOf]⟩
  | @remove v => exact ⟨v, by rw [show str "maxbkeyrange=" = nameText .maxrange ++ [61] by decide]; simp [idOf]⟩
  | @bytes v => exact ⟨48 :: 120 :: v, by rw [show str "maxbkeyrange=0x" = nameText .maxrange ++ [61, 48, 120] by decide]; simp [idOf]⟩

theorem ovflOf_word {v : List Nat} {o : Nat} (h : Attr.ovflOf v = some o) : ∃ w, (w, o) ∈ words ∧ v = str w := by
  unfold Attr.ovflOf at h
  split at h
  · next e => cases h; exact ⟨_, by simp [words], e⟩
  · split at h
    · next e => cases h; exact ⟨"head_trim", by simp [words], e⟩
    · split at h
      · next e => cases h; exact ⟨"tail_trim", by simp [words], e⟩
      · split at h
        · next e => cases h; exact ⟨"smallest_trim", by simp [words], e⟩
        · split at h
          · next e => cases h; exact ⟨"largest_trim", by simp [words], e⟩
          · split at h
            · next e => cases h; exact ⟨"smallest_silent_trim", by simp [words], e⟩
            · split at h
              · next e => cases h; exact ⟨"largest_silent_trim", by simp [words], e⟩
              · cases h

theorem parse_name (cfg : Cfg) (d : Data) {ids : List AttrId} (h : ids.length < 11) (t : List Nat) :
    ∃ p, parseTok cfg ids d t = some p ∧ ∀ ids' d', p = .ok ids' d' →
      ∃ r, ReqOk r ∧ ids' = ids ++ [idOf r] ∧ d' = put cfg d r ∧ (∃ v, t = nameText (idOf r) ++ 61 :: v) ∧
        (idOf r = .ovfl ∨ idOf r = .readable → Asks t r) := by
  unfold parseTok
  cases hsp : splitEq t with
  | none => exact ⟨_, rfl, by simp⟩
  | some x =>
    obtain ⟨name, value⟩ := x
    have ht := splitEq_some hsp
    simp only [push_ok _ h]
    split
    · obtain ⟨r, hr⟩ := strtoll_total value
      simp only [hr]
      cases r with
      | none => exact ⟨_, rfl, by simp⟩
      | some e => exact ⟨_, rfl, by rintro _ _ ⟨⟩; exact ⟨.exptime e, trivial, rfl, rfl, ⟨value, by subst name; exact ht⟩, by simp [idOf]⟩⟩
    · split
      · obtain ⟨r, hr⟩ := strtol_total value
        simp only [hr]
        cases r with
        | none => exact ⟨_, rfl, by simp⟩
        | some e => exact ⟨_, rfl, by rintro _ _ ⟨⟩; exact ⟨.maxcount e, trivial, rfl, rfl, ⟨value, by subst name; exact ht⟩, by simp [idOf]⟩⟩
      · split
        · cases ho : Attr.ovflOf value with
          | none => exact ⟨_, rfl, by simp⟩
          | some o => exact ⟨_, rfl, by rintro _ _ ⟨⟩; exact ⟨.ovfl o, trivial, rfl, rfl, ⟨value, by subst name; exact ht⟩, fun _ => by
              obtain ⟨w, hw, rfl⟩ := ovflOf_word ho
              subst name
              rw [ht, show str "overflowaction" ++ 61 :: str w = str "overflowaction=" ++ str w by
                rw [show str "overflowaction=" = str "overflowaction" ++ [61] by decide]; simp]
              exact .ovfl hw⟩⟩
        · split
          · split
            · exact ⟨_, rfl, by rintro _ _ ⟨⟩; exact ⟨.readable 1, trivial, rfl, rfl, ⟨value, by subst name; exact ht⟩, fun _ => by
                subst name value; rw [ht]; exact .readable⟩⟩
            · exact ⟨_, rfl, by simp⟩
          · split
            · obtain ⟨r, hr, hv⟩ := bkey_total value
              simp only [hr]
              cases r with
              | none => exact ⟨_, rfl, by simp⟩
              | some k =>
                refine ⟨_, rfl, ?_⟩
                rintro _ _ ⟨⟩
                refine ⟨.range (if k = .num 0 then none else some k), ?_, rfl, rfl, ⟨value, by subst name; exact ht⟩, by simp [idOf]⟩
                split
                · trivial
                · exact hv k rfl
            · exact ⟨_, rfl, by simp⟩

theorem parse_any (cfg : Cfg) (d : Data) {ids : List AttrId} (h : ids.length < 11) (t : List Nat) :
    ∃ p, parseTok cfg ids d t = some p ∧ ∀ ids' d', p = .ok ids' d' → ∃ r, ReqOk r ∧ ids' = ids ++ [idOf r] ∧ d' = put cfg d r ∧ For t r := by
  by_cases ha : ∃ r', Asks t r'
  · obtain ⟨r, hr⟩ := ha
    refine ⟨_, parse_tok cfg d h hr, ?_⟩
    rintro _ _ ⟨⟩
    exact ⟨r, asks_ok hr, rfl, rfl, asks_name hr, fun _ => hr, fun _ => hr⟩
  · obtain ⟨p, hp, hr⟩ := parse_name cfg d h t
    refine ⟨p, hp, fun ids' d' he => ?_⟩
    obtain ⟨r, r1, r2, r3, r4, r5⟩ := hr ids' d' he
    exact ⟨r, r1, r2, r3, r4, fun x => absurd x ha, r5⟩

theorem parse_loop_any (cfg : Cfg) : ∀ (ts : List (List Nat)) (ids : List AttrId) (d : Data), ids.length + ts.length ≤ 11 →
    ∃ p, parseLoop cfg ids d ts = some p ∧
      ∀ ids' d', p = .ok ids' d' → ∃ rs : List Req, (∀ r ∈ rs, ReqOk r) ∧ ids' = ids ++ rs.map idOf ∧ d' = rs.foldl (put cfg) d ∧ ForAll ts rs
  | [], ids, d, _ => ⟨_, rfl, by rintro _ _ ⟨⟩; exact ⟨[], by simp, by simp, rfl, .nil⟩⟩
  | t :: ts, ids, d, hl => by
    simp only [List.length_cons] at hl
    obtain ⟨p, hp, hr⟩ := parse_any cfg d (show ids.length < 11 by omega) t
    simp only [parseLoop, hp]
    cases p with
    | ok ids1 d1 =>
      obtain ⟨r, r1, rfl, rfl, r4⟩ := hr _ _ rfl
      obtain ⟨q, hq, hqr⟩ := parse_loop_any cfg ts (ids ++ [idOf r]) (put cfg d r)
        (by simp only [List.length_append, List.length_cons, List.length_nil]; omega)
      refine ⟨q, hq, ?_⟩
      intro ids' d' he
      obtain ⟨rs, s1, s2, s3, s4⟩ := hqr ids' d' he
      refine ⟨r :: rs, ?_, by rw [s2]; simp, by rw [s3]; rfl, .cons r4 s4⟩
      intro x hx
      rcases List.mem_cons.mp hx with rfl | hx
      · exact r1
      · exact s1 x hx
    | _ => exact ⟨_, rfl, by simp⟩

/-! ## The binary request -/

theorem beVal_eq (b : List Nat) : beVal b = val b := rfl

theorem val_lt : ∀ (b : List Nat) (n : Nat), (∀ x ∈ b, x < 256) → b.foldl (fun n x => 256 * n + x) n < (n + 1) * 256 ^ b.length
  | [], n, _ => by simp
  | c :: b, n, h => by
    have hc := h c (by simp)
    have ih := val_lt b (256 * n + c) (fun x hx => h x (by simp [hx]))
    simp only [List.foldl_cons, List.length_cons, Nat.pow_succ]
    refine Nat.lt_of_lt_of_le ih ?_
    rw [Nat.mul_comm (256 ^ b.length) 256, ← Nat.mul_assoc]
    exact Nat.mul_le_mul_right _ (by omega)

theorem binReqs_ok {q : BinReq} (hq : BinOk q) (hl : q.rlen ≤ 31 ∨ q.rlen = 255) : ∀ r ∈ binReqs q, ReqOk r := by
  obtain ⟨h1, h2, h3⟩ := hq
  intro r hr
  simp only [binReqs, List.mem_append] at hr
  rcases hr with (((hr | hr) | hr) | hr) | hr
  · split at hr <;> simp at hr; subst hr; trivial
  · split at hr <;> simp at hr; subst hr; trivial
  · split at hr
    · simp at hr
    · split at hr
      · simp only [List.mem_cons, List.not_mem_nil, or_false] at hr; subst hr
        have hv := val_lt (q.rval.take 8) 0 (fun x hx => h2 x (List.mem_of_mem_take hx))
        have h8 : (q.rval.take 8).length = 8 := by rw [List.length_take]; omega
        rw [h8] at hv
        show val (q.rval.take 8) < 2 ^ 64
        unfold val
        omega
      · simp only [List.mem_cons, List.not_mem_nil, or_false] at hr; subst hr
        have : (q.rval.take q.rlen).length = q.rlen := by rw [List.length_take]; omega
        exact ⟨by omega, by omega, fun x hx => h2 x (List.mem_of_mem_take hx)⟩
  · split at hr <;> simp at hr; subst hr; trivial
  · split at hr <;> simp at hr; subst hr; trivial

theorem bin_call (cfg : Cfg) (s : Option It) {q : BinReq} (hl : q.rlen ≤ 31 ∨ q.rlen = 255) :
    binSetattr cfg s q = itemSetattr cfg s ((binReqs q).map idOf) ((binReqs q).foldl (put cfg) Data.start) := by
  unfold binSetattr binReqs binRange
  by_cases h255 : q.rlen = 255
  · by_cases h1 : q.exptimeF = 0 <;> by_cases h2 : q.maxcountF = 0 <;> by_cases h3 : q.ovfl = 0 <;> by_cases h4 : q.readable = 0 <;>
      simp [h255, h1, h2, h3, h4, idOf, put, Data.start, timeOf]
  · by_cases h0 : q.rlen = 0
    · by_cases h1 : q.exptimeF = 0 <;> by_cases h2 : q.maxcountF = 0 <;> by_cases h3 : q.ovfl = 0 <;> by_cases h4 : q.readable = 0 <;>
        simp [h0, h1, h2, h3, h4, idOf, put, Data.start, timeOf, beVal_eq]
    · have hn : ¬ 31 < q.rlen := by omega
      by_cases h1 : q.exptimeF = 0 <;> by_cases h2 : q.maxcountF = 0 <;> by_cases h3 : q.ovfl = 0 <;> by_cases h4 : q.readable = 0 <;>
        simp [h255, h0, hn, h1, h2, h3, h4, idOf, put, Data.start, timeOf]

/-! ## `getattr` -/

theorem nameOf_text (i : AttrId) : nameOf (nameText i) = some i := by
  cases i <;> decide +kernel

theorem names_loop : ∀ (l ids : List AttrId), ids.length + l.length ≤ 11 → namesLoop ids (l.map nameText) = some (some (ids ++ l))
  | [], ids, _ => by simp [namesLoop]
  | i :: l, ids, h => by
    simp only [List.length_cons] at h
    simp only [List.map_cons, namesLoop, nameOf_text, push_ok i (show ids.length < 11 by omega)]
    rw [names_loop l _ (by simp only [List.length_append, List.length_cons, List.length_nil]; omega)]
    simp

theorem refused_iff (k : Kind) (i : AttrId) (h : k = .btree ∨ (i ≠ .minbkey ∧ i ≠ .maxbkey)) : refused k i = true ↔ ¬ Has k i := by
  cases k <;> cases i <;> simp_all [refused, Has]

theorem val_eq {cfg : Cfg} {it : It} {ids : List AttrId} {o : Out} (ho : doGetattr cfg it ids = some o) {i : AttrId} (hi : Has it.kind i) :
    attrVal o i = some (valueOf cfg it i) := by
  unfold doGetattr at ho
  split at ho
  · cases ho
  · simp only at ho
    split at ho
    · next hk =>
      simp only [Option.some.injEq] at ho; subst ho
      cases i <;> simp [Has, hk] at hi <;> simp [attrVal, valueOf]
    · split at ho
      · next hk =>
        simp only [Option.some.injEq] at ho; subst ho
        by_cases hc : it.ccnt = 0
        · cases i <;> simp [attrVal, valueOf, limit_eq, hc]
        · have : 0 < it.ccnt := by omega
          cases i <;> simp [attrVal, valueOf, limit_eq, hc, this]
      · next hk =>
        simp only [Option.some.injEq] at ho; subst ho
        cases i <;> simp [Has, hk] at hi <;> simp [attrVal, valueOf, limit_eq]

theorem lines_eq {cfg : Cfg} {it : It} {ids : List AttrId} {o : Out} (ho : doGetattr cfg it ids = some o) :
    ∀ l : List AttrId, (∀ i ∈ l, Has it.kind i) → linesOf o l = some (l.map fun i => (i, valueOf cfg it i))
  | [], _ => rfl
  | i :: l, h => by
    simp only [linesOf, val_eq ho (h i (by simp)), lines_eq ho l (fun j hj => h j (by simp [hj])), List.map_cons]

theorem get_kind {cfg : Cfg} {it : It} {ids : List AttrId} {o : Out} (ho : doGetattr cfg it ids = some o) : o.kind = it.kind := by
  unfold doGetattr at ho
  split at ho
  · cases ho
  · simp only at ho
    split at ho
    · simp only [Option.some.injEq] at ho; subst ho; rfl
    · split at ho <;> (simp only [Option.some.injEq] at ho; subst ho; rfl)

theorem all_has (k : Kind) : ∀ i ∈ allAttrs k, Has k i := by
  cases k <;> simp [allAttrs, Has]

end Verif.Attr
