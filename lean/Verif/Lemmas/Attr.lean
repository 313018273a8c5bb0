import Verif.Spec.Attr
import Verif.Lemmas.BTreeFacts
import Verif.Props.Util
/-! # Lemmas about `setattr` and `getattr` -/
namespace Verif.Attr
open Verif.BT Verif.BT.Spec Verif.Util Verif.Util.Spec Verif.Attr.Spec

/-- `attr_data` with a request. -/
def put (cfg : Cfg) (d : Data) : Req → Data
  | .exptime e => { d with exptime := some (timeOf cfg e) }
  | .maxcount m => { d with maxcount := some m }
  | .ovfl o => { d with ovfl := some o }
  | .readable v => { d with readable := some v }
  | .range r => { d with maxRange := some r }

/-! ## Reading the text -/

theorem splitEq_app : ∀ {n v : List Nat}, 61 ∉ n → splitEq (n ++ 61 :: v) = some (n, v)
  | [], v, _ => by simp [splitEq]
  | c :: n, v, h => by
    have h1 : c ≠ 61 := fun e => h (by simp [e])
    have h2 : 61 ∉ n := fun e => h (by simp [e])
    simp only [List.cons_append, splitEq, if_neg h1, splitEq_app h2]

theorem number_head {v : List Nat} {neg n} (h : Number v neg n) : ∀ c r, v = c :: r → ¬ Space c := by
  obtain ⟨sign, ds, tail, rfl, hs, hd, hdd, -, -⟩ := h
  intro c r e
  cases ds with
  | nil => exact absurd rfl hd
  | cons d ds =>
    have hd := hdd d (by simp)
    unfold Digit at hd
    unfold Space
    rcases hs with ⟨-, rfl | rfl⟩ | ⟨-, rfl⟩
    all_goals simp only [List.nil_append, List.cons_append, List.cons.injEq] at e
    all_goals omega

theorem number_not0x {v : List Nat} {neg n} (h : Number v neg n) : is0x v = false := by
  obtain ⟨sign, ds, tail, rfl, hs, hd, hdd, -, ht⟩ := h
  unfold is0x
  simp only [decide_eq_false_iff_not]
  intro e
  cases ds with
  | nil => exact absurd rfl hd
  | cons d ds =>
    have hd := hdd d (by simp)
    unfold Digit at hd
    rcases hs with ⟨-, rfl | rfl⟩ | ⟨-, rfl⟩
    · cases ds with
      | nil =>
        rcases ht with rfl | ⟨c, r, rfl, hc⟩
        · simp at e
        · unfold Space at hc
          simp at e; omega
      | cons d2 ds =>
        have := hdd d2 (by simp)
        unfold Digit at this
        simp at e; omega
    · simp at e
    · simp at e

theorem push_ok {ids : List AttrId} (i : AttrId) (h : ids.length < 11) : push ids i = some (ids ++ [i]) := by
  unfold push; exact if_pos h

theorem strEq (v : List Nat) :
    str "expiretime=" ++ v = str "expiretime" ++ 61 :: v ∧ str "maxcount=" ++ v = str "maxcount" ++ 61 :: v ∧
    str "overflowaction=" ++ v = str "overflowaction" ++ 61 :: v ∧ str "maxbkeyrange=" ++ v = str "maxbkeyrange" ++ 61 :: v := by
  refine ⟨?_, ?_, ?_, ?_⟩
  · rw [show str "expiretime=" = str "expiretime" ++ [61] by decide +kernel, List.append_assoc]; rfl
  · rw [show str "maxcount=" = str "maxcount" ++ [61] by decide +kernel, List.append_assoc]; rfl
  · rw [show str "overflowaction=" = str "overflowaction" ++ [61] by decide +kernel, List.append_assoc]; rfl
  · rw [show str "maxbkeyrange=" = str "maxbkeyrange" ++ [61] by decide +kernel, List.append_assoc]; rfl

theorem parse_range (cfg : Cfg) (d : Data) {ids : List AttrId} (h : ids.length < 11) {v : List Nat} {k : BKey} (hk : bkeyFromStr v = some (some k)) :
    parseTok cfg ids d (str "maxbkeyrange=" ++ v) = some (.ok (ids ++ [.maxrange]) { d with maxRange := some (if k = .num 0 then none else some k) }) := by
  simp only [parseTok, (strEq v).2.2.2, splitEq_app (show 61 ∉ str "maxbkeyrange" by decide +kernel)]
  rw [if_neg (by decide +kernel), if_neg (by decide +kernel), if_neg (by decide +kernel), if_neg (by decide +kernel), if_pos True.intro]
  simp only [hk, push_ok _ h]

theorem bkey_number {v : List Nat} {n : Nat} (h0 : 0 ∉ v) (hm : 45 ∉ v) (hN : Number v false n) (hn : n < 2 ^ 64) :
    bkeyFromStr v = some (some (.num n)) := by
  have h := ((Verif.Util.Props.C42_strtoull_partial v [] h0 (number_head hN) hm).1 n).mpr ⟨hN, hn⟩
  simp only [bkeyFromStr, number_not0x hN, h, Bool.false_eq_true, if_false]

theorem parse_tok (cfg : Cfg) (d : Data) {ids : List AttrId} (h : ids.length < 11) {t : List Nat} {r : Req} (ha : Asks t r) :
    parseTok cfg ids d t = some (.ok (ids ++ [idOf r]) (put cfg d r)) := by
  cases ha with
  | @exptime v neg n h0 hN h1 h2 =>
    have hp := ((Verif.Util.Props.C42_strtoll_partial v [] h0 (number_head hN)).1 _).mpr ⟨neg, n, hN, rfl, h1, h2⟩
    simp only [parseTok, (strEq v).1, splitEq_app (show 61 ∉ str "expiretime" by decide +kernel), if_true, push_ok _ h, hp]
    rfl
  | @maxcount v neg n h0 hN h1 h2 =>
    have hp := ((Verif.Util.Props.C42_strtol_partial v [] h0 (number_head hN)).1 _).mpr ⟨neg, n, hN, rfl, h1, h2⟩
    simp only [parseTok, (strEq v).2.1, splitEq_app (show 61 ∉ str "maxcount" by decide +kernel)]
    rw [if_neg (by decide +kernel), if_pos True.intro]
    simp only [push_ok _ h, hp]
    rfl
  | @ovfl w o hw =>
    simp only [parseTok, (strEq (str w)).2.2.1, splitEq_app (show 61 ∉ str "overflowaction" by decide +kernel)]
    rw [if_neg (by decide +kernel), if_neg (by decide +kernel), if_pos True.intro]
    have ho : Attr.ovflOf (str w) = some o := by
      simp only [words, List.mem_cons, Prod.mk.injEq, List.not_mem_nil, or_false] at hw
      rcases hw with ⟨rfl, rfl⟩ | ⟨rfl, rfl⟩ | ⟨rfl, rfl⟩ | ⟨rfl, rfl⟩ | ⟨rfl, rfl⟩ | ⟨rfl, rfl⟩ | ⟨rfl, rfl⟩ <;> decide +kernel
    simp only [push_ok _ h, ho]
    rfl
  | readable =>
    have hs : splitEq (str "readable=on") = some (str "readable", str "on") := by decide +kernel
    simp only [parseTok, hs]
    rw [if_neg (by decide +kernel), if_neg (by decide +kernel), if_neg (by decide +kernel), if_pos True.intro]
    simp only [push_ok _ h, if_true]
    rfl
  | @number v n h0 hm hN hn hz =>
    rw [parse_range cfg d h (bkey_number h0 hm hN hn), if_neg (by simpa using hz)]
    rfl
  | @remove v h0 hm hN =>
    rw [parse_range cfg d h (bkey_number h0 hm hN (by decide)), if_pos rfl]
    rfl
  | @bytes v b hx h1 h2 =>
    have he : str "maxbkeyrange=0x" ++ v = str "maxbkeyrange=" ++ (48 :: 120 :: v) := by
      rw [show str "maxbkeyrange=0x" = str "maxbkeyrange=" ++ [48, 120] by decide +kernel, List.append_assoc]; rfl
    have hb : bkeyFromStr (48 :: 120 :: v) = some (some (.bin b)) := by
      have hd : (48 :: 120 :: v).drop 2 = v := rfl
      have hi : is0x (48 :: 120 :: v) = true := by simp [is0x]
      simp only [bkeyFromStr, hi, hd, (Verif.Util.Props.C44_decode_iff v b 31).mpr ⟨hx, h1, h2⟩, if_true]
    rw [he, parse_range cfg d h hb, if_neg (by simp)]
    rfl

theorem parse_loop (cfg : Cfg) {ts : List (List Nat)} {rs : List Req} (h : AsksAll ts rs) :
    ∀ (ids : List AttrId) (d : Data), ids.length + rs.length ≤ 11 →
      parseLoop cfg ids d ts = some (.ok (ids ++ rs.map idOf) (rs.foldl (put cfg) d)) := by
  induction h with
  | nil => intro ids d _; simp [parseLoop]
  | @cons t r ts rs ht _ ih =>
    intro ids d hl
    simp only [List.length_cons] at hl
    simp only [parseLoop, parse_tok cfg d (show ids.length < 11 by omega) ht]
    rw [ih _ _ (by simp only [List.length_append, List.length_cons, List.length_nil]; omega)]
    simp

/-! ## The last value -/

theorem last_cons {α β : Type} (f : α → Option β) (a : α) (l : List α) :
    ((a :: l).filterMap f).getLast? = (match (l.filterMap f).getLast? with | some x => some x | none => f a) := by
  cases hf : f a with
  | none => rw [List.filterMap_cons_none hf]; cases (l.filterMap f).getLast? <;> rfl
  | some b =>
    rw [List.filterMap_cons_some hf, List.getLast?_cons]
    cases (l.filterMap f).getLast? <;> rfl

/-- The data `setattr` gives to the engine. -/
structure DataOf (cfg : Cfg) (rs : List Req) (d : Data) : Prop where
  exptime : d.exptime = (exptimeOf rs).map (timeOf cfg)
  maxcount : d.maxcount = maxcountOf rs
  ovfl : d.ovfl = Spec.ovflOf rs
  readable : d.readable = readableOf rs
  range : d.maxRange = rangeOf rs

theorem fold_fields (cfg : Cfg) : ∀ (rs : List Req) (d : Data),
    (rs.foldl (put cfg) d).exptime = (match exptimeOf rs with | some e => some (timeOf cfg e) | none => d.exptime) ∧
    (rs.foldl (put cfg) d).maxcount = (match maxcountOf rs with | some e => some e | none => d.maxcount) ∧
    (rs.foldl (put cfg) d).ovfl = (match Spec.ovflOf rs with | some e => some e | none => d.ovfl) ∧
    (rs.foldl (put cfg) d).readable = (match readableOf rs with | some e => some e | none => d.readable) ∧
    (rs.foldl (put cfg) d).maxRange = (match rangeOf rs with | some e => some e | none => d.maxRange)
  | [], d => by simp [exptimeOf, maxcountOf, Spec.ovflOf, readableOf, rangeOf]
  | r :: rs, d => by
    have h := fold_fields cfg rs (put cfg d r)
    simp only [List.foldl_cons]
    simp only [exptimeOf, maxcountOf, Spec.ovflOf, readableOf, rangeOf, last_cons] at h ⊢
    obtain ⟨h1, h2, h3, h4, h5⟩ := h
    rw [h1, h2, h3, h4, h5]
    refine ⟨?_, ?_, ?_, ?_, ?_⟩
    all_goals
      split
      · next he => rw [he]
      · next he => rw [he]; cases r <;> rfl

theorem fold_data (cfg : Cfg) (rs : List Req) : DataOf cfg rs (rs.foldl (put cfg) Data.start) := by
  obtain ⟨h1, h2, h3, h4, h5⟩ := fold_fields cfg rs Data.start
  refine ⟨?_, ?_, ?_, ?_, ?_⟩
  · rw [h1]; cases exptimeOf rs <;> rfl
  · rw [h2]; cases maxcountOf rs <;> rfl
  · rw [h3]; cases Spec.ovflOf rs <;> rfl
  · rw [h4]; cases readableOf rs <;> rfl
  · rw [h5]; cases rangeOf rs <;> rfl

theorem last_isSome {α β : Type} (f : α → Option β) : ∀ (l : List α), (∃ a ∈ l, (f a).isSome = true) ↔ ((l.filterMap f).getLast?).isSome = true
  | [] => by simp
  | a :: l => by
    have ih := last_isSome f l
    rw [last_cons]
    simp only [List.mem_cons, exists_eq_or_imp]
    rw [ih]
    cases (l.filterMap f).getLast? <;> simp


theorem mem_exptime (rs : List Req) : .exptime ∈ rs.map idOf ↔ (exptimeOf rs).isSome = true := by
  rw [exptimeOf, ← last_isSome, List.mem_map]
  exact exists_congr fun r => and_congr_right fun _ => by cases r <;> simp [idOf]

theorem mem_maxcount (rs : List Req) : .maxcount ∈ rs.map idOf ↔ (maxcountOf rs).isSome = true := by
  rw [maxcountOf, ← last_isSome, List.mem_map]
  exact exists_congr fun r => and_congr_right fun _ => by cases r <;> simp [idOf]

theorem mem_ovfl (rs : List Req) : .ovfl ∈ rs.map idOf ↔ (Spec.ovflOf rs).isSome = true := by
  rw [Spec.ovflOf, ← last_isSome, List.mem_map]
  exact exists_congr fun r => and_congr_right fun _ => by cases r <;> simp [idOf]

theorem mem_readable (rs : List Req) : .readable ∈ rs.map idOf ↔ (readableOf rs).isSome = true := by
  rw [readableOf, ← last_isSome, List.mem_map]
  exact exists_congr fun r => and_congr_right fun _ => by cases r <;> simp [idOf]

theorem mem_range (rs : List Req) : .maxrange ∈ rs.map idOf ↔ (rangeOf rs).isSome = true := by
  rw [rangeOf, ← last_isSome, List.mem_map]
  exact exists_congr fun r => and_congr_right fun _ => by cases r <;> simp [idOf]

/-! ## The checks -/

/-- The data an attribute needs is there. -/
structure Present (ids : List AttrId) (d : Data) : Prop where
  exptime : .exptime ∈ ids ↔ d.exptime.isSome = true
  maxcount : .maxcount ∈ ids ↔ d.maxcount.isSome = true
  ovfl : .ovfl ∈ ids ↔ d.ovfl.isSome = true
  readable : .readable ∈ ids ↔ d.readable.isSome = true
  range : .maxrange ∈ ids ↔ d.maxRange.isSome = true
  valid : ∀ r, d.maxRange = some (some r) → ValidKey r

theorem present {cfg : Cfg} {rs : List Req} {d : Data} (h : DataOf cfg rs d) (hv : ∀ r ∈ rs, ReqOk r) : Present (rs.map idOf) d := by
  refine ⟨?_, ?_, ?_, ?_, ?_, ?_⟩
  · rw [mem_exptime, h.exptime, Option.isSome_map]
  · rw [mem_maxcount, h.maxcount]
  · rw [mem_ovfl, h.ovfl]
  · rw [mem_readable, h.readable]
  · rw [mem_range, h.range]
  · intro r hr
    rw [h.range, rangeOf] at hr
    have hm := List.mem_of_getLast? hr
    obtain ⟨q, hq, he⟩ := List.mem_filterMap.mp hm
    have := hv q hq
    cases q with
    | range x => simp only [Option.some.injEq] at he; subst he; exact this
    | _ => simp at he

/-- An attribute passes the checks of the engine. -/
def Pass (cfg : Cfg) (it : It) (d : Data) (i : AttrId) : Prop :=
  match i with
  | .maxcount => ∀ m, d.maxcount = some m → ¬ (0 < realMaxcount (maxSize cfg it.kind) m ∧ realMaxcount (maxSize cfg it.kind) m < it.ccnt)
  | .ovfl => ∀ o, d.ovfl = some o → goodOvfl it.kind o = true
  | .readable => ∀ v, d.readable = some v → v = 1
  | .maxrange => it.kind = .btree → ∀ r, d.maxRange = some (some r) → RangeFits it r
  | _ => True

/-- `attr_data` after the checks. -/
def norm (cfg : Cfg) (it : It) (d : Data) : Data :=
  { d with maxcount := d.maxcount.map (realMaxcount (maxSize cfg it.kind)) }

theorem sameKind_type {a b : BKey} : SameKind a b ↔ a.type = b.type := by
  cases a <;> cases b <;> simp [SameKind, BKey.type]

theorem badType_iff {a r : BKey} (hr : ValidKey r) : badType (some a.type) r = true ↔ ¬ SameKind r a := by
  cases a <;> cases r
  · simp [badType, BKey.type, BKey.nbkey, SameKind]
  · have := hr.1; simp only [badType, BKey.type, BKey.nbkey, SameKind]; simp; exact decide_eq_true this
  · simp [badType, BKey.type, BKey.nbkey, SameKind]
  · have := hr.1; simp only [badType, BKey.type, BKey.nbkey, SameKind]; simp; intro h; simp [h] at this

theorem badRange_spec {cfg : Cfg} {it : It} {r : BKey} (hit : ItOk cfg it) (hk : it.kind = .btree) (hr : ValidKey r) :
    ∃ b, badRange it r = some b ∧ (b = true ↔ ¬ RangeFits it r) := by
  unfold badRange RangeFits
  by_cases hc : 0 < it.ccnt
  · rw [if_pos hc]
    obtain ⟨v1, v2, v3, v4, v5⟩ := hit.keys hk hc
    rw [v4]
    by_cases ht : badType (some it.first.type) r = true
    · rw [if_pos ht]
      exact ⟨true, rfl, by simp [hc, (badType_iff hr).mp ht]⟩
    · rw [if_neg ht]
      have hs : SameKind r it.first := by rw [badType_iff hr] at ht; exact Classical.not_not.mp ht
      by_cases h2 : 2 ≤ it.ccnt ∧ it.maxRange ≠ some r
      · rw [if_pos h2]
        have hle : Value (size r) it.first ≤ Value (size r) it.last := by
          rcases v5 with h | h
          · exact value_mono v1 h
          · rw [h]; exact Nat.le_refl _
        obtain ⟨dd, b, d1, d2, d3⟩ := wide_check hr v2 v1 ((v3.symm).trans hs.symm) hs.symm hle
        simp only [d1, d2]
        exact ⟨b, rfl, by rw [d3]; simp [hc, hs, h2.2]⟩
      · rw [if_neg h2]
        refine ⟨false, rfl, ?_⟩
        simp only [Bool.false_eq_true, false_iff, Classical.not_not]
        intro _
        refine ⟨hs, ?_⟩
        by_cases hm : it.maxRange = some r
        · exact Or.inl hm
        · have h1 : it.ccnt = 1 := by
            have : ¬ 2 ≤ it.ccnt := fun h => h2 ⟨h, hm⟩
            omega
          right
          rw [hit.one hk h1, Wide]; omega
  · rw [if_neg hc]
    exact ⟨false, rfl, by simp [hc]⟩

theorem check_one {cfg : Cfg} {it : It} {d : Data} {ids : List AttrId} (hit : ItOk cfg it) (hp : Present ids d) {i : AttrId} (hi : i ∈ ids) :
    (Pass cfg it d i ∧ checkOne cfg it d i = some (some (if i = .maxcount then norm cfg it d else d))) ∨
    (¬ Pass cfg it d i ∧ checkOne cfg it d i = some none) := by
  cases i with
  | maxcount =>
    obtain ⟨m, hm⟩ := Option.isSome_iff_exists.mp (hp.maxcount.mp hi)
    simp only [Pass, checkOne, hm, Option.some.injEq, forall_eq', norm, Option.map_some, if_true]
    by_cases h : 0 < realMaxcount (maxSize cfg it.kind) m ∧ realMaxcount (maxSize cfg it.kind) m < it.ccnt
    · exact Or.inr ⟨fun x => x h, by rw [if_pos h]⟩
    · exact Or.inl ⟨h, by rw [if_neg h]⟩
  | ovfl =>
    obtain ⟨m, hm⟩ := Option.isSome_iff_exists.mp (hp.ovfl.mp hi)
    simp only [Pass, checkOne, hm, Option.some.injEq, forall_eq']
    by_cases h : goodOvfl it.kind m = true
    · exact Or.inl ⟨h, by rw [if_pos h]; simp⟩
    · exact Or.inr ⟨h, by rw [if_neg h]⟩
  | readable =>
    obtain ⟨m, hm⟩ := Option.isSome_iff_exists.mp (hp.readable.mp hi)
    simp only [Pass, checkOne, hm, Option.some.injEq, forall_eq']
    by_cases h : m = 1
    · exact Or.inl ⟨h, by rw [if_neg (by simpa using h)]; simp⟩
    · exact Or.inr ⟨h, by rw [if_pos h]⟩
  | maxrange =>
    obtain ⟨m, hm⟩ := Option.isSome_iff_exists.mp (hp.range.mp hi)
    simp only [Pass, checkOne, hm, Option.some.injEq]
    by_cases hk : it.kind = .btree
    · rw [if_pos hk]
      cases m with
      | none => exact Or.inl ⟨by simp, by simp⟩
      | some r =>
        obtain ⟨b, hb, hf⟩ := badRange_spec hit hk (hp.valid r hm)
        simp only [hb, hk, Option.some.injEq, forall_eq', forall_const]
        cases b with
        | true => exact Or.inr ⟨hf.mp rfl, rfl⟩
        | false => exact Or.inl ⟨Classical.not_not.mp fun h => Bool.noConfusion (hf.mpr h), by simp⟩
    · rw [if_neg hk]
      exact Or.inl ⟨fun h => absurd h hk, by simp⟩
  | _ => exact Or.inl ⟨trivial, by simp [checkOne]⟩

theorem real_real {size : Nat} (h : 4000 ≤ size) (m : Int) : realMaxcount size (realMaxcount size m) = realMaxcount size m := by
  unfold realMaxcount
  repeat' split
  all_goals omega

theorem size_ok {cfg : Cfg} (h : CfgOk cfg) {k : Kind} (hk : k ≠ .kv) : 4000 ≤ maxSize cfg k := by
  obtain ⟨h1, h2, h3, h4⟩ := h
  cases k with
  | kv => exact absurd rfl hk
  | _ => simp only [maxSize]; omega

theorem norm_norm {cfg : Cfg} (h : CfgOk cfg) {it : It} (hk : it.kind ≠ .kv) (d : Data) : norm cfg it (norm cfg it d) = norm cfg it d := by
  unfold norm
  cases d.maxcount with
  | none => rfl
  | some m => simp only [Option.map_some, real_real (size_ok h hk)]

theorem pass_norm {cfg : Cfg} (h : CfgOk cfg) {it : It} (hk : it.kind ≠ .kv) (d : Data) (i : AttrId) :
    Pass cfg it (norm cfg it d) i ↔ Pass cfg it d i := by
  cases i with
  | maxcount =>
    unfold Pass norm
    cases d.maxcount with
    | none => simp
    | some m => simp only [Option.map_some, Option.some.injEq, forall_eq', real_real (size_ok h hk)]
  | _ => exact Iff.rfl

theorem present_norm {cfg : Cfg} {it : It} {ids : List AttrId} {d : Data} (h : Present ids d) : Present ids (norm cfg it d) := by
  refine ⟨h.exptime, ?_, h.ovfl, h.readable, h.range, h.valid⟩
  rw [h.maxcount]; simp [norm]

theorem check_loop {cfg : Cfg} (hc : CfgOk cfg) {it : It} (hk : it.kind ≠ .kv) (hit : ItOk cfg it) {ids : List AttrId} :
    ∀ (l : List AttrId) (d : Data), Present ids d → (∀ i ∈ l, i ∈ ids) →
      ((∀ i ∈ l, Pass cfg it d i) ∧ checkLoop cfg it d l = some (some (if .maxcount ∈ l then norm cfg it d else d))) ∨
      ((¬ ∀ i ∈ l, Pass cfg it d i) ∧ checkLoop cfg it d l = some none)
  | [], d, _, _ => Or.inl ⟨by simp, by simp [checkLoop]⟩
  | i :: l, d, hp, hl => by
    rcases check_one hit hp (hl i (by simp)) with ⟨h1, h2⟩ | ⟨h1, h2⟩
    · simp only [checkLoop, h2]
      by_cases hi : i = .maxcount
      · subst hi
        simp only [if_true]
        rcases check_loop hc hk hit l (norm cfg it d) (present_norm hp) (fun j hj => hl j (by simp [hj])) with ⟨h3, h4⟩ | ⟨h3, h4⟩
        · refine Or.inl ⟨?_, ?_⟩
          · intro j hj
            rcases List.mem_cons.mp hj with rfl | hj
            · exact h1
            · exact (pass_norm hc hk d j).mp (h3 j hj)
          · rw [h4, norm_norm hc hk]; simp
        · exact Or.inr ⟨fun x => h3 fun j hj => (pass_norm hc hk d j).mpr (x j (by simp [hj])), h4⟩
      · rw [if_neg hi]
        rcases check_loop hc hk hit l d hp (fun j hj => hl j (by simp [hj])) with ⟨h3, h4⟩ | ⟨h3, h4⟩
        · refine Or.inl ⟨?_, ?_⟩
          · intro j hj
            rcases List.mem_cons.mp hj with rfl | hj
            · exact h1
            · exact h3 j hj
          · rw [h4]
            have : (.maxcount ∈ i :: l) ↔ .maxcount ∈ l := by simp [Ne.symm hi]
            simp only [this]
        · exact Or.inr ⟨fun x => h3 fun j hj => x j (by simp [hj]), h4⟩
    · refine Or.inr ⟨fun x => h1 (x i (by simp)), ?_⟩
      simp only [checkLoop, h2]

/-! ## The assignments -/

/-- The item with the attributes of `ids` taken from the data. -/
def give (cfg : Cfg) (d : Data) (it : It) (ids : List AttrId) : It :=
  { it with
    mcnt := if .maxcount ∈ ids then d.maxcount.getD 0 else it.mcnt
    readable := if .readable ∈ ids then true else it.readable
    ovfl := if .ovfl ∈ ids then (if it.kind = .btree then cfg.forced.getD (d.ovfl.getD 0) else d.ovfl.getD 0) else it.ovfl
    trimmed := if .ovfl ∈ ids ∧ it.kind = .btree then it.trimmed && decide (it.ovfl = d.ovfl.getD 0) else it.trimmed
    maxRange := if .maxrange ∈ ids ∧ it.kind = .btree then d.maxRange.getD none else it.maxRange
    bktype := if .maxrange ∈ ids ∧ it.kind = .btree then
        (match d.maxRange.getD none with
         | none => if it.ccnt = 0 ∧ it.maxRange ≠ none then none else it.bktype
         | some r => if it.ccnt = 0 then some r.type else it.bktype)
      else it.bktype }

theorem set_loop {cfg : Cfg} {ids : List AttrId} {d : Data} (hp : Present ids d) :
    ∀ (l : List AttrId) (it : It), (∀ i ∈ l, i ∈ ids) → (it.kind = .btree → ∀ f, cfg.forced = some f → it.ovfl = f) →
      setLoop cfg d it l = some (give cfg d it l)
  | [], it, _, _ => by simp [setLoop, give]
  | i :: l, it, hl, hf => by
    have hl' : ∀ j ∈ l, j ∈ ids := fun j hj => hl j (by simp [hj])
    have hi := hl i (by simp)
    cases i with
    | maxcount =>
      obtain ⟨m, hm⟩ := Option.isSome_iff_exists.mp (hp.maxcount.mp hi)
      simp only [setLoop, setOne, hm]
      rw [set_loop hp l _ hl' (by exact hf)]
      simp [give, hm]
    | ovfl =>
      obtain ⟨o, hm⟩ := Option.isSome_iff_exists.mp (hp.ovfl.mp hi)
      simp only [setLoop, setOne, hm]
      by_cases hk : it.kind = .btree
      · simp only [if_pos hk]
        rw [set_loop hp l _ hl' (by intro _ f h; simp only [h])]
        have hff := hf hk
        cases hfo : cfg.forced with
        | none =>
          simp only [give, hm, hk, hfo, Option.getD_some, Option.getD_none, List.mem_cons, true_or, true_and, if_true, reduceCtorEq, false_or,
            and_true, decide_true, Bool.and_true, ite_self, ne_eq]
          congr 1
          congr 1
          by_cases e : it.ovfl = o <;> simp [e]
        | some f =>
          have hff := hff f hfo
          simp only [give, hm, hk, hfo, Option.getD_some, List.mem_cons, true_or, true_and, if_true, reduceCtorEq, false_or,
            and_true, ite_self, ne_eq, hff]
          congr 1
          congr 1
          by_cases e : f = o <;> simp [e]
      · simp only [if_neg hk]
        rw [set_loop hp l _ hl' (by intro h; exact absurd h hk)]
        simp [give, hm, hk]
    | readable =>
      simp only [setLoop, setOne]
      rw [set_loop hp l _ hl' (by exact hf)]
      simp [give]
    | maxrange =>
      obtain ⟨r, hm⟩ := Option.isSome_iff_exists.mp (hp.range.mp hi)
      simp only [setLoop, setOne, hm]
      by_cases hk : it.kind = .btree
      · simp only [if_pos hk]
        have hkk : (setRange it r).kind = it.kind ∧ (setRange it r).ovfl = it.ovfl := by
          unfold setRange; repeat' split
          all_goals exact ⟨rfl, rfl⟩
        rw [set_loop hp l _ hl' (by rw [hkk.1, hkk.2]; exact hf)]
        cases r with
        | none =>
          by_cases hr : it.maxRange = none
          · simp [give, hm, hk, setRange, hr]
          · by_cases hc : it.ccnt = 0 <;> simp [give, hm, hk, setRange, hr, hc]
        | some r =>
          by_cases hc : it.ccnt = 0 <;> simp [give, hm, hk, setRange, hc]
      · simp only [if_neg hk]
        rw [set_loop hp l _ hl' hf]
        simp [give, hk]
    | _ =>
      simp only [setLoop, setOne]
      rw [set_loop hp l _ hl' hf]
      simp [give]

/-! ## The whole call -/

theorem limit_eq (cfg : Cfg) (k : Kind) : limit cfg k = maxSize cfg k := by cases k <;> rfl

theorem pass_iff {cfg : Cfg} {it : It} {rs : List Req} {d : Data} (hd : DataOf cfg rs d) (hp : Present (rs.map idOf) d)
    (hc : CfgOk cfg) (hk : it.kind ≠ .kv) :
    (∀ i ∈ rs.map idOf, Pass cfg it d i) ↔
      ((∀ m, maxcountOf rs = some m → m < 0 ∨ (m = 0 ∧ it.ccnt ≤ 4000) ∨ (0 < m ∧ (it.ccnt : Int) ≤ m ∧ it.ccnt ≤ limit cfg it.kind)) ∧
       (∀ o, Spec.ovflOf rs = some o → o ∈ actions it.kind) ∧ (∀ v, readableOf rs = some v → v = 1) ∧
       (it.kind = .btree → ∀ r, rangeOf rs = some (some r) → RangeFits it r)) := by
  have hmax : ∀ m, (¬ (0 < realMaxcount (maxSize cfg it.kind) m ∧ realMaxcount (maxSize cfg it.kind) m < it.ccnt)) ↔
      (m < 0 ∨ (m = 0 ∧ it.ccnt ≤ 4000) ∨ (0 < m ∧ (it.ccnt : Int) ≤ m ∧ it.ccnt ≤ limit cfg it.kind)) := by
    intro m
    have := size_ok hc hk
    rw [limit_eq]
    unfold realMaxcount
    repeat' split
    all_goals omega
  have hov : ∀ o, goodOvfl it.kind o = true ↔ o ∈ actions it.kind := by
    intro o
    cases h : it.kind with
    | kv => exact absurd h hk
    | _ => simp [goodOvfl, actions, or_assoc]
  constructor
  · intro h
    refine ⟨?_, ?_, ?_, ?_⟩
    · intro m hm
      rw [← hd.maxcount] at hm
      exact (hmax m).mp (h _ (hp.maxcount.mpr (by rw [hm]; rfl)) m hm)
    · intro o ho
      rw [← hd.ovfl] at ho
      exact (hov o).mp (h _ (hp.ovfl.mpr (by rw [ho]; rfl)) o ho)
    · intro v hv
      rw [← hd.readable] at hv
      exact h _ (hp.readable.mpr (by rw [hv]; rfl)) v hv
    · intro hb r hr
      rw [← hd.range] at hr
      exact h _ (hp.range.mpr (by rw [hr]; rfl)) hb r hr
  · rintro ⟨h1, h2, h3, h4⟩ i _
    cases i with
    | maxcount => intro m hm; exact (hmax m).mpr (h1 m (hd.maxcount ▸ hm))
    | ovfl => intro o ho; exact (hov o).mpr (h2 o (hd.ovfl ▸ ho))
    | readable => intro v hv; exact h3 v (hd.readable ▸ hv)
    | maxrange => intro hb r hr; exact h4 hb r (hd.range ▸ hr)
    | _ => trivial

theorem real_eq {size : Nat} (m : Int) (h : 4000 ≤ size) : realMaxcount size m = (if m < 0 then -1 else if m = 0 then 4000 else min m size) := by
  unfold realMaxcount
  repeat' split
  all_goals omega

theorem give_eq {cfg : Cfg} (hc : CfgOk cfg) {it : It} {rs : List Req} {d : Data} (hd : DataOf cfg rs d) (hk : it.kind ≠ .kv) :
    setExptime (give cfg (if .maxcount ∈ rs.map idOf then norm cfg it d else d) it (rs.map idOf)) ((exptimeOf rs).map (timeOf cfg)) =
      after cfg it rs := by
  have hs := size_ok hc hk
  have h1 : (if .maxcount ∈ rs.map idOf then norm cfg it d else d).ovfl = Spec.ovflOf rs := by split <;> exact hd.ovfl
  have h2 : (if .maxcount ∈ rs.map idOf then norm cfg it d else d).maxRange = rangeOf rs := by split <;> exact hd.range
  have h3 : .maxcount ∈ rs.map idOf → (if .maxcount ∈ rs.map idOf then norm cfg it d else d).maxcount =
      (maxcountOf rs).map (realMaxcount (maxSize cfg it.kind)) := by
    intro h; rw [if_pos h]; simp only [norm, hd.maxcount]
  revert h1 h2 h3
  generalize (if .maxcount ∈ rs.map idOf then norm cfg it d else d) = d'
  intro h1 h2 h3
  rw [mem_maxcount] at h3
  have f1 : (match (exptimeOf rs).map (timeOf cfg) with | none => it.exptime | some e => e) =
      (match exptimeOf rs with | none => it.exptime | some e => timeOf cfg e) := by cases exptimeOf rs <;> rfl
  have f2 : (if .maxcount ∈ rs.map idOf then d'.maxcount.getD 0 else it.mcnt) =
      (match maxcountOf rs with | none => it.mcnt | some m => if m < 0 then -1 else if m = 0 then 4000 else min m (maxSize cfg it.kind)) := by
    simp only [mem_maxcount]
    cases hm : maxcountOf rs with
    | none => simp
    | some m =>
      rw [hm] at h3
      simp only [h3 rfl, Option.isSome_some, if_true, Option.map_some, Option.getD_some, real_eq _ hs]
  have f3 : (if .readable ∈ rs.map idOf then true else it.readable) = (it.readable || (readableOf rs).isSome) := by
    simp only [mem_readable]
    cases (readableOf rs).isSome <;> simp
  have hse : ∀ (x : It) (e : Option Nat), setExptime x e = { x with exptime := match e with | none => x.exptime | some e => e } := by
    intro x e; cases e <;> rfl
  rw [hse]
  simp only [give, after, h1, h2, f1, f2, f3, if_neg hk, limit_eq, mem_ovfl, mem_range]
  congr 1
  · cases Spec.ovflOf rs <;> simp
  · cases Spec.ovflOf rs <;> simp
  · cases rangeOf rs <;> simp
  · rcases rangeOf rs with _ | _ | ⟨n⟩ | ⟨b⟩
    · simp
    · by_cases hb : it.kind = .btree <;> by_cases h0 : it.ccnt = 0 <;> by_cases hr : it.maxRange = none <;> simp [hb, h0, hr]
    · by_cases hb : it.kind = .btree <;> by_cases h0 : it.ccnt = 0 <;> simp [hb, h0, BKey.type]
    · by_cases hb : it.kind = .btree <;> by_cases h0 : it.ccnt = 0 <;> simp [hb, h0, BKey.type]

theorem after_kv {cfg : Cfg} {it : It} {rs : List Req} (hk : it.kind = .kv) : after cfg it rs = setExptime it ((exptimeOf rs).map (timeOf cfg)) := by
  obtain ⟨kind, flags, exptime, ccnt, mcnt, ovfl, readable, trimmed, maxRange, bktype, first, last⟩ := it
  simp only at hk
  subst hk
  unfold after setExptime
  cases exptimeOf rs <;> simp

theorem set_spec {cfg : Cfg} (hc : CfgOk cfg) {it : It} (hit : ItOk cfg it) {rs : List Req} (hv : ∀ r ∈ rs, ReqOk r) {d : Data}
    (hd : DataOf cfg rs d) :
    (Allowed cfg it rs → doSetattr cfg it (rs.map idOf) d = some (after cfg it rs, .ok)) ∧
    (¬ Allowed cfg it rs → doSetattr cfg it (rs.map idOf) d = some (it, .badValue)) := by
  have hp := present hd hv
  have he : (if .exptime ∈ rs.map idOf then d.exptime.map some else some none) = some ((exptimeOf rs).map (timeOf cfg)) := by
    simp only [mem_exptime, hd.exptime]
    cases exptimeOf rs <;> rfl
  have hst : toggles it ((exptimeOf rs).map (timeOf cfg)) = true ↔
      ¬ (∀ e, exptimeOf rs = some e → (Sticky it.exptime ↔ Sticky (timeOf cfg e))) := by
    cases exptimeOf rs with
    | none => simp [toggles]
    | some e =>
      simp only [toggles, Option.map_some, decide_eq_true_eq, ne_eq, Option.some.injEq, forall_eq', eq_iff_iff]
      exact Iff.rfl
  simp only [doSetattr, he]
  by_cases hs : ∀ e, exptimeOf rs = some e → (Sticky it.exptime ↔ Sticky (timeOf cfg e))
  · rw [if_neg (fun h => hst.mp h hs)]
    by_cases hk : it.kind = .kv
    · rw [if_pos hk]
      have ha : Allowed cfg it rs := ⟨hs, fun h => absurd hk h, fun h => absurd hk h, fun h => absurd hk h, fun h => by rw [hk] at h; cases h⟩
      refine ⟨fun _ => ?_, fun h => absurd ha h⟩
      rw [after_kv hk]
    · rw [if_neg hk]
      rcases check_loop hc hk hit (rs.map idOf) d hp (fun i hi => hi) with ⟨h1, h2⟩ | ⟨h1, h2⟩
      · obtain ⟨a1, a2, a3, a4⟩ := (pass_iff hd hp hc hk).mp h1
        have ha : Allowed cfg it rs := ⟨hs, fun _ => a1, fun _ => a2, fun _ => a3, a4⟩
        refine ⟨fun _ => ?_, fun h => absurd ha h⟩
        have hp' : Present (rs.map idOf) (if .maxcount ∈ rs.map idOf then norm cfg it d else d) := by
          split
          · exact present_norm hp
          · exact hp
        simp only [h2, set_loop hp' _ it (fun i hi => hi) hit.forced, give_eq hc hd hk]
      · have ha : ¬ Allowed cfg it rs := fun a => h1 ((pass_iff hd hp hc hk).mpr ⟨a.maxcount hk, a.ovfl hk, a.readable hk, a.range⟩)
        refine ⟨fun h => absurd h ha, fun _ => ?_⟩
        simp only [h2]
  · rw [if_pos (hst.mpr hs)]
    exact ⟨fun a => absurd a.exptime hs, fun _ => rfl⟩

theorem asks_ok {t : List Nat} {r : Req} (h : Asks t r) : ReqOk r := by
  cases h with
  | number _ _ _ h _ => exact h
  | @bytes v b hx h1 h2 =>
    refine ⟨h1, h2, ?_⟩
    clear h1 h2
    induction hx with
    | nil => simp
    | cons ha hb _ ih =>
      intro x hx
      rcases List.mem_cons.mp hx with rfl | hx
      · unfold HexDigit at ha hb; omega
      · exact ih x hx
  | _ => trivial

theorem asksAll_ok {ts : List (List Nat)} {rs : List Req} (h : AsksAll ts rs) : ∀ r ∈ rs, ReqOk r := by
  induction h with
  | nil => simp
  | cons ha _ ih =>
    intro r hr
    rcases List.mem_cons.mp hr with rfl | hr
    · exact asks_ok ha
    · exact ih r hr

end Verif.Attr
