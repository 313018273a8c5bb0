import Verif.Lemmas.BTreeUpdate
import Verif.Lemmas.BTreePosi
/-!
# Lemmas on the engine calls on b+trees
-/
namespace Verif.BT
open Verif.BT.Spec

/-! ## Attributes -/

theorem realMaxcount_spec {mx : Nat} (h : 0 < mx) (m : Int) :
    (wantCap mx m = none ∧ realMaxcount mx m = -1) ∨ ∃ k : Nat, wantCap mx m = some k ∧ 0 < k ∧ realMaxcount mx m = k := by
  rw [wantCap, realMaxcount]
  by_cases h1 : m < 0
  · rw [if_pos h1, if_pos h1]; exact .inl ⟨rfl, rfl⟩
  · rw [if_neg h1, if_neg h1]
    by_cases h2 : m = 0
    · rw [if_pos h2, if_pos h2]; exact .inr ⟨4000, rfl, by omega, rfl⟩
    · rw [if_neg h2, if_neg h2]
      right
      by_cases h3 : m > mx
      · rw [if_pos h3]
        exact ⟨_, rfl, by omega, by omega⟩
      · rw [if_neg h3]
        exact ⟨_, rfl, by omega, by omega⟩

theorem rel_fresh {cfg : Cfg} (h : 0 < cfg.maxSize) {a : Attr} (ha : AttrOk a) : Rel (fresh cfg.maxSize a) (newInfo cfg a) := by
  refine ⟨⟨.inl ⟨rfl, rfl⟩, List.Pairwise.nil, rfl, ?_⟩, rfl, realMaxcount_spec h _, ?_, rfl, rfl, rfl, rfl, rfl, rfl, ?_, ?_, ?_⟩
  · intro e he; cases he
  · simp only [fresh, newInfo]; cases a.ovfl <;> rfl
  · rw [AttrOk] at ha
    simp only [fresh]
    cases ho : a.ovfl with
    | none => simp
    | some o => simp only; intro h; exact ha (by rw [ho, h])
  · intro r hr; cases hr
  · intro e he; cases he

theorem badMaxRange_spec {c : C} {info : Info} (R : Rel c info) {r : BKey} (hv : ValidKey r) :
    ∃ bad, badMaxRange info r = some bad ∧ (bad = true ↔ c.elems ≠ [] ∧
      (c.Alien r ∨ (c.maxRange ≠ some r ∧ ∃ a b, c.elems.head? = some a ∧ c.elems.getLast? = some b ∧ Wide r b.bkey a.bkey))) := by
  rw [badMaxRange]
  by_cases h0 : c.elems = []
  · rw [if_neg (by rw [R.empty.mpr h0]; omega)]
    exact ⟨false, rfl, by simp [h0]⟩
  · rw [if_pos (Nat.pos_of_ne_zero fun h => h0 (R.empty.mp h))]
    by_cases hal : c.Alien r
    · rw [if_pos ((R.alien hv).mpr hal)]
      exact ⟨true, rfl, by simp [h0, hal]⟩
    · rw [if_neg (fun h => hal ((R.alien hv).mp h))]
      obtain ⟨a, b, h1, h2, h3, h4⟩ := ends h0
      by_cases hc : 2 ≤ info.ccnt ∧ info.maxRange ≠ some r
      · rw [if_pos hc, firstElem_spec R.good.wf.nodes, lastElem_spec R.good.wf.nodes, ← R.elems, h1, h2]
        simp only
        have hab : Value (size r) a.bkey ≤ Value (size r) b.bkey := by
          obtain ⟨l, hl⟩ := head_split h1
          rw [hl] at h4
          rcases List.mem_cons.mp h4 with h | h
          · rw [h]; omega
          · have := R.sorted; rw [hl] at this
            exact value_mono (R.key h3).1 ((List.pairwise_cons.mp this).1 b h)
        obtain ⟨d, x, d1, d2, d3⟩ := wide_check hv (R.key h4).1 (R.key h3).1 (R.same hal h4).symm (R.same hal h3).symm hab
        rw [d1]
        simp only [d2]
        refine ⟨x, rfl, d3.trans ⟨fun h => ⟨h0, .inr ⟨by rw [R.maxRange]; exact hc.2, a, b, rfl, rfl, h⟩⟩, ?_⟩⟩
        rintro ⟨-, h | ⟨-, a', b', ha', hb', h⟩⟩
        · exact absurd h hal
        · cases ha'; cases hb'; exact h
      · rw [if_neg hc]
        refine ⟨false, rfl, ⟨fun h => (Bool.false_ne_true h).elim, ?_⟩⟩
        rintro ⟨-, h | ⟨hm, a', b', ha', hb', h⟩⟩
        · exact absurd h hal
        · exfalso
          rw [R.maxRange] at hm
          have : ¬ 2 ≤ info.ccnt := fun h => hc ⟨h, hm⟩
          have hl : c.elems.length = 1 := by
            have := R.ccnt
            have := List.length_pos_iff.mpr h0
            omega
          obtain ⟨x, hx⟩ := List.length_eq_one_iff.mp hl
          rw [hx] at ha' hb'
          have e1 : x = a' := Option.some.inj ha'
          have e2 : x = b' := Option.some.inj hb'
          rw [Wide, ← e1, ← e2] at h; omega

theorem badAttrs_spec {cfg : Cfg} (h0 : 0 < cfg.maxSize) {c : C} {info : Info} (R : Rel c info) (m : Option Int) (o : Option Ovfl) (rd : Option Bool) :
    badAttrs cfg info m o rd = true ↔
      (∃ x k, m = some x ∧ wantCap cfg.maxSize x = some k ∧ k < c.elems.length) ∨ o = some .other ∨ rd = some false := by
  rw [badAttrs.eq_def, Bool.or_eq_true, Bool.or_eq_true, or_assoc]
  refine or_congr ?_ (or_congr ?_ ?_)
  · cases m with
    | none => simp
    | some x =>
      simp only [decide_eq_true_eq]
      rcases realMaxcount_spec h0 x with ⟨h1, h2⟩ | ⟨k, h1, h2, h3⟩
      · rw [h2]
        constructor
        · intro h; omega
        · rintro ⟨y, k, hy, hk, -⟩
          cases hy; rw [h1] at hk; cases hk
      · rw [h3]
        constructor
        · intro h; exact ⟨x, k, rfl, h1, by rw [← R.ccnt]; omega⟩
        · rintro ⟨y, k', hy, hk, hl⟩
          cases hy; rw [h1] at hk; cases hk
          rw [← R.ccnt] at hl
          omega
  · cases o with
    | none => simp
    | some o => cases o <;> simp
  · cases rd with
    | none => simp
    | some b => cases b <;> simp

theorem setattr_rel {cfg : Cfg} (h0 : 0 < cfg.maxSize) {c : C} {info : Info} (R : Rel c info) {m : Option Int} {o : Option Ovfl}
    {rd : Option Bool} :
    o ≠ some .other → Rel { c with
        maxcount := match m with | some x => wantCap cfg.maxSize x | none => c.maxcount
        ovfl := match o with | some x => x | none => c.ovfl
        trimmed := match o with | some x => c.trimmed && decide (c.ovfl = x) | none => c.trimmed
        readable := match rd with | some _ => true | none => c.readable }
        { info with
        mcnt := match m with | none => info.mcnt | some x => realMaxcount cfg.maxSize x
        trimmed := match o with | none => info.trimmed | some x => if info.ovfl ≠ x then false else info.trimmed
        ovfl := match o with | none => info.ovfl | some x => x
        readable := match rd with | none => info.readable | some _ => true } := by
  intro hother
  refine ⟨⟨R.good.wf, R.good.sorted, R.good.ccnt, R.good.keys⟩, R.elems, ?_, ?_, ?_, ?_, R.sticky, R.kind, R.maxRange, R.flags, ?_, R.range, R.values⟩
  · cases m with
    | none => exact R.count
    | some x => exact realMaxcount_spec h0 x
  · cases o with
    | none => exact R.ovfl
    | some x => rfl
  · cases o with
    | none => exact R.trimmed
    | some x =>
      simp only
      rw [R.trimmed, R.ovfl]
      by_cases h : info.ovfl = x
      · simp [h]
      · simp [h]
  · cases rd with
    | none => exact R.readable
    | some b => rfl
  · cases o with
    | none => exact R.action
    | some x => simp only; intro h; exact hother (by rw [h])

theorem collSetattr_spec {cfg : Cfg} (h0 : 0 < cfg.maxSize) {c : C} {info : Info} (R : Rel c info) (m : Option Int) (o : Option Ovfl)
    (rd : Option Bool) {mr : Option (Option BKey)} (hv : ∀ r, mr = some (some r) → ValidKey r) :
    ∃ info' r c', collSetattr cfg info m o rd mr = some (some info', r) ∧ Rel c' info' ∧
      ((BadAttr cfg.maxSize c m o rd mr ∧ r = .ebadvalue ∧ c' = c) ∨
       (¬ BadAttr cfg.maxSize c m o rd mr ∧ r = .ok ∧ c' = setAttrs cfg.maxSize c m o rd mr)) := by
  have hb : ∃ bad, badNewRange info mr = some bad ∧
      (bad = true ↔ ∃ r, mr = some (some r) ∧ c.elems ≠ [] ∧
        (c.Alien r ∨ (c.maxRange ≠ some r ∧ ∃ a b, c.elems.head? = some a ∧ c.elems.getLast? = some b ∧ Wide r b.bkey a.bkey))) := by
    cases mr with
    | none => exact ⟨false, rfl, by simp⟩
    | some x =>
      cases x with
      | none => exact ⟨false, rfl, by simp⟩
      | some r =>
        obtain ⟨bad, b1, b2⟩ := badMaxRange_spec R (hv r rfl)
        refine ⟨bad, b1, b2.trans ⟨fun h => ⟨r, rfl, h⟩, ?_⟩⟩
        rintro ⟨r', h, h'⟩
        cases h; exact h'
  obtain ⟨bad, b1, b2⟩ := hb
  rw [collSetattr.eq_def, b1]
  simp only
  have hall : (badAttrs cfg info m o rd = true ∨ bad = true) ↔ BadAttr cfg.maxSize c m o rd mr := by
    rw [badAttrs_spec h0 R, b2, BadAttr, or_assoc, or_assoc]
  by_cases hbad : BadAttr cfg.maxSize c m o rd mr
  · rw [if_pos (hall.mpr hbad)]
    exact ⟨_, _, _, rfl, R, .inl ⟨hbad, rfl, rfl⟩⟩
  · rw [if_neg (fun h => hbad (hall.mp h))]
    refine ⟨_, _, _, rfl, ?_, .inr ⟨hbad, rfl, rfl⟩⟩
    have hother : o ≠ some .other := fun h => hbad (.inr (.inl h))
    have hrd : rd ≠ some false := fun h => hbad (.inr (.inr (.inl h)))
    have hR1 := setattr_rel h0 R (m := m) (rd := rd) hother
    cases mr with
    | none =>
      simp only [setMaxRange, setAttrs, newKind, ite_self]
      exact hR1
    | some x =>
      cases x with
      | none =>
        simp only [setMaxRange, setAttrs, newKind]
        by_cases hm : info.maxRange = none
        · rw [if_pos hm]
          have hm' : c.maxRange = none := by rw [R.maxRange]; exact hm
          have : (if c.elems = [] then if c.maxRange = none then c.kind else none else c.kind) = c.kind := by
            rw [hm']; simp
          rw [this]
          have h := hR1
          rw [hm'] at h
          exact h
        · rw [if_neg hm]
          have hm' : c.maxRange ≠ none := by rw [R.maxRange]; exact hm
          rw [if_neg hm']
          refine { hR1 with good := ⟨hR1.good.wf, hR1.good.sorted, hR1.good.ccnt, ?_⟩, kind := ?_, maxRange := rfl, range := ?_ }
          · intro e he
            have hk := R.good.keys e he
            refine ⟨hk.1, ?_⟩
            have : c.elems ≠ [] := by rw [R.elems]; exact List.ne_nil_of_mem he
            simp only
            rw [if_neg (fun h => this (R.empty.mp h))]
            exact hk.2
          · by_cases he : c.elems = []
            · simp only [if_pos he, if_pos (R.empty.mpr he)]
            · simp only [if_neg he, if_neg (fun h => he (R.empty.mp h))]; exact R.kind
          · intro r hr; cases hr
      | some r =>
        simp only [setMaxRange, setAttrs, newKind]
        refine { hR1 with good := ⟨hR1.good.wf, hR1.good.sorted, hR1.good.ccnt, ?_⟩, kind := ?_, maxRange := rfl, range := ?_ }
        · intro e he
          have hk := R.good.keys e he
          refine ⟨hk.1, ?_⟩
          have : c.elems ≠ [] := by rw [R.elems]; exact List.ne_nil_of_mem he
          simp only
          rw [if_neg (fun h => this (R.empty.mp h))]
          exact hk.2
        · by_cases he : c.elems = []
          · simp only [if_pos he, if_pos (R.empty.mpr he)]; rw [type_kind]
          · simp only [if_neg he, if_neg (fun h => he (R.empty.mp h))]; exact R.kind
        · intro r' hr
          cases hr
          refine ⟨hv r rfl, ?_⟩
          by_cases he : c.elems = []
          · simp only [if_pos he]
          · simp only [if_neg he]
            obtain ⟨a, -, -, -, ha, -⟩ := ends he
            have hal : ¬ c.Alien r := fun h => hbad (.inr (.inr (.inr ⟨r, rfl, he, .inl h⟩)))
            rw [(R.key ha).2, not_alien hal (R.key ha).2]

theorem collGetattr_spec {cfg : Cfg} {c : C} {info : Info} (R : Rel c info) :
    collGetattr cfg info = some (.attrs c.elems.length (c.cap cfg.maxSize) c.ovfl c.readable c.trimmed c.maxRange
          (match c.elems.head?, c.elems.getLast? with
           | some a, some b => some (a.bkey, b.bkey)
           | _, _ => none)) := by
  have hcap : (if 0 < info.mcnt then info.mcnt else (cfg.maxSize : Int)) = (c.cap cfg.maxSize : Int) := by
    rcases R.count with ⟨h1, h2⟩ | ⟨k, h1, h2, h3⟩
    · rw [C.cap, h1, h2]; rfl
    · rw [C.cap, h1, h3, if_pos (by omega)]
  rw [collGetattr, hcap, R.ovfl, R.readable, R.trimmed, R.maxRange, R.ccnt]
  by_cases h : c.elems = []
  · rw [h]; rfl
  · obtain ⟨a, b, h1, h2, -, -⟩ := ends h
    rw [if_pos (List.length_pos_iff.mpr h), firstElem_spec R.good.wf.nodes, lastElem_spec R.good.wf.nodes, ← R.elems, h1, h2]

/-! ## Ranges -/

theorem Took.rel {c : C} {info info' : Info} {s : List Elem} (R : Rel c info) (h : Took info info' s) :
    Rel { c with elems := without c.elems s } info' := by
  refine R.tree h.good h.rest (by rw [h.flat, R.elems]) ?_
  intro x hx
  exact (List.mem_filter.mp hx).1

theorem Typed.fits {c : C} {info : Info} (R : Rel c info) {r : Range} {to : BKey} (hs : SameKind r.lo to) (hv : ValidKey to)
    (ha : ¬ c.Alien r.lo) : Fits to info.tree.leaves.flatten := by
  refine R.fits hv ?_
  rintro ⟨t, h1, h2⟩
  refine ha ⟨t, h1, ?_⟩
  rw [← type_kind] at h2 ⊢
  rw [type_same.mpr hs]; exact h2

/-- What the calls that take elements out leave. -/
theorem shrink_spec {c : C} {info : Info} {s : List Elem} (R : Rel { c with elems := without c.elems s } info) (drop : Bool) :
    (info.ccnt = 0 ∧ drop = true ∧ info.tree.leaves = [] ∧ shrink c (without c.elems s) drop = none ∧
        decide (without c.elems s = [] ∧ drop = true) = true) ∨
    (¬ (info.ccnt = 0 ∧ drop = true) ∧ shrink c (without c.elems s) drop = some { c with elems := without c.elems s } ∧
        decide (without c.elems s = [] ∧ drop = true) = false) := by
  have he : info.ccnt = 0 ↔ without c.elems s = [] := R.empty
  by_cases h : info.ccnt = 0 ∧ drop = true
  · left
    have h' : without c.elems s = [] ∧ drop = true := ⟨he.mp h.1, h.2⟩
    refine ⟨h.1, h.2, R.leaves.mpr h'.1, ?_, decide_eq_true h'⟩
    rw [shrink, if_pos h']
  · right
    have h' : ¬ (without c.elems s = [] ∧ drop = true) := fun h' => h ⟨he.mpr h'.1, h'.2⟩
    refine ⟨h, ?_, decide_eq_false h'⟩
    rw [shrink, if_neg h']

/-- Abstract and concrete state. -/
def RelS (σ : S) (s : St) : Prop :=
  match σ, s with
  | none, none => True
  | some c, some info => Rel c info
  | _, _ => False

theorem collDelete_spec {mx : Nat} {c : C} {info : Info} (R : Rel c info) {r : Range} (hr : RangeOk r) {f : Option EFilter} (hf : FilterOk f)
    (count : Nat) (drop : Bool) :
    ∃ s' rep σ', collDelete info r f count drop = some (s', rep) ∧ RelS σ' s' ∧ Step mx (some c) (.delete r f count drop) rep σ' := by
  obtain ⟨rt, to, t1, t2, t3, t4⟩ := rangeType_spec hr
  rw [collDelete, t1]
  simp only
  by_cases h0 : c.elems = []
  · rw [if_pos (R.empty.mpr h0)]
    exact ⟨_, _, some c, rfl, R, .inl ⟨h0, rfl, rfl⟩⟩
  · rw [if_neg (fun h => h0 (R.empty.mp h))]
    by_cases hal : c.Alien r.lo
    · rw [if_pos ((R.alien hr.1).mpr hal)]
      exact ⟨_, _, some c, rfl, R, .inr (.inl ⟨h0, hal, rfl, rfl⟩)⟩
    · rw [if_neg (fun h => hal ((R.alien hr.1).mp h))]
      obtain ⟨info', e1, e2⟩ := elemDelete_spec t2 hf 0 count R.good (R.fits hr.1 hal) (Typed.fits R t3 t4 hal)
      rw [e1]
      simp only
      rw [← R.elems] at e2 ⊢
      by_cases hs : select r f 0 count c.elems = []
      · rw [if_pos (by rw [hs]; rfl)]
        rw [e2.same hs]
        exact ⟨_, _, some c, rfl, R, .inr (.inr ⟨h0, hal, .inl ⟨hs, rfl, rfl⟩⟩)⟩
      · rw [if_neg (by rw [List.length_eq_zero_iff]; exact hs)]
        have hR := e2.rel R
        rcases shrink_spec hR drop with ⟨k1, k2, k3, k4, k5⟩ | ⟨k1, k2, k3⟩
        · rw [if_pos ⟨k1, k2⟩, if_pos k3]
          exact ⟨_, _, none, rfl, trivial, .inr (.inr ⟨h0, hal, .inr ⟨hs, by rw [k5], k4.symm⟩⟩)⟩
        · rw [if_neg k1]
          exact ⟨_, _, some _, rfl, hR, .inr (.inr ⟨h0, hal, .inr ⟨hs, by rw [k3], k2.symm⟩⟩)⟩

theorem select_length {r : Range} {f : Option EFilter} {o k : Nat} {l : List Elem} (hl : l.Nodup) :
    (select r f o k l).length ≤ (if k = 0 ∨ l.length < k then l.length else k) := by
  have h1 : (select r f o k l).length ≤ l.length := (select_nodup hl).length_le_of_subset fun x hx => select_sub hx
  split
  · exact h1
  · rename_i h
    rw [select, upTo, if_neg (fun h' => h (.inl h')), List.length_take]
    omega

theorem collGet_spec {mx : Nat} {c : C} {info : Info} (R : Rel c info) {r : Range} (hr : RangeOk r) {f : Option EFilter} (hf : FilterOk f)
    (offset count : Nat) (del drop rmem : Bool) :
    ∃ s' rep σ', collGet info r f offset count del drop rmem = some (s', rep) ∧ RelS σ' s' ∧
      Step mx (some c) (.get r f offset count del drop rmem) rep σ' := by
  obtain ⟨rt, to, t1, t2, t3, t4⟩ := rangeType_spec hr
  rw [collGet, t1]
  simp only
  simp only [Step]
  by_cases hrd : c.readable = false
  · rw [if_pos (by rw [← R.readable]; exact hrd)]
    exact ⟨_, _, some c, rfl, R, by rw [if_pos hrd]; exact ⟨rfl, rfl⟩⟩
  · rw [if_neg (by rw [← R.readable]; exact hrd)]
    simp only [if_neg hrd]
    by_cases ho : c.elems.length ≤ offset
    · rw [if_pos (by rw [R.ccnt]; exact .inr ho)]
      exact ⟨_, _, some c, rfl, R, .inl ⟨ho, rfl, rfl⟩⟩
    · rw [if_neg (by rw [R.ccnt]; omega)]
      have ho' : offset < c.elems.length := by omega
      by_cases hal : c.Alien r.lo
      · rw [if_pos ((R.alien hr.1).mpr hal)]
        exact ⟨_, _, some c, rfl, R, .inr (.inl ⟨ho', hal, rfl, rfl⟩)⟩
      · rw [if_neg (fun h => hal ((R.alien hr.1).mp h))]
        by_cases hm : rmem = false
        · rw [if_pos hm]
          exact ⟨_, _, some c, rfl, R, .inr (.inr ⟨ho', hal, by rw [if_pos hm]; exact ⟨rfl, rfl⟩⟩)⟩
        · rw [if_neg hm]
          simp only [if_neg hm]
          have hln : info.tree.leaves ≠ [] := by
            intro h; rw [R.leaves.mp h] at ho'; simp at ho'
          obtain ⟨info', hint, e1, e2, e3⟩ := elemGet_spec t2 hf offset count del R.good hln (R.fits hr.1 hal) (Typed.fits R t3 t4 hal)
            R.elems R.trimmed R.ovfl
          rw [e1]
          simp only
          rw [← R.elems] at e3 ⊢
          rw [R.ccnt, if_neg (by have := select_length (r := r) (f := f) (o := offset) (k := count) (sorted_nodup R.sorted); omega)]
          by_cases hs : select r f offset count c.elems = []
          · rw [if_pos hs]
            have : info' = info := e3.same (by rw [hs]; simp)
            rw [this]
            exact ⟨_, _, some c, rfl, R, .inr (.inr ⟨ho', hal, hint, e2, .inl ⟨hs, rfl, rfl⟩⟩)⟩
          · rw [if_neg hs]
            cases del with
            | false =>
              have : info' = info := e3.same (by simp)
              rw [this]
              simp only [if_true]
              exact ⟨_, _, some c, rfl, R, .inr (.inr ⟨ho', hal, hint, e2, .inr ⟨hs, by rw [R.flags], rfl⟩⟩)⟩
            | true =>
              simp only [if_true, Bool.true_eq_false, if_false] at e3 ⊢
              have hR := e3.rel R
              rcases shrink_spec hR drop with ⟨k1, k2, k3, k4, k5⟩ | ⟨k1, k2, k3⟩
              · rw [if_pos ⟨k1, k2⟩, if_pos k3]
                exact ⟨_, _, none, rfl, trivial, .inr (.inr ⟨ho', hal, hint, e2, .inr ⟨hs, by rw [k5, R.flags], k4.symm⟩⟩)⟩
              · rw [if_neg k1]
                exact ⟨_, _, some _, rfl, hR, .inr (.inr ⟨ho', hal, hint, e2, .inr ⟨hs, by rw [k3, R.flags], k2.symm⟩⟩)⟩

theorem collCount_spec {mx : Nat} {c : C} {info : Info} (R : Rel c info) {r : Range} (hr : RangeOk r) {f : Option EFilter} (hf : FilterOk f) :
    ∃ rep, collCount info r f = some rep ∧ Step mx (some c) (.count r f) rep (some c) := by
  obtain ⟨rt, to, t1, t2, t3, t4⟩ := rangeType_spec hr
  rw [collCount, t1]
  simp only
  simp only [Step, true_and]
  by_cases hrd : c.readable = false
  · rw [if_pos (by rw [← R.readable]; exact hrd)]
    exact ⟨_, rfl, by rw [if_pos hrd]⟩
  · rw [if_neg (by rw [← R.readable]; exact hrd)]
    simp only [if_neg hrd]
    by_cases hal : c.Alien r.lo
    · rw [if_pos ((R.alien hr.1).mpr hal)]
      exact ⟨_, rfl, .inl ⟨hal, rfl⟩⟩
    · rw [if_neg (fun h => hal ((R.alien hr.1).mp h)), elemCount_spec t2 hf R.good (R.fits hr.1 hal) (Typed.fits R t3 t4 hal), ← R.elems]
      exact ⟨_, rfl, .inr ⟨hal, rfl⟩⟩

/-! ## Positions -/

theorem ordered_ord (c : C) (desc : Bool) : ordered c desc = ordF (!desc) c.elems := by cases desc <;> rfl

theorem collPosition_spec {mx : Nat} {c : C} {info : Info} (R : Rel c info) {key : BKey} (hv : ValidKey key) (desc : Bool) :
    ∃ rep, collPosition info key desc = some rep ∧ Step mx (some c) (.position key desc) rep (some c) := by
  rw [collPosition]
  simp only [Step, true_and]
  by_cases hrd : c.readable = false
  · rw [if_pos (by rw [← R.readable]; exact hrd)]
    exact ⟨_, rfl, by rw [if_pos hrd]⟩
  · rw [if_neg (by rw [← R.readable]; exact hrd)]
    simp only [if_neg hrd]
    by_cases h0 : c.elems = []
    · rw [if_pos (R.empty.mpr h0)]
      refine ⟨_, rfl, .inr ⟨fun h => absurd h0 h, .inl ⟨?_, rfl⟩⟩⟩
      rw [h0]; intro x hx; cases hx
    · rw [if_neg (fun h => h0 (R.empty.mp h))]
      by_cases hal : c.Alien key
      · rw [if_pos ((R.alien hv).mpr hal)]
        exact ⟨_, rfl, .inl ⟨h0, hal, rfl⟩⟩
      · rw [if_neg (fun h => hal ((R.alien hv).mp h))]
        rcases posiFind_spec R.good (fun h => h0 (R.leaves.mp h)) (R.fits hv hal) desc 0 with ⟨h1, h2⟩ | ⟨b, e, h1, h2, h3⟩
        · rw [h2]
          rw [← R.elems] at h1
          exact ⟨_, rfl, .inr ⟨fun _ => hal, .inl ⟨h1, rfl⟩⟩⟩
        · rw [h3]
          rw [← R.elems, ← ordered_ord] at h1
          exact ⟨_, rfl, .inr ⟨fun _ => hal, .inr ⟨b, e, h1, h2, rfl⟩⟩⟩

theorem slice_length {l : List Elem} {b k : Nat} : (slice l (b - k) (b + k)).length ≤ 2 * k + 1 := by
  rw [slice, if_pos (by omega), List.length_take]
  omega

theorem collAround_spec {mx : Nat} {c : C} {info : Info} (R : Rel c info) {key : BKey} (hv : ValidKey key) (desc : Bool) (count : Nat) (rmem : Bool) :
    ∃ rep, collAround info key desc count rmem = some rep ∧ Step mx (some c) (.around key desc count rmem) rep (some c) := by
  rw [collAround]
  simp only [Step, true_and]
  by_cases hrd : c.readable = false
  · rw [if_pos (by rw [← R.readable]; exact hrd)]
    exact ⟨_, rfl, by rw [if_pos hrd]⟩
  · rw [if_neg (by rw [← R.readable]; exact hrd)]
    simp only [if_neg hrd]
    by_cases h0 : c.elems = []
    · rw [if_pos (R.empty.mpr h0)]
      exact ⟨_, rfl, by rw [if_pos h0]⟩
    · rw [if_neg (fun h => h0 (R.empty.mp h))]
      simp only [if_neg h0]
      by_cases hal : c.Alien key
      · rw [if_pos ((R.alien hv).mpr hal)]
        exact ⟨_, rfl, .inl ⟨hal, rfl⟩⟩
      · rw [if_neg (fun h => hal ((R.alien hv).mp h))]
        by_cases hm : rmem = false
        · rw [if_pos hm]
          exact ⟨_, rfl, .inr ⟨hal, by rw [if_pos hm]⟩⟩
        · rw [if_neg hm]
          simp only [if_neg hm]
          rcases posiFind_spec R.good (fun h => h0 (R.leaves.mp h)) (R.fits hv hal) desc count with ⟨h1, h2⟩ | ⟨b, e, h1, h2, h3⟩
          · rw [h2]
            rw [← R.elems] at h1
            exact ⟨_, rfl, .inr ⟨hal, .inl ⟨h1, rfl⟩⟩⟩
          · rw [h3]
            simp only
            rw [if_neg (by have := slice_length (l := ordF (!desc) info.tree.leaves.flatten) (b := b) (k := count); omega)]
            rw [← R.elems, ← ordered_ord] at h1 ⊢
            exact ⟨_, rfl, .inr ⟨hal, .inr ⟨b, e, h1, h2, by rw [R.flags]⟩⟩⟩

theorem collByPosition_spec {mx : Nat} {c : C} {info : Info} (R : Rel c info) (desc : Bool) (lo hi : Nat) (rmem : Bool) :
    ∃ rep, collByPosition info desc lo hi rmem = some rep ∧ Step mx (some c) (.byPosition desc lo hi rmem) rep (some c) := by
  rw [collByPosition]
  simp only [Step, true_and]
  by_cases hrd : c.readable = false
  · rw [if_pos (by rw [← R.readable]; exact hrd)]
    exact ⟨_, rfl, by rw [if_pos hrd]⟩
  · rw [if_neg (by rw [← R.readable]; exact hrd)]
    simp only [if_neg hrd]
    by_cases h0 : c.elems = []
    · rw [if_pos (R.empty.mpr h0)]
      exact ⟨_, rfl, by rw [h0, if_pos (by simp)]⟩
    · rw [if_neg (fun h => h0 (R.empty.mp h))]
      by_cases hb : c.elems.length ≤ lo ∧ c.elems.length ≤ hi
      · rw [if_pos (by rw [R.ccnt]; exact hb)]
        exact ⟨_, rfl, by rw [if_pos hb]⟩
      · rw [if_neg (by rw [R.ccnt]; exact hb)]
        simp only [if_neg hb]
        by_cases hm : rmem = false
        · rw [if_pos hm]
          exact ⟨_, rfl, by rw [if_pos hm]⟩
        · rw [if_neg hm]
          simp only [if_neg hm]
          have hln : info.tree.leaves ≠ [] := fun h => h0 (R.leaves.mp h)
          rw [if_neg hln]
          have hpos := List.length_pos_iff.mpr h0
          have hcc : info.ccnt = info.tree.leaves.flatten.length := R.good.ccnt
          have hlen : c.elems.length = info.tree.leaves.flatten.length := by rw [R.elems]
          have ha : (if info.ccnt ≤ lo then info.ccnt - 1 else lo) = min lo (info.tree.leaves.flatten.length - 1) := by
            split <;> omega
          have hb' : (if info.ccnt ≤ hi then info.ccnt - 1 else hi) = min hi (info.tree.leaves.flatten.length - 1) := by
            split <;> omega
          rw [ha, hb', hcc]
          have hbs := byPosition_slice (l := info.tree.leaves.flatten) (desc := desc) (a := min lo (info.tree.leaves.flatten.length - 1))
            (b := min hi (info.tree.leaves.flatten.length - 1)) (by omega) (by omega)
          simp only at hbs
          generalize ha' : (if desc = true then info.tree.leaves.flatten.length - min lo (info.tree.leaves.flatten.length - 1) - 1
            else min lo (info.tree.leaves.flatten.length - 1)) = a' at hbs ⊢
          generalize hb'' : (if desc = true then info.tree.leaves.flatten.length - min hi (info.tree.leaves.flatten.length - 1) - 1
            else min hi (info.tree.leaves.flatten.length - 1)) = b' at hbs ⊢
          generalize hn : (if a' ≤ b' then b' - a' + 1 else a' - b' + 1) = n at hbs ⊢
          have ham : a' < info.tree.leaves.flatten.length := by
            rw [← ha']; split <;> omega
          obtain ⟨k, rfl⟩ : ∃ k, n = k + 1 := by
            refine ⟨n - 1, ?_⟩
            rw [← hn]; split <;> omega
          rw [elemByPosi_spec R.good hln ham]
          simp only
          rw [if_neg (by rw [List.length_take]; omega), hbs, ← R.elems, ← ordered_ord, R.flags.symm]
          exact ⟨_, rfl, rfl⟩

/-! ## All calls -/

/-- The only calls that may fault, and where: a new element is put into a tree whose top node is full at the greatest depth. -/
def Stuck (s : St) (op : Op) : Prop :=
  (match op with | .insert .. => True | .arith .. => True | _ => False) ∧ ∃ info, s = some info ∧ Deep info.tree

theorem insert_flags {mx : Nat} {c c' : C} {e : Elem} {rp : Bool} {mem : Nat} {full : Bool} {o : Link} (h : Insert mx c e rp mem full o c') :
    c'.flags = c.flags := by
  cases h <;> rfl

theorem collInsert_spec {cfg : Cfg} (h0 : 0 < cfg.maxSize) {σ : S} {s : St} (R : RelS σ s) {e : Elem} {a : Option Attr} (hv : ValidKey e.bkey)
    (hval : ValueOk e.value) (ha : ∀ x, a = some x → AttrOk x) (replace want imem : Bool) (mem : Nat) (full : Bool) :
    (collInsert cfg s e replace a want imem mem full = none ∧ ∃ info, s = some info ∧ Deep info.tree) ∨
    ∃ s' rep σ', collInsert cfg s e replace a want imem mem full = some (s', rep) ∧ RelS σ' s' ∧
      Step cfg.maxSize σ (.insert e replace a want imem mem full) rep σ' := by
  cases σ with
  | some c =>
    cases s with
    | none => exact R.elim
    | some info =>
      have R : Rel c info := R
      rw [collInsert]
      rcases elemInsert_spec cfg R hv hval replace mem full with ⟨h1, h2, -⟩ | ⟨info', o, c', h1, h2, h3⟩
      · left; rw [h1]; exact ⟨rfl, info, rfl, h2⟩
      · right
        rw [h1]
        have hfl : info'.flags = c.flags := by rw [← h3.flags, insert_flags h2]
        cases o with
        | linked x => exact ⟨_, _, some c', rfl, h3, _, c', h2, by rw [hfl]; rfl, rfl⟩
        | replaced => exact ⟨_, _, some c', rfl, h3, _, c', h2, rfl, rfl⟩
        | refused r => exact ⟨_, _, some c', rfl, h3, _, c', h2, rfl, rfl⟩
  | none =>
    cases s with
    | some info => exact R.elim
    | none =>
      right
      rw [collInsert.eq_def]
      cases a with
      | none => exact ⟨_, _, none, rfl, trivial, rfl, rfl⟩
      | some a =>
        simp only [Step]
        by_cases hi : imem = false
        · rw [if_pos hi]
          exact ⟨_, _, none, rfl, trivial, by rw [if_pos hi]; exact ⟨rfl, rfl⟩⟩
        · rw [if_neg hi]
          simp only [if_neg hi]
          have R1 := rel_fresh h0 (ha a rfl)
          rcases elemInsert_spec cfg R1 hv hval replace mem full with ⟨h1, h2, -⟩ | ⟨info', o, c', h1, h2, h3⟩
          · exfalso
            have : (newInfo cfg a).tree.upper.length = 6 := h2.1
            simp [newInfo] at this
          · rw [h1]
            have hfl : info'.flags = a.flags := by rw [← h3.flags, insert_flags h2]; rfl
            cases o with
            | linked x => exact ⟨_, _, some c', rfl, h3, _, c', h2, by rw [hfl]; rfl, rfl⟩
            | replaced => exact ⟨_, _, some c', rfl, h3, _, c', h2, rfl, rfl⟩
            | refused r => exact ⟨_, _, none, rfl, trivial, _, c', h2, rfl, rfl⟩

/-- Every legal call answers as specified, unless the tree is too deep. -/
theorem step_sim {cfg : Cfg} (h0 : 0 < cfg.maxSize) {σ : S} {s : St} {op : Op} (R : RelS σ s) (hl : Legal σ op) :
    (step cfg s op = none ∧ Stuck s op) ∨
    ∃ s' rep σ', step cfg s op = some (s', rep) ∧ Step cfg.maxSize σ op rep σ' ∧ RelS σ' s' := by
  cases op with
  | create a imem =>
    right
    cases σ with
    | some c =>
      cases s with
      | none => exact R.elim
      | some info => exact ⟨_, _, some c, rfl, ⟨rfl, rfl⟩, R⟩
    | none =>
      cases s with
      | some info => exact R.elim
      | none =>
        cases imem with
        | true => exact ⟨_, _, some (fresh cfg.maxSize a), rfl, ⟨rfl, rfl⟩, rel_fresh h0 hl⟩
        | false => exact ⟨_, _, none, rfl, ⟨rfl, rfl⟩, trivial⟩
  | insert e replace a want imem mem full =>
    rcases collInsert_spec h0 R hl.1 hl.2.1 hl.2.2 replace want imem mem full with ⟨h1, h2⟩ | ⟨s', rep, σ', h1, h2, h3⟩
    · exact .inl ⟨h1, trivial, h2⟩
    · exact .inr ⟨s', rep, σ', h1, h3, h2⟩
  | update key u v busy amem full =>
    right
    cases σ with
    | none => cases s with
      | none => exact ⟨_, _, none, rfl, ⟨rfl, rfl⟩, trivial⟩
      | some info => exact R.elim
    | some c => cases s with
      | none => exact R.elim
      | some info =>
        have R : Rel c info := R
        simp only [step, Step]
        by_cases he : c.elems = []
        · rw [if_pos (R.empty.mpr he)]
          exact ⟨_, _, some c, rfl, .inl ⟨he, rfl, rfl⟩, R⟩
        · rw [if_neg (fun h => he (R.empty.mp h))]
          by_cases hal : c.Alien key
          · rw [if_pos ((R.alien hl.1).mpr hal)]
            exact ⟨_, _, some c, rfl, .inr (.inl ⟨he, hal, rfl, rfl⟩), R⟩
          · rw [if_neg (fun h => hal ((R.alien hl.1).mp h))]
            obtain ⟨info', r, c', h1, h2, h3⟩ := elemUpdate_spec R he hl.1 hal u hl.2 busy amem full
            rw [h1]
            refine ⟨_, _, some c', rfl, .inr (.inr ⟨he, hal, ?_⟩), h2⟩
            rcases h3 with ⟨k1, k2, rfl⟩ | ⟨e, k1, k2, k3⟩
            · exact .inl ⟨k1, k2, rfl⟩
            · refine .inr ⟨e, k1, k2, ?_⟩
              rcases k3 with ⟨j1, j2, rfl⟩ | ⟨j1, j2, rfl, j3⟩ | ⟨j1, j2, rfl⟩
              · exact .inl ⟨j1, j2, rfl⟩
              · exact .inr (.inl ⟨j1, j2, rfl, j3⟩)
              · exact .inr (.inr ⟨j1, j2, rfl⟩)
  | delete r f count drop =>
    right
    cases σ with
    | none => cases s with
      | none => exact ⟨_, _, none, rfl, ⟨rfl, rfl⟩, trivial⟩
      | some info => exact R.elim
    | some c => cases s with
      | none => exact R.elim
      | some info =>
        obtain ⟨s', rep, σ', h1, h2, h3⟩ := collDelete_spec (mx := cfg.maxSize) R hl.1 hl.2 count drop
        exact ⟨s', rep, σ', h1, h3, h2⟩
  | arith key incr create delta initial eflag busy amem mem full rest =>
    cases σ with
    | none => cases s with
      | none => exact .inr ⟨_, _, none, rfl, ⟨rfl, rfl⟩, trivial⟩
      | some info => exact R.elim
    | some c => cases s with
      | none => exact R.elim
      | some info =>
        rcases elemArith_spec (cfg := cfg) R hl.1 incr create delta initial eflag busy amem mem full
          (fun e he hk => hl.2 c e rfl he hk) with ⟨h1, h2⟩ | ⟨info', r, c', h1, h2, h3⟩
        · left
          refine ⟨?_, trivial, info, rfl, h2⟩
          simp only [step, h1, Option.map_none]
        · right
          refine ⟨some info', r, some c', ?_, h3, h2⟩
          simp only [step, h1, Option.map_some]
  | get r f offset count del drop rmem =>
    right
    cases σ with
    | none => cases s with
      | none => exact ⟨_, _, none, rfl, ⟨rfl, rfl⟩, trivial⟩
      | some info => exact R.elim
    | some c => cases s with
      | none => exact R.elim
      | some info =>
        obtain ⟨s', rep, σ', h1, h2, h3⟩ := collGet_spec (mx := cfg.maxSize) R hl.1 hl.2 offset count del drop rmem
        exact ⟨s', rep, σ', h1, h3, h2⟩
  | count r f =>
    right
    cases σ with
    | none => cases s with
      | none => exact ⟨_, _, none, rfl, ⟨rfl, rfl⟩, trivial⟩
      | some info => exact R.elim
    | some c => cases s with
      | none => exact R.elim
      | some info =>
        obtain ⟨rep, h1, h2⟩ := collCount_spec (mx := cfg.maxSize) R hl.1 hl.2
        exact ⟨some info, rep, some c, by simp only [step, h1, Option.map_some], h2, R⟩
  | position key desc =>
    right
    cases σ with
    | none => cases s with
      | none => exact ⟨_, _, none, rfl, ⟨rfl, rfl⟩, trivial⟩
      | some info => exact R.elim
    | some c => cases s with
      | none => exact R.elim
      | some info =>
        obtain ⟨rep, h1, h2⟩ := collPosition_spec (mx := cfg.maxSize) R hl desc
        exact ⟨some info, rep, some c, by simp only [step, h1, Option.map_some], h2, R⟩
  | around key desc count rmem =>
    right
    cases σ with
    | none => cases s with
      | none => exact ⟨_, _, none, rfl, ⟨rfl, rfl⟩, trivial⟩
      | some info => exact R.elim
    | some c => cases s with
      | none => exact R.elim
      | some info =>
        obtain ⟨rep, h1, h2⟩ := collAround_spec (mx := cfg.maxSize) R hl desc count rmem
        exact ⟨some info, rep, some c, by simp only [step, h1, Option.map_some], h2, R⟩
  | byPosition desc lo hi rmem =>
    right
    cases σ with
    | none => cases s with
      | none => exact ⟨_, _, none, rfl, ⟨rfl, rfl⟩, trivial⟩
      | some info => exact R.elim
    | some c => cases s with
      | none => exact R.elim
      | some info =>
        obtain ⟨rep, h1, h2⟩ := collByPosition_spec (mx := cfg.maxSize) R desc lo hi rmem
        exact ⟨some info, rep, some c, by simp only [step, h1, Option.map_some], h2, R⟩
  | setattr m o rd mr =>
    right
    cases σ with
    | none => cases s with
      | none => exact ⟨_, _, none, rfl, ⟨rfl, rfl⟩, trivial⟩
      | some info => exact R.elim
    | some c => cases s with
      | none => exact R.elim
      | some info =>
        obtain ⟨info', r, c', h1, h2, h3⟩ := collSetattr_spec h0 R m o rd hl
        refine ⟨_, r, some c', h1, ?_, h2⟩
        rcases h3 with ⟨k1, k2, rfl⟩ | ⟨k1, k2, rfl⟩
        · exact .inl ⟨k1, k2, rfl⟩
        · exact .inr ⟨k1, k2, rfl⟩
  | getattr =>
    right
    cases σ with
    | none => cases s with
      | none => exact ⟨_, _, none, rfl, ⟨rfl, rfl⟩, trivial⟩
      | some info => exact R.elim
    | some c => cases s with
      | none => exact R.elim
      | some info =>
        refine ⟨some info, _, some c, by simp only [step, collGetattr_spec R, Option.map_some]; rfl, ⟨rfl, rfl⟩, R⟩
  | remove =>
    right
    cases σ with
    | none => cases s with
      | none => exact ⟨_, _, none, rfl, ⟨rfl, rfl⟩, trivial⟩
      | some info => exact R.elim
    | some c => cases s with
      | none => exact R.elim
      | some info => exact ⟨none, _, none, rfl, ⟨rfl, rfl⟩, trivial⟩

end Verif.BT
