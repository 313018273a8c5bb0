import Verif.Lemmas.BTreeStep
import Verif.Spec.Run
/-!
# Lemmas on the specification of the b+tree commands
-/
namespace Verif.BT
open Verif.BT.Spec

theorem Rel.ordered {c : C} {info : Info} (R : Rel c info) : Ordered c := ⟨R.sorted, fun _ hx => R.key hx⟩

theorem Spec.Ordered.same {c : C} (h : Ordered c) {k : BKey} (ha : ¬ c.Alien k) {x : Elem} (hx : x ∈ c.elems) : SameKind k x.bkey :=
  kindOf_same (not_alien ha (h.2 x hx).2)

theorem nodup {c : C} (h : Ordered c) : c.elems.Nodup :=
  h.1.imp fun {a b} h1 (h2 : a = b) => absurd h1 (by rw [h2]; exact klt_irrefl _)

theorem Admits.alien {c : C} {e : Elem} {full : Bool} (h : Admits c e full) {x : Elem} (hx : x ∈ c.elems) : ¬ c.Alien e.bkey :=
  fun ha => h.1 ⟨.inl (List.ne_nil_of_mem hx), ha⟩

theorem mem_place {c : C} {e : Elem} {full : Bool} (ho : Ordered c) (hv : ValidKey e.bkey) (h : Admits c e full) {x : Elem} :
    x ∈ place e c.elems ↔ x = e ∨ x ∈ c.elems := by
  classical
  rw [place, List.mem_append, List.mem_cons, List.mem_filter, List.mem_filter, decide_eq_true_eq, decide_eq_true_eq]
  constructor
  · rintro (h | rfl | h)
    · exact .inr h.1
    · exact .inl rfl
    · exact .inr h.1
  · rintro (rfl | hx)
    · exact .inr (.inl rfl)
    · rcases bkeyComp_spec (ho.same (Admits.alien h hx) hx) (ValidKey.nonEmpty hv) (ValidKey.nonEmpty (ho.2 x hx).1) with ⟨-, k⟩ | ⟨-, k⟩ | ⟨-, k⟩
      · exact .inr (.inr ⟨hx, k⟩)
      · exact absurd k.symm (h.2.1 x hx)
      · exact .inl ⟨hx, k⟩

theorem place_sub {e : Elem} {l : List Elem} {x : Elem} (h : x ∈ place e l) : x = e ∨ x ∈ l := by
  classical
  rw [place, List.mem_append, List.mem_cons, List.mem_filter, List.mem_filter] at h
  rcases h with h | rfl | h
  · exact .inr h.1
  · exact .inl rfl
  · exact .inr h.1

theorem place_length_le (e : Elem) (l : List Elem) : (place e l).length ≤ l.length + 1 := by
  classical
  rw [place, List.length_append, List.length_cons]
  have : (l.filter fun x => decide (KLt x.bkey e.bkey)).length + (l.filter fun x => decide (KLt e.bkey x.bkey)).length ≤ l.length := by
    induction l with
    | nil => simp
    | cons x l ih =>
      rw [List.filter_cons, List.filter_cons, List.length_cons]
      by_cases h1 : KLt x.bkey e.bkey
      · rw [if_pos (decide_eq_true h1), if_neg (by rw [decide_eq_true_eq]; exact fun h => klt_asymm h1 h), List.length_cons]; omega
      · rw [if_neg (by rw [decide_eq_true_eq]; exact h1)]
        split
        · rw [List.length_cons]; omega
        · omega
  omega

theorem filter_place_le {e a : Elem} {l : List Elem} {P : Elem → Bool} (ha : a ∈ place e l) (hp : P a = false) :
    ((place e l).filter P).length ≤ l.length := by
  have h1 := place_length_le e l
  have h2 : ((place e l).filter P).length < (place e l).length := by
    rw [List.length_filter_lt_length_iff_exists]
    exact ⟨a, ha, by rw [hp]; exact Bool.false_ne_true⟩
  omega

/-! ## The maximum count -/

theorem cap_want {mx : Nat} (h : 4000 ≤ mx) (m : Int) {c : C} (hc : c.maxcount = wantCap mx m) : c.cap mx ≤ mx ∧ 0 < c.cap mx := by
  rw [C.cap, hc, wantCap]
  split
  · rename_i k hk
    split at hk
    · cases hk
    · split at hk
      · cases hk; omega
      · cases hk; omega
  · omega

theorem insert_bounded {mx : Nat} {c c' : C} {e : Elem} {rp : Bool} {mem : Nat} {full : Bool} {o : Link}
    (h : Insert mx c e rp mem full o c') (hb : Bounded mx (some c)) : Bounded mx (some c') := by
  classical
  obtain ⟨b1, b2, b3⟩ := hb c rfl
  intro c'' hc''
  cases hc''
  have hp := place_length_le e c.elems
  cases h with
  | alien => exact ⟨b1, b2, b3⟩
  | nomem => exact ⟨b1, b2, b3⟩
  | stickyFull => exact ⟨b1, b2, b3⟩
  | dup => exact ⟨b1, b2, b3⟩
  | replFull => exact ⟨b1, b2, b3⟩
  | repl => exact ⟨by simpa [C.cap] using b1, b2, b3⟩
  | first => exact ⟨b3, b2, b3⟩
  | new _ _ _ hl => exact ⟨by simp only [C.cap] at hl ⊢; omega, b2, b3⟩
  | overflow => exact ⟨b1, b2, b3⟩
  | underTrimmed => exact ⟨b1, b2, b3⟩
  | overTrimmed => exact ⟨b1, b2, b3⟩
  | trimLow a l _ _ _ _ _ _ hpl =>
    rw [hpl, List.length_cons] at hp
    exact ⟨by simp only [C.cap] at b1 ⊢; omega, b2, b3⟩
  | trimHigh a l _ _ _ _ _ _ hpl =>
    rw [hpl, List.length_append, List.length_singleton] at hp
    exact ⟨by simp only [C.cap] at b1 ⊢; omega, b2, b3⟩
  | tooLow => exact ⟨b1, b2, b3⟩
  | tooHigh => exact ⟨b1, b2, b3⟩
  | rangeLow mr to a _ ho _ ha =>
    refine ⟨Nat.le_trans (filter_place_le (a := a) ?_ ?_) b1, b2, b3⟩
    · rw [place, List.mem_append, List.mem_filter]
      have hm := List.mem_of_head? ha
      exact .inl ⟨hm, decide_eq_true (ho.2.1 a hm)⟩
    · simp
  | rangeHigh mr fr b _ ho _ hb =>
    refine ⟨Nat.le_trans (filter_place_le (a := b) ?_ ?_) b1, b2, b3⟩
    · rw [place, List.mem_append, List.mem_cons, List.mem_filter (as := c.elems), List.mem_filter]
      have hm := List.mem_of_getLast? hb
      exact .inr (.inr ⟨hm, decide_eq_true (ho.2.1 b hm)⟩)
    · simp

theorem bounded_sub {mx : Nat} {c : C} {l : List Elem} (hb : Bounded mx (some c)) (hl : l.length ≤ c.elems.length) :
    Bounded mx (some { c with elems := l }) := by
  obtain ⟨b1, b2, b3⟩ := hb c rfl
  intro c' hc'
  cases hc'
  exact ⟨Nat.le_trans hl b1, b2, b3⟩

theorem bounded_shrink {mx : Nat} {c : C} {l : List Elem} {drop : Bool} (hb : Bounded mx (some c)) (hl : l.length ≤ c.elems.length) :
    Bounded mx (shrink c l drop) := by
  rw [shrink]
  split
  · intro c' hc'; cases hc'
  · exact bounded_sub hb hl

theorem step_bounded {mx : Nat} (hmx : 4000 ≤ mx) {σ σ' : S} {op : Op} {r : Rep} (hb : Bounded mx σ) (h : Step mx σ op r σ') : Bounded mx σ' := by
  have hfresh : ∀ a, Bounded mx (some (fresh mx a)) := by
    intro a c hc
    cases hc
    have := cap_want hmx a.maxcount (c := fresh mx a) rfl
    exact ⟨by simp [fresh], this⟩
  have hnone : Bounded mx none := fun c hc => by cases hc
  cases op with
  | create a imem =>
    cases σ with
    | some c => simp only [Step] at h; rw [h.2]; exact hb
    | none =>
      simp only [Step] at h
      split at h
      · rw [h.2]; exact hfresh a
      · rw [h.2]; exact hnone
  | insert e rp a want imem mem full =>
    cases σ with
    | some c =>
      simp only [Step] at h
      obtain ⟨o, c', h1, -, rfl⟩ := h
      exact insert_bounded h1 hb
    | none =>
      cases a with
      | none => simp only [Step] at h; rw [h.2]; exact hnone
      | some a =>
        simp only [Step] at h
        split at h
        · rw [h.2]; exact hnone
        · obtain ⟨o, c', h1, -, rfl⟩ := h
          cases o with
          | refused r => exact hnone
          | linked x => exact insert_bounded h1 (hfresh a)
          | replaced => exact insert_bounded h1 (hfresh a)
  | update key u v busy amem full =>
    cases σ with
    | none => simp only [Step] at h; rw [h.2]; exact hnone
    | some c =>
      simp only [Step] at h
      rcases h with ⟨-, -, rfl⟩ | ⟨-, -, -, rfl⟩ | ⟨-, -, ⟨-, -, rfl⟩ | ⟨e, -, -, ⟨-, -, rfl⟩ | ⟨-, -, rfl, -⟩ | ⟨-, -, rfl⟩⟩⟩
      · exact hb
      · exact hb
      · exact hb
      · exact hb
      · exact hb
      · exact bounded_sub hb (by simp [put])
  | delete r f count drop =>
    cases σ with
    | none => simp only [Step] at h; rw [h.2]; exact hnone
    | some c =>
      simp only [Step] at h
      rcases h with ⟨-, -, rfl⟩ | ⟨-, -, -, rfl⟩ | ⟨-, -, ⟨-, -, rfl⟩ | ⟨-, -, rfl⟩⟩
      · exact hb
      · exact hb
      · exact hb
      · exact bounded_shrink hb (List.length_filter_le _ _)
  | arith key incr create delta initial eflag busy amem mem full rest =>
    cases σ with
    | none => simp only [Step] at h; rw [h.2]; exact hnone
    | some c =>
      simp only [Step] at h
      rcases h with ⟨-, -, rfl⟩ | ⟨-, ⟨-, h⟩ | ⟨e, -, -, h⟩⟩
      · exact hb
      · split at h
        · rw [h.2]; exact hb
        · rcases h with ⟨-, -, rfl⟩ | ⟨o, c', h1, rfl, -⟩
          · exact hb
          · exact insert_bounded h1 hb
      · split at h
        · split at h
          · rw [h.2]; exact hb
          · rcases h with ⟨-, rfl⟩ | ⟨-, rfl, -⟩
            · exact bounded_sub hb (by simp [put])
            · exact hb
        · rw [h.2]; exact hb
  | get r f offset count del drop rmem =>
    cases σ with
    | none => simp only [Step] at h; rw [h.2]; exact hnone
    | some c =>
      simp only [Step] at h
      split at h
      · rw [h.2]; exact hb
      · rcases h with ⟨-, -, rfl⟩ | ⟨-, -, -, rfl⟩ | ⟨-, -, h⟩
        · exact hb
        · exact hb
        · split at h
          · rw [h.2]; exact hb
          · obtain ⟨hint, -, ⟨-, -, rfl⟩ | ⟨-, h⟩⟩ := h
            · exact hb
            · split at h
              · rw [h.2]; exact hb
              · rw [h.2]; exact bounded_shrink hb (List.length_filter_le _ _)
  | count r f =>
    cases σ with
    | none => simp only [Step] at h; rw [h.2]; exact hnone
    | some c => simp only [Step] at h; rw [h.1]; exact hb
  | position key desc =>
    cases σ with
    | none => simp only [Step] at h; rw [h.2]; exact hnone
    | some c => simp only [Step] at h; rw [h.1]; exact hb
  | around key desc count rmem =>
    cases σ with
    | none => simp only [Step] at h; rw [h.2]; exact hnone
    | some c => simp only [Step] at h; rw [h.1]; exact hb
  | byPosition desc lo hi rmem =>
    cases σ with
    | none => simp only [Step] at h; rw [h.2]; exact hnone
    | some c => simp only [Step] at h; rw [h.1]; exact hb
  | setattr m o rd mr =>
    cases σ with
    | none => simp only [Step] at h; rw [h.2]; exact hnone
    | some c =>
      simp only [Step] at h
      rcases h with ⟨-, -, rfl⟩ | ⟨hbad, -, rfl⟩
      · exact hb
      · obtain ⟨b1, b2, b3⟩ := hb c rfl
        intro c' hc'
        cases hc'
        cases m with
        | none => exact ⟨b1, b2, b3⟩
        | some x =>
          refine ⟨?_, cap_want hmx x rfl⟩
          simp only [setAttrs, C.cap]
          cases hw : wantCap mx x with
          | none => simp only; omega
          | some k =>
            simp only
            exact Nat.le_of_not_lt fun hk => hbad (.inl ⟨x, k, rfl, hw, hk⟩)
  | getattr =>
    cases σ with
    | none => simp only [Step] at h; rw [h.2]; exact hnone
    | some c => simp only [Step] at h; rw [h.1]; exact hb
  | remove =>
    cases σ with
    | none => simp only [Step] at h; rw [h.2]; exact hnone
    | some c => simp only [Step] at h; rw [h.2]; exact hnone

/-! ## The maximum range -/

theorem Spec.Spanned.keys {c c' : C} (h : Spanned c) (hm : c'.maxRange = c.maxRange) (hk : ∀ x ∈ c'.elems, ∃ y ∈ c.elems, y.bkey = x.bkey) :
    Spanned c' := by
  intro mr hr
  rw [hm] at hr
  obtain ⟨h1, h2⟩ := h mr hr
  constructor
  · intro x hx
    obtain ⟨y, hy, e⟩ := hk x hx
    rw [← e]; exact h1 y hy
  · intro x hx y hy
    obtain ⟨x', hx', e⟩ := hk x hx
    obtain ⟨y', hy', e'⟩ := hk y hy
    rw [← e, ← e']; exact h2 x' hx' y' hy'

theorem Spec.Spanned.sub {c c' : C} (h : Spanned c) (hm : c'.maxRange = c.maxRange) (hk : ∀ x ∈ c'.elems, x ∈ c.elems) : Spanned c' :=
  h.keys hm fun x hx => ⟨x, hk x hx, rfl⟩

theorem put_keys {e : Elem} {l : List Elem} {x : Elem} (hx : x ∈ put e l) : ∃ y ∈ l, y.bkey = x.bkey := by
  rw [put, List.mem_map] at hx
  obtain ⟨y, hy, rfl⟩ := hx
  refine ⟨y, hy, ?_⟩
  split
  · rename_i h; exact h
  · rfl

theorem ordered_first {c : C} (ho : Ordered c) {a x : Elem} (ha : c.elems.head? = some a) (hx : x ∈ c.elems) (w : Nat) :
    Value w a.bkey ≤ Value w x.bkey := by
  obtain ⟨l, hl⟩ := head_split ha
  obtain ⟨h1, h2⟩ := ho
  have hv := (h2 a (List.mem_of_head? ha)).1
  rw [hl] at hx h1
  rcases List.mem_cons.mp hx with rfl | hx
  · exact Nat.le_refl _
  · exact value_mono hv ((List.pairwise_cons.mp h1).1 x hx)

theorem ordered_last {c : C} (ho : Ordered c) {b x : Elem} (hb : c.elems.getLast? = some b) (hx : x ∈ c.elems) (w : Nat) :
    Value w x.bkey ≤ Value w b.bkey := by
  obtain ⟨l, hl⟩ := last_split hb
  obtain ⟨h1, h2⟩ := ho
  have hv := (h2 x hx).1
  rw [hl] at hx h1
  rcases List.mem_append.mp hx with hx | hx
  · exact value_mono hv ((List.pairwise_append.mp h1).2.2 x hx b (by simp))
  · rw [List.mem_singleton] at hx; rw [hx]; exact Nat.le_refl _

theorem value_le {w : Nat} {a b : BKey} (ha : ValidKey a) (hb : ValidKey b) (hs : SameKind a b) (h : ¬ KLt b a) : Value w a ≤ Value w b := by
  rcases bkeyComp_spec hs (ValidKey.nonEmpty ha) (ValidKey.nonEmpty hb) with ⟨-, k⟩ | ⟨-, k⟩ | ⟨-, k⟩
  · exact value_mono ha k
  · rw [k]; exact Nat.le_refl _
  · exact absurd k h

/-- A collection with one more element within the range. -/
theorem spanned_near {c : C} {e : Elem} {full : Bool} (ho : Ordered c) (hv : ValidKey e.bkey) (ha : Admits c e full)
    (hu : ∀ mr, c.maxRange = some mr → size e.bkey = size mr) (hs : Spanned c) (hn : Spec.Near c e) {c' : C} (hm : c'.maxRange = c.maxRange)
    (hsub : ∀ x ∈ c'.elems, x = e ∨ x ∈ c.elems) : Spanned c' := by
  intro mr hr
  rw [hm] at hr
  obtain ⟨h1, h2⟩ := hs mr hr
  obtain ⟨n1, n2⟩ := hn mr
  have hlow : ∀ y ∈ c.elems, Value (size mr) y.bkey ≤ Value (size mr) e.bkey + Value (size mr) mr := by
    intro y hy
    obtain ⟨a, b, e1, e2, e3, e4⟩ := ends (List.ne_nil_of_mem hy)
    by_cases hun : KLt e.bkey a.bkey
    · have hw : ¬ Wide mr b.bkey e.bkey := fun hw => n1 ⟨hr, (under_iff ho.1 e1 _).mpr hun, b, e2, hw⟩
      rw [Wide] at hw
      have := ordered_last ho e2 hy (size mr)
      omega
    · have := value_le (w := size mr) (ho.2 a e3).1 hv (ho.same (Admits.alien ha e3) e3).symm hun
      have := h2 a e3 y hy
      omega
  have hhigh : ∀ x ∈ c.elems, Value (size mr) e.bkey ≤ Value (size mr) x.bkey + Value (size mr) mr := by
    intro x hx
    obtain ⟨a, b, e1, e2, e3, e4⟩ := ends (List.ne_nil_of_mem hx)
    by_cases hov : KLt b.bkey e.bkey
    · have hw : ¬ Wide mr e.bkey a.bkey := fun hw => n2 ⟨hr, (over_iff ho.1 e2 _).mpr hov, a, e1, hw⟩
      rw [Wide] at hw
      have := ordered_first ho e1 hx (size mr)
      omega
    · have := value_le (w := size mr) hv (ho.2 b e4).1 (ho.same (Admits.alien ha e4) e4) hov
      have := h2 x hx b e4
      omega
  constructor
  · intro x hx
    rcases hsub x hx with rfl | hx
    · exact hu mr hr
    · exact h1 x hx
  · intro x hx y hy
    rcases hsub x hx with rfl | hx
    · rcases hsub y hy with rfl | hy
      · omega
      · exact hlow y hy
    · rcases hsub y hy with rfl | hy
      · exact hhigh x hx
      · exact h2 x hx y hy

theorem insert_spanned {mx : Nat} {c c' : C} {e : Elem} {rp : Bool} {mem : Nat} {full : Bool} {o : Link} (ho : Ordered c) (hv : ValidKey e.bkey)
    (hu : ∀ mr, c.maxRange = some mr → size e.bkey = size mr) (h : Insert mx c e rp mem full o c') (hs : Spanned c) : Spanned c' := by
  classical
  cases h with
  | alien => exact hs
  | nomem => exact hs
  | stickyFull => exact hs
  | dup => exact hs
  | replFull => exact hs
  | repl => exact hs.keys rfl fun x hx => put_keys (e := e) hx
  | first ha he =>
    intro mr hr
    constructor
    · intro x hx
      rw [List.mem_singleton] at hx
      rw [hx]; exact hu mr hr
    · intro x hx y hy
      rw [List.mem_singleton] at hx hy
      rw [hx, hy]; omega
  | new ha _ hn _ => exact spanned_near ho hv ha hu hs hn rfl fun x hx => place_sub hx
  | overflow => exact hs
  | underTrimmed => exact hs
  | overTrimmed => exact hs
  | trimLow a l ha _ hn _ _ _ hp => exact spanned_near ho hv ha hu hs hn rfl fun x hx => place_sub (by rw [hp]; exact List.mem_cons_of_mem _ hx)
  | trimHigh a l ha _ hn _ _ _ hp => exact spanned_near ho hv ha hu hs hn rfl fun x hx => place_sub (by rw [hp]; exact List.mem_append_left _ hx)
  | tooLow => exact hs
  | tooHigh => exact hs
  | rangeLow mr to a ha hov _ _ hto hsk hsz hval =>
    intro mr' hr
    have : mr = mr' := Option.some.inj (hov.1.symm.trans hr)
    subst this
    obtain ⟨h1, -⟩ := hs mr hov.1
    have hsize : ∀ x, x = e ∨ x ∈ c.elems → size x.bkey = size mr := by
      rintro x (rfl | hx)
      · exact hu mr hov.1
      · exact h1 x hx
    constructor
    · intro x hx
      exact hsize x (place_sub (List.mem_filter.mp hx).1)
    · intro x hx y hy
      obtain ⟨x1, x2⟩ := List.mem_filter.mp hx
      obtain ⟨y1, -⟩ := List.mem_filter.mp hy
      rw [decide_eq_true_eq] at x2
      have hy' : Value (size mr) y.bkey ≤ Value (size mr) e.bkey := by
        rcases place_sub y1 with rfl | hy
        · exact Nat.le_refl _
        · exact value_mono (ho.2 y hy).1 (hov.2.1 y hy)
      have hxv : ValidKey x.bkey := by
        rcases place_sub x1 with rfl | hx
        · exact hv
        · exact (ho.2 x hx).1
      have := (value_lt_iff hto hxv (klt_same x2.1) hsz (hsize x (place_sub x1))).mp x2.1
      omega
  | rangeHigh mr fr b ha hov _ _ hto hsk hsz hval =>
    intro mr' hr
    have : mr = mr' := Option.some.inj (hov.1.symm.trans hr)
    subst this
    obtain ⟨h1, -⟩ := hs mr hov.1
    have hsize : ∀ x, x = e ∨ x ∈ c.elems → size x.bkey = size mr := by
      rintro x (rfl | hx)
      · exact hu mr hov.1
      · exact h1 x hx
    constructor
    · intro x hx
      exact hsize x (place_sub (List.mem_filter.mp hx).1)
    · intro x hx y hy
      obtain ⟨x1, -⟩ := List.mem_filter.mp hx
      obtain ⟨y1, y2⟩ := List.mem_filter.mp hy
      rw [decide_eq_true_eq] at y2
      have hx' : Value (size mr) e.bkey ≤ Value (size mr) x.bkey := by
        rcases place_sub x1 with rfl | hx
        · exact Nat.le_refl _
        · exact value_mono hv (hov.2.1 x hx)
      have hyv : ValidKey y.bkey := by
        rcases place_sub y1 with rfl | hy
        · exact hv
        · exact (ho.2 y hy).1
      have := (value_lt_iff hyv hto (klt_same y2.1) (hsize y (place_sub y1)) hsz).mp y2.1
      omega

theorem spanned_shrink {c : C} {l : List Elem} {drop : Bool} (h : Spanned c) (hl : ∀ x ∈ l, x ∈ c.elems) : SpannedS (shrink c l drop) := by
  intro c' hc'
  rw [shrink] at hc'
  split at hc'
  · cases hc'
  · cases hc'; exact h.sub rfl hl

theorem step_spanned {cfg : Cfg} {σ σ' : S} {s : St} {op : Op} {r : Rep} (R : RelS σ s) (hL : Legal σ op) (hU : Uniform σ op)
    (hb : SpannedS σ) (h : Step cfg.maxSize σ op r σ') : SpannedS σ' := by
  have hfresh : ∀ a, Spanned (fresh cfg.maxSize a) := by
    intro a mr hr
    cases hr
  have hnone : SpannedS none := fun c hc => by cases hc
  have hone : ∀ c, Spanned c → SpannedS (some c) := by
    intro c hc c' hc'; cases hc'; exact hc
  cases op with
  | create a imem =>
    cases σ with
    | some c => simp only [Step] at h; rw [h.2]; exact hb
    | none =>
      simp only [Step] at h
      split at h
      · rw [h.2]; exact hone _ (hfresh a)
      · rw [h.2]; exact hnone
  | insert e rp a want imem mem full =>
    cases σ with
    | some c =>
      cases s with
      | none => exact R.elim
      | some info =>
        have R : Rel c info := R
        simp only [Step] at h
        obtain ⟨o, c', h1, -, rfl⟩ := h
        exact hone _ (insert_spanned R.ordered hL.1 (hU c · rfl) h1 (hb c rfl))
    | none =>
      cases a with
      | none => simp only [Step] at h; rw [h.2]; exact hnone
      | some a =>
        simp only [Step] at h
        split at h
        · rw [h.2]; exact hnone
        · obtain ⟨o, c', h1, -, rfl⟩ := h
          have hof : Ordered (fresh cfg.maxSize a) := ⟨List.Pairwise.nil, fun x hx => (List.not_mem_nil hx).elim⟩
          have := insert_spanned hof hL.1 (fun r hr => by cases hr) h1 (hfresh a)
          cases o with
          | refused r => exact hnone
          | linked x => exact hone _ this
          | replaced => exact hone _ this
  | update key u v busy amem full =>
    cases σ with
    | none => simp only [Step] at h; rw [h.2]; exact hnone
    | some c =>
      simp only [Step] at h
      rcases h with ⟨-, -, rfl⟩ | ⟨-, -, -, rfl⟩ | ⟨-, -, ⟨-, -, rfl⟩ | ⟨e, -, -, ⟨-, -, rfl⟩ | ⟨-, -, rfl, -⟩ | ⟨-, -, rfl⟩⟩⟩
      · exact hb
      · exact hb
      · exact hb
      · exact hb
      · exact hb
      · exact hone _ ((hb c rfl).keys rfl fun x hx => put_keys hx)
  | delete r f count drop =>
    cases σ with
    | none => simp only [Step] at h; rw [h.2]; exact hnone
    | some c =>
      simp only [Step] at h
      rcases h with ⟨-, -, rfl⟩ | ⟨-, -, -, rfl⟩ | ⟨-, -, ⟨-, -, rfl⟩ | ⟨-, -, rfl⟩⟩
      · exact hb
      · exact hb
      · exact hb
      · exact spanned_shrink (hb c rfl) fun x hx => (List.mem_filter.mp hx).1
  | arith key incr create delta initial eflag busy amem mem full rest =>
    cases σ with
    | none => simp only [Step] at h; rw [h.2]; exact hnone
    | some c =>
      simp only [Step] at h
      rcases h with ⟨-, -, rfl⟩ | ⟨-, ⟨-, h⟩ | ⟨e, -, -, h⟩⟩
      · exact hb
      · split at h
        · rw [h.2]; exact hb
        · rcases h with ⟨-, -, rfl⟩ | ⟨o, c', h1, rfl, -⟩
          · exact hb
          · cases s with
            | none => exact R.elim
            | some info =>
              have R : Rel c info := R
              exact hone _ (insert_spanned R.ordered hL.1 (hU c · rfl) h1 (hb c rfl))
      · split at h
        · split at h
          · rw [h.2]; exact hb
          · rcases h with ⟨-, rfl⟩ | ⟨-, rfl, -⟩
            · exact hone _ ((hb c rfl).keys rfl fun x hx => put_keys hx)
            · exact hb
        · rw [h.2]; exact hb
  | get r f offset count del drop rmem =>
    cases σ with
    | none => simp only [Step] at h; rw [h.2]; exact hnone
    | some c =>
      simp only [Step] at h
      split at h
      · rw [h.2]; exact hb
      · rcases h with ⟨-, -, rfl⟩ | ⟨-, -, -, rfl⟩ | ⟨-, -, h⟩
        · exact hb
        · exact hb
        · split at h
          · rw [h.2]; exact hb
          · obtain ⟨hint, -, ⟨-, -, rfl⟩ | ⟨-, h⟩⟩ := h
            · exact hb
            · split at h
              · rw [h.2]; exact hb
              · rw [h.2]; exact spanned_shrink (hb c rfl) fun x hx => (List.mem_filter.mp hx).1
  | count r f =>
    cases σ with
    | none => simp only [Step] at h; rw [h.2]; exact hnone
    | some c => simp only [Step] at h; rw [h.1]; exact hb
  | position key desc =>
    cases σ with
    | none => simp only [Step] at h; rw [h.2]; exact hnone
    | some c => simp only [Step] at h; rw [h.1]; exact hb
  | around key desc count rmem =>
    cases σ with
    | none => simp only [Step] at h; rw [h.2]; exact hnone
    | some c => simp only [Step] at h; rw [h.1]; exact hb
  | byPosition desc lo hi rmem =>
    cases σ with
    | none => simp only [Step] at h; rw [h.2]; exact hnone
    | some c => simp only [Step] at h; rw [h.1]; exact hb
  | setattr m o rd mr =>
    cases σ with
    | none => simp only [Step] at h; rw [h.2]; exact hnone
    | some c =>
      cases s with
      | none => exact R.elim
      | some info =>
        have R : Rel c info := R
        simp only [Step] at h
        rcases h with ⟨-, -, rfl⟩ | ⟨hbad, -, rfl⟩
        · exact hb
        · refine hone _ ?_
          cases mr with
          | none => exact (hb c rfl).sub rfl fun x hx => hx
          | some x =>
            cases x with
            | none => intro mr hr; cases hr
            | some r =>
              intro r' hr
              have : r = r' := Option.some.inj hr
              subst this
              refine ⟨hU c r rfl rfl, ?_⟩
              intro x hx y hy
              have hx : x ∈ c.elems := hx
              have hy : y ∈ c.elems := hy
              by_cases hmr : c.maxRange = some r
              · exact (hb c rfl r hmr).2 x hx y hy
              · have hne := List.ne_nil_of_mem hx
                obtain ⟨a, b, e1, e2, e3, e4⟩ := ends hne
                have hw : ¬ Wide r b.bkey a.bkey := fun hw => hbad (.inr (.inr (.inr ⟨r, rfl, hne, .inr ⟨hmr, a, b, e1, e2, hw⟩⟩)))
                have := ordered_first R.ordered e1 hx (size r)
                have := ordered_last R.ordered e2 hy (size r)
                rw [Wide] at hw
                omega
  | getattr =>
    cases σ with
    | none => simp only [Step] at h; rw [h.2]; exact hnone
    | some c => simp only [Step] at h; rw [h.1]; exact hb
  | remove =>
    cases σ with
    | none => simp only [Step] at h; rw [h.2]; exact hnone
    | some c => simp only [Step] at h; rw [h.2]; exact hnone

/-! ## Ranges -/

theorem range_asc {r : Range} (hr : ¬ Descending r) {k : BKey} (h : Spec.InRange r k) : KLe r.lo k := by
  obtain ⟨lo, hi⟩ := r
  cases hi with
  | none => exact .inr (Eq.symm h)
  | some b =>
    rcases h with ⟨h1, -⟩ | ⟨h1, h2⟩
    · exact h1
    · right
      rcases h2 with h2 | h2
      · exact absurd ⟨b, rfl, kle_klt h1 h2⟩ hr
      · exact h2.symm

theorem range_desc {r : Range} {b : BKey} (hb : r.hi = some b) (hlt : KLt b r.lo) {k : BKey} (h : Spec.InRange r k) : KLe b k ∧ KLe k r.lo := by
  obtain ⟨lo, hi⟩ := r
  simp only at hb hlt
  subst hb
  rcases h with ⟨h1, h2⟩ | ⟨h1, h2⟩
  · exfalso
    rcases h1 with h1 | rfl
    · exact not_kle (klt_trans hlt h1) h2
    · exact not_kle hlt h2
  · exact ⟨h1, h2⟩

theorem range_asc' {r : Range} {b : BKey} (hb : r.hi = some b) (hlt : KLt r.lo b) {k : BKey} (h : Spec.InRange r k) : KLe r.lo k ∧ KLe k b := by
  obtain ⟨lo, hi⟩ := r
  simp only at hb hlt
  subst hb
  rcases h with ⟨h1, h2⟩ | ⟨h1, h2⟩
  · exact ⟨h1, h2⟩
  · exfalso
    rcases h1 with h1 | rfl
    · exact not_kle (klt_trans hlt h1) h2
    · exact not_kle hlt h2

theorem range_not_asc {r : Range} (hr : ¬ Ascending r) {k : BKey} (h : Spec.InRange r k) : KLe k r.lo := by
  obtain ⟨lo, hi⟩ := r
  cases hi with
  | none => exact .inr h
  | some b =>
    rcases h with ⟨h1, h2⟩ | ⟨-, h2⟩
    · rcases h1 with h1 | h1
      · exact absurd ⟨b, rfl, klt_kle h1 h2⟩ hr
      · exact .inr h1.symm
    · exact h2

theorem Under.le {c : C} {a b : BKey} (h : Under c b) (hab : KLe a b) : Under c a := fun e he => kle_klt hab (h e he)

theorem Over.le {c : C} {a b : BKey} (h : Over c b) (hab : KLe b a) : Over c a := fun e he => klt_kle (h e he) hab

/-! ## Selections -/

theorem mem_matching {r : Range} {f : Option EFilter} {l : List Elem} {x : Elem} :
    x ∈ matching r f l ↔ x ∈ l ∧ Spec.InRange r x.bkey ∧ Passes f x.eflag := by
  classical
  rw [matching, List.mem_filter, decide_eq_true_eq]
  split
  · rw [List.mem_reverse]
  · rfl

theorem matching_before {r : Range} {f : Option EFilter} {c : C} (ho : Ordered c) : (matching r f c.elems).Pairwise (Sooner r) := by
  classical
  rw [matching.eq_def]
  refine List.Pairwise.filter _ ?_
  split
  · rename_i h
    rw [List.pairwise_reverse]
    exact ho.1.imp fun h1 => .inr ⟨h, h1⟩
  · rename_i h
    exact ho.1.imp fun h1 => .inl ⟨h, h1⟩

theorem select_cut (r : Range) (f : Option EFilter) (offset count : Nat) (l : List Elem) (h : select r f offset count l ≠ []) :
    ∃ pre post, matching r f l = pre ++ select r f offset count l ++ post ∧ pre.length = offset ∧
      (count ≠ 0 → (select r f offset count l).length ≤ count) ∧
      (post ≠ [] → count ≠ 0 ∧ (select r f offset count l).length = count) := by
  refine ⟨(matching r f l).take offset, if count = 0 then [] else ((matching r f l).drop offset).drop count, ?_, ?_, ?_, ?_⟩
  · rw [select, upTo]
    split
    · rw [List.append_nil, List.take_append_drop]
    · rw [List.append_assoc, List.take_append_drop, List.take_append_drop]
  · rw [List.length_take]
    have : ((matching r f l).drop offset) ≠ [] := by
      intro h0
      apply h
      rw [select, h0, upTo]; split <;> simp
    have := List.length_pos_iff.mpr this
    rw [List.length_drop] at this
    omega
  · intro hc
    rw [select, upTo, if_neg hc, List.length_take]; omega
  · intro hp
    by_cases hc : count = 0
    · rw [if_pos hc] at hp; exact absurd rfl hp
    · refine ⟨hc, ?_⟩
      rw [if_neg hc] at hp
      have := List.length_pos_iff.mpr hp
      rw [List.length_drop] at this
      rw [select, upTo, if_neg hc, List.length_take]; omega

theorem select_empty {r : Range} {f : Option EFilter} {offset count : Nat} {l : List Elem} (h : select r f offset count l = []) :
    (matching r f l).length ≤ offset := by
  rw [select, upTo] at h
  split at h
  · exact List.drop_eq_nil_iff.mp h
  · rename_i hc
    have := congrArg List.length h
    rw [List.length_take, List.length_drop, List.length_nil] at this
    omega

/-! ## The ends of a list with one more element -/

theorem place_head {c : C} {e : Elem} {full : Bool} (ho : Ordered c) (hv : ValidKey e.bkey) (h : Admits c e full) (hu : ¬ Under c e.bkey)
    {a : Elem} {l : List Elem} (hp : place e c.elems = a :: l) :
    a ∈ c.elems ∧ (∀ x ∈ c.elems, x ≠ a → KLt a.bkey x.bkey) ∧ KLt a.bkey e.bkey ∧ ∀ x, x ∈ l ↔ x = e ∨ (x ∈ c.elems ∧ x ≠ a) := by
  classical
  have hx : ∃ y ∈ c.elems, KLt y.bkey e.bkey := by
    apply Classical.byContradiction
    intro hn
    apply hu
    intro y hy
    rcases bkeyComp_spec (ho.same (Admits.alien h hy) hy) (ValidKey.nonEmpty hv) (ValidKey.nonEmpty (ho.2 y hy).1) with ⟨-, k⟩ | ⟨-, k⟩ | ⟨-, k⟩
    · exact k
    · exact absurd k.symm (h.2.1 y hy)
    · exact absurd ⟨y, hy, k⟩ hn
  obtain ⟨y, hy, hye⟩ := hx
  obtain ⟨a0, b0, e1, -, e3, -⟩ := ends (List.ne_nil_of_mem hy)
  obtain ⟨l0, hl0⟩ := head_split e1
  have hmin : ∀ x ∈ c.elems, x ≠ a0 → KLt a0.bkey x.bkey := by
    intro x hx hne
    have h1 := ho.1
    rw [hl0] at hx h1
    rcases List.mem_cons.mp hx with rfl | hx
    · exact absurd rfl hne
    · exact (List.pairwise_cons.mp h1).1 x hx
  have ha0 : KLt a0.bkey e.bkey := by
    by_cases hya : y = a0
    · rw [← hya]; exact hye
    · exact klt_trans (hmin y hy hya) hye
  have haa : a = a0 := by
    rw [place, hl0, List.filter_cons, if_pos (decide_eq_true ha0)] at hp
    exact (List.cons.inj hp).1.symm
  subst haa
  refine ⟨e3, hmin, ha0, ?_⟩
  intro x
  have hm := mem_place ho hv h (x := x)
  rw [hp, List.mem_cons] at hm
  have hal : a ∉ l := by
    have hpl : (place e c.elems) = a :: l := hp
    rw [place, hl0, List.filter_cons, if_pos (decide_eq_true ha0)] at hpl
    have : _ ++ _ = l := (List.cons.inj hpl).2
    rw [← this, List.mem_append, List.mem_cons, List.mem_filter, List.mem_filter]
    have hn : a ∉ l0 := by
      intro hn
      have h1 := ho.1
      rw [hl0] at h1
      exact klt_irrefl _ ((List.pairwise_cons.mp h1).1 a hn)
    rintro (⟨h1, -⟩ | rfl | ⟨-, h1⟩)
    · exact hn h1
    · exact klt_irrefl _ ha0
    · exact klt_asymm ha0 (of_decide_eq_true h1)
  constructor
  · intro hxl
    rcases hm.mp (.inr hxl) with rfl | hx
    · exact .inl rfl
    · exact .inr ⟨hx, fun e => hal (e ▸ hxl)⟩
  · rintro (rfl | ⟨hx, hne⟩)
    · rcases hm.mpr (.inl rfl) with rfl | hx
      · exact absurd ha0 (klt_irrefl _)
      · exact hx
    · rcases hm.mpr (.inr hx) with rfl | hx
      · exact absurd rfl hne
      · exact hx

theorem place_last {c : C} {e : Elem} {full : Bool} (ho : Ordered c) (hv : ValidKey e.bkey) (h : Admits c e full) (hu : ¬ Over c e.bkey)
    {a : Elem} {l : List Elem} (hp : place e c.elems = l ++ [a]) :
    a ∈ c.elems ∧ (∀ x ∈ c.elems, x ≠ a → KLt x.bkey a.bkey) ∧ KLt e.bkey a.bkey ∧ ∀ x, x ∈ l ↔ x = e ∨ (x ∈ c.elems ∧ x ≠ a) := by
  classical
  have hx : ∃ y ∈ c.elems, KLt e.bkey y.bkey := by
    apply Classical.byContradiction
    intro hn
    apply hu
    intro y hy
    rcases bkeyComp_spec (ho.same (Admits.alien h hy) hy) (ValidKey.nonEmpty hv) (ValidKey.nonEmpty (ho.2 y hy).1) with ⟨-, k⟩ | ⟨-, k⟩ | ⟨-, k⟩
    · exact absurd ⟨y, hy, k⟩ hn
    · exact absurd k.symm (h.2.1 y hy)
    · exact k
  obtain ⟨y, hy, hye⟩ := hx
  obtain ⟨b0, a0, -, e1, -, e3⟩ := ends (List.ne_nil_of_mem hy)
  obtain ⟨l0, hl0⟩ := last_split e1
  have hmax : ∀ x ∈ c.elems, x ≠ a0 → KLt x.bkey a0.bkey := by
    intro x hx hne
    have h1 := ho.1
    rw [hl0] at hx h1
    rcases List.mem_append.mp hx with hx | hx
    · exact (List.pairwise_append.mp h1).2.2 x hx a0 (by simp)
    · rw [List.mem_singleton] at hx; exact absurd hx hne
  have ha0 : KLt e.bkey a0.bkey := by
    by_cases hya : y = a0
    · rw [← hya]; exact hye
    · exact klt_trans hye (hmax y hy hya)
  have hshape : place e c.elems = ((l0.filter fun x => decide (KLt x.bkey e.bkey)) ++ e :: l0.filter fun x => decide (KLt e.bkey x.bkey)) ++ [a0] := by
    rw [place, hl0, List.filter_append, List.filter_append]
    have h1 : ([a0].filter fun x => decide (KLt x.bkey e.bkey)) = [] := by
      rw [List.filter_cons, if_neg (by rw [decide_eq_true_eq]; exact fun h => klt_asymm ha0 h)]; rfl
    have h2 : ([a0].filter fun x => decide (KLt e.bkey x.bkey)) = [a0] := by
      rw [List.filter_cons, if_pos (decide_eq_true ha0)]; rfl
    rw [h1, h2, List.append_nil, List.append_assoc]; rfl
  obtain ⟨hl, ha⟩ := List.append_inj' (hshape.symm.trans hp) rfl
  have haa : a = a0 := (List.cons.inj ha).1.symm
  subst haa
  refine ⟨e3, hmax, ha0, ?_⟩
  intro x
  have hm := mem_place ho hv h (x := x)
  rw [hp, List.mem_append, List.mem_singleton] at hm
  have hal : a ∉ l := by
    rw [← hl, List.mem_append, List.mem_cons, List.mem_filter, List.mem_filter]
    have hn : a ∉ l0 := by
      intro hn
      have h1 := ho.1
      rw [hl0] at h1
      exact klt_irrefl _ ((List.pairwise_append.mp h1).2.2 a hn a (by simp))
    rintro (⟨h1, -⟩ | rfl | ⟨h1, -⟩)
    · exact hn h1
    · exact klt_irrefl _ ha0
    · exact hn h1
  constructor
  · intro hxl
    rcases hm.mp (.inl hxl) with rfl | hx
    · exact .inl rfl
    · exact .inr ⟨hx, fun e => hal (e ▸ hxl)⟩
  · rintro (rfl | ⟨hx, hne⟩)
    · rcases hm.mpr (.inl rfl) with hx | rfl
      · exact hx
      · exact absurd ha0 (klt_irrefl _)
    · rcases hm.mpr (.inr hx) with hx | rfl
      · exact hx
      · exact absurd rfl hne

/-! ## Ranks -/

theorem countP_before {l : List Elem} {R : Elem → Elem → Prop} {P : Elem → Bool} {b : Nat} {e : Elem} (hl : l.Pairwise R) (hb : l[b]? = some e)
    (h1 : ∀ x, R x e → P x = true) (h2 : P e = false) (h3 : ∀ x, R e x → P x = false) : l.countP P = b := by
  induction l generalizing b with
  | nil => simp at hb
  | cons y l ih =>
    rw [List.pairwise_cons] at hl
    cases b with
    | zero =>
      have : y = e := by simpa using hb
      subst this
      rw [List.countP_cons, if_neg (by rw [h2]; exact Bool.false_ne_true), List.countP_eq_zero.mpr]
      intro x hx
      rw [h3 x (hl.1 x hx)]; exact Bool.false_ne_true
    | succ b =>
      have hb : l[b]? = some e := by simpa using hb
      rw [List.countP_cons, ih hl.2 hb, if_pos (h1 y (hl.1 e (List.mem_of_getElem? hb)))]

end Verif.BT
