/-
Lemmas about the options of an engine.
-/
import Verif.Spec.Config
import Verif.Props.Util
import Mathlib.Data.List.TakeWhile

namespace Verif.Config

open Verif.Util (isspace safeStrtoull safeStrtoul)
open Verif.Util.Spec (decVal Digit Space)
open Spec (esc entry render Plain Writable Amount NoTera Means Has Unknown Stores)

theorem isspace_iff {c : Nat} : isspace c = true ↔ Space c := by
  unfold isspace Space
  simp only [Bool.or_eq_true, beq_iff_eq, Bool.and_eq_true, decide_eq_true_eq]
  omega

theorem dropSpace {t : Text} (h : ∀ c, t.head? = some c → ¬ Space c) : t.dropWhile isspace = t := by
  cases t with
  | nil => rfl
  | cons c r =>
    have : ¬ isspace c = true := fun hh => h c rfl (isspace_iff.mp hh)
    rw [List.dropWhile_cons_of_neg this]

/-- The limit of a text that ends neither in white space nor in a backslash. -/
theorem limit_full {t : Text} {c : Nat} (h : t.getLast? = some c) (h1 : ¬ Space c) (h2 : c ≠ 92) :
    limit t = t.length := by
  unfold limit
  have hh : t.reverse.head? = some c := by rw [List.head?_reverse]; exact h
  have hd : t.reverse.dropWhile isspace = t.reverse :=
    dropSpace (fun x hx => by rw [hh] at hx; cases hx; exact h1)
  simp only [hd, hh]
  rw [if_neg (by simpa using h2), List.length_reverse]

theorem head_app {a b : Text} (h : a ≠ []) : (a ++ b).head? = a.head? := by
  cases a with
  | nil => exact absurd rfl h
  | cons => rfl

theorem esc_cons (stop c : Nat) (t : Text) :
    esc stop (c :: t) = (if c = stop then [92, c] else [c]) ++ esc stop t := rfl

theorem esc_head {stop : Nat} (hs : stop ≠ 92) {c : Nat} {t : Text} :
    (esc stop (c :: t)).head? ≠ some stop := by
  rw [esc_cons]
  split
  · simp only [List.cons_append, List.head?_cons]
    intro h; cases h; exact hs rfl
  · rename_i h
    simp only [List.cons_append, List.head?_cons]
    intro h2; cases h2; exact h rfl

theorem esc_ne {stop c : Nat} {t : Text} : esc stop (c :: t) ≠ [] := by
  rw [esc_cons]; split <;> simp

/-- Copying undoes escaping. -/
theorem copy_ok {size lim stop : Nat} (hs : stop ≠ 92) {r : Text} (hr : r = [] ∨ r.head? = some stop) :
    ∀ (t : Text) (i : Nat) (dest : Text), t ≠ [] → 92 ∉ t → i + (esc stop t).length < size →
      lim = i + (esc stop t).length + r.length →
      copyLoop size lim stop (esc stop t ++ r) i dest = (i + (esc stop t).length, dest ++ t, r) := by
  intro t
  induction t with
  | nil => intro _ _ h; exact absurd rfl h
  | cons c t ih =>
    intro i dest _ h92 hsz hlim
    have hc : c ≠ 92 := fun h => h92 (by rw [h]; exact List.mem_cons_self ..)
    have h92' : 92 ∉ t := fun h => h92 (List.mem_cons_of_mem _ h)
    have hcb : (c == 92) = false := by simpa using hc
    -- the step at `c` itself
    have key : ∀ (j : Nat) (d : Text), j + 1 + (esc stop t).length < size →
        lim = j + 1 + (esc stop t).length + r.length →
        copyLoop size lim stop (c :: (esc stop t ++ r)) j d =
          (j + 1 + (esc stop t).length, d ++ c :: t, r) := by
      intro j d hj hl
      simp only [copyLoop, hcb, Bool.false_eq_true, if_false]
      cases t with
      | nil =>
        have hstop : j + 1 = size ∨ j + 1 ≥ lim ∨
            ((esc stop [] ++ r).head? = some stop ∧ True) ∨ esc stop [] ++ r = [] := by
          rcases hr with h | h
          · right; right; right; rw [h]; rfl
          · right; right; left; exact ⟨h, trivial⟩
        rw [if_pos (by simpa using hstop)]
        rfl
      | cons c' t' =>
        rw [if_neg]
        · rw [ih (j + 1) (d ++ [c]) (by simp) h92' (by omega) (by omega)]
          simp only [List.append_assoc, List.cons_append, List.nil_append]
        · have hne : (esc stop (c' :: t')).length > 0 := List.length_pos_iff.mpr esc_ne
          rintro (h | h | ⟨h, _⟩ | h)
          · omega
          · omega
          · rw [head_app esc_ne] at h
            exact esc_head hs h
          · exact esc_ne (List.append_eq_nil_iff.mp h).1
    rw [esc_cons]
    rw [esc_cons] at hsz hlim
    by_cases hcs : c = stop
    · rw [if_pos hcs] at hsz hlim ⊢
      simp only [List.cons_append, List.nil_append, List.length_cons] at hsz hlim ⊢
      have h92b : (92 == 92) = true := rfl
      rw [copyLoop]
      simp only [h92b, if_true, Bool.true_eq_false, and_false, false_or]
      rw [if_neg, key (i + 1) dest (by omega) (by omega)]
      · congr 1; omega
      · rintro (h | h | h)
        · omega
        · omega
        · cases h
    · rw [if_neg hcs] at hsz hlim ⊢
      simp only [List.cons_append, List.nil_append, List.length_cons] at hsz hlim ⊢
      rw [key i dest (by omega) (by omega)]
      congr 1; omega

theorem esc_head_space {stop : Nat} (hs : ¬ Space stop) {t : Text} (h : ∀ c, t.head? = some c → ¬ Space c)
    {r : Text} (ht : t ≠ []) : ∀ c, (esc stop t ++ r).head? = some c → ¬ Space c := by
  intro c hc
  cases t with
  | nil => exact absurd rfl ht
  | cons a t =>
    rw [head_app esc_ne, esc_cons] at hc
    split at hc
    · simp only [List.cons_append, List.head?_cons, Option.some.injEq] at hc
      subst hc; unfold Space; omega
    · simp only [List.cons_append, List.head?_cons, Option.some.injEq] at hc
      subst hc; exact h a rfl

/-- One part of an option is read back. -/
theorem trim_ok {size stop : Nat} (hs : stop ≠ 92) (hsp : ¬ Space stop) {t r : Text} (hp : Plain stop size t)
    (hr : r = [] ∨ r.head? = some stop) {c : Nat} (hl : (esc stop t ++ r).getLast? = some c)
    (h1 : ¬ Space c) (h2 : c ≠ 92) :
    trimCopy size (esc stop t ++ r) stop = some (true, t, r) := by
  obtain ⟨hne, h92, hsp1, hlen⟩ := hp
  unfold trimCopy
  rw [dropSpace (esc_head_space hsp hsp1 hne)]
  have hnn : esc stop t ++ r ≠ [] := by
    intro hh; rw [hh] at hl; cases hl
  simp only [if_neg hnn]
  rw [limit_full hl h1 h2, copy_ok hs hr t 0 [] hne h92 (by omega) (by rw [List.length_append]; omega)]
  simp only [List.nil_append, Nat.zero_add]
  rw [if_neg (by omega)]

/-! ### Values -/

theorem digit_not {ds : Text} (hd : ∀ d ∈ ds, Digit d) {c : Nat} (hc : 58 ≤ c) : c ∉ ds := by
  intro h; have := hd c h; unfold Digit at this; omega

theorem take_digits {ds : Text} {c : Nat} (h : c ∉ ds) (r : Text) :
    (ds ++ c :: r).takeWhile (fun x => x != c) = ds := by
  induction ds with
  | nil => simp
  | cons d ds ih =>
    have hd : d ≠ c := fun e => h (by rw [e]; exact List.mem_cons_self ..)
    have hb : (d != c) = true := by simpa using hd
    rw [List.cons_append, List.takeWhile_cons]
    simp only [hb, if_true]
    rw [ih (fun hh => h (List.mem_cons_of_mem _ hh))]

theorem cut_amount {v : Text} {n : Nat} (h : Amount v n) (ht : NoTera v) :
    ∃ ds m, cutSuffix suffixes v = (ds, m) ∧ ds ≠ [] ∧ (∀ d ∈ ds, Digit d) ∧ n = decVal ds * m ∧ m > 0 := by
  obtain ⟨ds, sfx, i, rfl, hne, hd, rfl, hs⟩ := h
  have hn : ∀ c, 58 ≤ c → c ∉ ds := fun c hc => digit_not hd hc
  have k1 := hn 107 (by omega); have k2 := hn 75 (by omega)
  have k3 := hn 109 (by omega); have k4 := hn 77 (by omega)
  have k5 := hn 103 (by omega); have k6 := hn 71 (by omega)
  have k7 := hn 116 (by omega); have k8 := hn 84 (by omega)
  have hmem : ∀ (c x : Nat), c ∉ ds → (c ∈ ds ++ [x] ↔ c = x) := by
    intro c x hc
    rw [List.mem_append, List.mem_singleton]
    exact ⟨fun h => h.resolve_left hc, Or.inr⟩
  rcases hs with ⟨rfl, rfl⟩ | ⟨hs, rfl⟩ | ⟨hs, rfl⟩ | ⟨hs, rfl⟩ | ⟨hs, rfl⟩
  · refine ⟨ds, 1, ?_, hne, hd, by omega, by omega⟩
    rw [List.append_nil]
    simp [suffixes, cutSuffix, k1, k2, k3, k4, k5, k6, k7, k8]
  all_goals
    simp only [List.mem_cons, List.not_mem_nil, or_false] at hs
    rcases hs with rfl | rfl
  · refine ⟨ds, 1024, ?_, hne, hd, by omega, by omega⟩
    rw [show str "k" = [107] from rfl]
    simp only [suffixes, cutSuffix, hmem _ _ k1, if_true, take_digits k1 []]
  · refine ⟨ds, 1024, ?_, hne, hd, by omega, by omega⟩
    rw [show str "K" = [75] from rfl]
    simp only [suffixes, cutSuffix, hmem _ _ k1, hmem _ _ k2, take_digits k2 []]
    simp
  · refine ⟨ds, 1048576, ?_, hne, hd, by omega, by omega⟩
    rw [show str "m" = [109] from rfl]
    simp only [suffixes, cutSuffix, hmem _ _ k1, hmem _ _ k2, hmem _ _ k3, take_digits k3 []]
    simp
  · refine ⟨ds, 1048576, ?_, hne, hd, by omega, by omega⟩
    rw [show str "M" = [77] from rfl]
    simp only [suffixes, cutSuffix, hmem _ _ k1, hmem _ _ k2, hmem _ _ k3, hmem _ _ k4, take_digits k4 []]
    simp
  · refine ⟨ds, 1073741824, ?_, hne, hd, by omega, by omega⟩
    rw [show str "g" = [103] from rfl]
    simp only [suffixes, cutSuffix, hmem _ _ k1, hmem _ _ k2, hmem _ _ k3, hmem _ _ k4, hmem _ _ k5,
      take_digits k5 []]
    simp
  · refine ⟨ds, 1073741824, ?_, hne, hd, by omega, by omega⟩
    rw [show str "G" = [71] from rfl]
    simp only [suffixes, cutSuffix, hmem _ _ k1, hmem _ _ k2, hmem _ _ k3, hmem _ _ k4, hmem _ _ k5,
      hmem _ _ k6, take_digits k6 []]
    simp
  · exact absurd (by rw [show str "t" = [116] from rfl]; simp) ht.1
  · exact absurd (by rw [show str "T" = [84] from rfl]; simp) ht.2

theorem digits_facts {ds : Text} (hne : ds ≠ []) (hd : ∀ d ∈ ds, Digit d) :
    0 ∉ ds ∧ (∀ c r, ds = c :: r → ¬ Space c) ∧ 45 ∉ ds ∧ Verif.Util.Spec.Number ds false (decVal ds) := by
  refine ⟨?_, ?_, ?_, ⟨[], ds, [], by simp, Or.inl ⟨rfl, Or.inl rfl⟩, hne, hd, rfl, Or.inl rfl⟩⟩
  · intro h; have := hd 0 h; unfold Digit at this; omega
  · intro c r h
    have := hd c (by rw [h]; exact List.mem_cons_self ..)
    unfold Digit at this; unfold Space; omega
  · intro h; have := hd 45 h; unfold Digit at this; omega

theorem le_mul {a m : Nat} (h : m > 0) : a ≤ a * m := Nat.le_mul_of_pos_right a h

/-- A value is understood. -/
theorem value_ok {strtof : Text → Option Nat} {dt : DT} {v : Text} {x : Val} (h : Means strtof dt v x)
    (ht : (dt = .size ∨ dt = .u32) → NoTera v) : value strtof dt v = some x := by
  cases dt with
  | size =>
    obtain ⟨n, ha, hb, rfl⟩ := h
    obtain ⟨ds, m, hc, hne, hd, rfl, hm⟩ := cut_amount ha (ht (Or.inl rfl))
    obtain ⟨f0, f1, f2, f3⟩ := digits_facts hne hd
    have := ((Verif.Util.Props.C42_strtoull_partial ds [] f0 f1 f2).1 (decVal ds)).mpr
      ⟨f3, by have := le_mul (a := decVal ds) hm; omega⟩
    simp only [value, hc, this]
    rw [Nat.mod_eq_of_lt hb]
  | u32 =>
    obtain ⟨n, ha, hb, rfl⟩ := h
    obtain ⟨ds, m, hc, hne, hd, rfl, hm⟩ := cut_amount ha (ht (Or.inr rfl))
    obtain ⟨f0, f1, f2, f3⟩ := digits_facts hne hd
    have := ((Verif.Util.Props.C42_strtoul_partial ds [] f0 f1 f2).1 (decVal ds)).mpr
      ⟨f3, by have := le_mul (a := decVal ds) hm; omega⟩
    simp only [value, hc, this]
    rw [Nat.mod_eq_of_lt hb]
  | float => obtain ⟨y, h1, rfl⟩ := h; simp only [value, h1, Option.map_some]
  | string => cases h; rfl
  | char => obtain ⟨r, c, rfl, rfl⟩ := h; rfl
  | bool =>
    simp only [value]
    rcases h with ⟨h, rfl⟩ | ⟨h, rfl⟩
    · have h' : List.map lower v = str "true" ∨ List.map lower v = str "on" := h
      rw [if_pos h']
    · have h' : List.map lower v = str "false" ∨ List.map lower v = str "off" := h
      have hw : ∀ w, Spec.sameWord v w → v.map lower = str w := fun w hw => hw
      rw [if_neg, if_pos h']
      rcases h with h | h
      · rw [hw _ h]; decide
      · rw [hw _ h]; decide
  | file => exact absurd h (by simp [Means])

theorem find_has {items : List (Text × DT)} {k : Text} {dt : DT} (h : Has items k dt) :
    find items k = some dt := by
  obtain ⟨a, b, rfl, ha⟩ := h
  unfold find
  rw [List.find?_append, List.find?_eq_none.mpr]
  · simp
  · intro x hx; simpa using ha x hx

theorem find_unknown {items : List (Text × DT)} {k : Text} : Unknown items k ↔ find items k = none := by
  unfold find Unknown
  rw [Option.map_eq_none_iff, List.find?_eq_none]
  simp

/-! ### Options -/

theorem esc_last {stop : Nat} {t : Text} {c : Nat} (h : t.getLast? = some c) : (esc stop t).getLast? = some c := by
  obtain ⟨a, rfl⟩ := List.getLast?_eq_some_iff.mp h
  unfold esc
  rw [List.flatMap_append]
  simp only [List.flatMap_cons, List.flatMap_nil, List.append_nil]
  rw [List.getLast?_append]
  split <;> rfl

theorem last_mem {t : Text} {c : Nat} (h : t.getLast? = some c) : c ∈ t := List.mem_of_getLast? h

theorem render_last {kvs : List (Text × Text)} (hw : Writable kvs) (hne : kvs ≠ []) :
    ∃ c, (render kvs).getLast? = some c ∧ ¬ Space c ∧ c ≠ 92 := by
  induction kvs with
  | nil => exact absurd rfl hne
  | cons x xs ih =>
    cases xs with
    | nil =>
      obtain ⟨hk, hv⟩ := hw.1 x (List.mem_cons_self ..)
      obtain ⟨c, hc⟩ : ∃ c, x.2.getLast? = some c := by
        cases h : x.2.getLast? with
        | none => exact absurd (List.getLast?_eq_none_iff.mp h) hv.1
        | some c => exact ⟨c, rfl⟩
      refine ⟨c, ?_, hw.2 x c rfl hc, ?_⟩
      · show (entry x).getLast? = some c
        unfold entry
        rw [List.getLast?_append, List.getLast?_cons, esc_last hc]
        rfl
      · rintro rfl; exact hv.2.1 (last_mem hc)
    | cons y ys =>
      obtain ⟨c, h1, h2⟩ := ih ⟨fun z hz => hw.1 z (List.mem_cons_of_mem _ hz), fun z c hz hc => hw.2 z c (by
        rw [List.getLast?_cons_cons]; exact hz) hc⟩ (by simp)
      refine ⟨c, ?_, h2⟩
      show (entry x ++ 59 :: render (y :: ys)).getLast? = some c
      rw [List.getLast?_append, List.getLast?_cons, h1]
      rfl

/-- The text after an option. -/
def after : List (Text × Text) → Text
  | [] => []
  | kvs => 59 :: render kvs

theorem render_cons (x : Text × Text) (xs : List (Text × Text)) : render (x :: xs) = entry x ++ after xs := by
  cases xs with
  | nil => simp [render, after]
  | cons y ys => rfl

theorem writable_tail {x : Text × Text} {xs : List (Text × Text)} (h : Writable (x :: xs)) : Writable xs := by
  refine ⟨fun z hz => h.1 z (List.mem_cons_of_mem _ hz), fun z c hz hc => h.2 z c ?_ hc⟩
  cases xs with
  | nil => cases hz
  | cons y ys => rw [List.getLast?_cons_cons]; exact hz

/-- One round of the loop at an option. -/
theorem round {g : Cfg} {file : Text → Stored → Option (Int × Stored)} {fuel : Nat} {x : Text × Text}
    {xs : List (Text × Text)} {ret : Int} {st : Stored} (hw : Writable (x :: xs)) :
    parseLoop g file (fuel + 1) (render (x :: xs)) ret st =
      match find g.items x.1 with
      | none => parseLoop g file fuel (render xs) 1 st
      | some .file =>
        match file x.2 st with
        | none => none
        | some (r, st) =>
          let ret := if r ≠ 0 then r else ret
          if ret = -1 then some (-1, st) else parseLoop g file fuel (render xs) ret st
      | some dt =>
        match value g.strtof dt x.2 with
        | none => some (-1, st)
        | some y => parseLoop g file fuel (render xs) ret (st ++ [(x.1, y)]) := by
  obtain ⟨hk, hv⟩ := hw.1 x (List.mem_cons_self ..)
  obtain ⟨c, hl, hc1, hc2⟩ := render_last hw (by simp)
  rw [render_cons] at hl ⊢
  have he : entry x ++ after xs = esc 61 x.1 ++ (61 :: (esc 59 x.2 ++ after xs)) := by
    unfold entry; simp
  rw [he] at hl ⊢
  have hne : esc 61 x.1 ++ (61 :: (esc 59 x.2 ++ after xs)) ≠ [] := by simp
  have hsp : ¬ Space 61 := by unfold Space; omega
  have hsp2 : ¬ Space 59 := by unfold Space; omega
  rw [parseLoop]
  simp only [if_neg hne, dropSpace (esc_head_space hsp hk.2.2.1 hk.1 (r := 61 :: (esc 59 x.2 ++ after xs)))]
  rw [trim_ok (by omega) hsp hk (Or.inr rfl) hl hc1 hc2]
  have hl2 : (esc 59 x.2 ++ after xs).getLast? = some c := by
    have hne2 : esc 59 x.2 ++ after xs ≠ [] := by
      intro hh
      have h1 := (List.append_eq_nil_iff.mp hh).1
      cases hx : x.2 with
      | nil => exact hv.1 hx
      | cons a t => rw [hx] at h1; exact esc_ne h1
    rw [List.getLast?_append, List.getLast?_cons] at hl
    cases hh : (esc 59 x.2 ++ after xs).getLast? with
    | none => exact absurd (List.getLast?_eq_none_iff.mp hh) hne2
    | some d => rw [hh] at hl; simpa using hl
  simp only
  rw [trim_ok (by omega) hsp2 hv (by cases xs; exact Or.inl rfl; exact Or.inr rfl) hl2 hc1 hc2]
  have hptr : (if (after xs).head? = some 59 then (after xs).drop 1 else after xs) = render xs := by
    cases xs with
    | nil => rfl
    | cons y ys => rfl
  simp only [hptr]
  rfl

theorem render_len : ∀ {kvs : List (Text × Text)}, Writable kvs → kvs.length ≤ (render kvs).length
  | [], _ => Nat.zero_le _
  | x :: xs, h => by
    have := render_len (writable_tail h)
    rw [render_cons, List.length_append, List.length_cons]
    have h1 : 1 ≤ (entry x).length := by unfold entry; simp; omega
    have h2 : (render xs).length ≤ (after xs).length := by
      cases xs with
      | nil => exact Nat.le_refl _
      | cons y ys => simp [after]
    omega

/-- Options are understood. -/
theorem loop_ok {g : Cfg} {file : Text → Stored → Option (Int × Stored)} :
    ∀ {kvs : List (Text × Text)} {fuel : Nat} {ret : Int} {st new : Stored}, Writable kvs →
      Stores g.items g.strtof kvs new → kvs.length < fuel →
      parseLoop g file fuel (render kvs) ret st =
        some (if ∃ x ∈ kvs, Unknown g.items x.1 then 1 else ret, st ++ new)
  | [], 0, _, _, _, _, _, hf => by simp at hf
  | [], fuel + 1, ret, st, new, _, hs, _ => by
    cases hs
    simp [render, parseLoop]
  | x :: xs, 0, _, _, _, _, _, hf => by simp at hf
  | (k, v) :: xs, fuel + 1, ret, st, new, hw, hs, hf => by
    rw [round hw]
    rw [List.length_cons] at hf
    cases hs with
    | unknown hu hs =>
      simp only [find_unknown.mp hu]
      rw [loop_ok (writable_tail hw) hs (by omega)]
      have h1 : ∃ x ∈ (k, v) :: xs, Unknown g.items x.1 := ⟨_, List.mem_cons_self .., hu⟩
      rw [if_pos h1]
      split <;> rfl
    | @known _ _ _ st' dt y hh hm hn hs =>
      have hdt : dt ≠ .file := by rintro rfl; exact hm
      have hfd := find_has hh
      have hval := value_ok hm hn
      have hnu : ¬ Unknown g.items k := by
        intro hu; rw [find_unknown.mp hu] at hfd; cases hfd
      have hiff : (∃ x ∈ (k, v) :: xs, Unknown g.items x.1) ↔ ∃ x ∈ xs, Unknown g.items x.1 := by
        constructor
        · rintro ⟨x, hx, hu⟩
          rcases List.mem_cons.mp hx with rfl | hx
          · exact absurd hu hnu
          · exact ⟨x, hx, hu⟩
        · rintro ⟨x, hx, hu⟩; exact ⟨x, List.mem_cons_of_mem _ hx, hu⟩
      have hrec := loop_ok (g := g) (file := file) (ret := ret) (st := st ++ [(k, y)]) (fuel := fuel)
        (writable_tail hw) hs (by omega)
      simp only [hfd]
      cases dt with
      | file => exact absurd rfl hdt
      | _ =>
        simp only [hval, hrec, List.append_assoc, List.cons_append, List.nil_append]
        congr 2
        simp only [hiff]

/-- An unknown option is told by the code, if no files are named. -/
theorem loop_unknown {g : Cfg} {file : Text → Stored → Option (Int × Stored)}
    (hfile : ∀ x ∈ g.items, x.2 ≠ .file) :
    ∀ {kvs : List (Text × Text)} {fuel : Nat} {ret : Int} {st : Stored}, Writable kvs →
      kvs.length < fuel → (ret ≠ 0 ∨ ∃ x ∈ kvs, Unknown g.items x.1) →
      ∃ c st', parseLoop g file fuel (render kvs) ret st = some (c, st') ∧ c ≠ 0
  | [], 0, _, _, _, hf, _ => by simp at hf
  | [], fuel + 1, ret, st, _, _, hr => by
    refine ⟨ret, st, by simp [render, parseLoop], ?_⟩
    rcases hr with h | ⟨x, hx, _⟩
    · exact h
    · cases hx
  | x :: xs, 0, _, _, _, hf, _ => by simp at hf
  | (k, v) :: xs, fuel + 1, ret, st, hw, hf, hr => by
    rw [round hw]
    rw [List.length_cons] at hf
    cases hfd : find g.items k with
    | none => exact loop_unknown hfile (writable_tail hw) (by omega) (Or.inl (by decide))
    | some dt =>
      have hr2 : ret ≠ 0 ∨ ∃ x ∈ xs, Unknown g.items x.1 := by
        rcases hr with h | ⟨x, hx, hu⟩
        · exact Or.inl h
        · rcases List.mem_cons.mp hx with rfl | hx
          · rw [find_unknown.mp hu] at hfd; cases hfd
          · exact Or.inr ⟨x, hx, hu⟩
      have hdt : dt ≠ .file := by
        unfold find at hfd
        obtain ⟨z, hz, rfl⟩ := Option.map_eq_some_iff.mp hfd
        exact hfile z (List.mem_of_find?_eq_some hz)
      cases hval : value g.strtof dt v with
      | none =>
        cases dt with
        | file => exact absurd rfl hdt
        | _ => exact ⟨-1, st, by simp only [hval], by decide⟩
      | some y =>
        obtain ⟨c, st', h1, h2⟩ := loop_unknown (g := g) (file := file) hfile (ret := ret)
          (st := st ++ [(k, y)]) (fuel := fuel) (writable_tail hw) (by omega) hr2
        cases dt with
        | file => exact absurd rfl hdt
        | _ => exact ⟨c, st', by simp only [hval, h1], h2⟩

end Verif.Config
