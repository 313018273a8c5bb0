import Verif.Lemmas.ListStep
import Verif.Spec.Run
/-!
# Properties C10 and C11: the list commands
-/
namespace Verif.Lst.Props
open Verif.Lst Verif.Lst.Spec Verif.Run

/-- An answer: the reply, and the values a client reads through element handles after the call. -/
abbrev Obs := Rep × (Nat → Option Val)

/-- One call of the model with what the client sees. -/
def callStep (mx : Nat) (s : St) (op : Op) : Option (St × Obs) :=
  (step mx s op).map fun p => (p.1, p.2, valOf p.1)

/-- Specification state with the element references clients hold. -/
abbrev SH := S × (Nat → Nat)

/-- Specification of a call: the sequence operation, and elements that are still referenced keep their value
whatever happens to the list (`seen` in the state before is not recorded; `C10_values` states that part). -/
def SpecStep (mx : Nat) (σ : SH) (op : Op) (o : Obs) (σ' : SH) : Prop :=
  Step mx σ.1 op o.1 o.2 σ'.1 ∧ σ'.2 = heldStep σ.2 op o.1

/-- The list commands behave like operations on a plain sequence: no legal call faults (no dangling or
wild pointer, no double free), and all replies, with the element values read through them, are those of the
sequence.  For all histories, list sizes, directions and combinations of indexes. -/
theorem C10_list_partial (mx : Nat) (hmx : 4000 ≤ mx) :
    Implements (callStep mx) init (SpecStep mx) (fun σ op => Legal σ.1 σ.2 op) ((start, fun _ => 0) : SH) := by
  refine of_simulation (fun σ s => R mx σ.1 s σ.2) (R_init mx) ?_
  rintro ⟨σ, h⟩ s op hR hL
  obtain ⟨s', r, σ', k1, k2, k3, -⟩ := step_sim hmx hR hL
  exact ⟨s', (r, valOf s'), (σ', heldStep h op r), by simp [callStep, k1], ⟨k2, rfl⟩, k3⟩

/-- Elements handed out by a get keep their contents until their last release, also when the list is
changed, trimmed or removed meanwhile. -/
theorem C10_values (mx : Nat) (hmx : 4000 ≤ mx) : ∃ Rel : SH → St → Prop,
    Rel (start, fun _ => 0) init ∧
    ∀ σ s, Rel σ s → ∀ op, Legal σ.1 σ.2 op → ∃ s' r σ', step mx s op = some (s', r) ∧
      SpecStep mx σ op (r, valOf s') σ' ∧ Rel σ' s' ∧
      ∀ i, 0 < σ.2 i → 0 < σ'.2 i → ∃ v, valOf s i = some v ∧ valOf s' i = some v := by
  refine ⟨fun σ s => R mx σ.1 s σ.2, R_init mx, ?_⟩
  rintro ⟨σ, h⟩ s hR op hL
  obtain ⟨s', r, σ', k1, k2, k3, k4⟩ := step_sim hmx hR hL
  refine ⟨s', r, (σ', heldStep h op r), k1, ⟨k2, rfl⟩, k3, ?_⟩
  intro i h1 h2
  obtain ⟨ids, m, -⟩ := hR
  obtain ⟨e, he⟩ := m.heldOk i h1
  exact ⟨e.value, by simp [valOf, he], by rw [k4 i h1 h2]; simp [valOf, he]⟩

/-- Example: three elements, one inserted in the middle from the tail side, a backward read of the whole,
a read that removes two, the count. -/
example : answers (step 4000) init
    [.alloc [97], .insert (-1) 0 (some ⟨0, 0, true, false, 7⟩) true false, .alloc [98], .insert (-1) 1 none true false,
     .alloc [99], .insert 0 2 none true false, .alloc [100], .insert (-2) 3 none true false,
     .get (-1) 0 false false true, .release 1, .release 3, .release 0, .release 2,
     .get 1 2 true true true, .getattr, .insert 5 9 none true false] =
    some [.allocated 0, .inserted true, .allocated 1, .inserted false, .allocated 2, .inserted false,
      .allocated 3, .inserted false, .elems 7 [1, 3, 0, 2] false, .ok, .ok, .ok, .ok,
      .elems 7 [0, 3] false, .attrs 2 4000 3 true, .eindexoor] := by decide

/-- What C10 excludes: an insertion at index -2^31 negates the smallest integer (undefined behaviour,
coll_list.c `do_list_elem_insert`), so the claim for all indexes is false. -/
theorem C10_intmin_false : answers (step 4000) init
      [.alloc [97], .insert (-1) 0 (some ⟨0, 0, true, false, 7⟩) true false, .alloc [98]] =
      some [.allocated 0, .inserted true, .allocated 1] ∧
    answers (step 4000) init
      [.alloc [97], .insert (-1) 0 (some ⟨0, 0, true, false, 7⟩) true false, .alloc [98],
       .insert (-2147483648) 1 none true false] = none :=
  ⟨by decide, by decide⟩

/-! ## C11 -/

/-- Bound on the sequence: never longer than its maximum, which is at most the configured one. -/
def Bounded (mx : Nat) (σ : SH) : Prop :=
  ∀ l, σ.1.list = some l → l.elems.length ≤ l.cap mx ∧ l.cap mx ≤ mx

theorem wantCap_le (mx : Nat) (hmx : 4000 ≤ mx) (x : Int) (k : Nat) (h : wantCap mx x = some k) : k ≤ mx := by
  unfold wantCap at h
  split at h
  · simp at h
  · split at h <;> simp at h <;> omega

theorem fresh_bounded (mx : Nat) (hmx : 4000 ≤ mx) (a : Attr) :
    (fresh mx a).elems.length ≤ (fresh mx a).cap mx ∧ (fresh mx a).cap mx ≤ mx := by
  refine ⟨Nat.zero_le _, ?_⟩
  unfold L.cap fresh
  simp only
  cases h : wantCap mx a.maxcount with
  | none => exact Nat.le_refl _
  | some k => exact wantCap_le mx hmx _ k h

theorem insert_bounded {mx : Nat} {l l' : L} {index : Int} {v : Val} {full : Bool} {r : Option Rep}
    (h : Insert mx l index v full r l') (hb : l.elems.length ≤ l.cap mx ∧ l.cap mx ≤ mx) :
    l'.elems.length ≤ l'.cap mx ∧ l'.cap mx ≤ mx := by
  rcases h with ⟨-, -, rfl⟩ | ⟨-, -, -, rfl⟩ | ⟨-, -, -, -, rfl⟩ | ⟨-, -, -, -, rfl⟩
  · exact hb
  · exact hb
  · exact hb
  · refine ⟨?_, hb.2⟩
    show (inserted mx l index v).length ≤ l.cap mx
    have h1 := hb.1
    have h2 : (l.elems.insertIdx (place l.elems.length index) v).length ≤ l.elems.length + 1 := List.length_insertIdx_le_succ
    unfold inserted
    simp only
    split
    · omega
    · repeat' split
      all_goals (first | rw [List.length_dropLast] | rw [List.length_tail]); omega

theorem step_bounded {mx : Nat} (hmx : 4000 ≤ mx) {σ σ' : SH} {op : Op} {o : Obs} (hb : Bounded mx σ) (hs : SpecStep mx σ op o σ') :
    Bounded mx σ' := by
  obtain ⟨σ, h⟩ := σ
  obtain ⟨σ1, h1⟩ := σ'
  obtain ⟨r, val⟩ := o
  obtain ⟨hs, -⟩ := hs
  have hb : ∀ l, σ.list = some l → l.elems.length ≤ l.cap mx ∧ l.cap mx ≤ mx := hb
  show ∀ l, σ1.list = some l → _
  have same : σ1 = σ → ∀ l, σ1.list = some l → l.elems.length ≤ l.cap mx ∧ l.cap mx ≤ mx := by rintro rfl; exact hb
  have shr : ∀ (l : L) (es : List Val) (d : Bool), σ.list = some l → es.length ≤ l.elems.length → σ1.list = shrink l es d →
      ∀ l, σ1.list = some l → l.elems.length ≤ l.cap mx ∧ l.cap mx ≤ mx := by
    intro l es d h2 hle he l' hl'
    rw [he] at hl'
    unfold shrink at hl'
    split at hl'
    · cases hl'
    · injection hl' with hl'; subst hl'
      have := hb l h2
      exact ⟨by simp only [L.cap] at this ⊢; omega, this.2⟩
  have hwo : ∀ (l : List Val) (a b : Nat), (without l a b).length ≤ l.length := by
    intro l a b; simp [without]; omega
  cases op with
  | create a mem =>
    simp only [Step] at hs
    cases h2 : σ.list with
    | some l => rw [h2] at hs; exact same hs.2
    | none =>
      rw [h2] at hs
      simp only at hs
      split at hs
      · obtain ⟨-, rfl⟩ := hs
        intro l hl; simp only [Option.some.injEq] at hl; subst hl; exact fresh_bounded mx hmx a
      · exact same hs.2
  | alloc v => obtain ⟨i, -, -, rfl⟩ := hs; exact hb
  | free i => obtain ⟨-, rfl⟩ := hs; exact hb
  | insert index i a mem full =>
    simp only [Step] at hs
    have ins : ∀ (l0 : L), (l0.elems.length ≤ l0.cap mx ∧ l0.cap mx ≤ mx) → ∀ b,
        (∃ v l' r', σ.pend i = some v ∧ Insert mx l0 index v full r' l' ∧
        (match r' with
         | some e => r = e ∧ σ1 = σ
         | none => r = .inserted b ∧ σ1 = { list := some l', pend := upd σ.pend i none })) →
        ∀ l, σ1.list = some l → l.elems.length ≤ l.cap mx ∧ l.cap mx ≤ mx := by
      rintro l0 hl0 b ⟨v, l', r', -, hi, hm⟩
      cases r' with
      | some e => exact same hm.2
      | none =>
        obtain ⟨-, rfl⟩ := hm
        intro l hl; simp only [Option.some.injEq] at hl; subst hl
        exact insert_bounded hi hl0
    cases h2 : σ.list with
    | some l => rw [h2] at hs; exact ins l (hb l h2) _ hs
    | none =>
      rw [h2] at hs
      cases a with
      | none => exact same hs.2
      | some a =>
        simp only at hs
        split at hs
        · exact same hs.2
        · exact ins _ (fresh_bounded mx hmx a) _ hs
  | delete f t drop =>
    simp only [Step] at hs
    cases h2 : σ.list with
    | none => rw [h2] at hs; exact same hs.2
    | some l =>
      rw [h2] at hs
      simp only at hs
      split at hs
      · exact same hs.2
      · exact shr l _ _ h2 (hwo _ _ _) (by rw [hs.2])
  | get f t del drop mem =>
    simp only [Step] at hs
    cases h2 : σ.list with
    | none => rw [h2] at hs; exact same hs.2
    | some l =>
      rw [h2] at hs
      simp only at hs
      split at hs
      · exact same hs.2
      · split at hs
        · exact same hs.2
        · split at hs
          · exact same hs.2
          · obtain ⟨ids, -, hs⟩ := hs
            split at hs
            · exact shr l _ _ h2 (hwo _ _ _) (by rw [hs.2])
            · exact same hs.2
  | release i => exact same hs.2
  | setattr m o rd =>
    simp only [Step] at hs
    cases h2 : σ.list with
    | none => rw [h2] at hs; exact same hs.2
    | some l =>
      rw [h2] at hs
      simp only at hs
      rcases hs with ⟨-, -, hs⟩ | ⟨hgood, -, rfl⟩
      · exact same hs
      · intro l' hl'
        simp only [Option.some.injEq] at hl'; subst hl'
        have hl := hb l h2
        cases m with
        | none => exact hl
        | some x =>
          show l.elems.length ≤ (setAttrs mx l (some x) o rd).cap mx ∧ _
          unfold L.cap setAttrs
          simp only
          cases hw : wantCap mx x with
          | none => exact ⟨Nat.le_trans hl.1 hl.2, Nat.le_refl _⟩
          | some k =>
            refine ⟨?_, wantCap_le mx hmx x k hw⟩
            rcases Nat.lt_or_ge k l.elems.length with w | w
            · exact absurd (Or.inl ⟨x, k, rfl, hw, w⟩) hgood
            · exact w
  | getattr =>
    simp only [Step] at hs
    cases h2 : σ.list with
    | none => rw [h2] at hs; exact same hs.2
    | some l => rw [h2] at hs; exact same hs.2
  | remove =>
    simp only [Step] at hs
    cases h2 : σ.list with
    | none => rw [h2] at hs; exact same hs.2
    | some l =>
      rw [h2] at hs; obtain ⟨-, rfl⟩ := hs
      intro l hl; cases hl

/-- No client ever sees a list with more elements than its maxcount: whatever is inserted, trimmed, removed
or reconfigured, every attribute reply has `count ≤ maxcount ≤` the configured maximum. -/
theorem C11_bound (mx : Nat) (hmx : 4000 ≤ mx) (c : Client Op Obs)
    (hc : LegalClient (SpecStep mx) (fun σ op => Legal σ.1 σ.2 op) ((start, fun _ => 0) : SH) c) (n : Nat) :
    ∃ s t, play (callStep mx) init c n = some (s, t) ∧ t.length = n ∧
      ∀ op count max ovfl rd val, (op, (.attrs count max ovfl rd, val)) ∈ t → 0 ≤ count ∧ count ≤ max ∧ max ≤ mx := by
  obtain ⟨s, t, h1, h2, σ, h3⟩ := C10_list_partial mx hmx c hc n
  refine ⟨s, t, h1, h2, ?_⟩
  intro op count max ovfl rd val hm
  obtain ⟨t1, σ1, σ2, k1, k2⟩ := h3.mem hm
  have hb : Bounded mx σ1 := k1.inv (Bounded mx) (fun l hl => by cases hl) (fun _ _ _ _ hb hs => step_bounded hmx hb hs)
  have hs : Step mx σ1.1 op (.attrs count max ovfl rd) val σ2.1 := k2.1
  cases op with
  | getattr =>
    simp only [Step] at hs
    cases hl : σ1.1.list with
    | none => rw [hl] at hs; simp at hs
    | some l =>
      rw [hl] at hs
      simp only [Rep.attrs.injEq] at hs
      have := hb l hl
      omega
  | create a mem =>
    simp only [Step] at hs
    repeat' split at hs
    all_goals simp at hs
  | alloc v => obtain ⟨i, -, h, -⟩ := hs; cases h
  | free i => cases hs.1
  | release i => cases hs.1
  | remove =>
    simp only [Step] at hs
    repeat' split at hs
    all_goals simp at hs
  | delete f t' d =>
    simp only [Step] at hs
    repeat' split at hs
    all_goals simp at hs
  | setattr m o r =>
    simp only [Step] at hs
    repeat' split at hs
    all_goals simp at hs
  | get f t' d dr me =>
    simp only [Step] at hs
    repeat' split at hs
    all_goals (try simp at hs)
    all_goals (obtain ⟨ids, -, hs⟩ := hs; split at hs <;> simp at hs)
  | insert ix i a me fu =>
    simp only [Step] at hs
    have ins : ∀ (l0 : L) b, (∃ v l' r', σ1.1.pend i = some v ∧ Insert mx l0 ix v fu r' l' ∧
        (match r' with
         | some e => Rep.attrs count max ovfl rd = e ∧ σ2.1 = σ1.1
         | none => Rep.attrs count max ovfl rd = .inserted b ∧ σ2.1 = { list := some l', pend := upd σ1.1.pend i none })) → False := by
      rintro l0 b ⟨v, l', r', -, hi, hm⟩
      rcases hi with ⟨-, rfl, -⟩ | ⟨-, -, rfl, -⟩ | ⟨-, -, -, rfl, -⟩ | ⟨-, -, -, rfl, -⟩ <;> simp at hm
    cases hl : σ1.1.list with
    | some l => rw [hl] at hs; exact (ins _ _ hs).elim
    | none =>
      rw [hl] at hs
      cases a with
      | none => simp at hs
      | some a =>
        simp only at hs
        split at hs
        · simp at hs
        · exact (ins _ _ hs).elim

/-- Insertion into a full list under the overflow action `error` is refused and changes nothing. -/
theorem C11_error {mx : Nat} {σ σ' : S} {l : L} {index : Int} {i : Nat} {a : Option Attr} {mem full : Bool} {r : Rep} {val : Nat → Option Val}
    (hs : Step mx σ (.insert index i a mem full) r val σ') (hl : σ.list = some l) (hfull : l.cap mx ≤ l.elems.length)
    (ho : l.ovfl = ovflError) : (∀ b, r ≠ .inserted b) ∧ σ' = σ := by
  simp only [Step, hl] at hs
  obtain ⟨v, l', r', hp, hi, hm⟩ := hs
  rcases hi with ⟨-, rfl, -⟩ | ⟨-, -, rfl, -⟩ | ⟨-, -, -, rfl, -⟩ | ⟨-, -, h, -⟩
  · exact ⟨by simp [hm.1], hm.2⟩
  · exact ⟨by simp [hm.1], hm.2⟩
  · exact ⟨by simp [hm.1], hm.2⟩
  · exact absurd ⟨ho, hfull⟩ h

/-- Insertion into a full list under a trim action drops exactly one element, the first or the last one, never
the new one; all others keep their order: without the new element the list is the old one less its head
or less its last element. Which end: see `Spec.inserted`. -/
theorem C11_trim {mx : Nat} {σ σ' : S} {l : L} {index : Int} {i : Nat} {a : Option Attr} {mem full : Bool} {b : Bool} {val : Nat → Option Val} {v : Val}
    (hs : Step mx σ (.insert index i a mem full) (.inserted b) val σ') (hl : σ.list = some l) (hfull : l.elems.length = l.cap mx)
    (hv : σ.pend i = some v) (hne : l.elems ≠ []) :
    ∃ l' p, σ'.list = some l' ∧ l'.elems.length = l.elems.length ∧ l'.elems[p]? = some v ∧
      (l'.elems.eraseIdx p = l.elems.tail ∨ l'.elems.eraseIdx p = l.elems.dropLast) ∧
      (index = 0 → p = 0 ∧ l'.elems.eraseIdx p = l.elems.dropLast) ∧
      (index = -1 → p + 1 = l.elems.length ∧ l'.elems.eraseIdx p = l.elems.tail) ∧
      (index ≠ 0 → index ≠ -1 → l.ovfl = ovflHeadTrim → l'.elems.eraseIdx p = l.elems.tail) ∧
      (index ≠ 0 → index ≠ -1 → l.ovfl ≠ ovflHeadTrim → l'.elems.eraseIdx p = l.elems.dropLast) := by
  simp only [Step, hl] at hs
  obtain ⟨v', l', r', hp, hi, hm⟩ := hs
  rw [hv] at hp; injection hp with hp; subst hp
  have hlen : 1 ≤ l.elems.length := by
    rcases Nat.eq_zero_or_pos l.elems.length with h | h
    · exact absurd (List.length_eq_zero_iff.mp h) hne
    · exact h
  rcases hi with ⟨-, rfl, -⟩ | ⟨-, -, rfl, -⟩ | ⟨-, -, -, rfl, -⟩ | ⟨hip, -, -, rfl, rfl⟩
  · simp at hm
  · simp at hm
  · simp at hm
  · simp only at hm
    obtain ⟨-, rfl⟩ := hm
    have front : ∀ q, 1 ≤ q → q ≤ l.elems.length → (l.elems.insertIdx q v).tail = l.elems.tail.insertIdx (q - 1) v :=
      fun q h1 _ => insertIdx_tail _ _ _ hne h1
    have back : ∀ q, q < l.elems.length → (l.elems.insertIdx q v).dropLast = l.elems.dropLast.insertIdx q v :=
      fun q h => insertIdx_dropLast _ _ _ h
    have fin : ∀ (es : List Val) (p : Nat), es.length = l.elems.length - 1 → p ≤ es.length → inserted mx l index v = es.insertIdx p v →
        (inserted mx l index v).length = l.elems.length ∧ (inserted mx l index v)[p]? = some v ∧ (inserted mx l index v).eraseIdx p = es := by
      intro es p h1 h2 h3
      rw [h3]
      refine ⟨by rw [List.length_insertIdx_of_le_length h2]; omega, ?_, List.eraseIdx_insertIdx_self _⟩
      rw [List.getElem?_insertIdx_self, if_pos (by omega)]
    have hins : inserted mx l index v =
        (if index = 0 then (l.elems.insertIdx (place l.elems.length index) v).dropLast
         else if index = -1 then (l.elems.insertIdx (place l.elems.length index) v).tail
         else if l.ovfl = ovflHeadTrim then (l.elems.insertIdx (place l.elems.length index) v).tail
         else (l.elems.insertIdx (place l.elems.length index) v).dropLast) := by
      unfold inserted; simp only; rw [if_neg (by omega)]
    unfold InsertPlace at hip
    have hdl : l.elems.dropLast.length = l.elems.length - 1 := by simp
    have htl : l.elems.tail.length = l.elems.length - 1 := by simp
    by_cases h0 : index = 0
    · have hpl : place l.elems.length index = 0 := by unfold place; rw [if_pos (by omega)]; omega
      obtain ⟨f1, f2, f3⟩ := fin l.elems.dropLast 0 hdl (by omega) (by rw [hins, if_pos h0, hpl, back 0 (by omega)])
      exact ⟨_, 0, rfl, f1, f2, Or.inr f3, fun _ => ⟨rfl, f3⟩, fun h => by omega, fun h => absurd h0 h, fun h => absurd h0 h⟩
    · by_cases h1 : index = -1
      · have hpl : place l.elems.length index = l.elems.length := by unfold place; rw [if_neg (by omega)]; omega
        obtain ⟨f1, f2, f3⟩ := fin l.elems.tail (l.elems.length - 1) htl (by omega)
          (by rw [hins, if_neg h0, if_pos h1, hpl, front _ (by omega) (by omega)])
        exact ⟨_, l.elems.length - 1, rfl, f1, f2, Or.inl f3, fun h => absurd h h0, fun _ => ⟨by omega, f3⟩,
          fun _ h => absurd h1 h, fun _ h => absurd h1 h⟩
      · have hpl : 1 ≤ place l.elems.length index ∧ place l.elems.length index < l.elems.length := by
          unfold place; split <;> omega
        by_cases hh : l.ovfl = ovflHeadTrim
        · obtain ⟨f1, f2, f3⟩ := fin l.elems.tail (place l.elems.length index - 1) htl (by omega)
            (by rw [hins, if_neg h0, if_neg h1, if_pos hh, front _ hpl.1 (by omega)])
          exact ⟨_, _, rfl, f1, f2, Or.inl f3, fun h => absurd h h0, fun h => absurd h h1, fun _ _ _ => f3, fun _ _ h => absurd hh h⟩
        · obtain ⟨f1, f2, f3⟩ := fin l.elems.dropLast (place l.elems.length index) hdl (by omega)
            (by rw [hins, if_neg h0, if_neg h1, if_neg hh, back _ hpl.2])
          exact ⟨_, _, rfl, f1, f2, Or.inr f3, fun h => absurd h h0, fun h => absurd h h1, fun _ _ h => absurd h hh, fun _ _ _ => f3⟩

/-- Example: maximum 2, tail trim; the third insertion at the tail drops the head, one at the head drops
the tail; then with `error` the insertion is refused. -/
example : answers (fun s op => (step 4000 s op).map fun p => (p.1, p.2, match p.2 with | .elems _ ids _ => ids.map (valOf p.1) | _ => [])) init
    [.alloc [97], .insert (-1) 0 (some ⟨2, 0, true, false, 7⟩) true false, .alloc [98], .insert (-1) 1 none true false,
     .alloc [99], .insert (-1) 2 none true false, .alloc [100], .insert 0 3 none true false,
     .get 0 (-1) false false true, .setattr none (some ovflError) none, .alloc [101], .insert 0 4 none true false, .getattr] =
    some [(.allocated 0, []), (.inserted true, []), (.allocated 1, []), (.inserted false, []), (.allocated 2, []), (.inserted false, []),
      (.allocated 3, []), (.inserted false, []), (.elems 7 [3, 1] false, [some [100], some [98]]), (.ok, []), (.allocated 4, []),
      (.eoverflow, []), (.attrs 2 2 1 true, [])] := by decide

end Verif.Lst.Props
