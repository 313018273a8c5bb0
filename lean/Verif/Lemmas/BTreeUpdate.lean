import Verif.Lemmas.BTreeLink
/-!
# Lemmas on updating b+tree elements
-/
namespace Verif.BT
open Verif.BT.Spec

theorem newEflag_bitw_length {op : BitOp} {f v : List Nat} {o : Nat} (h : v = [] ∨ o + v.length ≤ f.length) :
    (newEflag (some (.bitw op o v)) f).length = f.length := by
  simp only [newEflag, List.length_append, List.length_take, List.length_zipWith, List.length_drop]
  rcases h with rfl | h
  · simp only [List.length_nil]; omega
  · omega

theorem bitwAt_spec {op : BitOp} {f v : List Nat} {o : Nat} (t : List Nat) (h : v = [] ∨ o + v.length ≤ f.length) :
    bitwAt op (f ++ t) o v = some (newEflag (some (.bitw op o v)) f ++ t) := by
  rw [bitwAt]
  by_cases hv : v = []
  · subst hv
    simp only [List.length_nil, if_true, newEflag, List.zipWith_nil_right, List.append_nil, Nat.add_zero, List.take_append_drop]
  · rw [if_neg (by simp [hv])]
    have h : o + v.length ≤ f.length := h.resolve_left hv
    have hr : readAt (f ++ t) o v.length = some ((f.drop o).take v.length) := by
      rw [readAt, readN, if_neg (by simp only [List.length_drop, List.length_append]; omega)]
      rw [List.drop_append_of_le_length (by omega), List.take_append_of_le_length (by simp only [List.length_drop]; omega)]
    rw [hr]
    simp only
    have hz : (List.zipWith op.app ((f.drop o).take v.length) v).length = v.length := by
      simp only [List.length_zipWith, List.length_take, List.length_drop]; omega
    rw [writeAt, hz, if_pos (by simp only [List.length_append]; omega), newEflag, app_bits,
      List.take_append_of_le_length (by omega), List.drop_append_of_le_length (by omega)]
    simp only [List.append_assoc]

theorem badEflag_iff (u : Option EUpdate) (f : List Nat) : badEflag u f = true ↔ BadUpdate u f := by
  rw [badEflag.eq_def, BadUpdate]
  cases u with
  | none => simp
  | some u =>
    cases u with
    | set v => simp
    | bitw op o v =>
      simp only [decide_eq_true_eq]
      constructor
      · intro ⟨h1, h2⟩
        exact ⟨op, o, v, rfl, by intro h; rw [h] at h1; simp at h1, by omega⟩
      · rintro ⟨op', o', v', h, h1, h2⟩
        cases h
        have : 0 < v.length := List.length_pos_iff.mpr h1
        exact ⟨this, by omega⟩

theorem not_bad_bitw {op : BitOp} {o : Nat} {v f : List Nat} (h : ¬ BadUpdate (some (.bitw op o v)) f) : v = [] ∨ o + v.length ≤ f.length := by
  by_cases hv : v = []
  · exact .inl hv
  · right
    by_cases hl : o + v.length ≤ f.length
    · exact hl
    · exact absurd ⟨op, o, v, rfl, hv, by omega⟩ h

theorem newEflag_length {u : Option EUpdate} {f : List Nat} (h : ¬ BadUpdate u f) : (newEflag u f).length = newNeflag u f := by
  cases u with
  | none => rfl
  | some u =>
    cases u with
    | set v => rfl
    | bitw op o v => rw [newEflag_bitw_length (not_bad_bitw h)]; rfl

theorem updateCopy_spec {u : Option EUpdate} {e : Elem} (v : Option (List Nat)) (h : ¬ BadUpdate u e.eflag) :
    updateCopy u v e = some (updated u v e) := by
  cases u with
  | none => cases v <;> rfl
  | some u =>
    cases u with
    | set w => cases v <;> rfl
    | bitw op o w =>
      have := bitwAt_spec (op := op) [] (not_bad_bitw h)
      simp only [List.append_nil] at this
      rw [updateCopy.eq_def]
      simp only [this]
      cases v <;> rfl

theorem body_updated {u : Option EUpdate} {e : Elem} (v : Option (List Nat)) (h : ¬ BadUpdate u e.eflag) :
    body (updated u v e) = newNeflag u e.eflag + newNbytes v e := by
  simp only [body, updated, newEflag_length h]
  cases v <;> rfl

/-- The memory after the change of the eflag. -/
def stage (u : Option EUpdate) (e : Elem) : Option (List Nat) :=
  match u with
  | none => some (e.eflag ++ e.value)
  | some (.bitw op off v) => bitwAt op (e.eflag ++ e.value) off v
  | some (.set v) => writeAt (e.eflag ++ e.value) 0 v

theorem stage_spec {u : Option EUpdate} {e : Elem} (h : ¬ BadUpdate u e.eflag) (hle : newNeflag u e.eflag ≤ e.eflag.length + e.value.length) :
    ∃ t, stage u e = some (newEflag u e.eflag ++ t) ∧ (newEflag u e.eflag ++ t).length = e.eflag.length + e.value.length ∧
      (newNeflag u e.eflag = e.eflag.length → t = e.value) := by
  cases u with
  | none => exact ⟨e.value, rfl, by simp [newEflag], fun _ => rfl⟩
  | some u =>
    cases u with
    | bitw op o w =>
      refine ⟨e.value, bitwAt_spec _ (not_bad_bitw h), ?_, fun _ => rfl⟩
      rw [List.length_append, newEflag_bitw_length (not_bad_bitw h)]
    | set w =>
      simp only [newNeflag] at hle ⊢
      refine ⟨(e.eflag ++ e.value).drop w.length, ?_, ?_, ?_⟩
      · rw [stage, writeAt, if_pos (by simp only [List.length_append]; omega)]
        simp [newEflag]
      · simp only [newEflag, List.length_append, List.length_drop]; omega
      · intro hl; rw [hl, List.drop_left]

theorem updateInPlace_spec {u : Option EUpdate} {e : Elem} (v : Option (List Nat)) (h : ¬ BadUpdate u e.eflag)
    (hb : body e = body (updated u v e)) : updateInPlace u v e = some (updated u v e) := by
  have hl := newEflag_length h
  rw [body_updated v h] at hb
  rw [body] at hb
  obtain ⟨t, t1, t2, t3⟩ := stage_spec h (by omega)
  have : updateInPlace u v e = (match stage u e with
    | none => none
    | some m =>
      match (motive := Option (List Nat) → Option Elem) v with
      | none => some ⟨e.bkey, m.take (newNeflag u e.eflag), (m.drop (newNeflag u e.eflag)).take e.value.length⟩
      | some v =>
        match writeAt m (newNeflag u e.eflag) v with
        | none => none
        | some m => some ⟨e.bkey, m.take (newNeflag u e.eflag), (m.drop (newNeflag u e.eflag)).take v.length⟩) := rfl
  rw [this, t1]
  cases v with
  | none =>
    simp only [newNbytes] at hb ⊢
    have ht := t3 (by omega)
    rw [← hl, List.take_left, List.drop_left, ht, List.take_length]
    rfl
  | some w =>
    simp only [newNbytes] at hb ⊢
    rw [List.length_append] at t2
    rw [writeAt, ← hl, if_pos (by simp only [List.length_append]; omega), List.take_left]
    simp only
    rw [List.append_assoc, List.take_left, List.drop_left, List.take_left]
    rfl

theorem Rel.fits {c : C} {info : Info} (R : Rel c info) {k : BKey} (hv : ValidKey k) (ha : ¬ c.Alien k) : Fits k info.tree.leaves.flatten := by
  refine R.good.fits hv ?_
  cases h : badType info.bktype k
  · rfl
  · exact absurd ((R.alien hv).mp h) ha

theorem Rel.leaves {c : C} {info : Info} (R : Rel c info) : info.tree.leaves = [] ↔ c.elems = [] := by
  rw [flat_nil R.good.wf.nodes, R.elems]

theorem Rel.empty {c : C} {info : Info} (R : Rel c info) : info.ccnt = 0 ↔ c.elems = [] := by
  rw [R.ccnt, List.length_eq_zero_iff]

/-- The search for a single key. -/
theorem find_one {c : C} {info : Info} (R : Rel c info) (hne : c.elems ≠ []) {k : BKey} (hk : Fits k info.tree.leaves.flatten) :
    (∃ m n i e p, findFirst .sin k k info.tree = some ⟨some e, .pos n i, true, p⟩ ∧ At info.tree.leaves m n i ∧
      info.tree.leaves.flatten[m]? = some e ∧ e.bkey = k ∧ e ∈ c.elems) ∨
    ((∀ x ∈ c.elems, x.bkey ≠ k) ∧ ∃ pos b p, findFirst .sin k k info.tree = some ⟨none, pos, b, p⟩) := by
  have hln : info.tree.leaves ≠ [] := fun h => hne (R.leaves.mp h)
  obtain ⟨hn, hu, ha⟩ := R.good.wf.full hln
  rcases findFirst_spec (rt := .sin) hn hu ha hk hk R.good.sorted with ⟨m, n, i, e, p, e1, e2, e3, e4, e5⟩ | ⟨j, ⟨g1, g2, g3⟩, pos, p, e1, -⟩
  · exact .inl ⟨m, n, i, e, p, e1, e2, e3, e4, by rw [R.elems]; exact List.mem_of_getElem? e3⟩
  · refine .inr ⟨?_, _, _, _, e1⟩
    intro x hx hxk
    rw [R.elems] at hx
    obtain ⟨i, hi⟩ := List.mem_iff_getElem?.mp hx
    by_cases hij : i < j
    · have := g2 i x hi hij
      rw [hxk] at this
      exact klt_irrefl _ this
    · have := g3 i x hi (by omega)
      rw [hxk] at this
      exact klt_irrefl _ this

theorem updated_value {u : Option EUpdate} {v : Option (List Nat)} {e : Elem} (h : ValueOk e.value) (hv : ∀ x, v = some x → ValueOk x) :
    ValueOk (updated u v e).value := by
  cases v with
  | none => exact h
  | some x => exact hv x rfl

/-- `do_btree_elem_update`. -/
theorem elemUpdate_spec {c : C} {info : Info} (R : Rel c info) (hne : c.elems ≠ []) {key : BKey} (hv : ValidKey key)
    (ha : ¬ c.Alien key) (u : Option EUpdate) {v : Option (List Nat)} (hval : ∀ x, v = some x → ValueOk x) (busy amem full : Bool) :
    ∃ info' r c', elemUpdate info key u v busy amem full = some (info', r) ∧ Rel c' info' ∧
      (((∀ x ∈ c.elems, x.bkey ≠ key) ∧ r = .elemEnoent ∧ c' = c) ∨
       ∃ e ∈ c.elems, e.bkey = key ∧
         ((BadUpdate u e.eflag ∧ r = .ebadeflag ∧ c' = c) ∨
          (¬ BadUpdate u e.eflag ∧ r = .enomem ∧ c' = c ∧ (busy = true ∨ body (updated u v e) ≠ body e) ∧
            (amem = false ∨ (c.sticky = true ∧ full = true ∧ body e < body (updated u v e)))) ∨
          (¬ BadUpdate u e.eflag ∧ r = .ok ∧ c' = { c with elems := put (updated u v e) c.elems }))) := by
  have hln : info.tree.leaves ≠ [] := fun h => hne (R.leaves.mp h)
  rw [elemUpdate, if_neg hln]
  rcases find_one R hne (R.fits hv ha) with ⟨m, n, i, e, p, e1, e2, e3, e4, e5⟩ | ⟨h1, pos, b, p, h2⟩
  · rw [e1]
    simp only [Bool.true_eq_false, if_false]
    by_cases hb : BadUpdate u e.eflag
    · rw [if_pos ((badEflag_iff _ _).mpr hb)]
      exact ⟨_, _, _, rfl, R, .inr ⟨e, e5, e4, .inl ⟨hb, rfl, rfl⟩⟩⟩
    · rw [if_neg (by rw [badEflag_iff]; exact hb)]
      obtain ⟨t, t1, t2⟩ := R.replace e2 e3 (e := updated u v e) rfl (updated_value (R.values e e5) hval)
      have ho : e.eflag.length + e.value.length = body e := rfl
      rw [← body_updated v hb, ho]
      by_cases hp : busy = false ∧ body e = body (updated u v e)
      · rw [if_pos hp, updateInPlace_spec v hb hp.2]
        simp only [t1, Option.map_some]
        exact ⟨_, _, _, rfl, t2, .inr ⟨e, e5, e4, .inr (.inr ⟨hb, rfl, rfl⟩)⟩⟩
      · rw [if_neg hp]
        have hp' : busy = true ∨ body (updated u v e) ≠ body e := by
          cases busy
          · right; intro h; exact hp ⟨rfl, h.symm⟩
          · exact .inl rfl
        by_cases hs : info.sticky = true ∧ full = true ∧ body e < body (updated u v e)
        · rw [if_pos hs]
          exact ⟨_, _, _, rfl, R, .inr ⟨e, e5, e4, .inr (.inl ⟨hb, rfl, rfl, hp', .inr (by rw [R.sticky]; exact hs)⟩)⟩⟩
        · rw [if_neg hs]
          by_cases hm : amem = false
          · rw [if_pos hm]
            exact ⟨_, _, _, rfl, R, .inr ⟨e, e5, e4, .inr (.inl ⟨hb, rfl, rfl, hp', .inl hm⟩)⟩⟩
          · rw [if_neg hm, updateCopy_spec v hb]
            simp only [t1, Option.map_some]
            exact ⟨_, _, _, rfl, t2, .inr ⟨e, e5, e4, .inr (.inr ⟨hb, rfl, rfl⟩)⟩⟩
  · rw [h2]
    exact ⟨_, _, _, rfl, R, .inl ⟨h1, rfl, rfl⟩⟩

/-! ## Arithmetic -/

theorem arithFound_spec {c : C} {info : Info} (R : Rel c info) {m n i : Nat} {e : Elem} (hat : At info.tree.leaves m n i)
    (hm : info.tree.leaves.flatten[m]? = some e) (he : e ∈ c.elems) (incr : Bool) (delta : Nat) (busy amem : Bool) {rest : List Nat}
    (hp : Verif.Util.safeStrtoull (e.value ++ rest) ≠ none) :
    ∃ info' r c', arithFound info n i e incr delta busy amem rest = some (info', r) ∧ Rel c' info' ∧
      match Verif.Util.safeStrtoull (e.value ++ rest) with
      | some (some v) =>
        if e.value = [13, 10] then r = .einval ∧ c' = c
        else
          (r = .number (Verif.Item.addDelta incr v delta) ∧
            c' = { c with elems := put { e with value := Verif.Util.showNat (Verif.Item.addDelta incr v delta) ++ [13, 10] } c.elems }) ∨
          (r = .enomem ∧ c' = c ∧ amem = false ∧
            (busy = true ∨ (Verif.Util.showNat (Verif.Item.addDelta incr v delta)).length + 2 ≠ e.value.length))
      | _ => r = .einval ∧ c' = c := by
  rw [arithFound]
  cases hs : Verif.Util.safeStrtoull (e.value ++ rest) with
  | none => exact absurd hs hp
  | some o =>
    cases o with
    | none => exact ⟨_, _, _, rfl, R, rfl, rfl⟩
    | some v =>
      simp only
      obtain ⟨d, hd⟩ := R.values e he
      have h2 : e.value.length = 2 ↔ e.value = [13, 10] := by
        constructor
        · intro h
          rw [hd] at h ⊢
          simp only [List.length_append, List.length_cons, List.length_nil] at h
          have : d = [] := List.length_eq_zero_iff.mp (by omega)
          rw [this]; rfl
        · intro h; rw [h]; rfl
      by_cases h : e.value = [13, 10]
      · rw [if_pos (h2.mpr h)]
        exact ⟨_, _, _, rfl, R, by rw [if_pos h]; exact ⟨rfl, rfl⟩⟩
      · rw [if_neg (fun h' => h (h2.mp h'))]
        obtain ⟨t, t1, t2⟩ := R.replace hat hm
          (e := { e with value := Verif.Util.showNat (Verif.Item.addDelta incr v delta) ++ [13, 10] }) rfl ⟨_, rfl⟩
        simp only [if_neg h]
        by_cases hb : busy = false ∧ e.value.length = (Verif.Util.showNat (Verif.Item.addDelta incr v delta) ++ [13, 10]).length
        · rw [if_pos hb, t1]
          exact ⟨_, _, _, rfl, t2, .inl ⟨rfl, rfl⟩⟩
        · rw [if_neg hb]
          by_cases ham : amem = false
          · rw [if_pos ham]
            refine ⟨_, _, _, rfl, R, .inr ⟨rfl, rfl, ham, ?_⟩⟩
            cases busy
            · right; intro h'; refine hb ⟨rfl, ?_⟩; rw [List.length_append, ← h']; rfl
            · exact .inl rfl
          · rw [if_neg ham, t1]
            exact ⟨_, _, _, rfl, t2, .inl ⟨rfl, rfl⟩⟩

theorem linkRoot_eq {cfg : Cfg} {info : Info} {e : Elem} {replace : Bool} {mem : Nat} {full : Bool}
    (h : ¬ ((0 < info.ccnt ∨ info.maxRange ≠ none) ∧ badType info.bktype e.bkey = true)) :
    linkRoot cfg info e replace mem full = elemInsert cfg info e replace mem full := by
  rw [elemInsert, if_neg h]

theorem Rel.blocked {c : C} {info : Info} (R : Rel c info) {k : BKey} (hv : ValidKey k) :
    ((0 < info.ccnt ∨ info.maxRange ≠ none) ∧ badType info.bktype k = true) ↔ ((c.elems ≠ [] ∨ c.maxRange ≠ none) ∧ c.Alien k) := by
  rw [R.alien hv, R.maxRange, Nat.pos_iff_ne_zero, Ne, R.empty]

/-- The outcome of creating the element. -/
theorem arith_new {cfg : Cfg} {c : C} {info : Info} (R : Rel c info) {key : BKey} (hv : ValidKey key)
    (hal : ¬ ((c.elems ≠ [] ∨ c.maxRange ≠ none) ∧ c.Alien key)) (hno : ∀ x ∈ c.elems, x.bkey ≠ key) (initial : Nat)
    (eflag : List Nat) (mem : Nat) (full : Bool) :
    ((match linkRoot cfg info ⟨key, eflag, Verif.Util.showNat initial ++ [13, 10]⟩ false mem full with
        | none => none
        | some (info', .linked _) => some (info', Rep.number initial)
        | some (info', .refused r) => if r = .elemEexists then none else some (info', r)
        | some (_, .replaced) => none) = none ∧ Deep info.tree) ∨
    ∃ info' r c' o, (match linkRoot cfg info ⟨key, eflag, Verif.Util.showNat initial ++ [13, 10]⟩ false mem full with
        | none => none
        | some (info', .linked _) => some (info', Rep.number initial)
        | some (info', .refused r) => if r = .elemEexists then none else some (info', r)
        | some (_, .replaced) => none) = some (info', r) ∧ Rel c' info' ∧
      Insert cfg.maxSize c ⟨key, eflag, Verif.Util.showNat initial ++ [13, 10]⟩ false mem full o c' ∧
      r = (match o with | .refused q => q | _ => .number initial) := by
  have hb : ¬ ((0 < info.ccnt ∨ info.maxRange ≠ none) ∧ badType info.bktype key = true) := fun h => hal ((R.blocked hv).mp h)
  rw [linkRoot_eq (e := ⟨key, eflag, Verif.Util.showNat initial ++ [13, 10]⟩) hb]
  rcases elemInsert_spec cfg R (e := ⟨key, eflag, Verif.Util.showNat initial ++ [13, 10]⟩) hv ⟨_, rfl⟩ false mem full with
    ⟨h1, h2, -⟩ | ⟨info', o, c', h1, h2, h3⟩
  · left; rw [h1]; exact ⟨rfl, h2⟩
  · right
    rw [h1]
    cases o with
    | linked x => exact ⟨_, _, _, _, rfl, h3, h2, rfl⟩
    | replaced =>
      exfalso
      cases h2 with
      | repl old ho hk _ _ => exact hno old ho hk
    | refused r =>
      have : r ≠ .elemEexists := by
        intro hr
        subst hr
        cases h2 with
        | dup old ho hk _ => exact hno old ho hk
      simp only
      rw [if_neg this]
      exact ⟨_, _, _, _, rfl, h3, h2, rfl⟩

theorem findFirst_empty {key : BKey} : ∃ pos b p, findFirst .sin key key ⟨[[]], []⟩ = some ⟨none, pos, b, p⟩ := by
  cases key <;> exact ⟨_, _, _, rfl⟩

theorem elemArith_spec {cfg : Cfg} {c : C} {info : Info} (R : Rel c info) {key : BKey} (hv : ValidKey key) (incr create : Bool)
    (delta initial : Nat) (eflag : List Nat) (busy amem : Bool) (mem : Nat) (full : Bool) {rest : List Nat}
    (hp : ∀ e ∈ c.elems, e.bkey = key → Verif.Util.safeStrtoull (e.value ++ rest) ≠ none) :
    (elemArith cfg info key incr create delta initial eflag busy amem mem full rest = none ∧ Deep info.tree) ∨
    ∃ info' r c', elemArith cfg info key incr create delta initial eflag busy amem mem full rest = some (info', r) ∧ Rel c' info' ∧
      Step cfg.maxSize (some c) (.arith key incr create delta initial eflag busy amem mem full rest) r (some c') := by
  rw [elemArith]
  by_cases hal : (c.elems ≠ [] ∨ c.maxRange ≠ none) ∧ c.Alien key
  · rw [if_pos ((R.blocked hv).mpr hal)]
    exact .inr ⟨_, _, _, rfl, R, .inl ⟨hal, rfl, rfl⟩⟩
  · rw [if_neg (fun h => hal ((R.blocked hv).mp h))]
    by_cases hl : info.tree.leaves = []
    · have hnil := R.leaves.mp hl
      have hno : ∀ x ∈ c.elems, x.bkey ≠ key := by rw [hnil]; intro x hx; cases hx
      by_cases hcr : create = false
      · rw [if_pos ⟨hl, hcr⟩]
        exact .inr ⟨_, _, _, rfl, R, .inr ⟨hal, .inl ⟨hno, by rw [if_pos hcr]; exact ⟨rfl, rfl⟩⟩⟩⟩
      · rw [if_neg (fun h => hcr h.2)]
        by_cases hm : mem = 0
        · rw [if_pos ⟨hl, hm⟩]
          refine .inr ⟨_, _, _, rfl, R, .inr ⟨hal, .inl ⟨hno, ?_⟩⟩⟩
          rw [if_neg hcr]
          refine .inr ⟨.refused .enomem, c, ?_, rfl, rfl⟩
          by_cases hst : c.sticky = true ∧ full = true
          · exact .stickyFull hst.1 hst.2 hno hal
          · exact .nomem (by omega) ⟨hal, hno, hst⟩
        · rw [if_neg (fun h => hm h.2), if_pos hl]
          obtain ⟨pos, b, p, hf⟩ := findFirst_empty (key := key)
          rw [hf]
          simp only
          rw [if_neg hcr]
          by_cases ha : amem = false
          · rw [if_pos ha]
            refine .inr ⟨_, _, _, rfl, R, .inr ⟨hal, .inl ⟨hno, ?_⟩⟩⟩
            rw [if_neg hcr]
            exact .inl ⟨ha, rfl, rfl⟩
          · rw [if_neg ha]
            rcases arith_new (cfg := cfg) R hv hal hno initial eflag mem full with h | ⟨info', r, c', o, h1, h2, h3, h4⟩
            · exact .inl h
            · refine .inr ⟨_, _, _, h1, h2, .inr ⟨hal, .inl ⟨hno, ?_⟩⟩⟩
              rw [if_neg hcr]
              exact .inr ⟨o, c', h3, rfl, h4⟩
    · rw [if_neg (fun h => hl h.1), if_neg (fun h => hl h.1), if_neg hl]
      have hne : c.elems ≠ [] := fun h => hl (R.leaves.mpr h)
      have hal' : ¬ c.Alien key := fun h => hal ⟨.inl hne, h⟩
      rcases find_one R hne (R.fits hv hal') with ⟨m, n, i, e, p, e1, e2, e3, e4, e5⟩ | ⟨hno, pos, b, p, hf⟩
      · rw [e1]
        simp only [Bool.true_eq_false, if_false]
        obtain ⟨info', r, c', h1, h2, h3⟩ := arithFound_spec R e2 e3 e5 incr delta busy amem (hp e e5 e4)
        refine .inr ⟨_, _, _, h1, h2, .inr ⟨hal, .inr ⟨e, e5, e4, ?_⟩⟩⟩
        cases hs : Verif.Util.safeStrtoull (e.value ++ rest) with
        | none => exact absurd hs (hp e e5 e4)
        | some o =>
          rw [hs] at h3
          cases o with
          | none => exact ⟨h3.1, by rw [h3.2]⟩
          | some v =>
            simp only at h3 ⊢
            by_cases hv2 : e.value = [13, 10]
            · rw [if_pos hv2] at h3 ⊢
              exact ⟨h3.1, by rw [h3.2]⟩
            · rw [if_neg hv2] at h3 ⊢
              rcases h3 with ⟨h3, h4⟩ | ⟨h3, h4, h5⟩
              · exact .inl ⟨h3, by rw [h4]⟩
              · exact .inr ⟨h3, by rw [h4], h5⟩
      · rw [hf]
        simp only
        by_cases hcr : create = false
        · rw [if_pos hcr]
          exact .inr ⟨_, _, _, rfl, R, .inr ⟨hal, .inl ⟨hno, by rw [if_pos hcr]; exact ⟨rfl, rfl⟩⟩⟩⟩
        · rw [if_neg hcr]
          by_cases ha : amem = false
          · rw [if_pos ha]
            refine .inr ⟨_, _, _, rfl, R, .inr ⟨hal, .inl ⟨hno, ?_⟩⟩⟩
            rw [if_neg hcr]
            exact .inl ⟨ha, rfl, rfl⟩
          · rw [if_neg ha]
            rcases arith_new (cfg := cfg) R hv hal hno initial eflag mem full with h | ⟨info', r, c', o, h1, h2, h3, h4⟩
            · exact .inl h
            · refine .inr ⟨_, _, _, h1, h2, .inr ⟨hal, .inl ⟨hno, ?_⟩⟩⟩
              rw [if_neg hcr]
              exact .inr ⟨o, c', h3, rfl, h4⟩

end Verif.BT
