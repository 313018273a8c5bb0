import Verif.Lemmas.KeyPieces

/-!
# Putting keys together that cross block borders
-/
namespace Verif.Keys

/-- All blocks have the same size. -/
def Uniform (bl : Nat) (m : Mem) : Prop := ∀ x ∈ m, x.length = bl

theorem rd_len {m : Mem} {b o l : Nat} {x : List Nat} (h : rd m b o l = some x) : x.length = l := by
  unfold rd at h
  split at h
  · cases h
  · split at h
    · cases h; simp; omega
    · cases h

theorem rd_lt {m : Mem} {b o l : Nat} {x : List Nat} (h : rd m b o l = some x) : b < m.length := by
  unfold rd at h
  split at h
  · cases h
  · rename_i hb
    exact (List.getElem?_eq_some_iff.mp hb).1

theorem rd_append {m : Mem} (f : Mem) {b : Nat} (o l : Nat) (h : b < m.length) : rd (m ++ f) b o l = rd m b o l := by
  unfold rd
  rw [List.getElem?_append_left h]

theorem rd_split {m : Mem} {b o l1 l2 : Nat} {xs ys : List Nat} (h1 : rd m b o l1 = some xs) (h2 : rd m b (o + l1) l2 = some ys) :
    rd m b o (l1 + l2) = some (xs ++ ys) := by
  unfold rd at h1 h2 ⊢
  split at h1
  · cases h1
  · rename_i body hb
    rw [hb] at h2
    simp only [] at h2 ⊢
    split at h1
    · split at h2
      · cases h1; cases h2
        rw [if_pos (by omega), List.take_add, List.drop_drop]
      · cases h2
    · cases h1

theorem wr_some {bl : Nat} {m : Mem} {b o : Nat} {xs : List Nat} (hu : Uniform bl m) (hb : b < m.length) (ho : o + xs.length ≤ bl) :
    ∃ m', wr m b o xs = some m' := by
  unfold wr
  rw [List.getElem?_eq_getElem hb]
  simp only []
  rw [if_pos]
  · exact ⟨_, rfl⟩
  · rw [hu _ (List.getElem_mem hb)]; exact ho

/-- What a write does. -/
theorem wr_spec {m m' : Mem} {b o : Nat} {xs : List Nat} (h : wr m b o xs = some m') :
    m'.length = m.length ∧ (∀ bl, Uniform bl m → Uniform bl m') ∧ (∀ b' o' l', b' ≠ b → rd m' b' o' l' = rd m b' o' l') ∧
      (∀ o' l', o' + l' ≤ o → rd m' b o' l' = rd m b o' l') ∧ rd m' b o xs.length = some xs := by
  unfold wr at h
  split at h
  · cases h
  · rename_i body hb
    split at h
    · rename_i hle
      cases h
      have hlt : b < m.length := (List.getElem?_eq_some_iff.mp hb).1
      have hnl : (body.take o ++ xs ++ body.drop (o + xs.length)).length = body.length := by simp; omega
      refine ⟨by simp, ?_, ?_, ?_, ?_⟩
      · intro bl hu x hx
        rcases List.mem_or_eq_of_mem_set hx with hx | hx
        · exact hu x hx
        · rw [hx, hnl]; exact hu _ (List.mem_of_getElem? hb)
      · intro b' o' l' hne
        unfold rd
        rw [List.getElem?_set_ne (Ne.symm hne)]
      · intro o' l' ho
        unfold rd
        rw [List.getElem?_set_self hlt, hb]
        simp only [hnl]
        by_cases hc : o' + l' ≤ body.length
        · rw [if_pos hc, if_pos hc]
          congr 1
          rw [List.append_assoc, List.drop_append_of_le_length (by simp; omega),
            List.take_append_of_le_length (by simp; omega), List.drop_take, List.take_take]
          congr 1; omega
        · rw [if_neg hc, if_neg hc]
      · unfold rd
        rw [List.getElem?_set_self hlt]
        simp only [hnl]
        rw [if_pos hle]
        congr 1
        have ht : (body.take o).length = o := by simp; omega
        rw [List.append_assoc]
        conv => lhs; rw [← ht]
        rw [List.drop_left' (by simp), List.take_left' (by simp)]
    · cases h

/-- The bytes of a token. -/
def rt (m : Mem) (t : Tok) : Option (List Nat) := rd m t.b t.off t.len

/-- A key found: possibly a first part in the block before, and the part in the block. -/
abbrev Ent := Option Tok × Tok

/-- The segment array for keys found, numbered from `k`. -/
def segsOf : Nat → List Ent → List Seg
  | _, [] => []
  | k, (none, _) :: es => segsOf (k + 1) es
  | k, (some s, _) :: es => ⟨s, k⟩ :: segsOf (k + 1) es

theorem segsOf_append (k : Nat) (a b : List Ent) : segsOf k (a ++ b) = segsOf k a ++ segsOf (k + a.length) b := by
  induction a generalizing k with
  | nil => simp [segsOf]
  | cons e es ih =>
    obtain ⟨s, t⟩ := e
    cases s with
    | none => simp only [List.cons_append, segsOf, ih]; congr 2; simp; omega
    | some s => simp only [List.cons_append, segsOf, ih]; congr 3; simp; omega

theorem segsOf_none (k : Nat) (a : List Tok) : segsOf k (a.map fun t => (none, t)) = [] := by
  induction a generalizing k with
  | nil => rfl
  | cons t ts ih => simp [segsOf, ih]

/-- The bytes of a key found. -/
def comb (m : Mem) : Ent → Option (List Nat)
  | (none, t) => rt m t
  | (some s, t) =>
    match rt m s, rt m t with
    | some x, some y => some (x ++ y)
    | _, _ => none

theorem comb_some {m : Mem} {s t : Tok} {v : List Nat} (h : comb m (some s, t) = some v) :
    ∃ x y, rt m s = some x ∧ rt m t = some y ∧ v = x ++ y ∧ v.length = s.len + t.len := by
  simp only [comb] at h
  split at h
  · rename_i x y hx hy
    cases h
    exact ⟨x, y, hx, hy, rfl, by simp [rd_len hx, rd_len hy]⟩
  · cases h

/-- The pointers of a key found are in the first blocks. -/
def Below (base : Nat) : Ent → Prop
  | (none, t) => t.b < base
  | (some s, t) => s.b < base ∧ t.b < base

theorem below_of_comb {m : Mem} {e : Ent} {v : List Nat} (h : comb m e = some v) : Below m.length e := by
  obtain ⟨s, t⟩ := e
  cases s with
  | none => exact rd_lt h
  | some s =>
    obtain ⟨x, y, hx, hy, _⟩ := comb_some h
    exact ⟨rd_lt hx, rd_lt hy⟩

theorem comb_congr {m m' : Mem} {base : Nat} (h : ∀ b o l, b < base → rd m' b o l = rd m b o l) {e : Ent} (he : Below base e) :
    comb m' e = comb m e := by
  obtain ⟨s, t⟩ := e
  cases s with
  | none => exact h _ _ _ he
  | some s => simp only [comb, rt, h _ _ _ he.1, h _ _ _ he.2]

/-- The number of blocks needed. -/
def cntE (bl maxk : Nat) : List Ent → Nat → Nat → Option Nat
  | [], n, _ => some n
  | (none, _) :: es, n, dl => cntE bl maxk es n dl
  | (some s, t) :: es, n, dl =>
    if maxk < s.len + t.len then none
    else if bl < dl + (s.len + t.len) then cntE bl maxk es (n + 1) (s.len + t.len)
    else cntE bl maxk es n (dl + (s.len + t.len))

theorem count_eq (bl maxk : Nat) : ∀ (es : List Ent) (done : List Tok) (n dl : Nat),
    count bl maxk (done ++ es.map Prod.snd) (segsOf done.length es) n dl = some (cntE bl maxk es n dl) := by
  intro es
  induction es with
  | nil => intros; rfl
  | cons e es ih =>
    intro done n dl
    obtain ⟨s, t⟩ := e
    have hre : done ++ List.map Prod.snd ((s, t) :: es) = (done ++ [t]) ++ List.map Prod.snd es := by simp
    have hih := ih (done ++ [t])
    simp only [List.length_append, List.length_singleton] at hih
    cases s with
    | none =>
      simp only [segsOf, cntE]
      rw [hre]; exact hih n dl
    | some s =>
      simp only [segsOf, cntE, count]
      have : (done ++ List.map Prod.snd ((some s, t) :: es))[done.length]? = some t := by simp
      rw [this]
      simp only []
      rw [hre, hih, hih]
      split
      · rfl
      · split <;> rfl

theorem cntE_none {bl maxk : Nat} : ∀ {es : List Ent} {n dl : Nat}, cntE bl maxk es n dl = none →
    ∃ s t, (some s, t) ∈ es ∧ maxk < s.len + t.len := by
  intro es
  induction es with
  | nil => intro n dl h; cases h
  | cons e es ih =>
    intro n dl h
    obtain ⟨s, t⟩ := e
    cases s with
    | none =>
      obtain ⟨s, t, h1, h2⟩ := ih h
      exact ⟨s, t, List.mem_cons_of_mem _ h1, h2⟩
    | some s =>
      simp only [cntE] at h
      split at h
      · rename_i hlt; exact ⟨s, t, by simp, hlt⟩
      · split at h <;>
        · obtain ⟨s, t, h1, h2⟩ := ih h
          exact ⟨s, t, List.mem_cons_of_mem _ h1, h2⟩

theorem cntE_some {bl maxk : Nat} : ∀ {es : List Ent} {n dl n' : Nat}, cntE bl maxk es n dl = some n' →
    n ≤ n' ∧ ∀ s t, (some s, t) ∈ es → s.len + t.len ≤ maxk := by
  intro es
  induction es with
  | nil => intro n dl n' h; cases h; simp
  | cons e es ih =>
    intro n dl n' h
    obtain ⟨s, t⟩ := e
    cases s with
    | none =>
      obtain ⟨h1, h2⟩ := ih h
      refine ⟨h1, fun s t hm => ?_⟩
      rcases List.mem_cons.mp hm with hm | hm
      · cases hm
      · exact h2 s t hm
    | some s =>
      simp only [cntE] at h
      split at h
      · cases h
      · rename_i hlt
        have key : ∀ {n2 dl2 : Nat}, n ≤ n2 → cntE bl maxk es n2 dl2 = some n' →
            n ≤ n' ∧ ∀ s' t', (some s', t') ∈ (some s, t) :: es → s'.len + t'.len ≤ maxk := by
          intro n2 dl2 hn h
          obtain ⟨h1, h2⟩ := ih h
          refine ⟨by omega, fun s' t' hm => ?_⟩
          rcases List.mem_cons.mp hm with hm | hm
          · cases hm; omega
          · exact h2 s' t' hm
        split at h
        · exact key (by omega) h
        · exact key (Nat.le_refl _) h

theorem cntE_le {bl maxk : Nat} : ∀ {es : List Ent} {n dl n' : Nat} (k : Nat), cntE bl maxk es n dl = some n' →
    n' ≤ n + (segsOf k es).length := by
  intro es
  induction es with
  | nil => intro n dl n' k h; cases h; simp
  | cons e es ih =>
    intro n dl n' k h
    obtain ⟨s, t⟩ := e
    cases s with
    | none => exact ih (k + 1) h
    | some s =>
      simp only [cntE] at h
      simp only [segsOf, List.length_cons]
      split at h
      · cases h
      · split at h
        · have := ih (k + 1) h; omega
        · have := ih (k + 1) h; omega

/-- As many blocks as keys are enough. -/
theorem cntE_le0 {bl maxk : Nat} (hbl : maxk < bl) : ∀ {es : List Ent} {n' : Nat} (k : Nat), segsOf k es ≠ [] →
    cntE bl maxk es 1 0 = some n' → n' ≤ (segsOf k es).length := by
  intro es
  induction es with
  | nil => intro n' k h; exact absurd rfl h
  | cons e es ih =>
    intro n' k hne h
    obtain ⟨s, t⟩ := e
    cases s with
    | none => exact ih (k + 1) hne h
    | some s =>
      simp only [cntE] at h
      simp only [segsOf, List.length_cons]
      split at h
      · cases h
      · rw [if_neg (by omega)] at h
        have := cntE_le (k + 1) h
        omega

theorem place_spec {bl maxk : Nat} (hbl : maxk < bl) : ∀ (es : List Ent) (vs : List (List Nat)) (done : List Tok) (m : Mem)
    (blk dl n n' base : Nat), Uniform bl m → blk + 1 = base + n → base ≤ blk → cntE bl maxk es n dl = some n' → base + n' ≤ m.length →
    es.map (comb m) = vs.map some → (∀ e ∈ es, Below base e) →
    ∃ m' ts, place bl (segsOf done.length es) m (done ++ es.map Prod.snd) blk dl = some (m', done ++ ts) ∧ Uniform bl m' ∧
      m'.length = m.length ∧ (∀ b o l, (b < blk ∨ (b = blk ∧ o + l ≤ dl)) → rd m' b o l = rd m b o l) ∧
      ts.map (rt m') = vs.map some := by
  intro es
  induction es with
  | nil =>
    intro vs done m blk dl n n' base hu hb hbb hc hm hv hp
    exact ⟨m, [], by simp [segsOf, place], hu, rfl, fun _ _ _ _ => rfl, by simpa using hv⟩
  | cons e es ih =>
    intro vs done m blk dl n n' base hu hb hbb hc hm hv hp
    cases vs with
    | nil => simp at hv
    | cons v vs =>
    simp only [List.map_cons, List.cons.injEq] at hv
    obtain ⟨hv1, hv2⟩ := hv
    have hp1 := hp e (by simp)
    have hp2 : ∀ e ∈ es, Below base e := fun e he => hp e (List.mem_cons_of_mem _ he)
    obtain ⟨s, t⟩ := e
    cases s with
    | none =>
      obtain ⟨m', ts, h1, h2, h3, h4, h5⟩ := ih vs (done ++ [t]) m blk dl n n' base hu hb hbb hc hm hv2 hp2
      refine ⟨m', t :: ts, ?_, h2, h3, h4, ?_⟩
      · simp only [segsOf]
        simpa using h1
      · simp only [List.map_cons, h5, List.cons.injEq, and_true]
        rw [← hv1]
        exact h4 _ _ _ (Or.inl (by have : t.b < base := hp1; omega))
    | some s =>
      obtain ⟨x, y, hx, hy, hxy, hlen⟩ := comb_some hv1
      have hxl : x.length = s.len := rd_len hx
      have hyl : y.length = t.len := rd_len hy
      simp only [cntE] at hc
      have hle : ¬ maxk < s.len + t.len := by
        intro h; rw [if_pos h] at hc; cases hc
      rw [if_neg hle] at hc
      -- the block and offset used
      obtain ⟨blk', dl', n2, hblk', hdl', hc', hn2, hfit⟩ : ∃ blk' dl' n2,
          blk' = (if bl < dl + (s.len + t.len) then blk + 1 else blk) ∧ dl' = (if bl < dl + (s.len + t.len) then 0 else dl) ∧
          cntE bl maxk es n2 (dl' + (s.len + t.len)) = some n' ∧ blk' + 1 = base + n2 ∧ dl' + (s.len + t.len) ≤ bl := by
        by_cases h : bl < dl + (s.len + t.len)
        · rw [if_pos h] at hc
          exact ⟨blk + 1, 0, n + 1, by simp [h], by simp [h], by simpa using hc, by omega, by omega⟩
        · rw [if_neg h] at hc
          exact ⟨blk, dl, n, by simp [h], by simp [h], hc, by omega, by omega⟩
      have hblkge : blk ≤ blk' := by rw [hblk']; split <;> omega
      have hfroz : ∀ b o l, (b < blk ∨ (b = blk ∧ o + l ≤ dl)) → (b < blk' ∨ (b = blk' ∧ o + l ≤ dl')) := by
        intro b o l h
        rw [hblk', hdl']
        split
        · left; omega
        · exact h
      have hn' := (cntE_some hc').1
      have hlt : blk' < m.length := by omega
      obtain ⟨m1, hw1⟩ := wr_some (xs := x) (o := dl') hu hlt (by omega)
      obtain ⟨w1, w2, w3, w4, w5⟩ := wr_spec hw1
      have hbs : s.b < blk' := by have := hp1.1; omega
      have hbt : t.b < blk' := by have := hp1.2; omega
      have hy1 : rd m1 t.b t.off t.len = some y := by rw [w3 _ _ _ (by omega)]; exact hy
      obtain ⟨m2, hw2⟩ := wr_some (xs := y) (o := dl' + s.len) (b := blk') (w2 bl hu) (by omega) (by omega)
      obtain ⟨z1, z2, z3, z4, z5⟩ := wr_spec hw2
      have hu2 := z2 bl (w2 bl hu)
      have hlow : ∀ b o l, (b < blk' ∨ (b = blk' ∧ o + l ≤ dl')) → rd m2 b o l = rd m b o l := by
        intro b o l h
        rcases h with h | ⟨h, h'⟩
        · rw [z3 _ _ _ (by omega), w3 _ _ _ (by omega)]
        · subst h
          rw [z4 _ _ (by omega), w4 _ _ h']
      have hnew : rd m2 blk' dl' (s.len + t.len) = some (x ++ y) := by
        apply rd_split
        · rw [z4 _ _ (by omega), ← hxl]; exact w5
        · rw [← hyl]; exact z5
      have hv2' : es.map (comb m2) = vs.map some := by
        rw [← hv2]
        apply List.map_congr_left
        intro e he
        exact comb_congr (base := base) (fun b o l h => hlow b o l (Or.inl (by omega))) (hp2 e he)
      obtain ⟨m', ts, h1, h2, h3, h4, h5⟩ := ih vs (done ++ [⟨blk', dl', s.len + t.len⟩]) m2 blk' (dl' + (s.len + t.len)) n2 n' base
        hu2 hn2 (by omega) hc' (by omega) hv2' hp2
      refine ⟨m', ⟨blk', dl', s.len + t.len⟩ :: ts, ?_, h2, by omega, ?_, ?_⟩
      · simp only [segsOf, place]
        have hg : (done ++ List.map Prod.snd ((some s, t) :: es))[done.length]? = some t := by simp
        rw [hg]
        simp only []
        rw [← hblk', ← hdl']
        have hx' : rd m s.b s.off s.len = some x := hx
        rw [hx']
        simp only [hw1, hy1, hw2]
        have hset : (done ++ List.map Prod.snd ((some s, t) :: es)).set done.length ⟨blk', dl', s.len + t.len⟩ =
            (done ++ [⟨blk', dl', s.len + t.len⟩]) ++ List.map Prod.snd es := by
          simp
        rw [hset]
        simpa using h1
      · intro b o l h
        have hb' := hfroz b o l h
        rw [h4 b o l, hlow b o l hb']
        rcases hb' with h | ⟨h, h'⟩
        · exact Or.inl h
        · exact Or.inr ⟨h, by omega⟩
      · simp only [List.map_cons, h5, List.cons.injEq, and_true]
        rw [hxy, ← hnew]
        exact h4 _ _ _ (Or.inr ⟨rfl, Nat.le_refl _⟩)

/-- What `concat_segmented_tokens` does. -/
theorem concat_spec {bl maxk : Nat} (hbl : maxk < bl) {es : List Ent} {vs : List (List Nat)} {m fresh : Mem} (hu : Uniform bl m)
    (hf : Uniform bl fresh) (hv : es.map (comb m) = vs.map some) (hne : segsOf 0 es ≠ []) :
    (concat bl maxk m fresh (es.map Prod.snd) (segsOf 0 es) = some .bad ∧ ∃ s t, (some s, t) ∈ es ∧ maxk < s.len + t.len) ∨
    (concat bl maxk m fresh (es.map Prod.snd) (segsOf 0 es) = some .nomem ∧ fresh.length < (segsOf 0 es).length) ∨
    ∃ m' fresh' ts, concat bl maxk m fresh (es.map Prod.snd) (segsOf 0 es) = some (.ok m' fresh' ts) ∧ Uniform bl m' ∧
      Uniform bl fresh' ∧ (∀ b o l, b < m.length → rd m' b o l = rd m b o l) ∧ ts.map (rt m') = vs.map some ∧
      (∀ s t, (some s, t) ∈ es → s.len + t.len ≤ maxk) ∧ fresh.length ≤ fresh'.length + (segsOf 0 es).length := by
  have hc := count_eq bl maxk es [] 1 0
  simp only [List.nil_append, List.length_nil] at hc
  unfold concat
  rw [hc]
  cases hn : cntE bl maxk es 1 0 with
  | none => exact Or.inl ⟨rfl, cntE_none hn⟩
  | some n =>
    right
    simp only []
    by_cases hl : fresh.length < n
    · rw [if_pos hl]
      have := cntE_le0 hbl 0 hne hn
      exact Or.inl ⟨rfl, by omega⟩
    · rw [if_neg hl]
      right
      have hbelow : ∀ e ∈ es, Below m.length e := by
        intro e he
        have : comb m e ∈ es.map (comb m) := List.mem_map_of_mem he
        rw [hv] at this
        obtain ⟨v, _, hv'⟩ := List.mem_map.mp this
        exact below_of_comb hv'.symm
      obtain ⟨m', ts, h1, h2, h3, h4, h5⟩ := place_spec hbl es vs [] (m ++ fresh.take n) m.length 0 1 n m.length
        (by intro x hx
            rcases List.mem_append.mp hx with hx | hx
            · exact hu x hx
            · exact hf x (List.mem_of_mem_take hx)) rfl (Nat.le_refl _) hn (by simp; omega)
        (by rw [← hv]
            apply List.map_congr_left
            intro e he
            exact comb_congr (base := m.length) (fun b o l h => rd_append _ o l h) (hbelow e he)) hbelow
      simp only [List.length_nil, List.nil_append] at h1
      rw [h1]
      refine ⟨m', fresh.drop n, ts, rfl, h2, fun x hx => hf x (List.mem_of_mem_drop hx), ?_, h5, (cntE_some hn).2, ?_⟩
      · intro b o l hb
        rw [h4 b o l (Or.inl hb), rd_append _ o l hb]
      · have := cntE_le0 hbl 0 hne hn
        simp; omega

end Verif.Keys
