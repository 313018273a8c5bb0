import Verif.Lemmas.SlabBlock
/-!
# Counting used space, and the classes that hold one per cent of it
-/
namespace Verif.Slabs

/-! ## Sums over classes -/

/-- The sum over the classes from `j` on. -/
def W (u : Nat → Nat) (j : Nat) : Nat := sumFrom u j (709 - j)

theorem W_step {u : Nat → Nat} {j : Nat} (h : j < 709) : W u j = u j + W u (j + 1) := by
  unfold W
  rw [show 709 - j = (709 - (j + 1)) + 1 by omega]
  rfl

theorem W_end {u : Nat → Nat} {j : Nat} (h : 709 ≤ j) : W u j = 0 := by
  unfold W
  rw [show 709 - j = 0 by omega]
  rfl

theorem W_zeros {u : Nat → Nat} : ∀ {n j k : Nat}, k = j + n → k ≤ 709 → (∀ i, j ≤ i → i < k → u i = 0) → W u j = W u k
  | 0, j, k, h, _, _ => by rw [h]; rfl
  | n + 1, j, k, h, hk, hz => by
    rw [W_step (by omega), hz j (Nat.le_refl _) (by omega), W_zeros (n := n) (j := j + 1) (k := k) (by omega) hk (fun i h1 h2 => hz i (by omega) h2)]
    omega

theorem W_mono {u : Nat → Nat} {j k : Nat} (h : j ≤ k) : W u k ≤ W u j := by
  obtain ⟨n, rfl⟩ : ∃ n, k = j + n := ⟨k - j, by omega⟩
  induction n with
  | zero => exact Nat.le_refl _
  | succ n ih =>
    refine Nat.le_trans ?_ (ih (by omega))
    by_cases hj : j + n < 709
    · rw [W_step hj]; exact Nat.le_add_left ..
    · rw [W_end (by omega)]; omega

theorem W_le {u : Nat → Nat} {j k : Nat} (h : j ≤ k) (hk : k < 709) : u k ≤ W u j := by
  refine Nat.le_trans ?_ (W_mono h)
  rw [W_step hk]; omega

theorem W_pos {u : Nat → Nat} {j : Nat} (hj : j ≤ 709) (h : 0 < W u j) : ∃ k, j ≤ k ∧ k < 709 ∧ 0 < u k := by
  apply Classical.byContradiction
  intro hne
  have : W u j = W u 709 := W_zeros (n := 709 - j) (by omega) (Nat.le_refl _) (fun i h1 h2 => by
    rcases Nat.eq_zero_or_pos (u i) with h | h
    · exact h
    · exact absurd ⟨i, h1, h2, h⟩ hne)
  rw [this, W_end (Nat.le_refl _)] at h
  omega

theorem W_set {u : Nat → Nat} {t v : Nat} (ht : t < 709) : ∀ {n j : Nat}, n = 709 - j →
    (j ≤ t → W (set u t v) j + u t = W u j + v) ∧ (t < j → W (set u t v) j = W u j)
  | 0, j, h => ⟨fun _ => by omega, fun _ => by rw [W_end (by omega), W_end (by omega)]⟩
  | n + 1, j, h => by
    obtain ⟨h1, h2⟩ := W_set (u := u) (v := v) ht (n := n) (j := j + 1) (by omega)
    rw [W_step (u := u) (j := j) (by omega), W_step (u := set u t v) (j := j) (by omega)]
    constructor
    · intro hj
      by_cases he : j = t
      · subst he
        rw [set_eq, h2 (by omega)]; omega
      · rw [set_ne _ _ he]
        have := h1 (by omega)
        omega
    · intro hj
      rw [set_ne _ _ (by omega), h2 (by omega)]

/-! ## Loops -/

theorem rightLoop_ok {u : Nat → Nat} {std : Nat} : ∀ {n i : Nat}, i + n < 709 → 0 < u (i + n) → std ≤ W u i →
    ∃ q, rightLoop u std i (W u i) n = (q, W u q) ∧ i ≤ q ∧ q ≤ i + n ∧ 0 < u q ∧ std ≤ W u q
  | 0, i, h1, h2, h3 => ⟨i, rfl, Nat.le_refl _, Nat.le_refl _, h2, h3⟩
  | n + 1, i, h1, h2, h3 => by
    unfold rightLoop
    have hs := W_step (u := u) (j := i) (by omega)
    by_cases hp : 0 < u i
    · rw [if_pos hp]
      by_cases hb : W u i - u i < std
      · rw [if_pos hb]; exact ⟨i, rfl, Nat.le_refl _, by omega, hp, h3⟩
      · rw [if_neg hb]
        have e : W u i - u i = W u (i + 1) := by omega
        rw [e]
        obtain ⟨q, k1, k2, k3, k4, k5⟩ := rightLoop_ok (u := u) (std := std) (n := n) (i := i + 1) (by omega) (by rw [show i + 1 + n = i + (n + 1) by omega]; exact h2) (by omega)
        exact ⟨q, k1, by omega, by omega, k4, k5⟩
    · rw [if_neg hp]
      have e : W u i = W u (i + 1) := by omega
      rw [e]
      obtain ⟨q, k1, k2, k3, k4, k5⟩ := rightLoop_ok (u := u) (std := std) (n := n) (i := i + 1) (by omega) (by rw [show i + 1 + n = i + (n + 1) by omega]; exact h2) (by omega)
      exact ⟨q, k1, by omega, by omega, k4, k5⟩

theorem leftLoop_ok {u : Nat → Nat} {std : Nat} : ∀ {n i : Nat}, i < 709 → n ≤ i + 1 → W u (i + 1) < std → std ≤ W u (i + 1 - n) →
    ∃ q, leftLoop u std i (W u (i + 1)) n = some (q, W u q) ∧ i < q + n ∧ q ≤ i ∧ 0 < u q ∧ std ≤ W u q
  | 0, i, _, _, h3, h4 => by rw [Nat.sub_zero] at h4; omega
  | n + 1, i, h1, h2, h3, h4 => by
    unfold leftLoop
    have hs := W_step (u := u) (j := i) h1
    have next : W u i < std → ∃ q, leftLoop u std (i - 1) (W u i) n = some (q, W u q) ∧ i < q + (n + 1) ∧ q ≤ i ∧ 0 < u q ∧ std ≤ W u q := by
      intro hlt
      have hn : n ≠ 0 := by
        rintro rfl
        rw [show i + 1 - (0 + 1) = i by omega] at h4
        omega
      have hi : i - 1 + 1 = i := by omega
      obtain ⟨q, k1, k2, k3, k4, k5⟩ := leftLoop_ok (u := u) (std := std) (n := n) (i := i - 1) (by omega) (by omega) (by rw [hi]; exact hlt)
        (by rw [hi]; rw [show i + 1 - (n + 1) = i - n by omega] at h4; exact h4)
      rw [hi] at k1
      exact ⟨q, k1, by omega, by omega, k4, k5⟩
    by_cases hp : 0 < u i
    · rw [if_pos hp]
      have e : W u (i + 1) + u i = W u i := by omega
      rw [e]
      by_cases hb : std ≤ W u i
      · rw [if_pos hb]; exact ⟨i, rfl, by omega, Nat.le_refl _, hp, hb⟩
      · rw [if_neg hb]; exact next (by omega)
    · rw [if_neg hp]
      have e : W u (i + 1) = W u i := by omega
      rw [e]
      exact next (by omega)

/-! ## Used slots -/

/-- Used, and of a class. -/
def us (k : Nat) (s : Slot) : Bool := decide (s.kind = .used ∧ cc s.len = k)

theorem us_iff {k : Nat} {s : Slot} : us k s = true ↔ s.kind = .used ∧ cc s.len = k := by simp [us]

/-- The counters of used space agree with the slots. -/
structure Use (s : St) (S : List Slot) : Prop where
  sp : ∀ k, k < 709 → s.uspace k = wsum (us k) S
  ct : ∀ k, k < 709 → s.ucount k = (S.filter (us k)).length
  rg : Rng s.ucount s.umin s.umax s.unum
  tot : s.total = W s.uspace 0
  pos : ∀ x ∈ S, x.kind = .used → 32 ≤ x.len

theorem Use.perm {s : St} {S S' : List Slot} (h : Use s S) (hp : S.Perm S') : Use s S' where
  sp := fun k hk => (h.sp k hk).trans (wsum_perm hp)
  ct := fun k hk => (h.ct k hk).trans (hp.filter _).length_eq
  rg := h.rg
  tot := h.tot
  pos := fun x hx => h.pos x (hp.mem_iff.mpr hx)

theorem Use.skip {s : St} {x : Slot} {S : List Slot} (hx : x.kind ≠ .used) : Use s (x :: S) ↔ Use s S := by
  have h1 : ∀ k, ¬ us k x = true := fun k => by simp [us_iff, hx]
  constructor
  · intro h
    refine ⟨fun k hk => ?_, fun k hk => ?_, h.rg, h.tot, fun y hy => h.pos y (List.mem_cons_of_mem _ hy)⟩
    · have := h.sp k hk; simp only [wsum] at this; rw [if_neg (h1 k)] at this; omega
    · have := h.ct k hk; rw [List.filter_cons_of_neg (h1 k)] at this; exact this
  · intro h
    refine ⟨fun k hk => ?_, fun k hk => ?_, h.rg, h.tot, fun y hy => ?_⟩
    · simp only [wsum]; rw [if_neg (h1 k), h.sp k hk]; omega
    · rw [List.filter_cons_of_neg (h1 k)]; exact h.ct k hk
    · rcases List.mem_cons.mp hy with rfl | hy
      · exact fun hh => absurd hh hx
      · exact h.pos y hy

theorem Use.congr {s s' : St} {S : List Slot} (h : Use s S) (h1 : s'.uspace = s.uspace) (h2 : s'.ucount = s.ucount) (h3 : s'.umin = s.umin)
    (h4 : s'.umax = s.umax) (h5 : s'.unum = s.unum) (h6 : s'.total = s.total) : Use s' S :=
  ⟨by rw [h1]; exact h.sp, by rw [h2]; exact h.ct, by rw [h2, h3, h4, h5]; exact h.rg, by rw [h1, h6]; exact h.tot, h.pos⟩

theorem Use.cp {s : St} {S : List Slot} (h : Use s S) {k : Nat} (hk : k < 709) : 0 < s.ucount k ↔ 0 < s.uspace k := by
  rw [h.sp k hk, h.ct k hk]
  have : wsum (us k) S = wsum (us k) (S.filter (fun x => decide (x.kind = .used))) := by
    clear h
    induction S with
    | nil => rfl
    | cons x S ih =>
      by_cases hx : x.kind = .used
      · rw [List.filter_cons_of_pos (by simp [hx])]; simp only [wsum, ih]
      · rw [List.filter_cons_of_neg (by simp [hx])]; simp only [wsum, ih]
        rw [if_neg (by simp [us_iff, hx])]; omega
  rw [this, wsum_pos (fun x hx => by
    obtain ⟨h1, h2⟩ := List.mem_filter.mp hx
    have := h.pos x h1 (by simpa using h2)
    omega)]
  rw [List.length_pos_iff]
  constructor
  · intro hne
    obtain ⟨x, hx⟩ := List.exists_mem_of_ne_nil _ hne
    obtain ⟨h1, h2⟩ := List.mem_filter.mp hx
    exact ⟨x, List.mem_filter.mpr ⟨h1, by simp [(us_iff.mp h2).1]⟩, h2⟩
  · rintro ⟨x, hx, h2⟩ hn
    obtain ⟨h1, -⟩ := List.mem_filter.mp hx
    have : x ∈ S.filter (us k) := List.mem_filter.mpr ⟨h1, h2⟩
    rw [hn] at this
    simp at this

theorem sum_used {S : List Slot} {f : Nat → Nat} (hf : ∀ k, k < 709 → f k = wsum (us k) S) : ∀ {n j : Nat}, j + n ≤ 709 →
    sumFrom f j n = wsum (fun s => decide (s.kind = .used ∧ j ≤ cc s.len ∧ cc s.len < j + n)) S
  | 0, j, _ => by
    refine (wsum_zero (fun s _ => ?_)).symm
    simp only [decide_eq_false_iff_not]; omega
  | n + 1, j, h => by
    simp only [sumFrom]
    rw [sum_used hf (by omega), hf j (by omega)]
    refine (wsum_split (fun s _ => ?_)).symm
    simp only [us_iff, decide_eq_true_eq]
    refine ⟨⟨fun h => ?_, fun h => ?_⟩, fun h => ?_⟩
    · obtain ⟨h1, h2, h3⟩ := h
      by_cases he : cc s.len = j
      · exact .inl ⟨h1, he⟩
      · exact .inr ⟨h1, by omega, by omega⟩
    · rcases h with ⟨h1, h2⟩ | ⟨h1, h2, h3⟩
      · exact ⟨h1, by omega, by omega⟩
      · exact ⟨h1, by omega, by omega⟩
    · omega

theorem Use.total {s : St} {S : List Slot} (h : Use s S) : s.total = wsum (fun x => decide (x.kind = .used)) S := by
  rw [h.tot, W, sum_used h.sp (by omega)]
  refine wsum_congr (fun x _ => ?_)
  have := cc_lt x.len
  simp [this]

theorem Use.none {s : St} {S : List Slot} (h : Use s S) : s.total = 0 ↔ ∀ x ∈ S, x.kind ≠ .used := by
  rw [h.total]
  constructor
  · intro h0 x hx hk
    have := wsum_mem (p := fun x => decide (x.kind = .used)) hx (by simp [hk])
    have := h.pos x hx hk
    omega
  · intro hn
    exact wsum_zero (fun x hx => by simp [hn x hx])

/-- The class above which one per cent of the used space is. -/
def Pc (s : St) : Prop :=
  (s.total = 0 ∧ s.pct = -1 ∧ s.pctsp = 0) ∨
  ∃ p : Nat, s.pct = p ∧ p < 709 ∧ 0 < s.uspace p ∧ s.pctsp = W s.uspace p ∧ s.total / 100 + 1 ≤ s.pctsp

/-! ## Moving the class -/

theorem sum_sm {m head tail fspace fcount : Nat → Nat} {S : List Slot} (hf : FreeOk m head tail fspace fcount S) : ∀ {n p : Nat}, p + n ≤ 709 →
    wsum (sm ((p + n : Nat) : Int)) S = wsum (sm p) S + sumFrom fspace p n ∧ wsum (av p) S = wsum (av ((p + n : Nat) : Int)) S + sumFrom fspace p n
  | 0, p, _ => by simp [sumFrom]
  | n + 1, p, h => by
    obtain ⟨h1, h2⟩ := sum_sm hf (n := n) (p := p + 1) (by omega)
    obtain ⟨-, -, -, -, h3⟩ := hf p (by omega)
    have e1 : wsum (sm ((p + 1 : Nat) : Int)) S = wsum (sm p) S + wsum (lk p) S := by
      refine wsum_split (fun s _ => ?_)
      simp only [sm, lk, decide_eq_true_eq]
      refine ⟨⟨fun h => ?_, fun h => ?_⟩, fun h => ?_⟩
      · obtain ⟨h1, h2⟩ := h
        by_cases hs : s.len < 32
        · exact .inl ⟨h1, .inl hs⟩
        · by_cases hp : cf s.len = p
          · exact .inr ⟨h1, by omega, hp⟩
          · exact .inl ⟨h1, by omega⟩
      · rcases h with ⟨h1, h2⟩ | ⟨h1, h2, h3⟩
        · exact ⟨h1, by omega⟩
        · exact ⟨h1, by omega⟩
      · omega
    have e2 : wsum (av p) S = wsum (av ((p + 1 : Nat) : Int)) S + wsum (lk p) S := by
      refine wsum_split (fun s _ => ?_)
      simp only [av, lk, decide_eq_true_eq]
      refine ⟨⟨fun h => ?_, fun h => ?_⟩, fun h => ?_⟩
      · obtain ⟨h1, h2, h3⟩ := h
        by_cases hp : cf s.len = p
        · exact .inr ⟨h1, by omega, hp⟩
        · exact .inl ⟨h1, by omega, by omega⟩
      · rcases h with ⟨h1, h2, h3⟩ | ⟨h1, h2, h3⟩
        · exact ⟨h1, by omega, by omega⟩
        · exact ⟨h1, by omega, by omega⟩
      · omega
    simp only [sumFrom]
    rw [show p + (n + 1) = p + 1 + n by omega]
    constructor <;> omega

/-- What counting leaves alone. -/
structure Keep (s s' : St) : Prop where
  mem : s'.mem = s.mem
  bhead : s'.bhead = s.bhead
  btail : s'.btail = s.btail
  bcount : s'.bcount = s.bcount
  pg : s'.pg = s.pg

theorem toRight_ok {s : St} {S : List Slot} {L : List Nat} (h : Core s S L) {p q : Nat} (hp : s.pct = p) (hpq : p ≤ q) (hq : q < 709) :
    ∃ a b, toRight s q = some { s with fsmall := a, favail := b, pct := q } ∧ Core { s with fsmall := a, favail := b, pct := q } S L := by
  obtain ⟨n, rfl⟩ : ∃ n, q = p + n := ⟨q - p, by omega⟩
  obtain ⟨e1, e2⟩ := sum_sm h.fr (n := n) (p := p) (by omega)
  have hs := h.small
  have ha := h.avail
  rw [hp] at hs ha
  unfold toRight
  simp only [hp, Int.toNat_natCast, show p + n - p = n by omega]
  rw [if_pos (by omega)]
  exact ⟨_, _, rfl, ⟨h.geo, h.wd, h.fr, h.rng, by simp only; omega, by simp only; omega⟩⟩

theorem moveRight_ok {s : St} {S U : List Slot} {L : List Nat} (h : Core s S L) (hu : Use s U) {p : Nat} (hp : s.pct = p) (hp9 : p < 709)
    (hw : s.pctsp = W s.uspace p) (hstd : s.total / 100 + 1 ≤ s.pctsp) :
    ∃ s', moveRight s = some s' ∧ Core s' S L ∧ Use s' U ∧ Pc s' ∧ Keep s s' := by
  have hpos : 0 < W s.uspace p := by omega
  obtain ⟨k, k1, k2, k3⟩ := W_pos (by omega) hpos
  obtain ⟨x, hx, x9, hux⟩ : ∃ x : Nat, s.umax = x ∧ x < 709 ∧ 0 < s.uspace x ∧ p ≤ x := by
    rcases hu.rg.2 with ⟨-, -, r3⟩ | ⟨x, r1, r2, r3, r4, r5, r6⟩
    · have := r3 k k2; have := (hu.cp k2).mpr k3; omega
    · exact ⟨x, r1, r2, (hu.cp r2).mp r5, by have := r6 k k2 ((hu.cp k2).mpr k3); omega⟩
  obtain ⟨q, q1, q2, q3, q4, q5⟩ := rightLoop_ok (u := s.uspace) (std := s.total / 100 + 1) (n := x - p) (i := p) (by omega)
    (by rw [show p + (x - p) = x by omega]; exact hux.1) (by omega)
  unfold moveRight
  simp only
  rw [if_pos (by simp only [hp, numClasses]; omega)]
  have e : (s.umax - s.pct).toNat = x - p := by omega
  have e' : s.pct.toNat = p := by omega
  simp only [e, e']
  rw [hw, q1]
  by_cases hqp : q = p
  · subst hqp
    simp only [hp, ne_eq, not_true_eq_false, if_false]
    refine ⟨_, rfl, ?_, ?_, ?_, ⟨rfl, rfl, rfl, rfl, rfl⟩⟩
    · exact ⟨h.geo, h.wd, h.fr, h.rng, by have := h.small; simp only [hp] at this ⊢; exact this, by have := h.avail; simp only [hp] at this ⊢; exact this⟩
    · exact hu.congr rfl rfl rfl rfl rfl rfl
    · exact .inr ⟨q, rfl, by omega, q4, rfl, by simp only; omega⟩
  · simp only
    rw [if_pos (by omega)]
    have h2 : Core { s with pctsp := W s.uspace q } S L := ⟨h.geo, h.wd, h.fr, h.rng, h.small, h.avail⟩
    obtain ⟨a, b, e1, e2⟩ := toRight_ok h2 (p := p) (q := q) hp q2 (by omega)
    have e3 : toRight { s with pctsp := W s.uspace q } q = some { s with pctsp := W s.uspace q, fsmall := a, favail := b, pct := q } := e1
    refine ⟨_, ?_, e2, hu.congr rfl rfl rfl rfl rfl rfl, .inr ⟨q, rfl, by omega, q4, rfl, ?_⟩, ⟨rfl, rfl, rfl, rfl, rfl⟩⟩
    · rw [← e1]
    · simp only; omega

theorem moveLeft_ok {s : St} {S U : List Slot} {L : List Nat} (h : Core s S L) (hu : Use s U) {p : Nat} (hp : s.pct = p) (hp9 : p < 709)
    (hw : s.pctsp = W s.uspace p) (ht : 0 < s.total) :
    ∃ s', moveLeft s = some s' ∧ Core s' S L ∧ Use s' U ∧ Pc s' ∧ Keep s s' := by
  have hpos : 0 < W s.uspace 0 := by have := hu.tot; omega
  obtain ⟨k, -, k2, k3⟩ := W_pos (by omega) hpos
  obtain ⟨x, hx, x9, ux, ulo, hux⟩ : ∃ x : Nat, s.umax = x ∧ x < 709 ∧ 0 < s.uspace x ∧ s.umin ≤ x ∧
      ∀ k, k < 709 → 0 < s.uspace k → s.umin ≤ k ∧ k ≤ x := by
    rcases hu.rg.2 with ⟨-, -, r3⟩ | ⟨x, r1, r2, r3, r4, r5, r6⟩
    · have := r3 k k2; have := (hu.cp k2).mpr k3; omega
    · exact ⟨x, r1, r2, (hu.cp r2).mp r5, r3, fun k hk hh => r6 k hk ((hu.cp hk).mpr hh)⟩
  have zlo : ∀ i, i < 709 → i < s.umin → s.uspace i = 0 := by
    intro i hi hlt
    rcases Nat.eq_zero_or_pos (s.uspace i) with hh | hh
    · exact hh
    · have := hux i hi hh; omega
  have zhi : ∀ i, i < 709 → x < i → s.uspace i = 0 := by
    intro i hi hlt
    rcases Nat.eq_zero_or_pos (s.uspace i) with hh | hh
    · exact hh
    · have := hux i hi hh; omega
  unfold moveLeft
  simp only
  rw [if_pos (by simp only [hp, numClasses]; omega)]
  by_cases hlt : s.pctsp < s.total / 100 + 1
  · rw [if_pos hlt]
    have hW0 : W s.uspace 0 = W s.uspace s.umin := W_zeros (n := s.umin) (by omega) (by omega) (fun i _ h2 => zlo i (by omega) h2)
    have htot := hu.tot
    have hp0 : p ≠ 0 := by rintro rfl; omega
    generalize htop : (if s.umax < s.pct - 1 then s.umax else s.pct - 1) = top
    obtain ⟨t, ht1, ht2, ht3, ht4⟩ : ∃ t : Nat, top = t ∧ t + 1 ≤ p ∧ t ≤ x ∧ W s.uspace (t + 1) = W s.uspace p := by
      by_cases hc : s.umax < s.pct - 1
      · rw [if_pos hc] at htop
        refine ⟨x, by omega, by omega, Nat.le_refl _, W_zeros (n := p - (x + 1)) (by omega) (by omega) (fun i h1 h2 => zhi i (by omega) (by omega))⟩
      · rw [if_neg hc] at htop
        exact ⟨p - 1, by omega, by omega, by omega, by rw [show p - 1 + 1 = p by omega]⟩
    subst ht1
    have hmt : s.umin ≤ t := by
      rcases Nat.lt_or_ge t s.umin with hc | hc
      · exfalso
        have : W s.uspace 0 = W s.uspace (t + 1) := W_zeros (n := t + 1) (by omega) (by omega) (fun i _ h2 => zlo i (by omega) (by omega))
        omega
      · exact hc
    have en : ((t : Int) + 1 - s.umin).toNat = t + 1 - s.umin := by omega
    obtain ⟨q, q1, q2, q3, q4, q5⟩ := leftLoop_ok (u := s.uspace) (std := s.total / 100 + 1) (n := t + 1 - s.umin) (i := t) (by omega) (by omega)
      (by rw [ht4, ← hw]; exact hlt) (by rw [show t + 1 - (t + 1 - s.umin) = s.umin by omega, ← hW0]; omega)
    rw [en, Int.toNat_natCast, hw, ← ht4, q1]
    obtain ⟨n, rfl⟩ : ∃ n, p = q + n := ⟨p - q, by omega⟩
    obtain ⟨e1, e2⟩ := sum_sm h.fr (n := n) (p := q) (by omega)
    have hs := h.small
    have ha := h.avail
    rw [hp] at hs ha
    simp only [hp, Int.toNat_natCast, show q + n - q = n by omega]
    rw [if_pos (by omega)]
    refine ⟨_, rfl, ⟨h.geo, h.wd, h.fr, h.rng, by simp only; omega, by simp only; omega⟩, hu.congr rfl rfl rfl rfl rfl rfl,
      .inr ⟨q, rfl, by omega, q4, rfl, by simp only; omega⟩, ⟨rfl, rfl, rfl, rfl, rfl⟩⟩
  · rw [if_neg hlt]
    simp only [hp, Int.toNat_natCast]
    by_cases hz : s.uspace p = 0
    · rw [if_pos hz]
      obtain ⟨j, j1, j2, j3⟩ := W_pos (u := s.uspace) (j := p) (by omega) (by omega)
      have hjp : j ≠ p := fun hh => by rw [hh] at j3; omega
      have hjx := (hux j j2 j3).2
      have en : (s.umax - (p : Int)).toNat = x - p := by omega
      obtain ⟨q, q1, q2, q3, q4, q5⟩ := up_some (p := fun i => decide (0 < s.uspace i)) (n := x - p) (a := p + 1) ⟨j, by omega, by omega, by simp [j3]⟩
      simp only [decide_eq_true_eq, decide_eq_false_iff_not] at q4 q5
      rw [en, q1]
      obtain ⟨a, b, e1, e2⟩ := toRight_ok h (p := p) (q := q) hp (by omega) (by omega)
      have hWq : W s.uspace p = W s.uspace q := W_zeros (n := q - p) (by omega) (by omega) (fun i h1 h2 => by
        by_cases hi : i = p
        · rw [hi]; exact hz
        · have := q5 i (by omega) h2; omega)
      simp only
      refine ⟨_, e1, e2, hu.congr rfl rfl rfl rfl rfl rfl, .inr ⟨q, rfl, by omega, q4, ?_, ?_⟩, ⟨rfl, rfl, rfl, rfl, rfl⟩⟩
      · simp only; omega
      · simp only; omega
    · rw [if_neg hz]
      exact ⟨s, rfl, h, hu, .inr ⟨p, hp, hp9, by omega, hw, by omega⟩, ⟨rfl, rfl, rfl, rfl, rfl⟩⟩

end Verif.Slabs
