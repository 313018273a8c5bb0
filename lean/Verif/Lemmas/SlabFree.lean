import Verif.Lemmas.SlabGeo
/-!
# The free lists
-/
namespace Verif.Slabs

/-! ## Loops over classes -/

theorem up_some {p : Nat → Bool} : ∀ {n a : Nat}, (∃ j, a ≤ j ∧ j < a + n ∧ p j = true) →
    ∃ i, up p a n = some i ∧ a ≤ i ∧ i < a + n ∧ p i = true ∧ ∀ j, a ≤ j → j < i → p j = false
  | 0, a, ⟨j, h1, h2, _⟩ => by omega
  | n + 1, a, ⟨j, h1, h2, h3⟩ => by
    by_cases hp : p a = true
    · exact ⟨a, by simp [up, hp], Nat.le_refl _, by omega, hp, fun j h1 h2 => by omega⟩
    · have hj : a ≠ j := fun h => hp (h ▸ h3)
      obtain ⟨i, k1, k2, k3, k4, k5⟩ := up_some (p := p) (n := n) (a := a + 1) ⟨j, by omega, by omega, h3⟩
      refine ⟨i, by simp [up, hp, k1], by omega, by omega, k4, fun j h1 h2 => ?_⟩
      by_cases hja : j = a
      · subst hja; simpa using hp
      · exact k5 j (by omega) h2

theorem down_some {p : Nat → Bool} : ∀ {n a : Nat}, n ≤ a + 1 → (∃ j, a < j + n ∧ j ≤ a ∧ p j = true) →
    ∃ i, down p a n = some i ∧ a < i + n ∧ i ≤ a ∧ p i = true ∧ ∀ j, i < j → j ≤ a → p j = false
  | 0, a, _, ⟨j, h1, h2, _⟩ => by omega
  | n + 1, a, hn, ⟨j, h1, h2, h3⟩ => by
    by_cases hp : p a = true
    · exact ⟨a, by simp [down, hp], by omega, Nat.le_refl _, hp, fun j h1 h2 => by omega⟩
    · have hj : a ≠ j := fun h => hp (h ▸ h3)
      obtain ⟨i, k1, k2, k3, k4, k5⟩ := down_some (p := p) (n := n) (a := a - 1) (by omega) ⟨j, by omega, by omega, h3⟩
      refine ⟨i, by simp [down, hp, k1], by omega, by omega, k4, fun j h1 h2 => ?_⟩
      by_cases hja : j = a
      · subst hja; simpa using hp
      · exact k5 j h1 (by omega)

theorem down_none_or {p : Nat → Bool} : ∀ {n a : Nat}, n ≤ a + 1 →
    down p a n = none ∨ ∃ i, down p a n = some i ∧ a < i + n ∧ i ≤ a ∧ p i = true
  | 0, a, _ => .inl rfl
  | n + 1, a, hn => by
    by_cases hp : p a = true
    · exact .inr ⟨a, by simp [down, hp], by omega, Nat.le_refl _, hp⟩
    · rcases down_none_or (p := p) (n := n) (a := a - 1) (by omega) with h | ⟨i, k1, k2, k3, k4⟩
      · exact .inl (by simp [down, hp, h])
      · exact .inr ⟨i, by simp [down, hp, k1], by omega, by omega, k4⟩

/-- The number of classes in use. -/
def classes (f : Nat → Nat) : Nat := (List.range 709).countP (fun k => decide (0 < f k))

/-- The least and the greatest class in use, and how many are. -/
def Rng (f : Nat → Nat) (lo : Nat) (hi num : Int) : Prop :=
  num = (classes f : Nat) ∧
  ((lo = 709 ∧ hi = -1 ∧ ∀ k, k < 709 → f k = 0) ∨
    ∃ h : Nat, hi = h ∧ h < 709 ∧ lo ≤ h ∧ 0 < f lo ∧ 0 < f h ∧ ∀ k, k < 709 → 0 < f k → lo ≤ k ∧ k ≤ h)

theorem countP_one {p q : Nat → Bool} {t : Nat} : ∀ {l : List Nat}, l.Nodup → t ∈ l → (∀ k ∈ l, k ≠ t → p k = q k) → p t = false → q t = true →
    l.countP q = l.countP p + 1
  | [], _, h, _, _, _ => by simp at h
  | a :: l, hn, ht, he, h1, h2 => by
    obtain ⟨n1, n2⟩ := List.nodup_cons.mp hn
    by_cases hat : a = t
    · subst hat
      have : l.countP q = l.countP p := by
        refine List.countP_congr ?_
        intro x hx
        have := he x (List.mem_cons_of_mem _ hx) (fun h => n1 (h ▸ hx))
        rw [this]
      simp [h1, h2, this]
    · have ih := countP_one n2 (by rcases List.mem_cons.mp ht with h | h; exact absurd h.symm hat; exact h)
        (fun k hk => he k (List.mem_cons_of_mem _ hk)) h1 h2
      have := he a (List.mem_cons_self ..) hat
      simp only [List.countP_cons, this, ih]
      omega

theorem classes_congr {f g : Nat → Nat} (h : ∀ k, k < 709 → (0 < f k ↔ 0 < g k)) : classes f = classes g := by
  unfold classes
  refine List.countP_congr ?_
  intro k hk
  have := h k (List.mem_range.mp hk)
  simp [this]

theorem classes_add {f g : Nat → Nat} {t : Nat} (ht : t < 709) (h0 : f t = 0) (h1 : 0 < g t) (h : ∀ k, k ≠ t → g k = f k) :
    classes g = classes f + 1 := by
  unfold classes
  refine countP_one (t := t) List.nodup_range (List.mem_range.mpr ht) ?_ ?_ ?_
  · intro k _ hk; rw [h k hk]
  · simp [h0]
  · simp [h1]

theorem Rng.same {f g : Nat → Nat} {lo : Nat} {hi num : Int} (hr : Rng f lo hi num) (h : ∀ k, k < 709 → (0 < f k ↔ 0 < g k)) :
    Rng g lo hi num := by
  obtain ⟨h1, h2⟩ := hr
  refine ⟨by rw [h1, classes_congr h], ?_⟩
  rcases h2 with ⟨k1, k2, k3⟩ | ⟨t, k1, k2, k3, k4, k5, k6⟩
  · refine .inl ⟨k1, k2, fun k hk => ?_⟩
    have := k3 k hk
    have := h k hk
    omega
  · refine .inr ⟨t, k1, k2, k3, (h lo (by omega)).mp k4, (h t k2).mp k5, fun k hk hg => k6 k hk ((h k hk).mpr hg)⟩

theorem Rng.add {f g : Nat → Nat} {lo t : Nat} {hi num : Int} (hr : Rng f lo hi num) (ht : t < 709) (h0 : f t = 0) (h1 : 0 < g t)
    (h : ∀ k, k ≠ t → g k = f k) : Rng g (if t < lo then t else lo) (if hi < t then t else hi) (num + 1) := by
  obtain ⟨k1, k2⟩ := hr
  refine ⟨by rw [k1, classes_add ht h0 h1 h]; omega, .inr ?_⟩
  rcases k2 with ⟨rfl, rfl, k3⟩ | ⟨u, rfl, k3, k4, k5, k6, k7⟩
  · refine ⟨t, by omega, ht, by rw [if_pos ht]; exact Nat.le_refl _, by rw [if_pos ht]; exact h1, h1, fun k hk hg => ?_⟩
    by_cases hkt : k = t
    · rw [if_pos ht]; omega
    · have := k3 k hk; rw [h k hkt] at hg; omega
  · have hb : ∀ k, k < 709 → 0 < g k → (if t < lo then t else lo) ≤ k ∧ k ≤ (if u < t then t else u) := by
      intro k hk hg
      by_cases hkt : k = t
      · subst hkt; constructor <;> split <;> omega
      · rw [h k hkt] at hg
        have := k7 k hk hg
        constructor <;> split <;> omega
    have hlo : 0 < g (if t < lo then t else lo) := by
      split
      · exact h1
      · by_cases he : lo = t
        · rw [he]; exact h1
        · rw [h lo he]; exact k5
    have hhi : 0 < g (if u < t then t else u) := by
      split
      · exact h1
      · by_cases he : u = t
        · rw [he]; exact h1
        · rw [h u he]; exact k6
    refine ⟨if u < t then t else u, ?_, ?_, ?_, hlo, hhi, hb⟩
    · split <;> split <;> omega
    · split <;> omega
    · split <;> split <;> omega

/-- The class goes, at the lower end. -/
theorem Rng.del {f g : Nat → Nat} {lo t : Nat} {hi num : Int} (hr : Rng f lo hi num) (ht : t < 709) (h0 : g t = 0) (h1 : 0 < f t)
    (h : ∀ k, k ≠ t → g k = f k) {p : Nat → Bool} (hp : ∀ k, t ≠ k → lo ≤ k → (k : Int) ≤ hi → (p k = true ↔ 0 < g k)) :
    ∃ lo' hi', Rng g lo' hi' (num - 1) ∧
      ((t = lo ∧ (t : Int) = hi ∧ lo' = 709 ∧ hi' = -1) ∨
       (t = lo ∧ (t : Int) ≠ hi ∧ up p (t + 1) (hi - t).toNat = some lo' ∧ hi' = hi) ∨
       (t ≠ lo ∧ (t : Int) = hi ∧ ∃ i : Nat, down p (t - 1) (t - lo) = some i ∧ lo' = lo ∧ hi' = i) ∨
       (t ≠ lo ∧ (t : Int) ≠ hi ∧ lo' = lo ∧ hi' = hi)) := by
  obtain ⟨k1, k2⟩ := hr
  have hcl : classes f = classes g + 1 := classes_add ht h0 h1 (fun k hk => (h k hk).symm)
  have hn : num - 1 = (classes g : Nat) := by omega
  rcases k2 with ⟨rfl, rfl, k3⟩ | ⟨u, rfl, k3, k4, k5, k6, k7⟩
  · have := k3 t ht; omega
  have ht7 := k7 t ht h1
  have hg : ∀ k, k < 709 → 0 < g k → k ≠ t ∧ 0 < f k ∧ lo ≤ k ∧ k ≤ u := by
    intro k hk hgk
    have hkt : k ≠ t := fun hh => by rw [hh] at hgk; omega
    rw [h k hkt] at hgk
    exact ⟨hkt, hgk, k7 k hk hgk⟩
  by_cases hl : t = lo
  · by_cases hu : t = u
    · refine ⟨709, -1, ⟨hn, .inl ⟨rfl, rfl, fun k hk => ?_⟩⟩, .inl ⟨hl, by omega, rfl, rfl⟩⟩
      rcases Nat.eq_zero_or_pos (g k) with h2 | h2
      · exact h2
      · have := hg k hk h2; omega
    · have hgu : 0 < g u := by rw [h u (fun hh => hu hh.symm)]; exact k6
      obtain ⟨i, e1, e2, e3, e4, e5⟩ := up_some (p := p) (n := ((u : Int) - t).toNat) (a := t + 1)
        ⟨u, by omega, by omega, (hp u hu (by omega) (by omega)).mpr hgu⟩
      have hgi := (hp i (by omega) (by omega) (by omega)).mp e4
      refine ⟨i, u, ⟨hn, .inr ⟨u, rfl, k3, by omega, hgi, hgu, fun k hk hgk => ?_⟩⟩, .inr (.inl ⟨hl, by omega, e1, rfl⟩)⟩
      obtain ⟨q1, q2, q3, q4⟩ := hg k hk hgk
      refine ⟨?_, q4⟩
      rcases Nat.lt_or_ge k i with hlt | hge
      · have := e5 k (by omega) hlt
        have h2 := (hp k (by omega) (by omega) (by omega)).mpr hgk
        rw [this] at h2; simp at h2
      · exact hge
  · by_cases hu : t = u
    · have hgl : 0 < g lo := by rw [h lo (fun hh => hl hh.symm)]; exact k5
      obtain ⟨i, e1, e2, e3, e4, e5⟩ := down_some (p := p) (n := t - lo) (a := t - 1) (by omega)
        ⟨lo, by omega, by omega, (hp lo hl (by omega) (by omega)).mpr hgl⟩
      have hgi := (hp i (by omega) (by omega) (by omega)).mp e4
      refine ⟨lo, i, ⟨hn, .inr ⟨i, rfl, by omega, by omega, hgl, hgi, fun k hk hgk => ?_⟩⟩,
        .inr (.inr (.inl ⟨hl, by omega, i, e1, rfl, rfl⟩))⟩
      obtain ⟨q1, q2, q3, q4⟩ := hg k hk hgk
      refine ⟨q3, ?_⟩
      rcases Nat.lt_or_ge i k with hlt | hge
      · have := e5 k hlt (by omega)
        have h2 := (hp k (by omega) (by omega) (by omega)).mpr hgk
        rw [this] at h2; simp at h2
      · exact hge
    · refine ⟨lo, u, ⟨hn, .inr ⟨u, rfl, k3, k4, ?_, ?_, fun k hk hgk => ⟨(hg k hk hgk).2.2.1, (hg k hk hgk).2.2.2⟩⟩⟩,
        .inr (.inr (.inr ⟨hl, by omega, rfl, rfl⟩))⟩
      · rw [h lo (fun hh => hl hh.symm)]; exact k5
      · rw [h u (fun hh => hu hh.symm)]; exact k6

/-! ## What the memory says -/

theorem lo_enc {o l : Nat} (h : o < 65536) : lo (enc o l) = o := by
  unfold lo enc; omega

theorem hi_enc {o l : Nat} (h : l < 65536) : hi (enc o l) = l := by
  unfold hi enc; omega

/-- The head and tail of a slot. -/
def Wd (m : Nat → Nat) (s : Slot) : Prop :=
  match s.kind with
  | .used => m s.adr ≠ 0 ∧ m (s.adr + s.len - 4) = enc (s.adr % 262144 / 8) (s.len / 8)
  | .free => m s.adr = 0 ∧ m (s.adr + 4) = enc (s.adr % 262144 / 8) (s.len / 8) ∧
      m (s.adr + s.len - 4) = enc (s.adr % 262144 / 8) (if s.len = 8 then 1 else 0)
  | .loose => True

theorem Wd.frame {m m' : Nat → Nat} {s : Slot} (h : Wd m s)
    (hf : s.kind ≠ .loose → m' s.adr = m s.adr ∧ (s.kind = .free → m' (s.adr + 4) = m (s.adr + 4)) ∧ m' (s.adr + s.len - 4) = m (s.adr + s.len - 4)) :
    Wd m' s := by
  unfold Wd at h ⊢
  cases hk : s.kind <;> simp only [hk] at h hf ⊢
  · obtain ⟨h1, h2, h3⟩ := hf (by simp)
    rw [h1, h2 trivial, h3]; exact h
  · obtain ⟨h1, -, h3⟩ := hf (by simp)
    rw [h1, h3]; exact h

/-- In the free list of a class. -/
def lk (k : Nat) (s : Slot) : Bool := decide (s.kind = .free ∧ 32 ≤ s.len ∧ cf s.len = k)

theorem lk_iff {k : Nat} {s : Slot} : lk k s = true ↔ s.kind = .free ∧ 32 ≤ s.len ∧ cf s.len = k := by
  simp [lk]

/-- The free lists hold the free slots. -/
def FreeOk (m head tail fspace fcount : Nat → Nat) (S : List Slot) : Prop :=
  ∀ k, k < 709 → ∃ l : List Nat, l.Perm ((S.filter (lk k)).map Slot.adr) ∧ Dl m 8 16 (head k) (tail k) l ∧ fcount k = l.length ∧
    fspace k = wsum (lk k) S

/-- Free slots too small for what is being used. -/
def sm (pct : Int) (s : Slot) : Bool := decide (s.kind = .free ∧ (s.len < 32 ∨ (cf s.len : Int) < pct))
/-- Other free slots. -/
def av (pct : Int) (s : Slot) : Bool := decide (s.kind = .free ∧ 32 ≤ s.len ∧ pct ≤ (cf s.len : Int))

/-- The memory, the free lists and the counters of free space agree with the slots. -/
structure Core (s : St) (S : List Slot) (L : List Nat) : Prop where
  geo : Geo S L
  wd : ∀ x ∈ S, Wd s.mem x
  fr : FreeOk s.mem s.head s.tail s.fspace s.fcount S
  rng : Rng (fun k => if k = 708 then 0 else s.fcount k) s.fmin s.fmax s.fnum
  small : s.fsmall = wsum (sm s.pct) S
  avail : s.favail = wsum (av s.pct) S

theorem Core.perm {s : St} {S S' : List Slot} {L : List Nat} (h : Core s S L) (hp : S.Perm S') : Core s S' L where
  geo := h.geo.perm hp
  wd := fun x hx => h.wd x (hp.mem_iff.mpr hx)
  fr := fun k hk => by
    obtain ⟨l, h1, h2, h3, h4⟩ := h.fr k hk
    exact ⟨l, h1.trans ((hp.filter _).map _), h2, h3, h4.trans (wsum_perm hp)⟩
  rng := h.rng
  small := h.small.trans (wsum_perm hp)
  avail := h.avail.trans (wsum_perm hp)

theorem pairwise_cases : ∀ {S : List Slot}, S.Pairwise Dis → ∀ {s t : Slot}, s ∈ S → t ∈ S → s = t ∨ Dis s t
  | [], _, s, _, hs, _ => by simp at hs
  | a :: S, h, s, t, hs, ht => by
    obtain ⟨h1, h2⟩ := List.pairwise_cons.mp h
    rcases List.mem_cons.mp hs with e1 | e1 <;> rcases List.mem_cons.mp ht with e2 | e2
    · exact .inl (e1.trans e2.symm)
    · exact .inr (e1 ▸ h1 t e2)
    · exact .inr (e2 ▸ (h1 s e1).symm)
    · exact pairwise_cases h2 e1 e2

theorem Geo.cases {S : List Slot} {L : List Nat} (h : Geo S L) {s t : Slot} (hs : s ∈ S) (ht : t ∈ S) : s = t ∨ Dis s t :=
  pairwise_cases h.dis hs ht

/-- What an operation on the free lists leaves alone. -/
structure Rest (s s' : St) : Prop where
  uspace : s'.uspace = s.uspace
  ucount : s'.ucount = s.ucount
  umin : s'.umin = s.umin
  umax : s'.umax = s.umax
  unum : s'.unum = s.unum
  pct : s'.pct = s.pct
  total : s'.total = s.total
  pctsp : s'.pctsp = s.pctsp
  bhead : s'.bhead = s.bhead
  btail : s'.btail = s.btail
  bcount : s'.bcount = s.bcount
  pg : s'.pg = s.pg

theorem Rest.refl (s : St) : Rest s s := ⟨rfl, rfl, rfl, rfl, rfl, rfl, rfl, rfl, rfl, rfl, rfl, rfl⟩

theorem Rest.trans {s t u : St} (h : Rest s t) (k : Rest t u) : Rest s u :=
  ⟨k.uspace.trans h.uspace, k.ucount.trans h.ucount, k.umin.trans h.umin, k.umax.trans h.umax, k.unum.trans h.unum, k.pct.trans h.pct,
    k.total.trans h.total, k.pctsp.trans h.pctsp, k.bhead.trans h.bhead, k.btail.trans h.btail, k.bcount.trans h.bcount, k.pg.trans h.pg⟩

end Verif.Slabs
