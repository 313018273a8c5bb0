import Verif.Lemmas.SlabClass
/-!
# Doubly linked lists in memory, and sums over slots
-/
namespace Verif.Slabs

theorem set_eq (m : Nat → Nat) (a v : Nat) : set m a v a = v := by simp [set]
theorem set_ne (m : Nat → Nat) {a x : Nat} (v : Nat) (h : x ≠ a) : set m a v x = m x := by simp [set, h]

/-! ## Doubly linked lists -/

/-- A piece of a list: `prev` is `po` bytes into a node, `next` is `no` bytes into it; `p` is before it, `n` behind it. -/
def Seg (m : Nat → Nat) (po no : Nat) : Nat → List Nat → Nat → Prop
  | _, [], _ => True
  | p, a :: r, n => a ≠ 0 ∧ m (a + po) = p ∧ m (a + no) = r.headD n ∧ Seg m po no a r n

/-- A list with its head and tail. -/
def Dl (m : Nat → Nat) (po no h t : Nat) (l : List Nat) : Prop :=
  Seg m po no 0 l 0 ∧ h = l.headD 0 ∧ t = l.getLastD 0

theorem headD_append (l k : List Nat) (n : Nat) : (l ++ k).headD n = l.headD (k.headD n) := by
  cases l <;> simp

theorem getLastD_append (l k : List Nat) (n : Nat) : (l ++ k).getLastD n = k.getLastD (l.getLastD n) := by
  simp only [List.getLastD_eq_getLast?, List.getLast?_append]
  cases k.getLast? <;> simp

theorem seg_append {m : Nat → Nat} {po no : Nat} : ∀ {p n : Nat} {l k : List Nat},
    Seg m po no p (l ++ k) n ↔ Seg m po no p l (k.headD n) ∧ Seg m po no (l.getLastD p) k n
  | p, n, [], k => by simp [Seg]
  | p, n, a :: l, k => by
    simp only [List.cons_append, Seg, headD_append, seg_append (l := l), List.getLastD_cons]
    constructor
    · rintro ⟨h1, h2, h3, h4, h5⟩; exact ⟨⟨h1, h2, h3, h4⟩, h5⟩
    · rintro ⟨⟨h1, h2, h3, h4⟩, h5⟩; exact ⟨h1, h2, h3, h4, h5⟩

theorem seg_frame {m m' : Nat → Nat} {po no : Nat} : ∀ {p n : Nat} {l : List Nat},
    (∀ a ∈ l, m' (a + po) = m (a + po) ∧ m' (a + no) = m (a + no)) → Seg m po no p l n → Seg m' po no p l n
  | _, _, [], _, _ => trivial
  | p, n, a :: l, h, hs => by
    obtain ⟨h1, h2, h3, h4⟩ := hs
    refine ⟨h1, ?_, ?_, seg_frame (fun x hx => h x (List.mem_cons_of_mem _ hx)) h4⟩
    · rw [(h a (List.mem_cons_self ..)).1, h2]
    · rw [(h a (List.mem_cons_self ..)).2, h3]

theorem seg_ne_zero {m : Nat → Nat} {po no : Nat} : ∀ {p n : Nat} {l : List Nat}, Seg m po no p l n → ∀ a ∈ l, a ≠ 0
  | _, _, [], _, _, h => by simp at h
  | p, n, a :: l, hs, x, hx => by
    rcases List.mem_cons.mp hx with rfl | hx
    · exact hs.1
    · exact seg_ne_zero hs.2.2.2 x hx

theorem getLastD_cons_of {d : Nat} : ∀ {l : List Nat} {e : Nat}, l ≠ [] → l.getLastD d = l.getLastD e
  | [], _, h => absurd rfl h
  | a :: l, e, _ => by rw [List.getLastD_cons, List.getLastD_cons]

theorem getLastD_mem : ∀ {l : List Nat} {d : Nat}, l ≠ [] → l.getLastD d ∈ l
  | [], _, h => absurd rfl h
  | [a], d, _ => by simp
  | a :: b :: l, d, _ => by
    rw [List.getLastD_cons]
    exact List.mem_cons_of_mem _ (getLastD_mem (by simp))

/-- What is behind a piece changes. -/
theorem seg_end {m m' : Nat → Nat} {po no : Nat} : ∀ {p n n' : Nat} {l : List Nat}, l.Nodup →
    (∀ a ∈ l, m' (a + po) = m (a + po)) → (∀ a ∈ l, a ≠ l.getLastD 0 → m' (a + no) = m (a + no)) →
    (l ≠ [] → m' (l.getLastD 0 + no) = n') → Seg m po no p l n → Seg m' po no p l n'
  | _, _, _, [], _, _, _, _, _ => trivial
  | p, n, n', [a], _, h1, _, h3, hs => by
    obtain ⟨k1, k2, -, -⟩ := hs
    refine ⟨k1, ?_, ?_, trivial⟩
    · rw [h1 a (List.mem_cons_self ..), k2]
    · simpa using h3 (by simp)
  | p, n, n', a :: b :: l, hn, h1, h2, h3, hs => by
    obtain ⟨k1, k2, k3, k4⟩ := hs
    have hn' := (List.nodup_cons.mp hn)
    have hlast : (a :: b :: l).getLastD 0 = (b :: l).getLastD 0 := by simp
    have hmem : (b :: l).getLastD 0 ∈ b :: l := getLastD_mem (by simp)
    refine ⟨k1, ?_, ?_, ?_⟩
    · rw [h1 a (List.mem_cons_self ..), k2]
    · rw [h2 a (List.mem_cons_self ..) (fun h => hn'.1 (by rw [h, hlast]; exact hmem)), k3]
      simp
    · refine seg_end hn'.2 (fun x hx => h1 x (List.mem_cons_of_mem _ hx)) ?_ ?_ k4
      · intro x hx hx'
        exact h2 x (List.mem_cons_of_mem _ hx) (by rw [hlast]; exact hx')
      · intro _
        have := h3 (by simp)
        rwa [hlast] at this

/-- What is before a piece changes. -/
theorem seg_start {m m' : Nat → Nat} {po no : Nat} {p p' n : Nat} : ∀ {l : List Nat}, l.Nodup →
    (∀ a ∈ l, m' (a + no) = m (a + no)) → (∀ a ∈ l, a ≠ l.headD 0 → m' (a + po) = m (a + po)) →
    (l ≠ [] → m' (l.headD 0 + po) = p') → Seg m po no p l n → Seg m' po no p' l n
  | [], _, _, _, _, _ => trivial
  | a :: l, hn, h1, h2, h3, hs => by
    obtain ⟨k1, k2, k3, k4⟩ := hs
    have hn' := List.nodup_cons.mp hn
    refine ⟨k1, h3 (by simp), ?_, ?_⟩
    · rw [h1 a (List.mem_cons_self ..), k3]
    · refine seg_frame (fun x hx => ⟨?_, h1 x (List.mem_cons_of_mem _ hx)⟩) k4
      refine h2 x (List.mem_cons_of_mem _ hx) ?_
      rintro rfl
      exact hn'.1 hx

theorem headD_mem {l : List Nat} (h : l ≠ []) : l.headD 0 ∈ l := by
  cases l with
  | nil => exact absurd rfl h
  | cons a l => simp

theorem Dl.nil_iff {m : Nat → Nat} {po no h t : Nat} {l : List Nat} (hd : Dl m po no h t l) : h = 0 ↔ l = [] := by
  constructor
  · intro h0
    by_cases hl : l = []
    · exact hl
    · exact absurd (hd.2.1.symm.trans h0) (seg_ne_zero hd.1 _ (headD_mem hl))
  · rintro rfl; exact hd.2.1

theorem Dl.nil_iff' {m : Nat → Nat} {po no h t : Nat} {l : List Nat} (hd : Dl m po no h t l) : t = 0 ↔ l = [] := by
  constructor
  · intro h0
    by_cases hl : l = []
    · exact hl
    · exact absurd (hd.2.2.symm.trans h0) (seg_ne_zero hd.1 _ (getLastD_mem hl))
  · rintro rfl; exact hd.2.2

theorem Dl.frame {m m' : Nat → Nat} {po no h t : Nat} {l : List Nat} (hd : Dl m po no h t l)
    (hf : ∀ a ∈ l, m' (a + po) = m (a + po) ∧ m' (a + no) = m (a + no)) : Dl m' po no h t l :=
  ⟨seg_frame hf hd.1, hd.2⟩

/-- A node put at the tail. -/
theorem Dl.append {m m' : Nat → Nat} {po no h t x : Nat} {l : List Nat} (hd : Dl m po no h t l) (hn : l.Nodup) (hx : x ≠ 0)
    (h1 : ∀ a ∈ l, m' (a + po) = m (a + po)) (h2 : ∀ a ∈ l, a ≠ t → m' (a + no) = m (a + no))
    (h3 : t ≠ 0 → m' (t + no) = x) (h4 : m' (x + po) = t) (h5 : m' (x + no) = 0) :
    Dl m' po no (if t = 0 then x else h) x (l ++ [x]) := by
  obtain ⟨k1, k2, k3⟩ := hd
  refine ⟨seg_append.mpr ⟨?_, ?_⟩, ?_, ?_⟩
  · refine seg_end hn h1 ?_ ?_ k1
    · rw [← k3]; exact h2
    · intro hl
      rw [← k3]
      exact h3 (k3 ▸ seg_ne_zero k1 _ (getLastD_mem hl))
  · exact ⟨hx, by rw [h4, k3], by simpa using h5, trivial⟩
  · by_cases hl : l = []
    · subst hl; simp at k3; simp [k3]
    · have : t ≠ 0 := k3 ▸ seg_ne_zero k1 _ (getLastD_mem hl)
      rw [if_neg this, k2]
      cases l with
      | nil => exact absurd rfl hl
      | cons => rfl
  · simp [getLastD_append]

/-- A node taken out. -/
theorem Dl.remove {m m' : Nat → Nat} {po no h t x : Nat} {l k : List Nat} (hd : Dl m po no h t (l ++ x :: k)) (hn : (l ++ x :: k).Nodup)
    (h1 : ∀ a ∈ l ++ k, a ≠ m (x + po) → m' (a + no) = m (a + no))
    (h2 : ∀ a ∈ l ++ k, a ≠ m (x + no) → m' (a + po) = m (a + po))
    (h3 : m (x + po) ≠ 0 → m' (m (x + po) + no) = m (x + no))
    (h4 : m (x + no) ≠ 0 → m' (m (x + no) + po) = m (x + po)) :
    Dl m' po no (if h = x then m (x + no) else h) (if t = x then m (x + po) else t) (l ++ k) := by
  obtain ⟨k1, k2, k3⟩ := hd
  obtain ⟨s1, hx0, hp, hnx, s2⟩ := seg_append.mp k1
  obtain ⟨n1, n2, n3⟩ := List.nodup_append.mp hn
  obtain ⟨n2a, n2b⟩ := List.nodup_cons.mp n2
  have hdis : ∀ a ∈ l, ∀ b ∈ k, a ≠ b := fun a ha b hb => n3 a ha b (List.mem_cons_of_mem _ hb)
  have hxl : x ∉ l := fun hh => n3 x hh x (List.mem_cons_self ..) rfl
  have ne0 := seg_ne_zero k1
  rw [hp] at h1 h3 h4
  rw [hnx] at h2 h3 h4
  refine ⟨seg_append.mpr ⟨?_, ?_⟩, ?_, ?_⟩
  · refine seg_end n1 ?_ ?_ ?_ s1
    · intro a ha
      refine h2 a (List.mem_append_left _ ha) ?_
      rintro rfl
      by_cases hk : k = []
      · subst hk; exact ne0 0 (List.mem_append_left _ ha) rfl
      · exact hdis _ ha _ (headD_mem hk) rfl
    · intro a ha hne
      exact h1 a (List.mem_append_left _ ha) hne
    · intro hl
      exact h3 (ne0 _ (List.mem_append_left _ (getLastD_mem hl)))
  · refine seg_start n2b ?_ ?_ ?_ s2
    · intro a ha
      refine h1 a (List.mem_append_right _ ha) ?_
      rintro rfl
      by_cases hk : l = []
      · subst hk; exact ne0 0 (by simp [List.getLastD] at ha; simp [ha]) rfl
      · exact hdis _ (getLastD_mem hk) _ ha rfl
    · intro a ha hne
      exact h2 a (List.mem_append_right _ ha) hne
    · intro hk
      exact h4 (ne0 _ (List.mem_append_right _ (List.mem_cons_of_mem _ (headD_mem hk))))
  · rw [k2, hnx]
    cases l with
    | nil => simp
    | cons a l =>
      have : a ≠ x := fun hh => hxl (by simp [hh])
      simp [this]
  · rw [k3, hp, getLastD_append, getLastD_append]
    cases k with
    | nil => simp
    | cons b k =>
      have hb : (b :: k).getLastD 0 ∈ b :: k := getLastD_mem (by simp)
      have : (x :: b :: k).getLastD (l.getLastD 0) = (b :: k).getLastD 0 := by
        rw [List.getLastD_cons]; exact getLastD_cons_of (by simp)
      rw [this]
      have h2 : (b :: k).getLastD (l.getLastD 0) = (b :: k).getLastD 0 := getLastD_cons_of (by simp)
      rw [h2, if_neg]
      intro hh
      exact n2a (by rw [← hh]; exact hb)

/-! ## Slots -/

inductive Kind where
  | free | used | loose
deriving DecidableEq

/-- A piece of a block: in a free list, given to a user, or between the two. -/
structure Slot where
  adr : Nat
  len : Nat
  kind : Kind
deriving DecidableEq

/-- The sum of the lengths of some slots. -/
def wsum (p : Slot → Bool) : List Slot → Nat
  | [] => 0
  | s :: S => (if p s then s.len else 0) + wsum p S

theorem wsum_perm {p : Slot → Bool} {S S' : List Slot} (h : S.Perm S') : wsum p S = wsum p S' := by
  induction h with
  | nil => rfl
  | cons x _ ih => simp only [wsum, ih]
  | swap x y l => simp only [wsum]; omega
  | trans _ _ ih1 ih2 => rw [ih1, ih2]

theorem wsum_congr {p q : Slot → Bool} : ∀ {S : List Slot}, (∀ s ∈ S, p s = q s) → wsum p S = wsum q S
  | [], _ => rfl
  | s :: S, h => by
    simp only [wsum, h s (List.mem_cons_self ..), wsum_congr (fun x hx => h x (List.mem_cons_of_mem _ hx))]

theorem wsum_split {p q r : Slot → Bool} : ∀ {S : List Slot},
    (∀ s ∈ S, (p s = true ↔ q s = true ∨ r s = true) ∧ ¬ (q s = true ∧ r s = true)) → wsum p S = wsum q S + wsum r S
  | [], _ => rfl
  | s :: S, h => by
    have hs := h s (List.mem_cons_self ..)
    have ih := wsum_split (p := p) (q := q) (r := r) (fun x hx => h x (List.mem_cons_of_mem _ hx))
    simp only [wsum, ih]
    cases hp : p s <;> cases hq : q s <;> cases hr : r s <;> simp [hp, hq, hr] at hs ⊢ <;> omega

theorem wsum_zero {p : Slot → Bool} : ∀ {S : List Slot}, (∀ s ∈ S, p s = false) → wsum p S = 0
  | [], _ => rfl
  | s :: S, h => by
    simp [wsum, h s (List.mem_cons_self ..), wsum_zero (fun x hx => h x (List.mem_cons_of_mem _ hx))]

theorem wsum_le {p q : Slot → Bool} : ∀ {S : List Slot}, (∀ s ∈ S, p s = true → q s = true) → wsum p S ≤ wsum q S
  | [], _ => Nat.le_refl _
  | s :: S, h => by
    have hs := h s (List.mem_cons_self ..)
    have ih := wsum_le (p := p) (q := q) (fun x hx => h x (List.mem_cons_of_mem _ hx))
    simp only [wsum]
    cases hp : p s <;> cases hq : q s <;> simp [hp, hq] at hs ⊢ <;> omega

theorem wsum_pos {p : Slot → Bool} {S : List Slot} (hpos : ∀ s ∈ S, 0 < s.len) : 0 < wsum p S ↔ ∃ s ∈ S, p s = true := by
  induction S with
  | nil => simp [wsum]
  | cons s S ih =>
    have := ih (fun x hx => hpos x (List.mem_cons_of_mem _ hx))
    have h0 := hpos s (List.mem_cons_self ..)
    simp only [wsum, List.mem_cons, exists_eq_or_imp]
    by_cases hp : p s = true
    · simp [hp]; omega
    · rw [if_neg hp, Nat.zero_add, this]
      simp [hp]

theorem wsum_mem {p : Slot → Bool} {S : List Slot} {s : Slot} (hs : s ∈ S) (hp : p s = true) : s.len ≤ wsum p S := by
  induction S with
  | nil => simp at hs
  | cons x S ih =>
    simp only [wsum]
    rcases List.mem_cons.mp hs with rfl | h
    · simp [hp]
    · have := ih h; omega

end Verif.Slabs
