import Verif.Spec.LogBuf
/-! # The ring and the queue of flush requests -/
namespace Verif.LogBuf.Lemmas
open Verif.LogBuf Verif.LogBuf.Spec

/-! ## Memory -/

theorem slice_length (f : Nat → Nat) (a n : Nat) : (slice f a n).length = n := by
  simp [slice]

theorem slice_zero (f : Nat → Nat) (a : Nat) : slice f a 0 = [] := rfl

theorem slice_add (f : Nat → Nat) (a n m : Nat) :
    slice f a (n + m) = slice f a n ++ slice f (a + n) m := by
  simp only [slice, List.range_add, List.map_append, List.map_map]
  congr 1
  apply List.map_congr_left
  intro i _
  simp [Function.comp, Nat.add_assoc]

theorem slice_congr {f h : Nat → Nat} {a n : Nat} (e : ∀ i, a ≤ i → i < a + n → f i = h i) :
    slice f a n = slice h a n := by
  simp only [slice]
  apply List.map_congr_left
  intro i hi
  exact e _ (by omega) (by have := List.mem_range.mp hi; omega)

theorem slice_blit_self (f : Nat → Nat) (a : Nat) (d : Bytes) : slice (blit f a d) a d.length = d := by
  apply List.ext_getElem
  · simp [slice]
  · intro i h1 h2
    have : i < d.length := h2
    simp [slice, blit, this]

theorem slice_blit_before (f : Nat → Nat) (a : Nat) (d : Bytes) {x n : Nat} (h : x + n ≤ a) :
    slice (blit f a d) x n = slice f x n := by
  apply slice_congr
  intro i h1 h2
  rw [blit, dif_neg]
  omega

theorem slice_blit_after (f : Nat → Nat) (a : Nat) (d : Bytes) {x n : Nat} (h : a + d.length ≤ x) :
    slice (blit f a d) x n = slice f x n := by
  apply slice_congr
  intro i h1 h2
  rw [blit, dif_neg]
  omega

/-! ## The queue -/

/-- Index of the `k`-th entry. -/
def rot (b : Buf) (k : Nat) : Nat := (b.fbgn + k) % b.fqsz

theorem inc_mod {q x : Nat} (hq : 0 < q) : inc q (x % q) = (x + 1) % q := by
  unfold inc
  have h1 := Nat.mod_lt x hq
  have h2 := Nat.div_add_mod x q
  by_cases h : x % q + 1 = q
  · rw [if_pos h]
    have : x + 1 = q * (x / q + 1) := by
      rw [Nat.mul_add, Nat.mul_one]; omega
    rw [this, Nat.mul_mod_right]
  · rw [if_neg h, Nat.add_mod]
    by_cases hq1 : q = 1
    · subst hq1; omega
    · rw [Nat.mod_eq_of_lt (a := 1) (by omega), Nat.mod_eq_of_lt (a := x % q + 1) (by omega)]

theorem inc_rot {b : Buf} (hq : 0 < b.fqsz) (k : Nat) : inc b.fqsz (rot b k) = rot b (k + 1) :=
  inc_mod hq

theorem mod_inj {q a i j : Nat} (hi : i < q) (hj : j < q) (h : (a + i) % q = (a + j) % q) : i = j := by
  have h1 := Nat.div_add_mod (a + i) q
  have h2 := Nat.div_add_mod (a + j) q
  rw [h] at h1
  have hlt : (a + j) % q < q := Nat.mod_lt _ (by omega)
  rcases Nat.lt_trichotomy ((a + i) / q) ((a + j) / q) with h3 | h3 | h3
  · have : q * ((a + i) / q + 1) ≤ q * ((a + j) / q) := Nat.mul_le_mul_left _ h3
    rw [Nat.mul_add, Nat.mul_one] at this
    omega
  · rw [h3] at h1; omega
  · have : q * ((a + j) / q + 1) ≤ q * ((a + i) / q) := Nat.mul_le_mul_left _ h3
    rw [Nat.mul_add, Nat.mul_one] at this
    omega

theorem rot_inj {b : Buf} {i j : Nat} (hi : i < b.fqsz) (hj : j < b.fqsz) (h : rot b i = rot b j) :
    i = j := mod_inj hi hj h

theorem rot_zero {b : Buf} (h : b.fbgn < b.fqsz) : rot b 0 = b.fbgn := by
  simp [rot, Nat.mod_eq_of_lt h]

/-- The queue holds the closed requests `l` and the open one `p`. -/
structure QInv (b : Buf) (l : List Req) (p : Req) : Prop where
  bgn : b.fbgn < b.fqsz
  len : l.length < b.fqsz
  fend : b.fend = rot b l.length
  ent : ∀ i (h : i < l.length), b.fque (rot b i) = l[i]
  opn : b.fque b.fend = p
  out : ∀ i, l.length < i → i < b.fqsz → (b.fque (rot b i)).n = 0
  pos : ∀ r ∈ l, 0 < r.n ∧ r.n ≤ auto
  plt : p.n < auto

/-- Sum of the sizes. -/
def total (l : List Req) : Nat := (l.map (·.n)).sum

@[simp] theorem total_nil : total [] = 0 := rfl
@[simp] theorem total_cons (r : Req) (l : List Req) : total (r :: l) = r.n + total l := by simp [total]
@[simp] theorem total_append (l m : List Req) : total (l ++ m) = total l + total m := by
  simp [total]

/-- Is a byte in the ring for the next file too? -/
def flags (l : List Req) (p : Req) : List Bool :=
  l.flatMap (fun r => List.replicate r.n r.dual) ++ List.replicate p.n p.dual

theorem flags_length (l : List Req) (p : Req) : (flags l p).length = total l + p.n := by
  induction l with
  | nil => simp [flags]
  | cons r l ih => simp [flags] at ih ⊢; omega

theorem flags_cons (r : Req) (l : List Req) (p : Req) :
    flags (r :: l) p = List.replicate r.n r.dual ++ flags l p := by simp [flags]

theorem flags_append (l m : List Req) (p : Req) :
    flags (l ++ m) p = l.flatMap (fun r => List.replicate r.n r.dual) ++ flags m p := by simp [flags]

theorem flags_zero {p p' : Req} (l : List Req) (h : p.n = 0) (h' : p'.n = 0) : flags l p = flags l p' := by
  simp [flags, h, h']

theorem flags_close (l : List Req) {p p' : Req} (h : p'.n = 0) : flags (l ++ [p]) p' = flags l p := by
  simp [flags, h]

theorem used_eq {b : Buf} {l : List Req} {p : Req} (h : QInv b l p) : used b = l.length := by
  have hb := h.bgn
  have hl := h.len
  unfold used
  rw [h.fend, rot]
  by_cases hc : b.fbgn + l.length < b.fqsz
  · rw [Nat.mod_eq_of_lt hc]
    have : b.fbgn + l.length + b.fqsz - b.fbgn = l.length + b.fqsz := by omega
    rw [this, Nat.add_mod_right, Nat.mod_eq_of_lt hl]
  · have : (b.fbgn + l.length) % b.fqsz = b.fbgn + l.length - b.fqsz := by
      rw [Nat.mod_eq_sub_mod (by omega), Nat.mod_eq_of_lt (by omega)]
    rw [this]
    have : b.fbgn + l.length - b.fqsz + b.fqsz - b.fbgn = l.length := by omega
    rw [this, Nat.mod_eq_of_lt hl]

theorem QInv.empty_iff {b : Buf} {l : List Req} {p : Req} (h : QInv b l p) :
    b.fbgn = b.fend ↔ l = [] := by
  constructor
  · intro he
    have : rot b 0 = rot b l.length := by rw [rot_zero h.bgn, ← h.fend, he]
    have := rot_inj (by have := h.bgn; omega) h.len this
    exact List.length_eq_zero_iff.mp this.symm
  · rintro rfl
    rw [h.fend]
    exact (rot_zero h.bgn).symm

/-- The queue does not depend on the other fields. -/
theorem QInv.congr {b b' : Buf} {l : List Req} {p : Req} (h : QInv b l p) (h1 : b'.fque = b.fque)
    (h2 : b'.fqsz = b.fqsz) (h3 : b'.fbgn = b.fbgn) (h4 : b'.fend = b.fend) : QInv b' l p := by
  have hr : ∀ k, rot b' k = rot b k := by intro k; simp [rot, h2, h3]
  refine ⟨?_, ?_, ?_, ?_, ?_, ?_, h.pos, h.plt⟩
  · rw [h2, h3]; exact h.bgn
  · rw [h2]; exact h.len
  · rw [h4, hr]; exact h.fend
  · intro i hi; rw [h1, hr]; exact h.ent i hi
  · rw [h1, h4]; exact h.opn
  · intro i hi hi2; rw [h1, hr]; exact h.out i hi (by rw [← h2]; exact hi2)

/-- Closing the open request. -/
theorem QInv.close {b : Buf} {l : List Req} {p : Req} (h : QInv b l p) (hp : 0 < p.n)
    (hl : l.length + 1 < b.fqsz) :
    ∃ p', p'.n = 0 ∧ QInv { b with fend := inc b.fqsz b.fend } (l ++ [p]) p' := by
  have hf : inc b.fqsz b.fend = rot b (l.length + 1) := by rw [h.fend, inc_rot (by omega)]
  refine ⟨b.fque (rot b (l.length + 1)), h.out _ (by omega) hl, ?_⟩
  refine ⟨h.bgn, by simpa using hl, ?_, ?_, ?_, ?_, ?_, ?_⟩
  · simpa [rot] using hf
  · intro i hi
    show b.fque (rot b i) = _
    by_cases hi2 : i < l.length
    · rw [h.ent i hi2, List.getElem_append_left hi2]
    · have : i = l.length := by simp at hi; omega
      subst this
      rw [← h.fend, h.opn]
      simp
  · show b.fque (inc b.fqsz b.fend) = _
    rw [hf]
  · intro i hi hi2
    exact h.out i (by simp at hi; omega) hi2
  · intro r hr
    rcases List.mem_append.mp hr with hr | hr
    · exact h.pos r hr
    · have : r = p := by simpa using hr
      subst this
      exact ⟨hp, Nat.le_of_lt h.plt⟩
  · rw [h.out _ (by omega) hl]; decide

/-- Filling the open request. -/
theorem QInv.fill {b : Buf} {l : List Req} {p : Req} (h : QInv b l p) {x : Nat} {d : Bool}
    (hx : x < auto) :
    QInv { b with fque := fun i => if i = b.fend then ⟨x, d⟩ else b.fque i } l ⟨x, d⟩ := by
  have hne : ∀ i, i < b.fqsz → i ≠ l.length → rot b i ≠ b.fend := by
    intro i hi hn he
    rw [h.fend] at he
    exact hn (rot_inj hi h.len he)
  refine ⟨h.bgn, h.len, h.fend, ?_, ?_, ?_, h.pos, hx⟩
  · intro i hi
    show (if rot b i = b.fend then _ else _) = _
    rw [if_neg (hne i (by have := h.len; omega) (by omega))]
    exact h.ent i hi
  · show (if b.fend = b.fend then _ else _) = _
    rw [if_pos rfl]
  · intro i hi hi2
    show (if rot b i = b.fend then _ else _ : Req).n = 0
    rw [if_neg (hne i hi2 (by omega))]
    exact h.out i hi hi2

/-- Filling the open request completely, which closes it. -/
theorem QInv.fillClose {b : Buf} {l : List Req} {p : Req} (h : QInv b l p) {d : Bool}
    (hl : l.length + 1 < b.fqsz) :
    ∃ p', p'.n = 0 ∧
      QInv { b with fque := fun i => if i = b.fend then ⟨auto, d⟩ else b.fque i,
                    fend := inc b.fqsz b.fend } (l ++ [⟨auto, d⟩]) p' := by
  have hne : ∀ i, i < b.fqsz → i ≠ l.length → rot b i ≠ b.fend := by
    intro i hi hn he
    rw [h.fend] at he
    exact hn (rot_inj hi h.len he)
  have hf : inc b.fqsz b.fend = rot b (l.length + 1) := by rw [h.fend, inc_rot (by omega)]
  have h0 : (b.fque (rot b (l.length + 1))).n = 0 := h.out _ (by omega) hl
  refine ⟨b.fque (rot b (l.length + 1)), h0, ?_⟩
  refine ⟨h.bgn, by simpa using hl, ?_, ?_, ?_, ?_, ?_, ?_⟩
  · simpa [rot] using hf
  · intro i hi
    show (if rot b i = b.fend then (⟨auto, d⟩ : Req) else b.fque (rot b i)) = _
    by_cases hi2 : i < l.length
    · rw [if_neg (hne i (by omega) (by omega)), h.ent i hi2, List.getElem_append_left hi2]
    · have : i = l.length := by simp at hi; omega
      subst this
      rw [if_pos h.fend.symm]
      simp
  · show (if inc b.fqsz b.fend = b.fend then _ else _) = _
    rw [hf, if_neg (hne _ hl (by omega))]
  · intro i hi hi2
    show (if rot b i = b.fend then _ else _ : Req).n = 0
    have hi : l.length + 1 < i := by simpa using hi
    rw [if_neg (hne i hi2 (by omega))]
    exact h.out i (by omega) hi2
  · intro r hr
    rcases List.mem_append.mp hr with hr | hr
    · exact h.pos r hr
    · have : r = ⟨auto, d⟩ := by simpa using hr
      subst this
      exact ⟨(by decide : 0 < auto), Nat.le_refl _⟩
  · rw [h0]; decide

/-- The requests for a record. -/
theorem enqueue_spec : ∀ (fuel len : Nat) (d : Bool) (b : Buf) (l : List Req) (p : Req), QInv b l p →
    len ≤ fuel → l.length + (p.n + len) / auto < b.fqsz → (p.n = 0 ∨ p.dual = d) →
    ∃ fq fe t p', enqueue fuel b len d = some { b with fque := fq, fend := fe } ∧
      QInv { b with fque := fq, fend := fe } (l ++ t) p' ∧
      flags (l ++ t) p' = flags l p ++ List.replicate len d ∧
      (∀ r ∈ t, r = ⟨auto, d⟩) := by
  intro fuel
  induction fuel with
  | zero =>
    intro len d b l p h hf _ _
    have : len = 0 := by omega
    subst this
    refine ⟨b.fque, b.fend, [], p, ?_, ?_, ?_, fun _ hr => by simp at hr⟩
    · simp [enqueue]
    · simpa using h
    · simp
  | succ fuel ih =>
    intro len d b l p h hf hl hp
    rcases len with _ | len
    · refine ⟨b.fque, b.fend, [], p, ?_, ?_, ?_, fun _ hr => by simp at hr⟩
      · simp [enqueue]
      · simpa using h
      · simp
    · have hplt := h.plt
      have hap : 0 < auto := by decide
      rw [enqueue]
      simp only [h.opn]
      rw [if_neg (by omega)]
      by_cases hc : p.n + (len + 1) < auto
      · have hm : min (auto - p.n) (len + 1) = len + 1 := by omega
        rw [hm, if_neg (by omega)]
        have hq := h.fill (x := p.n + (len + 1)) (d := d) hc
        have he : ∀ b, enqueue fuel b (len + 1 - (len + 1)) d = some b := by
          intro b
          rw [Nat.sub_self]
          cases fuel <;> rfl
        rw [he]
        refine ⟨_, _, [], ⟨p.n + (len + 1), d⟩, rfl, by simpa using hq, ?_, fun _ hr => by simp at hr⟩
        simp only [flags, List.append_nil, List.append_assoc]
        congr 1
        rcases hp with hp | hp
        · simp [hp]
        · rw [hp, List.replicate_append_replicate]
      · have hm : min (auto - p.n) (len + 1) = auto - p.n := by omega
        have hs : p.n + (auto - p.n) = auto := by omega
        rw [hm, if_pos hs]
        have hdiv : (p.n + (len + 1)) / auto = (len + 1 - (auto - p.n)) / auto + 1 := by
          have : p.n + (len + 1) = (len + 1 - (auto - p.n)) + auto := by omega
          rw [this, Nat.add_div_right _ hap]
        have hl1 : l.length + 1 + (len + 1 - (auto - p.n)) / auto < b.fqsz := by rw [hdiv] at hl; omega
        obtain ⟨p1, hp1, hq⟩ := h.fillClose (d := d) (by
          have := Nat.zero_le ((len + 1 - (auto - p.n)) / auto)
          exact Nat.lt_of_le_of_lt (Nat.le_add_right _ _) hl1)
        have hb : ({ b with fque := fun i => if i = b.fend then ⟨p.n + (auto - p.n), d⟩ else b.fque i,
                            fend := inc b.fqsz b.fend } : Buf) =
            { b with fque := fun i => if i = b.fend then ⟨auto, d⟩ else b.fque i,
                     fend := inc b.fqsz b.fend } := by rw [hs]
        obtain ⟨fq, fe, t, p', h1, h2, h3, h4⟩ := ih (len + 1 - (auto - p.n)) d _ _ _ hq (by omega)
          (by simp only [List.length_append, List.length_singleton, hp1, Nat.zero_add]; exact hl1) (Or.inl hp1)
        refine ⟨fq, fe, ⟨auto, d⟩ :: t, p', ?_, by simpa using h2, ?_, ?_⟩
        · rw [hb]; exact h1
        · have h3' : flags (l ++ ⟨auto, d⟩ :: t) p' =
              flags (l ++ [⟨auto, d⟩]) p1 ++ List.replicate (len + 1 - (auto - p.n)) d := by
            rw [← h3]; simp
          rw [h3', flags_close _ hp1]
          simp only [flags, List.append_assoc]
          congr 1
          have hd : List.replicate p.n p.dual = List.replicate p.n d := by
            rcases hp with hp | hp
            · simp [hp]
            · rw [hp]
          rw [hd, List.replicate_append_replicate, List.replicate_append_replicate]
          congr 1
          omega
        · intro r hr
          rcases List.mem_cons.mp hr with hr | hr
          · exact hr
          · exact h4 r hr

/-! ## The ring -/

/-- The requests cover the bytes in the ring, and none goes across its end. -/
def RInv (b : Buf) (l : List Req) (p : Req) : Prop :=
  match b.last with
  | none => b.head ≤ b.tail ∧ b.tail ≤ b.size ∧ total l + p.n = b.tail - b.head
  | some e => b.tail < b.head ∧ b.head ≤ e ∧ e ≤ b.size ∧
      ∃ l1 l2, l = l1 ++ l2 ∧ total l1 = e - b.head ∧ total l2 + p.n = b.tail

theorem RInv.length {b : Buf} {l : List Req} {p : Req} (h : RInv b l p) :
    (content b).length = total l + p.n := by
  unfold RInv at h
  unfold content
  split at h
  · rename_i hl
    rw [hl]
    simp [slice_length, h.2.2]
  · rename_i e hl
    rw [hl]
    obtain ⟨_, _, _, l1, l2, rfl, h1, h2⟩ := h
    simp [slice_length]
    omega

/-- The other fields of the buffer are the same. -/
structure Same (b b' : Buf) : Prop where
  size : b'.size = b.size
  fqsz : b'.fqsz = b.fqsz
  fbgn : b'.fbgn = b.fbgn
  dwEnd : b'.dwEnd = b.dwEnd
  dwSize : b'.dwSize = b.dwSize

theorem bump_spec {b : Buf} {l : List Req} {p : Req} (h : QInv b l p) (hl : l.length + 1 < b.fqsz) :
    ∃ fe l' p', bump b = { b with fend := fe } ∧ QInv { b with fend := fe } l' p' ∧
      flags l' p' = flags l p ∧ p'.n = 0 ∧ ((p.n = 0 ∧ l' = l) ∨ (0 < p.n ∧ l' = l ++ [p])) := by
  unfold bump
  rw [h.opn]
  by_cases hp : 0 < p.n
  · rw [if_pos hp]
    obtain ⟨p', h0, hq⟩ := h.close hp hl
    exact ⟨_, _, _, rfl, hq, flags_close l h0, h0, Or.inr ⟨hp, rfl⟩⟩
  · rw [if_neg hp]
    exact ⟨b.fend, l, p, rfl, h, rfl, by omega, Or.inl ⟨by omega, rfl⟩⟩

theorem total_close {l l' : List Req} {p : Req} (h : (p.n = 0 ∧ l' = l) ∨ (0 < p.n ∧ l' = l ++ [p])) :
    total l' = total l + p.n := by
  rcases h with ⟨h, rfl⟩ | ⟨h, rfl⟩ <;> simp [h]

/-- The search for a position. -/
theorem place_spec {b : Buf} {l : List Req} {p : Req} (h : QInv b l p) (hr : RInv b l p)
    (hl : l.length + 1 < b.fqsz) (len : Nat) :
    ∃ b' ok t p', place b len = some (b', ok) ∧ QInv b' (l ++ t) p' ∧ RInv b' (l ++ t) p' ∧
      content b' = content b ∧ flags (l ++ t) p' = flags l p ∧ Same b b' ∧ b'.head = b.head ∧
      ((t = [] ∧ p' = p) ∨ p'.n = 0) ∧ t.length ≤ 1 ∧
      (b'.fque = b.fque ∧ b'.data = b.data) ∧
      (ok = true → 0 < len → (b'.last = none → len < b'.size - b'.tail) ∧
        (∀ e, b'.last = some e → len < b'.head - b'.tail)) ∧
      (0 < total l → b.last ≠ some b.head → b'.last ≠ some b'.head) := by
  unfold place
  unfold RInv at hr
  by_cases h1 : b.head ≤ b.tail
  · rw [if_pos h1]
    cases hlast : b.last with
    | some e => rw [hlast] at hr; simp at hr; omega
    | none =>
      rw [hlast] at hr
      simp only at hr
      rw [if_neg (by simp)]
      by_cases h2 : len < b.size - b.tail
      · rw [if_pos h2]
        refine ⟨b, true, [], p, rfl, by simpa using h, ?_, rfl, by simp, ⟨rfl, rfl, rfl, rfl, rfl⟩, rfl,
          Or.inl ⟨rfl, rfl⟩, by simp, ⟨rfl, rfl⟩, ?_, ?_⟩
        · simpa [RInv, hlast] using hr
        · intro _ _
          exact ⟨fun _ => h2, fun e he => by rw [hlast] at he; simp at he⟩
        · intro _ _
          rw [hlast]; simp
      · rw [if_neg h2]
        by_cases h3 : 0 < b.head
        · rw [if_pos h3]
          have hq : QInv { b with last := some b.tail, tail := 0 } l p := h.congr rfl rfl rfl rfl
          obtain ⟨fe, l', p', hb, hq', hfl, hp', hcase⟩ := bump_spec hq hl
          rw [hb]
          have hex : ∃ t, l' = l ++ t ∧ t.length ≤ 1 := by
            rcases hcase with ⟨_, rfl⟩ | ⟨_, rfl⟩
            · exact ⟨[], by simp, by simp⟩
            · exact ⟨[p], rfl, by simp⟩
          obtain ⟨t, rfl, htl⟩ := hex
          have htot := total_close hcase
          refine ⟨_, _, t, p', rfl, hq', ?_, ?_, hfl, ⟨rfl, rfl, rfl, rfl, rfl⟩, rfl, Or.inr hp', htl,
            ⟨rfl, rfl⟩, ?_, ?_⟩
          · show RInv { b with last := some b.tail, tail := 0, fend := fe } (l ++ t) p'
            simp only [RInv]
            refine ⟨h3, h1, hr.2.1, l ++ t, [], by simp, ?_, ?_⟩
            · rw [htot]; exact hr.2.2
            · simp [hp']
          · simp [content, hlast, slice_zero]
          · intro hok _
            refine ⟨fun hn => by simp at hn, fun e _ => ?_⟩
            simpa using hok
          · intro h0 _ he
            simp only [Option.some.injEq] at he
            omega
        · rw [if_neg h3]
          refine ⟨b, false, [], p, rfl, by simpa using h, ?_, rfl, by simp, ⟨rfl, rfl, rfl, rfl, rfl⟩, rfl,
            Or.inl ⟨rfl, rfl⟩, by simp, ⟨rfl, rfl⟩, by simp, ?_⟩
          · simpa [RInv, hlast] using hr
          · intro _ _
            rw [hlast]; simp
  · rw [if_neg h1]
    cases hlast : b.last with
    | none => rw [hlast] at hr; exact absurd hr.1 h1
    | some e =>
      rw [hlast] at hr
      simp only at hr
      rw [if_neg (by simp)]
      refine ⟨b, _, [], p, rfl, by simpa using h, ?_, rfl, by simp, ⟨rfl, rfl, rfl, rfl, rfl⟩, rfl,
        Or.inl ⟨rfl, rfl⟩, by simp, ⟨rfl, rfl⟩, ?_, ?_⟩
      · simpa [RInv, hlast] using hr
      · intro hok _
        refine ⟨fun hn => by rw [hlast] at hn; simp at hn, fun e he => by simpa using hok⟩
      · intro _ h5
        rw [hlast]; exact h5

/-- The bytes of the record go behind the others. -/
theorem ring_put {b : Buf} {l : List Req} {p : Req} {rec : Bytes} (h : RInv b l p)
    (h1 : b.last = none → rec.length < b.size - b.tail)
    (h2 : ∀ e, b.last = some e → rec.length < b.head - b.tail) {dw fe : Nat} {fq : Nat → Req}
    {t : List Req} {p' : Req} (ht : total (l ++ t) + p'.n = total l + p.n + rec.length) :
    ¬ b.size < b.tail + rec.length ∧
    RInv { b with data := blit b.data b.tail rec, tail := b.tail + rec.length, dwSize := dw,
                  fque := fq, fend := fe } (l ++ t) p' ∧
    content { b with data := blit b.data b.tail rec, tail := b.tail + rec.length, dwSize := dw,
                     fque := fq, fend := fe } = content b ++ rec := by
  unfold RInv at h
  cases hlast : b.last with
  | none =>
    rw [hlast] at h
    simp only at h
    have h1 := h1 hlast
    refine ⟨by omega, ?_, ?_⟩
    · simp only [RInv]
      refine ⟨by omega, by omega, by omega⟩
    · simp only [content, hlast]
      have : b.tail + rec.length - b.head = (b.tail - b.head) + rec.length := by omega
      rw [this, slice_add, slice_blit_before _ _ _ (by omega)]
      have : b.head + (b.tail - b.head) = b.tail := by omega
      rw [this, slice_blit_self]
  | some e =>
    rw [hlast] at h
    obtain ⟨ha, hb, hc, l1, l2, rfl, hd, he⟩ := h
    have h2 := h2 e hlast
    refine ⟨by omega, ?_, ?_⟩
    · simp only [RInv]
      refine ⟨by omega, hb, hc, l1, l2 ++ t, by simp, hd, ?_⟩
      simp only [total_append] at ht ⊢
      omega
    · simp only [content, hlast]
      rw [slice_blit_after _ _ _ (by omega), slice_add, slice_blit_before _ _ _ (by omega)]
      rw [Nat.zero_add, slice_blit_self, List.append_assoc]

theorem take_append_ge {l t : List Req} {k : Nat} (h : l.length ≤ k) :
    (l ++ t).take k = l ++ t.take (k - l.length) := by
  rw [List.take_append, List.take_of_length_le h]

theorem total_take_pos {t : List Req} {d : Bool} (h : ∀ r ∈ t, r = ⟨auto, d⟩) {k : Nat} (hk : 0 < k)
    (ht : 0 < t.length) : auto ≤ total (t.take k) := by
  cases t with
  | nil => simp at ht
  | cons r t =>
    obtain ⟨k', rfl⟩ : ∃ k', k = k' + 1 := ⟨k - 1, by omega⟩
    rw [List.take_succ_cons, total_cons, h r (by simp)]
    exact Nat.le_add_right _ _

/-- Where the requests end that a write closes: never inside of what was there in front of it; and if
the open request has room for the record, not inside of the record. -/
theorem ends {l t2 t3 : List Req} {p p2 p3 : Req} {len : Nat} {d : Bool}
    (h2 : total (l ++ t2) + p2.n = total l + p.n)
    (h2' : t2 ≠ [] → p2.n = 0) (hl2 : t2.length ≤ 1) (hp2 : p2.n ≤ p.n)
    (h3 : total (l ++ t2 ++ t3) + p3.n = total (l ++ t2) + p2.n + len)
    (ht3 : ∀ r ∈ t3, r = ⟨auto, d⟩) (hplt : p2.n < auto) (k : Nat) (hk : l.length < k)
    (hk2 : k ≤ (l ++ (t2 ++ t3)).length) :
    total l + p.n ≤ total ((l ++ (t2 ++ t3)).take k) ∧
      (p.n + len ≤ auto → total ((l ++ (t2 ++ t3)).take k) = total l + p.n ∨
        total ((l ++ (t2 ++ t3)).take k) = total l + p.n + len) := by
  rw [← List.append_assoc] at hk2 ⊢
  simp only [List.length_append] at hk2
  by_cases hc : k = l.length + t2.length
  · have ht2 : t2 ≠ [] := by rintro rfl; simp at hc; omega
    have : (l ++ t2 ++ t3).take k = l ++ t2 := by
      rw [take_append_ge (by simp; omega)]
      simp [hc]
    rw [this]
    have := h2' ht2
    exact ⟨by omega, fun _ => Or.inl (by omega)⟩
  · have hk3 : l.length + t2.length < k := by omega
    rw [take_append_ge (by simp; omega), total_append]
    have hge := total_take_pos ht3 (k := k - (l ++ t2).length) (by simp; omega) (by omega)
    refine ⟨by omega, fun hfit => Or.inr ?_⟩
    rw [total_append] at h3
    have hle : total (t3.take (k - (l ++ t2).length)) ≤ total t3 := by
      have : total t3 = total (t3.take (k - (l ++ t2).length)) + total (t3.drop (k - (l ++ t2).length)) := by
        rw [← total_append, List.take_append_drop]
      omega
    omega

/-- `do_log_buff_write` puts the record behind the others, with a request for it. -/
theorem write_spec {s : St} {l : List Req} {p : Req} {rec : Bytes} {d : Bool} (h : QInv s.buf l p)
    (hr : RInv s.buf l p) (h0 : 0 < rec.length) (h1 : rec.length < s.buf.size)
    (hl : l.length + rec.length / auto + 2 < s.buf.fqsz) :
    ∃ b' t p' o, write s rec d = some ({ s with buf := b', nxtWrite := ⟨s.nxtWrite.file,
          s.nxtWrite.off + if o then rec.length else 0⟩ }, if o then some s.nxtWrite else none) ∧
      QInv b' (l ++ t) p' ∧ RInv b' (l ++ t) p' ∧
      content b' = content s.buf ++ (if o then rec else []) ∧
      flags (l ++ t) p' = flags l p ++ (if o then List.replicate rec.length d else []) ∧
      b'.size = s.buf.size ∧ b'.fqsz = s.buf.fqsz ∧ b'.fbgn = s.buf.fbgn ∧ b'.dwEnd = s.buf.dwEnd ∧
      b'.dwSize = s.buf.dwSize + (if o && d then rec.length else 0) ∧
      (0 < total l → s.buf.last ≠ some s.buf.head → b'.last ≠ some b'.head) ∧
      (∀ k, l.length < k → k ≤ (l ++ t).length → total l + p.n ≤ total ((l ++ t).take k) ∧
        (p.n + rec.length ≤ auto → total ((l ++ t).take k) = total l + p.n ∨
          total ((l ++ t).take k) = total l + p.n + rec.length)) := by
  have hl2 : l.length + 2 < s.buf.fqsz := by generalize rec.length / auto = q at hl; omega
  obtain ⟨b1, ok, t1, p1, hpl, hq1, hr1, hc1, hf1, hsame, hhead, hpp, htl, hfd, hok, hlast⟩ :=
    place_spec h hr (by omega) rec.length
  have hfz := hsame.fqsz
  unfold write
  rw [if_neg (by omega)]
  rw [hpl]
  cases ok with
  | false =>
    refine ⟨b1, t1, p1, false, ?_, hq1, hr1, by simp [hc1], by simp [hf1], hsame.size, hsame.fqsz,
      hsame.fbgn, hsame.dwEnd, by simp [hsame.dwSize], hlast, ?_⟩
    · simp
    · intro k hk hk2
      have e := congrArg List.length hf1
      simp only [flags_length] at e
      have ht : t1 ≠ [] := by rintro rfl; simp at hk2; omega
      have hp1 : p1.n = 0 := by
        rcases hpp with ⟨h5, _⟩ | h5
        · exact absurd h5 ht
        · exact h5
      have hlen : 0 < t1.length := List.length_pos_iff.mpr ht
      rw [List.length_append] at hk2
      have : (l ++ t1).take k = l ++ t1 := List.take_of_length_le (by rw [List.length_append]; omega)
      rw [this]
      exact ⟨by omega, fun _ => Or.inl (by omega)⟩
  | true =>
    simp only
    obtain ⟨hn, hs⟩ := hok rfl h0
    have hap : 0 < auto := by decide
    have hdiv : ∀ x, x < auto → (x + rec.length) / auto ≤ rec.length / auto + 1 := by
      intro x hx
      calc (x + rec.length) / auto ≤ (rec.length + auto) / auto := Nat.div_le_div_right (by omega)
        _ = rec.length / auto + 1 := Nat.add_div_right _ hap
    -- close the request if the flag differs
    have hclose : ∃ fe t2 p2, (if 0 < (b1.fque b1.fend).n ∧ (b1.fque b1.fend).dual ≠ d
          then { b1 with data := blit b1.data b1.tail rec, tail := b1.tail + rec.length,
                         dwSize := if d then b1.dwSize + rec.length else b1.dwSize,
                         fend := inc b1.fqsz b1.fend }
          else { b1 with data := blit b1.data b1.tail rec, tail := b1.tail + rec.length,
                         dwSize := if d then b1.dwSize + rec.length else b1.dwSize }) =
          { b1 with data := blit b1.data b1.tail rec, tail := b1.tail + rec.length,
                    dwSize := if d then b1.dwSize + rec.length else b1.dwSize, fend := fe } ∧
        QInv { b1 with data := blit b1.data b1.tail rec, tail := b1.tail + rec.length,
                       dwSize := if d then b1.dwSize + rec.length else b1.dwSize, fend := fe }
          (l ++ t2) p2 ∧ flags (l ++ t2) p2 = flags l p ∧ (p2.n = 0 ∨ p2.dual = d) ∧
        (l ++ t2).length + (p2.n + rec.length) / auto < b1.fqsz ∧ (t2 ≠ [] → p2.n = 0) ∧
        t2.length ≤ 1 ∧ p2.n ≤ p.n := by
      by_cases hcase : 0 < (b1.fque b1.fend).n ∧ (b1.fque b1.fend).dual ≠ d
      · rw [if_pos hcase]
        rw [hq1.opn] at hcase
        have htp : t1 = [] := by
          rcases hpp with ⟨ht, _⟩ | ht
          · exact ht
          · omega
        subst htp
        rw [List.append_nil] at hq1
        obtain ⟨p2, h02, hq2⟩ := hq1.close hcase.1 (by rw [hsame.fqsz]; omega)
        refine ⟨inc b1.fqsz b1.fend, [p1], p2, rfl, hq2.congr rfl rfl rfl rfl, ?_, Or.inl h02, ?_,
          fun _ => h02, by simp, by omega⟩
        · rw [flags_close _ h02]
          simpa using hf1
        · rw [h02]
          simp
          omega
      · rw [if_neg hcase]
        rw [hq1.opn] at hcase
        refine ⟨b1.fend, t1, p1, rfl, hq1.congr rfl rfl rfl rfl, hf1, ?_, ?_, ?_, htl, ?_⟩
        · by_cases hp : p1.n = 0
          · exact Or.inl hp
          · refine Or.inr ?_
            cases h5 : p1.dual <;> cases d <;> simp_all <;> omega
        · rw [List.length_append]
          rcases hpp with ⟨rfl, rfl⟩ | h5
          · have := hdiv p1.n hq1.plt
            simp
            omega
          · rw [h5, Nat.zero_add]
            omega
        · intro ht
          rcases hpp with ⟨h5, _⟩ | h5
          · exact absurd h5 ht
          · exact h5
        · rcases hpp with ⟨_, rfl⟩ | h5 <;> omega
    obtain ⟨fe, t2, p2, hif, hq2, hf2, hpd, hroom, ht2, htl2, hpp2⟩ := hclose
    obtain ⟨fq, fe2, t3, p3, hen, hq3, hf3, ht3⟩ := enqueue_spec rec.length rec.length d _ _ _ hq2
      (Nat.le_refl _) hroom hpd
    have hft : flags (l ++ (t2 ++ t3)) p3 = flags l p ++ List.replicate rec.length d := by
      rw [← List.append_assoc, hf3, hf2]
    have htot : total (l ++ (t2 ++ t3)) + p3.n = total l + p.n + rec.length := by
      have := congrArg List.length hft
      simpa [flags_length] using this
    have htot1 : total (l ++ t1) + p1.n = total l + p.n := by
      have := congrArg List.length hf1
      simpa [flags_length] using this
    have hrb : RInv b1 (l ++ t1) p1 := hr1
    -- the ring in terms of the requests in front of the write
    have hput : ¬ b1.size < b1.tail + rec.length ∧
        RInv { b1 with data := blit b1.data b1.tail rec, tail := b1.tail + rec.length,
                       dwSize := if d then b1.dwSize + rec.length else b1.dwSize,
                       fque := fq, fend := fe2 } (l ++ (t2 ++ t3)) p3 ∧
        content { b1 with data := blit b1.data b1.tail rec, tail := b1.tail + rec.length,
                          dwSize := if d then b1.dwSize + rec.length else b1.dwSize,
                          fque := fq, fend := fe2 } = content b1 ++ rec := by
      by_cases hcase : 0 < p1.n ∧ p1.dual ≠ d
      · have htp : t1 = [] := by
          rcases hpp with ⟨ht, _⟩ | ht
          · exact ht
          · omega
        subst htp
        rw [List.append_nil] at hr1 htot1
        exact ring_put hr1 hn hs (by omega)
      · rw [hq1.opn, if_neg hcase] at hif
        have hfe : fe = b1.fend := by
          have := congrArg Buf.fend hif
          simpa using this.symm
        -- the list of requests is the one behind the search
        have hlen : (l ++ t2).length = (l ++ t1).length := by
          have e1 := hq2.fend
          have e2 := hq1.fend
          rw [hfe] at e1
          have : rot b1 (l ++ t2).length = rot b1 (l ++ t1).length := by
            have e1 : b1.fend = rot b1 (l ++ t2).length := e1
            rw [← e1, ← e2]
          exact rot_inj hq2.len hq1.len this
        have heq : l ++ t2 = l ++ t1 := by
          apply List.ext_getElem hlen
          intro i hi1 hi2
          have e1 := hq2.ent i hi1
          have e2 := hq1.ent i hi2
          rw [← e1, ← e2]
          rfl
        have h5 := ring_put (t := t3) (p' := p3) (fq := fq) (fe := fe2)
          (dw := if d then b1.dwSize + rec.length else b1.dwSize) hr1 hn hs (by
            rw [← heq]
            have e2 := htot
            have e3 := htot1
            rw [← heq] at e3
            rw [← List.append_assoc] at e2
            omega)
        rw [← heq, List.append_assoc] at h5
        exact h5
    obtain ⟨hno, hr3, hc3⟩ := hput
    refine ⟨{ b1 with data := blit b1.data b1.tail rec, tail := b1.tail + rec.length,
                      dwSize := if d then b1.dwSize + rec.length else b1.dwSize,
                      fque := fq, fend := fe2 }, t2 ++ t3, p3, true, ?_, ?_, hr3, ?_, ?_, hsame.size,
      hsame.fqsz, hsame.fbgn, hsame.dwEnd, ?_, hlast, ?_⟩
    · unfold commit
      rw [if_neg hno]
      simp only
      rw [hif, hen]
      simp
    · rw [← List.append_assoc]; exact hq3
    · rw [hc3, hc1]; simp
    · rw [hft]; simp
    · cases d <;> simp [hsame.dwSize]
    · have e2 := congrArg List.length hf2
      have e3 := congrArg List.length hf3
      simp only [flags_length, List.length_append, List.length_replicate] at e2 e3
      exact ends e2 ht2 htl2 hpp2 e3 ht3 hq2.plt

end Verif.LogBuf.Lemmas
