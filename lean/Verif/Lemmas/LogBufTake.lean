import Verif.Lemmas.LogBuf
/-! # The flusher's steps on the ring -/
namespace Verif.LogBuf.Lemmas
open Verif.LogBuf Verif.LogBuf.Spec

/-- The position at the end of the ring is the one at its start. -/
theorem wrapHead_spec {b : Buf} {l : List Req} {p : Req} (h : QInv b l p) (hr : RInv b l p)
    (hpos : 0 < total l + p.n) :
    QInv (wrapHead b) l p ∧ RInv (wrapHead b) l p ∧ content (wrapHead b) = content b ∧
      Same b (wrapHead b) ∧ (wrapHead b).last ≠ some (wrapHead b).head ∧
      (wrapHead b).data = b.data := by
  unfold wrapHead
  by_cases hc : b.last = some b.head
  · rw [if_pos hc]
    unfold RInv at hr
    rw [hc] at hr
    obtain ⟨h1, h2, h3, l1, l2, rfl, h4, h5⟩ := hr
    refine ⟨h.congr rfl rfl rfl rfl, ?_, ?_, ⟨rfl, rfl, rfl, rfl, rfl⟩, by simp, rfl⟩
    · simp only [RInv, total_append]
      refine ⟨Nat.zero_le _, by omega, by omega⟩
    · simp [content, hc, slice_zero]
  · rw [if_neg hc]
    exact ⟨h, hr, rfl, ⟨rfl, rfl, rfl, rfl, rfl⟩, hc, rfl⟩

/-- The choice of a request. -/
theorem choose_spec {s : St} {b : Buf} {l : List Req} {p : Req} (h : QInv b l p) (hr : RInv b l p)
    (hq : 1 < b.fqsz) (all : Bool) :
    ∃ b1 r l' p', choose s b all = some (b1, r) ∧
      QInv (if 0 < r.n then wrapHead b1 else b1) l' p' ∧
      RInv (if 0 < r.n then wrapHead b1 else b1) l' p' ∧
      content (if 0 < r.n then wrapHead b1 else b1) = content b ∧
      Same b (if 0 < r.n then wrapHead b1 else b1) ∧ flags l' p' = flags l p ∧
      ((l' = l ∧ p' = p) ∨ (l = [] ∧ l' = [p] ∧ p'.n = 0)) ∧
      (0 < r.n → (∃ t, l' = r :: t) ∧
        (if 0 < r.n then wrapHead b1 else b1).last ≠ some (if 0 < r.n then wrapHead b1 else b1).head) ∧
      (r.n = 0 → l' = []) := by
  unfold choose
  by_cases h1 : b.fbgn ≠ b.fend
  · rw [if_pos h1]
    have hne : l ≠ [] := fun he => h1 (h.empty_iff.mpr he)
    obtain ⟨r, t, rfl⟩ := List.exists_cons_of_ne_nil hne
    have hr0 : b.fque b.fbgn = r := by
      have := h.ent 0 (by simp)
      rw [rot_zero h.bgn] at this
      exact this
    have hpos := (h.pos r (by simp)).1
    rw [hr0, if_neg (by omega)]
    have hw := wrapHead_spec h hr (by simp; omega)
    refine ⟨b, r, r :: t, p, rfl, ?_⟩
    rw [if_pos hpos]
    exact ⟨hw.1, hw.2.1, hw.2.2.1, hw.2.2.2.1, rfl, Or.inl ⟨rfl, rfl⟩, fun _ => ⟨⟨t, rfl⟩, hw.2.2.2.2.1⟩,
      fun h0 => by omega⟩
  · rw [if_neg h1]
    have hl : l = [] := h.empty_iff.mp (by simpa using h1)
    subst hl
    rw [h.opn]
    by_cases h2 : 0 < p.n ∧ (all = true ∨ requested s = true)
    · rw [if_pos h2]
      obtain ⟨p', hp', hq'⟩ := h.close h2.1 (by simpa using hq)
      rw [List.nil_append] at hq'
      have hr' : RInv { b with fend := inc b.fqsz b.fend } [p] p' := by
        unfold RInv at hr ⊢
        cases hlast : b.last with
        | none =>
          rw [hlast] at hr
          simp only [total_nil, total_cons] at hr ⊢
          rw [hp']
          refine ⟨hr.1, hr.2.1, by omega⟩
        | some e =>
          rw [hlast] at hr
          obtain ⟨h3, h4, h5, l1, l2, h6, h7, h8⟩ := hr
          have : l1 = [] ∧ l2 = [] := by simpa using h6.symm
          obtain ⟨rfl, rfl⟩ := this
          refine ⟨h3, h4, h5, [], [p], rfl, h7, ?_⟩
          simp only [total_cons, total_nil] at h8 ⊢
          omega
      have hw := wrapHead_spec hq' hr' (by simp; omega)
      refine ⟨{ b with fend := inc b.fqsz b.fend }, p, [p], p', rfl, ?_⟩
      rw [if_pos h2.1]
      refine ⟨hw.1, hw.2.1, hw.2.2.1, ?_, ?_, Or.inr ⟨rfl, rfl, hp'⟩,
        fun _ => ⟨⟨[], rfl⟩, hw.2.2.2.2.1⟩, fun h0 => by omega⟩
      · have := hw.2.2.2.1
        exact ⟨this.size, this.fqsz, this.fbgn, this.dwEnd, this.dwSize⟩
      · have := flags_close [] (p := p) hp'
        simpa using this
    · rw [if_neg h2]
      refine ⟨b, ⟨0, false⟩, [], p, rfl, ?_⟩
      rw [if_neg (by simp)]
      exact ⟨h, hr, rfl, ⟨rfl, rfl, rfl, rfl, rfl⟩, rfl, Or.inl ⟨rfl, rfl⟩, fun h0 => by simp at h0,
        fun _ => rfl⟩

/-- The bytes of the first request are the first bytes in the ring, contiguous in memory. -/
theorem head_slice {b : Buf} {r : Req} {t : List Req} {p : Req} (hq : QInv b (r :: t) p)
    (hr : RInv b (r :: t) p) (hl : b.last ≠ some b.head) :
    b.head + r.n ≤ b.size ∧ slice b.data b.head r.n = (content b).take r.n := by
  unfold RInv at hr
  unfold content
  cases hlast : b.last with
  | none =>
    rw [hlast] at hr
    simp only [total_cons] at hr
    refine ⟨by omega, ?_⟩
    have : b.tail - b.head = r.n + (b.tail - b.head - r.n) := by omega
    simp only
    rw [this, slice_add, List.take_append, slice_length]
    simp [slice_length, List.take_of_length_le]
  | some e =>
    rw [hlast] at hr hl
    obtain ⟨h1, h2, h3, l1, l2, h4, h5, h6⟩ := hr
    have hne : e ≠ b.head := fun he => hl (by rw [he])
    rcases l1 with _ | ⟨r', l1⟩
    · simp at h5; omega
    · have : r' = r := by simp at h4; exact h4.1.symm
      subst this
      simp only [total_cons] at h5
      refine ⟨by omega, ?_⟩
      simp only
      have : e - b.head = r'.n + (e - b.head - r'.n) := by omega
      rw [this, slice_add, List.append_assoc, List.take_append, slice_length]
      simp [slice_length, List.take_of_length_le]

/-- The end of a flush removes the first request. -/
theorem fin_spec {b : Buf} {r : Req} {t : List Req} {p : Req} (hq : QInv b (r :: t) p)
    (hr : RInv b (r :: t) p) (hl : b.last ≠ some b.head) :
    let c := wrapHead { b with head := b.head + r.n }
    let b' := { c with fque := fun i => if i = c.fbgn then ⟨0, false⟩ else c.fque i,
                       fbgn := inc c.fqsz c.fbgn }
    QInv b' t p ∧ RInv b' t p ∧ content b' = (content b).drop r.n ∧ b'.size = b.size ∧
      b'.fqsz = b.fqsz ∧ b'.dwEnd = b.dwEnd ∧ b'.dwSize = b.dwSize ∧ b'.fbgn = rot b 1 := by
  intro c b'
  have hcf : c.fque = b.fque ∧ c.fqsz = b.fqsz ∧ c.fbgn = b.fbgn ∧ c.fend = b.fend ∧ c.size = b.size ∧
      c.dwEnd = b.dwEnd ∧ c.dwSize = b.dwSize ∧ c.data = b.data ∧ c.tail = b.tail := by
    show (wrapHead _).fque = _ ∧ _
    unfold c wrapHead
    split <;> simp
  obtain ⟨c1, c2, c3, c4, c5, c6, c7, c8, c9⟩ := hcf
  have hlen : t.length + 1 < b.fqsz := by simpa using hq.len
  have h0 := hq.bgn
  have hbg : b'.fbgn = rot b 1 := by
    show inc c.fqsz c.fbgn = _
    rw [c2, c3]
    have := inc_rot (b := b) (by omega) 0
    rw [rot_zero h0] at this
    exact this
  have hrot : ∀ k, rot b' k = rot b (k + 1) := by
    intro k
    have : b'.fqsz = b.fqsz := c2
    show (b'.fbgn + k) % b'.fqsz = _
    rw [hbg, this]
    unfold rot
    rw [Nat.mod_add_mod]
    congr 1
    omega
  have hb0 : b.fbgn = rot b 0 := (rot_zero h0).symm
  have hfq : ∀ i, i ≠ b.fbgn → b'.fque i = b.fque i := by
    intro i hi
    show (if i = c.fbgn then _ else _) = _
    rw [c3, if_neg hi, c1]
  have hne : ∀ k, k + 1 < b.fqsz → rot b (k + 1) ≠ b.fbgn := by
    intro k hk he
    rw [hb0] at he
    have := rot_inj hk (by omega) he
    omega
  have hself : b'.fque b.fbgn = ⟨0, false⟩ := by
    show (if b.fbgn = c.fbgn then _ else _) = _
    rw [c3, if_pos rfl]
  have hfend : b'.fend = b.fend := c4
  refine ⟨⟨?_, ?_, ?_, ?_, ?_, ?_, ?_, hq.plt⟩, ?_, ?_, c5, c2, c6, c7, hbg⟩
  · rw [hbg]
    show rot b 1 < c.fqsz
    rw [c2]
    exact Nat.mod_lt _ (by omega)
  · show t.length < c.fqsz
    rw [c2]; omega
  · rw [hfend, hrot, hq.fend]; rfl
  · intro i hi
    rw [hrot, hfq _ (hne i (by omega))]
    have := hq.ent (i + 1) (by simpa using hi)
    simpa using this
  · rw [hfend, hfq]
    · exact hq.opn
    · rw [hq.fend]
      exact hne t.length hlen
  · intro i hi hi2
    have hi2 : i < b.fqsz := by
      have : b'.fqsz = b.fqsz := c2
      omega
    rw [hrot]
    by_cases hlast : i + 1 < b.fqsz
    · rw [hfq _ (hne i hlast)]
      exact hq.out (i + 1) (by simpa using hi) hlast
    · have : i + 1 = b.fqsz := by omega
      have : rot b (i + 1) = b.fbgn := by
        unfold rot
        rw [this, Nat.add_mod_right, Nat.mod_eq_of_lt h0]
      rw [this, hself]
  · exact fun x hx => hq.pos x (by simp [hx])
  · -- the ring
    unfold RInv at hr
    cases hlast : b.last with
    | none =>
      rw [hlast] at hr
      simp only [total_cons] at hr
      have hl' : b'.last = none := by
        show (wrapHead _).last = none
        unfold wrapHead; simp [hlast]
      have hh : b'.head = b.head + r.n := by
        show (wrapHead _).head = _
        unfold wrapHead; simp [hlast]
      unfold RInv
      rw [hl']
      have ht : b'.tail = b.tail := c9
      have hs : b'.size = b.size := c5
      simp only [hh, ht, hs]
      refine ⟨by omega, by omega, by omega⟩
    | some e =>
      rw [hlast] at hr hl
      obtain ⟨h1, h2, h3, l1, l2, h4, h5, h6⟩ := hr
      have hne' : e ≠ b.head := fun he => hl (by rw [he])
      rcases l1 with _ | ⟨r', l1⟩
      · simp at h5; omega
      · have h4' : r = r' ∧ t = l1 ++ l2 := by simpa using h4
        obtain ⟨rfl, rfl⟩ := h4'
        simp only [total_cons] at h5
        have ht : b'.tail = b.tail := c9
        have hs : b'.size = b.size := c5
        by_cases hcase : e = b.head + r.n
        · have hl' : b'.last = none := by
            show (wrapHead _).last = none
            unfold wrapHead; simp [hlast, hcase]
          have hh : b'.head = 0 := by
            show (wrapHead _).head = _
            unfold wrapHead; simp [hlast, hcase]
          unfold RInv
          rw [hl']
          simp only [hh, ht, hs, total_append]
          refine ⟨by omega, by omega, by omega⟩
        · have hl' : b'.last = some e := by
            show (wrapHead _).last = _
            unfold wrapHead; simp [hlast, hcase]
          have hh : b'.head = b.head + r.n := by
            show (wrapHead _).head = _
            unfold wrapHead; simp [hlast, hcase]
          unfold RInv
          rw [hl']
          simp only [hh, ht, hs]
          exact ⟨by omega, by omega, by omega, l1, l2, rfl, by omega, h6⟩
  · -- the bytes
    unfold RInv at hr
    have hd : b'.data = b.data := c8
    have ht : b'.tail = b.tail := c9
    cases hlast : b.last with
    | none =>
      rw [hlast] at hr
      simp only [total_cons] at hr
      have hl' : b'.last = none := by
        show (wrapHead _).last = none
        unfold wrapHead; simp [hlast]
      have hh : b'.head = b.head + r.n := by
        show (wrapHead _).head = _
        unfold wrapHead; simp [hlast]
      unfold content
      rw [hl', hlast, hd, ht, hh]
      simp only
      have : b.tail - b.head = r.n + (b.tail - (b.head + r.n)) := by omega
      rw [this, slice_add, List.drop_append, slice_length]
      simp [slice_length, List.drop_of_length_le]
    | some e =>
      rw [hlast] at hr hl
      obtain ⟨h1, h2, h3, l1, l2, h4, h5, h6⟩ := hr
      have hne' : e ≠ b.head := fun he => hl (by rw [he])
      rcases l1 with _ | ⟨r', l1⟩
      · simp at h5; omega
      · have h4' : r = r' ∧ t = l1 ++ l2 := by simpa using h4
        obtain ⟨rfl, rfl⟩ := h4'
        simp only [total_cons] at h5
        have key : ((slice b.data b.head (e - b.head) ++ slice b.data 0 b.tail).drop r.n) =
            slice b.data (b.head + r.n) (e - (b.head + r.n)) ++ slice b.data 0 b.tail := by
          have : e - b.head = r.n + (e - (b.head + r.n)) := by omega
          rw [this, slice_add, List.append_assoc, List.drop_append, slice_length]
          simp [slice_length, List.drop_of_length_le]
        by_cases hcase : e = b.head + r.n
        · have hl' : b'.last = none := by
            show (wrapHead _).last = none
            unfold wrapHead; simp [hlast, hcase]
          have hh : b'.head = 0 := by
            show (wrapHead _).head = _
            unfold wrapHead; simp [hlast, hcase]
          unfold content
          rw [hl', hlast, hd, ht, hh]
          simp only
          rw [key, hcase]
          simp [slice_zero]
        · have hl' : b'.last = some e := by
            show (wrapHead _).last = _
            unfold wrapHead; simp [hlast, hcase]
          have hh : b'.head = b.head + r.n := by
            show (wrapHead _).head = _
            unfold wrapHead; simp [hlast, hcase]
          unfold content
          rw [hl', hlast, hd, ht, hh]
          simp only
          exact key.symm

/-- The loop that clears the flags, from the `k`-th entry. -/
theorem clearDual_loop : ∀ (fuel k : Nat) (b : Buf) (m : Nat), 0 < b.fqsz → b.fbgn < b.fqsz →
    k + fuel = b.fqsz →
    (∀ i, k ≤ i → i < m → 0 < (b.fque (rot b i)).n) →
    (∀ i, m < i → i < b.fqsz → (b.fque (rot b i)).n = 0) →
    ∃ fq, clearDual fuel b (rot b k) = { b with fque := fq } ∧
      (∀ i, i < b.fqsz → (fq (rot b i)).n = (b.fque (rot b i)).n) ∧
      (∀ i, k ≤ i → i ≤ m → i < b.fqsz → 0 < (b.fque (rot b i)).n → (fq (rot b i)).dual = false) ∧
      (∀ i, i < k → i < b.fqsz → fq (rot b i) = b.fque (rot b i)) := by
  intro fuel
  induction fuel with
  | zero =>
    intro k b m hq hb hk h1 h2
    exact ⟨b.fque, rfl, fun _ _ => rfl, fun i hi _ hi2 => by omega, fun _ _ _ => rfl⟩
  | succ fuel ih =>
    intro k b m hq hb hk h1 h2
    rw [clearDual]
    by_cases hp : 0 < (b.fque (rot b k)).n
    · rw [if_pos hp]
      simp only
      have hkm : k ≤ m := by
        rcases Nat.lt_or_ge m k with h | h
        · have := h2 k h (by omega); omega
        · exact h
      have hinc : inc b.fqsz (rot b k) = rot b (k + 1) := inc_rot hq k
      have hset : ∀ i, i < b.fqsz → i ≠ k → rot b i ≠ rot b k := by
        intro i hi hne he
        exact hne (rot_inj hi (by omega) he)
      let b1 : Buf :=
        { b with fque := fun j => if j = rot b k then ⟨(b.fque (rot b k)).n, false⟩ else b.fque j }
      have hb1k : b1.fque (rot b k) = ⟨(b.fque (rot b k)).n, false⟩ := by
        show (if rot b k = rot b k then _ else _) = _
        rw [if_pos rfl]
      have hb1 : ∀ i, i < b.fqsz → i ≠ k → b1.fque (rot b i) = b.fque (rot b i) := by
        intro i hi hne
        show (if rot b i = rot b k then _ else _) = _
        rw [if_neg (hset i hi hne)]
      have hn1 : ∀ i, i < b.fqsz → (b1.fque (rot b i)).n = (b.fque (rot b i)).n := by
        intro i hi
        by_cases he : i = k
        · subst he; rw [hb1k]
        · rw [hb1 i hi he]
      by_cases hend : inc b.fqsz (rot b k) = b.fbgn
      · rw [if_pos hend]
        have hlast : k + 1 = b.fqsz := by
          rcases Nat.lt_or_ge (k + 1) b.fqsz with h | h
          · rw [hinc, ← rot_zero hb] at hend
            have := rot_inj h (by omega) hend
            omega
          · omega
        refine ⟨b1.fque, rfl, hn1, ?_, ?_⟩
        · intro i hi1 hi2 hi3 _
          have : i = k := by omega
          subst this
          rw [hb1k]
        · intro i hi hi2
          exact hb1 i hi2 (by omega)
      · rw [if_neg hend, hinc]
        have hmk : k + 1 ≤ b.fqsz := by omega
        obtain ⟨fq, e1, e2, e3, e4⟩ := ih (k + 1) b1 m hq hb (by show k + 1 + fuel = b.fqsz; omega)
          (by
            intro i hi1 hi2
            show 0 < (b1.fque (rot b i)).n
            by_cases hi3 : i < b.fqsz
            · rw [hn1 i hi3]; exact h1 i (by omega) hi2
            · -- beyond the queue the index is one of those inside
              have hmm := h1 i (by omega) hi2
              show 0 < (if rot b i = rot b k then (⟨(b.fque (rot b k)).n, false⟩ : Req)
                else b.fque (rot b i)).n
              split
              · exact hp
              · exact hmm)
          (by
            intro i hi1 hi2
            show (b1.fque (rot b i)).n = 0
            rw [hn1 i hi2]; exact h2 i hi1 hi2)
        refine ⟨fq, e1, ?_, ?_, ?_⟩
        · intro i hi
          have := e2 i hi
          rw [← hn1 i hi]
          exact this
        · intro i hi1 hi2 hi3 hi4
          by_cases he : i = k
          · subst he
            have := e4 i (by omega) hi3
            have this : fq (rot b i) = b1.fque (rot b i) := this
            rw [this, hb1k]
          · exact e3 i (by omega) hi2 hi3 (by
              show 0 < (b1.fque (rot b i)).n
              rw [hn1 i hi3]; exact hi4)
        · intro i hi1 hi2
          have := e4 i (by omega) hi2
          have this : fq (rot b i) = b1.fque (rot b i) := this
          rw [this, hb1 i hi2 (by omega)]
    · rw [if_neg hp]
      have hkm : m ≤ k := by
        rcases Nat.lt_or_ge k m with h | h
        · exact absurd (h1 k (Nat.le_refl _) h) hp
        · exact h
      refine ⟨b.fque, rfl, fun _ _ => rfl, ?_, fun _ _ _ => rfl⟩
      intro i hi1 hi2 _ hi4
      have : i = k := by omega
      subst this
      exact absurd hi4 hp

/-- After a failed checkpoint no request is for both files. -/
theorem clearDual_spec {b : Buf} {l : List Req} {p : Req} (h : QInv b l p) (hr : RInv b l p) :
    ∃ fq l' p', clearDual b.fqsz b b.fbgn = { b with fque := fq } ∧ QInv { b with fque := fq } l' p' ∧
      RInv { b with fque := fq } l' p' ∧ (∀ f ∈ flags l' p', f = false) ∧
      l'.map (·.n) = l.map (·.n) ∧ p'.n = p.n := by
  have hq : 0 < b.fqsz := by have := h.bgn; omega
  obtain ⟨fq, e1, e2, e3, _⟩ := clearDual_loop b.fqsz 0 b l.length hq h.bgn (by omega)
    (by
      intro i _ hi
      rw [h.ent i hi]
      exact (h.pos _ (List.getElem_mem hi)).1)
    (fun i hi hi2 => h.out i hi hi2)
  rw [rot_zero h.bgn] at e1
  refine ⟨fq, l.map fun r => ⟨r.n, false⟩, fq b.fend, e1, ⟨h.bgn, by simpa using h.len, ?_, ?_, rfl, ?_, ?_, ?_⟩,
    ?_, ?_, by simp, ?_⟩
  · show b.fend = rot b _
    rw [List.length_map]; exact h.fend
  · intro i hi
    have hi' : i < l.length := by simpa using hi
    show fq (rot b i) = _
    have hil : i < b.fqsz := by have := h.len; omega
    have a1 := e2 i hil
    have a2 := e3 i (by omega) (by omega) hil (by rw [h.ent i hi']; exact (h.pos _ (List.getElem_mem hi')).1)
    rw [h.ent i hi'] at a1
    rw [List.getElem_map]
    cases hh : fq (rot b i) with
    | mk n d =>
      rw [hh] at a1 a2
      simp only at a1 a2
      rw [a1, a2]
  · intro i hi hi2
    have hi2 : i < b.fqsz := hi2
    show (fq (rot b i)).n = 0
    rw [e2 i hi2]
    exact h.out i (by simpa using hi) hi2
  · intro r hr
    obtain ⟨r', hr', rfl⟩ := List.mem_map.mp hr
    exact h.pos r' hr'
  · have := e2 l.length h.len
    rw [← h.fend, h.opn] at this
    rw [this]; exact h.plt
  · have htot : ∀ l : List Req, total (l.map fun r => (⟨r.n, false⟩ : Req)) = total l := by
      intro l; simp [total, List.map_map, Function.comp_def]
    have hpn : (fq b.fend).n = p.n := by
      have := e2 l.length h.len
      rwa [← h.fend, h.opn] at this
    unfold RInv at hr ⊢
    cases hlast : b.last with
    | none =>
      rw [hlast] at hr
      simp only at hr ⊢
      rw [htot, hpn]; exact hr
    | some e =>
      rw [hlast] at hr
      obtain ⟨h1, h2, h3, l1, l2, rfl, h5, h6⟩ := hr
      refine ⟨h1, h2, h3, l1.map _, l2.map _, List.map_append, ?_, ?_⟩
      · rw [htot]; exact h5
      · rw [htot, hpn]; exact h6
  · intro f hf
    unfold flags at hf
    rcases List.mem_append.mp hf with hf | hf
    · obtain ⟨r, hr, hf⟩ := List.mem_flatMap.mp hf
      obtain ⟨r', _, rfl⟩ := List.mem_map.mp hr
      exact (List.mem_replicate.mp hf).2
    · have := List.mem_replicate.mp hf
      rw [this.2]
      have hpn : (fq b.fend).n = p.n := by
        have := e2 l.length h.len
        rwa [← h.fend, h.opn] at this
      have hp0 : 0 < p.n := by rw [← hpn]; exact Nat.pos_of_ne_zero this.1
      have := e3 l.length (by omega) (Nat.le_refl _) h.len (by rw [← h.fend, h.opn]; exact hp0)
      rwa [← h.fend] at this
  · have := e2 l.length h.len
    rwa [← h.fend, h.opn] at this

end Verif.LogBuf.Lemmas
