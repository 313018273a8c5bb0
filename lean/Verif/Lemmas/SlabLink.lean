import Verif.Lemmas.SlabFree
/-!
# Putting a slot on its free list and taking it off
-/
namespace Verif.Slabs

theorem freeAdd_ok {s : St} {f : Nat → Nat} {k : Nat} (hk : k < 709) (hr : Rng (fun j => if j = 708 then 0 else f j) s.fmin s.fmax s.fnum)
    (hf : s.fcount = set f k (f k + 1)) :
    ∃ fm fx fn, (if s.fcount k = 1 then freeAdd s k else s) = { s with fmin := fm, fmax := fx, fnum := fn } ∧
      Rng (fun j => if j = 708 then 0 else s.fcount j) fm fx fn := by
  by_cases h1 : s.fcount k = 1
  · rw [if_pos h1]
    have h0 : f k = 0 := by rw [hf, set_eq] at h1; omega
    unfold freeAdd numClasses
    by_cases hb : 709 - 1 ≤ k
    · have hk8 : k = 708 := by omega
      refine ⟨s.fmin, s.fmax, s.fnum, by rw [if_pos hb], hr.same fun j _ => ?_⟩
      by_cases hj : j = 708
      · simp [hj]
      · simp only [hj, if_false, hf]
        rw [set_ne _ _ (by omega)]
    · refine ⟨_, _, _, by rw [if_neg hb], hr.add hk (by simp [h0]) ?_ ?_⟩
      · rw [if_neg (by omega), h1]; omega
      · intro j hj
        simp only [hf]
        rw [set_ne _ _ hj]
  · rw [if_neg h1]
    refine ⟨s.fmin, s.fmax, s.fnum, rfl, hr.same fun j _ => ?_⟩
    by_cases hj : j = k
    · subst hj
      rw [hf, set_eq] at h1
      simp only [hf, set_eq]
      split <;> omega
    · simp only [hf]
      rw [set_ne _ _ hj]

theorem freeDel_ok {s : St} {f : Nat → Nat} {k : Nat} (hk : k < 709) (hr : Rng (fun j => if j = 708 then 0 else f j) s.fmin s.fmax s.fnum)
    (h1 : f k = 1) (hf : s.fcount = set f k 0) (hh : ∀ j, j < 709 → (s.head j ≠ 0 ↔ 0 < s.fcount j)) :
    ∃ fm fx fn, freeDel s k = some { s with fmin := fm, fmax := fx, fnum := fn } ∧
      Rng (fun j => if j = 708 then 0 else s.fcount j) fm fx fn := by
  unfold freeDel numClasses
  by_cases hb : 709 - 1 ≤ k
  · have hk8 : k = 708 := by omega
    refine ⟨s.fmin, s.fmax, s.fnum, by rw [if_pos hb], hr.same fun j _ => ?_⟩
    by_cases hj : j = 708
    · simp [hj]
    · simp only [hj, if_false, hf]
      rw [set_ne _ _ (by omega)]
  · rw [if_neg hb]
    have hfm : s.fmax < 708 := by
      rcases hr.2 with ⟨-, k2, -⟩ | ⟨u, k1, k2, k3, k4, k5, k6⟩
      · omega
      · rw [k1]
        by_cases hu : u = 708
        · simp [hu] at k5
        · omega
    obtain ⟨lo', hi', e1, e2⟩ := hr.del (g := fun j => if j = 708 then 0 else s.fcount j) (t := k) hk (by simp [hf, set_eq])
      (by rw [if_neg (by omega), h1]; omega) (fun j hj => by simp only [hf]; rw [set_ne _ _ hj])
      (p := fun i => s.head i ≠ 0) (by
        intro j _ _ hj2
        simp only [decide_eq_true_eq]
        rw [if_neg (by omega)]
        exact hh j (by omega))
    refine ⟨lo', hi', s.fnum - 1, ?_, e1⟩
    rcases e2 with ⟨q1, q2, q3, q4⟩ | ⟨q1, q2, q3, q4⟩ | ⟨q1, q2, i, q3, q4, q5⟩ | ⟨q1, q2, q3, q4⟩
    · rw [if_pos q1, if_pos q2, q3, q4]
    · rw [if_pos q1, if_neg q2]
      simp only [q3, q4]
    · rw [if_neg q1, if_pos q2]
      simp only [q3, q4, q5]
    · rw [if_neg q1, if_neg q2, q3, q4]

/-- The slots of a list, by their addresses. -/
theorem slot_of {S : List Slot} {k : Nat} {l : List Nat}
    (hl : l.Perm ((S.filter (lk k)).map Slot.adr)) {a : Nat} (ha : a ∈ l) : ∃ z ∈ S, z.adr = a ∧ z.kind = .free ∧ 32 ≤ z.len ∧ cf z.len = k := by
  obtain ⟨z, hz, rfl⟩ := List.mem_map.mp (hl.mem_iff.mp ha)
  obtain ⟨hz1, hz2⟩ := List.mem_filter.mp hz
  obtain ⟨k1, k2, k3⟩ := lk_iff.mp hz2
  exact ⟨z, hz1, rfl, k1, k2, k3⟩

theorem map_adr_nodup {S : List Slot} (h : S.Pairwise (fun s t => s.adr ≠ t.adr)) (p : Slot → Bool) : ((S.filter p).map Slot.adr).Nodup := by
  rw [List.Nodup, List.pairwise_map]
  exact h.filter _

/-- The slots after a free slot has been written into the memory and put on its list. -/
theorem link_core {s : St} {a l : Nat} {R : List Slot} {L : List Nat} {m : Nat → Nat} {fm : Nat} {fx fn : Int}
    (h : Core s (⟨a, l, .loose⟩ :: R) L) (hw : l < 262112)
    (hadj : ∀ y ∈ R, y.kind = .free → y.adr + y.len ≠ a ∧ a + l ≠ y.adr) (hl : 32 ≤ l)
    (m1 : m a = 0) (m2 : m (a + 4) = enc (a % 262144 / 8) (l / 8)) (m3 : m (a + l - 4) = enc (a % 262144 / 8) 0)
    (m4 : m (a + 8) = s.tail (cf l)) (m5 : m (a + 16) = 0) (m6 : s.tail (cf l) ≠ 0 → m (s.tail (cf l) + 16) = a)
    (m7 : ∀ b, ¬ (a ≤ b ∧ b < a + l) → (s.tail (cf l) ≠ 0 → b ≠ s.tail (cf l) + 16) → m b = s.mem b)
    (hr : Rng (fun j => if j = 708 then 0 else set s.fcount (cf l) (s.fcount (cf l) + 1) j) fm fx fn) :
    Core { s with
      mem := m
      head := if s.tail (cf l) = 0 then set s.head (cf l) a else s.head
      tail := set s.tail (cf l) a
      fspace := set s.fspace (cf l) (s.fspace (cf l) + l)
      fcount := set s.fcount (cf l) (s.fcount (cf l) + 1)
      fmin := fm
      fmax := fx
      fnum := fn
      fsmall := if (cf l : Int) < s.pct then s.fsmall + l else s.fsmall
      favail := if (cf l : Int) < s.pct then s.favail else s.favail + l } (⟨a, l, .free⟩ :: R) L ∧
    (∀ b, ¬ (a ≤ b ∧ b < a + l) → (∀ y ∈ R, y.kind = .free → 32 ≤ y.len → b ≠ y.adr + 8 ∧ b ≠ y.adr + 16) → m b = s.mem b) := by
  have hgeo : Geo (⟨a, l, .free⟩ :: R) L := h.geo.kind rfl rfl (by simp) (fun _ => ⟨hw, hadj⟩)
  have hal := h.geo.al _ (List.mem_cons_self ..)
  have hin := h.geo.ins _ (List.mem_cons_self ..)
  simp only at hal hin
  obtain ⟨lst, p1, p2, p3, p4⟩ := h.fr (cf l) (cf_lt l)
  have hfil : ∀ k, (⟨a, l, .loose⟩ :: R : List Slot).filter (lk k) = R.filter (lk k) := by
    intro k; rw [List.filter_cons_of_neg]; simp [lk]
  rw [hfil] at p1
  have htl : s.tail (cf l) ≠ 0 → ∃ z ∈ R, z.adr = s.tail (cf l) ∧ z.kind = .free ∧ 32 ≤ z.len ∧ cf z.len = cf l := by
    intro ht
    have hne : lst ≠ [] := fun hh => ht (p2.nil_iff'.mpr hh)
    exact slot_of p1 (p2.2.2 ▸ getLastD_mem hne)
  have hfr : ∀ b, ¬ (a ≤ b ∧ b < a + l) → (∀ y ∈ R, y.kind = .free → 32 ≤ y.len → b ≠ y.adr + 8 ∧ b ≠ y.adr + 16) → m b = s.mem b := by
    intro b h1 h2
    refine m7 b h1 (fun ht => ?_)
    obtain ⟨z, hz, e1, e2, e3, -⟩ := htl ht
    rw [← e1]; exact (h2 z hz e2 e3).2
  refine ⟨⟨hgeo, ?_, ?_, ?_, ?_, ?_⟩, hfr⟩
  · intro x hx
    rcases List.mem_cons.mp hx with rfl | hx
    · simp only [Wd]
      refine ⟨m1, m2, ?_⟩
      rw [if_neg (by omega)]; exact m3
    · refine (h.wd x (List.mem_cons_of_mem _ hx)).frame (fun hkind => ?_)
      have hd := h.geo.head x hx
      have hxal := h.geo.al x (List.mem_cons_of_mem _ hx)
      unfold Dis at hd
      simp only at hd
      have key : ∀ b, x.adr ≤ b → b < x.adr + x.len → b ≠ x.adr + 8 → b ≠ x.adr + 16 → m b = s.mem b := by
        intro b hb1 hb2 hb3 hb4
        refine hfr b (by omega) (fun y hy hyk hyl => ?_)
        rcases h.geo.cases (List.mem_cons_of_mem _ hx) (List.mem_cons_of_mem _ hy) with he | he
        · subst he; exact ⟨hb3, hb4⟩
        · unfold Dis at he; omega
      by_cases hx32 : 32 ≤ x.len
      · exact ⟨key _ (by omega) (by omega) (by omega) (by omega), fun _ => key _ (by omega) (by omega) (by omega) (by omega),
          key _ (by omega) (by omega) (by omega) (by omega)⟩
      · have key2 : ∀ b, x.adr ≤ b → b < x.adr + x.len → m b = s.mem b := by
          intro b hb1 hb2
          refine hfr b (by omega) (fun y hy hyk hyl => ?_)
          rcases h.geo.cases (List.mem_cons_of_mem _ hx) (List.mem_cons_of_mem _ hy) with he | he
          · subst he; exact absurd hyl hx32
          · unfold Dis at he; omega
        exact ⟨key2 _ (by omega) (by omega), fun _ => key2 _ (by omega) (by omega), key2 _ (by omega) (by omega)⟩
  · intro k hk
    simp only
    by_cases hkc : k = cf l
    · subst hkc
      have hadr : ∀ b ∈ lst, ∃ z ∈ R, z.adr = b ∧ z.kind = .free ∧ 32 ≤ z.len ∧ cf z.len = cf l := fun b hb =>
        slot_of p1 hb
      have hnd : lst.Nodup := p1.nodup_iff.mpr (map_adr_nodup h.geo.inj' (lk (cf l)))
      refine ⟨lst ++ [a], ?_, ?_, ?_, ?_⟩
      · rw [List.filter_cons_of_pos (by simp [lk, hl])]
        exact (List.perm_append_comm).trans (p1.cons a)
      · have := p2.append (m' := m) (x := a) hnd (by omega) ?_ ?_ m6 m4 m5
        · rw [set_eq]
          by_cases ht : s.tail (cf l) = 0
          · rw [if_pos ht, set_eq]; rw [if_pos ht] at this; exact this
          · rw [if_neg ht]; rw [if_neg ht] at this; exact this
        · intro b hb
          obtain ⟨z, hz, rfl, e2, e3, -⟩ := hadr b hb
          have hd := h.geo.head z hz
          unfold Dis at hd
          simp only at hd
          refine m7 _ (by omega) (fun ht => ?_)
          obtain ⟨y, hy, f1, f2, f3, -⟩ := htl ht
          rw [← f1]
          rcases h.geo.cases (List.mem_cons_of_mem _ hz) (List.mem_cons_of_mem _ hy) with he | he
          · subst he; omega
          · unfold Dis at he; omega
        · intro b hb hbt
          obtain ⟨z, hz, rfl, e2, e3, -⟩ := hadr b hb
          have hd := h.geo.head z hz
          unfold Dis at hd
          simp only at hd
          exact m7 _ (by omega) (fun ht => by omega)
      · rw [set_eq, p3, List.length_append]; rfl
      · rw [set_eq, p4]
        simp only [wsum]
        rw [if_neg (by simp [lk]), if_pos (by simp [lk, hl])]
        omega
    · obtain ⟨lst', q1, q2, q3, q4⟩ := h.fr k hk
      rw [hfil] at q1
      refine ⟨lst', ?_, ?_, ?_, ?_⟩
      · rw [List.filter_cons_of_neg (by simp only [lk_iff]; rintro ⟨-, -, h⟩; exact hkc h.symm)]
        exact q1
      · have : (if s.tail (cf l) = 0 then set s.head (cf l) a else s.head) k = s.head k := by
          split
          · exact set_ne _ _ hkc
          · rfl
        rw [this, set_ne _ _ hkc]
        refine q2.frame (fun b hb => ?_)
        obtain ⟨z, hz, rfl, e2, e3, e4⟩ := slot_of q1 hb
        have hd := h.geo.head z hz
        unfold Dis at hd
        simp only at hd
        constructor
        · refine m7 _ (by omega) (fun ht => ?_)
          obtain ⟨y, hy, f1, f2, f3, f4⟩ := htl ht
          rw [← f1]
          rcases h.geo.cases (List.mem_cons_of_mem _ hz) (List.mem_cons_of_mem _ hy) with he | he
          · subst he; omega
          · unfold Dis at he; omega
        · refine m7 _ (by omega) (fun ht => ?_)
          obtain ⟨y, hy, f1, f2, f3, f4⟩ := htl ht
          rw [← f1]
          rcases h.geo.cases (List.mem_cons_of_mem _ hz) (List.mem_cons_of_mem _ hy) with he | he
          · subst he; exact absurd (e4.symm.trans f4) hkc
          · unfold Dis at he; omega
      · rw [set_ne _ _ hkc]; exact q3
      · rw [set_ne _ _ hkc, q4]
        simp only [wsum]
        rw [if_neg (by simp [lk]), if_neg (by simp only [lk_iff]; rintro ⟨-, -, h⟩; exact hkc h.symm)]
  · exact hr
  · simp only
    rw [h.small]
    simp only [wsum, sm]
    by_cases hp : (cf l : Int) < s.pct <;> simp [hp, show ¬ l < 32 by omega] <;> omega
  · simp only
    rw [h.avail]
    simp only [wsum, av]
    by_cases hp : (cf l : Int) < s.pct
    · simp [hp, show ¬ s.pct ≤ (cf l : Int) by omega]
    · simp [hp, show s.pct ≤ (cf l : Int) by omega, hl]; omega

/-- `do_smmgr_free_slot_link` works. -/
theorem link_ok {s : St} {a l : Nat} {R : List Slot} {L : List Nat} (h : Core s (⟨a, l, .loose⟩ :: R) L) (hw : l < 262112)
    (hadj : ∀ y ∈ R, y.kind = .free → y.adr + y.len ≠ a ∧ a + l ≠ y.adr) (hp : s.pct = -1 → 49152 ≤ l) :
    ∃ s', link s a (a % 262144) l = some s' ∧ Core s' (⟨a, l, .free⟩ :: R) L ∧ Rest s s' ∧
      (∀ b, ¬ (a ≤ b ∧ b < a + l) → (∀ y ∈ R, y.kind = .free → 32 ≤ y.len → b ≠ y.adr + 8 ∧ b ≠ y.adr + 16) → s'.mem b = s.mem b) := by
  have hal := h.geo.al _ (List.mem_cons_self ..)
  have hin := h.geo.ins _ (List.mem_cons_self ..)
  simp only at hal hin
  have hoff : a % 262144 % 8 = 0 := by omega
  simp only [link, freeInit, hoff, hal.2.1, and_self, if_true]
  have hlo : ∀ x, lo (enc (a % 262144 / 8) x) = a % 262144 / 8 := fun x => lo_enc (by omega)
  by_cases hl : l < minSlot
  · have hl32 : l < 32 := hl
    rw [if_pos hl]
    refine ⟨_, rfl, ?_, ⟨rfl, rfl, rfl, rfl, rfl, rfl, rfl, rfl, rfl, rfl, rfl, rfl⟩, ?_⟩
    · refine ⟨h.geo.kind rfl rfl (by simp) (fun _ => ⟨hw, hadj⟩), ?_, ?_, h.rng, ?_, ?_⟩
      · intro x hx
        rcases List.mem_cons.mp hx with rfl | hx
        · simp only [Wd, set_eq]
          by_cases h8 : l = 8
          · subst h8
            have e1 : a + 8 - 4 = a + 4 := by omega
            simp only [set, e1, if_true]
            rw [if_neg (by omega), if_neg (by omega), hlo]
            exact ⟨rfl, rfl, rfl⟩
          · simp only [set]
            refine ⟨?_, ?_, ?_⟩
            · rw [if_neg (by omega)]; rfl
            · rw [if_neg (by omega)]; simp [hlo]
            · rw [if_neg (by omega), if_neg (by omega)]; simp [h8]
        · have hd := h.geo.head x hx
          have hxal := h.geo.al x (List.mem_cons_of_mem _ hx)
          unfold Dis at hd
          simp only at hd
          refine (h.wd x (List.mem_cons_of_mem _ hx)).frame (fun _ => ?_)
          refine ⟨?_, fun _ => ?_, ?_⟩ <;> (simp only []; rw [set_ne _ _ (by omega), set_ne _ _ (by omega), set_ne _ _ (by omega)])
      · intro k hk
        obtain ⟨lst, q1, q2, q3, q4⟩ := h.fr k hk
        refine ⟨lst, ?_, ?_, q3, ?_⟩
        · rw [List.filter_cons_of_neg (by simp [lk])] at q1
          rw [List.filter_cons_of_neg (by simp only [lk_iff]; omega)]
          exact q1
        · rw [List.filter_cons_of_neg (by simp [lk])] at q1
          refine q2.frame (fun b hb => ?_)
          obtain ⟨z, hz, rfl, e2, e3, e4⟩ := slot_of q1 hb
          have hd := h.geo.head z hz
          unfold Dis at hd
          simp only at hd
          constructor <;> (simp only []; rw [set_ne _ _ (by omega), set_ne _ _ (by omega), set_ne _ _ (by omega)])
        · rw [q4]
          simp only [wsum]
          rw [if_neg (by simp [lk]), if_neg (by simp only [lk_iff]; omega)]
      · simp only
        rw [h.small]
        simp only [wsum, sm]
        simp [hl32]; omega
      · simp only
        rw [h.avail]
        simp only [wsum, av]
        simp [show ¬ 32 ≤ l by omega]
    · intro b hb _
      simp only
      rw [set_ne _ _ (by omega), set_ne _ _ (by omega), set_ne _ _ (by omega)]
  · have hl32 : 32 ≤ l := by simp only [minSlot] at hl; omega
    rw [if_neg hl, memid_false l hal.2.1]
    simp only
    rw [if_pos (show cf l < numClasses from cf_lt l)]
    obtain ⟨lst, p1, p2, p3, p4⟩ := h.fr (cf l) (cf_lt l)
    have hlst : ∀ b ∈ lst, ∃ z ∈ R, z.adr = b ∧ z.kind = .free ∧ 32 ≤ z.len ∧ cf z.len = cf l := by
      rw [List.filter_cons_of_neg (by simp [lk])] at p1
      exact fun b hb => slot_of p1 hb
    have fin : ∀ (t : Nat → Nat) (hd : Nat → Nat), hd = (if s.tail (cf l) = 0 then set s.head (cf l) a else s.head) →
        t a = 0 → t (a + 4) = enc (a % 262144 / 8) (l / 8) → t (a + l - 4) = enc (a % 262144 / 8) 0 → t (a + 8) = s.tail (cf l) →
        t (a + 16) = 0 → (s.tail (cf l) ≠ 0 → t (s.tail (cf l) + 16) = a) →
        (∀ b, ¬ (a ≤ b ∧ b < a + l) → (s.tail (cf l) ≠ 0 → b ≠ s.tail (cf l) + 16) → t b = s.mem b) →
        ∃ s', (let s2 : St := { s with
                mem := t
                head := hd
                tail := set s.tail (cf l) a
                fspace := set s.fspace (cf l) (s.fspace (cf l) + l)
                fcount := set s.fcount (cf l) (s.fcount (cf l) + 1) }
              let s3 := if s2.fcount (cf l) = 1 then freeAdd s2 (cf l) else s2
              if s3.pct ≠ -1 then
                if (cf l : Int) < s3.pct then some { s3 with fsmall := s3.fsmall + l } else some { s3 with favail := s3.favail + l }
              else if cf l = numClasses - 1 then some { s3 with favail := s3.favail + l } else some s3) = some s' ∧
          Core s' (⟨a, l, .free⟩ :: R) L ∧ Rest s s' ∧
          (∀ b, ¬ (a ≤ b ∧ b < a + l) → (∀ y ∈ R, y.kind = .free → 32 ≤ y.len → b ≠ y.adr + 8 ∧ b ≠ y.adr + 16) → s'.mem b = s.mem b) := by
      intro t hd hhd m1 m2 m3 m4 m5 m6 m7
      subst hhd
      obtain ⟨fm, fx, fn, e1, e2⟩ := freeAdd_ok (s := { s with
          mem := t
          head := if s.tail (cf l) = 0 then set s.head (cf l) a else s.head
          tail := set s.tail (cf l) a
          fspace := set s.fspace (cf l) (s.fspace (cf l) + l)
          fcount := set s.fcount (cf l) (s.fcount (cf l) + 1) }) (f := s.fcount) (k := cf l) (cf_lt l) h.rng rfl
      obtain ⟨c1, c2⟩ := link_core h hw hadj hl32 m1 m2 m3 m4 m5 m6 m7 e2
      refine ⟨_, ?_, c1, ⟨rfl, rfl, rfl, rfl, rfl, rfl, rfl, rfl, rfl, rfl, rfl, rfl⟩, c2⟩
      simp only [e1]
      by_cases hpc : s.pct = -1
      · have h8 : cf l = numClasses - 1 := cf_big.mpr (hp hpc)
        have hnot : ¬ (cf l : Int) < s.pct := by omega
        simp only [hpc, ne_eq, not_true_eq_false, if_false, h8, if_true]
        simp only [hpc, h8] at hnot
        simp only [hnot, if_false]
      · simp only [ne_eq, hpc, not_false_eq_true, if_true]
        by_cases hlt : (cf l : Int) < s.pct
        · simp only [hlt, if_true]
        · simp only [hlt, if_false]
    by_cases ht : s.tail (cf l) = 0
    · have hnil : lst = [] := p2.nil_iff'.mp ht
      have hh : s.head (cf l) = 0 := p2.nil_iff.mpr hnil
      have hc : s.fcount (cf l) = 0 := by rw [p3, hnil]; rfl
      have hs : s.fspace (cf l) = 0 := by
        rw [p4]
        refine wsum_zero (fun x hx => ?_)
        rw [hnil] at p1
        have := List.map_eq_nil_iff.mp (p1.symm.eq_nil)
        have := List.filter_eq_nil_iff.mp this x hx
        simpa using this
      simp only [ht, hh, hc, hs, and_self, if_true]
      have := fin (set (set (set (set (set s.mem (a + l - 4) (enc (a % 262144 / 8) 0)) a 0) (a + 4)
        (enc (lo (set (set s.mem (a + l - 4) (enc (a % 262144 / 8) 0)) a 0 (a + l - 4))) (l / 8))) (a + 16) 0) (a + 8) 0)
        (set s.head (cf l) a) (by rw [if_pos ht])
        (by rw [set_ne _ _ (by omega), set_ne _ _ (by omega), set_ne _ _ (by omega), set_eq])
        (by rw [set_ne _ _ (by omega), set_ne _ _ (by omega), set_eq, set_ne _ _ (by omega), set_eq, hlo])
        (by rw [set_ne _ _ (by omega), set_ne _ _ (by omega), set_ne _ _ (by omega), set_ne _ _ (by omega), set_eq])
        (by rw [set_eq, ht])
        (by rw [set_ne _ _ (by omega), set_eq])
        (fun h => absurd ht h)
        (fun b hb _ => by
          rw [set_ne _ _ (by omega), set_ne _ _ (by omega), set_ne _ _ (by omega), set_ne _ _ (by omega), set_ne _ _ (by omega)])
      simp only [hc, hs] at this
      exact this
    · have hne : lst ≠ [] := fun hh => ht (p2.nil_iff'.mpr hh)
      have hh : s.head (cf l) ≠ 0 := fun hh => hne (p2.nil_iff.mp hh)
      have hc : 0 < s.fcount (cf l) := by rw [p3]; exact List.length_pos_iff.mpr hne
      obtain ⟨z, hz, e1, e2, e3, e4⟩ := hlst _ (p2.2.2 ▸ getLastD_mem hne)
      have hs : 0 < s.fspace (cf l) := by
        rw [p4]
        exact (wsum_pos (fun x hx => (h.geo.al x hx).2.2)).mpr ⟨z, List.mem_cons_of_mem _ hz, lk_iff.mpr ⟨e2, e3, e4⟩⟩
      have hd := h.geo.head z hz
      unfold Dis at hd
      simp only at hd
      simp only [ht, if_false, hh, hc, hs, ne_eq, not_false_eq_true, and_self, if_true]
      exact fin (set (set (set (set (set (set s.mem (a + l - 4) (enc (a % 262144 / 8) 0)) a 0) (a + 4)
        (enc (lo (set (set s.mem (a + l - 4) (enc (a % 262144 / 8) 0)) a 0 (a + l - 4))) (l / 8))) (a + 16) 0) (a + 8) (s.tail (cf l)))
        (s.tail (cf l) + 16) a)
        s.head (by rw [if_neg ht])
        (by rw [set_ne _ _ (by omega), set_ne _ _ (by omega), set_ne _ _ (by omega), set_ne _ _ (by omega), set_eq])
        (by rw [set_ne _ _ (by omega), set_ne _ _ (by omega), set_ne _ _ (by omega), set_eq, set_ne _ _ (by omega), set_eq, hlo])
        (by rw [set_ne _ _ (by omega), set_ne _ _ (by omega), set_ne _ _ (by omega), set_ne _ _ (by omega), set_ne _ _ (by omega), set_eq])
        (by rw [set_ne _ _ (by omega), set_eq])
        (by rw [set_ne _ _ (by omega), set_ne _ _ (by omega), set_eq])
        (fun _ => by rw [set_eq])
        (fun b hb hb2 => by
          rw [set_ne _ _ (hb2 ht), set_ne _ _ (by omega), set_ne _ _ (by omega), set_ne _ _ (by omega), set_ne _ _ (by omega),
            set_ne _ _ (by omega)])

end Verif.Slabs
