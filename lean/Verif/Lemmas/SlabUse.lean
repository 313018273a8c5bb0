import Verif.Lemmas.SlabCount
/-!
# Counting a slot as used and no longer used
-/
namespace Verif.Slabs

theorem usedAdd_ok {s : St} {f : Nat → Nat} {k : Nat} (hk : k < 709) (hr : Rng f s.umin s.umax s.unum) (hf : s.ucount = set f k (f k + 1)) :
    ∃ um ux un, (if s.ucount k = 1 then usedAdd s k else s) = { s with umin := um, umax := ux, unum := un } ∧ Rng s.ucount um ux un := by
  by_cases h1 : s.ucount k = 1
  · rw [if_pos h1]
    have h0 : f k = 0 := by rw [hf, set_eq] at h1; omega
    refine ⟨_, _, _, rfl, hr.add hk h0 (by omega) (fun j hj => ?_)⟩
    rw [hf, set_ne _ _ hj]
  · rw [if_neg h1]
    refine ⟨s.umin, s.umax, s.unum, rfl, hr.same fun j _ => ?_⟩
    by_cases hj : j = k
    · subst hj
      rw [hf, set_eq] at h1 ⊢
      omega
    · rw [hf, set_ne _ _ hj]

theorem usedDel_ok {s : St} {f : Nat → Nat} {k : Nat} (hk : k < 709) (hr : Rng f s.umin s.umax s.unum) (h1 : 0 < f k)
    (hf : s.ucount = set f k (f k - 1)) :
    ∃ um ux un, (if s.ucount k = 0 then usedDel s k else some s) = some { s with umin := um, umax := ux, unum := un } ∧ Rng s.ucount um ux un := by
  by_cases h0 : s.ucount k = 0
  · rw [if_pos h0]
    unfold usedDel numClasses
    obtain ⟨lo', hi', e1, e2⟩ := hr.del (g := s.ucount) (t := k) hk h0 h1 (fun j hj => by rw [hf, set_ne _ _ hj])
      (p := fun i => decide (0 < s.ucount i)) (by
        intro j _ _ _
        simp only [decide_eq_true_eq])
    refine ⟨lo', hi', s.unum - 1, ?_, e1⟩
    rcases e2 with ⟨q1, q2, q3, q4⟩ | ⟨q1, q2, q3, q4⟩ | ⟨q1, q2, i, q3, q4, q5⟩ | ⟨q1, q2, q3, q4⟩
    · rw [if_pos q1, if_pos q2, q3, q4]
    · rw [if_pos q1, if_neg q2]
      simp only [q3, q4]
    · rw [if_neg q1, if_pos q2]
      simp only [q3, q4, q5]
    · rw [if_neg q1, if_neg q2, q3, q4]
  · rw [if_neg h0]
    refine ⟨s.umin, s.umax, s.unum, rfl, hr.same fun j _ => ?_⟩
    by_cases hj : j = k
    · subst hj
      rw [hf, set_eq] at h0 ⊢
      omega
    · rw [hf, set_ne _ _ hj]

/-- One more used slot in the counters. -/
theorem Use.one {s : St} {a l : Nat} {R : List Slot} (hu : Use s R) (hl : 32 ≤ l) {um : Nat} {ux un : Int}
    (hr : Rng (set s.ucount (cc l) (s.ucount (cc l) + 1)) um ux un) :
    Use { s with
      total := s.total + l
      uspace := set s.uspace (cc l) (s.uspace (cc l) + l)
      ucount := set s.ucount (cc l) (s.ucount (cc l) + 1)
      umin := um
      umax := ux
      unum := un } (⟨a, l, .used⟩ :: R) := by
  refine ⟨fun k hk => ?_, fun k hk => ?_, hr, ?_, fun x hx => ?_⟩
  · simp only [wsum]
    by_cases hkc : k = cc l
    · subst hkc
      rw [set_eq, if_pos (by simp [us]), hu.sp _ hk]; omega
    · rw [set_ne _ _ hkc, if_neg (by simp only [us_iff]; rintro ⟨-, h⟩; exact hkc h.symm), hu.sp k hk]; omega
  · simp only
    by_cases hkc : k = cc l
    · subst hkc
      rw [set_eq, List.filter_cons_of_pos (by simp [us]), hu.ct _ hk]; rfl
    · rw [set_ne _ _ hkc, List.filter_cons_of_neg (by simp only [us_iff]; rintro ⟨-, h⟩; exact hkc h.symm), hu.ct k hk]
  · simp only
    have := (W_set (u := s.uspace) (v := s.uspace (cc l) + l) (cc_lt l) (n := 709) (j := 0) rfl).1 (by omega)
    have := hu.tot
    omega
  · rcases List.mem_cons.mp hx with rfl | hx
    · exact fun _ => hl
    · exact hu.pos x hx

/-- The counting of a new used slot works. -/
theorem countUsed_ok {s : St} {a l : Nat} {R S : List Slot} {L : List Nat} (h : Core s S L) (hu : Use s R) (hpc : Pc s) (hl : 32 ≤ l)
    (h0 : s.total = 0 → ∀ y ∈ S, y.kind = .free → 49152 ≤ y.len) :
    ∃ s', countUsed s l (cc l) = some s' ∧ Core s' S L ∧ Use s' (⟨a, l, .used⟩ :: R) ∧ Pc s' ∧ Keep s s' := by
  unfold countUsed
  obtain ⟨um, ux, un, e1, e2⟩ := usedAdd_ok (s := { s with
    total := s.total + l
    uspace := set s.uspace (cc l) (s.uspace (cc l) + l)
    ucount := set s.ucount (cc l) (s.ucount (cc l) + 1) }) (f := s.ucount) (k := cc l) (cc_lt l) hu.rg rfl
  have hu' := hu.one (a := a) hl e2
  simp only [e1]
  have hcc := cc_lt l
  rcases hpc with ⟨t1, t2, t3⟩ | ⟨p, p1, p2, p3, p4, p5⟩
  · rw [if_pos (by omega), if_pos t3]
    have hbig := h0 t1
    have hmax : s.fmax = -1 := by
      rcases h.rng.2 with ⟨-, r2, -⟩ | ⟨x, r1, r2, r3, r4, r5, r6⟩
      · exact r2
      · exfalso
        have hx8 : x ≠ 708 := by rintro rfl; simp at r5
        replace r5 : 0 < if x = 708 then 0 else s.fcount x := r5
        rw [if_neg hx8] at r5
        obtain ⟨lst, q1, q2, q3, q4⟩ := h.fr x r2
        rw [q3] at r5
        obtain ⟨b, hb⟩ := List.exists_mem_of_ne_nil _ (List.length_pos_iff.mp r5)
        obtain ⟨z, hz, z1, z2, z3, z4⟩ := slot_of q1 hb
        have := cf_big.mpr (hbig z hz z2)
        omega
    unfold firstSet
    simp only [t2, hmax, if_true, ne_eq, not_true_eq_false, if_false]
    refine ⟨_, rfl, ⟨h.geo, h.wd, h.fr, ?_, ?_, ?_⟩, hu'.congr rfl rfl rfl rfl rfl rfl, .inr ⟨cc l, rfl, hcc, ?_, ?_, ?_⟩, ⟨rfl, rfl, rfl, rfl, rfl⟩⟩
    · simp only; rw [← hmax]; exact h.rng
    · simp only
      rw [h.small]
      refine wsum_congr (fun y hy => ?_)
      simp only [sm, t2, decide_eq_decide]
      constructor
      · rintro ⟨y1, y2⟩; have := hbig y hy y1; have := cf_big.mpr this; exfalso; omega
      · rintro ⟨y1, y2⟩; have := hbig y hy y1; have := cf_big.mpr this; exfalso; omega
    · simp only
      rw [h.avail]
      refine wsum_congr (fun y hy => ?_)
      simp only [av, t2, decide_eq_decide]
      constructor
      · rintro ⟨y1, y2⟩; have := hbig y hy y1; have := cf_big.mpr this; exact ⟨y1, by omega, by omega⟩
      · rintro ⟨y1, y2⟩; exact ⟨y1, by omega, by omega⟩
    · simp only [set_eq]; omega
    · have ht := hu'.tot
      simp only at ht
      have hle := W_mono (u := set s.uspace (cc l) (s.uspace (cc l) + l)) (j := 0) (k := cc l) (by omega)
      have hge := W_le (u := set s.uspace (cc l) (s.uspace (cc l) + l)) (j := cc l) (k := cc l) (Nat.le_refl _) hcc
      rw [set_eq] at hge
      simp only
      omega
    · simp only; omega
  · have hpos : 0 < s.total := by
      have := hu.tot
      have := W_le (u := s.uspace) (j := 0) (k := p) (by omega) p2
      omega
    rw [if_neg (by omega)]
    by_cases hpt : s.pct ≤ (cc l : Int)
    · rw [if_pos hpt]
      refine Exists.imp ?_ (moveRight_ok (s := { s with total := s.total + l, uspace := set s.uspace (cc l) (s.uspace (cc l) + l), ucount := set s.ucount (cc l) (s.ucount (cc l) + 1), umin := um, umax := ux, unum := un, pctsp := s.pctsp + l }) (U := ⟨a, l, .used⟩ :: R) (p := p) ⟨h.geo, h.wd, h.fr, h.rng, h.small, h.avail⟩
        (hu'.congr rfl rfl rfl rfl rfl rfl) p1 p2 ?_ ?_)
      · rintro s' ⟨k1, k2, k3, k4, k5⟩
        exact ⟨k1, k2, k3, k4, ⟨k5.mem, k5.bhead, k5.btail, k5.bcount, k5.pg⟩⟩
      · simp only
        have := (W_set (u := s.uspace) (v := s.uspace (cc l) + l) hcc (n := 709 - p) (j := p) rfl).1 (by omega)
        omega
      · simp only; omega
    · rw [if_neg hpt]
      refine Exists.imp ?_ (moveLeft_ok (s := { s with total := s.total + l, uspace := set s.uspace (cc l) (s.uspace (cc l) + l), ucount := set s.ucount (cc l) (s.ucount (cc l) + 1), umin := um, umax := ux, unum := un }) (U := ⟨a, l, .used⟩ :: R) (p := p) ⟨h.geo, h.wd, h.fr, h.rng, h.small, h.avail⟩ hu' p1 p2 ?_ ?_)
      · rintro s' ⟨k1, k2, k3, k4, k5⟩
        exact ⟨k1, k2, k3, k4, ⟨k5.mem, k5.bhead, k5.btail, k5.bcount, k5.pg⟩⟩
      · simp only
        rw [p4, (W_set (u := s.uspace) (v := s.uspace (cc l) + l) hcc (n := 709 - p) (j := p) rfl).2 (by omega)]
      · simp only; omega

/-- One used slot less in the counters. -/
theorem Use.less {s : St} {a l : Nat} {R : List Slot} (hu : Use s (⟨a, l, .used⟩ :: R)) {um : Nat} {ux un : Int}
    (hr : Rng (set s.ucount (cc l) (s.ucount (cc l) - 1)) um ux un) :
    Use { s with
      total := s.total - l
      uspace := set s.uspace (cc l) (s.uspace (cc l) - l)
      ucount := set s.ucount (cc l) (s.ucount (cc l) - 1)
      umin := um
      umax := ux
      unum := un } R := by
  have hsp := hu.sp _ (cc_lt l)
  simp only [wsum] at hsp
  rw [if_pos (by simp [us])] at hsp
  refine ⟨fun k hk => ?_, fun k hk => ?_, hr, ?_, fun x hx => hu.pos x (List.mem_cons_of_mem _ hx)⟩
  · by_cases hkc : k = cc l
    · subst hkc
      simp only; rw [set_eq]; omega
    · have := hu.sp k hk
      simp only [wsum] at this
      rw [if_neg (by simp only [us_iff]; rintro ⟨-, h⟩; exact hkc h.symm)] at this
      simp only; rw [set_ne _ _ hkc]; omega
  · have := hu.ct k hk
    by_cases hkc : k = cc l
    · subst hkc
      rw [List.filter_cons_of_pos (by simp [us]), List.length_cons] at this
      simp only; rw [set_eq]; omega
    · rw [List.filter_cons_of_neg (by simp only [us_iff]; rintro ⟨-, h⟩; exact hkc h.symm)] at this
      simp only; rw [set_ne _ _ hkc]; exact this
  · simp only
    have := (W_set (u := s.uspace) (v := s.uspace (cc l) - l) (cc_lt l) (n := 709) (j := 0) rfl).1 (by omega)
    have := hu.tot
    omega

/-- The counting of a slot that is no longer used works. -/
theorem countFreed_ok {s : St} {a l : Nat} {R S : List Slot} {L : List Nat} (h : Core s S L) (hu : Use s (⟨a, l, .used⟩ :: R)) (hpc : Pc s)
    (h0 : (∀ y ∈ R, y.kind ≠ .used) → S = []) :
    ∃ s', countFreed s l (cc l) = some s' ∧ Core s' S L ∧ Use s' R ∧ Pc s' ∧ Keep s s' := by
  have hcc := cc_lt l
  have hl := hu.pos _ (List.mem_cons_self ..) rfl
  have hsp := hu.sp _ hcc
  simp only [wsum] at hsp hl
  rw [if_pos (by simp [us])] at hsp
  have hct := hu.ct _ hcc
  rw [List.filter_cons_of_pos (by simp [us]), List.length_cons] at hct
  have htot := hu.tot
  have hle := W_le (u := s.uspace) (j := 0) (k := cc l) (by omega) hcc
  unfold countFreed
  rw [if_pos ⟨by omega, by omega, by omega⟩]
  obtain ⟨um, ux, un, e1, e2⟩ := usedDel_ok (s := { s with
    total := s.total - l
    uspace := set s.uspace (cc l) (s.uspace (cc l) - l)
    ucount := set s.ucount (cc l) (s.ucount (cc l) - 1) }) (f := s.ucount) (k := cc l) hcc hu.rg (by omega) rfl
  have hu' := hu.less e2
  simp only [e1]
  rcases hpc with ⟨t1, t2, t3⟩ | ⟨p, p1, p2, p3, p4, p5⟩
  · omega
  · by_cases ht : s.total - l = 0
    · rw [if_pos ht]
      have hnone := hu'.none.mp ht
      have hS := h0 hnone
      subst hS
      have hpl : p = cc l := by
        rw [hu.sp p p2] at p3
        simp only [wsum] at p3
        rw [wsum_zero (fun y hy => by simp [us, hnone y hy])] at p3
        by_cases hc : us p ⟨a, l, .used⟩ = true
        · exact (us_iff.mp hc).2.symm
        · rw [if_neg hc] at p3; omega
      subst hpl
      have hW := W_mono (u := s.uspace) (j := 0) (k := cc l) (by omega)
      have hW2 := W_le (u := s.uspace) (j := cc l) (k := cc l) (Nat.le_refl _) hcc
      rw [if_pos (by omega)]
      have hs := h.small
      have ha := h.avail
      simp only [wsum] at hs ha
      unfold lastClear
      simp only [hs, ha, and_self, if_true]
      exact ⟨_, rfl, ⟨h.geo, h.wd, h.fr, h.rng, rfl, rfl⟩, hu'.congr rfl rfl rfl rfl rfl rfl, .inl ⟨ht, rfl, rfl⟩, ⟨rfl, rfl, rfl, rfl, rfl⟩⟩
    · rw [if_neg ht]
      by_cases hpt : s.pct ≤ (cc l : Int)
      · rw [if_pos hpt]
        have hW2 := W_le (u := s.uspace) (j := p) (k := cc l) (by omega) hcc
        rw [if_pos (by omega)]
        refine Exists.imp ?_ (moveLeft_ok (s := { s with total := s.total - l, uspace := set s.uspace (cc l) (s.uspace (cc l) - l), ucount := set s.ucount (cc l) (s.ucount (cc l) - 1), umin := um, umax := ux, unum := un, pctsp := s.pctsp - l }) (U := R) (p := p) ⟨h.geo, h.wd, h.fr, h.rng, h.small, h.avail⟩
          (hu'.congr rfl rfl rfl rfl rfl rfl) p1 p2 ?_ ?_)
        · rintro s' ⟨k1, k2, k3, k4, k5⟩
          exact ⟨k1, k2, k3, k4, ⟨k5.mem, k5.bhead, k5.btail, k5.bcount, k5.pg⟩⟩
        · simp only
          have := (W_set (u := s.uspace) (v := s.uspace (cc l) - l) hcc (n := 709 - p) (j := p) rfl).1 (by omega)
          omega
        · simp only; omega
      · rw [if_neg hpt]
        refine Exists.imp ?_ (moveRight_ok (s := { s with total := s.total - l, uspace := set s.uspace (cc l) (s.uspace (cc l) - l), ucount := set s.ucount (cc l) (s.ucount (cc l) - 1), umin := um, umax := ux, unum := un }) (U := R) (p := p) ⟨h.geo, h.wd, h.fr, h.rng, h.small, h.avail⟩ hu' p1 p2 ?_ ?_)
        · rintro s' ⟨k1, k2, k3, k4, k5⟩
          exact ⟨k1, k2, k3, k4, ⟨k5.mem, k5.bhead, k5.btail, k5.bcount, k5.pg⟩⟩
        · simp only
          rw [p4, (W_set (u := s.uspace) (v := s.uspace (cc l) - l) hcc (n := 709 - p) (j := p) rfl).2 (by omega)]
        · simp only
          have : (s.total - l) / 100 ≤ s.total / 100 := Nat.div_le_div_right (by omega)
          omega

end Verif.Slabs
