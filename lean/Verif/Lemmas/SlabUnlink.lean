import Verif.Lemmas.SlabLink
/-!
# Taking a slot off its free list
-/
namespace Verif.Slabs

/-- Changes to the links of free slots leave heads and tails alone. -/
theorem wd_frame {S R : List Slot} {L : List Nat} (hg : Geo S L) (hsub : ∀ y ∈ R, y ∈ S) {m m' : Nat → Nat} {x : Slot} (hx : x ∈ S)
    (hw : Wd m x)
    (hfr : ∀ b, x.adr ≤ b → b < x.adr + x.len → (∀ y ∈ R, y.kind = .free → 32 ≤ y.len → b ≠ y.adr + 8 ∧ b ≠ y.adr + 16) → m' b = m b) :
    Wd m' x := by
  have hxal := hg.al x hx
  refine hw.frame (fun _ => ?_)
  have key : ∀ b, x.adr ≤ b → b < x.adr + x.len → b ≠ x.adr + 8 → b ≠ x.adr + 16 → m' b = m b := by
    intro b hb1 hb2 hb3 hb4
    refine hfr b hb1 hb2 (fun y hy hyk hyl => ?_)
    rcases hg.cases hx (hsub y hy) with he | he
    · subst he; exact ⟨hb3, hb4⟩
    · unfold Dis at he; omega
  by_cases hx32 : 32 ≤ x.len
  · exact ⟨key _ (by omega) (by omega) (by omega) (by omega), fun _ => key _ (by omega) (by omega) (by omega) (by omega),
      key _ (by omega) (by omega) (by omega) (by omega)⟩
  · have key2 : ∀ b, x.adr ≤ b → b < x.adr + x.len → m' b = m b := by
      intro b hb1 hb2
      refine hfr b hb1 hb2 (fun y hy hyk hyl => ?_)
      rcases hg.cases hx (hsub y hy) with he | he
      · subst he; exact absurd hyl hx32
      · unfold Dis at he; omega
    exact ⟨key2 _ (by omega) (by omega), fun _ => key2 _ (by omega) (by omega), key2 _ (by omega) (by omega)⟩

/-- The slots after a free slot has been taken off its list. -/
theorem unlink_core {s : St} {a l : Nat} {R : List Slot} {L : List Nat} {m : Nat → Nat} {fm : Nat} {fx fn : Int}
    (h : Core s (⟨a, l, .free⟩ :: R) L) (hl : 32 ≤ l)
    (m1 : s.mem (a + 8) ≠ 0 → m (s.mem (a + 8) + 16) = s.mem (a + 16))
    (m2 : s.mem (a + 16) ≠ 0 → m (s.mem (a + 16) + 8) = s.mem (a + 8))
    (m3 : ∀ b, (s.mem (a + 8) ≠ 0 → b ≠ s.mem (a + 8) + 16) → (s.mem (a + 16) ≠ 0 → b ≠ s.mem (a + 16) + 8) → m b = s.mem b)
    (hr : Rng (fun j => if j = 708 then 0 else set s.fcount (cf l) (s.fcount (cf l) - 1) j) fm fx fn) :
    Core { s with
      mem := m
      head := if s.head (cf l) = a then set s.head (cf l) (s.mem (a + 16)) else s.head
      tail := if s.tail (cf l) = a then set s.tail (cf l) (s.mem (a + 8)) else s.tail
      fspace := set s.fspace (cf l) (s.fspace (cf l) - l)
      fcount := set s.fcount (cf l) (s.fcount (cf l) - 1)
      fmin := fm
      fmax := fx
      fnum := fn
      fsmall := if (cf l : Int) < s.pct then s.fsmall - l else s.fsmall
      favail := if (cf l : Int) < s.pct then s.favail else s.favail - l } (⟨a, l, .loose⟩ :: R) L ∧
    (∀ b, (∀ y ∈ R, y.kind = .free → 32 ≤ y.len → b ≠ y.adr + 8 ∧ b ≠ y.adr + 16) → m b = s.mem b) := by
  have hgeo : Geo (⟨a, l, .loose⟩ :: R) L := h.geo.kind rfl rfl (by simp) (by simp)
  have hal := h.geo.al _ (List.mem_cons_self ..)
  simp only at hal
  obtain ⟨lst, p1, p2, p3, p4⟩ := h.fr (cf l) (cf_lt l)
  have hfil : (⟨a, l, .free⟩ :: R : List Slot).filter (lk (cf l)) = ⟨a, l, .free⟩ :: R.filter (lk (cf l)) :=
    List.filter_cons_of_pos (by simp [lk, hl])
  rw [hfil, List.map_cons] at p1
  have hnd : lst.Nodup := by
    refine p1.nodup_iff.mpr ?_
    have := map_adr_nodup h.geo.inj (lk (cf l))
    rwa [hfil, List.map_cons] at this
  obtain ⟨l1, l2, rfl⟩ := List.append_of_mem (p1.mem_iff.mpr (List.mem_cons_self ..))
  have p1' : (l1 ++ l2).Perm ((R.filter (lk (cf l))).map Slot.adr) := by
    have := (List.perm_middle (l₁ := l1) (l₂ := l2) (a := a)).symm.trans p1
    exact this.cons_inv
  obtain ⟨s1, -, hp, hnx, s2⟩ := seg_append.mp p2.1
  have inl : ∀ b ∈ l1 ++ l2, ∃ z ∈ R, z.adr = b ∧ z.kind = .free ∧ 32 ≤ z.len ∧ cf z.len = cf l := fun b hb => slot_of p1' hb
  have hprev : s.mem (a + 8) ≠ 0 → s.mem (a + 8) ∈ l1 := by
    intro hne
    rw [hp] at hne ⊢
    refine getLastD_mem ?_
    rintro rfl
    exact hne rfl
  have hnext : s.mem (a + 16) ≠ 0 → s.mem (a + 16) ∈ l2 := by
    intro hne
    rw [hnx] at hne ⊢
    refine headD_mem ?_
    rintro rfl
    exact hne rfl
  have hfr : ∀ b, (∀ y ∈ R, y.kind = .free → 32 ≤ y.len → b ≠ y.adr + 8 ∧ b ≠ y.adr + 16) → m b = s.mem b := by
    intro b h2
    refine m3 b (fun hne => ?_) (fun hne => ?_)
    · obtain ⟨z, hz, e1, e2, e3, -⟩ := inl _ (List.mem_append_left _ (hprev hne))
      rw [← e1]; exact (h2 z hz e2 e3).2
    · obtain ⟨z, hz, e1, e2, e3, -⟩ := inl _ (List.mem_append_right _ (hnext hne))
      rw [← e1]; exact (h2 z hz e2 e3).1
  have hsm := h.small
  have hav := h.avail
  simp only [wsum, sm, av, hl, true_and] at hsm hav
  refine ⟨⟨hgeo, ?_, ?_, hr, ?_, ?_⟩, hfr⟩
  · intro x hx
    rcases List.mem_cons.mp hx with rfl | hx
    · trivial
    · exact wd_frame h.geo (fun y hy => List.mem_cons_of_mem _ hy) (List.mem_cons_of_mem _ hx) (h.wd x (List.mem_cons_of_mem _ hx))
        (fun b _ _ hb => hfr b hb)
  · intro k hk
    simp only
    have hnk : (⟨a, l, .loose⟩ :: R : List Slot).filter (lk k) = R.filter (lk k) := by
      rw [List.filter_cons_of_neg]; simp [lk]
    rw [hnk]
    by_cases hkc : k = cf l
    · subst hkc
      refine ⟨l1 ++ l2, p1', ?_, ?_, ?_⟩
      · have := p2.remove (m' := m) hnd ?_ ?_ m1 m2
        · have e1 : (if s.head (cf l) = a then set s.head (cf l) (s.mem (a + 16)) else s.head) (cf l) =
              if s.head (cf l) = a then s.mem (a + 16) else s.head (cf l) := by
            split
            · rw [set_eq]
            · rfl
          have e2 : (if s.tail (cf l) = a then set s.tail (cf l) (s.mem (a + 8)) else s.tail) (cf l) =
              if s.tail (cf l) = a then s.mem (a + 8) else s.tail (cf l) := by
            split
            · rw [set_eq]
            · rfl
          rw [e1, e2]; exact this
        · intro b hb hne
          obtain ⟨z, hz, e1, e2, e3, -⟩ := inl b hb
          refine m3 _ (fun _ hh => hne (Nat.add_right_cancel hh)) (fun hn => ?_)
          obtain ⟨y, hy, f1, f2, f3, -⟩ := inl _ (List.mem_append_right _ (hnext hn))
          rcases h.geo.cases (List.mem_cons_of_mem _ hz) (List.mem_cons_of_mem _ hy) with he | he
          · subst he; omega
          · unfold Dis at he; omega
        · intro b hb hne
          obtain ⟨z, hz, e1, e2, e3, -⟩ := inl b hb
          refine m3 _ (fun hn => ?_) (fun _ hh => hne (Nat.add_right_cancel hh))
          obtain ⟨y, hy, f1, f2, f3, -⟩ := inl _ (List.mem_append_left _ (hprev hn))
          rcases h.geo.cases (List.mem_cons_of_mem _ hz) (List.mem_cons_of_mem _ hy) with he | he
          · subst he; omega
          · unfold Dis at he; omega
      · rw [set_eq, p3]; simp only [List.length_append, List.length_cons]; omega
      · rw [set_eq, p4]
        simp only [wsum]
        rw [if_neg (show ¬ lk (cf l) ⟨a, l, .loose⟩ = true by simp [lk]), if_pos (by simp [lk, hl])]
        omega
    · obtain ⟨lst', q1, q2, q3, q4⟩ := h.fr k hk
      have hnot : ¬ lk k ⟨a, l, .free⟩ = true := by simp only [lk_iff]; rintro ⟨-, -, h⟩; exact hkc h.symm
      rw [List.filter_cons_of_neg hnot] at q1
      refine ⟨lst', q1, ?_, ?_, ?_⟩
      · have e1 : (if s.head (cf l) = a then set s.head (cf l) (s.mem (a + 16)) else s.head) k = s.head k := by
          split
          · exact set_ne _ _ hkc
          · rfl
        have e2 : (if s.tail (cf l) = a then set s.tail (cf l) (s.mem (a + 8)) else s.tail) k = s.tail k := by
          split
          · exact set_ne _ _ hkc
          · rfl
        rw [e1, e2]
        refine q2.frame (fun b hb => ?_)
        obtain ⟨z, hz, rfl, e2, e3, e4⟩ := slot_of q1 hb
        have out : ∀ y ∈ R, cf y.len = cf l → 32 ≤ y.len → z.adr + 8 ≠ y.adr + 16 ∧ z.adr + 8 ≠ y.adr + 8 ∧ z.adr + 16 ≠ y.adr + 8 ∧ z.adr + 16 ≠ y.adr + 16 := by
          intro y hy hc hyl
          rcases h.geo.cases (List.mem_cons_of_mem _ hz) (List.mem_cons_of_mem _ hy) with he | he
          · subst he; exact absurd (e4.symm.trans hc) hkc
          · unfold Dis at he; omega
        constructor
        · refine m3 _ (fun hn => ?_) (fun hn => ?_)
          · obtain ⟨y, hy, f1, f2, f3, f4⟩ := inl _ (List.mem_append_left _ (hprev hn))
            rw [← f1]; exact (out y hy f4 f3).1
          · obtain ⟨y, hy, f1, f2, f3, f4⟩ := inl _ (List.mem_append_right _ (hnext hn))
            rw [← f1]; exact (out y hy f4 f3).2.1
        · refine m3 _ (fun hn => ?_) (fun hn => ?_)
          · obtain ⟨y, hy, f1, f2, f3, f4⟩ := inl _ (List.mem_append_left _ (hprev hn))
            rw [← f1]; exact (out y hy f4 f3).2.2.2
          · obtain ⟨y, hy, f1, f2, f3, f4⟩ := inl _ (List.mem_append_right _ (hnext hn))
            rw [← f1]; exact (out y hy f4 f3).2.2.1
      · rw [set_ne _ _ hkc]; exact q3
      · rw [set_ne _ _ hkc, q4]
        simp only [wsum]
        rw [if_neg hnot, if_neg (show ¬ lk k ⟨a, l, .loose⟩ = true by simp [lk])]
  · simp only [wsum, sm]
    have h32 : ¬ l < 32 := by omega
    by_cases hlt : (cf l : Int) < s.pct
    · simp [hlt] at hsm ⊢; omega
    · simp [hlt, h32] at hsm ⊢; omega
  · simp only [wsum, av]
    by_cases hlt : (cf l : Int) < s.pct
    · simp [hlt, show ¬ s.pct ≤ (cf l : Int) by omega] at hav ⊢; omega
    · simp [hlt, show s.pct ≤ (cf l : Int) by omega] at hav ⊢; omega

/-- `do_smmgr_free_slot_unlink` works. -/
theorem unlink_ok {s : St} {a l : Nat} {R : List Slot} {L : List Nat} (h : Core s (⟨a, l, .free⟩ :: R) L) (hp : s.pct ≠ -1) :
    ∃ s', unlink s a = some s' ∧ Core s' (⟨a, l, .loose⟩ :: R) L ∧ Rest s s' ∧
      (∀ b, (∀ y ∈ R, y.kind = .free → 32 ≤ y.len → b ≠ y.adr + 8 ∧ b ≠ y.adr + 16) → s'.mem b = s.mem b) := by
  have hal := h.geo.al _ (List.mem_cons_self ..)
  have hin := h.geo.ins _ (List.mem_cons_self ..)
  have hw := h.geo.who _ (List.mem_cons_self ..) rfl
  have hwd := h.wd _ (List.mem_cons_self ..)
  simp only [Wd] at hal hin hw hwd
  have hlen : hi (s.mem (a + 4)) * 8 = l := by
    rw [hwd.2.1, hi_enc (by omega)]; omega
  simp only [unlink, hlen]
  have hsm := h.small
  have hav := h.avail
  by_cases hl : l < minSlot
  · have hl32 : l < 32 := hl
    simp only [wsum, sm] at hsm
    simp [hl32] at hsm
    rw [if_pos hl, if_pos (by omega)]
    refine ⟨_, rfl, ⟨h.geo.kind rfl rfl (by simp) (by simp), ?_, ?_, h.rng, ?_, ?_⟩, ⟨rfl, rfl, rfl, rfl, rfl, rfl, rfl, rfl, rfl, rfl, rfl, rfl⟩,
      fun _ _ => rfl⟩
    · intro x hx
      rcases List.mem_cons.mp hx with rfl | hx
      · trivial
      · exact h.wd x (List.mem_cons_of_mem _ hx)
    · intro k hk
      obtain ⟨lst, q1, q2, q3, q4⟩ := h.fr k hk
      have hnot : ¬ lk k ⟨a, l, .free⟩ = true := by simp only [lk_iff]; omega
      rw [List.filter_cons_of_neg hnot] at q1
      refine ⟨lst, ?_, q2, q3, ?_⟩
      · rw [List.filter_cons_of_neg (by simp [lk])]; exact q1
      · rw [q4]
        simp only [wsum]
        rw [if_neg hnot, if_neg (show ¬ lk k ⟨a, l, .loose⟩ = true by simp [lk])]
    · simp only [wsum, sm]
      simp; omega
    · rw [hav]
      simp only [wsum, av]
      simp [show ¬ 32 ≤ l by omega]
  · have hl32 : 32 ≤ l := by simp only [minSlot] at hl; omega
    rw [if_neg hl, memid_false l hal.2.1]
    simp only [wsum, sm, av, hl32, true_and] at hsm hav
    simp only
    rw [if_pos (show cf l < numClasses ∧ s.pct ≠ -1 from ⟨cf_lt l, hp⟩)]
    have hst : (if (cf l : Int) < s.pct then (if l ≤ s.fsmall then some { s with fsmall := s.fsmall - l } else none)
          else (if l ≤ s.favail then some { s with favail := s.favail - l } else none)) =
        some { s with
          fsmall := if (cf l : Int) < s.pct then s.fsmall - l else s.fsmall
          favail := if (cf l : Int) < s.pct then s.favail else s.favail - l } := by
      by_cases hlt : (cf l : Int) < s.pct
      · simp [hlt] at hsm ⊢
        omega
      · simp [hlt, show s.pct ≤ (cf l : Int) by omega] at hav ⊢
        omega
    rw [hst]
    simp only
    obtain ⟨lst, p1, p2, p3, p4⟩ := h.fr (cf l) (cf_lt l)
    have hfil : (⟨a, l, .free⟩ :: R : List Slot).filter (lk (cf l)) = ⟨a, l, .free⟩ :: R.filter (lk (cf l)) :=
      List.filter_cons_of_pos (by simp [lk, hl32])
    rw [hfil, List.map_cons] at p1
    have hnd : lst.Nodup := by
      refine p1.nodup_iff.mpr ?_
      have := map_adr_nodup h.geo.inj (lk (cf l))
      rwa [hfil, List.map_cons] at this
    obtain ⟨l1, l2, rfl⟩ := List.append_of_mem (p1.mem_iff.mpr (List.mem_cons_self ..))
    have p1' : (l1 ++ l2).Perm ((R.filter (lk (cf l))).map Slot.adr) := by
      have := (List.perm_middle (l₁ := l1) (l₂ := l2) (a := a)).symm.trans p1
      exact this.cons_inv
    obtain ⟨s1, -, hpv, hnx, s2⟩ := seg_append.mp p2.1
    have p3' : s.fcount (cf l) = l1.length + l2.length + 1 := by
      rw [p3]; simp only [List.length_append, List.length_cons]; omega
    have p4' : s.fspace (cf l) = l + wsum (lk (cf l)) R := by
      rw [p4]; simp only [wsum]; rw [if_pos (by simp [lk, hl32])]
    by_cases h1 : s.fcount (cf l) = 1
    · have e1 : l1 = [] := List.length_eq_zero_iff.mp (by omega)
      have e2 : l2 = [] := List.length_eq_zero_iff.mp (by omega)
      subst e1 e2
      have hR : wsum (lk (cf l)) R = 0 := by
        refine wsum_zero (fun x hx => ?_)
        have := List.map_eq_nil_iff.mp (p1'.symm.eq_nil)
        have := List.filter_eq_nil_iff.mp this x hx
        simpa using this
      have hh : s.head (cf l) = a := p2.2.1
      have ht : s.tail (cf l) = a := p2.2.2
      have hpv : s.mem (a + 8) = 0 := hpv
      have hnx : s.mem (a + 16) = 0 := hnx
      rw [if_pos h1, if_pos ⟨by omega, hh, ht⟩]
      have hne : ∀ j, j < 709 → (set s.head (cf l) 0 j ≠ 0 ↔ 0 < set s.fcount (cf l) 0 j) := by
        intro j hj
        by_cases hjc : j = cf l
        · subst hjc; simp [set_eq]
        · rw [set_ne _ _ hjc, set_ne _ _ hjc]
          obtain ⟨lst', q1, q2, q3, q4⟩ := h.fr j hj
          rw [q3]
          constructor
          · intro hne; exact List.length_pos_iff.mpr (fun hh => hne (q2.nil_iff.mpr hh))
          · intro hpos hh; exact (List.length_pos_iff.mp hpos) (q2.nil_iff.mp hh)
      obtain ⟨fm, fx, fn, e1, e2⟩ := freeDel_ok (s := { s with
          head := set s.head (cf l) 0
          tail := set s.tail (cf l) 0
          fspace := set s.fspace (cf l) 0
          fcount := set s.fcount (cf l) 0
          fsmall := if (cf l : Int) < s.pct then s.fsmall - l else s.fsmall
          favail := if (cf l : Int) < s.pct then s.favail else s.favail - l }) (f := s.fcount) (k := cf l) (cf_lt l) h.rng h1 rfl hne
      have hc0 : set s.fcount (cf l) 0 = set s.fcount (cf l) (s.fcount (cf l) - 1) := by rw [h1]
      have hf0 : set s.fspace (cf l) 0 = set s.fspace (cf l) (s.fspace (cf l) - l) := by rw [p4', hR]; congr 1; omega
      simp only [hc0] at e2
      obtain ⟨c1, c2⟩ := unlink_core (m := s.mem) h hl32 (fun hn => absurd hpv hn) (fun hn => absurd hnx hn) (fun _ _ _ => rfl) e2
      rw [if_pos hh, if_pos ht, hpv, hnx, ← hc0, ← hf0] at c1
      exact ⟨_, e1, c1, ⟨rfl, rfl, rfl, rfl, rfl, rfl, rfl, rfl, rfl, rfl, rfl, rfl⟩, c2⟩
    · have hpos : 0 < wsum (lk (cf l)) R := by
        refine (wsum_pos (fun x hx => (h.geo.al x (List.mem_cons_of_mem _ hx)).2.2)).mpr ?_
        have hne : l1 ++ l2 ≠ [] := by
          intro hh
          have := congrArg List.length hh
          simp only [List.length_append, List.length_nil] at this
          omega
        obtain ⟨b, hb⟩ := List.exists_mem_of_ne_nil _ hne
        obtain ⟨z, hz, z1, z2, z3, z4⟩ := slot_of p1' hb
        exact ⟨z, hz, lk_iff.mpr ⟨z2, z3, z4⟩⟩
      have hh0 : s.head (cf l) ≠ 0 := fun hh => by have := p2.nil_iff.mp hh; simp at this
      have ht0 : s.tail (cf l) ≠ 0 := fun hh => by have := p2.nil_iff'.mp hh; simp at this
      rw [if_neg h1, if_pos ⟨by omega, by omega, hh0, ht0⟩]
      have inl : ∀ b ∈ l1 ++ l2, (a + 32 ≤ b ∨ b + 32 ≤ a) := by
        intro b hb
        obtain ⟨z, hz, rfl, z2, z3, z4⟩ := slot_of p1' hb
        have := h.geo.head z hz
        unfold Dis at this
        simp only at this
        omega
      have hprev : s.mem (a + 8) ≠ 0 → s.mem (a + 8) ∈ l1 := by
        intro hne
        rw [hpv] at hne ⊢
        refine getLastD_mem ?_
        rintro rfl
        exact hne rfl
      have hnext : s.mem (a + 16) ≠ 0 → s.mem (a + 16) ∈ l2 := by
        intro hne
        rw [hnx] at hne ⊢
        refine headD_mem ?_
        rintro rfl
        exact hne rfl
      have hpn : s.mem (a + 8) ≠ 0 → s.mem (a + 16) ≠ 0 → s.mem (a + 8) + 16 ≠ s.mem (a + 16) + 8 := by
        intro h1 h2
        obtain ⟨z, hz, z1, z2, z3, z4⟩ := slot_of p1' (List.mem_append_left _ (hprev h1))
        obtain ⟨y, hy, y1, y2, y3, y4⟩ := slot_of p1' (List.mem_append_right _ (hnext h2))
        rw [← z1, ← y1]
        rcases h.geo.cases (List.mem_cons_of_mem _ hz) (List.mem_cons_of_mem _ hy) with he | he
        · subst he; omega
        · unfold Dis at he; omega
      have hr : Rng (fun j => if j = 708 then 0 else set s.fcount (cf l) (s.fcount (cf l) - 1) j) s.fmin s.fmax s.fnum := by
        refine h.rng.same (fun j _ => ?_)
        by_cases hj : j = cf l
        · subst hj; rw [set_eq]; split <;> omega
        · rw [set_ne _ _ hj]
      generalize hm1 : (if s.mem (a + 8) ≠ 0 then set s.mem (s.mem (a + 8) + 16) (s.mem (a + 16)) else s.mem) = m1
      have k1 : m1 (a + 16) = s.mem (a + 16) ∧ m1 (a + 8) = s.mem (a + 8) := by
        rw [← hm1]
        split
        · rename_i hn
          have := inl _ (List.mem_append_left _ (hprev hn))
          exact ⟨set_ne _ _ (by omega), set_ne _ _ (by omega)⟩
        · exact ⟨rfl, rfl⟩
      rw [k1.1, k1.2]
      generalize hm2 : (if s.mem (a + 16) ≠ 0 then set m1 (s.mem (a + 16) + 8) (s.mem (a + 8)) else m1) = m2
      have k2 : m2 (a + 16) = s.mem (a + 16) ∧ m2 (a + 8) = s.mem (a + 8) := by
        rw [← hm2]
        split
        · rename_i hn
          have := inl _ (List.mem_append_right _ (hnext hn))
          exact ⟨by rw [set_ne _ _ (by omega), k1.1], by rw [set_ne _ _ (by omega), k1.2]⟩
        · exact k1
      rw [k2.1, k2.2]
      obtain ⟨c1, c2⟩ := unlink_core (m := m2) h hl32 (by
          intro hn
          rw [← hm2]
          split
          · rename_i hn2
            rw [set_ne _ _ (hpn hn hn2), ← hm1, if_pos hn, set_eq]
          · rw [← hm1, if_pos hn, set_eq]) (by
          intro hn
          rw [← hm2, if_pos hn, set_eq]) (by
          intro b hb1 hb2
          have q : m1 b = s.mem b := by
            rw [← hm1]
            split
            · rename_i hn; exact set_ne _ _ (hb1 hn)
            · rfl
          rw [← hm2]
          split
          · rename_i hn; rw [set_ne _ _ (hb2 hn), q]
          · exact q) hr
      exact ⟨_, rfl, c1, ⟨rfl, rfl, rfl, rfl, rfl, rfl, rfl, rfl, rfl, rfl, rfl, rfl⟩, c2⟩

end Verif.Slabs
