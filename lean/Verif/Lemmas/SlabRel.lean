import Verif.Lemmas.SlabAlloc
/-!
# Release keeps the slots in order
-/
namespace Verif.Slabs

theorem Cn.perm {s : St} {S S' : List Slot} (h : Cn s S) (hp : S.Perm S') : Cn s S' where
  wd := fun x hx => h.wd x (hp.mem_iff.mpr hx)
  fr := fun k hk => by
    obtain ⟨l, h1, h2, h3, h4⟩ := h.fr k hk
    exact ⟨l, h1.trans ((hp.filter _).map _), h2, h3, h4.trans (wsum_perm hp)⟩
  rng := h.rng
  small := h.small.trans (wsum_perm hp)
  avail := h.avail.trans (wsum_perm hp)

/-- Two loose slots side by side are one. -/
theorem Core.merge {s : St} {a l n : Nat} {R : List Slot} {L : List Nat} (h : Core s (⟨a, l, .loose⟩ :: ⟨a + l, n, .loose⟩ :: R) L) :
    Core s (⟨a, l + n, .loose⟩ :: R) L :=
  Cn.core (Cn.cons (by simp) trivial ((h.cn.tail (by simp)).tail (by simp))) h.geo.merge

/-- What a step of a release does to the rest. -/
structure Joined (s s' : St) (R R' : List Slot) (L : List Nat) : Prop where
  bl : BlOk s' L
  rest : Rest s s'
  used : (usedOf R').Perm (usedOf R)
  sub : ∀ y ∈ R', y ∈ R
  quiet : Quiet s.mem s'.mem R

theorem quiet_refl (m : Nat → Nat) (S : List Slot) : Quiet m m S := fun _ _ _ _ _ _ => rfl

theorem bl_unlink {s s' : St} {x : Slot} {R : List Slot} {L L' : List Nat} (hb : BlOk s L) (hg : Geo (x :: R) L') (r : Rest s s')
    (f : ∀ b, (∀ y ∈ R, y.kind = .free → 32 ≤ y.len → b ≠ y.adr + 8 ∧ b ≠ y.adr + 16) → s'.mem b = s.mem b) : BlOk s' L := by
  refine hb.frame r.bhead r.btail r.bcount (fun c _ => ?_)
  have low : ∀ b, b % 262144 < 32 → s'.mem b = s.mem b := fun b hlow => f b (links_low hg (fun y hy => List.mem_cons_of_mem _ hy) hlow)
  unfold chunkAdr blockSize
  exact ⟨low _ (by omega), low _ (by omega)⟩

/-- Joining with the slot before. -/
theorem joinPrev_ok {s : St} {p l : Nat} {R : List Slot} {L : List Nat} (h : Core s (⟨p, l, .loose⟩ :: R) L) (hb : BlOk s L) (hp : s.pct ≠ -1)
    (ht : ∀ x ∈ R, x.kind ≠ .loose) :
    ∃ s' a n R', joinPrev s p (p - p % 262144) (p % 262144) l = some (s', a, a % 262144, n) ∧ Core s' (⟨a, n, .loose⟩ :: R') L ∧ Joined s s' R R' L ∧
      (∀ y ∈ R', y.kind = .free → y.adr + y.len ≠ a) ∧ a + n = p + l ∧ a / 262144 = p / 262144 := by
  have hal := h.geo.al _ (List.mem_cons_self ..)
  have hin := h.geo.ins _ (List.mem_cons_self ..)
  simp only at hal hin
  unfold joinPrev
  by_cases ho : headSize < p % 262144
  · rw [if_pos ho]
    have ho' : 32 < p % 262144 := ho
    obtain ⟨y, hy, hye⟩ : ∃ y ∈ R, y.adr + y.len = p := by
      rcases h.geo.lft _ (List.mem_cons_self ..) with hh | ⟨t, ht, hh⟩
      · simp only at hh; omega
      · simp only at hh
        rcases List.mem_cons.mp ht with rfl | ht
        · simp only at hh; omega
        · exact ⟨t, ht, hh⟩
    have hyal := h.geo.al y (List.mem_cons_of_mem _ hy)
    have hyin := h.geo.ins y (List.mem_cons_of_mem _ hy)
    have hwd := h.wd y (List.mem_cons_of_mem _ hy)
    have huniq : ∀ z ∈ R, z.adr + z.len = p → z = y := by
      intro z hz hze
      have hzal := h.geo.al z (List.mem_cons_of_mem _ hz)
      rcases h.geo.cases (List.mem_cons_of_mem _ hz) (List.mem_cons_of_mem _ hy) with he | he
      · exact he
      · unfold Dis at he; omega
    have hpm := List.perm_cons_erase hy
    generalize R.erase y = R1 at hpm
    obtain ⟨a, n, kd⟩ := y
    simp only at hye hyal hyin
    subst hye
    cases kd with
    | loose => exact absurd rfl (ht _ hy)
    | used =>
      simp only [Wd] at hwd
      have h32 := h.geo.usd _ (List.mem_cons_of_mem _ hy) rfl
      simp only at h32
      have hh : Slabs.hi (s.mem (a + n - 4)) = n / 8 := by rw [hwd.2, hi_enc (by omega)]
      unfold prevFree
      simp only [hh]
      rw [if_neg (by omega)]
      refine ⟨s, a + n, l, R, rfl, h, ⟨hb, Rest.refl s, List.Perm.refl _, fun y hy => hy, quiet_refl _ _⟩, ?_, rfl, rfl⟩
      intro z hz hzk hze
      have := huniq z hz hze
      rw [this] at hzk
      simp at hzk
    | free =>
      simp only [Wd] at hwd
      have hwho := h.geo.who _ (List.mem_cons_of_mem _ hy) rfl
      simp only at hwho
      have h1 : Slabs.hi (s.mem (a + n - 4)) ≤ 1 := by
        rw [hwd.2.2]
        split
        · rw [hi_enc (by omega)]; omega
        · rw [hi_enc (by omega)]; omega
      have h2 : lo (s.mem (a + n - 4)) = a % 262144 / 8 := by rw [hwd.2.2, lo_enc (by omega)]
      have h3 : a + n - (a + n) % 262144 + a % 262144 / 8 * 8 = a := by omega
      have h4 : lo (s.mem (a + 4)) = a % 262144 / 8 := by rw [hwd.2.1, lo_enc (by omega)]
      have h5 : Slabs.hi (s.mem (a + 4)) = n / 8 := by rw [hwd.2.1, hi_enc (by omega)]
      unfold prevFree
      simp only [h2, h3, h4]
      rw [if_pos h1, if_pos ⟨trivial, hwd.1⟩]
      simp only
      have c0 : Core s (⟨a, n, .free⟩ :: ⟨a + n, l, .loose⟩ :: R1) L :=
        h.perm ((hpm.cons _).trans (List.Perm.swap ..))
      obtain ⟨s1, u1, c1, r1, f1⟩ := unlink_ok c0 hp
      rw [u1]
      simp only
      have hm : s1.mem (a + 4) = s.mem (a + 4) := by
        refine f1 _ (fun y hy hyk hyl => ?_)
        have hd := c0.geo.head y hy
        unfold Dis at hd
        simp only at hd
        omega
      rw [hm, h4, h5]
      rw [show a % 262144 / 8 * 8 = a % 262144 by omega, show l + n / 8 * 8 = n + l by omega]
      refine ⟨s1, a, n + l, R1, rfl, c1.merge, ⟨bl_unlink hb c0.geo r1 f1, r1, ?_, ?_, ?_⟩, ?_, by omega, by omega⟩
      · have := (hpm.filter (fun x => decide (x.kind = .used))).symm
        rw [List.filter_cons_of_neg (by simp)] at this
        exact this
      · exact fun y hy => hpm.mem_iff.mpr (List.mem_cons_of_mem _ hy)
      · intro y hy hyk b hb1 hb2
        rcases List.mem_cons.mp (hpm.mem_iff.mp hy) with rfl | hy
        · simp at hyk
        · exact f1 b (links_out c0.geo (fun y hy => List.mem_cons_of_mem _ hy)
            (List.mem_cons_of_mem _ (List.mem_cons_of_mem _ hy)) (by simp [hyk]) hb1 hb2)
      · intro y hy hyk
        exact c0.geo.adj y (List.mem_cons_of_mem _ (List.mem_cons_of_mem _ hy)) _ (List.mem_cons_self ..) hyk rfl
  · rw [if_neg ho]
    have ho' : p % 262144 = 32 := by simp only [headSize] at ho; omega
    refine ⟨s, p, l, R, rfl, h, ⟨hb, Rest.refl s, List.Perm.refl _, fun y hy => hy, quiet_refl _ _⟩, ?_, rfl, rfl⟩
    intro y hy _
    have hyal := h.geo.al y (List.mem_cons_of_mem _ hy)
    have hyin := h.geo.ins y (List.mem_cons_of_mem _ hy)
    omega

/-- Joining with the slot behind. -/
theorem joinNext_ok {s : St} {a l e : Nat} {R : List Slot} {L : List Nat} (h : Core s (⟨a, l, .loose⟩ :: R) L) (hb : BlOk s L) (hp : s.pct ≠ -1)
    (ht : ∀ x ∈ R, x.kind ≠ .loose) (he : a + l = e) :
    ∃ s' n R', joinNext s e (a % 262144) l = some (s', n) ∧ Core s' (⟨a, n, .loose⟩ :: R') L ∧ Joined s s' R R' L ∧
      (∀ y ∈ R', y.kind = .free → a + n ≠ y.adr) := by
  subst he
  have hal := h.geo.al _ (List.mem_cons_self ..)
  have hin := h.geo.ins _ (List.mem_cons_self ..)
  simp only at hal hin
  unfold joinNext
  by_cases ho : a % 262144 + l < blockSize
  · rw [if_pos ho]
    have ho' : a % 262144 + l < 262144 := ho
    obtain ⟨y, hy, hye⟩ : ∃ y ∈ R, y.adr = a + l := by
      rcases h.geo.rgt _ (List.mem_cons_self ..) with hh | ⟨t, ht, hh⟩
      · simp only at hh; omega
      · simp only at hh
        rcases List.mem_cons.mp ht with rfl | ht
        · simp only at hh; omega
        · exact ⟨t, ht, hh⟩
    have hyal := h.geo.al y (List.mem_cons_of_mem _ hy)
    have hyin := h.geo.ins y (List.mem_cons_of_mem _ hy)
    have hwd := h.wd y (List.mem_cons_of_mem _ hy)
    have huniq : ∀ z ∈ R, z.adr = a + l → z = y := by
      intro z hz hze
      have hzal := h.geo.al z (List.mem_cons_of_mem _ hz)
      rcases h.geo.cases (List.mem_cons_of_mem _ hz) (List.mem_cons_of_mem _ hy) with he | he
      · exact he
      · unfold Dis at he; omega
    have hpm := List.perm_cons_erase hy
    generalize R.erase y = R1 at hpm
    obtain ⟨b, n, kd⟩ := y
    simp only at hye hyal hyin
    subst hye
    cases kd with
    | loose => exact absurd rfl (ht _ hy)
    | used =>
      simp only [Wd] at hwd
      unfold nextFree
      rw [if_neg hwd.1]
      refine ⟨s, l, R, rfl, h, ⟨hb, Rest.refl s, List.Perm.refl _, fun y hy => hy, quiet_refl _ _⟩, ?_⟩
      intro z hz hzk hze
      have := huniq z hz hze.symm
      rw [this] at hzk
      simp at hzk
    | free =>
      simp only [Wd] at hwd
      have hwho := h.geo.who _ (List.mem_cons_of_mem _ hy) rfl
      simp only at hwho
      have h5 : Slabs.hi (s.mem (a + l + 4)) = n / 8 := by rw [hwd.2.1, hi_enc (by omega)]
      have h4 : lo (s.mem (a + l + 4)) = (a + l) % 262144 / 8 := by rw [hwd.2.1, lo_enc (by omega)]
      have h1 : Slabs.hi (s.mem (a + l + n - 4)) ≤ 1 := by
        rw [hwd.2.2]
        split
        · rw [hi_enc (by omega)]; omega
        · rw [hi_enc (by omega)]; omega
      have h2 : lo (s.mem (a + l + n - 4)) = (a + l) % 262144 / 8 := by rw [hwd.2.2, lo_enc (by omega)]
      unfold nextFree
      rw [if_pos hwd.1]
      simp only [h5, h4, show n / 8 * 8 = n by omega, h2]
      rw [if_pos ⟨trivial, h1⟩]
      simp only
      have c0 : Core s (⟨a + l, n, .free⟩ :: ⟨a, l, .loose⟩ :: R1) L :=
        h.perm ((hpm.cons _).trans (List.Perm.swap ..))
      obtain ⟨s1, u1, c1, r1, f1⟩ := unlink_ok c0 hp
      rw [u1]
      simp only
      have hm : s1.mem (a + l + 4) = s.mem (a + l + 4) := by
        refine f1 _ (fun y hy hyk hyl => ?_)
        have hd := c0.geo.head y hy
        unfold Dis at hd
        simp only at hd
        omega
      rw [hm, h5, show n / 8 * 8 = n by omega]
      refine ⟨s1, l + n, R1, rfl, (c1.perm (List.Perm.swap ..)).merge, ⟨bl_unlink hb c0.geo r1 f1, r1, ?_, ?_, ?_⟩, ?_⟩
      · have := (hpm.filter (fun x => decide (x.kind = .used))).symm
        rw [List.filter_cons_of_neg (by simp)] at this
        exact this
      · exact fun y hy => hpm.mem_iff.mpr (List.mem_cons_of_mem _ hy)
      · intro y hy hyk b hb1 hb2
        rcases List.mem_cons.mp (hpm.mem_iff.mp hy) with rfl | hy
        · simp at hyk
        · exact f1 b (links_out c0.geo (fun y hy => List.mem_cons_of_mem _ hy)
            (List.mem_cons_of_mem _ (List.mem_cons_of_mem _ hy)) (by simp [hyk]) hb1 hb2)
      · intro y hy hyk
        rw [← Nat.add_assoc]
        exact c0.geo.adj _ (List.mem_cons_self ..) y (List.mem_cons_of_mem _ (List.mem_cons_of_mem _ hy)) rfl hyk
  · rw [if_neg ho]
    have ho' : a % 262144 + l = 262144 := by simp only [blockSize] at ho; omega
    refine ⟨s, l, R, rfl, h, ⟨hb, Rest.refl s, List.Perm.refl _, fun y hy => hy, quiet_refl _ _⟩, ?_⟩
    intro y hy _
    have hyin := h.geo.ins y (List.mem_cons_of_mem _ hy)
    omega

/-- What a release does to the pages: nothing, or what giving back a block does. -/
def OldBlock (s s' : St) : Prop := s'.pg = s.pg ∨ ∃ t t' b, t.pg = s.pg ∧ blckFree t b = some t' ∧ s'.pg = t'.pg

/-- The memory of a slot goes back. -/
theorem giveSlot_ok {s : St} {p l : Nat} {R : List Slot} {L : List Nat} (h : Inv s (⟨p, l, .used⟩ :: R) L) :
    ∃ s' S' L', giveSlot s p l = some s' ∧ Core s' S' L' ∧ BlOk s' L' ∧ PgOk s'.pg L' ∧ SameUse s s' ∧ (∀ x ∈ S', x.kind ≠ .loose) ∧
      (usedOf S').Perm (usedOf R) ∧ Quiet s.mem s'.mem R ∧ OldBlock s s' := by
  have hal := h.core.geo.al _ (List.mem_cons_self ..)
  have hin := h.core.geo.ins _ (List.mem_cons_self ..)
  have hwd := h.core.wd _ (List.mem_cons_self ..)
  simp only [Wd] at hal hin hwd
  have hpct : s.pct ≠ -1 := fun hh => by have := h.idle.mp hh; simp at this
  have h1 : lo (s.mem (p + l - 4)) * 8 = p % 262144 := by rw [hwd.2, lo_enc (by omega)]; omega
  have h2 : Slabs.hi (s.mem (p + l - 4)) * 8 = l := by rw [hwd.2, hi_enc (by omega)]; omega
  unfold giveSlot
  simp only [h1, h2]
  rw [if_pos trivial]
  have c0 : Core s (⟨p, l, .loose⟩ :: R) L :=
    Cn.core (Cn.cons (by simp) trivial (h.core.cn.tail (by simp))) (h.core.geo.kind rfl rfl (by simp) (by simp))
  have htR : ∀ x ∈ R, x.kind ≠ .loose := fun x hx => h.tight x (List.mem_cons_of_mem _ hx)
  obtain ⟨s1, a, n, R1, e1, c1, j1, hL1, hend, hblk⟩ := joinPrev_ok c0 h.bl hpct htR
  rw [e1]
  simp only
  obtain ⟨s2, n2, R2, e2, c2, j2, hR2⟩ := joinNext_ok c1 j1.bl (by rw [j1.rest.pct]; exact hpct) (fun x hx => htR x (j1.sub x hx)) hend
  rw [e2]
  simp only
  have hL2 : ∀ y ∈ R2, y.kind = .free → y.adr + y.len ≠ a := fun y hy => hL1 y (j2.sub y hy)
  have hal2 := c2.geo.al _ (List.mem_cons_self ..)
  have hin2 := c2.geo.ins _ (List.mem_cons_self ..)
  simp only at hal2 hin2
  have qt : Quiet s.mem s2.mem R2 := by
    intro y hy hyk b hb1 hb2
    rw [j2.quiet y (j2.sub y hy) hyk b hb1 hb2, j1.quiet y (j1.sub y (j2.sub y hy)) hyk b hb1 hb2]
  have hused : (usedOf R2).Perm (usedOf R) := j2.used.trans j1.used
  have up : ∀ m', Quiet s.mem m' R2 → Quiet s.mem m' R := by
    intro m' hq y hy hyk
    have := hused.mem_iff.mpr (mem_usedOf.mpr ⟨hy, hyk⟩)
    exact hq y (mem_usedOf.mp this).1 hyk
  have ht2 : ∀ x ∈ R2, x.kind ≠ .loose := fun x hx => htR x (j1.sub x (j2.sub x hx))
  by_cases hc : headSize < a % 262144 ∨ n2 < bodySize
  · rw [if_pos hc]
    have hc' : 32 < a % 262144 ∨ n2 < 262112 := hc
    obtain ⟨s3, e3, c3, r3, f3⟩ := link_ok c2 (by omega) (fun y hy hyk => ⟨hL2 y hy hyk, hR2 y hy hyk⟩)
      (fun hh => absurd (by rw [← j1.rest.pct, ← j2.rest.pct]; exact hh) hpct)
    refine ⟨s3, _, L, e3, c3, ?_, by rw [r3.pg, j2.rest.pg, j1.rest.pg]; exact h.pg, j1.rest.same.trans (j2.rest.same.trans r3.same), ?_, ?_, up _ ?_,
      .inl (by rw [r3.pg, j2.rest.pg, j1.rest.pg])⟩
    · refine j2.bl.frame r3.bhead r3.btail r3.bcount (fun c _ => ?_)
      have low : ∀ b, b % 262144 < 32 → s3.mem b = s2.mem b := fun b hlow =>
        f3 b (by omega) (links_low c2.geo (fun y hy => List.mem_cons_of_mem _ hy) hlow)
      unfold chunkAdr blockSize
      exact ⟨low _ (by omega), low _ (by omega)⟩
    · intro x hx
      rcases List.mem_cons.mp hx with rfl | hx
      · simp
      · exact ht2 x hx
    · unfold usedOf
      rw [List.filter_cons_of_neg (by simp)]
      exact hused
    · intro y hy hyk b hb1 hb2
      have hd := c2.geo.head y hy
      unfold Dis at hd
      simp only at hd
      rw [f3 b (by omega) (links_out c2.geo (fun y hy => List.mem_cons_of_mem _ hy) (List.mem_cons_of_mem _ hy) (by simp [hyk]) hb1 hb2)]
      exact qt y hy hyk b hb1 hb2
  · rw [if_neg hc]
    have hc1 : a % 262144 = 32 ∧ n2 = 262112 := by simp only [headSize, bodySize, blockSize] at hc; omega
    obtain ⟨hc1, rfl⟩ := hc1
    have hB : p - p % 262144 = a - 32 := by omega
    rw [hB]
    obtain ⟨L', m, bh, bt, bc, pg, e3, c3, b3, p3, f3⟩ := blckFree_ok c2 j2.bl (by rw [j2.rest.pg, j1.rest.pg]; exact h.pg)
    refine ⟨_, R2, L', e3, c3, b3, p3, (j1.rest.same.trans j2.rest.same).trans ⟨rfl, rfl, rfl, rfl, rfl, rfl, rfl, rfl⟩, ht2, hused, up _ ?_,
      .inr ⟨s2, _, _, by rw [j2.rest.pg, j1.rest.pg], e3, rfl⟩⟩
    intro y hy hyk b hb1 hb2
    have := c2.geo.ins y (List.mem_cons_of_mem _ hy)
    show m b = s.mem b
    rw [f3 b (by omega)]
    exact qt y hy hyk b hb1 hb2

/-- `do_smmgr_free` works. -/
theorem free_ok {s : St} {p size : Nat} {R : List Slot} {L : List Nat} (h : Inv s (⟨p, slen size, .used⟩ :: R) L) :
    ∃ s' S' L', free s p size = some s' ∧ Inv s' S' L' ∧ (usedOf S').Perm (usedOf R) ∧ Quiet s.mem s'.mem R ∧ OldBlock s s' := by
  obtain ⟨l8, l32, -⟩ := slen_spec size
  unfold free
  rw [memid_true _ l8]
  simp only
  rw [if_pos (show cc (slen size) < numClasses from cc_lt _)]
  obtain ⟨s1, S', L', e1, c1, b1, p1, su, t1, u1, q1, ob⟩ := giveSlot_ok h
  rw [e1]
  simp only
  obtain ⟨s', e2, c2, u2, p2, k2⟩ := countFreed_ok c1 (su.use h.use) (su.pc h.pc) (by
    intro hn
    refine c1.geo.nil_of_no_used (fun x hx => ?_)
    have h2 := t1 x hx
    have h3 : x.kind ≠ .used := by
      intro hk
      have := u1.mem_iff.mp (mem_usedOf.mpr ⟨hx, hk⟩)
      exact hn x (mem_usedOf.mp this).1 hk
    cases hk : x.kind <;> simp_all)
  rw [e2]
  refine ⟨s', S', L', rfl, ⟨c2, u2.of_used u1, p2, b1.frame k2.bhead k2.btail k2.bcount (fun c _ => by rw [k2.mem]; exact ⟨rfl, rfl⟩),
    by rw [k2.pg]; exact p1, t1⟩, u1, ?_, by unfold OldBlock; rw [k2.pg]; exact ob⟩
  intro y hy hyk b hb1 hb2
  rw [k2.mem]; exact q1 y hy hyk b hb1 hb2

end Verif.Slabs
