import Verif.Lemmas.SlabUse
/-!
# Allocation keeps the slots in order
-/
namespace Verif.Slabs

/-! ## Slots that are not free -/

/-- `Core` without the geometry. -/
structure Cn (s : St) (S : List Slot) : Prop where
  wd : ∀ x ∈ S, Wd s.mem x
  fr : FreeOk s.mem s.head s.tail s.fspace s.fcount S
  rng : Rng (fun k => if k = 708 then 0 else s.fcount k) s.fmin s.fmax s.fnum
  small : s.fsmall = wsum (sm s.pct) S
  avail : s.favail = wsum (av s.pct) S

theorem Core.cn {s : St} {S : List Slot} {L : List Nat} (h : Core s S L) : Cn s S := ⟨h.wd, h.fr, h.rng, h.small, h.avail⟩

theorem Cn.core {s : St} {S : List Slot} {L : List Nat} (h : Cn s S) (hg : Geo S L) : Core s S L := ⟨hg, h.wd, h.fr, h.rng, h.small, h.avail⟩

theorem Cn.tail {s : St} {x : Slot} {R : List Slot} (hx : x.kind ≠ .free) (h : Cn s (x :: R)) : Cn s R where
  wd := fun y hy => h.wd y (List.mem_cons_of_mem _ hy)
  fr := fun k hk => by
    obtain ⟨lst, q1, q2, q3, q4⟩ := h.fr k hk
    rw [List.filter_cons_of_neg (by simp [lk, hx])] at q1
    refine ⟨lst, q1, q2, q3, ?_⟩
    simp only [wsum] at q4; rw [if_neg (by simp [lk, hx])] at q4; omega
  rng := h.rng
  small := by have := h.small; simp only [wsum] at this; rw [if_neg (by simp [sm, hx])] at this; omega
  avail := by have := h.avail; simp only [wsum] at this; rw [if_neg (by simp [av, hx])] at this; omega

theorem Cn.cons {s : St} {x : Slot} {R : List Slot} (hx : x.kind ≠ .free) (hw : Wd s.mem x) (h : Cn s R) : Cn s (x :: R) where
  wd := fun y hy => by
    rcases List.mem_cons.mp hy with rfl | hy
    · exact hw
    · exact h.wd y hy
  fr := fun k hk => by
    obtain ⟨lst, q1, q2, q3, q4⟩ := h.fr k hk
    refine ⟨lst, ?_, q2, q3, ?_⟩
    · rw [List.filter_cons_of_neg (by simp [lk, hx])]; exact q1
    · simp only [wsum]; rw [if_neg (by simp [lk, hx])]; omega
  rng := h.rng
  small := by simp only [wsum]; rw [if_neg (by simp [sm, hx]), h.small]; omega
  avail := by simp only [wsum]; rw [if_neg (by simp [av, hx]), h.avail]; omega

/-- Writing outside the slots, or into one that is not in the list. -/
theorem Cn.write {s : St} {S : List Slot} (h : Cn s S) (hlen : ∀ x ∈ S, 8 ≤ x.len) {m : Nat → Nat}
    (hm : ∀ x ∈ S, ∀ b, x.adr ≤ b → b < x.adr + x.len → m b = s.mem b) : Cn { s with mem := m } S where
  wd := fun x hx => by
    have := hlen x hx
    exact (h.wd x hx).frame (fun _ => ⟨hm x hx _ (by omega) (by omega), fun _ => hm x hx _ (by omega) (by omega), hm x hx _ (by omega) (by omega)⟩)
  fr := fun k hk => by
    obtain ⟨lst, q1, q2, q3, q4⟩ := h.fr k hk
    refine ⟨lst, q1, q2.frame (fun a ha => ?_), q3, q4⟩
    obtain ⟨z, hz, rfl, -, z3, -⟩ := slot_of q1 ha
    exact ⟨hm z hz _ (by omega) (by omega), hm z hz _ (by omega) (by omega)⟩
  rng := h.rng
  small := h.small
  avail := h.avail

theorem Geo.len8 {S : List Slot} {L : List Nat} (h : Geo S L) : ∀ x ∈ S, 8 ≤ x.len := fun x hx => by
  have := h.al x hx
  omega

theorem Geo.tailLen {x : Slot} {S : List Slot} {L : List Nat} (h : Geo (x :: S) L) : ∀ x ∈ S, 8 ≤ x.len := fun y hy =>
  h.len8 y (List.mem_cons_of_mem _ hy)

/-! ## The invariant -/

/-- The used slots. -/
def usedOf (S : List Slot) : List Slot := S.filter (fun x => decide (x.kind = .used))

theorem mem_usedOf {S : List Slot} {x : Slot} : x ∈ usedOf S ↔ x ∈ S ∧ x.kind = .used := by simp [usedOf]

theorem wsum_usedOf {k : Nat} : ∀ {S : List Slot}, wsum (us k) S = wsum (us k) (usedOf S)
  | [] => rfl
  | x :: S => by
    unfold usedOf
    by_cases hx : x.kind = .used
    · rw [List.filter_cons_of_pos (by simp [hx])]; simp only [wsum]
      rw [wsum_usedOf (S := S)]; rfl
    · rw [List.filter_cons_of_neg (by simp [hx])]; simp only [wsum]
      rw [if_neg (by simp [us_iff, hx]), wsum_usedOf (S := S)]
      unfold usedOf; omega

theorem filter_usedOf {k : Nat} {S : List Slot} : S.filter (us k) = (usedOf S).filter (us k) := by
  unfold usedOf
  rw [List.filter_filter]
  congr 1
  funext x
  simp only [us]
  by_cases hx : x.kind = .used <;> simp [hx]

/-- Only the used slots matter to the counters. -/
theorem Use.of_used {s : St} {S S' : List Slot} (h : Use s S) (hp : (usedOf S').Perm (usedOf S)) : Use s S' where
  sp := fun k hk => by rw [h.sp k hk, wsum_usedOf (S := S), wsum_usedOf (S := S')]; exact (wsum_perm hp).symm
  ct := fun k hk => by rw [h.ct k hk, filter_usedOf (S := S), filter_usedOf (S := S')]; exact (hp.filter _).length_eq.symm
  rg := h.rg
  tot := h.tot
  pos := fun x hx hk => by
    have := hp.mem_iff.mp (mem_usedOf.mpr ⟨hx, hk⟩)
    exact h.pos x (mem_usedOf.mp this).1 hk

/-- The counters of used space are the same. -/
structure SameUse (s s' : St) : Prop where
  uspace : s'.uspace = s.uspace
  ucount : s'.ucount = s.ucount
  umin : s'.umin = s.umin
  umax : s'.umax = s.umax
  unum : s'.unum = s.unum
  pct : s'.pct = s.pct
  total : s'.total = s.total
  pctsp : s'.pctsp = s.pctsp

theorem SameUse.refl (s : St) : SameUse s s := ⟨rfl, rfl, rfl, rfl, rfl, rfl, rfl, rfl⟩

theorem SameUse.trans {s t u : St} (h : SameUse s t) (k : SameUse t u) : SameUse s u :=
  ⟨k.uspace.trans h.uspace, k.ucount.trans h.ucount, k.umin.trans h.umin, k.umax.trans h.umax, k.unum.trans h.unum, k.pct.trans h.pct,
    k.total.trans h.total, k.pctsp.trans h.pctsp⟩

theorem Rest.same {s s' : St} (h : Rest s s') : SameUse s s' :=
  ⟨h.uspace, h.ucount, h.umin, h.umax, h.unum, h.pct, h.total, h.pctsp⟩

theorem SameUse.use {s s' : St} {S : List Slot} (h : SameUse s s') (hu : Use s S) : Use s' S :=
  hu.congr h.uspace h.ucount h.umin h.umax h.unum h.total

theorem SameUse.pc {s s' : St} (h : SameUse s s') (hp : Pc s) : Pc s' := by
  unfold Pc at hp ⊢
  rw [h.total, h.pct, h.pctsp, h.uspace]
  exact hp

/-- Everything agrees. -/
structure Inv (s : St) (S : List Slot) (L : List Nat) : Prop where
  core : Core s S L
  use : Use s S
  pc : Pc s
  bl : BlOk s L
  pg : PgOk s.pg L
  tight : ∀ x ∈ S, x.kind ≠ .loose

theorem Inv.perm {s : St} {S S' : List Slot} {L : List Nat} (h : Inv s S L) (hp : S.Perm S') : Inv s S' L :=
  ⟨h.core.perm hp, h.use.perm hp, h.pc, h.bl, h.pg, fun x hx => h.tight x (hp.mem_iff.mpr hx)⟩

theorem Inv.idle {s : St} {S : List Slot} {L : List Nat} (h : Inv s S L) : s.pct = -1 ↔ S = [] := by
  constructor
  · intro hp
    rcases h.pc with ⟨t1, -, -⟩ | ⟨p, p1, -⟩
    · refine h.core.geo.nil_of_no_used (fun x hx => ?_)
      have h1 := h.use.none.mp t1 x hx
      have h2 := h.tight x hx
      cases hk : x.kind <;> simp_all
    · omega
  · rintro rfl
    rcases h.pc with ⟨-, t2, -⟩ | ⟨p, p1, p2, p3, -⟩
    · exact t2
    · rw [h.use.sp p p2] at p3; simp [wsum] at p3

theorem Inv.busy {s : St} {S : List Slot} {L : List Nat} (h : Inv s S L) (ht : s.total = 0) : S = [] := by
  refine h.core.geo.nil_of_no_used (fun x hx => ?_)
  have h1 := h.use.none.mp ht x hx
  have h2 := h.tight x hx
  cases hk : x.kind <;> simp_all

theorem Core.heads {s : St} {S : List Slot} {L : List Nat} (h : Core s S L) {k : Nat} (hk : k < 709) : s.head k ≠ 0 ↔ 0 < s.fcount k := by
  obtain ⟨lst', q1, q2, q3, q4⟩ := h.fr k hk
  rw [q3]
  constructor
  · intro hne; exact List.length_pos_iff.mpr (fun hh => hne (q2.nil_iff.mpr hh))
  · intro hpos hh; exact (List.length_pos_iff.mp hpos) (q2.nil_iff.mp hh)

/-! ## Choice of a class -/

theorem pickClass_ok {s : St} {S : List Slot} {L : List Nat} (h : Core s S L) (hpc : Pc s) {l : Nat} (h1 : 32 ≤ l) (h2 : l % 8 = 0) (short : Bool) :
    ∃ k, pickClass s short l (cc l) = some k ∧ k < 709 ∧ cc l ≤ k ∧ (s.head k ≠ 0 ∨ k = 708 ∧ s.fmax < (cc l : Int)) := by
  have hcc := cc_lt l
  unfold pickClass
  by_cases c1 : s.fmax < (cc l : Int)
  · rw [if_pos c1]; exact ⟨708, rfl, by omega, by omega, .inr ⟨rfl, c1⟩⟩
  · rw [if_neg c1]
    obtain ⟨x, x1, x2, x3⟩ : ∃ x : Nat, s.fmax = x ∧ x < 708 ∧ s.head x ≠ 0 := by
      rcases h.rng.2 with ⟨-, r2, -⟩ | ⟨x, r1, r2, r3, r4, r5, r6⟩
      · omega
      · replace r5 : 0 < if x = 708 then 0 else s.fcount x := r5
        have hx8 : x ≠ 708 := by rintro rfl; simp at r5
        rw [if_neg hx8] at r5
        exact ⟨x, r1, by omega, (h.heads r2).mpr r5⟩
    by_cases c2 : s.head (cc l) ≠ 0
    · rw [if_pos c2]; exact ⟨_, rfl, hcc, Nat.le_refl _, .inl c2⟩
    · rw [if_neg c2]
      have fin : ∀ st : Nat, cc l ≤ st → ∃ k, (if s.fmax < (st : Int) then some s.fmax.toNat
          else up (fun i => decide (s.head i ≠ 0)) st (s.fmax + 1 - st).toNat) = some k ∧ k < 709 ∧ cc l ≤ k ∧
          (s.head k ≠ 0 ∨ k = 708 ∧ s.fmax < (cc l : Int)) := by
        intro st hst
        by_cases c3 : s.fmax < (st : Int)
        · rw [if_pos c3]; exact ⟨_, rfl, by omega, by omega, .inl (by rw [x1]; exact x3)⟩
        · rw [if_neg c3]
          obtain ⟨i, e1, e2, e3, e4, -⟩ := up_some (p := fun i => decide (s.head i ≠ 0)) (n := (s.fmax + 1 - st).toNat) (a := st)
            ⟨x, by omega, by omega, by simp [x3]⟩
          exact ⟨i, e1, by omega, by omega, .inl (by simpa using e4)⟩
      by_cases c4 : s.pct ≤ (cc l : Int)
      · rw [if_pos c4]
        exact fin _ (by omega)
      · rw [if_neg c4]
        obtain ⟨p, p1, p2⟩ : ∃ p : Nat, s.pct = p ∧ p < 709 := by
          rcases hpc with ⟨-, t2, -⟩ | ⟨p, p1, p2, -⟩
          · omega
          · exact ⟨p, p1, p2⟩
        rw [memid_false _ (by omega)]
        have hd := cc_le_double h1 h2
        simp only
        have hst : cc l ≤ (if (cf (l * 2) : Int) < s.pct then cf (l * 2) else s.pct.toNat) := by split <;> omega
        generalize htop : (if (cf (l * 2) : Int) < s.pct then cf (l * 2) - 1 else (s.pct - 1).toNat) = top
        have ht9 : top < 709 := by have := cf_lt (l * 2); rw [← htop]; split <;> omega
        have f2 := fin _ hst
        by_cases hs : short = true
        · rw [if_pos hs]
          rcases down_none_or (p := fun i => decide (s.head i ≠ 0)) (n := top - cc l) (a := top) (by omega) with e | ⟨i, e1, e2, e3, e4⟩
          · rw [e]; exact f2
          · rw [e1]; exact ⟨i, rfl, by omega, by omega, .inl (by simpa using e4)⟩
        · rw [if_neg hs]; exact f2

/-! ## Taking a slot -/

/-- Memory outside the free slots and the block heads is as it was. -/
def Quiet (m m' : Nat → Nat) (S : List Slot) : Prop := ∀ y ∈ S, y.kind = .used → ∀ b, y.adr ≤ b → b < y.adr + y.len → m' b = m b

theorem links_out {S R : List Slot} {L : List Nat} (hg : Geo S L) (hsub : ∀ y ∈ R, y ∈ S) {x : Slot} (hx : x ∈ S) (hk : x.kind ≠ .free) {b : Nat}
    (h1 : x.adr ≤ b) (h2 : b < x.adr + x.len) : ∀ y ∈ R, y.kind = .free → 32 ≤ y.len → b ≠ y.adr + 8 ∧ b ≠ y.adr + 16 := by
  intro y hy hyk hyl
  rcases hg.cases hx (hsub y hy) with he | he
  · subst he; exact absurd hyk hk
  · unfold Dis at he; omega

theorem links_low {S R : List Slot} {L : List Nat} (hg : Geo S L) (hsub : ∀ y ∈ R, y ∈ S) {b : Nat} (h1 : b % 262144 < 32) :
    ∀ y ∈ R, y.kind = .free → 32 ≤ y.len → b ≠ y.adr + 8 ∧ b ≠ y.adr + 16 := by
  intro y hy hyk hyl
  have := hg.ins y (hsub y hy)
  omega

/-- A loose slot becomes used. -/
theorem usedInit_ok {s : St} {a l : Nat} {R : List Slot} {L : List Nat} (h : Core s (⟨a, l, .loose⟩ :: R) L) (hl : 32 ≤ l) :
    ∃ m, usedInit s.mem a (a % 262144) l = some m ∧ Core { s with mem := m } (⟨a, l, .used⟩ :: R) L ∧
      (∀ b, ¬ (a ≤ b ∧ b < a + l) → m b = s.mem b) := by
  have hal := h.geo.al _ (List.mem_cons_self ..)
  have hin := h.geo.ins _ (List.mem_cons_self ..)
  simp only at hal hin
  unfold usedInit
  rw [if_pos ⟨by omega, hal.2.1⟩]
  have hfr : ∀ b, ¬ (a ≤ b ∧ b < a + l) → set (set s.mem (a + l - 4) (enc (a % 262144 / 8) (l / 8))) a 4294967295 b = s.mem b := by
    intro b hb
    rw [set_ne _ _ (by omega), set_ne _ _ (by omega)]
  refine ⟨_, rfl, Cn.core ?_ (h.geo.kind rfl rfl (fun _ => hl) (by simp)), hfr⟩
  refine Cn.cons (by simp) ?_ ((h.cn.tail (by simp)).write h.geo.tailLen ?_)
  · simp only [Wd]
    refine ⟨by rw [set_eq]; decide, ?_⟩
    rw [set_ne _ _ (by omega), set_eq]
  · intro x hx b hb1 hb2
    have := h.geo.head x hx
    unfold Dis at this
    simp only at this
    exact hfr b (by omega)

/-- The front of a loose slot becomes used, the remainder free. -/
theorem carve_ok {s : St} {a l n : Nat} {R : List Slot} {L : List Nat} (h : Core s (⟨a, l, .loose⟩ :: R) L) (hb : BlOk s L) (hn : 32 ≤ n) (hn8 : n % 8 = 0)
    (hnl : n < l) (hadj : ∀ y ∈ R, y.kind = .free → a + l ≠ y.adr) (hp : s.pct = -1 → 49152 ≤ l - n) :
    ∃ m s', usedInit s.mem a (a % 262144) n = some m ∧ link { s with mem := m } (a + n) (a % 262144 + n) (l - n) = some s' ∧
      Core s' (⟨a, n, .used⟩ :: ⟨a + n, l - n, .free⟩ :: R) L ∧ BlOk s' L ∧ Rest s s' ∧ Quiet s.mem s'.mem R := by
  have hal := h.geo.al _ (List.mem_cons_self ..)
  have hin := h.geo.ins _ (List.mem_cons_self ..)
  simp only at hal hin
  have hg2 := h.geo.split hn8 (by omega) hnl
  have h2 : Core s (⟨a, n, .loose⟩ :: ⟨a + n, l - n, .loose⟩ :: R) L :=
    Cn.core (Cn.cons (by simp) trivial (Cn.cons (by simp) trivial (h.cn.tail (by simp)))) hg2
  obtain ⟨m, e1, c1, f1⟩ := usedInit_ok h2 hn
  have hoff : (a + n) % 262144 = a % 262144 + n := by omega
  have c2 : Core { s with mem := m } (⟨a + n, l - n, .loose⟩ :: ⟨a, n, .used⟩ :: R) L := c1.perm (List.Perm.swap ..)
  obtain ⟨s', e2, c3, r3, f3⟩ := link_ok c2 (by omega) (by
    intro y hy hk
    rcases List.mem_cons.mp hy with rfl | hy
    · simp at hk
    · have := h.geo.head y hy
      have h8 := h.geo.tailLen y hy
      unfold Dis at this
      simp only at this
      refine ⟨by omega, ?_⟩
      rw [show a + n + (l - n) = a + l by omega]
      exact hadj y hy hk) hp
  rw [hoff] at e2
  refine ⟨m, s', e1, e2, c3.perm (List.Perm.swap ..), ?_, ⟨r3.uspace, r3.ucount, r3.umin, r3.umax, r3.unum, r3.pct, r3.total, r3.pctsp, r3.bhead,
    r3.btail, r3.bcount, r3.pg⟩, ?_⟩
  · refine hb.frame r3.bhead r3.btail r3.bcount (fun c _ => ?_)
    have low : ∀ b, b % 262144 < 32 → s'.mem b = s.mem b := by
      intro b hlow
      rw [f3 b (by omega) (links_low c2.geo (fun y hy => List.mem_cons_of_mem _ hy) hlow)]
      exact f1 b (by omega)
    unfold chunkAdr blockSize
    exact ⟨low _ (by omega), low _ (by omega)⟩
  · intro y hy hk b hb1 hb2
    have hd := h.geo.head y hy
    unfold Dis at hd
    simp only at hd
    have hyc : y ∈ (⟨a + n, l - n, .loose⟩ :: ⟨a, n, .used⟩ :: R : List Slot) := List.mem_cons_of_mem _ (List.mem_cons_of_mem _ hy)
    rw [f3 b (by omega) (links_out c2.geo (fun y hy => List.mem_cons_of_mem _ hy) hyc (by simp [hk]) hb1 hb2)]
    exact f1 b (by omega)

/-- What an allocation does to the pages: nothing, or what one new block does. -/
def NewBlock (s s' : St) (os : Bool) : Prop := s'.pg = s.pg ∨ ∃ t b, blckAlloc s os = some (t, some b) ∧ s'.pg = t.pg

theorem takeSlot_ok {s : St} {S : List Slot} {L : List Nat} (h : Inv s S L) {l k : Nat} (hl : 32 ≤ l) (hl8 : l % 8 = 0) (hl9 : l ≤ 49152)
    (hk : k < 709) (hkc : cc l ≤ k) (os : Bool) :
    (takeSlot s os l k = some (s, 0) ∧ Full s.pg os ∧ s.head k = 0) ∨
    ∃ s' p R L', takeSlot s os l k = some (s', p) ∧ p ≠ 0 ∧ Core s' (⟨p, l, .used⟩ :: R) L' ∧ BlOk s' L' ∧ PgOk s'.pg L' ∧ SameUse s s' ∧
      (∀ x ∈ R, x.kind ≠ .loose) ∧ (usedOf R).Perm (usedOf S) ∧ Quiet s.mem s'.mem S ∧ (s.total = 0 → ∀ y ∈ R, y.kind = .free → 49152 ≤ y.len) ∧
      NewBlock s s' os := by
  unfold takeSlot
  by_cases hc : s.head k = 0
  · simp only [hc, if_true]
    rcases blckAlloc_ok h.core h.bl h.pg os with ⟨e, hf⟩ | ⟨c, m, bh, bt, bc, pg, e, c1, b1, p1, f1⟩
    · rw [e]; exact .inl ⟨rfl, hf, trivial⟩
    · rw [e]
      refine .inr ?_
      simp only
      obtain ⟨B, hB⟩ : ∃ B, B = (c + 1) * 262144 := ⟨_, rfl⟩
      rw [← hB] at c1 ⊢
      have hoff : (B + 32) % 262144 = 32 := by omega
      have hsub : ∀ y ∈ S, y.adr / 262144 - 1 ≠ c := by
        intro y hy hh
        have := c1.geo.head y hy
        have i1 := h.core.geo.ins y hy
        have a1 := h.core.geo.al y hy
        unfold Dis at this
        simp only at this
        omega
      obtain ⟨m2, s', e1, e2, c2, b2, r2, q2⟩ := carve_ok (n := l) c1 b1 hl hl8 (by omega) (by
        intro y hy _
        have i1 := h.core.geo.ins y hy
        omega) (fun _ => by omega)
      rw [hoff] at e1 e2
      simp only [headSize, bodySize, blockSize]
      rw [e1]
      simp only
      rw [show (262144 : Nat) - 32 - l = 262112 - l by omega, e2]
      refine ⟨s', B + 32, _, _, rfl, by omega, c2, b2, by rw [r2.pg]; exact p1, ?_, ?_, ?_, ?_, ?_, .inr ⟨_, _, e, r2.pg⟩⟩
      · exact SameUse.trans (t := { s with mem := m, bhead := bh, btail := bt, bcount := bc, pg := pg }) ⟨rfl, rfl, rfl, rfl, rfl, rfl, rfl, rfl⟩ r2.same
      · intro x hx
        rcases List.mem_cons.mp hx with rfl | hx
        · simp
        · exact h.tight x hx
      · unfold usedOf
        rw [List.filter_cons_of_neg (by simp)]
      · intro y hy hyk b hb1 hb2
        have := h.core.geo.ins y hy
        rw [q2 y hy hyk b hb1 hb2]
        exact f1 b (by omega)
      · intro ht y hy hyk
        have := h.busy ht
        subst this
        simp only [List.mem_cons, List.not_mem_nil, or_false] at hy
        subst hy
        simp only
        omega
  · simp only [hc, if_false]
    refine .inr ?_
    obtain ⟨lst, q1, q2, q3, q4⟩ := h.core.fr k hk
    have hne : lst ≠ [] := fun hh => hc (q2.nil_iff.mpr hh)
    obtain ⟨z, hz, z1, z2, z3, z4⟩ := slot_of q1 (headD_mem hne)
    rw [← q2.2.1] at z1
    generalize s.head k = cur at hc z1
    subst z1
    have hpm := List.perm_cons_erase hz
    generalize S.erase z = R0 at hpm
    have hi := h.perm hpm
    obtain ⟨a, n, kd⟩ := z
    simp only at z2 z3 z4 hc
    subst z2
    have hpct : s.pct ≠ -1 := fun hh => by have := hi.idle.mp hh; simp at this
    have hwd := hi.core.wd _ (List.mem_cons_self ..)
    have hal := hi.core.geo.al _ (List.mem_cons_self ..)
    have hin := hi.core.geo.ins _ (List.mem_cons_self ..)
    simp only [Wd] at hwd hal hin
    have e1 : lo (s.mem (a + 4)) * 8 = a % 262144 := by rw [hwd.2.1, lo_enc (by omega)]; omega
    have e2 : Slabs.hi (s.mem (a + 4)) * 8 = n := by
      have := hi.core.geo.who _ (List.mem_cons_self ..) rfl
      simp only at this
      rw [hwd.2.1, hi_enc (by omega)]; omega
    have hln : l ≤ n := le_of_class hl9 (by omega)
    simp only [e1, e2]
    rw [if_pos hln]
    obtain ⟨s1, u1, c1, r1, f1⟩ := unlink_ok hi.core hpct
    rw [u1]
    simp only
    have b1 : BlOk s1 L := by
      refine h.bl.frame r1.bhead r1.btail r1.bcount (fun c _ => ?_)
      have low : ∀ b, b % 262144 < 32 → s1.mem b = s.mem b := fun b hlow =>
        f1 b (links_low hi.core.geo (fun y hy => List.mem_cons_of_mem _ hy) hlow)
      unfold chunkAdr blockSize
      exact ⟨low _ (by omega), low _ (by omega)⟩
    have hused : (usedOf R0).Perm (usedOf S) := by
      have := (hpm.filter (fun x => decide (x.kind = .used))).symm
      rw [List.filter_cons_of_neg (by simp)] at this
      exact this
    have quiet1 : Quiet s.mem s1.mem R0 := by
      intro y hy hyk b hb1 hb2
      exact f1 b (links_out hi.core.geo (fun y hy => List.mem_cons_of_mem _ hy) (List.mem_cons_of_mem _ hy) (by simp [hyk]) hb1 hb2)
    have toS : ∀ m', Quiet s.mem m' R0 → Quiet s.mem m' S := by
      intro m' hq y hy hyk
      rcases List.mem_cons.mp (hpm.mem_iff.mp hy) with rfl | hy
      · simp at hyk
      · exact hq y hy hyk
    have h0 : s.total ≠ 0 := fun ht => by have := hi.busy ht; simp at this
    by_cases hlt : l < n
    · obtain ⟨m2, s', k1, k2, c2, b2, r2, k3⟩ := carve_ok (n := l) c1 b1 hl hl8 hlt (by
        intro y hy hyk
        exact hi.core.geo.adj _ (List.mem_cons_self ..) y (List.mem_cons_of_mem _ hy) rfl hyk) (fun hh => absurd (r1.pct ▸ hh) hpct)
      rw [k1]
      simp only
      rw [if_pos hlt, k2]
      refine ⟨s', a, _, _, rfl, by omega, c2, b2, by rw [r2.pg, r1.pg]; exact h.pg, r1.same.trans r2.same, ?_, ?_, ?_, fun ht => absurd ht h0,
        .inl (by rw [r2.pg, r1.pg])⟩
      · intro x hx
        rcases List.mem_cons.mp hx with rfl | hx
        · simp
        · exact hi.tight x (List.mem_cons_of_mem _ hx)
      · unfold usedOf
        rw [List.filter_cons_of_neg (by simp)]
        exact hused
      · refine toS _ (fun y hy hyk b hb1 hb2 => ?_)
        rw [k3 y hy hyk b hb1 hb2, quiet1 y hy hyk b hb1 hb2]
    · have : l = n := by omega
      subst this
      obtain ⟨m2, k1, c2, k3⟩ := usedInit_ok c1 hl
      rw [k1]
      simp only
      rw [if_neg hlt]
      refine ⟨_, a, R0, L, rfl, by omega, c2, ?_, by rw [r1.pg]; exact h.pg, ?_, fun x hx => hi.tight x (List.mem_cons_of_mem _ hx), hused, ?_,
        fun ht => absurd ht h0, .inl r1.pg⟩
      · refine b1.frame rfl rfl rfl (fun c _ => ?_)
        unfold chunkAdr blockSize
        exact ⟨k3 _ (by omega), k3 _ (by omega)⟩
      · exact r1.same.trans ⟨rfl, rfl, rfl, rfl, rfl, rfl, rfl, rfl⟩
      · refine toS _ (fun y hy hyk b hb1 hb2 => ?_)
        have hd := hi.core.geo.head y hy
        unfold Dis at hd
        simp only at hd
        show m2 b = s.mem b
        rw [k3 b (by omega), quiet1 y hy hyk b hb1 hb2]

/-- `do_smmgr_alloc` works: nothing, for lack of a block, or one more used slot. -/
theorem alloc_ok {s : St} {S : List Slot} {L : List Nat} (h : Inv s S L) {size : Nat} (hs : size ≤ 49148) (short os : Bool) :
    (alloc s size short os = some (s, 0) ∧ Full s.pg os ∧ ∀ x ∈ S, x.kind = .free → 32 ≤ x.len → cf x.len < cc (slen size)) ∨
    ∃ s' p R L', alloc s size short os = some (s', p) ∧ p ≠ 0 ∧ Inv s' (⟨p, slen size, .used⟩ :: R) L' ∧ (usedOf R).Perm (usedOf S) ∧
      Quiet s.mem s'.mem S ∧ NewBlock s s' os := by
  obtain ⟨l8, l32, -⟩ := slen_spec size
  have l9 := slen_le hs
  unfold alloc
  rw [memid_true _ l8]
  simp only
  rw [if_pos (show cc (slen size) < numClasses from cc_lt _)]
  obtain ⟨k, e, k9, kc, kh⟩ := pickClass_ok h.core h.pc l32 l8 short
  rw [e]
  simp only
  rw [if_pos (show k < numClasses from k9)]
  rcases takeSlot_ok h l32 l8 l9 k9 kc os with ⟨e2, hf, hz⟩ | ⟨s1, p, R, L', e2, hp, c, b, pg, su, tg, up, q, h0, nb⟩
  · rw [e2]
    refine .inl ⟨rfl, hf, fun x hx hxk hxl => ?_⟩
    rcases kh with kh | ⟨rfl, kh⟩
    · exact absurd hz kh
    have hc9 := cf_lt x.len
    obtain ⟨lst, q1, q2, q3, -⟩ := h.core.fr (cf x.len) hc9
    have hpos : 0 < s.fcount (cf x.len) := by
      rw [q3]
      refine List.length_pos_of_mem (a := x.adr) (q1.mem_iff.mpr (List.mem_map.mpr ⟨x, List.mem_filter.mpr ⟨hx, lk_iff.mpr ⟨hxk, hxl, rfl⟩⟩, rfl⟩))
    have h8 : cf x.len ≠ 708 := by
      intro hh
      rw [hh] at hpos
      exact (h.core.heads (by omega)).mpr hpos hz
    rcases h.core.rng.2 with ⟨-, -, r3⟩ | ⟨u, r1, r2, -, -, -, r6⟩
    · have := r3 _ hc9
      simp only [if_neg h8] at this
      omega
    · have := (r6 (cf x.len) hc9 (by simp only [if_neg h8]; exact hpos)).2
      omega
  · rw [e2]
    simp only
    rw [if_neg hp]
    have hu : Use s1 R := su.use (h.use.of_used up)
    obtain ⟨s', e3, c3, u3, p3, k3⟩ := countUsed_ok (a := p) c hu (su.pc h.pc) l32 (by
      intro ht y hy hk
      rcases List.mem_cons.mp hy with rfl | hy
      · simp at hk
      · exact h0 (su.total ▸ ht) y hy hk)
    rw [e3]
    refine .inr ⟨s', p, R, L', rfl, hp, ⟨c3, u3, p3, b.frame k3.bhead k3.btail k3.bcount (fun c _ => by rw [k3.mem]; exact ⟨rfl, rfl⟩),
      by rw [k3.pg]; exact pg, ?_⟩, up, ?_, by unfold NewBlock; rw [k3.pg]; exact nb⟩
    · intro x hx
      rcases List.mem_cons.mp hx with rfl | hx
      · simp
      · exact tg x hx
    · intro y hy hyk b hb1 hb2
      rw [k3.mem]; exact q y hy hyk b hb1 hb2

end Verif.Slabs
