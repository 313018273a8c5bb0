import Verif.Lemmas.SlabUnlink
/-!
# Blocks
-/
namespace Verif.Slabs

/-- Chunks of slab class 0: `L` are lent, the others are on the stack or at the end of the last page. -/
structure PgOk (p : Pages) (L : List Nat) : Prop where
  pos : 0 < p.perslab
  nodup : (L ++ p.slots).Nodup
  cnt : L.length + p.slots.length + p.endFree = p.slabs * p.perslab
  bnd : ∀ c ∈ L ++ p.slots, c + p.endFree < p.slabs * p.perslab
  ep : ∀ e, p.endPtr = some e → 0 < p.endFree ∧ e + p.endFree = p.slabs * p.perslab
  en : p.endPtr = none → p.endFree = 0

theorem PgOk.congr {p q : Pages} {L : List Nat} (h : PgOk p L) (h1 : q.perslab = p.perslab) (h2 : q.slots = p.slots) (h3 : q.endPtr = p.endPtr)
    (h4 : q.endFree = p.endFree) (h5 : q.slabs = p.slabs) : PgOk q L := by
  refine ⟨by rw [h1]; exact h.pos, by rw [h2]; exact h.nodup, by rw [h1, h2, h4, h5]; exact h.cnt, by rw [h1, h2, h4, h5]; exact h.bnd,
    by rw [h1, h3, h4, h5]; exact h.ep, by rw [h3, h4]; exact h.en⟩

theorem fixReserve_same (p : Pages) : (fixReserve p).perslab = p.perslab ∧ (fixReserve p).slots = p.slots ∧ (fixReserve p).endPtr = p.endPtr ∧
    (fixReserve p).endFree = p.endFree ∧ (fixReserve p).slabs = p.slabs := by
  unfold fixReserve
  split
  · split <;> exact ⟨rfl, rfl, rfl, rfl, rfl⟩
  · exact ⟨rfl, rfl, rfl, rfl, rfl⟩

theorem PgOk.fix {p : Pages} {L : List Nat} (h : PgOk p L) : PgOk (fixReserve p) L := by
  obtain ⟨h1, h2, h3, h4, h5⟩ := fixReserve_same p
  exact h.congr h1 h2 h3 h4 h5

/-- There is no chunk left and no new page to be had: slabs.c 1277-1283. -/
def Full (p : Pages) (os : Bool) : Prop :=
  p.slots = [] ∧ p.endPtr = none ∧
    ((p.memLimit ≠ 0 ∧ p.memLimit < p.memMalloced + blockSize * p.perslab ∧ p.rsvd ≤ p.slabs) ∨ os = false)

theorem newslab_ok {p : Pages} {L : List Nat} (h : PgOk p L) (h1 : p.slots = []) (h2 : p.endPtr = none) (os : Bool) :
    (newslab p os = none ∧ Full p os) ∨
    ∃ q, newslab p os = some q ∧ PgOk q L ∧ q.slots = [] ∧ q.endPtr = some (p.slabs * p.perslab) ∧ q.endFree = p.perslab ∧ q.perslab = p.perslab := by
  unfold newslab
  simp only
  split
  · rename_i hc; exact .inl ⟨rfl, h1, h2, hc⟩
  · refine .inr ⟨_, rfl, ?_⟩
    have hc := h.cnt
    have hb := h.bnd
    have h0 := h.en h2
    rw [h0] at hc hb
    have hm : (p.slabs + 1) * p.perslab = p.slabs * p.perslab + p.perslab := Nat.succ_mul ..
    have hpos := h.pos
    have base : ∀ q : Pages, q.perslab = p.perslab → q.slots = p.slots → q.endPtr = some (p.slabs * p.perslab) → q.endFree = p.perslab →
        q.slabs = p.slabs + 1 → PgOk q L := by
      intro q e1 e2 e3 e4 e5
      refine ⟨by rw [e1]; exact h.pos, by rw [e2]; exact h.nodup, by rw [e1, e2, e4, e5]; omega, ?_, ?_, by rw [e3]; simp⟩
      · rw [e1, e2, e4, e5]
        intro c hc'
        have := hb c hc'
        omega
      · rw [e1, e3, e4, e5]
        rintro e he
        simp only [Option.some.injEq] at he
        omega
    generalize hq : (if 0 < p.rsvd ∧ p.rsvd < p.slabs + 1 then
      ({ p with
        endPtr := some (p.slabs * p.perslab), endFree := p.perslab, slabs := p.slabs + 1, memMalloced := p.memMalloced + blockSize * p.perslab,
        freeLimit := p.freeLimit + blockSize * p.perslab, freeChunk := p.freeChunk + blockSize * p.perslab } : Pages)
      else { p with
        endPtr := some (p.slabs * p.perslab), endFree := p.perslab, slabs := p.slabs + 1, memMalloced := p.memMalloced + blockSize * p.perslab }) = q
    have e : q.perslab = p.perslab ∧ q.slots = p.slots ∧ q.endPtr = some (p.slabs * p.perslab) ∧ q.endFree = p.perslab ∧ q.slabs = p.slabs + 1 := by
      rw [← hq]; split <;> exact ⟨rfl, rfl, rfl, rfl, rfl⟩
    obtain ⟨f1, f2, f3, f4, f5⟩ := fixReserve_same q
    refine ⟨base _ (f1.trans e.1) (f2.trans e.2.1) (f3.trans e.2.2.1) (f4.trans e.2.2.2.1) (f5.trans e.2.2.2.2), ?_, ?_, ?_, ?_⟩
    · rw [f2, e.2.1, h1]
    · rw [f3, e.2.2.1]
    · rw [f4, e.2.2.2.1]
    · rw [f1, e.1]

theorem chunkAlloc_ok {p : Pages} {L : List Nat} (h : PgOk p L) (os : Bool) :
    (chunkAlloc p os = some (p, none) ∧ Full p os) ∨
    ∃ q c, chunkAlloc p os = some (q, some c) ∧ c ∉ L ∧ c < q.slabs * q.perslab ∧ PgOk q (L ++ [c]) := by
  have take : ∀ q : Pages, PgOk q L → (q.endPtr.isSome ∨ q.slots ≠ []) → ∃ q' c,
      (match q.slots with
        | c :: r => some ({ q with slots := r }, some c)
        | [] =>
          match q.endPtr with
          | none => none
          | some c =>
            let n := if q.endFree = 0 then 4294967295 else q.endFree - 1
            some ({ q with endFree := n, endPtr := if n ≠ 0 then some (c + 1) else none }, some c)) = some (q', some c) ∧
      c ∉ L ∧ c < q'.slabs * q'.perslab ∧ PgOk q' (L ++ [c]) := by
    intro q hq hsome
    cases hs : q.slots with
    | cons c r =>
      have hn := hq.nodup
      have hb := hq.bnd
      have hc := hq.cnt
      rw [hs] at hn hb hc
      have := hb c (by simp)
      refine ⟨_, _, rfl, ?_, by simp only; omega, ?_⟩
      · intro hcl
        obtain ⟨-, -, n3⟩ := List.nodup_append.mp hn
        exact n3 c hcl c (List.mem_cons_self ..) rfl
      · refine ⟨hq.pos, ?_, ?_, ?_, hq.ep, hq.en⟩
        · simp only [List.append_assoc, List.singleton_append]; exact hn
        · simp only [List.length_append, List.length_cons, List.length_nil] at hc ⊢
          omega
        · simp only [List.append_assoc, List.singleton_append]; exact hb
    | nil =>
      cases he : q.endPtr with
      | none => rw [hs, he] at hsome; simp at hsome
      | some c =>
        obtain ⟨e1, e2⟩ := hq.ep c he
        have hn := hq.nodup
        have hb := hq.bnd
        have hc := hq.cnt
        rw [hs] at hn hb hc
        simp only [List.append_nil, List.length_nil] at hn hb hc
        have hz : (if q.endFree = 0 then 4294967295 else q.endFree - 1) = q.endFree - 1 := if_neg (by omega)
        simp only [hz]
        refine ⟨_, _, rfl, ?_, by simp only; omega, ?_⟩
        · intro hcl; have := hb c hcl; omega
        · refine ⟨hq.pos, ?_, ?_, ?_, ?_, ?_⟩
          · simp only [hs, List.append_nil]
            refine List.nodup_append.mpr ⟨hn, by simp, ?_⟩
            intro x hx y hy
            simp only [List.mem_singleton] at hy
            have := hb x hx
            omega
          · simp only [hs, List.length_append, List.length_cons, List.length_nil]; omega
          · simp only [hs, List.append_nil, List.mem_append, List.mem_singleton]
            rintro x (hx | hx)
            · have := hb x hx; omega
            · omega
          · simp only
            intro e hee
            by_cases h0 : q.endFree - 1 = 0
            · rw [if_neg (by omega)] at hee; simp at hee
            · rw [if_pos h0] at hee; simp only [Option.some.injEq] at hee; omega
          · simp only
            intro hee
            by_cases h0 : q.endFree - 1 = 0
            · exact h0
            · rw [if_pos h0] at hee; simp at hee
  unfold chunkAlloc
  by_cases hc : p.endPtr.isSome ∨ p.slots ≠ []
  · rw [if_pos hc]
    exact .inr (take p h hc)
  · rw [if_neg hc]
    have h1 : p.slots = [] := by
      by_cases hh : p.slots = []
      · exact hh
      · exact absurd (.inr hh) hc
    have h2 : p.endPtr = none := by
      cases hh : p.endPtr with
      | none => rfl
      | some e => exact absurd (.inl (by simp [hh])) hc
    rcases newslab_ok h h1 h2 os with ⟨e, hf⟩ | ⟨q, e, hq, q1, q2, -⟩
    · rw [e]; exact .inl ⟨rfl, hf⟩
    · rw [e]; exact .inr (take q hq (.inl (by simp [q2])))

theorem PgOk.giveBack {p : Pages} {L1 L2 : List Nat} {c : Nat} (h : PgOk p (L1 ++ c :: L2)) : PgOk (chunkFree p c) (L1 ++ L2) := by
  have hp : (L1 ++ c :: L2 ++ p.slots).Perm (L1 ++ L2 ++ c :: p.slots) := by
    have h1 : (L1 ++ c :: L2 ++ p.slots).Perm (c :: (L1 ++ L2) ++ p.slots) := (List.perm_middle).append_right _
    have h2 : (L1 ++ L2 ++ c :: p.slots).Perm (c :: (L1 ++ L2 ++ p.slots)) := List.perm_middle
    exact h1.trans h2.symm
  have hc := h.cnt
  refine ⟨h.pos, hp.nodup_iff.mp h.nodup, ?_, fun x hx => h.bnd x (hp.mem_iff.mpr hx), h.ep, h.en⟩
  simp only [chunkFree, List.length_append, List.length_cons] at hc ⊢
  omega

/-- The list of blocks. -/
def BlOk (s : St) (L : List Nat) : Prop := Dl s.mem 0 8 s.bhead s.btail (L.map chunkAdr) ∧ s.bcount = L.length

theorem BlOk.frame {s s' : St} {L : List Nat} (h : BlOk s L) (h1 : s'.bhead = s.bhead) (h2 : s'.btail = s.btail) (h3 : s'.bcount = s.bcount)
    (hf : ∀ c ∈ L, s'.mem (chunkAdr c) = s.mem (chunkAdr c) ∧ s'.mem (chunkAdr c + 8) = s.mem (chunkAdr c + 8)) : BlOk s' L := by
  refine ⟨?_, by rw [h3]; exact h.2⟩
  rw [h1, h2]
  refine h.1.frame (fun a ha => ?_)
  obtain ⟨c, hc, rfl⟩ := List.mem_map.mp ha
  rw [Nat.add_zero]
  exact hf c hc

/-- The counters and lists of slots stay when only the heads of blocks are written. -/
theorem Core.blocks {s s' : St} {S : List Slot} {L : List Nat} (h : Core s S L) (hm : ∀ a, 32 ≤ a % 262144 → s'.mem a = s.mem a)
    (e1 : s'.head = s.head) (e2 : s'.tail = s.tail) (e3 : s'.fspace = s.fspace) (e4 : s'.fcount = s.fcount) (e5 : s'.fmin = s.fmin)
    (e6 : s'.fmax = s.fmax) (e7 : s'.fnum = s.fnum) (e8 : s'.pct = s.pct) (e9 : s'.fsmall = s.fsmall) (e10 : s'.favail = s.favail) :
    Core s' S L where
  geo := h.geo
  wd := fun x hx => by
    have h1 := h.geo.al x hx
    have h2 := h.geo.ins x hx
    refine (h.wd x hx).frame (fun _ => ⟨hm _ (by omega), fun _ => hm _ ?_, hm _ (by omega)⟩)
    omega
  fr := fun k hk => by
    obtain ⟨lst, q1, q2, q3, q4⟩ := h.fr k hk
    rw [e1, e2, e3, e4]
    refine ⟨lst, q1, q2.frame (fun a ha => ?_), q3, q4⟩
    obtain ⟨z, hz, rfl, -, z3, -⟩ := slot_of q1 ha
    have h2 := h.geo.ins z hz
    exact ⟨hm _ (by omega), hm _ (by omega)⟩
  rng := by rw [e4, e5, e6, e7]; exact h.rng
  small := by rw [e8, e9]; exact h.small
  avail := by rw [e8, e10]; exact h.avail

/-- A loose slot more or less changes no list. -/
theorem Core.loose {s : St} {x : Slot} {R : List Slot} {L L' : List Nat} (hx : x.kind = .loose) (hg : Geo (x :: R) L') (h : Core s R L) :
    Core s (x :: R) L' where
  geo := hg
  wd := fun y hy => by
    rcases List.mem_cons.mp hy with rfl | hy
    · simp only [Wd, hx]
    · exact h.wd y hy
  fr := fun k hk => by
    obtain ⟨lst, q1, q2, q3, q4⟩ := h.fr k hk
    refine ⟨lst, ?_, q2, q3, ?_⟩
    · rw [List.filter_cons_of_neg (by simp [lk, hx])]; exact q1
    · simp only [wsum]; rw [if_neg (by simp [lk, hx])]; omega
  rng := h.rng
  small := by simp only [wsum]; rw [if_neg (by simp [sm, hx]), h.small]; omega
  avail := by simp only [wsum]; rw [if_neg (by simp [av, hx]), h.avail]; omega

theorem Core.unloose {s : St} {x : Slot} {R : List Slot} {L L' : List Nat} (hx : x.kind = .loose) (hg : Geo R L') (h : Core s (x :: R) L) :
    Core s R L' where
  geo := hg
  wd := fun y hy => h.wd y (List.mem_cons_of_mem _ hy)
  fr := fun k hk => by
    obtain ⟨lst, q1, q2, q3, q4⟩ := h.fr k hk
    rw [List.filter_cons_of_neg (by simp [lk, hx])] at q1
    refine ⟨lst, q1, q2, q3, ?_⟩
    simp only [wsum] at q4; rw [if_neg (by simp [lk, hx])] at q4; omega
  rng := h.rng
  small := by have := h.small; simp only [wsum] at this; rw [if_neg (by simp [sm, hx])] at this; omega
  avail := by have := h.avail; simp only [wsum] at this; rw [if_neg (by simp [av, hx])] at this; omega

/-- `do_smmgr_blck_alloc` works. -/
theorem blckAlloc_ok {s : St} {S : List Slot} {L : List Nat} (h : Core s S L) (hb : BlOk s L) (hp : PgOk s.pg L) (os : Bool) :
    (blckAlloc s os = some (s, none) ∧ Full s.pg os) ∨
    ∃ c m bh bt bc pg, blckAlloc s os = some ({ s with mem := m, bhead := bh, btail := bt, bcount := bc, pg := pg }, some ((c + 1) * 262144)) ∧
      Core { s with mem := m, bhead := bh, btail := bt, bcount := bc, pg := pg } (⟨(c + 1) * 262144 + 32, 262112, .loose⟩ :: S) (L ++ [c]) ∧
      BlOk { s with mem := m, bhead := bh, btail := bt, bcount := bc, pg := pg } (L ++ [c]) ∧ PgOk pg (L ++ [c]) ∧
      (∀ a, 32 ≤ a % 262144 → m a = s.mem a) := by
  unfold blckAlloc
  rcases chunkAlloc_ok hp os with ⟨e, hf⟩ | ⟨q, c, e, hc, hcb, hq⟩
  · rw [e]; exact .inl ⟨rfl, hf⟩
  · rw [e]
    simp only
    rw [if_pos hcb]
    refine .inr ?_
    have hca : ∀ x, chunkAdr x = (x + 1) * 262144 := fun _ => rfl
    have hnz : s.btail ≠ 0 → ∃ d ∈ L, s.btail = (d + 1) * 262144 := by
      intro hne
      have hl : L.map chunkAdr ≠ [] := fun hh => hne (hb.1.nil_iff'.mpr hh)
      have := getLastD_mem (d := 0) hl
      rw [← hb.1.2.2] at this
      obtain ⟨d, hd, he⟩ := List.mem_map.mp this
      exact ⟨d, hd, he.symm⟩
    have hnd : (L.map chunkAdr).Nodup := by
      have := (List.nodup_append.mp hp.nodup).1
      rw [List.Nodup, List.pairwise_map]
      refine this.imp (fun hne he => hne ?_)
      rw [hca, hca] at he
      omega
    generalize hs1 : blckLink { s with pg := q } (chunkAdr c) = s1
    have hs1' : ∃ m bh, s1 = { s with mem := m, bhead := bh, btail := (c + 1) * 262144, bcount := s.bcount + 1, pg := q } ∧
        m ((c + 1) * 262144) = s.btail ∧ m ((c + 1) * 262144 + 8) = 0 ∧ (s.btail ≠ 0 → m (s.btail + 8) = (c + 1) * 262144) ∧
        (∀ a, a ≠ (c + 1) * 262144 → a ≠ (c + 1) * 262144 + 8 → (s.btail ≠ 0 → a ≠ s.btail + 8) → m a = s.mem a) ∧
        bh = if s.btail = 0 then (c + 1) * 262144 else s.bhead := by
      rw [← hs1]
      unfold blckLink
      have e1 : set (set s.mem (chunkAdr c) s.btail) (chunkAdr c + 8) 0 (chunkAdr c) = s.btail := by
        rw [set_ne _ _ (by omega), set_eq]
      simp only [e1]
      by_cases ht : s.btail = 0
      · simp only [ht, ne_eq, not_true_eq_false, if_false, if_true]
        refine ⟨_, _, rfl, ?_, ?_, fun h => by simp at h, ?_, rfl⟩
        · rw [hca, set_ne _ _ (by omega), set_eq]
        · rw [hca, set_eq]
        · intro a h1 h2 _
          rw [hca, set_ne _ _ h2, set_ne _ _ h1]
      · simp only [ht, ne_eq, not_false_eq_true, if_true, if_false]
        obtain ⟨d, hd, hdt⟩ := hnz ht
        have hdc : d ≠ c := fun hh => hc (hh ▸ hd)
        refine ⟨_, _, rfl, ?_, ?_, fun _ => ?_, ?_, rfl⟩
        · rw [hca, set_ne _ _ (by omega), set_ne _ _ (by omega), set_eq]
        · rw [hca, set_ne _ _ (by omega), set_eq]
        · rw [set_eq, hca]
        · intro a h1 h2 h3
          rw [set_ne _ _ (h3 trivial), hca, set_ne _ _ h2, set_ne _ _ h1]
    obtain ⟨m, bh, rfl, m1, m2, m3, m4, m5⟩ := hs1'
    have hfr : ∀ a, 32 ≤ a % 262144 → m a = s.mem a := by
      intro a ha
      refine m4 a (by omega) (by omega) (fun ht => ?_)
      obtain ⟨d, hd, hdt⟩ := hnz ht
      omega
    have core : ∀ pg, Core { s with mem := m, bhead := bh, btail := (c + 1) * 262144, bcount := s.bcount + 1, pg := pg }
        (⟨(c + 1) * 262144 + 32, 262112, .loose⟩ :: S) (L ++ [c]) := fun pg =>
      Core.loose rfl (h.geo.add hc) (h.blocks hfr rfl rfl rfl rfl rfl rfl rfl rfl rfl rfl)
    have bl : ∀ pg, BlOk { s with mem := m, bhead := bh, btail := (c + 1) * 262144, bcount := s.bcount + 1, pg := pg } (L ++ [c]) := by
      intro pg
      refine ⟨?_, by simp [hb.2]⟩
      simp only [List.map_append, List.map_cons, List.map_nil, hca c]
      have := hb.1.append (m' := m) (x := (c + 1) * 262144) hnd (by omega) ?_ ?_ m3 (by rw [Nat.add_zero]; exact m1) m2
      · rw [m5]; exact this
      · intro a ha
        obtain ⟨d, hd, rfl⟩ := List.mem_map.mp ha
        have hdc : d ≠ c := fun hh => hc (hh ▸ hd)
        refine m4 _ (by rw [hca]; omega) (by rw [hca]; omega) (fun ht => ?_)
        obtain ⟨d', hd', hdt⟩ := hnz ht
        rw [hca]; omega
      · intro a ha hne
        obtain ⟨d, hd, rfl⟩ := List.mem_map.mp ha
        have hdc : d ≠ c := fun hh => hc (hh ▸ hd)
        exact m4 _ (by rw [hca]; omega) (by rw [hca]; omega) (fun ht => by omega)
    simp only
    split
    · split
      · exact ⟨c, m, bh, (c + 1) * 262144, s.bcount + 1, _, rfl, core _, bl _, hq.congr rfl rfl rfl rfl rfl, hfr⟩
      · exact ⟨c, m, bh, (c + 1) * 262144, s.bcount + 1, _, rfl, core _, bl _, hq.congr rfl rfl rfl rfl rfl, hfr⟩
    · exact ⟨c, m, bh, (c + 1) * 262144, s.bcount + 1, _, rfl, core _, bl _, hq, hfr⟩

theorem filter_ne {L1 L2 : List Nat} {c : Nat} (hn : (L1 ++ c :: L2).Nodup) :
    (L1 ++ c :: L2).filter (fun d => decide (d ≠ c)) = L1 ++ L2 := by
  obtain ⟨-, n2, n3⟩ := List.nodup_append.mp hn
  obtain ⟨n4, -⟩ := List.nodup_cons.mp n2
  rw [List.filter_append, List.filter_cons_of_neg (by simp), List.filter_eq_self.mpr, List.filter_eq_self.mpr]
  · intro x hx; simp only [decide_eq_true_eq]; exact fun hh => n4 (hh ▸ hx)
  · intro x hx; simp only [decide_eq_true_eq]; exact n3 x hx c (List.mem_cons_self ..)

/-- `do_smmgr_blck_free` works. -/
theorem blckFree_ok {s : St} {a : Nat} {R : List Slot} {L : List Nat} (h : Core s (⟨a, 262112, .loose⟩ :: R) L) (hb : BlOk s L) (hp : PgOk s.pg L) :
    ∃ L' m bh bt bc pg, blckFree s (a - 32) = some { s with mem := m, bhead := bh, btail := bt, bcount := bc, pg := pg } ∧
      Core { s with mem := m, bhead := bh, btail := bt, bcount := bc, pg := pg } R L' ∧
      BlOk { s with mem := m, bhead := bh, btail := bt, bcount := bc, pg := pg } L' ∧ PgOk pg L' ∧
      (∀ a, 32 ≤ a % 262144 → m a = s.mem a) := by
  have hin := h.geo.ins _ (List.mem_cons_self ..)
  have hbk := h.geo.blk _ (List.mem_cons_self ..)
  simp only at hin hbk
  have hca : ∀ x, chunkAdr x = (x + 1) * 262144 := fun _ => rfl
  generalize hcd : a / 262144 - 1 = c at hbk
  obtain ⟨B, hB⟩ : ∃ B, B = (c + 1) * 262144 := ⟨_, rfl⟩
  have ha : a - 32 = B := by omega
  have hcB : chunkAdr c = B := by rw [hB]; rfl
  have hlt : B / blockSize - 1 = c := by unfold blockSize; omega
  obtain ⟨L1, L2, rfl⟩ := List.append_of_mem hbk
  have hn := (List.nodup_append.mp hp.nodup).1
  have hgeo := h.geo.drop
  simp only [hcd] at hgeo
  rw [filter_ne hn] at hgeo
  have hnd : ((L1 ++ c :: L2).map chunkAdr).Nodup := by
    rw [List.Nodup, List.pairwise_map]
    refine hn.imp (fun hne he => hne ?_)
    rw [hca, hca] at he
    omega
  have hdl := hb.1
  rw [List.map_append, List.map_cons] at hdl hnd
  obtain ⟨s1, -, hpv, hnx, s2⟩ := seg_append.mp hdl.1
  rw [hcB, Nat.add_zero] at hpv
  rw [hcB] at hnx
  have hprev : s.mem (B) ≠ 0 → ∃ d ∈ L1, s.mem (B) = (d + 1) * 262144 := by
    intro hne
    rw [hpv] at hne ⊢
    have hl : L1.map chunkAdr ≠ [] := by intro hh; rw [hh] at hne; exact hne rfl
    obtain ⟨d, hd, he⟩ := List.mem_map.mp (getLastD_mem (d := 0) hl)
    exact ⟨d, hd, he.symm⟩
  have hnext : s.mem (B + 8) ≠ 0 → ∃ d ∈ L2, s.mem (B + 8) = (d + 1) * 262144 := by
    intro hne
    rw [hnx] at hne ⊢
    have hl : L2.map chunkAdr ≠ [] := by intro hh; rw [hh] at hne; exact hne rfl
    obtain ⟨d, hd, he⟩ := List.mem_map.mp (headD_mem hl)
    exact ⟨d, hd, he.symm⟩
  have hdis : ∀ d ∈ L1 ++ L2, d ≠ c := by
    obtain ⟨-, n2, n3⟩ := List.nodup_append.mp hn
    obtain ⟨n4, -⟩ := List.nodup_cons.mp n2
    intro d hd
    rcases List.mem_append.mp hd with hd | hd
    · exact n3 d hd c (List.mem_cons_self ..)
    · exact fun hh => n4 (hh ▸ hd)
  rw [ha]
  unfold blckFree
  have hul : ∃ m, blckUnlink s (B) = some { s with
        mem := m
        bhead := if s.bhead = B then s.mem (B + 8) else s.bhead
        btail := if s.btail = B then s.mem (B) else s.btail
        bcount := s.bcount - 1 } ∧
      (s.mem (B) ≠ 0 → m (s.mem (B) + 8) = s.mem (B + 8)) ∧
      (s.mem (B + 8) ≠ 0 → m (s.mem (B + 8)) = s.mem (B)) ∧
      (∀ b, (s.mem (B) ≠ 0 → b ≠ s.mem (B) + 8) →
        (s.mem (B + 8) ≠ 0 → b ≠ s.mem (B + 8)) → m b = s.mem b) := by
    unfold blckUnlink
    have hpos : 0 < s.bcount := by rw [hb.2]; simp only [List.length_append, List.length_cons]; omega
    rw [if_pos hpos]
    -- which of the two ends the block is at
    have hhd : s.mem (B) = 0 ↔ s.bhead = B := by
      rw [hdl.2.1]
      constructor
      · intro h0
        have : L1 = [] := by
          by_cases hl : L1 = []
          · exact hl
          · exfalso
            have hl' : L1.map chunkAdr ≠ [] := by simpa using hl
            obtain ⟨d, hd, he⟩ := List.mem_map.mp (getLastD_mem (d := 0) hl')
            rw [hpv, ← he, hca] at h0
            omega
        subst this
        simp [hcB]
      · intro h0
        cases hl : L1 with
        | nil => rw [hpv, hl]; rfl
        | cons d L1' =>
          rw [hl] at h0
          simp only [List.map_cons, List.cons_append, List.headD_cons, hca] at h0
          have := hdis d (by simp [hl])
          omega
    have htl : s.mem (B + 8) = 0 ↔ s.btail = B := by
      rw [hdl.2.2, getLastD_append, List.getLastD_cons, hcB]
      constructor
      · intro h0
        have : L2 = [] := by
          by_cases hl : L2 = []
          · exact hl
          · exfalso
            have hl' : L2.map chunkAdr ≠ [] := by simpa using hl
            obtain ⟨d, hd, he⟩ := List.mem_map.mp (headD_mem hl')
            rw [hnx, ← he, hca] at h0
            omega
        subst this
        simp [hcB]
      · intro h0
        by_cases hl : L2 = []
        · rw [hnx, hl]; rfl
        · exfalso
          have hl' : L2.map chunkAdr ≠ [] := by simpa using hl
          have hm := getLastD_mem (d := B) hl'
          rw [h0] at hm
          obtain ⟨d, hd, he⟩ := List.mem_map.mp hm
          have := hdis d (List.mem_append_right _ hd)
          rw [hca] at he
          omega
    by_cases h1 : s.mem (B) = 0
    · have hh := hhd.mp h1
      by_cases h2 : s.mem (B + 8) = 0
      · have ht := htl.mp h2
        refine ⟨s.mem, ?_, fun h => absurd h1 h, fun h => absurd h2 h, fun _ _ _ => rfl⟩
        simp only [h1, h2, ne_eq, not_true_eq_false, if_false, hh, ht, if_true]
      · have ht : s.btail ≠ B := fun hh => h2 (htl.mpr hh)
        refine ⟨set s.mem (s.mem (B + 8)) 0, ?_, fun h => absurd h1 h, fun _ => by rw [set_eq, h1], fun b _ hb2 => set_ne _ _ (hb2 h2)⟩
        simp only [h1, h2, ne_eq, not_true_eq_false, not_false_eq_true, if_false, hh, ht, if_true]
    · have hh : s.bhead ≠ B := fun hh => h1 (hhd.mpr hh)
      obtain ⟨d, hd, hde⟩ := hprev h1
      have hdc := hdis d (List.mem_append_left _ hd)
      have e1 : set s.mem (s.mem (B) + 8) (s.mem (B + 8)) (B + 8) = s.mem (B + 8) :=
        set_ne _ _ (by omega)
      have e2 : set s.mem (s.mem (B) + 8) (s.mem (B + 8)) (B) = s.mem (B) :=
        set_ne _ _ (by omega)
      by_cases h2 : s.mem (B + 8) = 0
      · have ht := htl.mp h2
        rw [h2] at e1 e2
        refine ⟨set s.mem (s.mem (B) + 8) 0, ?_, fun _ => by rw [set_eq, h2], fun h => absurd h2 h, fun b hb1 _ => set_ne _ _ (hb1 h1)⟩
        simp only [h1, h2, ne_eq, not_true_eq_false, not_false_eq_true, if_false, hh, ht, if_true, e1, e2]
      · have ht : s.btail ≠ B := fun hh => h2 (htl.mpr hh)
        obtain ⟨d2, hd2, hde2⟩ := hnext h2
        refine ⟨set (set s.mem (s.mem (B) + 8) (s.mem (B + 8))) (s.mem (B + 8)) (s.mem (B)),
          ?_, fun _ => by rw [set_ne _ _ (by omega), set_eq], fun _ => by rw [set_eq], fun b hb1 hb2 => by rw [set_ne _ _ (hb2 h2), set_ne _ _ (hb1 h1)]⟩
        simp only [h1, h2, ne_eq, not_false_eq_true, hh, ht, if_true, if_false, e1, e2]
  obtain ⟨m, e, m1, m2, m3⟩ := hul
  rw [e]
  simp only [hlt]
  have hfr : ∀ a, 32 ≤ a % 262144 → m a = s.mem a := by
    intro a ha
    refine m3 a (fun ht => ?_) (fun ht => ?_)
    · obtain ⟨d, hd, hdt⟩ := hprev ht
      omega
    · obtain ⟨d, hd, hdt⟩ := hnext ht
      omega
  have core : ∀ bh bt bc pg, Core { s with mem := m, bhead := bh, btail := bt, bcount := bc, pg := pg } R (L1 ++ L2) := fun bh bt bc pg =>
    (h.blocks (s' := { s with mem := m, bhead := bh, btail := bt, bcount := bc, pg := pg }) hfr rfl rfl rfl rfl rfl rfl rfl rfl rfl rfl).unloose rfl hgeo
  have bl : ∀ pg, BlOk { s with
      mem := m
      bhead := if s.bhead = B then s.mem (B + 8) else s.bhead
      btail := if s.btail = B then s.mem (B) else s.btail
      bcount := s.bcount - 1
      pg := pg } (L1 ++ L2) := by
    intro pg
    refine ⟨?_, by simp [hb.2]⟩
    simp only [List.map_append]
    have := hdl.remove (m' := m) hnd ?_ ?_ ?_ ?_
    · simpa only [hcB, Nat.add_zero] using this
    · intro b hb hne
      rw [← List.map_append] at hb
      obtain ⟨d, hd, rfl⟩ := List.mem_map.mp hb
      simp only [hcB, Nat.add_zero] at hne ⊢
      have hD := hca d
      generalize chunkAdr d = D at hne hD ⊢
      refine m3 _ (fun _ => by omega) (fun hn => ?_)
      obtain ⟨d2, hd2, hde2⟩ := hnext hn
      omega
    · intro b hb hne
      rw [← List.map_append] at hb
      obtain ⟨d, hd, rfl⟩ := List.mem_map.mp hb
      simp only [hcB, Nat.add_zero] at hne ⊢
      have hD := hca d
      generalize chunkAdr d = D at hne hD ⊢
      refine m3 _ (fun hn => ?_) (fun _ => by omega)
      obtain ⟨d2, hd2, hde2⟩ := hprev hn
      omega
    · rw [hcB, Nat.add_zero]; exact m1
    · rw [hcB, Nat.add_zero]; exact m2
  have pgk := hp.giveBack
  split
  · exact ⟨L1 ++ L2, m, _, _, _, _, rfl, core _ _ _ _, bl _, pgk.congr rfl rfl rfl rfl rfl, hfr⟩
  · exact ⟨L1 ++ L2, m, _, _, _, _, rfl, core _ _ _ _, bl _, pgk, hfr⟩

end Verif.Slabs
