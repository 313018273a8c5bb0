import Verif.Lemmas.SlabChunk
/-!
# States of runs, and a run with many free blocks
-/
namespace Verif.Slabs
open Spec Run

theorem step_det {σ : List Piece} {op : Op} {o : Obs} {σ1 σ2 : List Piece} (h1 : Spec.Step σ op o σ1) (h2 : Spec.Step σ op o σ2) : σ1 = σ2 := by
  cases h1 <;> cases h2 <;> first | rfl | (exfalso; contradiction) | skip

/-- Every state of a run is in order. -/
theorem reach_rel {c : Cfg} (h1 : c.Ok) (h2 : 262144 ≤ c.itemMax) {mem : Nat → Nat} {σ : List Piece} {s : St} (h : Reach (init c mem) σ s) :
    Rel σ s ∧ Ck s.pg := by
  induction h with
  | start =>
    refine ⟨rel_init c h2 mem, ⟨?_, ?_, fun _ => ⟨rfl, rfl⟩, fun hh => absurd rfl hh⟩⟩
    · have := h1.2
      simp only [init, blockSize]; omega
    · simp only [init, blockSize]; omega
  | next _ hl e hst ih =>
    obtain ⟨s', o', σ', k1, k2, k3⟩ := sim ih.1 hl
    rw [e] at k1
    injection k1 with k1
    injection k1 with k1 k1'
    subst k1 k1'
    rw [step_det hst k2]
    exact ⟨k3, Ck.step ih.1 ih.2 hl e⟩

/-! ## Sums over pieces -/

theorem room_eq (n : Nat) : room n = slen n := by
  unfold room slen minSlot
  simp only
  split <;> split <;> omega

theorem space_eq : ∀ (σ : List Piece), space σ = wsum (fun _ => true) (σ.map slotOf)
  | [] => rfl
  | c :: σ => by
    simp only [space, List.map_cons, wsum, if_true, space_eq σ, room_eq]
    rfl

theorem wsum_filter {p : Slot → Bool} : ∀ (S : List Slot), wsum p S = wsum (fun _ => true) (S.filter p)
  | [] => rfl
  | x :: S => by
    by_cases h : p x = true
    · rw [List.filter_cons_of_pos h]; simp only [wsum, h, if_true, wsum_filter S]
    · rw [List.filter_cons_of_neg h]; simp only [wsum, if_neg h, wsum_filter S]; omega

theorem total_eq {σ : List Piece} {s : St} {S : List Slot} {L : List Nat} (hi : Inv s S L) (hp : (σ.map slotOf).Perm (usedOf S)) : s.total = space σ := by
  rw [hi.use.total, space_eq, wsum_perm hp, wsum_filter]
  rfl

theorem space_all {s : St} {S : List Slot} {L : List Nat} (hi : Inv s S L) : s.total + s.fsmall + s.favail = L.length * 262112 := by
  rw [← hi.core.geo.sum (hi.pg.nodup.sublist (List.sublist_append_left ..)), hi.use.total, hi.core.small, hi.core.avail]
  rw [wsum_split (p := fun _ => true) (q := fun x => decide (x.kind = .used)) (r := fun x => decide (x.kind = .free)),
    wsum_split (p := fun x => decide (x.kind = .free)) (q := sm s.pct) (r := av s.pct)]
  · omega
  · intro x _
    simp only [sm, av, decide_eq_true_eq]
    constructor
    · constructor
      · intro h
        by_cases h1 : x.len < 32 ∨ (cf x.len : Int) < s.pct
        · exact .inl ⟨h, h1⟩
        · exact .inr ⟨h, by omega, by omega⟩
      · rintro (h | h) <;> exact h.1
    · rintro ⟨⟨_, h1⟩, _, h2, h3⟩; omega
  · intro x hx
    have := hi.tight x hx
    simp only [decide_eq_true_eq, true_iff]
    constructor
    · cases hk : x.kind
      · exact .inr rfl
      · exact .inl rfl
      · exact absurd hk this
    · rintro ⟨h1, h2⟩; rw [h1] at h2; simp at h2

/-! ## A run with many free blocks -/

/-- Largest item 1 MB, 64 GB of memory. -/
def bigCfg : Cfg := ⟨1048576, 68719476736⟩

/-- The pages as long as only small memory has been used, and not too much of it. -/
structure Early (p : Pages) : Prop where
  per : p.perslab = 4
  rsvd : p.rsvd = 0
  lim : p.memLimit = 68719476736
  res : p.memReserved = 3435973835
  mal : p.memMalloced = p.slabs * 1048576
  few : p.slabs ≤ 25001
  fl : p.freeLimit = 0

theorem Early.chunk {s t : St} {b : Nat} {L : List Nat} (h : Early s.pg) (hp : PgOk s.pg L) (hL : L.length ≤ 100000) {os : Bool}
    (e : blckAlloc s os = some (t, some b)) : Early t.pg := by
  unfold blckAlloc at e
  have key : ∀ q r, chunkAlloc s.pg os = some (q, r) → Early q := by
    intro q r hq
    have take : ∀ p : Pages, Early p → (match p.slots with
          | c :: r => some (({ p with slots := r } : Pages), some c)
          | [] =>
            match p.endPtr with
            | none => none
            | some c =>
              let n := if p.endFree = 0 then 4294967295 else p.endFree - 1
              some ({ p with endFree := n, endPtr := if n ≠ 0 then some (c + 1) else none }, some c)) = some (q, r) → Early q := by
      intro p hck he
      cases hs : p.slots with
      | cons c r' =>
        rw [hs] at he
        injection he with he; injection he with he _
        rw [← he]; exact ⟨hck.per, hck.rsvd, hck.lim, hck.res, hck.mal, hck.few, hck.fl⟩
      | nil =>
        rw [hs] at he
        cases hee : p.endPtr with
        | none => rw [hee] at he; simp at he
        | some c =>
          rw [hee] at he
          injection he with he; injection he with he _
          rw [← he]; exact ⟨hck.per, hck.rsvd, hck.lim, hck.res, hck.mal, hck.few, hck.fl⟩
    unfold chunkAlloc at hq
    by_cases hor : s.pg.endPtr.isSome ∨ s.pg.slots ≠ []
    · rw [if_pos hor] at hq
      exact take _ h hq
    · rw [if_neg hor] at hq
      cases hn : newslab s.pg os with
      | none =>
        rw [hn] at hq
        injection hq with hq; injection hq with hq _
        rw [← hq]; exact h
      | some p =>
        rw [hn] at hq
        refine take p ?_ hq
        have h1 : s.pg.slots = [] := by
          cases hs : s.pg.slots with
          | nil => rfl
          | cons => exact absurd (.inr (by rw [hs]; simp)) hor
        have h2 : s.pg.endPtr = none := by
          cases hs : s.pg.endPtr with
          | none => rfl
          | some => exact absurd (.inl (by rw [hs]; rfl)) hor
        have hc := hp.cnt
        rw [hp.en h2, h1, h.per] at hc
        simp only [List.length_nil] at hc
        unfold newslab at hn
        simp only at hn
        split at hn
        · simp at hn
        · injection hn with hn
          rw [← hn, if_neg (by simp only [h.rsvd]; omega)]
          unfold fixReserve
          have hm := h.mal
          simp only [h.lim, h.res, h.per, blockSize, h.mal]
          rw [if_neg (by omega)]
          exact ⟨rfl, h.rsvd, rfl, rfl, by simp only; omega, by simp only; omega, h.fl⟩
  cases hq : chunkAlloc s.pg os with
  | none => rw [hq] at e; simp at e
  | some r =>
    obtain ⟨q, r⟩ := r
    have hE := key q r hq
    rw [hq] at e
    cases r with
    | none => simp at e
    | some c =>
      simp only at e
      have hpg : ∀ x : St, (blckLink x (chunkAdr c)).pg = x.pg := by
        intro x
        unfold blckLink
        simp only
        split <;> rfl
      split at e
      · rw [if_neg (by rw [hpg]; simp only [hE.fl]; omega)] at e
        injection e with e; injection e with e _
        rw [← e, hpg]; exact hE
      · simp at e

theorem Early.back {s t : St} {b : Nat} (h : Early s.pg) (e : blckFree s b = some t) : Early t.pg ∧ t.pg.slabs = s.pg.slabs := by
  unfold blckFree at e
  have hpg : ∀ x y : St, blckUnlink x b = some y → y.pg = x.pg := by
    intro x y hy
    unfold blckUnlink at hy
    split at hy
    · injection hy with hy
      rw [← hy]
      simp only
      split <;> split <;> rfl
    · simp at hy
  cases hu : blckUnlink s b with
  | none => rw [hu] at e; simp at e
  | some y =>
    rw [hu] at e
    have hy := hpg s y hu
    have h2 : ¬ 0 < (chunkFree y.pg (b / blockSize - 1)).freeLimit := by
      rw [hy]; simp only [chunkFree, h.fl]; omega
    simp only [if_neg h2] at e
    injection e with e
    rw [← e]
    simp only [hy, chunkFree]
    exact ⟨⟨h.per, h.rsvd, h.lim, h.res, h.mal, h.few, h.fl⟩, trivial⟩

theorem bigCfg_ok : bigCfg.Ok := by unfold Cfg.Ok bigCfg; decide

theorem early_init (mem : Nat → Nat) : Early (init bigCfg mem).pg where
  per := by simp [init, bigCfg, blockSize]
  rsvd := rfl
  lim := rfl
  res := by simp [init, bigCfg]
  mal := by simp [init]
  few := by simp [init]
  fl := rfl

theorem fill (mem : Nat → Nat) (n : Nat) (hn : n ≤ 100000) : ∃ σ s, Reach (init bigCfg mem) σ s ∧ σ.length = n ∧ space σ = n * 49152 ∧ Early s.pg := by
  induction n with
  | zero => exact ⟨[], _, .start, rfl, by simp [space], early_init mem⟩
  | succ n ih =>
    obtain ⟨σ, s, hr, hlen, hsp, hE⟩ := ih (by omega)
    obtain ⟨hrel, -⟩ := reach_rel bigCfg_ok (by decide) hr
    obtain ⟨S, L, hi, hp⟩ := id hrel.inv
    have hlenL : L.length ≤ n := by
      have := hi.core.geo.blocks_le hi.tight (hi.pg.nodup.sublist (List.sublist_append_left ..))
      rw [← hp.length_eq, List.length_map, hlen] at this
      exact this
    have hl : Spec.Legal σ (.alloc 49148 false true) := .alloc (by omega) (by omega)
    obtain ⟨s', o, σ', e, hst, -⟩ := sim hrel hl
    have hpgs := pages_step hrel hl e
    have hE' : Early s'.pg := by
      rcases hpgs with h1 | ⟨os, t, b, h1, h2⟩ | ⟨t, t', b, h0, h1, h2⟩ | ⟨len, -, h1⟩ | ⟨m, r, -, h1⟩
      · rw [h1]; exact hE
      · rw [h2]; exact hE.chunk hi.pg (by omega) h1
      · rw [h2]; exact (Early.back (s := t) (by rw [h0]; exact hE) h1).1
      · simp at h1
      · simp at h1
    refine ⟨σ', s', .next hr hl e hst, ?_⟩
    cases hst with
    | null =>
      exfalso
      simp only [step] at e
      rcases alloc_ok hi (by omega : 49148 ≤ 49148) false true with ⟨e1, hf, -⟩ | ⟨s1, p, R, L', e1, hp0, -⟩
      · obtain ⟨f1, f2, f3⟩ := hf
        have hc := hi.pg.cnt
        rw [hi.pg.en f2, f1, hE.per] at hc
        simp only [List.length_nil] at hc
        rcases f3 with ⟨-, f3, -⟩ | f3
        · rw [hE.lim, hE.mal, hE.per] at f3
          unfold blockSize at f3
          omega
        · simp at f3
      · rw [e1] at e
        injection e with e; injection e with _ e; injection e with e
        exact hp0 e
    | alloc _ _ _ =>
      refine ⟨by simp [hlen], ?_, hE'⟩
      simp only [space, hsp]
      have : room 49148 = 49152 := by decide
      omega

theorem drain {c : Cfg} {mem : Nat → Nat} (hc1 : c.Ok) (hc2 : 262144 ≤ c.itemMax) {K : Nat} : ∀ (n : Nat) {σ : List Piece} {s : St}, Reach (init c mem) σ s →
    σ.length ≤ n → Early s.pg → s.pg.slabs = K → ∃ s', Reach (init c mem) [] s' ∧ Early s'.pg ∧ s'.pg.slabs = K
  | n, [], s, hr, _, hE, hK => ⟨s, hr, hE, hK⟩
  | 0, d :: σ, s, _, hn, _, _ => by simp at hn
  | n + 1, d :: σ, s, hr, hn, hE, hK => by
    obtain ⟨hrel, -⟩ := reach_rel hc1 hc2 hr
    have hl : Spec.Legal (d :: σ) (.free d.ptr d.size) := .free (List.mem_cons_self ..)
    obtain ⟨s', o, σ', e, hst, -⟩ := sim hrel hl
    have hE' : Early s'.pg ∧ s'.pg.slabs = K := by
      have hpgs := pages_step hrel hl e
      obtain ⟨S, L, hi, hp⟩ := id hrel.inv
      simp only [step] at e
      have hi2 := hi.perm (List.perm_cons_erase (slot_in hp (List.mem_cons_self ..)))
      obtain ⟨s1, S', L', e1, -, -, -, ob⟩ := free_ok (p := d.ptr) (size := d.size) hi2
      rw [e1] at e; injection e with e; injection e with e _
      subst e
      rcases ob with ob | ⟨t, t', b, o1, o2, o3⟩
      · rw [ob]; exact ⟨hE, hK⟩
      · obtain ⟨k1, k2⟩ := Early.back (s := t) (by rw [o1]; exact hE) o2
        rw [o3]; exact ⟨k1, by rw [k2, o1]; exact hK⟩
    refine drain hc1 hc2 n (.next hr hl e hst) ?_ hE'.1 hE'.2
    cases hst
    rw [List.filter_cons_of_neg (by simp)]
    have := List.length_filter_le (fun c => decide (c.ptr ≠ d.ptr)) σ
    simp only [List.length_cons] at hn
    omega

/-- A run after which `free_chunk_space` is 4 GB or more too low. -/
theorem big_run (mem : Nat → Nat) : ∃ σ s, Reach (init bigCfg mem) σ s ∧ s.pg.rsvd ≠ 0 ∧ s.pg.freeChunk + 4294967296 ≤ avail s.pg * 262144 := by
  obtain ⟨σ, s, hr, hlen, hsp, hE⟩ := fill mem 100000 (Nat.le_refl _)
  have hbig : 18752 < s.pg.slabs * 4 := by
    obtain ⟨hrel, -⟩ := reach_rel bigCfg_ok (by decide) hr
    obtain ⟨S, L, hi, hp⟩ := id hrel.inv
    have h1 := total_eq hi hp
    have h2 := space_all hi
    have h3 := hi.pg.cnt
    rw [hE.per] at h3
    omega
  obtain ⟨s', hr', hE', hK⟩ := drain bigCfg_ok (by decide) σ.length hr (Nat.le_refl _) hE rfl
  obtain ⟨hrel, -⟩ := reach_rel bigCfg_ok (by decide) hr'
  obtain ⟨S, L, hi, hp⟩ := id hrel.inv
  have hL : L.length = 0 := by
    have := hi.core.geo.blocks_le hi.tight (hi.pg.nodup.sublist (List.sublist_append_left ..))
    rw [← hp.length_eq] at this
    simpa using this
  have hc := hi.pg.cnt
  rw [hE'.per, hL, hK] at hc
  have hfew := hE'.few
  rw [hK] at hfew
  refine ⟨[], _, .next hr' .otherPage (o := .done) (op := .otherPage 68719476736) rfl .otherPage, ?_⟩
  simp only
  unfold fixReserve
  rw [if_pos (.inl (by simp only [hE'.lim]; omega)), if_pos hE'.rsvd]
  simp only
  obtain ⟨A, hA⟩ : ∃ A, A = (if s'.pg.slabs / 100 * 5 < 4 then 4 else s'.pg.slabs / 100 * 5) := ⟨_, rfl⟩
  rw [← hA]
  have hA1 : 4 ≤ A ∧ A ≤ 1250 := by rw [hA, hK]; split <;> omega
  unfold avail blockSize
  simp only [hE'.per]
  rw [show s'.pg.slabs + A - s'.pg.slabs = A by omega]
  refine ⟨by omega, ?_⟩
  omega

end Verif.Slabs
