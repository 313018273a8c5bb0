import Verif.Lemmas.SlabSim
/-!
# The count of blocks that can still be had
-/
namespace Verif.Slabs
open Spec Run

/-- Blocks that can still be had: free ones and those of the pages kept in reserve. -/
def avail (p : Pages) : Nat := p.slots.length + p.endFree + (p.rsvd - p.slabs) * p.perslab

/-- `free_chunk_space` is right, as long as slab class 0 is below 4 GB. -/
structure Ck (p : Pages) : Prop where
  per : p.perslab ≤ 512
  pos : 0 < p.perslab
  off : p.rsvd = 0 → p.freeChunk = 0 ∧ p.freeLimit = 0
  on : p.rsvd ≠ 0 → p.slabs * p.perslab < 16384 → 0 < p.freeLimit ∧ p.freeChunk = avail p * 262144 ∧ (p.rsvd - p.slabs) * p.perslab < 16384

theorem Ck.fix {p : Pages} {L : List Nat} (h : Ck p) (hp : PgOk p L) : Ck (fixReserve p) := by
  unfold fixReserve
  split
  · split
    · rename_i h0
      simp only
      obtain ⟨A, hA⟩ : ∃ A, A = (if p.slabs / 100 * 5 < 4 then 4 else p.slabs / 100 * 5) := ⟨_, rfl⟩
      rw [← hA]
      have h4 : 4 ≤ A := by rw [hA]; split <;> omega
      refine ⟨h.per, h.pos, fun hh => ?_, fun _ hs => ?_⟩
      · simp only at hh; omega
      · simp only at hs ⊢
        have hc := hp.cnt
        have hAp : A * p.perslab < 16384 := by
          have h1 := h.per
          have : A = 4 ∨ A * 20 ≤ p.slabs := by rw [hA]; split <;> omega
          rcases this with h2 | h2
          · rw [h2]; omega
          · have := Nat.mul_le_mul_right p.perslab h2
            rw [Nat.mul_right_comm] at this
            omega
        have hpos : 0 < A * p.perslab := Nat.mul_pos (by omega) h.pos
        have e1 : A * p.perslab * blockSize % 4294967296 = A * p.perslab * 262144 := by
          unfold blockSize; exact Nat.mod_eq_of_lt (by omega)
        have e2 : (p.slots.length + p.endFree) * blockSize % 4294967296 = (p.slots.length + p.endFree) * 262144 := by
          unfold blockSize; exact Nat.mod_eq_of_lt (by omega)
        rw [e1, e2]
        unfold avail
        simp only
        rw [show p.slabs + A - p.slabs = A by omega]
        omega
    · exact h
  · exact h

theorem Ck.newslab {p q : Pages} {L : List Nat} (h : Ck p) (hp : PgOk p L) (h1 : p.slots = []) (h2 : p.endPtr = none) {os : Bool}
    (e : newslab p os = some q) : Ck q := by
  unfold Slabs.newslab at e
  simp only at e
  split at e
  · simp at e
  · injection e with e
    subst e
    have h0 := hp.en h2
    have hm : (p.slabs + 1) * p.perslab = p.slabs * p.perslab + p.perslab := Nat.succ_mul ..
    have hc := hp.cnt
    rw [h0, h1] at hc
    simp only [List.length_nil] at hc
    have pok : ∀ a b, PgOk { p with endPtr := some (p.slabs * p.perslab), endFree := p.perslab, slabs := p.slabs + 1, memMalloced := p.memMalloced + blockSize * p.perslab, freeLimit := a, freeChunk := b } L := by
      intro a b
      refine ⟨hp.pos, hp.nodup, ?_, ?_, ?_, fun hh => ?_⟩
      · simp only [h1, List.length_nil, hm]; omega
      · intro c hc
        have := hp.bnd c hc
        simp only [hm]; omega
      · intro e' he
        injection he with he
        simp only [hm]
        exact ⟨hp.pos, by omega⟩
      · simp at hh
    split
    · rename_i hr
      refine Ck.fix (L := L) ?_ (pok _ _)
      refine ⟨h.per, h.pos, fun hh => ?_, fun hr0 hs => ?_⟩
      · simp only at hh; omega
      · simp only [hm] at hs hr0 ⊢
        obtain ⟨k1, k2, k3⟩ := h.on hr0 (by omega)
        unfold avail at k2 ⊢
        simp only [h1, List.length_nil, h0] at k2 ⊢
        have z1 : p.rsvd - p.slabs = 0 := by omega
        have z2 : p.rsvd - (p.slabs + 1) = 0 := by omega
        rw [z1] at k2
        rw [z2, k2]
        unfold blockSize
        omega
    · rename_i hr
      refine Ck.fix (L := L) ?_ (pok _ _)
      refine ⟨h.per, h.pos, h.off, fun hr0 hs => ?_⟩
      simp only [hm] at hs hr0 ⊢
      obtain ⟨k1, k2, k3⟩ := h.on hr0 (by omega)
      unfold avail at k2 ⊢
      simp only [h1, List.length_nil, h0] at k2 ⊢
      have z1 : p.rsvd - p.slabs = (p.rsvd - (p.slabs + 1)) + 1 := by omega
      rw [z1, Nat.succ_mul] at k2 k3
      rw [k2]
      omega

theorem Ck.block {s t : St} {b : Nat} {L : List Nat} (h : Ck s.pg) (hp : PgOk s.pg L) {os : Bool} (e : blckAlloc s os = some (t, some b)) : Ck t.pg := by
  unfold blckAlloc at e
  -- the pages the chunk is taken from
  have key : ∃ p q : Pages, ∃ c, Ck p ∧ chunkAlloc s.pg os = some (q, some c) ∧ q.perslab = p.perslab ∧ q.slabs = p.slabs ∧ q.rsvd = p.rsvd ∧ q.freeLimit = p.freeLimit ∧
      q.freeChunk = p.freeChunk ∧ q.slots.length + q.endFree + 1 = p.slots.length + p.endFree := by
    have take : ∀ p : Pages, Ck p → ∀ L', PgOk p L' → (p.endPtr.isSome ∨ p.slots ≠ []) →
        ∃ q : Pages, ∃ c, (match p.slots with
          | c :: r => some (({ p with slots := r } : Pages), some c)
          | [] =>
            match p.endPtr with
            | none => none
            | some c =>
              let n := if p.endFree = 0 then 4294967295 else p.endFree - 1
              some ({ p with endFree := n, endPtr := if n ≠ 0 then some (c + 1) else none }, some c)) = some (q, some c) ∧
          q.perslab = p.perslab ∧ q.slabs = p.slabs ∧ q.rsvd = p.rsvd ∧ q.freeLimit = p.freeLimit ∧
          q.freeChunk = p.freeChunk ∧ q.slots.length + q.endFree + 1 = p.slots.length + p.endFree := by
      intro p hck L' hpo hor
      cases hs : p.slots with
      | cons c r => exact ⟨_, c, rfl, rfl, rfl, rfl, rfl, rfl, by simp only [List.length_cons]; omega⟩
      | nil =>
        cases he : p.endPtr with
        | none => rw [hs, he] at hor; simp at hor
        | some c =>
          have := (hpo.ep c he).1
          refine ⟨_, c, rfl, rfl, rfl, rfl, rfl, rfl, ?_⟩
          simp only [if_neg (show ¬ p.endFree = 0 by omega), hs, List.length_nil]
          omega
    by_cases hor : s.pg.endPtr.isSome ∨ s.pg.slots ≠ []
    · obtain ⟨q, c, k⟩ := take s.pg h L hp hor
      refine ⟨s.pg, q, c, h, ?_, k.2⟩
      unfold chunkAlloc
      rw [if_pos hor]
      exact k.1
    · have h1 : s.pg.slots = [] := by
        cases hs : s.pg.slots with
        | nil => rfl
        | cons => exact absurd (.inr (by rw [hs]; simp)) hor
      have h2 : s.pg.endPtr = none := by
        cases hs : s.pg.endPtr with
        | none => rfl
        | some => exact absurd (.inl (by rw [hs]; rfl)) hor
      rcases newslab_ok hp h1 h2 os with ⟨e1, -⟩ | ⟨p, e1, hpo, -, e3, -⟩
      · unfold chunkAlloc at e
        rw [if_neg hor, e1] at e
        simp at e
      · have hck := h.newslab hp h1 h2 e1
        obtain ⟨q, c, k⟩ := take p hck L hpo (.inl (by rw [e3]; rfl))
        refine ⟨p, q, c, hck, ?_, k.2⟩
        unfold chunkAlloc
        rw [if_neg hor, e1]
        exact k.1
  obtain ⟨p, q, c, hck, e1, q1, q2, q3, q4, q5, q6⟩ := key
  rw [e1] at e
  simp only at e
  split at e
  · have hpg : ∀ x : St, (blckLink x (chunkAdr c)).pg = x.pg := by
      intro x
      unfold blckLink
      simp only
      split <;> rfl
    simp only [hpg] at e
    have hav : avail q + 1 = avail p := by
      unfold avail; rw [q1, q2, q3]; omega
    split at e
    · rename_i hlim
      split at e
      · rename_i hbs
        injection e with e
        injection e with e _
        rw [← e]
        simp only [hpg]
        refine ⟨by simp only [q1]; exact hck.per, by simp only [q1]; exact hck.pos, fun hh => ?_, fun hr hs => ?_⟩
        · simp only [q3, q4] at hh ⊢
          have := hck.off hh
          omega
        · simp only [q1, q2, q3, q4] at hr hs ⊢
          obtain ⟨k1, k2, k3⟩ := hck.on hr hs
          refine ⟨k1, ?_, k3⟩
          rw [q5, k2, ← hav]
          unfold avail blockSize
          simp only [q1, q2, q3]
          omega
      · rename_i hbs
        injection e with e
        injection e with e _
        rw [← e]
        simp only [hpg]
        refine ⟨by simp only [q1]; exact hck.per, by simp only [q1]; exact hck.pos, fun hh => ?_, fun hr hs => ?_⟩
        · simp only [q3, q4] at hh ⊢
          have := hck.off hh
          omega
        · simp only [q1, q2, q3, q4] at hr hs ⊢
          obtain ⟨k1, k2, k3⟩ := hck.on hr hs
          exfalso
          rw [q5, k2, ← hav] at hbs
          unfold blockSize at hbs
          omega
    · rename_i hlim
      injection e with e
      injection e with e _
      rw [← e, hpg]
      simp only
      refine ⟨by rw [q1]; exact hck.per, by rw [q1]; exact hck.pos, fun hh => ?_, fun hr hs => ?_⟩
      · rw [q4, q5]; exact hck.off (q3 ▸ hh)
      · rw [q3] at hr
        rw [q1, q2] at hs
        have := (hck.on hr hs).1
        omega
  · simp at e

theorem Ck.back {s t : St} {b : Nat} {L : List Nat} (h : Ck s.pg) (hp : PgOk s.pg L) (e : blckFree s b = some t) : Ck t.pg := by
  unfold blckFree at e
  have hpg : ∀ x y : St, blckUnlink x b = some y → y.pg = x.pg := by
    intro x y hy
    unfold blckUnlink at hy
    split at hy
    · injection hy with hy
      rw [← hy]
      simp only
      split <;> split <;> rfl
    · simp at hy
  cases hu : blckUnlink s b with
  | none => rw [hu] at e; simp at e
  | some y =>
    rw [hu] at e
    have hy := hpg s y hu
    have hc := hp.cnt
    by_cases hlim : 0 < (chunkFree y.pg (b / blockSize - 1)).freeLimit
    · simp only [if_pos hlim] at e
      injection e with e
      rw [← e]
      simp only [hy, chunkFree] at hlim ⊢
      refine ⟨h.per, h.pos, fun hh => ?_, fun hr hs => ?_⟩
      · simp only at hh ⊢
        have := h.off hh
        omega
      · simp only at hr hs ⊢
        obtain ⟨k1, k2, k3⟩ := h.on hr hs
        refine ⟨k1, ?_, k3⟩
        rw [k2]
        unfold avail blockSize
        simp only [List.length_cons]
        rw [Nat.mod_eq_of_lt (by omega)]
        omega
    · simp only [if_neg hlim] at e
      injection e with e
      rw [← e]
      simp only [hy, chunkFree] at hlim ⊢
      refine ⟨h.per, h.pos, h.off, fun hr hs => ?_⟩
      simp only at hr hs
      have := (h.on hr hs).1
      omega

/-! ## Along a run -/

/-- What an event does to the pages. -/
theorem pages_step {σ : List Piece} {s s' : St} {op : Op} {o : Obs} (h : Rel σ s) (hl : Spec.Legal σ op) (e : step s op = some (s', o)) :
    s'.pg = s.pg ∨ (∃ os t b, blckAlloc s os = some (t, some b) ∧ s'.pg = t.pg) ∨ (∃ t t' b, t.pg = s.pg ∧ blckFree t b = some t' ∧ s'.pg = t'.pg) ∨
    (∃ len, s'.pg = fixReserve { s.pg with memMalloced := s.pg.memMalloced + len } ∧ op = .otherPage len) ∨
    (∃ n r, s'.pg = { s.pg with memLimit := n, memReserved := r, rsvd := 0, freeLimit := 0, freeChunk := 0 } ∧ op = .limit n) := by
  cases hl with
  | @alloc size short os h0 h1 =>
    obtain ⟨⟨S, L, hi, hp⟩, -, -⟩ := h
    simp only [step] at e
    rcases alloc_ok hi h1 short os with ⟨e1, -⟩ | ⟨s1, p, R, L', e1, -, -, -, -, nb⟩
    · rw [e1] at e; injection e with e; injection e with e _; exact .inl (by rw [← e])
    · rw [e1] at e; injection e with e; injection e with e _
      subst e
      rcases nb with nb | ⟨t, b, nb⟩
      · exact .inl nb
      · exact .inr (.inl ⟨os, t, b, nb⟩)
  | @free c hc =>
    obtain ⟨⟨S, L, hi, hp⟩, -, -⟩ := h
    simp only [step] at e
    have hi2 := hi.perm (List.perm_cons_erase (slot_in hp hc))
    obtain ⟨s1, S', L', e1, -, -, -, ob⟩ := free_ok (p := c.ptr) (size := c.size) hi2
    rw [e1] at e; injection e with e; injection e with e _
    subst e
    rcases ob with ob | ob
    · exact .inl ob
    · exact .inr (.inr (.inl ob))
  | store _ _ _ => injection e with e; injection e with e _; exact .inl (by rw [← e])
  | load _ _ => injection e with e; injection e with e _; exact .inl (by rw [← e])
  | @otherPage len => injection e with e; injection e with e _; exact .inr (.inr (.inr (.inl ⟨len, by rw [← e], rfl⟩)))
  | @limit n =>
    injection e with e; injection e with e _
    subst e
    unfold setLimit
    simp only
    generalize (if n / 100 * 5 < 4 * s.pg.itemMax then 4 * s.pg.itemMax else n / 100 * 5) = r
    split
    · exact .inl rfl
    · split
      · exact .inl rfl
      · exact .inr (.inr (.inr (.inr ⟨n, r, rfl, rfl⟩)))

theorem Ck.step {σ : List Piece} {s s' : St} {op : Op} {o : Obs} (h : Rel σ s) (hc : Ck s.pg) (hl : Spec.Legal σ op) (e : step s op = some (s', o)) : Ck s'.pg := by
  obtain ⟨⟨S, L, hi, -⟩, -, -⟩ := id h
  rcases pages_step h hl e with h1 | ⟨os, t, b, h1, h2⟩ | ⟨t, t', b, h0, h1, h2⟩ | ⟨len, h1, -⟩ | ⟨n, r, h1, -⟩
  · rw [h1]; exact hc
  · rw [h2]; exact hc.block hi.pg h1
  · rw [h2]; exact Ck.back (s := t) (by rw [h0]; exact hc) (by rw [h0]; exact hi.pg) h1
  · rw [h1]
    refine Ck.fix (L := L) ⟨hc.per, hc.pos, hc.off, fun h2 h3 => ?_⟩ (hi.pg.congr rfl rfl rfl rfl rfl)
    exact hc.on h2 h3
  · rw [h1]
    exact ⟨hc.per, hc.pos, fun _ => ⟨rfl, rfl⟩, fun hh => absurd rfl hh⟩

end Verif.Slabs
