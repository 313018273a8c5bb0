import Verif.Lemmas.SlabTile
import Verif.Spec.Slabs
/-!
# The allocator against its specification
-/
namespace Verif.Slabs
open Spec Run

/-- The slot of a piece. -/
def slotOf (c : Piece) : Slot := ⟨c.ptr, slen c.size, .used⟩

/-- The used slots are those of the pieces. -/
structure Rel (σ : List Piece) (s : St) : Prop where
  inv : ∃ S L, Inv s S L ∧ (σ.map slotOf).Perm (usedOf S)
  data : ∀ c ∈ σ, ∀ a w, c.data a = some w → c.ptr ≤ a ∧ a + 4 < c.ptr + slen c.size ∧ s.mem a = w
  sizes : ∀ c ∈ σ, 0 < c.size ∧ c.size ≤ 49148

theorem whole_le (n : Nat) : whole n + 4 ≤ slen n := by
  have := slen_spec n
  unfold whole
  omega

theorem holds_le {c : Piece} {a : Nat} (hp : c.ptr % 8 = 0) (h : c.Holds a) : c.ptr ≤ a ∧ a + 4 < c.ptr + slen c.size := by
  have := slen_spec c.size
  unfold Piece.Holds at h
  omega

theorem slot_in {σ : List Piece} {S : List Slot} (hp : (σ.map slotOf).Perm (usedOf S)) {c : Piece} (hc : c ∈ σ) : slotOf c ∈ S :=
  (mem_usedOf.mp (hp.mem_iff.mp (List.mem_map.mpr ⟨c, hc, rfl⟩))).1

theorem same_piece : ∀ {σ : List Piece}, (σ.map slotOf).Nodup → ∀ {c d : Piece}, c ∈ σ → d ∈ σ → slotOf c = slotOf d → c = d
  | [], _, c, _, hc, _, _ => by simp at hc
  | x :: σ, h, c, d, hc, hd, he => by
    rw [List.map_cons, List.nodup_cons] at h
    rcases List.mem_cons.mp hc with h1 | h1 <;> rcases List.mem_cons.mp hd with h2 | h2
    · rw [h1, h2]
    · subst h1; exact absurd (List.mem_map.mpr ⟨d, h2, he.symm⟩) h.1
    · subst h2; exact absurd (List.mem_map.mpr ⟨c, h1, he⟩) h.1
    · exact same_piece h.2 h1 h2 he

/-- Writing into a used slot. -/
theorem Inv.store {s : St} {a l : Nat} {R : List Slot} {L : List Nat} (h : Inv s (⟨a, l, .used⟩ :: R) L) {b v : Nat} (h1 : a ≤ b) (h2 : b + 4 < a + l)
    (h3 : b = a → v ≠ 0) : Inv { s with mem := set s.mem b v } (⟨a, l, .used⟩ :: R) L := by
  have hin := h.core.geo.ins _ (List.mem_cons_self ..)
  have hwd := h.core.wd _ (List.mem_cons_self ..)
  simp only [Wd] at hin hwd
  have cn : Cn { s with mem := set s.mem b v } R := by
    refine (h.core.cn.tail (by simp)).write (fun x hx => ?_) (fun x hx b' hb1 hb2 => ?_)
    · have := h.core.geo.al x (List.mem_cons_of_mem _ hx); omega
    · have hd := h.core.geo.head x hx
      unfold Dis at hd
      simp only at hd
      exact set_ne _ _ (by omega)
  refine ⟨Cn.core (cn.cons (by simp) ?_) h.core.geo, h.use.congr rfl rfl rfl rfl rfl rfl, h.pc, ?_, h.pg, h.tight⟩
  · simp only [Wd]
    refine ⟨?_, ?_⟩
    · by_cases hb : b = a
      · subst hb; rw [set_eq]; exact h3 rfl
      · rw [set_ne _ _ (fun hh => hb hh.symm)]; exact hwd.1
    · rw [set_ne _ _ (by omega)]; exact hwd.2
  · refine h.bl.frame rfl rfl rfl (fun c _ => ?_)
    unfold chunkAdr blockSize
    exact ⟨set_ne _ _ (by omega), set_ne _ _ (by omega)⟩

/-- Other pages and limits. -/
theorem Inv.pages {s : St} {S : List Slot} {L : List Nat} (h : Inv s S L) {p : Pages} (hp : PgOk p L) : Inv { s with pg := p } S L :=
  ⟨⟨h.core.geo, h.core.wd, h.core.fr, h.core.rng, h.core.small, h.core.avail⟩, h.use.congr rfl rfl rfl rfl rfl rfl, h.pc, h.bl, hp, h.tight⟩

theorem init_inv (c : Cfg) (h : 262144 ≤ c.itemMax) (mem : Nat → Nat) : Inv (init c mem) [] [] where
  core := {
    geo := ⟨by simp, by simp, by simp, List.Pairwise.nil, by simp, by simp, by simp, by simp, by simp, by simp⟩
    wd := by simp
    fr := fun k hk => ⟨[], by simp, by simp [Dl, Seg, init], rfl, rfl⟩
    rng := ⟨by
      have : classes (fun k => if k = 708 then 0 else (init c mem).fcount k) = 0 := by
        unfold classes
        rw [List.countP_eq_zero]
        intro k _
        simp [init]
      rw [this]; rfl, .inl ⟨rfl, rfl, fun k _ => by simp [init]⟩⟩
    small := rfl
    avail := rfl }
  use := {
    sp := fun _ _ => rfl
    ct := fun _ _ => rfl
    rg := ⟨by
      have : classes (init c mem).ucount = 0 := by
        unfold classes
        rw [List.countP_eq_zero]
        intro k _
        simp [init]
      rw [this]; rfl, .inl ⟨rfl, rfl, fun k _ => rfl⟩⟩
    tot := by
      show 0 = W (fun _ => 0) 0
      rw [W_zeros (n := 709) (k := 709) rfl (Nat.le_refl _) (fun _ _ _ => rfl)]
      rfl
    pos := by simp }
  pc := .inl ⟨rfl, rfl, rfl⟩
  bl := ⟨by simp [Dl, Seg, init], rfl⟩
  pg := ⟨Nat.div_pos h (by decide), List.Pairwise.nil, by simp [init], by simp [init], by simp [init], fun _ => rfl⟩
  tight := by simp

theorem rel_init (c : Cfg) (h : 262144 ≤ c.itemMax) (mem : Nat → Nat) : Rel [] (init c mem) :=
  ⟨⟨[], [], init_inv c h mem, List.Perm.refl _⟩, by simp, by simp⟩

theorem usedOf_cons {p l : Nat} (R : List Slot) : usedOf (⟨p, l, .used⟩ :: R) = ⟨p, l, .used⟩ :: usedOf R := by
  unfold usedOf; rw [List.filter_cons_of_pos (by simp)]

theorem sim_alloc {σ : List Piece} {s : St} (h : Rel σ s) {size : Nat} (h0 : 0 < size) (h1 : size ≤ 49148) (short os : Bool) :
    ∃ s' o σ', step s (.alloc size short os) = some (s', o) ∧ Spec.Step σ (.alloc size short os) o σ' ∧ Rel σ' s' := by
  obtain ⟨⟨S, L, hi, hp⟩, hd, hz⟩ := h
  rcases alloc_ok hi h1 short os with ⟨e, -, -⟩ | ⟨s', p, R, L', e, hp0, hi', hu, hq, -⟩
  · exact ⟨s, .ptr 0, σ, by simp [step, e], .null, ⟨⟨S, L, hi, hp⟩, hd, hz⟩⟩
  · have hal := hi'.core.geo.al _ (List.mem_cons_self ..)
    simp only at hal
    refine ⟨s', .ptr p, _, by simp [step, e], .alloc hp0 hal.1 (fun c hc => ?_), ⟨_, L', hi', ?_⟩, ?_, ?_⟩
    · have hm := hu.mem_iff.mpr (hp.mem_iff.mp (List.mem_map.mpr ⟨c, hc, rfl⟩))
      have hdis := hi'.core.geo.head _ (mem_usedOf.mp hm).1
      unfold Dis slotOf at hdis
      simp only at hdis
      have := whole_le size
      have := whole_le c.size
      unfold Apart
      omega
    · rw [usedOf_cons]
      exact (hp.trans hu.symm).cons _
    · intro c hc a w hw
      rcases List.mem_cons.mp hc with rfl | hc
      · simp at hw
      · obtain ⟨k1, k2, k3⟩ := hd c hc a w hw
        refine ⟨k1, k2, ?_⟩
        rw [hq _ (slot_in hp hc) rfl a k1 (by show a < c.ptr + slen c.size; omega)]
        exact k3
    · intro c hc
      rcases List.mem_cons.mp hc with rfl | hc
      · exact ⟨h0, h1⟩
      · exact hz c hc

theorem filter_adr {x : Slot} {R : List Slot} {L : List Nat} (hg : Geo (x :: R) L) : (usedOf (x :: R)).filter (fun y => decide (y.adr ≠ x.adr)) = usedOf R := by
  have hne : ∀ y ∈ R, y.adr ≠ x.adr := by
    intro y hy
    have hd := hg.head y hy
    have := hg.al x (List.mem_cons_self ..)
    have := hg.al y (List.mem_cons_of_mem _ hy)
    unfold Dis at hd
    omega
  have hf : (usedOf R).filter (fun y => decide (y.adr ≠ x.adr)) = usedOf R :=
    List.filter_eq_self.mpr (fun y hy => by simp [hne y (mem_usedOf.mp hy).1])
  unfold usedOf at hf ⊢
  by_cases hk : x.kind = .used
  · rw [List.filter_cons_of_pos (by simp [hk]), List.filter_cons_of_neg (by simp)]; exact hf
  · rw [List.filter_cons_of_neg (by simp [hk])]; exact hf

theorem sim_free {σ : List Piece} {s : St} (h : Rel σ s) {c : Piece} (hc : c ∈ σ) :
    ∃ s' o σ', step s (.free c.ptr c.size) = some (s', o) ∧ Spec.Step σ (.free c.ptr c.size) o σ' ∧ Rel σ' s' := by
  obtain ⟨⟨S, L, hi, hp⟩, hd, hz⟩ := h
  have hpm := List.perm_cons_erase (slot_in hp hc)
  generalize S.erase (slotOf c) = R at hpm
  have hi2 := hi.perm hpm
  obtain ⟨s', S', L', e, hi', hu, hq, -⟩ := free_ok (p := c.ptr) (size := c.size) hi2
  have hpR : ((σ.filter fun d => decide (d.ptr ≠ c.ptr)).map slotOf).Perm (usedOf R) := by
    have h1 := (hp.trans (hpm.filter _)).filter (fun y => decide (y.adr ≠ (slotOf c).adr))
    rw [List.filter_map] at h1
    exact h1.trans (by rw [← filter_adr hi2.core.geo]; exact List.Perm.refl _)
  refine ⟨s', .done, _, by simp [step, e], .free, ⟨S', L', hi', hpR.trans hu.symm⟩, ?_, fun d hd' => hz d (List.mem_filter.mp hd').1⟩
  intro d hd' a w hw
  obtain ⟨k1, k2, k3⟩ := hd d (List.mem_filter.mp hd').1 a w hw
  refine ⟨k1, k2, ?_⟩
  rw [hq _ (slot_in hpR hd') rfl a k1 (by show a < d.ptr + slen d.size; omega)]
  exact k3

theorem slotOf_put (c : Piece) (a v : Nat) : slotOf (if c.Holds a then c.put a v else c) = slotOf c := by
  split <;> rfl

theorem sim_store {σ : List Piece} {s : St} (h : Rel σ s) {c : Piece} (hc : c ∈ σ) {b v : Nat} (hb : c.Holds b) (hv : b = c.ptr → v ≠ 0) :
    ∃ s' o σ', step s (.store b v) = some (s', o) ∧ Spec.Step σ (.store b v) o σ' ∧ Rel σ' s' := by
  obtain ⟨⟨S, L, hi, hp⟩, hd, hz⟩ := h
  have hm := slot_in hp hc
  have hpm := List.perm_cons_erase hm
  have hi2 := hi.perm hpm
  obtain ⟨k1, k2⟩ := holds_le (hi.core.geo.al _ hm).1 hb
  refine ⟨_, .done, _, rfl, .store, ⟨S, L, (hi2.store k1 k2 hv).perm hpm.symm, ?_⟩, ?_, ?_⟩
  · rw [List.map_map]
    have : (slotOf ∘ fun c => if c.Holds b then c.put b v else c) = slotOf := funext (fun d => slotOf_put d b v)
    rw [this]; exact hp
  · intro d hd' a w hw
    obtain ⟨e, he, rfl⟩ := List.mem_map.mp hd'
    have hme := slot_in hp he
    by_cases hh : e.Holds b
    · rw [if_pos hh] at hw ⊢
      obtain ⟨m1, m2⟩ := holds_le (hi.core.geo.al _ hme).1 hh
      simp only [Piece.put] at hw ⊢
      by_cases hab : a = b
      · subst hab
        rw [if_pos rfl] at hw
        injection hw with hw
        exact ⟨m1, m2, by rw [set_eq]; exact hw⟩
      · rw [if_neg hab] at hw
        obtain ⟨n1, n2, n3⟩ := hd e he a w hw
        exact ⟨n1, n2, by rw [set_ne _ _ hab]; exact n3⟩
    · rw [if_neg hh] at hw ⊢
      obtain ⟨n1, n2, n3⟩ := hd e he a w hw
      refine ⟨n1, n2, ?_⟩
      show set s.mem b v a = w
      rw [set_ne _ _ ?_]
      · exact n3
      · rintro rfl
        rcases hi.core.geo.cases hme hm with heq | hdis
        · exact hh ((same_piece (hp.nodup_iff.mpr (hi.core.geo.nodup.filter _)) he hc heq) ▸ hb)
        · unfold Dis slotOf at hdis
          simp only at hdis
          omega
  · intro d hd'
    obtain ⟨e, he, rfl⟩ := List.mem_map.mp hd'
    have := hz e he
    split
    · exact this
    · exact this

theorem setLimit_pg {s : St} {L : List Nat} (h : PgOk s.pg L) (n : Nat) : ∃ p, (setLimit s n).1 = { s with pg := p } ∧ PgOk p L := by
  unfold setLimit
  simp only
  generalize (if n / 100 * 5 < 4 * s.pg.itemMax then 4 * s.pg.itemMax else n / 100 * 5) = r
  split
  · exact ⟨s.pg, rfl, h⟩
  · split
    · exact ⟨s.pg, rfl, h⟩
    · exact ⟨_, rfl, h.congr rfl rfl rfl rfl rfl⟩

theorem Rel.pages {σ : List Piece} {s : St} (h : Rel σ s) {p : Pages} (hp : ∀ L, PgOk s.pg L → PgOk p L) : Rel σ { s with pg := p } := by
  obtain ⟨⟨S, L, hi, hpm⟩, hd, hz⟩ := h
  exact ⟨⟨S, L, hi.pages (hp L hi.pg), hpm⟩, hd, hz⟩

theorem sim {σ : List Piece} {s : St} {op : Op} (h : Rel σ s) (hl : Spec.Legal σ op) :
    ∃ s' o σ', step s op = some (s', o) ∧ Spec.Step σ op o σ' ∧ Rel σ' s' := by
  cases hl with
  | alloc h0 h1 => exact sim_alloc h h0 h1 _ _
  | free hc => exact sim_free h hc
  | store hc hb hv => exact sim_store h hc hb hv
  | @load adr c hc hb =>
    refine ⟨s, .word (s.mem adr), σ, rfl, .load (fun d hd w _ hw => (h.data d hd adr w hw).2.2), h⟩
  | @otherPage len =>
    exact ⟨_, .done, σ, rfl, .otherPage, h.pages (fun L hL => (hL.congr (q := { s.pg with memMalloced := s.pg.memMalloced + len }) rfl rfl rfl rfl rfl).fix)⟩
  | @limit n =>
    obtain ⟨⟨S, L, hi, hpm⟩, hd, hz⟩ := h
    obtain ⟨p, e, hp⟩ := setLimit_pg hi.pg n
    refine ⟨_, _, σ, rfl, .limit, ?_⟩
    rw [e]
    exact ⟨⟨S, L, hi.pages hp, hpm⟩, hd, hz⟩

end Verif.Slabs
