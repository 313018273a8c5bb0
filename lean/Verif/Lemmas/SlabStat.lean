import Verif.Lemmas.SlabBig
/-!
# The statistics
-/
namespace Verif.Slabs
open Spec Run

theorem cls_eq {n : Nat} (h : n ≤ 49148) : cls n = cc (slen n) := by
  have h8 := (slen_spec n).1
  have h9 := slen_le h
  unfold cls
  simp only [room_eq]
  generalize slen n = l at *
  unfold cc
  (repeat' split) <;> omega

theorem any_iff {σ : List Piece} {s : St} {S : List Slot} {L : List Nat} (h : Rel σ s) (hi : Inv s S L) (hp : (σ.map slotOf).Perm (usedOf S)) {k : Nat} (hk : k < 709) :
    0 < s.ucount k ↔ ∃ c ∈ σ, cls c.size = k := by
  rw [hi.use.ct k hk, List.length_pos_iff_exists_mem]
  constructor
  · rintro ⟨x, hx⟩
    obtain ⟨h1, h2⟩ := List.mem_filter.mp hx
    obtain ⟨h3, h4⟩ := us_iff.mp h2
    obtain ⟨c, hc, rfl⟩ := List.mem_map.mp (hp.mem_iff.mpr (mem_usedOf.mpr ⟨h1, h3⟩))
    exact ⟨c, hc, by rw [cls_eq (h.sizes c hc).2]; exact h4⟩
  · rintro ⟨c, hc, hck⟩
    rw [cls_eq (h.sizes c hc).2] at hck
    exact ⟨slotOf c, List.mem_filter.mpr ⟨slot_in hp hc, us_iff.mpr ⟨rfl, hck⟩⟩⟩

theorem space_filter {σ : List Piece} {s : St} {S : List Slot} {L : List Nat} (h : Rel σ s) (hi : Inv s S L) (hp : (σ.map slotOf).Perm (usedOf S)) {p : Nat}
    (hp9 : p < 709) : W s.uspace p = space (σ.filter fun c => decide ((p : Int) ≤ (cls c.size : Int))) := by
  unfold W
  rw [sum_used hi.use.sp (by omega), wsum_filter, space_eq]
  have e1 : (σ.filter fun c => decide ((p : Int) ≤ (cls c.size : Int))).map slotOf = (σ.map slotOf).filter (fun x => decide (p ≤ cc x.len)) := by
    rw [List.filter_map]
    congr 1
    refine List.filter_congr (fun c hc => ?_)
    simp only [Function.comp, slotOf]
    rw [cls_eq (h.sizes c hc).2]
    exact decide_eq_decide.mpr (by omega)
  rw [e1]
  refine wsum_perm ?_
  refine List.Perm.trans ?_ (hp.filter _).symm
  unfold usedOf
  rw [List.filter_filter]
  refine List.Perm.of_eq (List.filter_congr (fun x _ => ?_))
  have := cc_lt x.len
  rw [Bool.eq_iff_iff]
  simp only [decide_eq_true_eq, Bool.and_eq_true]
  constructor
  · rintro ⟨h1, h2, -⟩; exact ⟨h2, h1⟩
  · rintro ⟨h1, h2⟩; exact ⟨h2, h1, by omega⟩

theorem stats_ok {σ : List Piece} {s : St} (h : Rel σ s) : Stats σ s := by
  obtain ⟨S, L, hi, hp⟩ := id h.inv
  have hnil : σ = [] ↔ s.total = 0 := by
    rw [total_eq hi hp]
    cases σ with
    | nil => simp [space]
    | cons c σ =>
      have := (slen_spec c.size).2.1
      simp only [space, room_eq, reduceCtorEq, false_iff]
      omega
  have hne : ∀ c, c ∈ σ → cls c.size < 709 := fun c hc => by rw [cls_eq (h.sizes c hc).2]; exact cc_lt _
  obtain ⟨hnum, hrg⟩ := hi.use.rg
  refine ⟨total_eq hi hp, ?_, ?_, ?_, ?_, ?_, ?_⟩
  · have h1 := space_all hi
    have h2 := hi.pg.cnt
    rw [h1, show s.pg.slabs * s.pg.perslab - s.pg.slots.length - s.pg.endFree = L.length by omega]
  · rw [hnum]
    unfold classes
    rw [List.countP_eq_length_filter, List.filter_congr (fun k hk => ?_)]
    rw [Bool.eq_iff_iff]
    simp only [decide_eq_true_eq, List.any_eq_true]
    exact any_iff h hi hp (List.mem_range.mp hk)
  · intro h0
    rcases hrg with ⟨h1, h2, -⟩ | ⟨u, -, hu9, -, -, h3, -⟩
    · rcases hi.pc with ⟨-, h3, h4⟩ | ⟨p, -, -, -, h4, h5⟩
      · exact ⟨h1, h2, h3, h4⟩
      · have := hi.idle
        have hS : S = [] := hi.busy (hnil.mp h0)
        have := this.mpr hS
        rcases hi.pc with ⟨-, h3, h4⟩ | ⟨p, h6, -⟩
        · exact ⟨h1, h2, h3, h4⟩
        · omega
    · obtain ⟨c, hc, -⟩ := (any_iff h hi hp hu9).mp h3
      rw [h0] at hc
      simp at hc
  · intro h0
    obtain ⟨d, hd⟩ := List.exists_mem_of_ne_nil _ h0
    rcases hrg with ⟨-, -, h1⟩ | ⟨u, -, h2, h3, h4, h5, h6⟩
    · have := (any_iff h hi hp (hne d hd)).mpr ⟨d, hd, rfl⟩
      rw [h1 _ (hne d hd)] at this
      omega
    · refine ⟨(any_iff h hi hp (by omega)).mp h4, fun c hc => ?_⟩
      exact (h6 _ (hne c hc) ((any_iff h hi hp (hne c hc)).mpr ⟨c, hc, rfl⟩)).1
  · intro h0
    obtain ⟨d, hd⟩ := List.exists_mem_of_ne_nil _ h0
    rcases hrg with ⟨-, -, h1⟩ | ⟨u, hu, h2, h3, h4, h5, h6⟩
    · have := (any_iff h hi hp (hne d hd)).mpr ⟨d, hd, rfl⟩
      rw [h1 _ (hne d hd)] at this
      omega
    · refine ⟨?_, fun c hc => ?_⟩
      · obtain ⟨c, hc, hck⟩ := (any_iff h hi hp h2).mp h5
        exact ⟨c, hc, by rw [hck]; exact hu⟩
      · have := (h6 _ (hne c hc) ((any_iff h hi hp (hne c hc)).mpr ⟨c, hc, rfl⟩)).2
        omega
  · intro h0
    rcases hi.pc with ⟨h1, -⟩ | ⟨p, h1, h2, h3, h4, h5⟩
    · exact absurd (hnil.mpr h1) h0
    · rw [h1]
      refine ⟨?_, by omega, ?_⟩
      · rw [h4]; exact space_filter h hi hp h2
      · obtain ⟨c, hc, hck⟩ := (any_iff h hi hp h2).mp ((hi.use.cp h2).mpr h3)
        exact ⟨c, hc, by rw [hck]⟩

end Verif.Slabs
