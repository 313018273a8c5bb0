import Verif.Lemmas.SmgetEnt
/-!
# Sort-merge get: the merge
-/
namespace Verif.Smget
open Verif.BT Verif.BT.Spec

/-- State of the merge and the scans it holds. -/
structure Inv2 (a : Ask) (k0 : BKey) (size misses : Nat) (st : P2) (Es : List Ent) : Prop where
  sort : st.sort = Es.map Ent.s
  ok : ∀ E ∈ Es, EOk a k0 E
  ord : Ordered a.asc false Es
  keys : (Es.map fun E => E.s.key).Nodup
  ids : (st.trim.map Prod.fst ++ Es.map fun E => E.s.kidx).Nodup
  room : misses + st.trim.length + Es.length ≤ size

/-- Trimmed keys recorded or still to come. -/
def Pot (trim : List (Nat × BKey)) (Es : List Ent) (p : Nat × BKey) : Prop :=
  p ∈ trim ∨ ∃ E ∈ Es, p.1 = E.s.kidx ∧ E.t = some p.2

theorem head_out {a : Ask} {k0 : BKey} {E : Ent} {Es : List Ent} (hk : ((E :: Es).map fun E => E.s.key).Nodup)
    (ht : ∀ x ∈ E.hits, x ≠ E.s.got → x ∈ E.l.map fun e => (⟨E.s.kidx, E.s.key, E.s.info.flags, e⟩ : Got)) (h : EOk a k0 E) (x : Got) :
    x ∈ bag (E :: Es) ∧ x ≠ E.s.got ↔ x ∈ E.l.map (fun e => (⟨E.s.kidx, E.s.key, E.s.info.flags, e⟩ : Got)) ∨ x ∈ bag Es := by
  simp only [mem_bag]
  constructor
  · rintro ⟨⟨F, hF, hx⟩, hne⟩
    rcases List.mem_cons.mp hF with rfl | hF
    · exact .inl (ht x hx hne)
    · exact .inr ⟨F, hF, hx⟩
  · rintro (hx | ⟨F, hF, hx⟩)
    · refine ⟨⟨E, List.mem_cons_self, by rw [Ent.hits_eq]; exact List.mem_cons_of_mem _ hx⟩, ?_⟩
      rintro rfl
      obtain ⟨e, he, heq⟩ := List.mem_map.mp hx
      have : e = E.s.elem := congrArg Got.elem heq
      exact before_irrefl (this ▸ (List.pairwise_cons.mp h.inc).1 e he)
    · refine ⟨⟨F, List.mem_cons_of_mem _ hF, hx⟩, ?_⟩
      rintro rfl
      have h1 : E.s.key = F.s.key := (Ent.mem_hits.mp hx).2.1
      have h2 := (List.nodup_cons.mp hk).1
      exact h2 (List.mem_map.mpr ⟨F, hF, h1.symm⟩)

theorem tail_mem {E : Ent} : ∀ x ∈ E.hits, x ≠ E.s.got → x ∈ E.l.map fun e => (⟨E.s.kidx, E.s.key, E.s.info.flags, e⟩ : Got) := by
  intro x hx hne
  rw [Ent.hits_eq] at hx
  rcases List.mem_cons.mp hx with h | h
  · exact absurd h hne
  · exact h

/-- The first scan leaves its element. -/
theorem advance_spec {a : Ask} {k0 : BKey} {size misses : Nat} {st : P2} {E : Ent} {Es : List Ent} (h : Inv2 a k0 size misses st (E :: Es)) :
    ∃ sort trim Es2, advance a size misses st E.s (Es.map Ent.s) = some { st with sort := sort, trim := trim } ∧
      Inv2 a k0 size misses { st with sort := sort, trim := trim } Es2 ∧
      (∀ p, Pot trim Es2 p ↔ Pot st.trim (E :: Es) p) ∧
      (∀ x, x ∈ bag Es2 ↔ x ∈ bag (E :: Es) ∧ x ≠ E.s.got) := by
  have hE := h.ok E List.mem_cons_self
  have hok' : ∀ F ∈ Es, EOk a k0 F := fun F hF => h.ok F (List.mem_cons_of_mem _ hF)
  have hids := h.ids
  have hroom := h.room
  simp only [List.map_cons, List.length_cons] at hids hroom
  unfold advance
  rcases hE.next with ⟨t, b, hm, hl, ht⟩ | ⟨s', l', hm, hl, hi, hkk, hok, hhits, hlt⟩
  · rw [hm]
    have hbag : ∀ x, x ∈ bag Es ↔ x ∈ bag (E :: Es) ∧ x ≠ E.s.got := by
      intro x
      rw [head_out h.keys tail_mem hE, hl]
      simp
    cases t with
    | true =>
      simp only [if_true] at ht
      have hr : misses + st.trim.length < size := by omega
      refine ⟨Es.map Ent.s, st.trim ++ [(E.s.kidx, b)], Es, ?_, ?_, ?_, hbag⟩
      · simp only [addTrim, if_pos hr, Option.map_some]
      · refine ⟨rfl, hok', (List.pairwise_cons.mp h.ord).2, (List.nodup_cons.mp h.keys).2, ?_, ?_⟩
        · simpa [List.append_assoc] using hids
        · simp only [List.length_append, List.length_cons, List.length_nil]; omega
      · intro p
        simp only [Pot, List.mem_append, List.mem_singleton]
        constructor
        · rintro ((hp | rfl) | ⟨F, hF, hp⟩)
          · exact .inl hp
          · exact .inr ⟨E, List.mem_cons_self, rfl, ht⟩
          · exact .inr ⟨F, List.mem_cons_of_mem _ hF, hp⟩
        · rintro (hp | ⟨F, hF, hp⟩)
          · exact .inl (.inl hp)
          · rcases List.mem_cons.mp hF with rfl | hF
            · obtain ⟨p1, p2⟩ := p
              rw [ht] at hp
              simp only [Option.some.injEq] at hp
              exact .inl (.inr (by rw [hp.1, hp.2]))
            · exact .inr ⟨F, hF, hp⟩
    | false =>
      simp only [Bool.false_eq_true, if_false] at ht
      refine ⟨Es.map Ent.s, st.trim, Es, rfl, ?_, ?_, hbag⟩
      · refine ⟨rfl, hok', (List.pairwise_cons.mp h.ord).2, (List.nodup_cons.mp h.keys).2, ?_, ?_⟩
        · exact hids.sublist (List.Sublist.append (List.Sublist.refl _) (List.sublist_cons_self _ _))
        · show misses + st.trim.length + Es.length ≤ size
          omega
      · intro p
        simp only [Pot]
        constructor
        · rintro (hp | ⟨F, hF, hp⟩)
          · exact .inl hp
          · exact .inr ⟨F, List.mem_cons_of_mem _ hF, hp⟩
        · rintro (hp | ⟨F, hF, hp⟩)
          · exact .inl hp
          · rcases List.mem_cons.mp hF with rfl | hF
            · rw [ht] at hp; cases hp.2
            · exact .inr ⟨F, hF, hp⟩
  · rw [hm]
    have hd : ∀ F ∈ Es, F.s.key ≠ s'.key := by
      intro F hF hc
      exact (List.nodup_cons.mp h.keys).1 (List.mem_map.mpr ⟨F, hF, hc.trans hkk⟩)
    obtain ⟨l, hs, hle, h1, h2⟩ := search_full (s := s') hok' (List.pairwise_cons.mp h.ord).2 hok.head hd
    simp only
    generalize hb : bsearch _ _ _ _ = B
    have hB : B = some (.missing l) := hb.symm.trans hs
    subst hB
    have hperm := List.perm_insertIdx (⟨s', l', E.t⟩ : Ent) Es hle
    refine ⟨_, st.trim, Es.insertIdx l ⟨s', l', E.t⟩, rfl, ⟨insertIdx_map hle ⟨s', l', E.t⟩ Ent.s, ?_, ?_, ?_, ?_, ?_⟩, ?_, ?_⟩
    · intro F hF
      rcases List.mem_cons.mp (hperm.mem_iff.mp hF) with rfl | hF
      · exact hok
      · exact hok' F hF
    · refine pairwise_insert hle (List.pairwise_cons.mp h.ord).2 ?_ ?_
      · intro j F hF hj; exact ⟨h1 j F hF hj, by intro h; cases h⟩
      · intro j F hF hj; exact ⟨h2 j F hF hj, by intro h; cases h⟩
    · have := h.keys
      rw [List.map_cons, ← hkk] at this
      exact (hperm.map fun (E : Ent) => E.s.key).nodup_iff.mpr this
    · rw [← hi] at hids
      exact (List.Perm.append_left _ (hperm.map fun (E : Ent) => E.s.kidx)).nodup_iff.mpr hids
    · rw [hperm.length_eq]; exact hroom
    · intro p
      simp only [Pot]
      constructor
      · rintro (hp | ⟨F, hF, hp⟩)
        · exact .inl hp
        · rcases List.mem_cons.mp (hperm.mem_iff.mp hF) with rfl | hF
          · exact .inr ⟨E, List.mem_cons_self, hp.1.trans hi, hp.2⟩
          · exact .inr ⟨F, List.mem_cons_of_mem _ hF, hp⟩
      · rintro (hp | ⟨F, hF, hp⟩)
        · exact .inl hp
        · rcases List.mem_cons.mp hF with rfl | hF
          · exact .inr ⟨_, hperm.mem_iff.mpr List.mem_cons_self, hp.1.trans hi.symm, hp.2⟩
          · exact .inr ⟨F, hperm.mem_iff.mpr (List.mem_cons_of_mem _ hF), hp⟩
    · intro x
      rw [head_out h.keys tail_mem hE, bag_perm hperm x]
      rw [Ent.hits_eq, List.cons.injEq] at hhits
      rw [hhits.2]
      simp [bag]

/-- The elements without those that repeat the bkey before them, in unique mode. -/
def dd (unique : Bool) : Option BKey → List Got → List Got
  | _, [] => []
  | prev, x :: L => if unique = true ∧ prev = some x.elem.bkey then dd unique (some x.elem.bkey) L else x :: dd unique (some x.elem.bkey) L

theorem sameAs_spec {k0 : BKey} {prev : Option BKey} (hp : ∀ p, prev = some p → Kin k0 p) {k : BKey} (hk : Kin k0 k) :
    sameAs prev k = some (decide (prev = some k)) := by
  cases prev with
  | none => rfl
  | some p =>
    rcases bkeyComp_spec ((hp p rfl).1.symm.trans hk.1) (hp p rfl).2 hk.2 with ⟨h, g⟩ | ⟨h, g⟩ | ⟨h, g⟩ <;> simp only [sameAs, h, Option.map_some]
    · rw [decide_eq_false (by intro he; cases he; exact klt_irrefl _ g)]; rfl
    · rw [g]; simp
    · rw [decide_eq_false (by intro he; cases he; exact klt_irrefl _ g)]; rfl

theorem sorted_head {a : Ask} {k0 : BKey} {E : Ent} {Es : List Ent} {L : List Got} (hok : ∀ F ∈ E :: Es, EOk a k0 F)
    (ho : Ordered a.asc false (E :: Es)) (hL : L.Pairwise (Lt a.asc)) (hm : ∀ x, x ∈ L ↔ x ∈ bag (E :: Es)) :
    ∃ L', L = E.s.got :: L' ∧ ∀ x, x ∈ L' ↔ x ∈ bag (E :: Es) ∧ x ≠ E.s.got := by
  have h0 : E.s.got ∈ L := (hm _).mpr (mem_bag.mpr ⟨E, List.mem_cons_self, E.head_mem⟩)
  cases L with
  | nil => cases h0
  | cons y L =>
    have hy : y = E.s.got := by
      rcases List.mem_cons.mp h0 with h | h
      · exact h.symm
      · have h1 := (List.pairwise_cons.mp hL).1 _ h
        obtain ⟨F, hF, hyF⟩ := mem_bag.mp ((hm y).mp List.mem_cons_self)
        rcases (hok F hF).le hyF with h2 | h2
        · rcases List.mem_cons.mp hF with rfl | hF
          · exact h2
          · exact absurd ((List.pairwise_cons.mp ho).1 F hF).1 (h2 ▸ fun h' => lt_asymm h' h1)
        · rcases List.mem_cons.mp hF with rfl | hF
          · exact absurd h1 fun h' => lt_asymm h' h2
          · exact absurd (lt_trans ((List.pairwise_cons.mp ho).1 F hF).1 h2) fun h' => lt_asymm h' h1
    subst hy
    refine ⟨L, rfl, fun x => ?_⟩
    rw [← hm x]
    constructor
    · intro hx
      refine ⟨List.mem_cons_of_mem _ hx, ?_⟩
      rintro rfl
      exact lt_irrefl ((List.pairwise_cons.mp hL).1 _ hx)
    · rintro ⟨hx, hne⟩
      exact (List.mem_cons.mp hx).resolve_left hne

theorem nodup_snoc {α : Type} {l : List α} {x : α} : (l ++ [x]).Nodup ↔ l.Nodup ∧ x ∉ l := by
  rw [List.nodup_append]
  constructor
  · rintro ⟨h1, -, h2⟩; exact ⟨h1, fun h => h2 x h x (List.mem_singleton.mpr rfl) rfl⟩
  · rintro ⟨h1, h2⟩
    refine ⟨h1, by simp, ?_⟩
    rintro y hy z hz rfl
    rw [List.mem_singleton] at hz
    exact h2 (hz ▸ hy)

/-- The bkey of the next element is among those delivered just if it is the last one's. -/
theorem mem_last {asc : Bool} {l : List Got} {x : Got} (h : (l ++ [x]).Pairwise (Lt asc)) :
    x.elem.bkey ∈ l.map (fun g => g.elem.bkey) ↔ ∃ y, l.getLast? = some y ∧ y.elem.bkey = x.elem.bkey := by
  constructor
  · intro hm
    obtain ⟨z, hz, hzx⟩ := List.mem_map.mp hm
    have hne : l ≠ [] := List.ne_nil_of_mem hz
    refine ⟨l.getLast hne, List.getLast?_eq_some_getLast hne, ?_⟩
    rw [List.pairwise_append] at h
    have h1 := h.2.2 _ (List.getLast_mem hne) x (List.mem_singleton.mpr rfl)
    rcases h1 with h1 | ⟨h1, -⟩
    · have hs := List.dropLast_concat_getLast hne
      rw [← hs] at hz
      rcases List.mem_append.mp hz with hz | hz
      · have h2 := h.1
        rw [← hs, List.pairwise_append] at h2
        rcases h2.2.2 z hz _ (List.mem_singleton.mpr rfl) with h3 | ⟨h3, -⟩
        · rw [hzx] at h3; exact absurd h1 fun h' => before_asymm h' h3
        · rw [← h3, hzx]
      · rw [List.mem_singleton] at hz; rw [← hz, hzx]
    · exact h1
  · rintro ⟨y, hy, hyx⟩
    exact List.mem_map.mpr ⟨y, List.mem_of_getLast? hy, hyx⟩

theorem drop_take_step {α : Type} (x : α) (l pre : List α) {o : Nat} (c : Nat) (ho : o = 0) (hc : pre.length + 1 ≤ c) :
    pre ++ (((x :: l).drop o).take (c - pre.length)) = (pre ++ [x]) ++ ((l.drop o).take (c - (pre ++ [x]).length)) := by
  subst ho
  have : c - pre.length = (c - (pre ++ [x]).length) + 1 := by simp; omega
  rw [this, List.drop_zero, List.take_succ_cons, List.drop_zero]
  simp

/-- The merge delivers the elements in order. -/
theorem elemSort_spec {a : Ask} {k0 : BKey} {unique : Bool} {offset count size misses : Nat} (L : List Got) :
    ∀ (fuel : Nat) (st : P2) (Es : List Ent), Inv2 a k0 size misses st Es → L.length < fuel → L.Pairwise (Lt a.asc) →
      (∀ x, x ∈ L ↔ x ∈ bag Es) → (∀ p, st.prev = some p → Kin k0 p) → st.elems.length < count →
      (st.elems ++ L).Pairwise (Lt a.asc) → (∀ y, st.elems.getLast? = some y → st.prev = some y.elem.bkey) →
      (st.skip < offset → st.elems = []) → (st.dup = true ↔ ¬ (st.elems.map fun g => g.elem.bkey).Nodup) →
      ∃ P Es', elemSort a unique offset count size misses fuel st = some P ∧ Inv2 a k0 size misses P Es' ∧
        (∀ p, Pot P.trim Es' p ↔ Pot st.trim Es p) ∧
        P.elems = st.elems ++ ((dd unique st.prev L).drop (offset - st.skip)).take (count - st.elems.length) ∧
        (P.dup = true ↔ ¬ (P.elems.map fun g => g.elem.bkey).Nodup) ∧
        (Es' = [] ∨ (P.elems.length = count ∧ ∃ x, P.elems.getLast? = some x ∧
          ∀ E ∈ Es', ∀ b, E.t = some b → ¬ Before a.asc b x.elem.bkey)) := by
  induction L with
  | nil =>
    intro fuel st Es h hf _ hm _ _ _ _ _ hd
    obtain ⟨fuel, rfl⟩ : ∃ n, fuel = n + 1 := ⟨fuel - 1, by simp only [List.length_nil] at hf; omega⟩
    have hEs : Es = [] := by
      cases Es with
      | nil => rfl
      | cons E Es => cases (hm E.s.got).mpr (mem_bag.mpr ⟨E, List.mem_cons_self, E.head_mem⟩)
    subst hEs
    refine ⟨st, [], ?_, h, fun _ => Iff.rfl, ?_, hd, .inl rfl⟩
    · rw [elemSort, h.sort]; rfl
    · simp [dd]
  | cons y L ih =>
    intro fuel st Es h hf hL hm hp hc hall hlast hskp hd
    obtain ⟨fuel, rfl⟩ : ∃ n, fuel = n + 1 := ⟨fuel - 1, by simp only [List.length_cons] at hf; omega⟩
    cases Es with
    | nil => exact absurd ((hm y).mp List.mem_cons_self) (by simp [bag])
    | cons E Es =>
      obtain ⟨L', hL', hm'⟩ := sorted_head h.ok h.ord hL hm
      rw [List.cons.injEq] at hL'
      obtain ⟨rfl, rfl⟩ := hL'
      have hE := h.ok E List.mem_cons_self
      have hkin := hE.head.1
      have hLt := (List.pairwise_cons.mp hL).2
      simp only [List.length_cons] at hf
      rw [elemSort, h.sort]
      simp only [List.map_cons]
      rw [show E.s.elem.bkey = E.s.got.elem.bkey from rfl, sameAs_spec hp hkin]
      simp only [decide_eq_true_eq]
      have hpn : ∀ p, some E.s.got.elem.bkey = some p → Kin k0 p := by intro p hp; cases hp; exact hkin
      have hsub : (st.elems ++ L).Pairwise (Lt a.asc) :=
        hall.sublist (List.Sublist.append (List.Sublist.refl _) (List.sublist_cons_self _ _))
      by_cases hsame : unique = true ∧ st.prev = some E.s.got.elem.bkey
      · rw [if_pos hsame]
        have h1 : Inv2 a k0 size misses { st with sort := E.s :: Es.map Ent.s, prev := some E.s.got.elem.bkey } (E :: Es) :=
          ⟨rfl, h.ok, h.ord, h.keys, h.ids, h.room⟩
        obtain ⟨sort, trim, Es2, g1, g2, g3, g4⟩ := advance_spec h1
        simp only at g1 g2 g3 g4
        rw [g1]
        simp only
        obtain ⟨P, Es', k1, k2, k3, k4, k5, k6⟩ := ih fuel _ Es2 g2 (by omega) hLt (fun x => (hm' x).trans (g4 x).symm) hpn hc hsub
          (by intro z hz; rw [hlast z hz] at hsame; exact hsame.2.symm) hskp hd
        refine ⟨P, Es', k1, k2, fun p => (k3 p).trans (g3 p), ?_, k5, k6⟩
        rw [k4, dd, if_pos hsame]
      · rw [if_neg hsame]
        by_cases hskip : st.skip < offset
        · rw [if_pos hskip]
          have h1 : Inv2 a k0 size misses { st with sort := E.s :: Es.map Ent.s, prev := some E.s.got.elem.bkey, skip := st.skip + 1 } (E :: Es) :=
            ⟨rfl, h.ok, h.ord, h.keys, h.ids, h.room⟩
          obtain ⟨sort, trim, Es2, g1, g2, g3, g4⟩ := advance_spec h1
          simp only at g1 g2 g3 g4
          rw [g1]
          simp only
          have he := hskp hskip
          obtain ⟨P, Es', k1, k2, k3, k4, k5, k6⟩ := ih fuel _ Es2 g2 (by omega) hLt (fun x => (hm' x).trans (g4 x).symm) hpn hc hsub
            (by intro z hz; simp only [he] at hz; cases hz) (fun _ => he) hd
          refine ⟨P, Es', k1, k2, fun p => (k3 p).trans (g3 p), ?_, k5, k6⟩
          rw [k4, dd, if_neg hsame]
          simp only
          rw [show offset - st.skip = (offset - (st.skip + 1)) + 1 by omega, List.drop_succ_cons]
        · rw [if_neg hskip]
          have hpre : (st.elems ++ [E.s.got]).Pairwise (Lt a.asc) :=
            hall.sublist (List.Sublist.append (List.Sublist.refl _) (List.Sublist.cons_cons _ (List.nil_sublist _)))
          have hdup : (st.dup || (decide (0 < st.elems.length) && decide (st.prev = some E.s.got.elem.bkey))) = true ↔
              ¬ ((st.elems ++ [E.s.got]).map fun g => g.elem.bkey).Nodup := by
            rw [List.map_append, List.map_singleton, nodup_snoc, mem_last hpre, Bool.or_eq_true, hd, Bool.and_eq_true, decide_eq_true_eq,
              decide_eq_true_eq, Classical.not_and_iff_not_or_not, Classical.not_not]
            refine or_congr Iff.rfl ⟨?_, ?_⟩
            · rintro ⟨h1, h2⟩
              have hne : st.elems ≠ [] := List.length_pos_iff.mp h1
              refine ⟨_, List.getLast?_eq_some_getLast hne, ?_⟩
              have := hlast _ (List.getLast?_eq_some_getLast hne)
              rw [h2] at this
              exact (Option.some.inj this).symm
            · rintro ⟨z, h1, h2⟩
              refine ⟨List.length_pos_iff.mpr (List.ne_nil_of_mem (List.mem_of_getLast? h1)), ?_⟩
              rw [hlast z h1, h2]
          have hzero : offset - st.skip = 0 := by omega
          by_cases hfull : count ≤ (st.elems ++ [E.s.got]).length
          · rw [if_pos hfull]
            have hlen : count - st.elems.length = 1 := by simp only [List.length_append, List.length_cons, List.length_nil] at hfull; omega
            refine ⟨_, E :: Es, rfl, ⟨rfl, h.ok, h.ord, h.keys, h.ids, h.room⟩, fun _ => Iff.rfl, ?_, hdup, .inr ⟨?_, E.s.got, ?_, ?_⟩⟩
            · rw [dd, if_neg hsame, hzero, hlen]; rfl
            · simp only [List.length_append, List.length_cons, List.length_nil] at hfull ⊢; omega
            · simp
            · intro F hF b hb hbef
              have hFok := h.ok F hF
              have hn := (hFok.last b hb).2 F.s.elem List.mem_cons_self
              rcases List.mem_cons.mp hF with rfl | hF'
              · exact hn hbef
              · rcases ((List.pairwise_cons.mp h.ord).1 F hF').1 with h1 | ⟨h1, -⟩
                · exact hn (before_trans hbef h1)
                · exact hn (h1 ▸ hbef)
          · rw [if_neg hfull]
            have h1 : Inv2 a k0 size misses ⟨E.s :: Es.map Ent.s, some E.s.got.elem.bkey, st.skip, st.elems ++ [E.s.got],
                (st.dup || (decide (0 < st.elems.length) && decide (st.prev = some E.s.got.elem.bkey))), st.trim⟩ (E :: Es) :=
              ⟨rfl, h.ok, h.ord, h.keys, h.ids, h.room⟩
            obtain ⟨sort, trim, Es2, g1, g2, g3, g4⟩ := advance_spec h1
            simp only at g1 g2 g3 g4
            rw [g1]
            simp only
            obtain ⟨P, Es', k1, k2, k3, k4, k5, k6⟩ := ih fuel _ Es2 g2 (by omega) hLt (fun x => (hm' x).trans (g4 x).symm) hpn
              (by simp only; omega) (by simp only [List.append_assoc, List.singleton_append]; exact hall)
              (by intro z hz; simp only [List.getLast?_append, List.getLast?_singleton, Option.some_or, Option.some.injEq] at hz; subst hz; rfl)
              (fun h => absurd h hskip) hdup
            refine ⟨P, Es', k1, k2, fun p => (k3 p).trans (g3 p), ?_, k5, k6⟩
            rw [k4, dd, if_neg hsame]
            exact (drop_take_step _ _ _ _ hzero (by simp only [List.length_append, List.length_cons, List.length_nil] at hfull; omega)).symm

end Verif.Smget
