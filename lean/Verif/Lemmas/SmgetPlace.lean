import Verif.Lemmas.SmgetSort
/-!
# Sort-merge get: a scan finds its place
-/
namespace Verif.Smget
open Verif.BT Verif.BT.Spec

theorem ordered_unique_iff {asc : Bool} {In : List Ent} : Ordered asc true In ↔ (In.map fun E => E.s.elem.bkey).Pairwise (Before asc) := by
  rw [List.pairwise_map]
  exact ⟨fun h => h.imp fun h => h.2 rfl, fun h => h.imp fun h => ⟨.inl h, fun _ => h⟩⟩

theorem ordered_set {asc : Bool} {In : List Ent} (h : Ordered asc true In) {j : Nat} {c E : Ent} (hj : In[j]? = some c)
    (hb : E.s.elem.bkey = c.s.elem.bkey) : Ordered asc true (In.set j E) := by
  rw [ordered_unique_iff] at h ⊢
  have : (In.set j E).map (fun E => E.s.elem.bkey) = In.map fun E => E.s.elem.bkey := by
    apply List.ext_getElem?
    intro i
    rw [List.map_set, List.getElem?_set]
    split
    · next hi =>
      subst hi
      have hlt := (List.getElem?_eq_some_iff.mp hj).1
      rw [List.getElem?_map, hj, if_pos (by simpa using hlt), hb]; rfl
    · rfl
  rw [this]; exact h

theorem place_spec {a : Ask} {k0 : BKey} {unique : Bool} {req : Nat} {ks : List (List Nat)} {n w : Nat} {pool : Got → Prop}
    {tk : Nat × BKey → Prop} {size : Nat} (hsz : n ≤ size) (hreq : 0 < req) (hk : ks.Nodup) :
    ∀ (fuel : Nat) (st : P1) (In : List Ent) (E : Ent), Inv1 a k0 unique req ks n w pool tk st In [E] → (bag ([E] ++ In)).length < fuel →
      ∃ st' In', place a unique req size fuel st E.s = some (.go st') ∧ Inv1 a k0 unique req ks n w pool tk st' In' [] ∧ st'.miss = st.miss := by
  intro fuel
  induction fuel with
  | zero => intro st In E _ h; omega
  | succ fuel ih =>
    intro st In E h hf
    obtain ⟨sort, slot, miss, trim, refs⟩ := st
    have hsort : sort = In.map Ent.s := h.sort
    subst hsort
    have hkeys := h.keys hk
    have hkne : ∀ F ∈ In, F.s.key ≠ E.s.key := by
      intro F hF hc
      rw [List.singleton_append, List.map_cons, List.nodup_cons] at hkeys
      exact hkeys.1 (List.mem_map.mpr ⟨F, hF, hc⟩)
    have hE := h.ok E List.mem_cons_self
    have hok' : ∀ F ∈ In, EOk a k0 F := fun F hF => h.ok F (List.mem_cons_of_mem _ hF)
    rw [place]
    simp only
    rcases List.eq_nil_or_concat In with rfl | ⟨In0, Z, hIn⟩
    · simp only [List.map_nil, List.getLast?_nil]
      rw [if_neg (by omega)]
      exact ⟨_, [E], rfl, h.arrange (In2 := [E]) (Ex2 := []) (List.Perm.refl _) (List.pairwise_singleton _ _) hreq
        (by intro h; simp only [List.length_nil] at h; omega) (fun _ => rfl), rfl⟩
    · rw [List.concat_eq_append] at hIn
      have hlast : (In.map Ent.s).getLast? = some Z.s := by rw [hIn]; simp
      rw [hlast]
      have hZ : Z ∈ In := by rw [hIn]; simp
      have hZlast : ∀ F ∈ In, F = Z ∨ Lt a.asc F.s.got Z.s.got := by
        intro F hF
        rw [hIn] at hF
        rcases List.mem_append.mp hF with hF | hF
        · have := h.ord
          rw [hIn, Ordered, List.pairwise_append] at this
          exact .inr (this.2.2 F hF Z (List.mem_singleton.mpr rfl)).1
        · exact .inl (List.mem_singleton.mp hF)
      simp only
      have hcmp : (∃ g : In.length = req ∧ Lt a.asc Z.s.got E.s.got, (if req ≤ (In.map Ent.s).length then scanComp a.asc E.s Z.s else some .lt) = some .gt) ∨
          ((In.length = req → Lt a.asc E.s.got Z.s.got) ∧ (if req ≤ (In.map Ent.s).length then scanComp a.asc E.s Z.s else some .lt) = some .lt) := by
        rw [List.length_map]
        have hlen := h.len
        by_cases hfull : req ≤ In.length
        · rw [if_pos hfull]
          rcases scanComp_spec (asc := a.asc) hE.head (hok' Z hZ).head with ⟨g1, g2⟩ | ⟨-, -, g3⟩ | ⟨g1, g2⟩
          · exact .inr ⟨fun _ => g2, g1⟩
          · exact absurd g3.symm (hkne Z hZ)
          · exact .inl ⟨⟨by omega, g2⟩, g1⟩
        · rw [if_neg hfull]
          exact .inr ⟨fun h => by omega, rfl⟩
      rcases hcmp with ⟨⟨hful, hgt⟩, hc⟩ | ⟨hless, hc⟩
      · rw [hc]
        refine ⟨_, In, rfl, h.drop hful ?_, rfl⟩
        intro F hF
        rcases hZlast F hF with rfl | g
        · exact hgt
        · exact lt_trans g hgt
      · rw [hc]
        simp only
        have hsearch : (unique = true ∧ ∃ (j : Nat) (c : Ent), bsearch (fun j => match (In.map Ent.s)[j]? with
              | none => none
              | some c => if unique then bkeyDir a.asc E.s c else scanComp a.asc E.s c) ((In.map Ent.s).length + 1) 0 (In.map Ent.s).length =
                some (.found j) ∧ In[j]? = some c ∧ E.s.elem.bkey = c.s.elem.bkey) ∨
            ∃ l, bsearch (fun j => match (In.map Ent.s)[j]? with
              | none => none
              | some c => if unique then bkeyDir a.asc E.s c else scanComp a.asc E.s c) ((In.map Ent.s).length + 1) 0 (In.map Ent.s).length =
                some (.missing l) ∧ l ≤ In.length ∧
              (∀ (j : Nat) (F : Ent), In[j]? = some F → j < l →
                Lt a.asc F.s.got E.s.got ∧ (unique = true → Before a.asc F.s.elem.bkey E.s.elem.bkey)) ∧
              (∀ (j : Nat) (F : Ent), In[j]? = some F → l ≤ j →
                Lt a.asc E.s.got F.s.got ∧ (unique = true → Before a.asc E.s.elem.bkey F.s.elem.bkey)) := by
          cases hu : unique with
          | true =>
            rw [hu] at h
            rcases search_bkey hok' h.ord hE.head with ⟨j, c, g1, g2, g3⟩ | ⟨l, g1, g2, g3, g4⟩
            · exact .inl ⟨rfl, j, c, g1, g2, g3⟩
            · exact .inr ⟨l, g1, g2, fun j F hF hj => ⟨.inl (g3 j F hF hj), fun _ => g3 j F hF hj⟩,
                fun j F hF hj => ⟨.inl (g4 j F hF hj), fun _ => g4 j F hF hj⟩⟩
          | false =>
            obtain ⟨l, g1, g2, g3, g4⟩ := search_full hok' h.ord.plain hE.head hkne
            exact .inr ⟨l, g1, g2, fun j F hF hj => ⟨g3 j F hF hj, by intro h; cases h⟩,
                fun j F hF hj => ⟨g4 j F hF hj, by intro h; cases h⟩⟩
        generalize hB : bsearch _ _ _ _ = B
        rcases hsearch with ⟨hu, j, c, g1, g2, g3⟩ | ⟨l, g1, g2, g3, g4⟩
        · have hb' : B = some (.found j) := hB.symm.trans g1
          subst hb'
          simp only [List.getElem?_map, g2, Option.map_some]
          have hcIn : c ∈ In := List.mem_of_getElem? g2
          have hEpool : pool E.s.got := h.sub _ (mem_bag.mpr ⟨E, List.mem_cons_self, E.head_mem⟩)
          have hcpool : pool c.s.got := h.sub _ (mem_bag.mpr ⟨c, List.mem_cons_of_mem _ hcIn, c.head_mem⟩)
          rcases hkey_dir (asc := a.asc) (b := c.s.key) hE.head.2 with ⟨k1, k2⟩ | ⟨k1, k2⟩ | ⟨k1, k2⟩
          · obtain ⟨o, ho, hod⟩ := Option.map_eq_some_iff.mp k1
            rw [show compHkey E.s.key c.s.key = some o from ho]
            simp only [hod]
            have hlt : Lt a.asc E.s.got c.s.got := .inr ⟨g3, k2⟩
            have h2 : Inv1 a k0 unique req ks n w pool tk ⟨(In.set j E).map Ent.s, none, miss, trim, refs⟩ (In.set j E) [c] :=
              h.arrange (In2 := In.set j E) (Ex2 := [c]) (set_perm g2 E) (by rw [hu]; exact ordered_set (hu ▸ h.ord) g2 g3)
                (by rw [List.length_set]; exact h.len) (fun _ => ⟨List.length_set, fun F hF => by
                  rcases List.mem_or_eq_of_mem_set hF with hF | rfl
                  · exact ⟨F, hF, .inl rfl⟩
                  · exact ⟨c, hcIn, .inr hlt⟩⟩) (fun _ => rfl)
            have hset : (In.map Ent.s).set j E.s = (In.set j E).map Ent.s := by rw [List.map_set]
            rw [hset]
            rcases (h2.ok c List.mem_cons_self).next with ⟨t, b, hm, hl, ht⟩ | ⟨s', l', hm, hl, hi, hkk, hok, hhits, -⟩
            · rw [hm]
              obtain ⟨st', e1, e2, e3⟩ := h2.out hu hEpool g3 hlt hl ht hsz
              exact ⟨st', _, e1, e2, e3⟩
            · rw [hm]
              have h3 := h2.step hu hEpool g3 hlt hi hkk hok hhits
              obtain ⟨st', In', e1, e2, e3⟩ := ih _ _ _ h3 (by
                have := bag_length_perm (set_perm g2 E)
                simp only [bag, List.flatMap_cons, List.length_append, List.singleton_append, hhits, List.length_cons] at this hf ⊢
                omega)
              exact ⟨st', In', e1, e2, e3⟩
          · exact absurd k2.symm (hkne c hcIn)
          · obtain ⟨o, ho, hod⟩ := Option.map_eq_some_iff.mp k1
            rw [show compHkey E.s.key c.s.key = some o from ho]
            simp only [hod]
            have hlt : Lt a.asc c.s.got E.s.got := .inr ⟨g3.symm, k2⟩
            have h2 : Inv1 a k0 unique req ks n w pool tk ⟨In.map Ent.s, some E.s.kidx, miss, trim, refs⟩ In [E] :=
              h.arrange (List.Perm.refl _) h.ord h.len (fun _ => ⟨rfl, fun F hF => ⟨F, hF, .inl rfl⟩⟩) (by rw [hu]; intro h; cases h)
            rcases hE.next with ⟨t, b, hm, hl, ht⟩ | ⟨s', l', hm, hl, hi, hkk, hok, hhits, -⟩
            · rw [hm]
              obtain ⟨st', e1, e2, e3⟩ := h2.out hu hcpool g3.symm hlt hl ht hsz
              exact ⟨st', _, e1, e2, e3⟩
            · rw [hm]
              have h3 := h2.step hu hcpool g3.symm hlt hi hkk hok hhits
              obtain ⟨st', In', e1, e2, e3⟩ := ih _ _ _ h3 (by
                simp only [bag, List.flatMap_cons, List.length_append, List.singleton_append, hhits, List.length_cons] at hf ⊢
                omega)
              exact ⟨st', In', e1, e2, e3⟩
        · have hb' : B = some (.missing l) := hB.symm.trans g1
          subst hb'
          simp only [List.length_map]
          have hlen := h.len
          by_cases hfull : req ≤ In.length
          · rw [if_pos hfull]
            have hful : In.length = req := by omega
            have hEZ := hless hful
            have hl0 : In.length = In0.length + 1 := by rw [hIn]; simp
            have hl : l ≤ In0.length := by
              by_cases hc : l ≤ In0.length
              · exact hc
              · have hz : In[In0.length]? = some Z := by rw [hIn]; simp
                exact absurd (g3 _ Z hz (by omega)).1 fun h' => lt_asymm h' hEZ
            have hget : ∀ (j : Nat) (F : Ent), In0[j]? = some F → In[j]? = some F := by
              intro j F hF
              rw [hIn, List.getElem?_append_left (List.getElem?_eq_some_iff.mp hF).1]; exact hF
            have hord0 : Ordered a.asc unique In0 := by
              have := h.ord
              rw [hIn, Ordered, List.pairwise_append] at this
              exact this.1
            have hperm := List.perm_insertIdx E In0 hl
            have hmem : ∀ F ∈ In0.insertIdx l E, F = E ∨ F ∈ In0 := fun F hF => List.mem_cons.mp (hperm.mem_iff.mp hF)
            have hltZ : ∀ F ∈ In0, Lt a.asc F.s.got Z.s.got := by
              intro F hF
              have := h.ord
              rw [hIn, Ordered, List.pairwise_append] at this
              exact (this.2.2 F hF Z (List.mem_singleton.mpr rfl)).1
            have hIn0 : ∀ F ∈ In0, F ∈ In := by intro F hF; rw [hIn]; exact List.mem_append_left _ hF
            have h2 : Inv1 a k0 unique req ks n w pool tk ⟨(In0.insertIdx l E).map Ent.s, none, miss, trim, refs⟩ (In0.insertIdx l E) [Z] := by
              refine h.arrange (In2 := In0.insertIdx l E) (Ex2 := [Z]) ?_ ?_ ?_ ?_ (fun _ => rfl)
              · rw [hIn]
                exact (hperm.cons Z).trans ((List.Perm.swap _ _ _).trans ((List.perm_append_singleton Z In0).symm.cons E))
              · exact pairwise_insert hl hord0 (fun j F hF hj => g3 j F (hget j F hF) hj) (fun j F hF hj => g4 j F (hget j F hF) hj)
              · rw [List.length_insertIdx_of_le_length hl]; omega
              · intro _
                refine ⟨by rw [List.length_insertIdx_of_le_length hl]; omega, fun F hF => ?_⟩
                rcases hmem F hF with rfl | hF
                · exact ⟨Z, hZ, .inr hEZ⟩
                · exact ⟨F, hIn0 F hF, .inl rfl⟩
            have h3 := h2.drop (by rw [List.length_insertIdx_of_le_length hl]; omega) (by
              intro F hF
              rcases hmem F hF with rfl | hF
              · exact hEZ
              · exact hltZ F hF)
            have hs : (In.map Ent.s).dropLast.insertIdx l E.s = (In0.insertIdx l E).map Ent.s := by
              rw [← insertIdx_map hl, hIn]; simp
            rw [hs]
            exact ⟨_, _, rfl, h3, rfl⟩
          · rw [if_neg hfull]
            have hperm := List.perm_insertIdx E In g2
            refine ⟨_, In.insertIdx l E, rfl, ?_, rfl⟩
            rw [insertIdx_map g2]
            refine h.arrange (In2 := In.insertIdx l E) (Ex2 := []) hperm ?_ ?_ ?_ (fun _ => rfl)
            · exact pairwise_insert g2 h.ord g3 g4
            · rw [List.length_insertIdx_of_le_length g2]; omega
            · intro hh; omega

end Verif.Smget
