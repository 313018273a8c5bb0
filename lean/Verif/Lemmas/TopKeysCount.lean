/-
Lemmas about top keys: a counted operation refines one on a plain list, and that list is the
one the specification describes.
-/
import Verif.Lemmas.TopKeysStep
import Verif.Spec.TopKeys

namespace Verif.TopKeys

theorem touch_found {n : Nat} {L1 L2 : List Data} {d : Data} {u : Use} (hd : d.1 = u.key)
    (h : ∀ e ∈ L1 ++ L2, e.1 ≠ u.key) :
    touch n (L1 ++ d :: L2) u = bumpD d u.op :: (L1 ++ L2) := by
  have h1 : ∀ e ∈ L1, e.1 ≠ u.key := fun e he => h e (List.mem_append_left _ he)
  have h2 : ∀ e ∈ L2, e.1 ≠ u.key := fun e he => h e (List.mem_append_right _ he)
  have hf : (L1 ++ d :: L2).find? (fun d => d.1 == u.key) = some d := by
    rw [List.find?_append]
    have : L1.find? (fun d => d.1 == u.key) = none := by
      rw [List.find?_eq_none]
      intro e he; simpa using h1 e he
    rw [this]
    simp [hd]
  have hg : (L1 ++ d :: L2).filter (fun d => !(d.1 == u.key)) = L1 ++ L2 := by
    rw [List.filter_append]
    congr 1
    · rw [List.filter_eq_self]; intro e he; simpa using h1 e he
    · rw [List.filter_cons_of_neg (by simp [hd]), List.filter_eq_self]
      intro e he; simpa using h2 e he
  simp only [touch, hf, hg]

theorem touch_new {n : Nat} {L : List Data} {u : Use} (h : ∀ e ∈ L, e.1 ≠ u.key) :
    touch n L u = bumpD (u.key, u.now, u.now, List.replicate 78 0) u.op ::
      (if n < L.length + 1 then L.dropLast else L) := by
  have hf : L.find? (fun d => d.1 == u.key) = none := by
    rw [List.find?_eq_none]
    intro e he; simpa using h e he
  simp only [touch, hf]

theorem contents_mem {m : Mem} {as : List Nat} {L : List Data} (h : contents m as = L.map some)
    {e : Data} (he : e ∈ L) : ∃ a ∈ as, (get m a).map data = some e := by
  have : some e ∈ contents m as := by rw [h]; exact List.mem_map_of_mem he
  unfold contents at this
  obtain ⟨a, ha, e'⟩ := List.mem_map.mp this
  exact ⟨a, ha, e'⟩

theorem contents_length {m : Mem} {as : List Nat} {L : List Data} (h : contents m as = L.map some) :
    as.length = L.length := by
  have := congrArg List.length h
  simpa [contents] using this

theorem keyAt_data {m : Mem} {a : Nat} {e : Data} (h : (get m a).map data = some e) :
    keyAt m a = some e.1 := by
  cases hg : get m a with
  | none => simp [hg] at h
  | some n => simp [hg] at h; subst h; simp [keyAt, hg, data]

theorem contents_congr {m m' : Mem} {as : List Nat}
    (h : ∀ a ∈ as, (get m' a).map data = (get m a).map data) : contents m' as = contents m as :=
  List.map_congr_left h

theorem makeRoom_ok {t : TK} {as : List Nat} (h : Rep t.mem t.buckets as)
    (hc : t.nkeys = as.length) (hr : as.length ≤ t.maxKeys) (hp : 0 < t.maxKeys) :
    ∃ t' as', makeRoom t = some t' ∧ Rep t'.mem t'.buckets as' ∧
      as' = (if t.maxKeys < as.length + 1 then as.dropLast else as) ∧
      t'.buckets.length = t.buckets.length ∧ t'.maxKeys = t.maxKeys ∧
      t'.nkeys = as'.length + 1 ∧
      (∀ b, (get t'.mem b).map data = if b ∈ as ∧ b ∉ as' then none else (get t.mem b).map data) := by
  by_cases hgt : t.maxKeys < as.length + 1
  · rcases List.eq_nil_or_concat as with e | ⟨as', a, e⟩
    · subst e; simp at hgt; omega
    · rw [List.concat_eq_append] at e
      subst e
      have hrep : Rep ({ t with nkeys := t.nkeys + 1 } : TK).mem
          ({ t with nkeys := t.nkeys + 1 } : TK).buckets (as' ++ a :: []) := h
      obtain ⟨t', e1, e2, e3, e4, e5, e6⟩ := itemDelete_ok hrep
      obtain ⟨x, hx, hxp⟩ := seg_last h.seg
      have hxa : x.prev = a := by rw [hxp]; simp
      refine ⟨t', as', ?_, by simpa using e2, by rw [if_pos hgt]; simp, e3, e4, ?_, ?_⟩
      · have hgt' : t.nkeys + 1 > t.maxKeys := by omega
        unfold makeRoom
        simp only [hgt', if_true, hx, Option.bind_eq_bind, Option.bind_some, hxa]
        exact e1
      · rw [e5]
        simp at hc
        simp [hc]
      · intro b
        rw [e6 b]
        have hnd := (List.nodup_cons.mp h.nd).2
        have hna : a ∉ as' := by
          have := List.nodup_append.mp hnd
          intro hm
          exact this.2.2 a hm a (by simp) rfl
        by_cases hb : b = a
        · subst hb; simp [hna]
        · have : ¬ (b ∈ as' ++ [a] ∧ b ∉ as') := by
            rintro ⟨h1, h2⟩
            simp at h1
            exact h1.elim h2 hb
          simp only [if_neg hb, if_neg this]
  · refine ⟨{ t with nkeys := t.nkeys + 1 }, as, ?_, h, by rw [if_neg hgt], rfl, rfl, by simp [hc], ?_⟩
    · have hgt' : ¬ (t.nkeys + 1 > t.maxKeys) := by omega
      unfold makeRoom
      simp only [hgt', if_false]
    · intro b
      have : ¬ (b ∈ as ∧ b ∉ as) := fun h => h.2 h.1
      rw [if_neg this]

/-- Counting an operation does on the pointers what `touch` does on the plain list. -/
theorem count_ok {t : TK} {as : List Nat} {L : List Data} {u : Use} {al : Mem → Option Nat}
    (h : Inv t as) (hL : contents t.mem as = L.map some) (hu : Spec.Ok u)
    (hal : ∀ a, al t.mem = some a → a ≠ 0 ∧ get t.mem a = none) (hen : al t.mem ≠ none)
    (hw : ∀ d ∈ L, d.2.2.2.length = 78 ∧ ∀ v ∈ d.2.2.2, v < 2147483647) :
    ∃ t' as', count t al u = some t' ∧ Inv t' as' ∧ t'.maxKeys = t.maxKeys ∧
      contents t'.mem as' = (touch t.maxKeys L u).map some := by
  obtain ⟨r, hf, hf1, hf2⟩ := find_ok h.rep u.key
  have hkey : u.key ≠ [] := hu.1
  cases r with
  | some a =>
    obtain ⟨ha, hka⟩ := hf1 a rfl
    obtain ⟨as1, as2, rfl⟩ := List.append_of_mem ha
    obtain ⟨m1, e1, hs1, hsame1⟩ := dlistRemove_ok h.rep.seg h.rep.nd
    have hnd := h.rep.nd
    have hdj : (0 :: (as1 ++ as2)).Nodup ∧ a ∉ as1 ++ as2 ∧ a ≠ 0 := by
      simp only [List.nodup_cons, List.nodup_append, List.mem_append, List.mem_cons] at hnd ⊢
      obtain ⟨h0, h1, h2, h3⟩ := hnd
      refine ⟨⟨fun hc => h0 (by tauto), h1, h2.2, fun x hx y hy => h3 x hx y (Or.inr hy)⟩, ?_, ?_⟩
      · rintro (hc | hc)
        · exact h3 a hc a (Or.inl rfl) rfl
        · exact h2.1 hc
      · exact fun e => h0 (Or.inr (Or.inl e.symm))
    have hl1 : get m1 a ≠ none := fun hn => h.rep.live a ha ((live_same hsame1 a).mp hn)
    cases hg1 : get m1 a with
    | none => exact absurd hg1 hl1
    | some x1 =>
    obtain ⟨m2, e2, hs2, hsame2⟩ := dlistInsertAfter_ok hs1 hdj.1 hg1 hdj.2.2 hdj.2.1
    have hsame := hsame1.trans hsame2
    -- the entries
    unfold contents at hL
    rw [List.map_append, List.map_cons] at hL
    obtain ⟨L1, L2', e3, hL1, hL2'⟩ := List.map_eq_append_iff.mp hL.symm
    obtain ⟨d, L2, e4, hd, hL2⟩ := List.map_eq_cons_iff.mp hL2'
    subst e4; subst e3
    have hkd : d.1 = u.key := by
      have := keyAt_data (m := t.mem) (a := a) (e := d) (by rw [← hd])
      rw [hka] at this; injection this with e; exact e.symm
    have hne : ∀ e ∈ L1 ++ L2, e.1 ≠ u.key := by
      have hex : ∀ e ∈ L1 ++ L2, ∃ c ∈ as1 ++ as2, (get t.mem c).map data = some e := by
        intro e he
        apply contents_mem (L := L1 ++ L2) _ he
        unfold contents
        rw [List.map_append, List.map_append, hL1, hL2]
      intro e he hee
      obtain ⟨c, hc, hcd⟩ := hex e he
      have hkc := keyAt_data hcd
      have hcin : c ∈ as1 ++ a :: as2 := by simp at hc ⊢; tauto
      have := h.rep.inj c hcin a ha (by rw [hkc, hka, hee])
      subst this
      exact hdj.2.1 hc
    have hwd := hw d (by simp)
    have hd2 : (get m2 a).map data = some d := by rw [hsame a, ← hd]
    obtain ⟨m3, e5, hb, hda, hx⟩ := bump_ok (op := u.op) hd2 (by rw [hwd.1]; exact hu.2) hwd.2
    have hrep2 : Rep m2 t.buckets (a :: (as1 ++ as2)) := by
      have hperm : ∀ c, c ∈ a :: (as1 ++ as2) ↔ c ∈ as1 ++ a :: as2 := by
        intro c; simp; tauto
      refine ⟨hs2, ?_, ?_, ?_, ?_⟩
      · simp only [List.nodup_cons, List.mem_cons] at hdj ⊢
        refine ⟨?_, hdj.2.1, hdj.1.2⟩
        rintro (e | hc)
        · exact hdj.2.2 e.symm
        · exact hdj.1.1 hc
      · intro c hc hn
        exact h.rep.live c ((hperm c).mp hc) ((live_same hsame c).mp hn)
      · intro c hc c' hc' hcc
        rw [keyAt_same hsame, keyAt_same hsame] at hcc
        exact h.rep.inj c ((hperm c).mp hc) c' ((hperm c').mp hc') hcc
      · have ht := tab_same hsame h.rep.tab
        refine ⟨ht.pos, ht.nd, ?_⟩
        intro i b hbi c
        rw [hperm c]
        exact ht.mem i b hbi c
    have hl2 : get m2 a ≠ none := fun hn => by rw [hn] at hd2; simp at hd2
    have hrep3 := rep_bump hrep2 hb hx hl2
    refine ⟨{ t with mem := m3 }, a :: (as1 ++ as2), ?_, ⟨hrep3, ?_, ?_, ?_, h.pos⟩, rfl, ?_⟩
    · simp [count, hkey, getOrCreate, hf, e1, e2, e5]
    · intro c
      have h1 := h.exact_ c
      have h2 : get m3 c = none ↔ get t.mem c = none := by
        by_cases e : c = a
        · subst e
          constructor
          · intro hn; rw [hn] at hda; simp at hda
          · intro hn; exact absurd hn (h.rep.live c ha)
        · rw [hb c e]; exact live_same hsame c
      show get m3 c ≠ none ↔ _
      rw [Ne, h2]
      rw [Ne] at h1
      rw [h1]
      simp only [List.mem_append, List.mem_cons]
      tauto
    · have := h.cnt; simp at this ⊢; omega
    · have := h.room; simp at this ⊢; omega
    · rw [touch_found hkd hne]
      show contents m3 _ = _
      unfold contents
      rw [List.map_cons, hda, List.map_cons, List.map_append, List.map_append, hL1, hL2]
      rw [← List.map_append, ← List.map_append]
      congr 1
      apply List.map_congr_left
      intro c hc
      have hca : c ≠ a := fun e => hdj.2.1 (e ▸ hc)
      rw [hb c hca, hsame c]
  | none =>
    have hnk := hf2 rfl
    cases hal' : al t.mem with
    | none => exact absurd hal' hen
    | some a =>
    obtain ⟨ha0, hfree⟩ := hal a hal'
    have hna : a ∉ as := fun hc => h.rep.live a hc hfree
    let t1 : TK := { t with mem := put t.mem a (newNode u.key u.now) }
    have hg1 : ∀ b, b ≠ a → get t1.mem b = get t.mem b := by
      intro b hb; show get (put _ _ _) b = _; rw [get_put, if_neg (fun e => hb e.symm)]
    have hga : get t1.mem a = some (newNode u.key u.now) := by
      show get (put _ _ _) a = _; rw [get_put, if_pos rfl]
    have hrep1 : Rep t1.mem t1.buckets as := by
      apply rep_agree h.rep
      intro b hb
      apply hg1
      rintro rfl
      rcases List.mem_cons.mp hb with e | hc
      · exact ha0 e
      · exact hna hc
    obtain ⟨t2, as', e2, hrep2, has', hlen2, hmax2, hn2, hd2⟩ :=
      makeRoom_ok (t := t1) hrep1 h.cnt h.room h.pos
    have hsub : ∀ c ∈ as', c ∈ as := by
      intro c hc
      rw [has'] at hc
      split at hc
      · exact (List.dropLast_sublist as).subset hc
      · exact hc
    have hna' : a ∉ as' := fun hc => hna (hsub a hc)
    have hda2 : (get t2.mem a).map data = some (data (newNode u.key u.now)) := by
      rw [hd2 a, if_neg (fun hc => hna hc.1), hga]; rfl
    have hka2 : keyAt t2.mem a = some u.key := keyAt_data hda2
    have hd2' : ∀ c ∈ as', (get t2.mem c).map data = (get t.mem c).map data := by
      intro c hc
      rw [hd2 c, if_neg (fun hh => hh.2 hc), hg1 c (fun e => hna' (e ▸ hc))]
    have hk2 : ∀ c ∈ as', keyAt t2.mem c = keyAt t.mem c := by
      intro c hc
      have hlive := h.rep.live c (hsub c hc)
      cases hgc : get t.mem c with
      | none => exact absurd hgc hlive
      | some n =>
        have := hd2' c hc
        rw [hgc] at this
        rw [keyAt_data this]
        simp [keyAt, hgc, data]
    obtain ⟨bk, e3, hlen3, htab3⟩ := hashUpdate_ok hrep2 hka2 hna' (by
      intro c hc; rw [hk2 c hc]; exact hnk c (hsub c hc))
    cases hg2 : get t2.mem a with
    | none => rw [hg2] at hda2; simp at hda2
    | some x2 =>
    obtain ⟨m4, e4, hs4, hsame4⟩ := dlistInsertAfter_ok hrep2.seg hrep2.nd hg2 ha0 hna'
    have hda4 : (get m4 a).map data = some (data (newNode u.key u.now)) := by
      rw [hsame4 a]; exact hda2
    obtain ⟨m5, e5, hb5, hda5, hx5⟩ := bump_ok (op := u.op) hda4
      (by simp [data, newNode, nCounters]; exact hu.2)
      (by intro v hv
          simp only [data, newNode] at hv
          rw [List.eq_of_mem_replicate hv]; omega)
    have hrep4 : Rep m4 bk (a :: as') := by
      refine ⟨hs4, ?_, ?_, ?_, tab_same hsame4 htab3⟩
      · have := List.nodup_cons.mp hrep2.nd
        simp only [List.nodup_cons, List.mem_cons]
        refine ⟨?_, hna', this.2⟩
        rintro (e | hc)
        · exact ha0 e.symm
        · exact this.1 hc
      · intro c hc hn
        have hn2 := (live_same hsame4 c).mp hn
        rcases List.mem_cons.mp hc with e | hc
        · subst e; rw [hg2] at hn2; cases hn2
        · exact hrep2.live c hc hn2
      · intro c hc c' hc' hcc
        rw [keyAt_same hsame4, keyAt_same hsame4] at hcc
        rcases List.mem_cons.mp hc with e | hc1
        · rcases List.mem_cons.mp hc' with e' | hc2
          · rw [e, e']
          · subst e
            rw [hka2, hk2 c' hc2] at hcc
            exact absurd hcc.symm (hnk c' (hsub c' hc2))
        · rcases List.mem_cons.mp hc' with e' | hc2
          · subst e'
            rw [hka2, hk2 c hc1] at hcc
            exact absurd hcc (hnk c (hsub c hc1))
          · exact hrep2.inj c hc1 c' hc2 hcc
    have hl4 : get m4 a ≠ none := fun hn => by rw [hn] at hda4; simp at hda4
    have hrep5 := rep_bump hrep4 hb5 hx5 hl4
    have hlen' : as'.length + 1 ≤ t.maxKeys := by
      have hr := h.room
      have hp := h.pos
      rw [has']
      split
      · rename_i hlt
        have : t1.maxKeys = t.maxKeys := rfl
        rw [List.length_dropLast]
        omega
      · rename_i hlt
        have : t1.maxKeys = t.maxKeys := rfl
        omega
    refine ⟨{ t2 with buckets := bk, mem := m5 }, a :: as', ?_, ⟨hrep5, ?_, ?_, ?_, ?_⟩, ?_, ?_⟩
    · simp only [count, if_neg hkey, getOrCreate, hf, Option.bind_eq_bind, Option.bind_some, hal']
      have : makeRoom { t with mem := put t.mem a (newNode u.key u.now) } = some t2 := e2
      simp only [this, Option.bind_some, e3, e4, e5]
    · intro c
      show get m5 c ≠ none ↔ _
      have h2 : get m5 c = none ↔ get t2.mem c = none := by
        by_cases e : c = a
        · subst e
          constructor
          · intro hn; rw [hn] at hda5; simp at hda5
          · intro hn; rw [hg2] at hn; cases hn
        · rw [hb5 c e]; exact live_same hsame4 c
      rw [Ne, h2]
      have h1 := h.exact_ c
      by_cases e : c = a
      · subst e; rw [hg2]; simp
      · have hdc := hd2 c
        rw [hg1 c e] at hdc
        simp only [List.mem_cons, e, false_or]
        by_cases hc : c ∈ as ∧ c ∉ as'
        · rw [if_pos hc] at hdc
          have hn : get t2.mem c = none := by
            cases hh : get t2.mem c with
            | none => rfl
            | some x => rw [hh] at hdc; simp at hdc
          have h0 : c ≠ 0 := fun e0 => (List.nodup_cons.mp h.rep.nd).1 (e0 ▸ hc.1)
          simp [hn, h0, hc.2]
        · rw [if_neg hc] at hdc
          have hn : get t2.mem c = none ↔ get t.mem c = none := by
            cases hh : get t2.mem c <;> cases hh' : get t.mem c <;> rw [hh, hh'] at hdc <;> simp at hdc ⊢
          rw [hn]
          rw [Ne] at h1
          rw [h1]
          constructor
          · rintro (h0 | hc1)
            · exact Or.inl h0
            · right
              by_contra hc2
              exact hc ⟨hc1, hc2⟩
          · rintro (h0 | hc1)
            · exact Or.inl h0
            · exact Or.inr (hsub c hc1)
    · show t2.nkeys = _; rw [hn2]; simp
    · show _ ≤ t2.maxKeys; rw [hmax2]; exact hlen'
    · show 0 < t2.maxKeys; rw [hmax2]; exact h.pos
    · exact hmax2
    · have hne : ∀ e ∈ L, e.1 ≠ u.key := by
        intro e he hee
        obtain ⟨c, hc, hcd⟩ := contents_mem hL he
        exact hnk c hc (by rw [keyAt_data hcd, hee])
      rw [touch_new hne]
      show contents m5 (a :: as') = _
      have hrest : contents m5 as' = contents t.mem as' := by
        apply contents_congr
        intro c hc
        have hca : c ≠ a := fun e => hna' (e ▸ hc)
        rw [hb5 c hca, hsame4 c, hd2' c hc]
      have hcons : contents m5 (a :: as') = (get m5 a).map data :: contents m5 as' := rfl
      rw [hcons, hda5, hrest, List.map_cons]
      congr 1
      have hlL := contents_length hL
      rw [has', show t1.maxKeys = t.maxKeys from rfl, hlL]
      split
      · unfold contents at hL ⊢
        rw [List.map_dropLast, hL, List.map_dropLast]
      · exact hL

end Verif.TopKeys
