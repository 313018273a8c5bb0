import Verif.Lemmas.SmgetMerge
/-!
# Sort-merge get: the first phase keeps the first scans
-/
namespace Verif.Smget
open Verif.BT Verif.BT.Spec

theorem set_perm {α : Type} {l : List α} {j : Nat} {c : α} (h : l[j]? = some c) (x : α) : (c :: l.set j x).Perm (x :: l) := by
  induction l generalizing j with
  | nil => cases h
  | cons y ys ih =>
    cases j with
    | zero =>
      simp only [List.getElem?_cons_zero, Option.some.injEq] at h
      subst h
      exact List.Perm.swap _ _ _
    | succ j =>
      rw [List.getElem?_cons_succ] at h
      rw [List.set_cons_succ]
      exact (List.Perm.swap _ _ _).trans (((ih h).cons y).trans (List.Perm.swap _ _ _))

theorem nodup_idx {α : Type} {l : List α} (h : l.Nodup) {i j : Nat} {x : α} (hi : l[i]? = some x) (hj : l[j]? = some x) : i = j := by
  obtain ⟨h1, e1⟩ := List.getElem?_eq_some_iff.mp hi
  obtain ⟨h2, e2⟩ := List.getElem?_eq_some_iff.mp hj
  have hp := List.pairwise_iff_getElem.mp h
  rcases Nat.lt_trichotomy i j with g | g | g
  · exact absurd (e1.trans e2.symm) (hp i j h1 h2 g)
  · exact g
  · exact absurd (e2.trans e1.symm) (hp j i h2 h1 g)

/-- No scan kept stands behind `x`, and no more can be kept. -/
def Full (asc : Bool) (req : Nat) (In : List Ent) (x : Got) : Prop := In.length = req ∧ ∀ F ∈ In, Lt asc F.s.got x

/-- No scan kept stands behind the bkey, and no more can be kept. -/
def TFull (asc : Bool) (req : Nat) (In : List Ent) (b : BKey) : Prop := In.length = req ∧ ∀ F ∈ In, ¬ Before asc b F.s.elem.bkey

/-- The scans kept stand no later than before. -/
def Down (asc : Bool) (In2 In : List Ent) : Prop :=
  In2.length = In.length ∧ ∀ F2 ∈ In2, ∃ F ∈ In, F2.s.got = F.s.got ∨ Lt asc F2.s.got F.s.got

theorem Full.down {asc : Bool} {req : Nat} {In In2 : List Ent} (hd : Down asc In2 In) {x : Got} (h : Full asc req In x) : Full asc req In2 x := by
  refine ⟨hd.1.trans h.1, fun F2 h2 => ?_⟩
  obtain ⟨F, hF, h3 | h3⟩ := hd.2 F2 h2
  · rw [h3]; exact h.2 F hF
  · exact lt_trans h3 (h.2 F hF)

theorem TFull.down {asc : Bool} {req : Nat} {In In2 : List Ent} (hd : Down asc In2 In) {b : BKey} (h : TFull asc req In b) : TFull asc req In2 b := by
  refine ⟨hd.1.trans h.1, fun F2 h2 hb => ?_⟩
  obtain ⟨F, hF, h3 | h3⟩ := hd.2 F2 h2
  · have : F2.s.elem.bkey = F.s.elem.bkey := congrArg (fun g => g.elem.bkey) h3
    exact h.2 F hF (this ▸ hb)
  · rcases h3 with h3 | ⟨h3, -⟩
    · exact h.2 F hF (before_trans hb h3)
    · exact h.2 F hF (show Before asc b F.s.got.elem.bkey from h3 ▸ hb)

/-- State of the first phase: `In` are the scans kept, `Ex` the scan in hand; `pool` and `tk` say what the keys seen so far offer and
where they are trimmed. -/
structure Inv1 (a : Ask) (k0 : BKey) (unique : Bool) (req : Nat) (ks : List (List Nat)) (n w : Nat) (pool : Got → Prop)
    (tk : Nat × BKey → Prop) (st : P1) (In Ex : List Ent) : Prop where
  sort : st.sort = In.map Ent.s
  ok : ∀ E ∈ Ex ++ In, EOk a k0 E
  ord : Ordered a.asc unique In
  named : ∀ E ∈ Ex ++ In, ks[E.s.kidx]? = some E.s.key
  ids : (st.trim.map Prod.fst ++ (Ex ++ In).map fun E => E.s.kidx).Nodup
  below : ∀ i ∈ st.trim.map Prod.fst ++ (Ex ++ In).map (fun E => E.s.kidx), i < n
  len : In.length ≤ req
  size : (bag (Ex ++ In)).length ≤ w
  room : st.miss.length + st.trim.length + (Ex ++ In).length ≤ n
  sub : ∀ x ∈ bag (Ex ++ In), pool x
  sup : ∀ x, pool x → (unique = true → ∀ y, pool y → y.elem.bkey = x.elem.bkey → ¬ Lt a.asc y x) →
    x ∈ bag (Ex ++ In) ∨ Full a.asc req In x
  tsub : ∀ p, Pot st.trim (Ex ++ In) p → tk p
  tsup : ∀ p, tk p → Pot st.trim (Ex ++ In) p ∨ TFull a.asc req In p.2
  held : st.refs.held.Perm ((Ex ++ In).map fun E => E.s.kidx)
  over : st.refs.over = []
  slot : unique = false → st.slot = none

section
variable {a : Ask} {k0 : BKey} {unique : Bool} {req : Nat} {ks : List (List Nat)} {n w : Nat} {pool : Got → Prop}
  {tk : Nat × BKey → Prop} {st : P1} {In Ex : List Ent}

theorem Inv1.keys (h : Inv1 a k0 unique req ks n w pool tk st In Ex) (hk : ks.Nodup) : ((Ex ++ In).map fun E => E.s.key).Nodup := by
  have h1 := (List.nodup_append.mp h.ids).2.1
  have hn := h.named
  generalize Ex ++ In = A at h1 hn
  induction A with
  | nil => simp
  | cons E A ih =>
    rw [List.map_cons, List.nodup_cons] at h1 ⊢
    refine ⟨?_, ih h1.2 fun F hF => hn F (List.mem_cons_of_mem _ hF)⟩
    intro hm
    obtain ⟨F, hF, he⟩ := List.mem_map.mp hm
    have e1 := hn E List.mem_cons_self
    have e2 := hn F (List.mem_cons_of_mem _ hF)
    rw [he] at e2
    exact h1.1 (List.mem_map.mpr ⟨F, hF, nodup_idx hk e2 e1⟩)

theorem pot_perm {trim : List (Nat × BKey)} {A B : List Ent} (h : A.Perm B) (p : Nat × BKey) : Pot trim A p ↔ Pot trim B p := by
  unfold Pot
  refine or_congr Iff.rfl ⟨?_, ?_⟩
  · rintro ⟨E, hE, h1⟩; exact ⟨E, h.mem_iff.mp hE, h1⟩
  · rintro ⟨E, hE, h1⟩; exact ⟨E, h.mem_iff.mpr hE, h1⟩

theorem bag_length_perm {A B : List Ent} (h : A.Perm B) : (bag A).length = (bag B).length := (List.Perm.flatMap_right _ h).length_eq

/-- The same scans, arranged otherwise. -/
theorem Inv1.arrange (h : Inv1 a k0 unique req ks n w pool tk st In Ex) {In2 Ex2 : List Ent} (hp : (Ex2 ++ In2).Perm (Ex ++ In))
    (ho : Ordered a.asc unique In2) (hl : In2.length ≤ req) (hd : In.length = req → Down a.asc In2 In) {sl : Option Nat} (hs : unique = false → sl = none) :
    Inv1 a k0 unique req ks n w pool tk { st with sort := In2.map Ent.s, slot := sl } In2 Ex2 where
  sort := rfl
  ok := fun E hE => h.ok E (hp.mem_iff.mp hE)
  ord := ho
  named := fun E hE => h.named E (hp.mem_iff.mp hE)
  ids := (List.Perm.append_left _ (hp.map fun (E : Ent) => E.s.kidx)).nodup_iff.mpr h.ids
  below := fun i hi => h.below i ((List.Perm.append_left _ (hp.map fun (E : Ent) => E.s.kidx)).mem_iff.mp hi)
  len := hl
  size := by rw [bag_length_perm hp]; exact h.size
  room := by rw [hp.length_eq]; exact h.room
  sub := fun x hx => h.sub x ((bag_perm hp x).mp hx)
  sup := fun x h1 h2 => (h.sup x h1 h2).imp (fun h => (bag_perm hp x).mpr h) fun h => h.down (hd h.1)
  tsub := fun p h1 => h.tsub p ((pot_perm hp p).mp h1)
  tsup := fun p h1 => (h.tsup p h1).imp (fun h => (pot_perm hp p).mpr h) fun h => h.down (hd h.1)
  held := h.held.trans (hp.map fun (E : Ent) => E.s.kidx).symm
  over := h.over
  slot := hs

theorem give_perm {r : Refs} {k : Nat} {l : List Nat} (h : r.held.Perm (k :: l)) (ho : r.over = []) :
    (r.give k).held.Perm l ∧ (r.give k).over = [] := by
  unfold Refs.give
  rw [if_pos (h.mem_iff.mpr List.mem_cons_self)]
  refine ⟨?_, ho⟩
  have := h.erase k
  rwa [List.erase_cons_head] at this

/-- The scan in hand is behind all kept and there is no room. -/
theorem Inv1.drop {E : Ent} (h : Inv1 a k0 unique req ks n w pool tk st In [E]) (hl : In.length = req)
    (hlt : ∀ F ∈ In, Lt a.asc F.s.got E.s.got) : Inv1 a k0 unique req ks n w pool tk { st with slot := none, refs := st.refs.give E.s.kidx } In [] where
  sort := h.sort
  ok := fun F hF => h.ok F (List.mem_cons_of_mem _ hF)
  ord := h.ord
  named := fun F hF => h.named F (List.mem_cons_of_mem _ hF)
  ids := h.ids.sublist (List.Sublist.append (List.Sublist.refl _) (List.sublist_cons_self _ _))
  below := fun i hi => h.below i ((List.Sublist.append (List.Sublist.refl _) (List.sublist_cons_self _ _)).subset hi)
  len := h.len
  size := by
    have := h.size
    simp only [bag, List.singleton_append, List.flatMap_cons, List.length_append] at this
    simp only [bag, List.nil_append]; omega
  room := by
    have := h.room
    simp only [List.singleton_append, List.length_cons] at this
    simp only [List.nil_append]; omega
  sub := fun x hx => h.sub x (by
    obtain ⟨F, hF, hx⟩ := mem_bag.mp hx
    exact mem_bag.mpr ⟨F, List.mem_cons_of_mem _ hF, hx⟩)
  sup := by
    intro x h1 h2
    rcases h.sup x h1 h2 with h3 | h3
    · obtain ⟨F, hF, hx⟩ := mem_bag.mp h3
      rcases List.mem_cons.mp hF with rfl | hF
      · refine .inr ⟨hl, fun G hG => ?_⟩
        rcases (h.ok F List.mem_cons_self).le hx with h4 | h4
        · rw [h4]; exact hlt G hG
        · exact lt_trans (hlt G hG) h4
      · exact .inl (mem_bag.mpr ⟨F, hF, hx⟩)
    · exact .inr h3
  tsub := by
    intro p hp
    refine h.tsub p ?_
    rcases hp with hp | ⟨F, hF, hp⟩
    · exact .inl hp
    · exact .inr ⟨F, List.mem_cons_of_mem _ hF, hp⟩
  tsup := by
    intro p hp
    rcases h.tsup p hp with (h1 | ⟨F, hF, h1⟩) | h1
    · exact .inl (.inl h1)
    · rcases List.mem_cons.mp hF with rfl | hF
      · refine .inr ⟨hl, fun G hG hb => ?_⟩
        have hn := ((h.ok F List.mem_cons_self).last p.2 h1.2).2 F.s.elem List.mem_cons_self
        rcases hlt G hG with h4 | ⟨h4, -⟩
        · exact hn (before_trans hb h4)
        · exact hn (show Before a.asc p.2 F.s.got.elem.bkey from h4 ▸ hb)
      · exact .inl (.inr ⟨F, hF, h1⟩)
    · exact .inr h1
  held := (give_perm h.held h.over).1
  over := (give_perm h.held h.over).2
  slot := fun _ => rfl

/-- The scan in hand lost against one with the same bkey and moves on. -/
theorem Inv1.step {E : Ent} (h : Inv1 a k0 unique req ks n w pool tk st In [E]) (hu : unique = true)
    {y : Got} (hy : pool y) (hb : y.elem.bkey = E.s.elem.bkey) (hlt : Lt a.asc y E.s.got) {s' : Scan} {l' : List Elem}
    (hi : s'.kidx = E.s.kidx) (hkk : s'.key = E.s.key) (hok : EOk a k0 ⟨s', l', E.t⟩) (hh : E.hits = E.s.got :: (Ent.mk s' l' E.t).hits) :
    Inv1 a k0 unique req ks n w pool tk st In [⟨s', l', E.t⟩] where
  sort := h.sort
  ok := by
    intro F hF
    rcases List.mem_cons.mp hF with rfl | hF
    · exact hok
    · exact h.ok F (List.mem_cons_of_mem _ hF)
  ord := h.ord
  named := by
    intro F hF
    rcases List.mem_cons.mp hF with rfl | hF
    · show ks[s'.kidx]? = some s'.key
      rw [hi, hkk]; exact h.named E List.mem_cons_self
    · exact h.named F (List.mem_cons_of_mem _ hF)
  ids := by have := h.ids; simp only [List.singleton_append, List.map_cons, hi] at this ⊢; exact this
  below := by have := h.below; simp only [List.singleton_append, List.map_cons, hi] at this ⊢; exact this
  len := h.len
  size := by
    have := h.size
    simp only [bag, List.singleton_append, List.flatMap_cons, List.length_append, hh, List.length_cons] at this ⊢
    omega
  room := h.room
  sub := by
    intro x hx
    refine h.sub x ?_
    simp only [bag, List.singleton_append, List.flatMap_cons, hh, List.mem_append] at hx ⊢
    exact hx.imp (List.mem_cons_of_mem _) id
  sup := by
    intro x h1 h2
    rcases h.sup x h1 h2 with h3 | h3
    · simp only [bag, List.singleton_append, List.flatMap_cons, hh, List.mem_append] at h3 ⊢
      rcases h3 with h3 | h3
      · rcases List.mem_cons.mp h3 with rfl | h3
        · exact absurd hlt (h2 hu y hy hb)
        · exact .inl (.inl h3)
      · exact .inl (.inr h3)
    · exact .inr h3
  tsub := by
    intro p hp
    refine h.tsub p ?_
    rcases hp with hp | ⟨F, hF, hp⟩
    · exact .inl hp
    · rcases List.mem_cons.mp hF with rfl | hF
      · exact .inr ⟨E, List.mem_cons_self, hp.1.trans hi, hp.2⟩
      · exact .inr ⟨F, List.mem_cons_of_mem _ hF, hp⟩
  tsup := by
    intro p hp
    rcases h.tsup p hp with (h1 | ⟨F, hF, h1⟩) | h1
    · exact .inl (.inl h1)
    · rcases List.mem_cons.mp hF with rfl | hF
      · exact .inl (.inr ⟨_, List.mem_cons_self, h1.1.trans hi.symm, h1.2⟩)
      · exact .inl (.inr ⟨F, List.mem_cons_of_mem _ hF, h1⟩)
    · exact .inr h1
  held := by have := h.held; simp only [List.singleton_append, List.map_cons, hi] at this ⊢; exact this
  over := h.over
  slot := h.slot

/-- The scan in hand lost against one with the same bkey and ends. -/
theorem Inv1.out {E : Ent} (h : Inv1 a k0 unique req ks n w pool tk st In [E]) (hu : unique = true)
    {y : Got} (hy : pool y) (hb : y.elem.bkey = E.s.elem.bkey) (hlt : Lt a.asc y E.s.got) (hl : E.l = []) {t : Bool} {b : BKey}
    (ht : E.t = if t = true then some b else none) {size : Nat} (hsz : n ≤ size) :
    ∃ st', ended size st E.s.kidx t b = some (.go st') ∧ Inv1 a k0 unique req ks n w pool tk st' In [] ∧ st'.miss = st.miss := by
  have hh : E.hits = [E.s.got] := by rw [Ent.hits_eq, hl]; rfl
  have hsub : ∀ x ∈ bag ([] ++ In), pool x := fun x hx => h.sub x (by
    obtain ⟨F, hF, hx⟩ := mem_bag.mp hx
    exact mem_bag.mpr ⟨F, List.mem_cons_of_mem _ hF, hx⟩)
  have hsup : ∀ x, pool x → (unique = true → ∀ y, pool y → y.elem.bkey = x.elem.bkey → ¬ Lt a.asc y x) →
      x ∈ bag ([] ++ In) ∨ Full a.asc req In x := by
    intro x h1 h2
    rcases h.sup x h1 h2 with h3 | h3
    · simp only [bag, List.singleton_append, List.flatMap_cons, hh, List.mem_cons] at h3 ⊢
      rcases h3 with rfl | h3
      · exact absurd hlt (h2 hu y hy hb)
      · exact .inl h3
    · exact .inr h3
  have hsize : (bag ([] ++ In)).length ≤ w := by
    have := h.size
    simp only [bag, List.singleton_append, List.flatMap_cons, List.length_append] at this
    simp only [bag, List.nil_append]; omega
  have hroom := h.room
  simp only [List.singleton_append, List.length_cons] at hroom
  have hids := h.ids
  have hbel := h.below
  simp only [List.singleton_append, List.map_cons] at hids hbel
  unfold ended
  cases t with
  | true =>
    simp only [if_true] at ht
    rw [if_pos rfl, addTrim, if_pos (by omega)]
    refine ⟨_, rfl, ⟨h.sort, fun F hF => h.ok F (List.mem_cons_of_mem _ hF), h.ord, fun F hF => h.named F (List.mem_cons_of_mem _ hF),
      ?_, ?_, h.len, hsize, ?_, hsub, hsup, ?_, ?_, (give_perm h.held h.over).1, (give_perm h.held h.over).2, h.slot⟩, rfl⟩
    · simpa [List.append_assoc] using hids
    · intro i hi
      refine hbel i ?_
      simpa [List.append_assoc] using hi
    · simp only [List.length_append, List.length_cons, List.length_nil, List.nil_append]; omega
    · intro p hp
      refine h.tsub p ?_
      rcases hp with hp | ⟨F, hF, hp⟩
      · rcases List.mem_append.mp hp with hp | hp
        · exact .inl hp
        · rw [List.mem_singleton] at hp
          subst hp
          exact .inr ⟨E, List.mem_cons_self, rfl, ht⟩
      · exact .inr ⟨F, List.mem_cons_of_mem _ hF, hp⟩
    · intro p hp
      rcases h.tsup p hp with (h1 | ⟨F, hF, h1⟩) | h1
      · exact .inl (.inl (List.mem_append_left _ h1))
      · rcases List.mem_cons.mp hF with rfl | hF
        · refine .inl (.inl (List.mem_append_right _ (List.mem_singleton.mpr ?_)))
          obtain ⟨p1, p2⟩ := p
          rw [ht] at h1
          simp only [Option.some.injEq] at h1
          rw [h1.1, h1.2]
        · exact .inl (.inr ⟨F, hF, h1⟩)
      · exact .inr h1
  | false =>
    simp only [Bool.false_eq_true, if_false] at ht
    rw [if_neg (by decide)]
    refine ⟨_, rfl, ⟨h.sort, fun F hF => h.ok F (List.mem_cons_of_mem _ hF), h.ord, fun F hF => h.named F (List.mem_cons_of_mem _ hF),
      ?_, ?_, h.len, hsize, ?_, hsub, hsup, ?_, ?_, (give_perm h.held h.over).1, (give_perm h.held h.over).2, h.slot⟩, rfl⟩
    · exact hids.sublist (List.Sublist.append (List.Sublist.refl _) (List.sublist_cons_self _ _))
    · intro i hi
      exact hbel i ((List.Sublist.append (List.Sublist.refl _) (List.sublist_cons_self _ _)).subset hi)
    · simp only [List.nil_append]; omega
    · intro p hp
      refine h.tsub p ?_
      rcases hp with hp | ⟨F, hF, hp⟩
      · exact .inl hp
      · exact .inr ⟨F, List.mem_cons_of_mem _ hF, hp⟩
    · intro p hp
      rcases h.tsup p hp with (h1 | ⟨F, hF, h1⟩) | h1
      · exact .inl (.inl h1)
      · rcases List.mem_cons.mp hF with rfl | hF
        · rw [ht] at h1; cases h1.2
        · exact .inl (.inr ⟨F, hF, h1⟩)
      · exact .inr h1

end

end Verif.Smget
