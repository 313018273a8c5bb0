import Verif.Lemmas.SmgetPlace
/-!
# Sort-merge get: the first phase over all keys
-/
namespace Verif.Smget
open Verif.BT Verif.BT.Spec Verif.Smget.Spec

/-- The keys as the client sees them. -/
def Sees (view : List Nat → View) (db : List Nat → Entry) : Prop :=
  ∀ k, (view k = .absent ∧ db k = .absent) ∨ (view k = .other ∧ db k = .other) ∨
    ∃ c info, view k = .coll c ∧ db k = .tree info ∧ Rel c info

theorem take_give (r : Refs) (k : Nat) : (r.take k).give k = r := by
  unfold Refs.take Refs.give
  rw [if_pos List.mem_cons_self]
  simp

theorem giveAll_perm {l : List Nat} : ∀ {r : Refs}, r.held.Perm l → r.over = [] → giveAll r l = ⟨[], []⟩ := by
  induction l with
  | nil =>
    intro r h ho
    obtain ⟨held, over⟩ := r
    simp only at h ho
    rw [List.perm_nil.mp h, ho]; rfl
  | cons k l ih =>
    intro r h ho
    rw [giveAll, List.foldl_cons]
    exact ih (give_perm h ho).1 (give_perm h ho).2

theorem str_inc {a : Ask} {s : Scan} {l : List Elem} {t : Option BKey} (h : Str a s l t) :
    (s.elem :: l).Pairwise fun x y => Before a.asc x.bkey y.bkey := by
  induction h with
  | done _ => exact List.pairwise_singleton _ _
  | step _ _ _ _ hb _ ih =>
    refine List.pairwise_cons.mpr ⟨?_, ih⟩
    intro x hx
    rcases List.mem_cons.mp hx with rfl | hx
    · exact hb
    · exact before_trans hb ((List.pairwise_cons.mp ih).1 x hx)

section
variable {a : Ask} {k0 : BKey} {unique : Bool} {req : Nat} {ks : List (List Nat)} {n w : Nat} {pool pool' : Got → Prop}
  {tk tk' : Nat × BKey → Prop} {st : P1} {In : List Ent}

/-- A key that offers nothing. -/
theorem Inv1.skip (h : Inv1 a k0 unique req ks n w pool tk st In []) (hp : ∀ x, pool' x ↔ pool x) (ht : ∀ p, tk' p ↔ tk p)
    {m : List (Nat × Miss)} (hm : m.length ≤ st.miss.length + 1) {w' : Nat} (hw : w ≤ w') :
    Inv1 a k0 unique req ks (n + 1) w' pool' tk' { st with miss := m } In [] where
  sort := h.sort
  ok := h.ok
  ord := h.ord
  named := h.named
  ids := h.ids
  below := fun i hi => Nat.lt_succ_of_lt (h.below i hi)
  len := h.len
  size := Nat.le_trans h.size hw
  room := by have := h.room; simp only at this ⊢; omega
  sub := fun x hx => (hp x).mpr (h.sub x hx)
  sup := fun x h1 h2 => h.sup x ((hp x).mp h1) fun hu y hy => h2 hu y ((hp y).mpr hy)
  tsub := fun p h1 => (ht p).mpr (h.tsub p h1)
  tsup := fun p h1 => h.tsup p ((ht p).mp h1)
  held := h.held
  over := h.over
  slot := h.slot

/-- A key that offers nothing but runs into trimmed space. -/
theorem Inv1.cut (h : Inv1 a k0 unique req ks n w pool tk st In []) (hp : ∀ x, pool' x ↔ pool x) {b : BKey}
    (ht : ∀ p, tk' p ↔ tk p ∨ p = (n, b)) {w' : Nat} (hw : w ≤ w') :
    Inv1 a k0 unique req ks (n + 1) w' pool' tk' { st with trim := st.trim ++ [(n, b)] } In [] where
  sort := h.sort
  ok := h.ok
  ord := h.ord
  named := h.named
  ids := by
    have h1 := h.ids
    have h2 := h.below
    simp only [List.nil_append, List.map_append, List.map_cons, List.map_nil, List.append_assoc, List.singleton_append] at h1 h2 ⊢
    have hperm : (st.trim.map Prod.fst ++ n :: In.map fun E => E.s.kidx).Perm (n :: (st.trim.map Prod.fst ++ In.map fun E => E.s.kidx)) :=
      List.perm_middle
    exact hperm.nodup_iff.mpr (List.nodup_cons.mpr ⟨fun hm => absurd (h2 n hm) (by omega), h1⟩)
  below := by
    intro i hi
    have h2 := h.below i
    simp only [List.nil_append, List.map_append, List.map_cons, List.map_nil, List.append_assoc, List.singleton_append] at h2 hi
    rcases List.mem_append.mp hi with hi | hi
    · exact Nat.lt_succ_of_lt (h2 (List.mem_append_left _ hi))
    · rcases List.mem_cons.mp hi with rfl | hi
      · omega
      · exact Nat.lt_succ_of_lt (h2 (List.mem_append_right _ hi))
  len := h.len
  size := Nat.le_trans h.size hw
  room := by have := h.room; simp only [List.length_append, List.length_cons, List.length_nil] at this ⊢; omega
  sub := fun x hx => (hp x).mpr (h.sub x hx)
  sup := fun x h1 h2 => h.sup x ((hp x).mp h1) fun hu y hy => h2 hu y ((hp y).mpr hy)
  tsub := by
    intro p h1
    rw [ht]
    rcases h1 with h1 | h1
    · rcases List.mem_append.mp h1 with h1 | h1
      · exact .inl (h.tsub p (.inl h1))
      · exact .inr (List.mem_singleton.mp h1)
    · exact .inl (h.tsub p (.inr h1))
  tsup := by
    intro p h1
    rcases (ht p).mp h1 with h1 | h1
    · rcases h.tsup p h1 with (h2 | h2) | h2
      · exact .inl (.inl (List.mem_append_left _ h2))
      · exact .inl (.inr h2)
      · exact .inr h2
    · exact .inl (.inl (List.mem_append_right _ (List.mem_singleton.mpr h1)))
  held := h.held
  over := h.over
  slot := h.slot

/-- A key that offers elements. -/
theorem Inv1.enter (h : Inv1 a k0 unique req ks n w pool tk st In []) {E : Ent} (hE : EOk a k0 E) (hi : E.s.kidx = n)
    (hn : ks[n]? = some E.s.key) (hp : ∀ x, pool' x ↔ pool x ∨ x ∈ E.hits) (ht : ∀ p, tk' p ↔ tk p ∨ (p.1 = n ∧ E.t = some p.2))
    {w' : Nat} (hw : w + E.hits.length ≤ w') :
    Inv1 a k0 unique req ks (n + 1) w' pool' tk' { st with refs := st.refs.take n } In [E] where
  sort := h.sort
  ok := by
    intro F hF
    rcases List.mem_cons.mp hF with rfl | hF
    · exact hE
    · exact h.ok F hF
  ord := h.ord
  named := by
    intro F hF
    rcases List.mem_cons.mp hF with rfl | hF
    · rw [hi]; exact hn
    · exact h.named F hF
  ids := by
    have h1 := h.ids
    have h2 := h.below
    simp only [List.nil_append, List.map_cons, List.singleton_append] at h1 h2 ⊢
    have hperm : (st.trim.map Prod.fst ++ E.s.kidx :: In.map fun E => E.s.kidx).Perm (E.s.kidx :: (st.trim.map Prod.fst ++ In.map fun E => E.s.kidx)) :=
      List.perm_middle
    exact hperm.nodup_iff.mpr (List.nodup_cons.mpr ⟨fun hm => absurd (h2 _ hm) (by omega), h1⟩)
  below := by
    intro i hi'
    have h2 := h.below i
    simp only [List.nil_append, List.map_cons, List.singleton_append] at h2 hi'
    rcases List.mem_append.mp hi' with hi' | hi'
    · exact Nat.lt_succ_of_lt (h2 (List.mem_append_left _ hi'))
    · rcases List.mem_cons.mp hi' with rfl | hi'
      · omega
      · exact Nat.lt_succ_of_lt (h2 (List.mem_append_right _ hi'))
  len := h.len
  size := by
    have := h.size
    simp only [bag, List.singleton_append, List.flatMap_cons, List.length_append, List.nil_append] at this ⊢
    omega
  room := by have := h.room; simp only [List.length_append, List.length_cons, List.length_nil] at this ⊢; omega
  sub := by
    intro x hx
    rw [hp]
    simp only [bag, List.singleton_append, List.flatMap_cons, List.mem_append] at hx
    exact hx.symm.imp (h.sub x) id
  sup := by
    intro x h1 h2
    simp only [bag, List.singleton_append, List.flatMap_cons, List.mem_append]
    rcases (hp x).mp h1 with h3 | h3
    · rcases h.sup x h3 fun hu y hy => h2 hu y ((hp y).mpr (.inl hy)) with h4 | h4
      · exact .inl (.inr h4)
      · exact .inr h4
    · exact .inl (.inl h3)
  tsub := by
    intro p h1
    rw [ht]
    rcases h1 with h1 | ⟨F, hF, h1⟩
    · exact .inl (h.tsub p (.inl h1))
    · rcases List.mem_cons.mp hF with rfl | hF
      · exact .inr ⟨h1.1.trans hi, h1.2⟩
      · exact .inl (h.tsub p (.inr ⟨F, hF, h1⟩))
  tsup := by
    intro p h1
    rcases (ht p).mp h1 with h1 | h1
    · rcases h.tsup p h1 with (h2 | ⟨F, hF, h2⟩) | h2
      · exact .inl (.inl h2)
      · exact .inl (.inr ⟨F, List.mem_cons_of_mem _ hF, h2⟩)
      · exact .inr h2
    · exact .inl (.inr ⟨E, List.mem_cons_self, h1.1.trans hi.symm, h1.2⟩)
  held := by
    simp only [Refs.take, List.singleton_append, List.map_cons, hi]
    exact h.held.cons n
  over := h.over
  slot := h.slot

end

/-- What the first `n` keys offer. -/
def PoolN (view : List Nat → View) (keys : List (List Nat)) (r : Range) (f : Option EFilter) (n : Nat) (x : Got) : Prop :=
  x.kidx < n ∧ Offered view keys r f x

/-- Where the first `n` keys are cut off. -/
def TkN (view : List Nat → View) (keys : List (List Nat)) (r : Range) (n : Nat) (p : Nat × BKey) : Prop :=
  p.1 < n ∧ ∃ key c, keys[p.1]? = some key ∧ view key = .coll c ∧ CutOff c r p.2

section
variable {view : List Nat → View} {keys : List (List Nat)} {r : Range} {f : Option EFilter} {n : Nat} {key : List Nat}

theorem pool_same (hk : keys[n]? = some key) (h : ∀ c, view key = .coll c → Taken r c → matching r f c.elems = []) (x : Got) :
    PoolN view keys r f (n + 1) x ↔ PoolN view keys r f n x := by
  constructor
  · rintro ⟨h1, h2⟩
    refine ⟨?_, h2⟩
    rcases Nat.lt_or_ge x.kidx n with g | g
    · exact g
    · have he : x.kidx = n := by omega
      obtain ⟨c, k1, k2, k3, -, k4⟩ := h2
      rw [he, hk] at k1
      cases k1
      rw [h c k2 k3] at k4; cases k4
  · rintro ⟨h1, h2⟩; exact ⟨by omega, h2⟩

theorem tk_split (hk : keys[n]? = some key) (p : Nat × BKey) :
    TkN view keys r (n + 1) p ↔ TkN view keys r n p ∨ (p.1 = n ∧ ∃ c, view key = .coll c ∧ CutOff c r p.2) := by
  constructor
  · rintro ⟨h1, k, c, h2, h3, h4⟩
    rcases Nat.lt_or_ge p.1 n with g | g
    · exact .inl ⟨g, k, c, h2, h3, h4⟩
    · have he : p.1 = n := by omega
      rw [he, hk] at h2
      cases h2
      exact .inr ⟨he, c, h3, h4⟩
  · rintro (⟨h1, h2⟩ | ⟨h1, c, h2, h3⟩)
    · exact ⟨by omega, h2⟩
    · exact ⟨by omega, key, c, by rw [h1]; exact hk, h2, h3⟩

theorem tk_same (hk : keys[n]? = some key) (h : ∀ c b, view key = .coll c → ¬ CutOff c r b) (p : Nat × BKey) :
    TkN view keys r (n + 1) p ↔ TkN view keys r n p := by
  rw [tk_split hk]
  exact ⟨fun h1 => h1.elim id fun ⟨_, c, h2, h3⟩ => absurd h3 (h c _ h2), .inl⟩

end

/-- Elements under a key. -/
def weight (db : List Nat → Entry) (k : List Nat) : Nat := match db k with | .tree info => info.tree.leaves.flatten.length | _ => 0

/-- One key. -/
theorem oneKey_spec {view : List Nat → View} {db : List Nat → Entry} (hv : Sees view db) {keys : List (List Nat)} {r : Range}
    {f : Option EFilter} {offset count : Nat} (hfair : Fair keys r f offset count) {rt : RType} {to : BKey}
    (hrt : rangeType r = some (rt, to)) {unique : Bool} {req : Nat} (hreq : 0 < req) {n w : Nat} {key : List Nat} (hk : keys[n]? = some key)
    {st : P1} {In : List Ent} (h : Inv1 ⟨rt, r.lo, to, f⟩ r.lo unique req keys n w (PoolN view keys r f n) (TkN view keys r n) st In [])
    {fuel : Nat} (hf : w + weight db key < fuel) :
    (∃ e, errOf r (view key) = some e ∧
      oneKey ⟨rt, r.lo, to, f⟩ unique req keys.length fuel db st n key = some (.stop e ⟨[], []⟩)) ∨
    (errOf r (view key) = none ∧ ∃ st' In', oneKey ⟨rt, r.lo, to, f⟩ unique req keys.length fuel db st n key = some (.go st') ∧
      Inv1 ⟨rt, r.lo, to, f⟩ r.lo unique req keys (n + 1) (w + weight db key) (PoolN view keys r f (n + 1)) (TkN view keys r (n + 1)) st' In' [] ∧
      st'.miss = st.miss ++ ((missOf r (view key)).map fun m => (n, m)).toList) := by
  obtain ⟨hnd, hz, hr, hfo, -, -⟩ := hfair
  have hnlt : n < keys.length := (List.getElem?_eq_some_iff.mp hk).1
  have hroom : st.miss.length + st.trim.length < keys.length := by
    have := h.room
    omega
  have hfail : ∀ e, fail e st st.refs = .stop e ⟨[], []⟩ := by
    intro e
    rw [fail, giveAll_perm _ h.over]
    rw [h.sort, List.map_map]
    exact h.held
  unfold oneKey
  rcases hv key with ⟨v1, v2⟩ | ⟨v1, v2⟩ | ⟨c, info, v1, v2, R⟩
  · right
    have hb : begin_ ⟨rt, r.lo, to, f⟩ db n key = some (.miss .enoent) := by rw [begin_, v2]
    rw [hb, v1]
    simp only [addMiss, if_pos hroom, Option.map_some]
    refine ⟨rfl, _, In, rfl, h.skip (pool_same hk (by rw [v1]; intro c hc; cases hc)) (tk_same hk (by rw [v1]; intro c b hc; cases hc))
      (by simp) (by omega), rfl⟩
  · left
    have hb : begin_ ⟨rt, r.lo, to, f⟩ db n key = some (.err .badType) := by rw [begin_, v2]
    rw [hb, v1]
    refine ⟨.badType, rfl, ?_⟩
    simp only [if_true, hfail]
  · obtain ⟨b1, b2, b3, b4⟩ := begin_tree R hr hfo hrt v2 n
    rw [v1]
    have hw : weight db key = c.elems.length := by rw [weight, v2, R.elems]
    by_cases hrd : c.readable = false
    · right
      rw [b1 hrd]
      simp only [take_give, addMiss, if_pos hroom, Option.map_some, errOf, missOf, hrd, Bool.false_eq_true, false_and, if_false, if_true]
      have hnt : ¬ Taken r c := fun h => by rw [Taken, hrd] at h; cases h.1
      refine ⟨trivial, _, In, rfl, h.skip (pool_same hk ?_) (tk_same hk ?_) (by simp) (by omega), rfl⟩
      · intro c' hc ht; rw [v1] at hc; cases hc; exact absurd ht hnt
      · intro c' b hc hco; rw [v1] at hc; cases hc; exact hnt hco.1
    have hrd : c.readable = true := by simpa using hrd
    by_cases hbad : c.elems ≠ [] ∧ c.Alien r.lo
    · left
      rw [b2 hrd hbad]
      refine ⟨.badBkey, by simp only [errOf]; rw [if_pos ⟨hrd, hbad⟩], ?_⟩
      simp only [reduceCtorEq, if_false, take_give, hfail]
    right
    have herr : errOf r (.coll c) = none := by simp only [errOf]; rw [if_neg fun h => hbad h.2]
    refine ⟨herr, ?_⟩
    by_cases hbe : Behind c r
    · rw [b3 hrd hbad hbe]
      simp only [take_give, addMiss, if_pos hroom, Option.map_some, missOf, hrd, Bool.true_eq_false, if_false, hbe, if_true]
      have hnt : ¬ Taken r c := fun h => h.2 hbe
      refine ⟨_, In, rfl, h.skip (pool_same hk ?_) (tk_same hk ?_) (by simp) (by omega), rfl⟩
      · intro c' hc ht; rw [v1] at hc; cases hc; exact absurd ht hnt
      · intro c' b hc hco; rw [v1] at hc; cases hc; exact hnt hco.1
    have hmiss : missOf r (.coll c) = none := by simp only [missOf, hrd, Bool.true_eq_false, if_false, hbe]
    rw [hmiss]
    simp only [Option.map_none, Option.toList_none, List.append_nil]
    rcases b4 hrd hbad hbe with ⟨g1, g2, g3⟩ | ⟨t, b, g1, g2, g3⟩ | ⟨s, l, t, g1, g2, g3, g4, g5, g6, g7⟩
    · rw [g1]
      simp only [take_give]
      refine ⟨_, In, rfl, h.skip (m := st.miss) (pool_same hk ?_) (tk_same hk ?_) (by omega) (by omega), rfl⟩
      · intro c' hc ht; rw [v1] at hc; cases hc; exact g2
      · intro c' b hc; rw [v1] at hc; cases hc; exact g3 b
    · rw [g1]
      simp only [ended, take_give]
      have hpool := pool_same (view := view) (r := r) (f := f) hk (fun c' hc (_ : Taken r c') => by rw [v1] at hc; cases hc; exact g2)
      cases t with
      | false =>
        rw [if_neg (by decide)]
        refine ⟨_, In, rfl, h.skip (m := st.miss) hpool (tk_same hk ?_) (by omega) (by omega), rfl⟩
        intro c' b' hc hco; rw [v1] at hc; cases hc
        cases ((g3 b').mp hco).1
      | true =>
        rw [if_pos rfl, addTrim, if_pos hroom]
        refine ⟨_, In, rfl, h.cut hpool ?_ (by omega), rfl⟩
        intro p
        rw [tk_split hk]
        refine or_congr Iff.rfl ⟨?_, ?_⟩
        · rintro ⟨h1, c', hc, hco⟩
          rw [v1] at hc; cases hc
          obtain ⟨p1, p2⟩ := p
          simp only at h1
          rw [h1, ((g3 p2).mp hco).2]
        · rintro rfl
          exact ⟨rfl, c, v1, (g3 b).mpr ⟨rfl, rfl⟩⟩
    · rw [g1]
      simp only
      have hkin : ∀ x ∈ c.elems, Kin r.lo x.bkey := by
        intro x hx
        have hne : c.elems ≠ [] := List.ne_nil_of_mem hx
        have := R.fits hr.1 fun ha => hbad ⟨hne, ha⟩
        rw [R.elems] at hx
        exact this.2 x hx
      have hmem : ∀ x ∈ s.elem :: l, x ∈ c.elems := by
        intro x hx; rw [← g6] at hx; exact mem_matching hx
      have hTk : Taken r c := ⟨hrd, hbe⟩
      have hd : Dir r rt to := by
        obtain ⟨rt', to', k1, k2, -, -⟩ := rangeType_spec hr
        rw [hrt] at k1
        simp only [Option.some.injEq, Prod.mk.injEq] at k1
        obtain ⟨rfl, rfl⟩ := k1
        exact dir_of hr hrt k2
      have hE : EOk ⟨rt, r.lo, to, f⟩ r.lo ⟨s, l, t⟩ := by
        refine ⟨g5, str_inc g5, ?_, ?_⟩
        · intro x hx
          obtain ⟨-, e2, -, e4⟩ := Ent.mem_hits.mp hx
          refine ⟨hkin _ (hmem _ e4), ?_⟩
          rw [e2]
          show 0 ∉ s.key
          rw [g3]
          exact hz key (List.mem_of_getElem? hk)
        · intro b hb
          have hco := (g7 b).mpr hb
          obtain ⟨e, he, heb, -⟩ := cutOff_mem hco
          refine ⟨heb ▸ hkin e he, fun x hx => ?_⟩
          exact cutOff_last hd (by rw [R.elems]; exact R.good.sorted) hco x (hmem x hx)
      have hlen : (Ent.mk s l t).hits.length ≤ c.elems.length := by
        have : (Ent.mk s l t).hits.length = (matching r f c.elems).length := by rw [g6]; simp [Ent.hits]
        rw [this]
        classical
        rw [matching]
        refine Nat.le_trans (List.length_filter_le _ _) ?_
        split <;> simp
      have h2 := h.enter (E := ⟨s, l, t⟩) (pool' := PoolN view keys r f (n + 1)) (tk' := TkN view keys r (n + 1)) (w' := w + weight db key) hE g2
        (by rw [hk]; exact congrArg some g3.symm) (by
          intro x
          constructor
          · rintro ⟨h1, h2⟩
            rcases Nat.lt_or_ge x.kidx n with g | g
            · exact .inl ⟨g, h2⟩
            · have he : x.kidx = n := by omega
              obtain ⟨c', k1, k2, k3, k4, k5⟩ := h2
              rw [he, hk] at k1
              cases k1
              rw [v1] at k2; cases k2
              refine .inr (Ent.mem_hits.mpr ⟨he.trans g2.symm, g3.symm, ?_, ?_⟩)
              · rw [k4, R.flags]; simp only [g4]
              · rw [← g6]; exact k5
          · rintro (⟨h1, h2⟩ | hx)
            · exact ⟨by omega, h2⟩
            · obtain ⟨e1, e2, e3, e4⟩ := Ent.mem_hits.mp hx
              simp only [g2, g3, g4] at e1 e2 e3
              refine ⟨by omega, c, ?_, ?_, hTk, ?_, ?_⟩
              · rw [e1, e2]; exact hk
              · rw [e2]; exact v1
              · rw [e3, R.flags]
              · rw [g6]; exact e4) (by
          intro p
          rw [tk_split hk]
          refine or_congr Iff.rfl (and_congr_right fun _ => ?_)
          constructor
          · rintro ⟨c', hc, hco⟩
            rw [v1] at hc; cases hc
            exact (g7 _).mp hco
          · intro hb; exact ⟨c, v1, (g7 _).mpr hb⟩) (by omega)
      exact place_spec (by omega) hreq hnd fuel _ In _ h2 (by have := h2.size; omega)

/-- All keys. -/
theorem scanSort_spec {view : List Nat → View} {db : List Nat → Entry} (hv : Sees view db) {keys : List (List Nat)} {r : Range}
    {f : Option EFilter} {offset count : Nat} (hfair : Fair keys r f offset count) {rt : RType} {to : BKey}
    (hrt : rangeType r = some (rt, to)) {unique : Bool} {req : Nat} (hreq : 0 < req) {fuel : Nat} (rest : List (List Nat)) :
    ∀ (n w : Nat) (st : P1) (In : List Ent), keys.drop n = rest → n ≤ keys.length →
      Inv1 ⟨rt, r.lo, to, f⟩ r.lo unique req keys n w (PoolN view keys r f n) (TkN view keys r n) st In [] →
      w + (rest.map (weight db)).sum < fuel →
      (∃ (i : Nat) (key : List Nat) (e : Err), keys[i]? = some key ∧ errOf r (view key) = some e ∧
        (∀ (j : Nat) (k : List Nat), n ≤ j → j < i → keys[j]? = some k → errOf r (view k) = none) ∧
        scanSort ⟨rt, r.lo, to, f⟩ unique req keys.length fuel db n rest st = some (.stop e ⟨[], []⟩)) ∨
      ((∀ k ∈ rest, errOf r (view k) = none) ∧ ∃ st' In',
        scanSort ⟨rt, r.lo, to, f⟩ unique req keys.length fuel db n rest st = some (.go st') ∧
        Inv1 ⟨rt, r.lo, to, f⟩ r.lo unique req keys keys.length (w + (rest.map (weight db)).sum) (PoolN view keys r f keys.length)
          (TkN view keys r keys.length) st' In' [] ∧
        st'.miss = st.miss ++ (rest.zipIdx n).filterMap fun p => (missOf r (view p.1)).map fun m => (p.2, m)) := by
  induction rest with
  | nil =>
    intro n w st In hd hle h _
    right
    have hn : n = keys.length := Nat.le_antisymm hle (List.drop_eq_nil_iff.mp hd)
    subst hn
    refine ⟨by simp, st, In, rfl, h, ?_⟩
    simp
  | cons key rest ih =>
    intro n w st In hd hle h hf
    have hk : keys[n]? = some key := by
      have : (keys.drop n)[0]? = some key := by rw [hd]; rfl
      simpa using this
    simp only [List.map_cons, List.sum_cons] at hf
    rcases oneKey_spec hv hfair hrt hreq hk h (fuel := fuel) (by omega) with ⟨e, g1, g2⟩ | ⟨g1, st1, In1, g2, g3, g4⟩
    · left
      refine ⟨n, key, e, hk, g1, fun j k h1 h2 => by omega, ?_⟩
      rw [scanSort, g2]
    · rw [scanSort, g2]
      simp only
      have hd' : keys.drop (n + 1) = rest := by
        rw [← List.tail_drop, hd]; rfl
      rcases ih (n + 1) _ st1 In1 hd' (List.getElem?_eq_some_iff.mp hk).1 g3 (by omega) with ⟨i, k, e, k1, k2, k3, k4⟩ | ⟨k1, st', In', k2, k3, k4⟩
      · left
        refine ⟨i, k, e, k1, k2, ?_, k4⟩
        intro j k' h1 h2 h3
        rcases Nat.eq_or_lt_of_le h1 with rfl | h1
        · rw [hk] at h3; cases h3; exact g1
        · exact k3 j k' h1 h2 h3
      · right
        refine ⟨?_, st', In', k2, ?_, ?_⟩
        · intro k hk'
          rcases List.mem_cons.mp hk' with rfl | hk'
          · exact g1
          · exact k1 k hk'
        · simp only [List.map_cons, List.sum_cons, ← Nat.add_assoc]; exact k3
        · rw [k4, g4, List.zipIdx_cons, List.filterMap_cons]
          cases missOf r (view key) with
          | none => simp
          | some m => simp

end Verif.Smget
