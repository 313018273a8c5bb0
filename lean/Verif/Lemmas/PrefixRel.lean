import Verif.Lemmas.PrefixShape
/-! # The state and the list of items -/
namespace Verif.Prefix
open Verif.Util
open Spec (Itm under owner figures S GoodName NameByte internalName place record)

/-- The counters are those of the items. -/
structure Acc (cfg : Cfg) (σ : S) (s : St) : Prop where
  null : s.null = acctOf (under cfg.delim σ none)
  acct : ∀ i pt, s.heap i = some pt → pt.islinked = true → pt.acct = acctOf (under cfg.delim σ (some pt.bytes))

/-- The items by address, and the totals. -/
structure Itms (cfg : Cfg) (σ : S) (s : St) : Prop where
  ids : (σ.items.map Itm.id).Nodup
  fit : ∀ x ∈ σ.items, x.ty < 5 ∧ (x.ty = 0 → x.elems = 0) ∧ x.size < w32
  few : σ.items.length < 2 ^ 31
  itm : ∀ x ∈ σ.items, ∃ p, s.items x.id = some ⟨x.key, x.ty, x.base, x.elems, p⟩ ∧ Points s p (owner cfg.delim x.key)
  curI : s.currItems = σ.items.length % w64
  curB : s.currBytes = wsum Itm.size σ.items % w64

/-- Every linked prefix has items. -/
def Full (cfg : Cfg) (σ : S) (s : St) : Prop := ∀ i pt, s.heap i = some pt → pt.islinked = true → under cfg.delim σ (some pt.bytes) ≠ []

structure Rel (cfg : Cfg) (σ : S) (s : St) : Prop where
  shape : Shape cfg σ.held s
  acc : Acc cfg σ s
  itms : Itms cfg σ s
  full : Full cfg σ s

theorem rel_init (cfg : Cfg) : Rel cfg Spec.start init := by
  refine ⟨⟨?_, ?_, ?_, ?_, ?_, ?_, ?_⟩, ⟨acctOf_nil.symm, ?_⟩, ⟨?_, ?_, ?_, ?_, ?_, ?_⟩, ?_⟩
  · intro i pt h; simp [init] at h
  · intro b i; simp [init]
  · intro b; simp [init]
  · intro i j pt pt' h; simp [init] at h
  · rw [allIds_length]
    have : ((List.range buckets).map fun b => (init.table b).length) = (List.range buckets).map fun _ => 0 := rfl
    rw [this, List.map_const', List.sum_replicate_nat, Nat.mul_zero]; rfl
  · decide
  · intro p nm h; simp [Spec.start] at h
  · intro i pt h; simp [init] at h
  · simp [Spec.start]
  · simp [Spec.start]
  · simp [Spec.start]
  · simp [Spec.start]
  · rfl
  · rfl
  · intro i pt h; simp [init] at h

/-- What booking changes. -/
structure Booked (s s1 : St) : Prop where
  items : s1.items = s.items
  curI : s1.currItems = s.currItems
  curB : s1.currBytes = s.currBytes
  old : ∀ i pt, s.heap i = some pt → ∃ a, s1.heap i = some { pt with acct := a }
  new : ∀ i pt, s1.heap i = some pt → ∃ pt', s.heap i = some pt' ∧ ∃ a, pt = { pt' with acct := a }
  points : ∀ p o, Points s p o → Points s1 p o

theorem book {cfg : Cfg} {σ σ' : S} {s : St} {p : Option Nat} {o : Option (List Nat)} {f : Acct → Acct}
    (hs : Shape cfg σ.held s) (ha : Acc cfg σ s) (hp : Points s p o) (hheld : σ'.held = σ.held)
    (hf : f (acctOf (under cfg.delim σ o)) = acctOf (under cfg.delim σ' o))
    (hq : ∀ q, q ≠ o → under cfg.delim σ' q = under cfg.delim σ q) :
    ∃ s1, withAcct s p f = some s1 ∧ Shape cfg σ'.held s1 ∧ Acc cfg σ' s1 ∧ Booked s s1 := by
  rw [hheld]
  rcases hp with ⟨rfl, rfl⟩ | ⟨i, pt, rfl, hi, hl, rfl⟩
  · refine ⟨_, rfl, ⟨hs.pts, hs.tab, hs.nd, hs.uniq, hs.total, hs.few, hs.held⟩, ⟨?_, ?_⟩, ⟨rfl, rfl, rfl, ?_, ?_, ?_⟩⟩
    · simp only [ha.null, hf]
    · intro j pt hj hl
      rw [hq _ (by simp)]
      exact ha.acct j pt hj hl
    · intro j pt hj; exact ⟨pt.acct, hj⟩
    · intro j pt hj; exact ⟨pt, hj, pt.acct, rfl⟩
    · intro p o h; exact h
  · have hold : ∀ j pt', s.heap j = some pt' →
        ∃ a, upd s.heap i (some { pt with acct := f pt.acct }) j = some { pt' with acct := a } := by
      intro j pt' hj
      by_cases hji : j = i
      · subst hji; rw [upd_same]; rw [hi] at hj; cases hj; exact ⟨_, rfl⟩
      · rw [upd_ne _ _ hji]; exact ⟨pt'.acct, hj⟩
    have hnew : ∀ j pt', upd s.heap i (some { pt with acct := f pt.acct }) j = some pt' →
        ∃ pt'', s.heap j = some pt'' ∧ ∃ a, pt' = { pt'' with acct := a } := by
      intro j pt' hj
      by_cases hji : j = i
      · subst hji; rw [upd_same] at hj; cases hj; exact ⟨pt, hi, _, rfl⟩
      · rw [upd_ne _ _ hji] at hj; exact ⟨pt', hj, pt'.acct, rfl⟩
    refine ⟨{ s with heap := upd s.heap i (some { pt with acct := f pt.acct }) }, by simp only [withAcct, hi], ?_, ?_, ⟨rfl, rfl, rfl, hold, hnew, ?_⟩⟩
    · refine ⟨?_, ?_, hs.nd, ?_, hs.total, hs.few, ?_⟩
      · intro j pt' hj
        obtain ⟨pt'', h1, a, rfl⟩ := hnew j pt' hj
        have w := hs.pts j pt'' h1
        exact ⟨w.lt, w.len, w.ne, w.short, w.good, w.int, w.ref, w.alive⟩
      · intro b j
        rw [hs.tab]
        constructor
        · rintro ⟨pt', h1, h2, h3⟩
          obtain ⟨a, h4⟩ := hold j pt' h1
          exact ⟨_, h4, h2, h3⟩
        · rintro ⟨pt', h1, h2, h3⟩
          obtain ⟨pt'', h4, a, rfl⟩ := hnew j pt' h1
          exact ⟨_, h4, h2, h3⟩
      · intro j k pt1 pt2 hj hk hl1 hl2 he
        obtain ⟨pt1', w1, a1, rfl⟩ := hnew j pt1 hj
        obtain ⟨pt2', w2, a2, rfl⟩ := hnew k pt2 hk
        exact hs.uniq j k _ _ w1 w2 hl1 hl2 he
      · intro p nm hm
        rcases hs.held p nm hm with w | ⟨j, pt', w1, w2, w3⟩
        · exact .inl w
        · obtain ⟨a, w4⟩ := hold j pt' w2
          exact .inr ⟨j, _, w1, w4, w3⟩
    · refine ⟨?_, ?_⟩
      · rw [hq _ (by simp)]; exact ha.null
      · intro j pt' hj hl'
        simp only at hj
        by_cases hji : j = i
        · subst hji
          rw [upd_same] at hj; cases hj
          simp only
          rw [ha.acct j pt hi hl, hf]
        · rw [upd_ne _ _ hji] at hj
          rw [hq]
          · exact ha.acct j pt' hj hl'
          · intro e
            simp only [Option.some.injEq] at e
            exact hji (hs.uniq j i pt' pt hj hi hl' hl e)
    · rintro p o (w | ⟨j, pt', w1, w2, w3, w4⟩)
      · exact .inl w
      · obtain ⟨a, w5⟩ := hold j pt' w2
        exact .inr ⟨j, _, w1, w5, w3, w4⟩

/-! ## The items of a prefix -/

theorem under_ids {d : Nat} {σ : S} (h : (σ.items.map Itm.id).Nodup) (p : Option (List Nat)) : ((under d σ p).map Itm.id).Nodup :=
  h.sublist (List.filter_sublist.map _)

theorem mem_under {d : Nat} {σ : S} {p : Option (List Nat)} {x : Itm} : x ∈ under d σ p ↔ x ∈ σ.items ∧ owner d x.key = p := by
  simp [under]

theorem under_filter (d : Nat) (σ : S) (k : Nat) (p : Option (List Nat)) :
    under d { σ with items := σ.items.filter fun x => decide (x.id ≠ k) } p = (under d σ p).filter fun x => decide (x.id ≠ k) := by
  simp only [under, List.filter_filter]
  congr 1
  funext x
  rw [Bool.and_comm]

theorem same_id {l : List Itm} (h : (l.map Itm.id).Nodup) {x y : Itm} (hx : x ∈ l) (hy : y ∈ l) (e : x.id = y.id) : x = y := by
  induction l with
  | nil => simp at hx
  | cons z l ih =>
    simp only [List.map_cons, List.nodup_cons] at h
    rw [List.mem_cons] at hx hy
    rcases hx with rfl | hx
    · rcases hy with rfl | hy
      · rfl
      · exact absurd (e ▸ List.mem_map_of_mem hy) h.1
    · rcases hy with rfl | hy
      · exact absurd (e ▸ List.mem_map_of_mem hx) h.1
      · exact ih h.2 hx hy

theorem under_other {d : Nat} {σ : S} (h : (σ.items.map Itm.id).Nodup) {x : Itm} (hx : x ∈ σ.items) {q : Option (List Nat)} (hq : q ≠ owner d x.key) :
    (under d σ q).filter (fun y => decide (y.id ≠ x.id)) = under d σ q := by
  rw [List.filter_eq_self]
  intro y hy
  rw [mem_under] at hy
  simp only [decide_eq_true_eq]
  intro e
  rw [same_id h hy.1 hx e] at hy
  exact hq hy.2.symm

/-- One item is exchanged for another with the same key. -/
def exchange (k : Nat) (y : Itm) (l : List Itm) : List Itm := l.map fun x => if x.id = k then y else x

theorem wsum_exchange (f : Itm → Nat) {l : List Itm} {x : Itm} (y : Itm) (hn : (l.map Itm.id).Nodup) (hx : x ∈ l) :
    wsum f (exchange x.id y l) = f y + wsum f (l.filter fun z => decide (z.id ≠ x.id)) := by
  induction l with
  | nil => simp at hx
  | cons z l ih =>
    simp only [List.map_cons, List.nodup_cons] at hn
    rw [List.mem_cons] at hx
    rcases hx with rfl | hx
    · have e1 : l.filter (fun y => decide (y.id ≠ x.id)) = l := by
        rw [List.filter_eq_self]
        intro z hz
        have : z.id ≠ x.id := fun e => hn.1 (e ▸ List.mem_map_of_mem hz)
        simpa using this
      have e2 : exchange x.id y l = l := by
        unfold exchange
        rw [List.map_congr_left (g := id), List.map_id]
        intro z hz
        have : z.id ≠ x.id := fun e => hn.1 (e ▸ List.mem_map_of_mem hz)
        simp [this]
      rw [List.filter_cons_of_neg (by simp), e1]
      have : exchange x.id y (x :: l) = y :: exchange x.id y l := by simp [exchange]
      rw [this, wsum_cons, e2]
    · have hne : z.id ≠ x.id := fun e => hn.1 (e ▸ List.mem_map_of_mem hx)
      have : exchange x.id y (z :: l) = z :: exchange x.id y l := by simp [exchange, hne]
      rw [this, wsum_cons, ih hn.2 hx, List.filter_cons_of_pos (by simpa using hne), wsum_cons]
      omega

theorem under_exchange {d : Nat} {l : List Itm} {held : Held} {x y : Itm} (hn : (l.map Itm.id).Nodup) (hx : x ∈ l)
    (ho : owner d y.key = owner d x.key) (q : Option (List Nat)) :
    under d ⟨exchange x.id y l, held⟩ q = exchange x.id y (under d ⟨l, held⟩ q) ∧
    (q ≠ owner d x.key → under d ⟨exchange x.id y l, held⟩ q = under d ⟨l, held⟩ q) := by
  have h1 : under d ⟨exchange x.id y l, held⟩ q = exchange x.id y (under d ⟨l, held⟩ q) := by
    have hsub : ∀ z ∈ l, z.id = x.id → z = x := fun z hz e => same_id hn hz hx e
    simp only [under]
    clear hn hx
    induction l with
    | nil => rfl
    | cons z l ih =>
      have ih := ih fun w hw => hsub w (List.mem_cons_of_mem _ hw)
      by_cases hz : z.id = x.id
      · have hzx := hsub z (by simp) hz
        have e1 : exchange x.id y (z :: l) = y :: exchange x.id y l := by simp [exchange, hz]
        rw [e1]
        by_cases hq : owner d x.key = q
        · rw [List.filter_cons_of_pos (by simp [ho, hq]), List.filter_cons_of_pos (by simp [hzx, hq]), ih]
          simp [exchange, hz]
        · rw [List.filter_cons_of_neg (by simp [ho, hq]), List.filter_cons_of_neg (by simp [hzx, hq]), ih]
      · have e1 : exchange x.id y (z :: l) = z :: exchange x.id y l := by simp [exchange, hz]
        rw [e1]
        by_cases hq : owner d z.key = q
        · rw [List.filter_cons_of_pos (by simp [hq]), List.filter_cons_of_pos (by simp [hq]), ih]
          simp [exchange, hz]
        · rw [List.filter_cons_of_neg (by simp [hq]), List.filter_cons_of_neg (by simp [hq]), ih]
  refine ⟨h1, ?_⟩
  intro hq
  rw [h1]
  unfold exchange
  rw [List.map_congr_left (g := id), List.map_id]
  intro z hz
  rw [mem_under] at hz
  have : z.id ≠ x.id := by
    intro e
    rw [same_id hn hz.1 hx e] at hz
    exact hq hz.2.symm
  simp [this]

theorem exchange_ids {l : List Itm} {x y : Itm} (hn : (l.map Itm.id).Nodup) (hy : y.id = x.id ∨ y.id ∉ l.map Itm.id) :
    ((exchange x.id y l).map Itm.id).Nodup := by
  rcases hy with hy | hy
  · have : (exchange x.id y l).map Itm.id = l.map Itm.id := by
      unfold exchange
      rw [List.map_map]
      apply List.map_congr_left
      intro z _
      simp only [Function.comp_apply]
      split
      · rename_i e; rw [hy, e]
      · rfl
    rw [this]; exact hn
  · induction l with
    | nil => simp [exchange]
    | cons z l ih =>
      simp only [List.map_cons, List.nodup_cons, List.mem_cons, not_or] at hn hy
      have ih := ih hn.2 hy.2
      by_cases hz : z.id = x.id
      · have e1 : exchange x.id y (z :: l) = y :: exchange x.id y l := by simp [exchange, hz]
        have e2 : exchange x.id y l = l := by
          unfold exchange
          rw [List.map_congr_left (g := id), List.map_id]
          intro w hw
          have : w.id ≠ x.id := fun e => hn.1 (hz.trans e.symm ▸ List.mem_map_of_mem hw)
          simp [this]
        rw [e1, e2, List.map_cons, List.nodup_cons]
        exact ⟨hy.2, hn.2⟩
      · have e1 : exchange x.id y (z :: l) = z :: exchange x.id y l := by simp [exchange, hz]
        rw [e1, List.map_cons, List.nodup_cons]
        refine ⟨?_, ih⟩
        intro hm
        rw [List.mem_map] at hm
        obtain ⟨w, hw, e⟩ := hm
        unfold exchange at hw
        rw [List.mem_map] at hw
        obtain ⟨v, hv, e'⟩ := hw
        split at e'
        · rw [← e'] at e; exact hy.1 e
        · rw [e'] at hv; exact hn.1 (e ▸ List.mem_map_of_mem hv)

theorem mem_exchange {l : List Itm} {x y z : Itm} (h : z ∈ exchange x.id y l) : z = y ∨ (z ∈ l ∧ z.id ≠ x.id) := by
  unfold exchange at h
  rw [List.mem_map] at h
  obtain ⟨v, hv, e⟩ := h
  split at e
  · exact .inl e.symm
  · exact .inr (by rw [← e]; exact ⟨hv, by assumption⟩)

/-! ## Changing an item -/

/-- An item is exchanged for one of the same key and type: `grow`, `shrink` and `replace`. -/
theorem Rel.exch {cfg : Cfg} {σ : S} {s : St} (h : Rel cfg σ s) {x y : Itm} (hx : x ∈ σ.items) (hk : y.key = x.key)
    (hty : y.ty = x.ty) (hel : y.ty = 0 → y.elems = 0) (hsz : y.size < w32) (hid : y.id = x.id ∨ y.id ∉ σ.items.map Itm.id)
    {f : Acct → Acct} (hf : ∀ l, f (acctOf (x :: l)) = acctOf (y :: l)) :
    ∃ p s1, s.items x.id = some ⟨x.key, x.ty, x.base, x.elems, p⟩ ∧ withAcct s p f = some s1 ∧ s1.currBytes = s.currBytes ∧
      s1.items = s.items ∧ ∀ cb, cb = wsum Itm.size (exchange x.id y σ.items) % w64 →
      Rel cfg { σ with items := exchange x.id y σ.items }
        { s1 with items := upd (upd s.items x.id none) y.id (some ⟨y.key, y.ty, y.base, y.elems, p⟩), currBytes := cb } := by
  obtain ⟨p, hp, hpt⟩ := h.itms.itm x hx
  have hue := fun q => under_exchange (held := σ.held) (d := cfg.delim) h.itms.ids hx (by rw [hk] : owner cfg.delim y.key = owner cfg.delim x.key) q
  have hxu : x ∈ under cfg.delim σ (owner cfg.delim x.key) := mem_under.mpr ⟨hx, rfl⟩
  obtain ⟨s1, b1, b2, b3, b4⟩ := book (σ' := { σ with items := exchange x.id y σ.items }) (f := f) h.shape h.acc hpt rfl
    (by
      rw [(hue _).1]
      have e1 : acctOf (under cfg.delim σ (owner cfg.delim x.key)) =
          acctOf (x :: (under cfg.delim σ (owner cfg.delim x.key)).filter fun z => decide (z.id ≠ x.id)) :=
        acctOf_congr fun g => by rw [wsum_split g (under_ids h.itms.ids _) hxu, wsum_cons]
      rw [e1, hf]
      exact acctOf_congr fun g => by rw [wsum_exchange g y (under_ids h.itms.ids _) hxu, wsum_cons])
    (fun q hq => (hue q).2 hq)
  refine ⟨p, s1, hp, b1, b4.curB, b4.items, ?_⟩
  intro cb hcb
  refine ⟨⟨b2.pts, b2.tab, b2.nd, b2.uniq, b2.total, b2.few, b2.held⟩, ⟨b3.null, b3.acct⟩, ⟨?_, ?_, ?_, ?_, ?_, hcb⟩, ?_⟩
  · exact exchange_ids h.itms.ids hid
  · intro z hz
    rcases mem_exchange hz with rfl | ⟨hz, -⟩
    · exact ⟨by rw [hty]; exact (h.itms.fit x hx).1, hel, hsz⟩
    · exact h.itms.fit z hz
  · simp only [exchange, List.length_map]; exact h.itms.few
  · intro z hz
    simp only
    rcases mem_exchange hz with rfl | ⟨hz, hne⟩
    · refine ⟨p, upd_same _ _ _, ?_⟩
      rw [hk]; exact b4.points _ _ hpt
    · obtain ⟨q, h1, h2⟩ := h.itms.itm z hz
      refine ⟨q, ?_, b4.points _ _ h2⟩
      rw [upd_ne, upd_ne _ _ hne]
      · exact h1
      · intro e
        rcases hid with hid | hid
        · exact hne (e.trans hid)
        · exact hid (e ▸ List.mem_map_of_mem hz)
  · simp only [exchange, List.length_map]
    rw [b4.curI]; exact h.itms.curI
  · intro i pt hi hl
    simp only at hi
    obtain ⟨pt', h1, a, rfl⟩ := b4.new i pt hi
    simp only
    intro e
    apply h.full i pt' h1 hl
    rw [(hue _).1] at e
    unfold exchange at e
    exact List.map_eq_nil_iff.mp e

end Verif.Prefix
