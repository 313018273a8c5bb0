/-
Lemmas about top keys: one counted operation on the pointers and the table does the same as
one on a plain list of entries.
-/
import Verif.Lemmas.TopKeysMem

namespace Verif.TopKeys

/-- The key at an address. -/
def keyAt (m : Mem) (a : Nat) : Option Key := (get m a).map (·.key)

theorem keyAt_same {m m' : Mem} (h : Same m m') (a : Nat) : keyAt m' a = keyAt m a := by
  have := h a
  unfold keyAt
  cases h1 : get m' a <;> cases h2 : get m a <;> simp [h1, h2, data] at this ⊢
  exact this.1

theorem live_same {m m' : Mem} (h : Same m m') (a : Nat) : get m' a = none ↔ get m a = none := by
  have := h a
  cases h1 : get m' a <;> cases h2 : get m a <;> simp [h1, h2] at this ⊢

/-- The contents of the table are exactly the addresses of the ring, by key. -/
structure Tab (m : Mem) (bk : List (List Nat)) (as : List Nat) : Prop where
  pos : 0 < bk.length
  nd : ∀ (i : Nat) (b : List Nat), bk[i]? = some b → b.Nodup
  mem : ∀ (i : Nat) (b : List Nat), bk[i]? = some b → ∀ a, a ∈ b ↔ a ∈ as ∧ (keyAt m a).map (hashIdx bk.length) = some i

theorem tab_same {m m' : Mem} {bk : List (List Nat)} {as : List Nat} (h : Same m m')
    (t : Tab m bk as) : Tab m' bk as :=
  ⟨t.pos, t.nd, fun i b hb a => by rw [keyAt_same h]; exact t.mem i b hb a⟩

/-- Pointers, keys and table fit together. -/
structure Rep (m : Mem) (bk : List (List Nat)) (as : List Nat) : Prop where
  seg : Seg m 0 0 as
  nd : (0 :: as).Nodup
  live : ∀ a ∈ as, get m a ≠ none
  inj : ∀ a ∈ as, ∀ b ∈ as, keyAt m a = keyAt m b → a = b
  tab : Tab m bk as

theorem hashIdx_lt {n : Nat} (h : 0 < n) (k : Key) : hashIdx n k < n := Nat.mod_lt _ h

theorem findIn_ok {m : Mem} {k : Key} {b : List Nat} (hl : ∀ a ∈ b, get m a ≠ none) :
    ∃ r, findIn m k b = some r ∧ (∀ a, r = some a → a ∈ b ∧ keyAt m a = some k) ∧
      (r = none → ∀ a ∈ b, keyAt m a ≠ some k) := by
  induction b with
  | nil => exact ⟨none, rfl, by simp, by simp⟩
  | cons a b ih =>
    obtain ⟨r, h1, h2, h3⟩ := ih (fun c hc => hl c (List.mem_cons_of_mem _ hc))
    cases hg : get m a with
    | none => exact absurd hg (hl a (by simp))
    | some n =>
      by_cases hk : n.key = k
      · refine ⟨some a, by simp [findIn, hg, hk], ?_, by simp⟩
        intro c hc
        injection hc with e
        subst e
        exact ⟨by simp, by simp [keyAt, hg, hk]⟩
      · refine ⟨r, by simp [findIn, hg, hk, h1], ?_, ?_⟩
        · intro c hc
          exact ⟨List.mem_cons_of_mem _ (h2 c hc).1, (h2 c hc).2⟩
        · intro hr c hc
          rcases List.mem_cons.mp hc with e | hc
          · subst e; simp [keyAt, hg, hk]
          · exact h3 hr c hc

theorem deleteIn_ok {m : Mem} {k : Key} {b : List Nat} {a : Nat} (hl : ∀ c ∈ b, get m c ≠ none)
    (ha : a ∈ b) (hk : keyAt m a = some k) (hu : ∀ c ∈ b, keyAt m c = some k → c = a) :
    deleteIn m k b = some (b.erase a) := by
  induction b with
  | nil => simp at ha
  | cons c b ih =>
    cases hg : get m c with
    | none => exact absurd hg (hl c (by simp))
    | some n =>
      by_cases hn : n.key = k
      · have : c = a := hu c (by simp) (by simp [keyAt, hg, hn])
        subst this
        simp [deleteIn, hg, hn]
      · have hca : c ≠ a := by
          rintro rfl
          simp [keyAt, hg, hn] at hk
        have hab : a ∈ b := by
          rcases List.mem_cons.mp ha with e | h
          · exact absurd e.symm hca
          · exact h
        have := ih (fun d hd => hl d (List.mem_cons_of_mem _ hd)) hab
          (fun d hd => hu d (List.mem_cons_of_mem _ hd))
        have hbe : (c == a) = false := by simpa using hca
        simp [deleteIn, hg, hn, this, List.erase_cons, hbe]

theorem find_ok {t : TK} {as : List Nat} (h : Rep t.mem t.buckets as) (k : Key) :
    ∃ r, find t k = some r ∧ (∀ a, r = some a → a ∈ as ∧ keyAt t.mem a = some k) ∧
      (r = none → ∀ a ∈ as, keyAt t.mem a ≠ some k) := by
  have hlt := hashIdx_lt h.tab.pos k
  have hb : t.buckets[hashIdx t.buckets.length k]? = some (t.buckets[hashIdx t.buckets.length k]) :=
    List.getElem?_eq_getElem hlt
  generalize t.buckets[hashIdx t.buckets.length k] = b at hb
  have hm := h.tab.mem _ _ hb
  obtain ⟨r, h1, h2, h3⟩ := findIn_ok (m := t.mem) (k := k) (b := b)
    (fun a ha => h.live a ((hm a).mp ha).1)
  refine ⟨r, by simp [find, hb, h1], ?_, ?_⟩
  · intro a ha
    exact ⟨((hm a).mp (h2 a ha).1).1, (h2 a ha).2⟩
  · intro hr a ha hk
    refine h3 hr a ?_ hk
    exact (hm a).mpr ⟨ha, by simp [hk]⟩

/-- Deletion from the table. -/
theorem hashDelete_ok {t : TK} {as bs : List Nat} {a : Nat} {k : Key}
    (h : Rep t.mem t.buckets (as ++ a :: bs)) (hk : keyAt t.mem a = some k) :
    ∃ bk, hashDelete t k = some { t with buckets := bk } ∧ bk.length = t.buckets.length ∧
      Tab t.mem bk (as ++ bs) := by
  have hlt := hashIdx_lt h.tab.pos k
  have hb : t.buckets[hashIdx t.buckets.length k]? = some (t.buckets[hashIdx t.buckets.length k]) :=
    List.getElem?_eq_getElem hlt
  generalize t.buckets[hashIdx t.buckets.length k] = b at hb
  have hm := h.tab.mem _ _ hb
  have hnb := h.tab.nd _ _ hb
  have hab : a ∈ b := (hm a).mpr ⟨by simp, by simp [hk]⟩
  have hdel := deleteIn_ok (m := t.mem) (k := k) (b := b) (a := a)
    (fun c hc => h.live c ((hm c).mp hc).1) hab hk
    (fun c hc hkc => h.inj c ((hm c).mp hc).1 a (by simp) (by rw [hkc, hk]))
  have hnd := h.nd
  have hiff : ∀ c, c ∈ as ++ bs ↔ c ≠ a ∧ c ∈ as ++ a :: bs := by
    intro c
    have hnd2 := (List.nodup_cons.mp hnd).2
    have h1 := List.nodup_append.mp hnd2
    have h2 := List.nodup_cons.mp h1.2.1
    simp only [List.mem_append, List.mem_cons]
    constructor
    · rintro (hc | hc)
      · exact ⟨fun e => h1.2.2 c hc a (by simp) e, Or.inl hc⟩
      · exact ⟨fun e => h2.1 (e ▸ hc), Or.inr (Or.inr hc)⟩
    · rintro ⟨hne, hc | hc | hc⟩
      · exact Or.inl hc
      · exact absurd hc hne
      · exact Or.inr hc
  refine ⟨t.buckets.set (hashIdx t.buckets.length k) (b.erase a), ?_, by simp, ?_⟩
  · simp [hashDelete, hb, hdel]
  · refine ⟨by simp [h.tab.pos], ?_, ?_⟩
    · intro i b' hb'
      rw [List.getElem?_set] at hb'
      split at hb'
      · injection hb' with e; subst e; exact hnb.erase a
      · exact h.tab.nd i b' hb'
    · intro i b' hb' c
      rw [List.getElem?_set] at hb'
      rw [hiff, List.length_set]
      split at hb'
      · rename_i hi
        subst hi
        injection hb' with e; subst e
        rw [List.Nodup.mem_erase_iff hnb, hm c]
        exact and_assoc.symm
      · rename_i hi
        rw [h.tab.mem i b' hb' c]
        constructor
        · rintro ⟨h1, h2⟩
          refine ⟨⟨?_, h1⟩, h2⟩
          rintro rfl
          rw [hk] at h2
          simp at h2
          exact hi h2
        · rintro ⟨⟨_, h1⟩, h2⟩
          exact ⟨h1, h2⟩

/-- Insertion into the table. -/
theorem hashUpdate_ok {t : TK} {as : List Nat} {a : Nat} {k : Key}
    (h : Rep t.mem t.buckets as) (hk : keyAt t.mem a = some k) (hna : a ∉ as)
    (hnk : ∀ c ∈ as, keyAt t.mem c ≠ some k) :
    ∃ bk, hashUpdate t k a = some { t with buckets := bk } ∧ bk.length = t.buckets.length ∧
      Tab t.mem bk (a :: as) := by
  have hlt := hashIdx_lt h.tab.pos k
  have hb : t.buckets[hashIdx t.buckets.length k]? = some (t.buckets[hashIdx t.buckets.length k]) :=
    List.getElem?_eq_getElem hlt
  generalize t.buckets[hashIdx t.buckets.length k] = b at hb
  have hm := h.tab.mem _ _ hb
  have hnb := h.tab.nd _ _ hb
  obtain ⟨r, h1, h2, h3⟩ := findIn_ok (m := t.mem) (k := k) (b := b)
    (fun a ha => h.live a ((hm a).mp ha).1)
  cases r with
  | some c =>
    have := h2 c rfl
    exact absurd this.2 (hnk c ((hm c).mp this.1).1)
  | none =>
    refine ⟨t.buckets.set (hashIdx t.buckets.length k) (a :: b), by simp [hashUpdate, hb, h1],
      by simp, by simp [h.tab.pos], ?_, ?_⟩
    · intro i b' hb'
      rw [List.getElem?_set] at hb'
      split at hb'
      · injection hb' with e; subst e
        exact List.nodup_cons.mpr ⟨fun hc => hna ((hm a).mp hc).1, hnb⟩
      · exact h.tab.nd i b' hb'
    · intro i b' hb' c
      rw [List.getElem?_set] at hb'
      rw [List.length_set]
      split at hb'
      · rename_i hi
        subst hi
        injection hb' with e; subst e
        rw [List.mem_cons, List.mem_cons, hm c]
        constructor
        · rintro (e | h)
          · subst e; exact ⟨Or.inl rfl, by simp [hk]⟩
          · exact ⟨Or.inr h.1, h.2⟩
        · rintro ⟨e | h, h'⟩
          · exact Or.inl e
          · exact Or.inr ⟨h, h'⟩
      · rename_i hi
        rw [h.tab.mem i b' hb' c, List.mem_cons]
        constructor
        · rintro ⟨h1, h2⟩; exact ⟨Or.inr h1, h2⟩
        · rintro ⟨e | h1, h2⟩
          · subst e
            rw [hk] at h2
            simp at h2
            exact absurd h2 hi
          · exact ⟨h1, h2⟩

/-- Contents of the nodes of the ring, in order. -/
def contents (m : Mem) (as : List Nat) : List (Option (Key × Nat × Nat × List Nat)) :=
  as.map (fun a => (get m a).map data)

theorem contents_same {m m' : Mem} (h : Same m m') (as : List Nat) :
    contents m' as = contents m as := by
  unfold contents
  apply List.map_congr_left
  intro a _
  exact h a

/-- A node that is not part of the ring is released, or written, without effect on it. -/
theorem rep_agree {m m' : Mem} {bk : List (List Nat)} {as : List Nat} (h : Rep m bk as)
    (hg : ∀ b ∈ 0 :: as, get m' b = get m b) : Rep m' bk as := by
  have hk : ∀ b ∈ as, keyAt m' b = keyAt m b := by
    intro b hb; unfold keyAt; rw [hg b (List.mem_cons_of_mem _ hb)]
  refine ⟨?_, h.nd, ?_, ?_, h.tab.pos, h.tab.nd, ?_⟩
  · apply seg_frame h.seg
    · intro a ha x hx
      exact ⟨x, by rw [hg a ha]; exact hx, rfl⟩
    · intro a ha x hx
      refine ⟨x, ?_, rfl⟩
      rw [hg a]
      · exact hx
      · simp at ha ⊢; tauto
  · intro a ha; rw [hg a (List.mem_cons_of_mem _ ha)]; exact h.live a ha
  · intro a ha b hb hab
    rw [hk a ha, hk b hb] at hab
    exact h.inj a ha b hb hab
  · intro i b hb a
    rw [h.tab.mem i b hb a]
    constructor
    · rintro ⟨h1, h2⟩; exact ⟨h1, by rw [hk a h1]; exact h2⟩
    · rintro ⟨h1, h2⟩; exact ⟨h1, by rw [← hk a h1]; exact h2⟩

/-- Deletion of an item. -/
theorem itemDelete_ok {t : TK} {as bs : List Nat} {a : Nat}
    (h : Rep t.mem t.buckets (as ++ a :: bs)) :
    ∃ t', itemDelete t a = some t' ∧ Rep t'.mem t'.buckets (as ++ bs) ∧
      t'.buckets.length = t.buckets.length ∧ t'.maxKeys = t.maxKeys ∧ t'.nkeys = t.nkeys - 1 ∧
      (∀ b, (get t'.mem b).map data = if b = a then none else (get t.mem b).map data) := by
  have hl := h.live a (by simp)
  cases hg : get t.mem a with
  | none => exact absurd hg hl
  | some n =>
    have hk : keyAt t.mem a = some n.key := by simp [keyAt, hg]
    obtain ⟨bk, e1, hlen, htab⟩ := hashDelete_ok h hk
    obtain ⟨m', e2, hseg, hsame⟩ := dlistRemove_ok h.seg h.nd
    have hnd2 := h.nd
    have hdj : (0 :: (as ++ bs)).Nodup ∧ a ∉ 0 :: (as ++ bs) := by
      simp only [List.nodup_cons, List.nodup_append, List.mem_append, List.mem_cons] at hnd2 ⊢
      obtain ⟨h0, h1, h2, h3⟩ := hnd2
      refine ⟨⟨fun hc => h0 (by tauto), h1, h2.2, fun x hx y hy => h3 x hx y (Or.inr hy)⟩, ?_⟩
      rintro (e | hc | hc)
      · exact h0 (Or.inr (Or.inl e.symm))
      · exact h3 a hc a (Or.inl rfl) rfl
      · exact h2.1 hc
    have hsub : ∀ c ∈ as ++ bs, c ∈ as ++ a :: bs := by
      intro c hc; simp at hc ⊢; tauto
    have hrep : Rep m' bk (as ++ bs) := by
      refine ⟨hseg, hdj.1, ?_, ?_, tab_same hsame htab⟩
      · intro c hc hn
        exact h.live c (hsub c hc) ((live_same hsame c).mp hn)
      · intro c hc d hd hcd
        rw [keyAt_same hsame, keyAt_same hsame] at hcd
        exact h.inj c (hsub c hc) d (hsub d hd) hcd
    refine ⟨{ t with mem := release m' a, buckets := bk, nkeys := t.nkeys - 1 }, ?_, ?_, hlen, rfl, rfl, ?_⟩
    · simp [itemDelete, hg, e1, e2]
    · apply rep_agree hrep
      intro b hb
      rw [get_release, if_neg]
      rintro rfl
      exact hdj.2 hb
    · intro b
      show (get (release m' a) b).map data = _
      rw [get_release]
      by_cases hb : b = a
      · simp [hb]
      · have : a ≠ b := fun e => hb e.symm
        simp only [if_neg this, if_neg hb]
        exact hsame b

/-- Which addresses are in use. -/
def Exact (m : Mem) (as : List Nat) : Prop := ∀ a, get m a ≠ none ↔ a = 0 ∨ a ∈ as

/-- The state between operations. -/
structure Inv (t : TK) (as : List Nat) : Prop where
  rep : Rep t.mem t.buckets as
  exact_ : Exact t.mem as
  cnt : t.nkeys = as.length
  room : as.length ≤ t.maxKeys
  pos : 0 < t.maxKeys

/-- Entry of the plain list. -/
abbrev Data := Key × Nat × Nat × List Nat

/-- Count one operation. -/
def bumpD (d : Data) (op : Nat) : Data :=
  (d.1, d.2.1, d.2.2.1, d.2.2.2.set op ((d.2.2.2)[op]?.getD 0 + 1))

/-- One operation on the plain list. -/
def touch (n : Nat) (L : List Data) (u : Use) : List Data :=
  match L.find? (fun d => d.1 == u.key) with
  | some d => bumpD d u.op :: L.filter (fun d => !(d.1 == u.key))
  | none => bumpD (u.key, u.now, u.now, List.replicate 78 0) u.op ::
      (if n < L.length + 1 then L.dropLast else L)

theorem bump_ok {m : Mem} {a op : Nat} {d : Data} (h : (get m a).map data = some d)
    (h1 : op < d.2.2.2.length) (h2 : ∀ v ∈ d.2.2.2, v < 2147483647) :
    ∃ m', bump m a op = some m' ∧
      (∀ b, b ≠ a → get m' b = get m b) ∧
      (get m' a).map data = some (bumpD d op) ∧
      (∀ x, get m a = some x → ∃ x', get m' a = some x' ∧ x'.next = x.next ∧ x'.prev = x.prev
        ∧ x'.key = x.key) := by
  cases hg : get m a with
  | none => simp [hg] at h
  | some n =>
    simp only [hg, Option.map_some, Option.some.injEq] at h
    subst h
    simp only [data] at h1 h2
    have hv : n.cnt[op]? = some n.cnt[op] := List.getElem?_eq_getElem h1
    have hlt : ¬ n.cnt[op] ≥ 2147483647 := by
      have := h2 _ (List.getElem_mem h1); omega
    refine ⟨put m a { n with cnt := n.cnt.set op (n.cnt[op] + 1) }, ?_, ?_, ?_, ?_⟩
    · simp only [bump, Option.bind_eq_bind, Option.bind_some, hg, hv, if_neg hlt]
    · intro b hb
      rw [get_put, if_neg (fun e => hb e.symm)]
    · rw [get_put, if_pos rfl]
      simp [data, bumpD, hv]
    · intro x hx
      injection hx with e; subst e
      refine ⟨{ n with cnt := n.cnt.set op (n.cnt[op] + 1) }, ?_, rfl, rfl, rfl⟩
      rw [get_put, if_pos rfl]

/-- A node of the ring changes its counters only. -/
theorem rep_bump {m m' : Mem} {bk : List (List Nat)} {as : List Nat} {a : Nat}
    (h : Rep m bk as) (hb : ∀ b, b ≠ a → get m' b = get m b)
    (ha : ∀ x, get m a = some x → ∃ x', get m' a = some x' ∧ x'.next = x.next ∧ x'.prev = x.prev
        ∧ x'.key = x.key) (hl : get m a ≠ none) : Rep m' bk as := by
  have hx : ∀ b x, get m b = some x → ∃ x', get m' b = some x' ∧ x'.next = x.next ∧
      x'.prev = x.prev ∧ x'.key = x.key := by
    intro b x hx
    by_cases e : b = a
    · subst e; exact ha x hx
    · exact ⟨x, by rw [hb b e]; exact hx, rfl, rfl, rfl⟩
  have hn : ∀ b, get m b = none → get m' b = none := by
    intro b hnb
    by_cases e : b = a
    · subst e; exact absurd hnb hl
    · rw [hb b e]; exact hnb
  have hk : ∀ b, keyAt m' b = keyAt m b := by
    intro b
    unfold keyAt
    cases hgb : get m b with
    | none => simp [hn b hgb]
    | some x =>
      obtain ⟨x', e, _, _, ek⟩ := hx b x hgb
      simp [e, ek]
  refine ⟨?_, h.nd, ?_, ?_, h.tab.pos, h.tab.nd, ?_⟩
  · apply seg_frame h.seg
    · intro b _ x hxb
      obtain ⟨x', e, e1, _⟩ := hx b x hxb
      exact ⟨x', e, e1⟩
    · intro b _ x hxb
      obtain ⟨x', e, _, e1, _⟩ := hx b x hxb
      exact ⟨x', e, e1⟩
  · intro b hbm
    cases hgb : get m b with
    | none => exact absurd hgb (h.live b hbm)
    | some x =>
      obtain ⟨x', e, _⟩ := hx b x hgb
      rw [e]; simp
  · intro b hbm c hcm hbc
    rw [hk, hk] at hbc
    exact h.inj b hbm c hcm hbc
  · intro i b hbi c
    rw [hk c]
    exact h.tab.mem i b hbi c

end Verif.TopKeys
