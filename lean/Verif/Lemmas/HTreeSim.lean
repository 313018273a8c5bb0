import Verif.Lemmas.HTreeMem
/-! # Sets and maps: relation to the specification -/
namespace Verif.HT
open Verif.HT.Spec

/-! ## Lists of pairs -/

theorem lookup_some {el : List KV} (hn : (el.map Prod.fst).Nodup) {p : KV} (hp : p ∈ el) : lookup el p.1 = some p := by
  induction el with
  | nil => cases hp
  | cons a el ih =>
    rw [List.map_cons, List.nodup_cons] at hn
    unfold lookup
    rw [List.find?_cons]
    rcases List.mem_cons.mp hp with rfl | hp
    · simp
    · have : (a.1 == p.1) = false := by
        rw [beq_eq_false_iff_ne]
        intro he; exact hn.1 (by rw [he]; exact List.mem_map_of_mem hp)
      rw [this]; exact ih hn.2 hp

theorem lookup_none {el : List KV} {key : Key} : lookup el key = none ↔ key ∉ el.map Prod.fst := by
  unfold lookup
  rw [List.find?_eq_none]
  simp only [List.mem_map, not_exists, not_and, beq_iff_eq]

theorem lookup_mem {el : List KV} {key : Key} {p : KV} (h : lookup el key = some p) : p ∈ el ∧ p.1 = key := by
  unfold lookup at h
  exact ⟨List.mem_of_find?_eq_some h, by simpa using List.find?_some h⟩

theorem without_sub (el : List KV) (ks : List Key) : (without el ks).Sublist el := List.filter_sublist

theorem without_nodup {el : List KV} (hn : (el.map Prod.fst).Nodup) (ks : List Key) : ((without el ks).map Prod.fst).Nodup :=
  hn.sublist ((without_sub el ks).map _)

theorem without_none {el : List KV} {ks : List Key} (h : ∀ p ∈ el, p.1 ∉ ks) : without el ks = el := by
  unfold without
  rw [List.filter_eq_self]
  intro p hp; simp [h p hp]

theorem without_cons (el : List KV) (k : Key) (ks : List Key) : without (without el [k]) ks = without el (k :: ks) := by
  unfold without
  rw [List.filter_filter]
  congr 1
  funext p
  by_cases h1 : p.1 = k <;> simp [h1]

theorem without_perm {el el' : List KV} (h : el.Perm el') (ks : List Key) : (without el ks).Perm (without el' ks) := h.filter _

theorem without_split {el outs rest : List KV} (hn : (el.map Prod.fst).Nodup) (hp : el.Perm (outs ++ rest)) :
    (without el (outs.map Prod.fst)).Perm rest := by
  refine (without_perm hp _).trans ?_
  have hn' : ((outs ++ rest).map Prod.fst).Nodup := (hp.map Prod.fst).nodup_iff.mp hn
  unfold without
  rw [List.filter_append]
  have h1 : outs.filter (fun p => decide (p.1 ∉ outs.map Prod.fst)) = [] := by
    rw [List.filter_eq_nil_iff]
    intro p hp; simp only [decide_eq_true_eq, Classical.not_not]; exact List.mem_map_of_mem hp
  have h2 : rest.filter (fun p => decide (p.1 ∉ outs.map Prod.fst)) = rest := by
    rw [List.filter_eq_self]
    intro p hp
    simp only [decide_eq_true_eq]
    intro hx
    rw [List.map_append, List.nodup_append] at hn'
    exact hn'.2.2 p.1 hx p.1 (List.mem_map_of_mem hp) rfl
  rw [h1, h2]; exact List.Perm.refl _

theorem split_one {el : List KV} (hn : (el.map Prod.fst).Nodup) {p : KV} (hp : p ∈ el) : el.Perm (p :: without el [p.1]) := by
  have h := List.perm_cons_erase hp
  have := without_split (outs := [p]) (rest := el.erase p) hn h
  exact h.trans (this.symm.cons p)

theorem picks_len (fs : List Key) (el : List KV) : (picks fs el).length ≤ fs.length := by
  induction fs generalizing el with
  | nil => simp [picks]
  | cons f fs ih =>
    unfold picks
    split
    · have := ih el; simp; omega
    · have := ih (without el [f]); simp; omega

theorem picks_without {fs : List Key} {f : Key} (hf : f ∉ fs) (el : List KV) : picks fs (without el [f]) = picks fs el := by
  induction fs generalizing el with
  | nil => rfl
  | cons g fs ih =>
    simp only [List.mem_cons, not_or] at hf
    have hl : lookup (without el [f]) g = lookup el g := by
      unfold lookup without
      rw [List.find?_filter]
      congr 1
      funext p
      by_cases hg : p.1 = g
      · have : p.1 ≠ f := fun h => hf.1 (h ▸ hg)
        simp [hg]; exact fun h => hf.1 h.symm
      · simp [hg]
    unfold picks
    rw [hl]
    cases lookup el g with
    | none => exact ih hf.2 el
    | some p =>
      simp only
      congr 1
      rw [← ih hf.2 (without el [g])]
      congr 1
      rw [without_cons, without_cons]
      unfold without
      congr 1
      funext p
      simp [or_comm]

/-! ## Elements of a collection -/

/-- Contents of the elements. -/
def vals (h : Heap) (L : List Nat) : List KV := L.filterMap (kv h)

theorem vals_map {h : Heap} {L : List Nat} (ha : ∀ i ∈ L, ∃ e, h i = some e) : L.map (kv h) = (vals h L).map some := by
  induction L with
  | nil => rfl
  | cons a L ih =>
    obtain ⟨e, he⟩ := ha a (by simp)
    have : kv h a = some (e.key, e.val) := by simp [kv, he]
    simp only [vals, List.filterMap_cons, this, List.map_cons]
    rw [ih (fun i hi => ha i (by simp [hi]))]; rfl

theorem vals_len {h : Heap} {L : List Nat} (ha : ∀ i ∈ L, ∃ e, h i = some e) : (vals h L).length = L.length := by
  have := congrArg List.length (vals_map ha); simpa using this.symm

theorem vals_congr {h h' : Heap} {L : List Nat} (hh : ∀ i ∈ L, kv h' i = kv h i) : vals h' L = vals h L := by
  induction L with
  | nil => rfl
  | cons a L ih =>
    simp only [vals, List.filterMap_cons, hh a (by simp)]
    have := ih (fun i hi => hh i (by simp [hi]))
    unfold vals at this
    rw [this]

theorem vals_append (h : Heap) (A B : List Nat) : vals h (A ++ B) = vals h A ++ vals h B := List.filterMap_append
theorem vals_perm {h : Heap} {A B : List Nat} (hp : A.Perm B) : (vals h A).Perm (vals h B) := hp.filterMap _
theorem mem_vals {h : Heap} {L : List Nat} {x : KV} : x ∈ vals h L ↔ ∃ i ∈ L, kv h i = some x := List.mem_filterMap

theorem vals_cons {h : Heap} {i : Nat} {x : KV} (hk : kv h i = some x) (L : List Nat) : vals h (i :: L) = x :: vals h L := by
  simp [vals, hk]

theorem nodup_of_vals {h : Heap} {L : List Nat} {el : List KV} (ha : ∀ i ∈ L, ∃ e, h i = some e) (hp : (vals h L).Perm el)
    (hn : (el.map Prod.fst).Nodup) : L.Nodup := by
  have h1 : ((vals h L).map Prod.fst).Nodup := ((hp.map Prod.fst).nodup_iff).mpr hn
  have h2 : (vals h L).Nodup := List.Pairwise.of_map Prod.fst (fun a b hab h => hab (by rw [h])) h1
  have h3 : ((vals h L).map some).Nodup := by
    rw [List.Nodup, List.pairwise_map]
    exact h2.imp (fun hab h => hab (by simpa using h))
  rw [← vals_map ha] at h3
  exact List.Pairwise.of_map (kv h) (fun a b hab h => hab (by rw [h])) h3

/-- Elements under a root. -/
def rootIds : Option T → List Nat
  | none => []
  | some t => ids t

/-- The model's collection represents `c`. -/
structure CR (k : Kind) (cfg : Cfg) (h : Heap) (info : Info) (L : List Nat) (c : C) : Prop where
  rids : L = rootIds info.root
  root : ∀ t, info.root = some t → isNode t = true ∧ WF k h t 0 0
  vals : (vals h L).Perm c.elems
  keys : (c.elems.map Prod.fst).Nodup
  ccnt : info.ccnt = c.elems.length
  mcnt : info.mcnt = (match c.maxcount with | some m => (m : Int) | none => -1)
  mpos : ∀ m, c.maxcount = some m → 1 ≤ m ∧ m ≤ cfg.maxSize
  ovfl : info.ovflact = ovflError
  readable : info.readable = c.readable
  sticky : info.sticky = c.sticky
  flags : info.flags = c.flags
  le : c.elems.length ≤ c.cap cfg.maxSize

/-- Model state `s` with references `held` represents `σ`. -/
def R (k : Kind) (cfg : Cfg) (σ : S) (s : St) (held : Nat → Nat) : Prop :=
  ∃ L, Mem cfg.hash σ.pend s.heap s.nextId held L ∧
    ((s.coll = none ∧ σ.coll = none ∧ L = []) ∨ ∃ info c, s.coll = some info ∧ σ.coll = some c ∧ CR k cfg s.heap info L c)

theorem CR.cap {k : Kind} {cfg : Cfg} {h : Heap} {info : Info} {L : List Nat} {c : C} (r : CR k cfg h info L c) :
    (if info.mcnt > 0 then info.mcnt else (cfg.maxSize : Int)) = c.cap cfg.maxSize := by
  have h1 := r.mcnt
  unfold C.cap
  cases hm : c.maxcount with
  | none => rw [hm] at h1; simp only at h1 ⊢; rw [h1]; simp
  | some m =>
    rw [hm] at h1; simp only at h1 ⊢
    have := (r.mpos m hm).1
    rw [h1, if_pos (by omega)]

theorem CR.next {k : Kind} {cfg : Cfg} {h h' : Heap} {info : Info} {L L' : List Nat} {c : C} (r : CR k cfg h info L c) {root' : Option T}
    {n : Nat} {es : List KV} (h1 : L' = rootIds root') (h2 : ∀ t, root' = some t → isNode t = true ∧ WF k h' t 0 0)
    (h3 : (HT.vals h' L').Perm es) (h4 : (es.map Prod.fst).Nodup) (h5 : n = es.length) (h6 : es.length ≤ c.cap cfg.maxSize) :
    CR k cfg h' { info with root := root', ccnt := n } L' { c with elems := es } :=
  ⟨h1, h2, h3, h4, h5, r.mcnt, r.mpos, r.ovfl, r.readable, r.sticky, r.flags, h6⟩

/-- Same collection in another heap. -/
theorem CR.heap {k : Kind} {cfg : Cfg} {h h' : Heap} {info : Info} {L : List Nat} {c : C} (r : CR k cfg h info L c)
    (h1 : ∀ j ∈ L, (h' j).map Elem.hval = (h j).map Elem.hval) (h2 : ∀ j ∈ L, kv h' j = kv h j) : CR k cfg h' info L c := by
  refine ⟨r.rids, ?_, ?_, r.keys, r.ccnt, r.mcnt, r.mpos, r.ovfl, r.readable, r.sticky, r.flags, r.le⟩
  · intro t ht
    obtain ⟨q1, q2⟩ := r.root t ht
    exact ⟨q1, q2.congr (fun x hx => h1 x (by rw [r.rids, ht]; exact hx))⟩
  · rw [vals_congr h2]; exact r.vals

theorem realMax_want (mx : Nat) (x : Int) : realMaxcount mx x = (match wantCap mx x with | some m => (m : Int) | none => -1) := by
  unfold realMaxcount wantCap
  split
  · rfl
  · split
    · rfl
    · split <;> simp <;> omega

theorem want_pos {mx : Nat} (hmx : 4000 ≤ mx) {x : Int} {m : Nat} (h : wantCap mx x = some m) : 1 ≤ m ∧ m ≤ mx := by
  unfold wantCap at h
  split at h
  · cases h
  · split at h <;> injection h with h <;> omega

theorem CR.fresh {k : Kind} {cfg : Cfg} (hmx : 4000 ≤ cfg.maxSize) (h : Heap) (a : Attr) :
    CR k cfg h (newInfo cfg a) [] (fresh cfg.maxSize a) := by
  refine ⟨rfl, ?_, by simp [HT.vals, Spec.fresh], by simp [Spec.fresh], rfl, ?_, ?_, rfl, rfl, rfl, rfl, by simp [Spec.fresh]⟩
  · intro t ht; cases ht
  · exact realMax_want _ _
  · intro m hm; exact want_pos hmx hm

theorem nodup_ids {k : Kind} {cfg : Cfg} {pend : Nat → Option KV} {h : Heap} {next : Nat} {held : Nat → Nat} {info : Info} {L : List Nat} {c : C}
    (m : Mem cfg.hash pend h next held L) (r : CR k cfg h info L c) : L.Nodup := nodup_of_vals m.alive r.vals r.keys

/-! ## Lookup -/

theorem find_lookup {k : Kind} {hash : Key → Nat} {h : Heap} {t : T} {el : List KV}
    (m : ∀ i ∈ ids t, ∀ e, h i = some e → e.hval = hash e.key) (hw : WF k h t 0 0) (hv : (vals h (ids t)).Perm el) (hn : (el.map Prod.fst).Nodup) (key : Key) :
    (find h (hash key) key t = some none ∧ lookup el key = none) ∨
    ∃ i e, find h (hash key) key t = some (some i) ∧ i ∈ ids t ∧ h i = some e ∧ e.key = key ∧ e.hval = hash key ∧ lookup el key = some (key, e.val) := by
  rcases find_spec (hv := hash key) (key := key) hw (Nat.mod_one _) with ⟨k1, k2⟩ | ⟨i, k1, k2, e, k3, k4, k5⟩
  · refine Or.inl ⟨k1, lookup_none.mpr ?_⟩
    intro hk
    obtain ⟨p, hp, rfl⟩ := List.mem_map.mp hk
    obtain ⟨i, hi, hx⟩ := mem_vals.mp (hv.mem_iff.mpr hp)
    unfold kv at hx
    cases he : h i with
    | none => rw [he] at hx; cases hx
    | some e =>
      rw [he] at hx; simp at hx
      exact k2 i hi ⟨e, he, by rw [m i hi e he, ← hx], by rw [← hx]⟩
  · refine Or.inr ⟨i, e, k1, k2, k3, k5, k4, ?_⟩
    have : (key, e.val) ∈ el := hv.mem_iff.mp (mem_vals.mpr ⟨i, k2, by simp [kv, k3, k5]⟩)
    exact lookup_some hn this

theorem del_lookup {k : Kind} {hash : Key → Nat} {h : Heap} {t : T} {el : List KV}
    (m : ∀ i ∈ ids t, ∀ e, h i = some e → e.hval = hash e.key) (hw : WF k h t 0 0) (hv : (vals h (ids t)).Perm el) (hn : (el.map Prod.fst).Nodup) (key : Key) :
    (delKey k h (hash key) key t = some none ∧ lookup el key = none) ∨
    ∃ i e t', delKey k h (hash key) key t = some (some (i, t')) ∧ h i = some e ∧ e.key = key ∧ lookup el key = some (key, e.val) ∧
      WF k h t' 0 0 ∧ isNode t' = isNode t ∧ (ids t).Perm (i :: ids t') := by
  rcases delKey_spec (hv := hash key) (key := key) hw (Nat.mod_one _) with ⟨k1, k2⟩ | ⟨i, t', k1, ⟨e, k3, k4, k5⟩, k6, k7, k8⟩
  · refine Or.inl ⟨k1, lookup_none.mpr ?_⟩
    intro hk
    obtain ⟨p, hp, rfl⟩ := List.mem_map.mp hk
    obtain ⟨i, hi, hx⟩ := mem_vals.mp (hv.mem_iff.mpr hp)
    unfold kv at hx
    cases he : h i with
    | none => rw [he] at hx; cases hx
    | some e =>
      rw [he] at hx; simp at hx
      exact k2 i hi ⟨e, he, by rw [m i hi e he, ← hx], by rw [← hx]⟩
  · refine Or.inr ⟨i, e, t', k1, k3, k5, ?_, k6, k7, k8⟩
    have : (key, e.val) ∈ el := hv.mem_iff.mp (mem_vals.mpr ⟨i, k8.mem_iff.mpr (by simp), by simp [kv, k3, k5]⟩)
    exact lookup_some hn this

theorem delKeys_spec {k : Kind} {cfg : Cfg} {h : Heap} (ks : List Key) {t : T} {el : List KV} (out : List Nat)
    (m : ∀ i ∈ ids t, ∀ e, h i = some e → e.hval = cfg.hash e.key) (hw : WF k h t 0 0) (hv : (vals h (ids t)).Perm el) (hn : (el.map Prod.fst).Nodup) :
    ∃ t' new, delKeys k cfg h ks t out = some (t', out ++ new) ∧ WF k h t' 0 0 ∧ isNode t' = isNode t ∧ (ids t).Perm (new ++ ids t') ∧
      vals h new = picks ks el ∧ (∀ i ∈ new, ∃ e, h i = some e) ∧ (vals h (ids t')).Perm (without el ks) := by
  induction ks generalizing t el out with
  | nil =>
    refine ⟨t, [], by simp [delKeys], hw, rfl, by simp, rfl, by simp, ?_⟩
    rw [without_none (by simp)]; exact hv
  | cons f fs ih =>
    unfold delKeys picks
    rcases del_lookup m hw hv hn f with ⟨k1, k2⟩ | ⟨i, e, t', k1, k2, k3, k4, k5, k6, k7⟩
    · rw [k1, k2]
      obtain ⟨t', new, q1, q2, q3, q4, q5, q6, q7⟩ := ih out m hw hv hn
      refine ⟨t', new, q1, q2, q3, q4, q5, q6, ?_⟩
      rw [← without_cons, without_none (el := el)]
      · exact q7
      · intro p hp; simp only [List.mem_singleton]; rintro rfl
        exact lookup_none.mp k2 (List.mem_map_of_mem hp)
    · rw [k1, k4]
      simp only
      have hkv : kv h i = some (f, e.val) := by simp [kv, k2, k3]
      have hp2 : el.Perm ((f, e.val) :: vals h (ids t')) := by
        refine hv.symm.trans ((vals_perm k7).trans ?_)
        rw [vals_cons hkv]
      have hv' : (vals h (ids t')).Perm (without el [f]) := (without_split (outs := [(f, e.val)]) hn hp2).symm
      obtain ⟨t2, new, q1, q2, q3, q4, q5, q6, q7⟩ := ih (out ++ [i]) (fun j hj => m j (k7.mem_iff.mpr (by simp [hj]))) k5 hv' (without_nodup hn _)
      refine ⟨t2, i :: new, by rw [q1]; simp, q2, q3.trans k6, ?_, ?_, ?_, ?_⟩
      · exact k7.trans (q4.cons i)
      · rw [vals_cons hkv, q5]
      · intro j hj
        rcases List.mem_cons.mp hj with rfl | hj
        · exact ⟨e, k2⟩
        · exact q6 j hj
      · rw [← without_cons]; exact q7

theorem findKeys_spec {cfg : Cfg} {h : Heap} (ks : List Key) {t : T} {el : List KV} (out : List Nat)
    (m : ∀ i ∈ ids t, ∀ e, h i = some e → e.hval = cfg.hash e.key) (hw : WF .map h t 0 0) (hv : (vals h (ids t)).Perm el) (hn : (el.map Prod.fst).Nodup)
    (hks : ks.Nodup) :
    ∃ new, findKeys cfg h ks t out = some (out ++ new) ∧ (∀ i ∈ new, i ∈ ids t) ∧ vals h new = picks ks el ∧
      (∀ i ∈ new, ∃ e, h i = some e ∧ e.key ∈ ks) ∧ new.Nodup := by
  induction ks generalizing out with
  | nil => exact ⟨[], by simp [findKeys], by simp, rfl, by simp, by simp⟩
  | cons f fs ih =>
    rw [List.nodup_cons] at hks
    unfold findKeys picks
    rcases find_lookup m hw hv hn f with ⟨k1, k2⟩ | ⟨i, e, k1, k2, k3, k4, k5, k6⟩
    · rw [k1, k2]
      obtain ⟨new, q1, q2, q3, q4, q5⟩ := ih out hks.2
      refine ⟨new, q1, q2, q3, ?_, q5⟩
      intro j hj; obtain ⟨e, w1, w2⟩ := q4 j hj; exact ⟨e, w1, by simp [w2]⟩
    · rw [k1, k6]
      simp only
      obtain ⟨new, q1, q2, q3, q4, q5⟩ := ih (out ++ [i]) hks.2
      refine ⟨i :: new, by rw [q1]; simp, ?_, ?_, ?_, ?_⟩
      · intro j hj
        rcases List.mem_cons.mp hj with rfl | hj
        · exact k2
        · exact q2 j hj
      · have hkv : kv h i = some (f, e.val) := by simp [kv, k3, k4]
        rw [vals_cons hkv, q3, picks_without hks.1]
      · intro j hj
        rcases List.mem_cons.mp hj with rfl | hj
        · exact ⟨e, k3, by simp [k4]⟩
        · obtain ⟨e, w1, w2⟩ := q4 j hj; exact ⟨e, w1, by simp [w2]⟩
      · rw [List.nodup_cons]
        refine ⟨?_, q5⟩
        intro hi
        obtain ⟨e', w1, w2⟩ := q4 i hi
        rw [k3] at w1; injection w1 with w1; subst w1
        rw [k4] at w2; exact hks.1 w2

/-! ## The root -/

theorem dropRoot_spec {k : Kind} {h : Heap} {t : T} (hn : isNode t = true) (hw : WF k h t 0 0) :
    rootIds (dropRoot k t) = ids t ∧ (dropRoot k t = none ↔ ids t = []) ∧ (∀ t', dropRoot k t = some t' → t' = t) := by
  cases t with
  | chain => cases hn
  | node d c nh kids =>
    have hkey : isEmptyRoot k c nh = true ↔ ids (.node d c nh kids) = [] := by
      obtain ⟨-, -, h3, h4, h5, -⟩ := hw
      cases k with
      | set =>
        simp only [isEmptyRoot, decide_eq_true_eq]
        rw [h3]; exact List.length_eq_zero_iff
      | map =>
        simp only [isEmptyRoot, Bool.and_eq_true, decide_eq_true_eq]
        have h4 := h4 rfl
        constructor
        · rintro ⟨e1, e2⟩
          rw [h4] at e1
          rw [h3] at e2
          have e2 := List.length_eq_zero_iff.mp e2
          rw [List.countP_eq_zero] at e1
          rw [List.flatMap_eq_nil_iff] at e2
          simp only [ids]
          rw [List.flatMap_eq_nil_iff]
          intro i hi
          have := e2 i hi
          unfold own at this
          simp only at this
          rw [if_neg (e1 i hi)] at this
          exact this
        · intro hnil
          simp only [ids] at hnil
          rw [List.flatMap_eq_nil_iff] at hnil
          refine ⟨?_, ?_⟩
          · rw [h4, List.countP_eq_zero]
            intro i hi hx
            have := h5 i hx
            rw [hnil i hi] at this; simp at this
          · rw [h3]
            apply List.length_eq_zero_iff.mpr
            rw [List.flatMap_eq_nil_iff]
            intro i hi
            unfold own
            simp only
            rw [hnil i hi]; simp
    unfold dropRoot
    simp only
    by_cases he : isEmptyRoot k c nh = true
    · rw [if_pos he]
      have := hkey.mp he
      exact ⟨by rw [this]; rfl, by simp [this], by intro t' h; cases h⟩
    · rw [if_neg he]
      exact ⟨rfl, by simp only [reduceCtorEq, false_iff]; exact fun h => he (hkey.mpr h), by intro t' h; injection h with h; exact h.symm⟩

/-- Removing the elements `out`. -/
theorem cut_spec {k : Kind} {cfg : Cfg} {pend : Nat → Option KV} {h : Heap} {next : Nat} {held : Nat → Nat} {info : Info} {L : List Nat} {c : C}
    (m : Mem cfg.hash pend h next held L) (r : CR k cfg h info L c) {t t' : T} {out : List Nat} {es : List KV}
    (ht : info.root = some t) (hw : WF k h t' 0 0) (hn : isNode t' = true) (hp : (ids t).Perm (out ++ ids t')) (hes : (HT.vals h (ids t')).Perm es) :
    ∃ h', unlinkAll h out = some h' ∧ Mem cfg.hash pend h' next held (ids t') ∧
      CR k cfg h' { info with root := dropRoot k t', ccnt := info.ccnt - out.length } (ids t') { c with elems := es } ∧
      (∀ j, (h' j).isSome → kv h' j = kv h j) ∧ (dropRoot k t' = none ↔ es = []) ∧ c.elems.length = out.length + es.length ∧
      (∀ j ∉ out, h' j = h j) := by
  have hL : L = ids t := by rw [r.rids, ht]; rfl
  have hnd := nodup_ids m r
  have hnd' : (out ++ ids t').Nodup := hp.nodup_iff.mp (hL ▸ hnd)
  have m' : Mem cfg.hash pend h next held (out ++ ids t') := m.perm (fun i => by rw [hL]; exact hp.mem_iff.symm)
  obtain ⟨h', k1, k2, k3, k4⟩ := m'.unlinkAll hnd'
  obtain ⟨d1, d2, d3⟩ := dropRoot_spec hn hw
  have hout : ∀ i ∈ ids t', i ∉ out := by
    intro i hi ho
    rw [List.nodup_append] at hnd'
    exact hnd'.2.2 i ho i hi rfl
  have hel : c.elems.Perm (HT.vals h out ++ es) := by
    refine r.vals.symm.trans ?_
    rw [hL]
    refine (vals_perm hp).trans ?_
    rw [vals_append]; exact hes.append_left _
  have hlen : c.elems.length = out.length + es.length := by
    rw [hel.length_eq, List.length_append, vals_len]
    intro i hi; exact m'.alive i (by simp [hi])
  have hke : (es.map Prod.fst).Nodup := by
    have := (hel.map Prod.fst).nodup_iff.mp r.keys
    rw [List.map_append, List.nodup_append] at this
    exact this.2.1
  refine ⟨h', k1, k2, ?_, k3, ?_, hlen, k4⟩
  · refine r.next d1.symm ?_ ?_ hke ?_ ?_
    · intro t2 ht2
      rw [d3 t2 ht2]
      refine ⟨hn, hw.congr ?_⟩
      intro x hx; rw [k4 x (hout x hx)]
    · rw [vals_congr (h := h) (fun i hi => by unfold kv; rw [k4 i (hout i hi)])]
      exact hes
    · rw [r.ccnt, hlen]; omega
    · have := r.le; omega
  · rw [d2]
    have e1 : (HT.vals h (ids t')).length = (ids t').length := vals_len (fun i hi => m'.alive i (by simp [hi]))
    have e2 := hes.length_eq
    constructor
    · intro hx
      exact List.length_eq_zero_iff.mp (by rw [← e2, e1, hx]; rfl)
    · intro hx; rw [hx] at e2
      exact List.length_eq_zero_iff.mp (by rw [← e1, e2]; rfl)

end Verif.HT
