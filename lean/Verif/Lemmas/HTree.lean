import Verif.Model.HTree
/-! # The hash trees of sets and maps -/
namespace Verif.HT

/-- Elements in traversal order. -/
def ids : T → List Nat
  | .chain _ es => es
  | .node _ _ _ kids => slots.flatMap fun i => ids (kids i)

def isNode : T → Bool
  | .chain .. => false
  | .node .. => true

theorem isNode_chain {n : Nat} {es : List Nat} : isNode (.chain n es) = false := rfl
theorem isNode_node {d c nh : Nat} {kids : Fin 16 → T} : isNode (.node d c nh kids) = true := rfl

/-- Elements of a slot that its parent counts in `cnt`. -/
def own (k : Kind) (t : T) : List Nat :=
  match k with
  | .set => ids t
  | .map => if isNode t then [] else ids t

/-- Well-formed slot `t` at depth `d`, for elements whose hash values are `pre` modulo `16 ^ d`: depths, counters,
chain lengths, no small child nodes. -/
def WF (k : Kind) (h : Heap) : T → Nat → Nat → Prop
  | .chain n es, d, pre => n = es.length ∧ n ≤ 63 + d ∧ ∀ i ∈ es, ∃ e, h i = some e ∧ e.hval % 16 ^ d = pre
  | .node d' c nh kids, d, pre => d' = d ∧ d ≤ 6 ∧
      c = (slots.flatMap fun i => own k (kids i)).length ∧ (k = .map → nh = slots.countP fun i => isNode (kids i)) ∧
      (∀ i, isNode (kids i) = true → 32 ≤ (ids (kids i)).length) ∧
      ∀ i : Fin 16, WF k h (kids i) (d + 1) (pre + i.val * 16 ^ d)

/-! ## Slots -/

theorem mem_slots (i : Fin 16) : i ∈ slots := List.mem_finRange i
theorem nodup_slots : slots.Nodup := List.nodup_finRange 16

theorem slots_perm (i : Fin 16) : slots.Perm (i :: slots.erase i) := List.perm_cons_erase (mem_slots i)

theorem flat_split {α : Type} (g : Fin 16 → List α) (i : Fin 16) :
    (slots.flatMap g).Perm (g i ++ (slots.erase i).flatMap g) := by
  have := (slots_perm i).flatMap_right g
  simpa using this

theorem ne_of_mem_erase {i j : Fin 16} (h : j ∈ slots.erase i) : j ≠ i := by
  rintro rfl
  exact (List.Nodup.mem_erase_iff nodup_slots).mp h |>.1 rfl

theorem flatMap_congr' {α : Type} {l : List (Fin 16)} {f g : Fin 16 → List α} (h : ∀ j ∈ l, f j = g j) : l.flatMap f = l.flatMap g := by
  induction l with
  | nil => rfl
  | cons a l ih =>
    rw [List.flatMap_cons, List.flatMap_cons, h a (by simp), ih (fun j hj => h j (by simp [hj]))]

theorem flat_put {α : Type} (g : T → List α) (kids : Fin 16 → T) (i : Fin 16) (t : T) :
    (slots.flatMap fun j => g (put kids i t j)).Perm (g t ++ (slots.erase i).flatMap fun j => g (kids j)) := by
  refine (flat_split (fun j => g (put kids i t j)) i).trans ?_
  have h1 : put kids i t i = t := by simp [put]
  rw [h1]
  rw [flatMap_congr' (g := fun j => g (kids j))]
  intro j hj
  simp [put, ne_of_mem_erase hj]

theorem countP_put (p : T → Bool) (kids : Fin 16 → T) (i : Fin 16) (t : T) :
    (slots.countP fun j => p (put kids i t j)) = (slots.erase i).countP (fun j => p (kids j)) + (if p t then 1 else 0) := by
  rw [(slots_perm i).countP_eq, List.countP_cons]
  have h1 : put kids i t i = t := by simp [put]
  rw [h1]
  congr 1
  apply List.countP_congr
  intro j hj
  simp [put, ne_of_mem_erase hj]

theorem countP_split (p : T → Bool) (kids : Fin 16 → T) (i : Fin 16) :
    (slots.countP fun j => p (kids j)) = (slots.erase i).countP (fun j => p (kids j)) + (if p (kids i) then 1 else 0) := by
  rw [(slots_perm i).countP_eq, List.countP_cons]

theorem put_self (kids : Fin 16 → T) (i : Fin 16) (t : T) : put kids i t i = t := by simp [put]
theorem put_ne {kids : Fin 16 → T} {i j : Fin 16} {t : T} (h : j ≠ i) : put kids i t j = kids j := by simp [put, h]

theorem mem_ids_node {d c nh : Nat} {kids : Fin 16 → T} {x : Nat} : x ∈ ids (.node d c nh kids) ↔ ∃ i, x ∈ ids (kids i) := by
  simp [ids, List.mem_flatMap, mem_slots]

/-! ## Hash digits -/

theorem hashIdx_eq {hv d : Nat} (hd : d ≤ 6) : ∃ i, hashIdx hv d = some i ∧ i.val = hv / 16 ^ d % 16 := by
  unfold hashIdx; rw [if_pos (by omega)]; exact ⟨_, rfl, rfl⟩

theorem digit {hv d pre : Nat} (h : hv % 16 ^ d = pre) : hv % 16 ^ (d + 1) = pre + hv / 16 ^ d % 16 * 16 ^ d := by
  rw [Nat.mod_pow_succ, h, Nat.mul_comm]

theorem digit_idx {hv d pre : Nat} {i : Fin 16} (h : hv % 16 ^ d = pre) (hi : i.val = hv / 16 ^ d % 16) :
    hv % 16 ^ (d + 1) = pre + i.val * 16 ^ d := by rw [digit h, hi]

theorem digit_inj {hv d pre : Nat} {i j : Fin 16} (hi : hv % 16 ^ (d + 1) = pre + i.val * 16 ^ d)
    (hj : hv % 16 ^ (d + 1) = pre + j.val * 16 ^ d) : i = j := by
  have : i.val * 16 ^ d = j.val * 16 ^ d := by omega
  have := Nat.eq_of_mul_eq_mul_right (Nat.pow_pos (by decide)) this
  exact Fin.ext this

/-! ## Well-formedness -/

theorem pre_lt {d pre : Nat} (i : Fin 16) (hp : pre < 16 ^ d) : pre + i.val * 16 ^ d < 16 ^ (d + 1) := by
  have h1 : i.val * 16 ^ d ≤ 15 * 16 ^ d := Nat.mul_le_mul_right _ (by omega)
  rw [Nat.pow_succ]; omega

theorem WF.hval {k : Kind} {h : Heap} {t : T} {d pre : Nat} (hp : pre < 16 ^ d) (hw : WF k h t d pre) :
    ∀ x ∈ ids t, ∃ e, h x = some e ∧ e.hval % 16 ^ d = pre := by
  induction t generalizing d pre with
  | chain n es => exact hw.2.2
  | node d' c nh kids ih =>
    intro x hx
    obtain ⟨i, hi⟩ := mem_ids_node.mp hx
    obtain ⟨-, -, -, -, -, hk⟩ := hw
    obtain ⟨e, h1, h2⟩ := ih i (pre_lt i hp) (hk i) x hi
    refine ⟨e, h1, ?_⟩
    have h3 : e.hval % 16 ^ (d + 1) % 16 ^ d = (pre + i.val * 16 ^ d) % 16 ^ d := by rw [h2]
    rw [Nat.mod_mod_of_dvd _ (Nat.pow_dvd_pow 16 (Nat.le_succ d)), Nat.add_mul_mod_self_right, Nat.mod_eq_of_lt hp] at h3
    exact h3

/-- The tree depends on the element memory only through the hash values. -/
theorem WF.congr {k : Kind} {h h' : Heap} {t : T} {d pre : Nat} (hw : WF k h t d pre)
    (hh : ∀ x ∈ ids t, (h' x).map Elem.hval = (h x).map Elem.hval) : WF k h' t d pre := by
  induction t generalizing d pre with
  | chain n es =>
    obtain ⟨h1, h2, h3⟩ := hw
    refine ⟨h1, h2, fun i hi => ?_⟩
    obtain ⟨e, e1, e2⟩ := h3 i hi
    have := hh i hi
    rw [e1] at this
    cases hx : h' i with
    | none => rw [hx] at this; simp at this
    | some e' => rw [hx] at this; simp at this; exact ⟨e', rfl, by rw [this]; exact e2⟩
  | node d' c nh kids ih =>
    obtain ⟨h1, h2, h3, h4, h5, h6⟩ := hw
    exact ⟨h1, h2, h3, h4, h5, fun i => ih i (h6 i) (fun x hx => hh x (mem_ids_node.mpr ⟨i, hx⟩))⟩

theorem own_length_set {k : Kind} (hk : k = .set) (t : T) : own k t = ids t := by subst hk; rfl

/-- Counter of a well-formed slot of a set. -/
theorem slotCnt_eq {h : Heap} {t : T} {d pre : Nat} (hw : WF .set h t d pre) : slotCnt t = (ids t).length := by
  cases t with
  | chain n es => exact hw.1
  | node d' c nh kids => exact hw.2.2.1

/-! ## Search and find -/

/-- Element `x` has hash value `hv` and key `key`. -/
def Matches (h : Heap) (hv : Nat) (key : List Nat) (x : Nat) : Prop := ∃ e, h x = some e ∧ e.hval = hv ∧ e.key = key

theorem search_spec {h : Heap} (hv : Nat) (key : List Nat) (es : List Nat) (hh : ∀ i ∈ es, ∃ e, h i = some e) :
    (search h hv key es = some none ∧ ∀ i ∈ es, ¬ Matches h hv key i) ∨
    ∃ i, search h hv key es = some (some i) ∧ i ∈ es ∧ Matches h hv key i := by
  induction es with
  | nil => left; exact ⟨rfl, by simp⟩
  | cons a es ih =>
    obtain ⟨e, he⟩ := hh a (by simp)
    unfold search
    rw [he]
    simp only
    by_cases hm : e.hval = hv ∧ e.key = key
    · rw [if_pos hm]
      exact Or.inr ⟨a, rfl, by simp, e, he, hm⟩
    · rw [if_neg hm]
      rcases ih (fun i hi => hh i (by simp [hi])) with ⟨h1, h2⟩ | ⟨i, h1, h2, h3⟩
      · left
        refine ⟨h1, ?_⟩
        intro i hi
        rcases List.mem_cons.mp hi with rfl | hi
        · rintro ⟨e', k1, k2⟩; rw [he] at k1; injection k1 with k1; subst k1; exact hm k2
        · exact h2 i hi
      · exact Or.inr ⟨i, h1, by simp [h2], h3⟩

theorem match_slot {k : Kind} {h : Heap} {kids : Fin 16 → T} {d pre hv : Nat} {key : List Nat} {i j : Fin 16} {x : Nat}
    (hp : hv % 16 ^ d = pre) (hi : i.val = hv / 16 ^ d % 16) (hw : WF k h (kids j) (d + 1) (pre + j.val * 16 ^ d))
    (hx : x ∈ ids (kids j)) (hm : Matches h hv key x) : j = i := by
  have hpl : pre < 16 ^ d := by rw [← hp]; exact Nat.mod_lt _ (Nat.pow_pos (by decide))
  obtain ⟨e, h1, h2⟩ := hw.hval (pre_lt j hpl) x hx
  obtain ⟨e', k1, k2, -⟩ := hm
  rw [h1] at k1; injection k1 with k1; subst k1
  rw [k2] at h2
  exact digit_inj h2 (digit_idx hp hi)

theorem find_spec {k : Kind} {h : Heap} {t : T} {d pre hv : Nat} {key : List Nat} (hw : WF k h t d pre) (hp : hv % 16 ^ d = pre) :
    (find h hv key t = some none ∧ ∀ i ∈ ids t, ¬ Matches h hv key i) ∨
    ∃ i, find h hv key t = some (some i) ∧ i ∈ ids t ∧ Matches h hv key i := by
  induction t generalizing d pre with
  | chain n es => exact search_spec hv key es (fun i hi => by obtain ⟨e, h1, -⟩ := hw.2.2 i hi; exact ⟨e, h1⟩)
  | node d' c nh kids ih =>
    obtain ⟨rfl, h2, h3, h4, h5, h6⟩ := hw
    obtain ⟨i, hi1, hi2⟩ := hashIdx_eq (hv := hv) h2
    simp only [find, hi1]
    rcases ih i (h6 i) (digit_idx hp hi2) with ⟨k1, k2⟩ | ⟨x, k1, k2, k3⟩
    · left
      refine ⟨k1, ?_⟩
      intro x hx hm
      obtain ⟨j, hj⟩ := mem_ids_node.mp hx
      have := match_slot hp hi2 (h6 j) hj hm
      subst this
      exact k2 x hj hm
    · exact Or.inr ⟨x, k1, mem_ids_node.mpr ⟨i, k2⟩, k3⟩

/-! ## Removal -/

theorem collect_spec (kids : Fin 16 → T) (l : List (Fin 16)) (f : Nat) (head : List Nat)
    (hc : ∀ i ∈ l, ∃ es, kids i = .chain es.length es) :
    ∃ es, collect kids l f head = some (f + (l.flatMap fun i => ids (kids i)).length, es) ∧
      es.Perm ((l.flatMap fun i => ids (kids i)) ++ head) := by
  induction l generalizing f head with
  | nil => exact ⟨head, rfl, by simp⟩
  | cons i l ih =>
    obtain ⟨es, he⟩ := hc i (by simp)
    have hrest := fun j hj => hc j (List.mem_cons_of_mem _ hj)
    unfold collect
    rw [he]
    simp only [List.flatMap_cons, he, ids]
    by_cases h0 : 0 < es.length
    · rw [if_pos h0, if_neg (by simp)]
      obtain ⟨es', k1, k2⟩ := ih (f + es.length) (es.reverse ++ head) hrest
      refine ⟨es', by rw [k1]; simp [Nat.add_assoc], k2.trans ?_⟩
      rw [List.append_assoc]
      refine List.Perm.trans (l₂ := ((l.flatMap fun i => ids (kids i)) ++ (es ++ head))) ?_ ?_
      · exact (List.Perm.append_left _ ((List.reverse_perm es).append_right _))
      · rw [← List.append_assoc, ← List.append_assoc]
        exact List.perm_append_comm.append_right _
    · rw [if_neg h0]
      have : es = [] := by cases es with | nil => rfl | cons a b => simp at h0
      subst this
      obtain ⟨es', k1, k2⟩ := ih f head hrest
      exact ⟨es', by simpa using k1, by simpa using k2⟩

theorem isLeaf_iff (kids : Fin 16 → T) : isLeaf kids = true ↔ ∀ i, isNode (kids i) = false := by
  unfold isLeaf
  simp only [List.all_eq_true]
  constructor
  · intro h i
    have := h i (mem_slots i)
    cases hx : kids i with
    | chain n es => rfl
    | node => rw [hx] at this; simp at this
  · intro h i _
    have := h i
    cases hx : kids i with
    | chain n es => rfl
    | node => rw [hx] at this; simp [isNode] at this

theorem own_eq_ids_of_leaf {k : Kind} {t : T} (h : isNode t = false) : own k t = ids t := by
  cases k <;> simp [own, h]

theorem own_map_node {t : T} (h : isNode t = true) : own .map t = [] := by simp [own, h]

theorem length_le_flat (f : Fin 16 → List Nat) (i : Fin 16) : (f i).length ≤ (slots.flatMap f).length := by
  have := (flat_split f i).length_eq
  simp at this ⊢; omega

/-- The test by which the code dissolves a child node, on well-formed nodes. -/
theorem small_iff {k : Kind} {h : Heap} {d d' c nh pre : Nat} {kids : Fin 16 → T} (hw : WF k h (.node d' c nh kids) d pre) :
    isSmall k c nh kids = true ↔
      ((∀ i, isNode (kids i) = false) ∧ (ids (.node d' c nh kids)).length < 32) := by
  obtain ⟨-, -, hc, hn, hb, -⟩ := hw
  have leafc : (∀ i, isNode (kids i) = false) → c = (ids (.node d' c nh kids)).length := by
    intro hl; rw [hc]; simp only [ids]
    rw [flatMap_congr' (fun j _ => own_eq_ids_of_leaf (hl j))]
  cases k with
  | set =>
    simp only [isSmall, Bool.and_eq_true, decide_eq_true_eq, isLeaf_iff]
    have : c = (ids (.node d' c nh kids)).length := hc
    constructor
    · rintro ⟨a, b⟩; exact ⟨b, by omega⟩
    · rintro ⟨a, b⟩; exact ⟨by omega, a⟩
  | map =>
    simp only [isSmall, Bool.and_eq_true, decide_eq_true_eq]
    have hn := hn rfl
    constructor
    · rintro ⟨a, b⟩
      have hl : ∀ i, isNode (kids i) = false := by
        intro i
        rw [hn, List.countP_eq_zero] at a
        have := a i (mem_slots i)
        simpa using this
      exact ⟨hl, by rw [← leafc hl]; exact b⟩
    · rintro ⟨a, b⟩
      refine ⟨?_, by rw [leafc a]; exact b⟩
      rw [hn, List.countP_eq_zero]
      intro i _; simp [a i]

/-- `put` of a slot with fewer elements keeps the node well-formed. -/
theorem put_WF {k : Kind} {h : Heap} {d c nh pre c' nh' : Nat} {kids : Fin 16 → T} {i : Fin 16} {t : T}
    (hw : WF k h (.node d c nh kids) d pre) (ht : WF k h t (d + 1) (pre + i.val * 16 ^ d))
    (hb : isNode t = true → 32 ≤ (ids t).length)
    (hc : c' + (own k (kids i)).length = c + (own k t).length)
    (hn : k = .map → nh' + (if isNode (kids i) then 1 else 0) = nh + (if isNode t then 1 else 0)) :
    WF k h (.node d c' nh' (put kids i t)) d pre := by
  obtain ⟨-, h2, h3, h4, h5, h6⟩ := hw
  refine ⟨rfl, h2, ?_, ?_, ?_, ?_⟩
  · have e1 := (flat_split (fun j => own k (kids j)) i).length_eq
    have e2 := (flat_put (own k) kids i t).length_eq
    rw [List.length_append] at e1 e2
    rw [e2]; omega
  · intro hk
    have := hn hk
    have := h4 hk
    have e1 := countP_split isNode kids i
    have e2 := countP_put isNode kids i t
    rw [e2]; omega
  · intro j hj
    by_cases hji : j = i
    · subst hji; rw [put_self] at hj ⊢; exact hb hj
    · rw [put_ne hji] at hj ⊢; exact h5 j hj
  · intro j
    by_cases hji : j = i
    · subst hji; rw [put_self]; exact ht
    · rw [put_ne hji]; exact h6 j

theorem put_ids {d c nh c' nh' : Nat} {kids : Fin 16 → T} {i : Fin 16} {t : T} {out : List Nat}
    (hp : (ids (kids i)).Perm (out ++ ids t)) :
    (ids (.node d c nh kids)).Perm (out ++ ids (.node d c' nh' (put kids i t))) := by
  refine (flat_split (fun j => ids (kids j)) i).trans ?_
  refine (hp.append_right _).trans ?_
  rw [List.append_assoc]
  exact (flat_put ids kids i t).symm.append_left out

theorem settle_spec {k : Kind} {h : Heap} {d c nh pre : Nat} {kids : Fin 16 → T} {i : Fin 16} {t : T} {out : List Nat}
    (hpre : pre < 16 ^ d) (hw : WF k h (.node d c nh kids) d pre) (ht : WF k h t (d + 1) (pre + i.val * 16 ^ d))
    (hs : isNode t = isNode (kids i)) (hp : (ids (kids i)).Perm (out ++ ids t)) :
    ∃ c' nh' kids', settle k d c nh kids i t out.length = some (.node d c' nh' kids') ∧
      WF k h (.node d c' nh' kids') d pre ∧
      (ids (.node d c nh kids)).Perm (out ++ ids (.node d c' nh' kids')) ∧ ∀ j, j ≠ i → kids' j = kids j := by
  have hlen := hp.length_eq
  rw [List.length_append] at hlen
  have hcge : (own k (kids i)).length ≤ c := by
    rw [hw.2.2.1]; exact length_le_flat (fun j => own k (kids j)) i
  cases t with
  | chain n es =>
    simp only [settle]
    refine ⟨_, _, _, rfl, put_WF hw ht (by simp [isNode]) ?_ ?_, put_ids hp, fun j hj => put_ne hj⟩
    · have e1 : own k (kids i) = ids (kids i) := own_eq_ids_of_leaf (by rw [← hs]; rfl)
      have e2 : own k (.chain n es) = ids (.chain n es) := own_eq_ids_of_leaf rfl
      rw [e1] at hcge
      rw [e1, e2]; omega
    · intro _; rw [← hs]
  | node d' c1 nh1 kids1 =>
    simp only [settle]
    have hsm := small_iff ht
    by_cases hcond : isSmall k c1 nh1 kids1 = true
    · rw [if_pos hcond]
      obtain ⟨hleaf, hlt⟩ := hsm.mp hcond
      have hchain : ∀ j ∈ slots, ∃ es, kids1 j = .chain es.length es := by
        intro j _
        have h1 := hleaf j
        have h2 := ht.2.2.2.2.2 j
        cases hx : kids1 j with
        | node => rw [hx] at h1; simp [isNode] at h1
        | chain n es => rw [hx] at h2; rw [h2.1]; exact ⟨es, rfl⟩
      obtain ⟨es, k1, k2⟩ := collect_spec kids1 slots 0 [] hchain
      rw [k1]
      simp only [Nat.zero_add]
      rw [List.append_nil] at k2
      have hc1 : c1 = (ids (.node d' c1 nh1 kids1)).length := by
        conv => lhs; rw [ht.2.2.1]
        simp only [ids]
        rw [flatMap_congr' (fun j _ => own_eq_ids_of_leaf (hleaf j))]
      have hfc : ¬ ((slots.flatMap fun i => ids (kids1 i)).length ≠ c1) := by
        simp only [ids] at hc1; omega
      rw [if_neg hfc]
      have hel : es.length = (slots.flatMap fun i => ids (kids1 i)).length := k2.length_eq
      have hd1 := ht.1
      subst hd1
      have hwc : WF k h (.chain (slots.flatMap fun i => ids (kids1 i)).length es) (d + 1) (pre + i.val * 16 ^ d) := by
        refine ⟨hel.symm, ?_, ?_⟩
        · simp only [ids] at hlt; omega
        · intro x hx
          have hx' : x ∈ ids (.node (d + 1) c1 nh1 kids1) := k2.mem_iff.mp hx
          obtain ⟨j, hj⟩ := mem_ids_node.mp hx'
          obtain ⟨es', he'⟩ := hchain j (mem_slots j)
          have h2 := ht.2.2.2.2.2 j
          rw [he'] at h2 hj
          obtain ⟨e, q1, q2⟩ := h2.2.2 x hj
          refine ⟨e, q1, ?_⟩
          have h3 : e.hval % 16 ^ (d + 1 + 1) % 16 ^ (d + 1) = (pre + i.val * 16 ^ d + j.val * 16 ^ (d + 1)) % 16 ^ (d + 1) := by rw [q2]
          rw [Nat.mod_mod_of_dvd _ (Nat.pow_dvd_pow 16 (Nat.le_succ _)), Nat.add_mul_mod_self_right] at h3
          have hlt' := pre_lt i hpre
          rw [h3, Nat.mod_eq_of_lt hlt']
      have hpp : (ids (kids i)).Perm (out ++ ids (.chain (slots.flatMap fun i => ids (kids1 i)).length es)) :=
        hp.trans (k2.symm.append_left out)
      have hnode : isNode (kids i) = true := by rw [← hs]; rfl
      cases k with
      | set =>
        refine ⟨_, _, _, rfl, put_WF hw hwc (by simp [isNode]) ?_ (by simp), put_ids hpp, fun j hj => put_ne hj⟩
        simp only [own] at hcge ⊢
        simp only [ids] at hlen hcge ⊢
        omega
      | map =>
        refine ⟨_, _, _, rfl, put_WF hw hwc (by simp [isNode]) ?_ ?_, put_ids hpp, fun j hj => put_ne hj⟩
        · rw [own_map_node hnode, own_eq_ids_of_leaf isNode_chain]
          simp [ids, hel]
        · intro _
          have h1 := hw.2.2.2.1 rfl
          have e1 := countP_split isNode kids i
          rw [hnode, isNode_chain]
          rw [hnode] at e1
          simp only [if_true] at e1 ⊢
          simp
          omega
    · rw [if_neg hcond]
      have hbig : 32 ≤ (ids (.node d' c1 nh1 kids1)).length := by
        rcases Nat.lt_or_ge (ids (.node d' c1 nh1 kids1)).length 32 with hlt | hge
        · exfalso
          apply hcond
          rw [hsm]
          refine ⟨?_, hlt⟩
          intro j
          cases hj : isNode (kids1 j) with
          | false => rfl
          | true =>
            have h1 := ht.2.2.2.2.1 j hj
            have h2 := length_le_flat (fun j => ids (kids1 j)) j
            simp only [ids] at hlt
            omega
        · exact hge
      have hnode : isNode (kids i) = true := by rw [← hs]; rfl
      refine ⟨_, _, _, rfl, put_WF hw ht (fun _ => hbig) ?_ (fun _ => by rw [hs]), put_ids hp, fun j hj => put_ne hj⟩
      cases k with
      | set => simp only [own] at hcge ⊢; simp; omega
      | map => rw [own_map_node hnode, own_map_node isNode_node]; simp

end Verif.HT
