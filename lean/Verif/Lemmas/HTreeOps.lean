import Verif.Lemmas.HTree
/-! # Operations on the hash trees -/
namespace Verif.HT

theorem pre_of {hv d pre : Nat} (h : hv % 16 ^ d = pre) : pre < 16 ^ d := by
  rw [← h]; exact Nat.mod_lt _ (Nat.pow_pos (by decide))

/-- Removal by key. -/
theorem delKey_spec {k : Kind} {h : Heap} {t : T} {d pre hv : Nat} {key : List Nat} (hw : WF k h t d pre) (hp : hv % 16 ^ d = pre) :
    (delKey k h hv key t = some none ∧ ∀ i ∈ ids t, ¬ Matches h hv key i) ∨
    ∃ i t', delKey k h hv key t = some (some (i, t')) ∧ Matches h hv key i ∧ WF k h t' d pre ∧ isNode t' = isNode t ∧
      (ids t).Perm (i :: ids t') := by
  induction t generalizing d pre with
  | chain n es =>
    obtain ⟨h1, h2, h3⟩ := hw
    simp only [delKey]
    by_cases h0 : 0 < n
    · rw [if_pos h0]
      rcases search_spec (h := h) hv key es (fun i hi => by obtain ⟨e, q, -⟩ := h3 i hi; exact ⟨e, q⟩) with ⟨k1, k2⟩ | ⟨i, k1, k2, k3⟩
      · rw [k1]; exact Or.inl ⟨rfl, k2⟩
      · rw [k1]
        refine Or.inr ⟨i, _, rfl, k3, ⟨?_, ?_, ?_⟩, rfl, List.perm_cons_erase k2⟩
        · rw [List.length_erase_of_mem k2]; omega
        · omega
        · intro x hx; exact h3 x (List.mem_of_mem_erase hx)
    · rw [if_neg h0]
      have : es = [] := by cases es with | nil => rfl | cons a b => simp at h1; omega
      subst this
      exact Or.inl ⟨rfl, by simp [ids]⟩
  | node d' c nh kids ih =>
    have hw' := hw
    obtain ⟨rfl, h2, h3, h4, h5, h6⟩ := hw
    obtain ⟨i, hi1, hi2⟩ := hashIdx_eq (hv := hv) h2
    simp only [delKey, hi1]
    rcases ih i (h6 i) (digit_idx hp hi2) with ⟨k1, k2⟩ | ⟨x, t', k1, k2, k3, k4, k5⟩
    · rw [k1]
      left
      refine ⟨rfl, ?_⟩
      intro x hx hm
      obtain ⟨j, hj⟩ := mem_ids_node.mp hx
      have := match_slot hp hi2 (h6 j) hj hm
      subst this
      exact k2 x hj hm
    · rw [k1]
      obtain ⟨c', nh', kids', s1, s2, s3, -⟩ := settle_spec (out := [x]) (pre_of hp) hw' k3 k4 k5
      simp only [List.length_singleton] at s1
      exact Or.inr ⟨x, .node d' c' nh' kids', by simp [s1], k2, s2, rfl, s3⟩

/-! ## Insertion -/

theorem distribute_spec {h : Heap} {d : Nat} (hd : d ≤ 6) (es : List Nat) (hh : ∀ i ∈ es, ∃ e, h i = some e)
    (f : Fin 16 → Nat × List Nat) (n : Nat) :
    ∃ f', distribute h d es f n = some (f', n + es.length) ∧
      (slots.flatMap fun j => (f' j).2).Perm (es ++ slots.flatMap fun j => (f j).2) ∧
      (∀ j, (f j).1 = (f j).2.length → (f' j).1 = (f' j).2.length) ∧
      (∀ j, (f' j).2.length ≤ es.length + (f j).2.length) ∧
      (∀ j, ∀ x ∈ (f' j).2, x ∈ (f j).2 ∨ (x ∈ es ∧ ∃ e, h x = some e ∧ j.val = e.hval / 16 ^ d % 16)) := by
  induction es generalizing f n with
  | nil => exact ⟨f, rfl, by simp, fun j hj => hj, by simp, fun j x hx => Or.inl hx⟩
  | cons a es ih =>
    obtain ⟨e, he⟩ := hh a (by simp)
    obtain ⟨x, hx1, hx2⟩ := hashIdx_eq (hv := e.hval) hd
    obtain ⟨f', k1, k2, k3, k4, k5⟩ := ih (fun i hi => hh i (by simp [hi]))
      (fun j => if j = x then ((f x).1 + 1, a :: (f x).2) else f j) (n + 1)
    refine ⟨f', ?_, ?_, ?_, ?_, ?_⟩
    · unfold distribute
      rw [he]; simp only [hx1]; rw [k1]; simp; omega
    · refine k2.trans ?_
      refine (List.Perm.append_left es (flat_split _ x)).trans ?_
      simp only [if_pos]
      have e1 : ((slots.erase x).flatMap fun j => (if j = x then ((f x).1 + 1, a :: (f x).2) else f j).2) =
          (slots.erase x).flatMap fun j => (f j).2 := by
        apply flatMap_congr'
        intro j hj
        rw [if_neg (ne_of_mem_erase hj)]
      rw [e1]
      refine List.Perm.trans (l₂ := es ++ (a :: (slots.flatMap fun j => (f j).2))) ?_ ?_
      · refine List.Perm.append_left es ?_
        rw [List.cons_append]
        exact (flat_split (fun j => (f j).2) x).symm.cons a
      · rw [List.cons_append]; exact List.perm_middle
    · intro j hj
      apply k3
      by_cases hjx : j = x
      · subst hjx; simp [hj]
      · simp [hjx, hj]
    · intro j
      have := k4 j
      by_cases hjx : j = x
      · subst hjx; simp at this ⊢; omega
      · simp [hjx] at this ⊢; omega
    · intro j y hy
      rcases k5 j y hy with h1 | ⟨h1, h2⟩
      · by_cases hjx : j = x
        · subst hjx
          simp at h1
          rcases h1 with rfl | h1
          · exact Or.inr ⟨by simp, e, he, hx2⟩
          · exact Or.inl h1
        · simp [hjx] at h1; exact Or.inl h1
      · exact Or.inr ⟨by simp [h1], h2⟩

/-- How many elements agree with `hv` in the 28 lower bits. -/
def crowd (h : Heap) (hv : Nat) (l : List Nat) : Nat :=
  l.countP fun x => match h x with | some e => e.hval % 16 ^ 7 == hv % 16 ^ 7 | none => false

theorem crowd_slot (h : Heap) (hv : Nat) (f : Fin 16 → List Nat) (i : Fin 16) : crowd h hv (f i) ≤ crowd h hv (slots.flatMap f) := by
  unfold crowd
  rw [(flat_split f i).countP_eq, List.countP_append]; omega

theorem crowd_all {h : Heap} {hv : Nat} {l : List Nat} (hl : ∀ x ∈ l, ∃ e, h x = some e ∧ e.hval % 16 ^ 7 = hv % 16 ^ 7) :
    crowd h hv l = l.length := by
  unfold crowd
  rw [List.countP_eq_length]
  intro x hx
  obtain ⟨e, h1, h2⟩ := hl x hx
  simp [h1, h2]

theorem place_spec {k : Kind} {h h' : Heap} {mem : Bool} {id hv d pre : Nat} {t : T} (hn : isNode t = true)
    (hw : WF k h t d pre) (hp : hv % 16 ^ d = pre) (hcr : crowd h hv (ids t) < 64)
    (hh : ∀ x ∈ ids t, (h' x).map Elem.hval = (h x).map Elem.hval) (hid : (h' id).map Elem.hval = some hv) :
    (mem = false ∧ place k h mem id hv t = some none) ∨
    ∃ t', place k h mem id hv t = some (some t') ∧ WF k h' t' d pre ∧ isNode t' = true ∧ (ids t').Perm (id :: ids t) := by
  induction t generalizing d pre with
  | chain => cases hn
  | node d1 c1 nh1 kids1 ih =>
    have hw' := hw.congr hh
    obtain ⟨rfl, h2, h3, h4, h5, h6⟩ := hw
    obtain ⟨i, hi1, hi2⟩ := hashIdx_eq (hv := hv) h2
    obtain ⟨e', he', hev⟩ : ∃ e, h' id = some e ∧ e.hval = hv := by
      cases hx : h' id with
      | none => rw [hx] at hid; simp at hid
      | some e => rw [hx] at hid; simp at hid; exact ⟨e, rfl, hid⟩
    have hdig := digit_idx hp hi2
    simp only [place, hi1]
    cases hki : kids1 i with
    | node d2 c2 nh2 kids2 =>
      simp only
      have hwi := h6 i
      have hsub : ∀ x ∈ ids (kids1 i), x ∈ ids (.node d1 c1 nh1 kids1) := fun x hx => mem_ids_node.mpr ⟨i, hx⟩
      have hcr' : crowd h hv (ids (kids1 i)) < 64 :=
        Nat.lt_of_le_of_lt (crowd_slot h hv (fun j => ids (kids1 j)) i) (by simpa [ids] using hcr)
      have := ih i (by rw [hki]; rfl) hwi hdig hcr' (fun x hx => hh x (hsub x hx))
      rw [hki] at this
      rcases this with ⟨k1, k2⟩ | ⟨t', k1, k2, k3, k4⟩
      · rw [k2]; exact Or.inl ⟨k1, rfl⟩
      · rw [k1]
        right
        have hlen := k4.length_eq
        rw [List.length_cons] at hlen
        refine ⟨_, rfl, ?_, rfl, ?_⟩
        · refine put_WF hw' k2 (fun _ => ?_) ?_ ?_
          · have := h5 i (by rw [hki]; rfl)
            rw [hki] at this; omega
          · cases k with
            | set => simp only [own]; rw [hki]; simp; omega
            | map => rw [own_map_node (by rw [hki]; rfl), own_map_node k3]; simp
          · intro _; rw [hki, k3]; rfl
        · refine ((flat_put ids kids1 i t')).trans ?_
          refine (k4.append_right _).trans ?_
          rw [List.cons_append, ← hki]
          exact (flat_split (fun j => ids (kids1 j)) i).symm.cons id
    | chain n es =>
      simp only
      have hwi := h6 i
      rw [hki] at hwi
      obtain ⟨g1, g2, g3⟩ := hwi
      have hki' : ids (kids1 i) = es := by rw [hki]; rfl
      have hown : own k (kids1 i) = es := by rw [own_eq_ids_of_leaf (by rw [hki]; rfl), hki']
      have hsub : ∀ x ∈ es, x ∈ ids (.node d1 c1 nh1 kids1) := fun x hx => mem_ids_node.mpr ⟨i, by rw [hki']; exact hx⟩
      have hcge : es.length ≤ c1 := by
        have := length_le_flat (fun j => own k (kids1 j)) i
        rw [hown] at this; omega
      have g3' : ∀ x ∈ es, ∃ e, h' x = some e ∧ e.hval % 16 ^ (d1 + 1) = pre + i.val * 16 ^ d1 := by
        intro x hx
        obtain ⟨e, q1, q2⟩ := g3 x hx
        have := hh x (hsub x hx)
        rw [q1] at this
        cases hy : h' x with
        | none => rw [hy] at this; simp at this
        | some e2 => rw [hy] at this; simp at this; exact ⟨e2, rfl, by rw [this]; exact q2⟩
      by_cases h64 : 64 ≤ n
      · rw [if_pos h64]
        cases mem with
        | false => exact Or.inl ⟨rfl, rfl⟩
        | true =>
          simp only [Bool.not_true, Bool.false_eq_true, if_false]
          -- the depth limit is not reached
          have hd5 : d1 ≤ 5 := by
            rcases Nat.lt_or_ge d1 6 with hlt | hge
            · omega
            · have : d1 = 6 := by omega
              subst this
              have h7 : crowd h hv es = es.length := crowd_all (fun x hx => by
                obtain ⟨e, q1, q2⟩ := g3 x hx
                exact ⟨e, q1, by rw [q2, ← hdig]⟩)
              have h8 : crowd h hv es ≤ crowd h hv (ids (.node 6 c1 nh1 kids1)) := by
                have := crowd_slot h hv (fun j => ids (kids1 j)) i
                rw [hki'] at this; simpa [ids] using this
              omega
          obtain ⟨f', q1, q2, q3, q4, q5⟩ := distribute_spec (h := h) (d := d1 + 1) (by omega) es
            (fun x hx => by obtain ⟨e, w, -⟩ := g3 x hx; exact ⟨e, w⟩) (fun _ => (0, [])) 0
          rw [q1]
          simp only [Nat.zero_add]
          rw [if_neg (by omega)]
          obtain ⟨y, hy1, hy2⟩ := hashIdx_eq (hv := hv) (d := d1 + 1) (by omega)
          rw [hy1]
          simp only
          have hfl : (slots.flatMap fun _ : Fin 16 => ([] : List Nat)) = [] := by simp
          simp only [hfl, List.append_nil] at q2
          -- the new node
          generalize hkk : (fun j => if j = y then T.chain ((f' y).1 + 1) (id :: (f' y).2) else T.chain (f' j).1 (f' j).2 : Fin 16 → T) = kids'
          have hleaf : ∀ j, isNode (kids' j) = false := by
            intro j; rw [← hkk]; simp only; split <;> rfl
          have hids' : (slots.flatMap fun j => ids (kids' j)).Perm (id :: es) := by
            refine (flat_split _ y).trans ?_
            have e1 : ids (kids' y) = id :: (f' y).2 := by rw [← hkk]; simp [ids]
            have e2 : ((slots.erase y).flatMap fun j => ids (kids' j)) = (slots.erase y).flatMap fun j => (f' j).2 := by
              apply flatMap_congr'
              intro j hj
              rw [← hkk]; simp [ne_of_mem_erase hj, ids]
            rw [e1, e2, List.cons_append]
            exact ((flat_split (fun j => (f' j).2) y).symm.trans q2).cons id
          have hlen' := hids'.length_eq
          rw [List.length_cons] at hlen'
          have hWF' : WF k h' (.node (d1 + 1) (es.length + 1) 0 kids') (d1 + 1) (pre + i.val * 16 ^ d1) := by
            refine ⟨rfl, by omega, ?_, ?_, ?_, ?_⟩
            · rw [flatMap_congr' (fun j _ => own_eq_ids_of_leaf (k := k) (hleaf j))]; omega
            · intro _
              symm
              rw [List.countP_eq_zero]; intro j _; simp [hleaf j]
            · intro j hj; rw [hleaf j] at hj; cases hj
            · intro j
              have hmem : ∀ x ∈ (f' j).2, ∃ e, h' x = some e ∧ e.hval % 16 ^ (d1 + 1 + 1) = pre + i.val * 16 ^ d1 + j.val * 16 ^ (d1 + 1) := by
                intro x hx
                rcases q5 j x hx with hx | ⟨hx1, e, hx2, hx3⟩
                · simp at hx
                · obtain ⟨e2, w1, w2⟩ := g3' x hx1
                  have := hh x (hsub x hx1)
                  rw [w1, hx2] at this; simp at this
                  exact ⟨e2, w1, digit_idx w2 (by rw [this]; exact hx3)⟩
              have hln := q4 j
              have hcn := q3 j (by simp)
              simp only [List.length_nil, Nat.add_zero] at hln
              rw [← hkk]
              simp only
              by_cases hjy : j = y
              · subst hjy
                rw [if_pos rfl]
                refine ⟨by simp [hcn], by omega, ?_⟩
                intro x hx
                rcases List.mem_cons.mp hx with rfl | hx
                · exact ⟨e', he', by rw [hev]; exact digit_idx hdig hy2⟩
                · exact hmem x hx
              · rw [if_neg hjy]
                exact ⟨hcn, by omega, hmem⟩
          right
          have hids2 : (ids (.node d1 c1 nh1 (put kids1 i (.node (d1 + 1) (es.length + 1) 0 kids')))).Perm (id :: ids (.node d1 c1 nh1 kids1)) := by
            refine ((flat_put ids kids1 i _)).trans ?_
            refine (List.Perm.append_right _ (show (ids (.node (d1 + 1) (es.length + 1) 0 kids')).Perm (id :: es) from hids')).trans ?_
            rw [List.cons_append, ← hki']
            exact (flat_split (fun j => ids (kids1 j)) i).symm.cons id
          cases k with
          | set =>
            refine ⟨_, rfl, ?_, rfl, hids2⟩
            refine put_WF hw' hWF' (fun _ => by simp only [ids]; omega) ?_ (fun h => by cases h)
            rw [hown]; simp only [own, ids]; omega
          | map =>
            refine ⟨_, rfl, ?_, rfl, hids2⟩
            refine put_WF hw' hWF' (fun _ => by simp only [ids]; omega) ?_ ?_
            · rw [hown, own_map_node isNode_node]; simp; omega
            · intro _; rw [hki]; simp [isNode]
      · rw [if_neg h64]
        right
        refine ⟨_, rfl, ?_, rfl, ?_⟩
        · refine put_WF hw' ⟨by simp [g1], by omega, ?_⟩ (fun h => by cases h) ?_ ?_
          · intro x hx
            rcases List.mem_cons.mp hx with rfl | hx
            · exact ⟨e', he', by rw [hev]; exact hdig⟩
            · exact g3' x hx
          · rw [hown, own_eq_ids_of_leaf isNode_chain]; simp [ids]; omega
          · intro _; rw [hki]
            simp [isNode]
        · refine ((flat_put ids kids1 i _)).trans ?_
          simp only [ids]
          rw [List.cons_append]
          have := (flat_split (fun j => ids (kids1 j)) i).symm.cons id
          rw [hki'] at this
          exact this

/-! ## Replacement -/

theorem map_replace {es : List Nat} (hnd : es.Nodup) {old new : Nat} (ho : old ∈ es) :
    ∃ a b, es = a ++ old :: b ∧ (es.map fun i => if i = old then new else i) = a ++ new :: b := by
  obtain ⟨a, b, rfl⟩ := List.append_of_mem ho
  refine ⟨a, b, rfl, ?_⟩
  rw [List.nodup_append, List.nodup_cons] at hnd
  obtain ⟨-, ⟨h1, -⟩, h2⟩ := hnd
  have e1 : (a.map fun i => if i = old then new else i) = a := by
    conv => rhs; rw [← List.map_id a]
    apply List.map_congr_left
    intro x hx
    have : x ≠ old := h2 x hx old (by simp)
    simp [this]
  have e2 : (b.map fun i => if i = old then new else i) = b := by
    conv => rhs; rw [← List.map_id b]
    apply List.map_congr_left
    intro x hx
    have : x ≠ old := by rintro rfl; exact h1 hx
    simp [this]
  rw [List.map_append, List.map_cons, e1, e2]; simp

theorem replace_spec {k : Kind} {h h' : Heap} {t : T} {d pre hv old new : Nat} {key : List Nat} (hw : WF k h t d pre) (hp : hv % 16 ^ d = pre)
    (hnd : (ids t).Nodup) (ho : old ∈ ids t) (hm : Matches h hv key old)
    (hh : ∀ x ∈ ids t, x ≠ old → (h' x).map Elem.hval = (h x).map Elem.hval) (hid : (h' new).map Elem.hval = some hv) :
    ∃ t' rest, replace hv old new t = some t' ∧ WF k h' t' d pre ∧ isNode t' = isNode t ∧ (ids t).Perm (old :: rest) ∧
      (ids t').Perm (new :: rest) := by
  obtain ⟨en, hen, hev⟩ : ∃ e, h' new = some e ∧ e.hval = hv := by
    cases hx : h' new with
    | none => rw [hx] at hid; simp at hid
    | some e => rw [hx] at hid; simp at hid; exact ⟨e, rfl, hid⟩
  induction t generalizing d pre with
  | chain n es =>
    obtain ⟨h1, h2, h3⟩ := hw
    obtain ⟨a, b, q1, q2⟩ : ∃ a b, es = a ++ old :: b ∧ (es.map fun i => if i = old then new else i) = a ++ new :: b :=
      map_replace (new := new) hnd ho
    refine ⟨_, a ++ b, rfl, ⟨by simp [h1], h2, ?_⟩, rfl, ?_, ?_⟩
    · intro x hx
      rw [q2] at hx
      have hcase : x = new ∨ (x ∈ es ∧ x ≠ old) := by
        simp only [List.mem_append, List.mem_cons] at hx
        have hnd' := hnd
        simp only [ids] at hnd'
        rw [q1, List.nodup_append, List.nodup_cons] at hnd'
        rcases hx with hx | rfl | hx
        · exact Or.inr ⟨by rw [q1]; simp [hx], hnd'.2.2 x hx old (by simp)⟩
        · exact Or.inl rfl
        · exact Or.inr ⟨by rw [q1]; simp [hx], fun e => hnd'.2.1.1 (e ▸ hx)⟩
      rcases hcase with rfl | ⟨hx1, hx2⟩
      · exact ⟨en, hen, by rw [hev]; exact hp⟩
      · obtain ⟨e, w1, w2⟩ := h3 x hx1
        have := hh x hx1 hx2
        rw [w1] at this
        cases hy : h' x with
        | none => rw [hy] at this; simp at this
        | some e2 => rw [hy] at this; simp at this; exact ⟨e2, rfl, by rw [this]; exact w2⟩
    · simp only [ids]; rw [q1]; exact List.perm_middle
    · simp only [ids]; rw [q2]; exact List.perm_middle
  | node d' c nh kids ih =>
    obtain ⟨rfl, h2, h3, h4, h5, h6⟩ := hw
    obtain ⟨i, hi1, hi2⟩ := hashIdx_eq (hv := hv) h2
    simp only [replace, hi1]
    obtain ⟨j, hj⟩ := mem_ids_node.mp ho
    have := match_slot hp hi2 (h6 j) hj hm
    subst this
    have hsplit := flat_split (fun i => ids (kids i)) j
    have hnd2 : (ids (kids j) ++ (slots.erase j).flatMap fun i => ids (kids i)).Nodup := hsplit.nodup_iff.mp hnd
    rw [List.nodup_append] at hnd2
    obtain ⟨t', rest, k1, k2, k3, k4, k5⟩ := ih j (h6 j) (digit_idx hp hi2) hnd2.1 hj (fun x hx => hh x (mem_ids_node.mpr ⟨j, hx⟩))
    rw [k1]
    have hlen1 := k4.length_eq
    have hlen2 := k5.length_eq
    simp only [List.length_cons] at hlen1 hlen2
    refine ⟨_, rest ++ (slots.erase j).flatMap (fun i => ids (kids i)), rfl, ?_, rfl, ?_, ?_⟩
    · -- the other slots do not contain the old element
      refine ⟨rfl, h2, ?_, ?_, ?_, ?_⟩
      · have e1 := (flat_split (fun i => own k (kids i)) j).length_eq
        have e2 := (flat_put (own k) kids j t').length_eq
        rw [List.length_append] at e1 e2
        rw [e2]
        have : (own k t').length = (own k (kids j)).length := by
          cases k with
          | set => simp only [own]; omega
          | map => simp only [own, k3]; split <;> first | rfl | omega
        omega
      · intro hk
        have e1 := countP_split isNode kids j
        have e2 := countP_put isNode kids j t'
        rw [k3] at e2
        rw [e2, ← e1]; exact h4 hk
      · intro x hx
        by_cases hxj : x = j
        · subst hxj; rw [put_self] at hx ⊢; rw [k3] at hx; have := h5 x hx; omega
        · rw [put_ne hxj] at hx ⊢; exact h5 x hx
      · intro x
        by_cases hxj : x = j
        · subst hxj; rw [put_self]; exact k2
        · rw [put_ne hxj]
          refine (h6 x).congr ?_
          intro y hy
          refine hh y (mem_ids_node.mpr ⟨x, hy⟩) ?_
          rintro rfl
          refine hnd2.2.2 y hj y ?_ rfl
          rw [List.mem_flatMap]
          exact ⟨x, (List.Nodup.mem_erase_iff nodup_slots).mpr ⟨hxj, mem_slots x⟩, hy⟩
    · exact hsplit.trans (k4.append_right _)
    · exact (flat_put ids kids j t').trans (k5.append_right _)

end Verif.HT
