import Verif.Lemmas.HTreeOps
/-! # Traversals of the hash trees -/
namespace Verif.HT

/-- Number of elements a traversal for `count` (0 = all) takes out of `n`. -/
def takes (count n : Nat) : Nat := if count = 0 then n else min count n

theorem dfsLoop_false {k : Kind} {count : Nat} {kids : Fin 16 → T} {visit : Fin 16 → Nat → Option (T × List Nat)}
    (hv : ∀ i r, ∃ t out rest, visit i r = some (t, out) ∧ (ids (kids i)).Perm (out ++ rest) ∧ out.length = takes r (ids (kids i)).length)
    (l : List (Fin 16)) (t : T) (out : List Nat) (hc : count = 0 ∨ out.length < count) :
    ∃ new rest, dfsLoop k count false visit l t out = some (t, out ++ new) ∧
      (l.flatMap fun i => ids (kids i)).Perm (new ++ rest) ∧
      new.length = if count = 0 then (l.flatMap fun i => ids (kids i)).length
        else min (count - out.length) (l.flatMap fun i => ids (kids i)).length := by
  induction l generalizing out with
  | nil => exact ⟨[], [], by simp [dfsLoop], by simp, by simp⟩
  | cons i l ih =>
    obtain ⟨ti, new, rest, k1, k2, k3⟩ := hv i (if 0 < count then count - out.length else 0)
    unfold dfsLoop
    rw [k1]
    simp only [Bool.false_eq_true, if_false, List.flatMap_cons, List.length_append]
    have hle := k2.length_eq
    rw [List.length_append] at hle
    unfold takes at k3
    by_cases hstop : 0 < count ∧ count ≤ out.length + new.length
    · rw [if_pos hstop]
      refine ⟨new, rest ++ l.flatMap fun i => ids (kids i), rfl, ?_, ?_⟩
      · rw [← List.append_assoc]; exact k2.append_right _
      · rw [if_neg (by omega)]
        rw [if_pos hstop.1, if_neg (by omega)] at k3
        omega
    · rw [if_neg hstop]
      obtain ⟨new2, rest2, q1, q2, q3⟩ := ih (out ++ new) (by rw [List.length_append]; omega)
      rw [List.length_append] at q3
      have hall : rest = [] := by
        apply List.length_eq_zero_iff.mp
        rcases hc with h0 | h0
        · subst h0; simp at k3; omega
        · rw [if_pos (show 0 < count by omega), if_neg (by omega)] at k3
          omega
      subst hall
      rw [List.append_nil] at k2
      simp only [List.length_nil, Nat.add_zero] at hle
      refine ⟨new ++ new2, rest2, by rw [q1, List.append_assoc], ?_, ?_⟩
      · rw [List.append_assoc]; exact k2.append q2
      · rw [List.length_append, q3]
        rcases Nat.eq_zero_or_pos count with h0 | h0
        · subst h0; simp; omega
        · rw [if_neg (by omega), if_neg (by omega)]
          omega

theorem dfsLoop_true {k : Kind} {h : Heap} {count d pre : Nat} (hpre : pre < 16 ^ d) {kids : Fin 16 → T} {visit : Fin 16 → Nat → Option (T × List Nat)}
    (hv : ∀ i r, ∃ t out, visit i r = some (t, out) ∧ WF k h t (d + 1) (pre + i.val * 16 ^ d) ∧ isNode t = isNode (kids i) ∧
      (ids (kids i)).Perm (out ++ ids t) ∧ out.length = takes r (ids (kids i)).length)
    (l : List (Fin 16)) (hnd : l.Nodup) (c nh : Nat) (kids' : Fin 16 → T) (out : List Nat) (hc : count = 0 ∨ out.length < count)
    (hw : WF k h (.node d c nh kids') d pre) (hk : ∀ i ∈ l, kids' i = kids i) :
    ∃ c' nh' kids'' new, dfsLoop k count true visit l (.node d c nh kids') out = some (.node d c' nh' kids'', out ++ new) ∧
      WF k h (.node d c' nh' kids'') d pre ∧ (ids (.node d c nh kids')).Perm (new ++ ids (.node d c' nh' kids'')) ∧
      new.length = if count = 0 then (l.flatMap fun i => ids (kids i)).length
        else min (count - out.length) (l.flatMap fun i => ids (kids i)).length := by
  induction l generalizing out c nh kids' with
  | nil => exact ⟨c, nh, kids', [], by simp [dfsLoop], hw, by simp, by simp⟩
  | cons i l ih =>
    obtain ⟨ti, new, k1, k2, k3, k4, k5⟩ := hv i (if 0 < count then count - out.length else 0)
    unfold dfsLoop
    rw [k1]
    simp only [if_true, List.flatMap_cons, List.length_append]
    have hki := hk i (by simp)
    obtain ⟨c', nh', kids'', s1, s2, s3, s4⟩ := settle_spec (out := new) hpre hw k2 (by rw [hki]; exact k3) (by rw [hki]; exact k4)
    rw [s1]
    simp only
    have hle := k4.length_eq
    rw [List.length_append] at hle
    unfold takes at k5
    rw [List.nodup_cons] at hnd
    by_cases hstop : 0 < count ∧ count ≤ out.length + new.length
    · rw [if_pos hstop]
      refine ⟨c', nh', kids'', new, rfl, s2, s3, ?_⟩
      rw [if_neg (by omega)]
      rw [if_pos hstop.1, if_neg (by omega)] at k5
      omega
    · rw [if_neg hstop]
      obtain ⟨c2, nh2, kids2, new2, q1, q2, q3, q4⟩ := ih hnd.2 c' nh' kids'' (out ++ new) (by rw [List.length_append]; omega) s2
        (fun j hj => by
          rw [s4 j (fun e => hnd.1 (e ▸ hj))]
          exact hk j (by simp [hj]))
      rw [List.length_append] at q4
      refine ⟨c2, nh2, kids2, new ++ new2, by rw [q1, List.append_assoc], q2, ?_, ?_⟩
      · rw [List.append_assoc]; exact s3.trans (q3.append_left new)
      · rw [List.length_append, q4]
        rcases Nat.eq_zero_or_pos count with h0 | h0
        · subst h0; simp at k5 ⊢; omega
        · rw [if_pos h0, if_neg (by omega)] at k5
          rw [if_neg (by omega), if_neg (by omega)]
          omega

theorem dfs_false {k : Kind} {h : Heap} {t : T} {d pre : Nat} (hw : WF k h t d pre) (count : Nat) :
    ∃ out rest, dfs k false t count = some (t, out) ∧ (ids t).Perm (out ++ rest) ∧ out.length = takes count (ids t).length := by
  induction t generalizing d pre count with
  | chain n es =>
    obtain ⟨h1, -, -⟩ := hw
    simp only [dfs, Bool.false_eq_true, if_false]
    by_cases h0 : 0 < n
    · rw [if_pos h0]
      by_cases hc : 0 < count
      · rw [if_pos hc]
        refine ⟨_, es.drop count, rfl, by simp [ids], ?_⟩
        unfold takes; rw [if_neg (by omega)]; simp [ids]
      · rw [if_neg hc]
        exact ⟨_, [], rfl, by simp [ids], by unfold takes; rw [if_pos (by omega)]; rfl⟩
    · rw [if_neg h0]
      have : es = [] := by cases es with | nil => rfl | cons a b => simp at h1; omega
      subst this
      exact ⟨_, [], rfl, by simp [ids], by simp [takes, ids]⟩
  | node d' c nh kids ih =>
    obtain ⟨rfl, h2, h3, h4, h5, h6⟩ := hw
    simp only [dfs]
    obtain ⟨new, rest, q1, q2, q3⟩ := dfsLoop_false (k := k) (count := count) (kids := kids) (visit := fun i r => dfs k false (kids i) r)
      (fun i r => by obtain ⟨out, rest, w1, w2, w3⟩ := ih i (h6 i) r; exact ⟨_, out, rest, w1, w2, w3⟩) slots (.node d' c nh kids) []
      (by simp; omega)
    refine ⟨new, rest, by simpa using q1, q2, ?_⟩
    rw [q3]; simp [takes, ids]

theorem dfs_true {k : Kind} {h : Heap} {t : T} {d pre : Nat} (hpre : pre < 16 ^ d) (hw : WF k h t d pre) (count : Nat) :
    ∃ t' out, dfs k true t count = some (t', out) ∧ WF k h t' d pre ∧ isNode t' = isNode t ∧ (ids t).Perm (out ++ ids t') ∧
      out.length = takes count (ids t).length := by
  induction t generalizing d pre count with
  | chain n es =>
    obtain ⟨h1, h2, h3⟩ := hw
    simp only [dfs, if_true]
    by_cases h0 : 0 < n
    · rw [if_pos h0]
      refine ⟨_, _, rfl, ⟨?_, by omega, fun x hx => h3 x (List.mem_of_mem_drop hx)⟩, rfl, ?_, ?_⟩
      · simp [h1]
      · by_cases hc : 0 < count
        · rw [if_pos hc]
          simp only [ids, List.length_take]
          rcases Nat.le_total count es.length with hle | hle
          · rw [Nat.min_eq_left hle]; simp
          · rw [Nat.min_eq_right hle, List.take_of_length_le hle]; simp
        · rw [if_neg hc]; simp [ids]
      · unfold takes
        by_cases hc : 0 < count
        · rw [if_pos hc, if_neg (by omega)]; simp [ids]
        · rw [if_neg hc, if_pos (by omega)]; rfl
    · rw [if_neg h0]
      have : es = [] := by cases es with | nil => rfl | cons a b => simp at h1; omega
      subst this
      exact ⟨_, _, rfl, ⟨h1, h2, h3⟩, rfl, by simp, by simp [takes, ids]⟩
  | node d' c nh kids ih =>
    have hw' := hw
    obtain ⟨rfl, h2, h3, h4, h5, h6⟩ := hw
    simp only [dfs]
    obtain ⟨c', nh', kids', new, q1, q2, q3, q4⟩ := dfsLoop_true (k := k) (count := count) hpre (kids := kids)
      (visit := fun i r => dfs k true (kids i) r) (fun i r => ih i (pre_lt i hpre) (h6 i) r)
      slots nodup_slots c nh kids [] (by simp; omega) hw' (fun i _ => rfl)
    refine ⟨_, new, by simpa using q1, q2, rfl, q3, ?_⟩
    rw [q4]; simp [takes, ids]

/-! ## Offsets -/

theorem perm_eraseIdx {l : List Nat} {i : Nat} (h : i < l.length) : l.Perm (l[i] :: l.eraseIdx i) := by
  induction l generalizing i with
  | nil => simp at h
  | cons a l ih =>
    cases i with
    | zero => simp
    | succ i =>
      simp only [List.getElem_cons_succ, List.eraseIdx_cons_succ]
      exact ((ih (by simpa using h)).cons a).trans (List.Perm.swap ..)

theorem atLoop_spec {h : Heap} {del : Bool} {d c nh pre : Nat} {kids : Fin 16 → T} (hpre : pre < 16 ^ d) (hw : WF .set h (.node d c nh kids) d pre)
    {visit : Fin 16 → Nat → Option (Nat × T)}
    (hv : ∀ i o, o < (ids (kids i)).length → ∃ x t, visit i o = some (x, t) ∧ (ids (kids i))[o]? = some x ∧
      (del = true → WF .set h t (d + 1) (pre + i.val * 16 ^ d) ∧ isNode t = isNode (kids i) ∧ (ids (kids i)).Perm (x :: ids t)))
    (l : List (Fin 16)) (off : Nat) (ho : off < (l.flatMap fun i => ids (kids i)).length) :
    ∃ x t', atLoop .set del d c nh kids visit l off = some (x, t') ∧ (l.flatMap fun i => ids (kids i))[off]? = some x ∧
      (del = true → WF .set h t' d pre ∧ isNode t' = true ∧ (ids (.node d c nh kids)).Perm (x :: ids t')) := by
  induction l generalizing off with
  | nil => simp at ho
  | cons i l ih =>
    unfold atLoop
    have hcnt := slotCnt_eq (hw.2.2.2.2.2 i)
    rw [hcnt]
    rw [List.flatMap_cons, List.length_append] at ho
    rw [List.flatMap_cons]
    by_cases hlt : (ids (kids i)).length ≤ off
    · rw [if_pos hlt]
      obtain ⟨x, t', k1, k2, k3⟩ := ih (off - (ids (kids i)).length) (by omega)
      exact ⟨x, t', k1, by rw [List.getElem?_append_right hlt]; exact k2, k3⟩
    · rw [if_neg hlt]
      obtain ⟨x, t, k1, k2, k3⟩ := hv i off (by omega)
      rw [k1]
      simp only
      rw [List.getElem?_append_left (by omega)]
      cases del with
      | false => exact ⟨x, _, rfl, k2, by simp⟩
      | true =>
        obtain ⟨w1, w2, w3⟩ := k3 rfl
        obtain ⟨c', nh', kids', s1, s2, s3, -⟩ := settle_spec (out := [x]) hpre hw w1 w2 w3
        simp only [List.length_singleton] at s1
        exact ⟨x, .node d c' nh' kids', by simp [s1], k2, fun _ => ⟨s2, rfl, s3⟩⟩

theorem at_spec {h : Heap} {del : Bool} {t : T} {d pre : Nat} (hpre : pre < 16 ^ d) (hw : WF .set h t d pre) (off : Nat)
    (ho : off < (ids t).length) :
    ∃ x t', atOffset .set del t off = some (x, t') ∧ (ids t)[off]? = some x ∧
      (del = true → WF .set h t' d pre ∧ isNode t' = isNode t ∧ (ids t).Perm (x :: ids t')) := by
  induction t generalizing d pre off with
  | chain n es =>
    obtain ⟨h1, h2, h3⟩ := hw
    simp only [ids] at ho
    have hx : es[off]? = some es[off] := List.getElem?_eq_getElem ho
    simp only [atOffset, hx]
    refine ⟨_, _, rfl, hx, ?_⟩
    rintro rfl
    simp only [if_true]
    refine ⟨⟨?_, by omega, fun x hx => h3 x (List.mem_of_mem_eraseIdx hx)⟩, rfl, ?_⟩
    · rw [List.length_eraseIdx_of_lt ho]; omega
    · simp only [ids]
      exact perm_eraseIdx ho
  | node d' c nh kids ih =>
    have hw' := hw
    obtain ⟨rfl, h2, h3, h4, h5, h6⟩ := hw
    simp only [atOffset]
    exact atLoop_spec hpre hw' (fun i o ho => ih i (pre_lt i hpre) (h6 i) o ho) slots off ho

/-! ## Sampling -/

theorem sampleChain_spec (rnd : Nat → Nat) (count : Nat) (es : List Nat) (remain p : Nat) (out : List Nat)
    (h1 : es.length ≤ remain) (h2 : count - out.length ≤ remain) (h3 : out.length < count) :
    ∃ new r p', sampleChain rnd count es remain p out = some (out ++ new, r, p') ∧ new.Sublist es ∧
      (count ≤ (out ++ new).length → (out ++ new).length = count) ∧
      ((out ++ new).length < count → r + es.length = remain ∧ count - (out ++ new).length ≤ r) := by
  induction es generalizing remain p out with
  | nil =>
    refine ⟨[], remain, p, by simp [sampleChain], List.Sublist.refl _, ?_, ?_⟩
    · intro h; simp at h; omega
    · intro _; simp; omega
  | cons a es ih =>
    simp only [List.length_cons] at h1
    unfold sampleChain
    rw [if_neg (by omega)]
    by_cases hr : rnd p % remain < count - out.length
    · rw [if_pos hr]
      by_cases hfull : count ≤ (out ++ [a]).length
      · rw [if_pos hfull]
        refine ⟨[a], remain, p + 1, rfl, by simp, ?_, ?_⟩
        · intro _; simp at hfull ⊢; omega
        · intro h; omega
      · rw [if_neg hfull]
        simp only [List.length_append, List.length_singleton] at hfull
        obtain ⟨new, r, p', k1, k2, k3, k4⟩ := ih (remain - 1) (p + 1) (out ++ [a]) (by omega)
          (by simp; omega) (by simp; omega)
        rw [List.append_assoc, List.singleton_append] at k1 k3 k4
        refine ⟨a :: new, r, p', k1, k2.cons_cons a, k3, ?_⟩
        intro h
        have := k4 h
        simp only [List.length_cons]
        omega
    · rw [if_neg hr]
      have hlt : rnd p % remain < remain := Nat.mod_lt _ (by omega)
      obtain ⟨new, r, p', k1, k2, k3, k4⟩ := ih (remain - 1) (p + 1) out (by omega) (by omega) h3
      refine ⟨new, r, p', k1, k2.cons a, k3, ?_⟩
      intro h
      have := k4 h
      simp only [List.length_cons]
      omega

theorem sampleLoop_spec {h : Heap} (rnd : Nat → Nat) {d pre : Nat} {kids : Fin 16 → T}
    (hw : ∀ i : Fin 16, WF .set h (kids i) (d + 1) (pre + i.val * 16 ^ d))
    {visit : Fin 16 → Nat → Nat → Nat → Option (List Nat × Nat)}
    (hv : ∀ i remain count p, isNode (kids i) = true → (ids (kids i)).length ≤ remain → count ≤ remain → 0 < count →
      ∃ out p', visit i remain count p = some (out, p') ∧ out.Sublist (ids (kids i)) ∧ out.length ≤ count ∧
        count - out.length ≤ remain - (ids (kids i)).length)
    (count : Nat) (l : List (Fin 16)) (remain p : Nat) (out : List Nat)
    (h1 : (l.flatMap fun i => ids (kids i)).length ≤ remain) (h2 : count - out.length ≤ remain) (h3 : out.length < count) :
    ∃ new p', sampleLoop rnd count kids visit l remain p out = some (out ++ new, p') ∧ new.Sublist (l.flatMap fun i => ids (kids i)) ∧
      (out ++ new).length ≤ count ∧ count - (out ++ new).length ≤ remain - (l.flatMap fun i => ids (kids i)).length := by
  induction l generalizing remain p out with
  | nil => exact ⟨[], p, by simp [sampleLoop], List.Sublist.refl _, by simp; omega, by simp; omega⟩
  | cons i l ih =>
    rw [List.flatMap_cons, List.length_append] at h1
    rw [List.flatMap_cons, List.length_append]
    -- one slot
    have slot : ∃ new r p', sampleSlot rnd count (kids i) (visit i) remain p out = some (out ++ new, r, p') ∧
        new.Sublist (ids (kids i)) ∧ (out ++ new).length ≤ count ∧
        ((out ++ new).length < count → r = remain - (ids (kids i)).length ∧ count - (out ++ new).length ≤ r) := by
      have hwi := hw i
      have hcnt := slotCnt_eq hwi
      have hvi := hv i remain (count - out.length) p
      unfold sampleSlot
      cases hk : kids i with
      | node d' c nh kids' =>
        rw [hk] at hcnt hvi h1
        simp only [slotCnt] at hcnt
        obtain ⟨new, p', k1, k2, k3, k4⟩ := hvi rfl (by omega) (by omega) (by omega)
        simp only [k1, Option.map_some]
        refine ⟨new, _, p', rfl, k2, by simp; omega, ?_⟩
        intro _
        simp only [List.length_append]
        omega
      | chain n es =>
        rw [hk] at hcnt h1
        simp only [slotCnt, ids] at hcnt
        simp only [ids] at h1 ⊢
        by_cases h0 : 0 < n
        · rw [if_pos h0]
          obtain ⟨new, r, p', k1, k2, k3, k4⟩ := sampleChain_spec rnd count es remain p out (by omega) h2 h3
          refine ⟨new, r, p', k1, k2, ?_, ?_⟩
          · rcases Nat.lt_or_ge (out ++ new).length count with hx | hx
            · omega
            · rw [k3 hx]; exact Nat.le_refl _
          · intro hx; have := k4 hx; omega
        · rw [if_neg h0]
          refine ⟨[], remain, p, by simp, by simp, by simp; omega, ?_⟩
          intro _; simp; omega
    obtain ⟨new, r, p', k1, k2, k3, k4⟩ := slot
    unfold sampleLoop
    rw [k1]
    simp only
    by_cases hfull : count ≤ (out ++ new).length
    · rw [if_pos hfull]
      refine ⟨new, p', rfl, k2.trans (List.sublist_append_left _ _), k3, by omega⟩
    · rw [if_neg hfull]
      obtain ⟨e1, e2⟩ := k4 (by omega)
      obtain ⟨new2, p2, q1, q2, q3, q4⟩ := ih r p' (out ++ new) (by omega) e2 (by omega)
      rw [List.append_assoc] at q1 q3 q4
      exact ⟨new ++ new2, p2, q1, k2.append q2, q3, by omega⟩

theorem sample_spec {h : Heap} (rnd : Nat → Nat) {t : T} (hn : isNode t = true) {d pre : Nat} (hw : WF .set h t d pre) (remain count p : Nat)
    (h1 : (ids t).length ≤ remain) (h2 : count ≤ remain) (h3 : 0 < count) :
    ∃ out p', sample rnd t remain count p = some (out, p') ∧ out.Sublist (ids t) ∧ out.length ≤ count ∧
      count - out.length ≤ remain - (ids t).length := by
  induction t generalizing d pre remain count p with
  | chain => cases hn
  | node d' c nh kids ih =>
    obtain ⟨rfl, -, -, -, -, h6⟩ := hw
    simp only [ids] at h1 ⊢
    simp only [sample]
    obtain ⟨new, p', k1, k2, k3, k4⟩ := sampleLoop_spec rnd h6 (visit := fun i r c p => sample rnd (kids i) r c p)
      (fun i r c p hn a b e => ih i hn (h6 i) r c p a b e) count slots remain p [] h1 (by simpa using h2) (by simpa using h3)
    rw [List.nil_append] at k1 k3 k4
    exact ⟨new, p', k1, k2, k3, k4⟩

/-! ## Random draws -/

theorem shuffle_spec (rnd : Nat → Nat) (n p : Nat) (a : Array Nat) (hn : n < a.size ∨ n = 0) : ∃ b, shuffle rnd n p a = some b ∧ b.toList.Perm a.toList := by
  induction n generalizing p a with
  | zero => exact ⟨a, rfl, List.Perm.refl _⟩
  | succ i ih =>
    have hs : i + 1 < a.size := by omega
    unfold shuffle
    simp only
    have hj : rnd p % (i + 2) < i + 2 := Nat.mod_lt _ (by omega)
    by_cases hne : rnd p % (i + 2) ≠ i + 1
    · rw [if_pos hne, dif_pos ⟨hs, by omega⟩]
      obtain ⟨b, k1, k2⟩ := ih (p + 1) (a.swap (i + 1) (rnd p % (i + 2)) hs (by omega)) (by simp; omega)
      refine ⟨b, k1, k2.trans ?_⟩
      exact Array.perm_iff_toList_perm.mp (Array.swap_perm _ _)
    · rw [if_neg hne]
      exact ih (p + 1) a (by omega)

theorem randDel_spec {h : Heap} (rnd : Nat → Nat) (n : Nat) {t : T} {d pre : Nat} (hpre : pre < 16 ^ d) (hw : WF .set h t d pre)
    (ccnt p : Nat) (out : List Nat) (hc : ccnt = (ids t).length) (hn : n ≤ ccnt) :
    ∃ t' new, randDel rnd n t ccnt p out = some (t', out ++ new) ∧ WF .set h t' d pre ∧ isNode t' = isNode t ∧
      (ids t).Perm (new ++ ids t') ∧ new.length = n := by
  induction n generalizing t ccnt p out with
  | zero => exact ⟨t, [], by simp [randDel], hw, rfl, by simp, rfl⟩
  | succ n ih =>
    unfold randDel
    rw [if_neg (by omega)]
    have hlt : rnd p % ccnt < (ids t).length := by rw [← hc]; exact Nat.mod_lt _ (by omega)
    obtain ⟨x, t', k1, k2, k3⟩ := at_spec (del := true) hpre hw _ hlt
    obtain ⟨w1, w2, w3⟩ := k3 rfl
    rw [k1]
    simp only
    have hl := w3.length_eq
    rw [List.length_cons] at hl
    obtain ⟨t2, new, q1, q2, q3, q4, q5⟩ := ih w1 (ccnt - 1) (p + 1) (out ++ [x]) (by omega) (by omega)
    refine ⟨t2, x :: new, by rw [q1]; simp, q2, q3.trans w2, ?_, by simp [q5]⟩
    rw [List.cons_append]
    exact w3.trans (q4.cons x)

/-- Keys in the table of offsets. -/
def InTab (cap : Nat) (b : Nat → List Nat) (key : Nat) : Prop := key ∈ b (key % cap)

theorem hashInsert_spec {cap : Nat} {b b' : Nat → List Nat} {key : Nat} (h : hashInsert cap b key = some b') :
    ¬ InTab cap b key ∧ InTab cap b' key ∧ ∀ x, InTab cap b x → InTab cap b' x := by
  unfold hashInsert at h
  simp only at h
  split at h
  · cases h
  · split at h
    · cases h
    · rename_i h1 h2
      injection h with h; subst h
      refine ⟨h2, by simp [InTab, upd], ?_⟩
      intro x hx
      unfold InTab upd at *
      split
      · rename_i he; rw [he] at hx; simp [hx]
      · exact hx

theorem randHash_spec {h : Heap} (rnd : Nat → Nat) {t : T} {d pre : Nat} (hpre : pre < 16 ^ d) (hw : WF .set h t d pre)
    (hnd : (ids t).Nodup) (ccnt count cap : Nat) (hc : ccnt = (ids t).length) (hcap : cap ≠ 0) (hcc : ccnt ≠ 0)
    (rounds p : Nat) (b : Nat → List Nat) (out : List Nat) (hout : out.Nodup)
    (hin : ∀ x ∈ out, ∃ o, (ids t)[o]? = some x ∧ InTab cap b o) (hle : out.length ≤ count) :
    randHash rnd t ccnt count cap rounds p b out = some none ∨
    ∃ res, randHash rnd t ccnt count cap rounds p b out = some (some res) ∧ res.Nodup ∧ (∀ x ∈ res, x ∈ ids t) ∧ res.length = count := by
  induction rounds generalizing p b out with
  | zero =>
    unfold randHash
    by_cases hf : count ≤ out.length
    · rw [if_pos hf]
      exact Or.inr ⟨out, rfl, hout, fun x hx => by obtain ⟨o, w, -⟩ := hin x hx; exact List.mem_of_getElem? w, by omega⟩
    · rw [if_neg hf]; exact Or.inl rfl
  | succ rounds ih =>
    unfold randHash
    by_cases hf : count ≤ out.length
    · rw [if_pos hf]
      exact Or.inr ⟨out, rfl, hout, fun x hx => by obtain ⟨o, w, -⟩ := hin x hx; exact List.mem_of_getElem? w, by omega⟩
    · rw [if_neg hf]
      simp only
      rw [if_neg (by omega)]
      cases hi : hashInsert cap b (rnd p % ccnt) with
      | none => exact ih (p + 1) b out hout hin hle
      | some b' =>
        simp only
        obtain ⟨g1, g2, g3⟩ := hashInsert_spec hi
        have hlt : rnd p % ccnt < (ids t).length := by rw [← hc]; exact Nat.mod_lt _ (by omega)
        obtain ⟨x, t', k1, k2, -⟩ := at_spec (del := false) hpre hw _ hlt
        rw [k1]
        simp only
        have hx : x ∉ out := by
          intro hx
          obtain ⟨o, w1, w2⟩ := hin x hx
          obtain ⟨ho, ho'⟩ := List.getElem?_eq_some_iff.mp w1
          obtain ⟨hr, hr'⟩ := List.getElem?_eq_some_iff.mp k2
          have := (List.getElem_inj (h₀ := ho) (h₁ := hr) hnd).mp (by rw [ho', hr'])
          rw [this] at w2; exact g1 w2
        refine ih (p + 1) b' (out ++ [x]) ?_ ?_ (by simp; omega)
        · rw [List.nodup_append]
          refine ⟨hout, by simp, ?_⟩
          intro y hy z hz
          simp at hz; subst hz
          rintro rfl; exact hx hy
        · intro y hy
          rcases List.mem_append.mp hy with hy | hy
          · obtain ⟨o, w1, w2⟩ := hin y hy; exact ⟨o, w1, g3 o w2⟩
          · simp at hy; subst hy; exact ⟨_, k2, g2⟩

end Verif.HT
