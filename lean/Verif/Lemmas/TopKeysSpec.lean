/-
Lemmas about top keys: the plain list is what the specification says, for every history.
-/
import Verif.Lemmas.TopKeysCount

namespace Verif.TopKeys

open Spec (top recent uses entered)

theorem eraseDups_filter (l : List Key) (k : Key) :
    (l.filter (fun b => !(b == k))).eraseDups = l.eraseDups.filter (fun b => !(b == k)) := by
  generalize hn : l.length = n
  induction n using Nat.strongRecOn generalizing l with
  | ind n ih =>
    cases l with
    | nil => simp
    | cons a l =>
      have hlt : ∀ p : Key → Bool, (l.filter p).length < n := by
        intro p
        have := List.length_filter_le p l
        simp at hn; omega
      rw [List.eraseDups_cons]
      by_cases ha : a = k
      · subst ha
        rw [List.filter_cons_of_neg (by simp), List.filter_cons_of_neg (by simp)]
        symm
        rw [List.filter_eq_self]
        intro c hc
        have := ih _ (hlt _) (l.filter (fun b => !(b == a))) rfl
        rw [List.filter_filter] at this
        simp only [Bool.and_self] at this
        rw [this] at hc
        exact (List.mem_filter.mp hc).2
      · rw [List.filter_cons_of_pos (by simpa using ha), List.filter_cons_of_pos (by simpa using ha),
          List.eraseDups_cons]
        congr 1
        rw [← ih _ (hlt _) (l.filter (fun b => !(b == a))) rfl, List.filter_filter, List.filter_filter]
        congr 1
        apply List.filter_congr
        intro c _
        exact Bool.and_comm _ _

theorem recent_cons (u : Use) (h : List Use) :
    recent (u :: h) = u.key :: (recent h).filter (fun b => !(b == u.key)) := by
  unfold recent
  rw [List.map_cons, List.eraseDups_cons, eraseDups_filter]

theorem recent_nodup (h : List Use) : (recent h).Nodup := by
  induction h with
  | nil => simp [recent]
  | cons u h ih =>
    rw [recent_cons, List.nodup_cons]
    exact ⟨by simp, ih.filter _⟩

theorem top_old {n : Nat} {u : Use} {h : List Use} {A B : List Key}
    (ht : top n h = A ++ u.key :: B) : top n (u :: h) = u.key :: (A ++ B) := by
  unfold top at ht ⊢
  rw [recent_cons]
  have hnd := recent_nodup h
  generalize recent h = R at ht hnd
  have hlen : A.length + 1 ≤ n := by
    have := congrArg List.length ht
    simp only [List.length_take, List.length_append, List.length_cons] at this
    omega
  have hR : R = A ++ u.key :: (B ++ R.drop n) := by
    have := (List.take_append_drop n R).symm
    rw [ht] at this
    simpa using this
  generalize R.drop n = D at hR
  subst hR
  have h1 := List.nodup_append.mp hnd
  have h2 := List.nodup_cons.mp h1.2.1
  have hfA : A.filter (fun b => !(b == u.key)) = A := by
    rw [List.filter_eq_self]
    intro c hc
    have := h1.2.2 c hc u.key (by simp)
    simpa using this
  have hfB : (B ++ D).filter (fun b => !(b == u.key)) = B ++ D := by
    rw [List.filter_eq_self]
    intro c hc
    have : c ≠ u.key := fun e => h2.1 (e ▸ hc)
    simpa using this
  rw [List.filter_append, hfA, List.filter_cons_of_neg (by simp), hfB]
  obtain ⟨n, rfl⟩ : ∃ k, n = k + 1 := ⟨n - 1, by omega⟩
  rw [List.take_succ_cons]
  congr 1
  rw [List.take_append] at ht ⊢
  have htA : List.take n A = A := List.take_of_length_le (by omega)
  have htA' : List.take (n + 1) A = A := List.take_of_length_le (by omega)
  rw [htA] 
  rw [htA'] at ht
  have ht' := List.append_cancel_left ht
  have e : n + 1 - A.length = (n - A.length) + 1 := by omega
  rw [e, List.take_succ_cons] at ht'
  injection ht' with _ ht'
  rw [ht']

theorem top_new {n : Nat} {u : Use} {h : List Use} (hn : 0 < n) (hk : u.key ∉ top n h) :
    top n (u :: h) = u.key ::
      (if n < (top n h).length + 1 then (top n h).dropLast else top n h) := by
  unfold top at hk ⊢
  rw [recent_cons]
  generalize recent h = R at hk
  obtain ⟨n, rfl⟩ : ∃ k, n = k + 1 := ⟨n - 1, by omega⟩
  rw [List.take_succ_cons]
  congr 1
  have hR := (List.take_append_drop (n + 1) R).symm
  have hf : R.filter (fun b => !(b == u.key)) =
      R.take (n + 1) ++ (R.drop (n + 1)).filter (fun b => !(b == u.key)) := by
    conv => lhs; rw [hR]
    rw [List.filter_append]
    congr 1
    rw [List.filter_eq_self]
    intro c hc
    have : c ≠ u.key := fun e => hk (e ▸ hc)
    simpa using this
  rw [hf]
  by_cases hlt : n + 1 < (R.take (n + 1)).length + 1
  · rw [if_pos hlt]
    have hlen : (R.take (n + 1)).length = n + 1 := by
      have := List.length_take_le (n + 1) R
      omega
    rw [List.take_append_of_le_length (by omega), List.dropLast_eq_take, hlen]
    rfl
  · rw [if_neg hlt]
    have hlen : R.length ≤ n := by
      rw [List.length_take] at hlt; omega
    rw [List.drop_of_length_le (by omega)]
    simp only [List.filter_nil, List.append_nil]
    rw [List.take_of_length_le (by simp; omega)]

/-- The entry of a key that the history calls for. -/
def entry (n : Nat) (h : List Use) (k : Key) : Data :=
  (k, entered n k h, entered n k h, (List.range 78).map (fun op => uses n k op h))

/-- The list that the history calls for. -/
def want (n : Nat) (h : List Use) : List Data := (top n h).map (entry n h)

theorem entry_other {n : Nat} {u : Use} {h : List Use} {c : Key} (hc : c ∈ top n h)
    (hne : c ≠ u.key) : entry n (u :: h) c = entry n h c := by
  have hne' : u.key ≠ c := fun e => hne e.symm
  simp [entry, entered, uses, hc, hne']

theorem entry_old {n : Nat} {u : Use} {h : List Use} (hc : u.key ∈ top n h) (hop : u.op < 78) :
    entry n (u :: h) u.key = bumpD (entry n h u.key) u.op := by
  simp only [entry, entered, uses, hc, if_true, bumpD, true_and, Prod.mk.injEq]
  apply List.ext_getElem?
  intro i
  rw [List.getElem?_set]
  by_cases hlt : i < 78
  · by_cases hi : u.op = i
    · subst hi
      simp [hop]; omega
    · simp [hi, hlt]
  · have : u.op ≠ i := by omega
    simp [hlt, this]

theorem entry_new {n : Nat} {u : Use} {h : List Use} (hc : u.key ∉ top n h) (hop : u.op < 78) :
    entry n (u :: h) u.key = bumpD (u.key, u.now, u.now, List.replicate 78 0) u.op := by
  simp only [entry, entered, uses, hc, if_false, bumpD, true_and, Prod.mk.injEq]
  generalize hr : List.replicate 78 0 = z
  have hz : ∀ j, j < 78 → z[j]? = some 0 := by
    intro j hj; rw [← hr, List.getElem?_replicate, if_pos hj]
  have hz' : ∀ j, ¬ j < 78 → z[j]? = none := by
    intro j hj; rw [← hr, List.getElem?_replicate, if_neg hj]
  have hzl : z.length = 78 := by rw [← hr, List.length_replicate]
  apply List.ext_getElem?
  intro i
  rw [List.getElem?_set, hz _ hop, hzl]
  by_cases hlt : i < 78
  · by_cases hi : u.op = i
    · subst hi
      simp [hop]
    · simp [hi, hlt, hz]
  · have : u.op ≠ i := by omega
    simp [hlt, this, hz']

theorem top_nodup (n : Nat) (h : List Use) : (top n h).Nodup :=
  (recent_nodup h).sublist (List.take_sublist _ _)

/-- One operation on the plain list is one more operation in the history. -/
theorem touch_want {n : Nat} {u : Use} {h : List Use} (hn : 0 < n) (hop : u.op < 78) :
    touch n (want n h) u = want n (u :: h) := by
  by_cases hc : u.key ∈ top n h
  · obtain ⟨A, B, ht⟩ := List.append_of_mem hc
    have hnd := top_nodup n h
    rw [ht] at hnd
    have h1 := List.nodup_append.mp hnd
    have h2 := List.nodup_cons.mp h1.2.1
    have hne : ∀ c ∈ A ++ B, c ≠ u.key := by
      intro c hcm
      rcases List.mem_append.mp hcm with hcm | hcm
      · exact h1.2.2 c hcm u.key (by simp)
      · exact fun e => h2.1 (e ▸ hcm)
    have hw : want n h = A.map (entry n h) ++ entry n h u.key :: B.map (entry n h) := by
      unfold want; rw [ht]; simp
    rw [hw, touch_found rfl]
    · unfold want
      rw [top_old ht, List.map_cons, entry_old hc hop, ← List.map_append]
      congr 1
      apply List.map_congr_left
      intro c hcm
      refine (entry_other ?_ (hne c hcm)).symm
      rw [ht]; simp at hcm ⊢; tauto
    · intro e he
      rw [← List.map_append] at he
      obtain ⟨c, hcm, rfl⟩ := List.mem_map.mp he
      exact hne c hcm
  · rw [touch_new]
    · unfold want
      rw [top_new hn hc, List.map_cons, entry_new hc hop, List.length_map]
      congr 1
      have hmap : ∀ l : List Key, (∀ c ∈ l, c ∈ top n h) →
          l.map (entry n h) = l.map (entry n (u :: h)) := by
        intro l hl
        apply List.map_congr_left
        intro c hcm
        exact (entry_other (hl c hcm) (fun e => hc (e ▸ hl c hcm))).symm
      split
      · rw [← List.map_dropLast]
        exact hmap _ (fun c hcm => (List.dropLast_sublist _).subset hcm)
      · exact hmap _ (fun c hcm => hcm)
    · intro e he
      obtain ⟨c, hcm, rfl⟩ := List.mem_map.mp he
      exact fun e => hc (e ▸ hcm)

theorem uses_le (n : Nat) (k : Key) (op : Nat) (h : List Use) : uses n k op h ≤ h.length := by
  induction h with
  | nil => simp [uses]
  | cons u h ih =>
    simp only [uses, List.length_cons]
    have h1 : (if u.key = k ∧ u.op = op then 1 else 0) ≤ 1 := by split <;> omega
    have h2 : (if k ∈ top n h then uses n k op h else 0) ≤ h.length := by split <;> omega
    omega

theorem want_ok {n : Nat} {h : List Use} (hlen : h.length < 2147483647) :
    ∀ d ∈ want n h, d.2.2.2.length = 78 ∧ ∀ v ∈ d.2.2.2, v < 2147483647 := by
  intro d hd
  obtain ⟨k, _, rfl⟩ := List.mem_map.mp hd
  refine ⟨by simp [entry], ?_⟩
  intro v hv
  obtain ⟨op, _, rfl⟩ := List.mem_map.mp hv
  have := uses_le n k op h
  omega

/-- A whole run. -/
theorem run_ok {t : TK} {as : List Nat} {al : Nat → Mem → Option Nat} {h us : List Use} (i : Nat)
    (hi : Inv t as) (hL : contents t.mem as = (want t.maxKeys h).map some)
    (hm : Spec.Malloc al) (he : Spec.Enough al) (hu : ∀ u ∈ us, Spec.Ok u)
    (hlen : h.length + us.length < 2147483648) :
    ∃ t' as', run t al i us = some t' ∧ Inv t' as' ∧ t'.maxKeys = t.maxKeys ∧
      contents t'.mem as' = (want t.maxKeys (us.reverse ++ h)).map some := by
  induction us generalizing t as h i with
  | nil => exact ⟨t, as, rfl, hi, rfl, by simpa using hL⟩
  | cons u us ih =>
    obtain ⟨t1, as1, e1, hi1, hmax1, hL1⟩ := count_ok (al := al i) hi hL (hu u (by simp))
      (fun a ha => hm i t.mem a ha) (he i t.mem)
      (want_ok (by simp only [List.length_cons] at hlen; omega))
    rw [touch_want hi.pos (hu u (by simp)).2, ← hmax1] at hL1
    obtain ⟨t2, as2, e2, hi2, hmax2, hL2⟩ := ih (t := t1) (as := as1) (h := u :: h) (i + 1) hi1 hL1
      (fun v hv => hu v (List.mem_cons_of_mem _ hv))
      (by simp only [List.length_cons] at hlen ⊢; omega)
    refine ⟨t2, as2, ?_, hi2, hmax2.trans hmax1, ?_⟩
    · simp only [run, e1, Option.bind_eq_bind, Option.bind_some, e2]
    · rw [hL2, hmax1]; simp

theorem init_ok {n magn : Nat} (hn : 0 < n) (hmag : magn < 30) :
    ∃ t, init n magn = some t ∧ Inv t [] ∧ t.maxKeys = n := by
  have hlt : magn < primeSizeTable.length := by simpa [primeSizeTable] using hmag
  have hs : primeSizeTable[magn]? = some primeSizeTable[magn] := List.getElem?_eq_getElem hlt
  have hpos : 0 < primeSizeTable[magn] := by
    have : ∀ v ∈ primeSizeTable, 0 < v := by decide
    exact this _ (List.getElem_mem hlt)
  have hn' : ¬ n < 1 := by omega
  generalize primeSizeTable[magn] = size at hs hpos
  refine ⟨_, by simp only [init, if_neg hn', hs, Option.bind_eq_bind, Option.bind_some]; rfl, ?_, rfl⟩
  refine ⟨⟨?_, by simp, by simp, by simp, ?_⟩, ?_, rfl, by simp, by simpa using hn⟩
  · exact ⟨_, _, rfl, rfl, rfl, rfl⟩
  · refine ⟨by simpa using hpos, ?_, ?_⟩
    · intro i b hb
      rw [List.getElem?_replicate] at hb
      split at hb
      · injection hb with e; subst e; simp
      · cases hb
    · intro i b hb a
      rw [List.getElem?_replicate] at hb
      split at hb
      · injection hb with e; subst e; simp
      · cases hb
  · intro a
    simp only [get]
    by_cases h : 0 = a
    · simp [h]
    · have : a ≠ 0 := fun e => h e.symm
      simp [h, this]

/-- The nodes visited by the listing. -/
theorem items_ok {t : TK} {as : List Nat} (h : Inv t as) :
    ∃ ns, items t = some ns ∧ ns.map (fun n => some (data n)) = contents t.mem as := by
  have h0 : ∀ a ∈ as, a ≠ 0 := fun a ha e => (List.nodup_cons.mp h.rep.nd).1 (e ▸ ha)
  have hlen : as.length ≤ t.mem.length := by
    have hsub : as ⊆ t.mem.map (·.1) := by
      intro a ha
      cases hg : get t.mem a with
      | none => exact absurd hg (h.rep.live a ha)
      | some n => exact get_mem hg
    have := (List.subperm_of_subset (List.nodup_cons.mp h.rep.nd).2 hsub).length_le
    simpa using this
  obtain ⟨ns, e, hns⟩ := iter_ok h.rep.seg h0 (t.mem.length + 1) (by omega)
  refine ⟨ns, e, ?_⟩
  unfold contents
  have : ns.map (fun n => some (data n)) = (ns.map some).map (Option.map data) := by simp
  rw [this, hns]
  simp

end Verif.TopKeys
