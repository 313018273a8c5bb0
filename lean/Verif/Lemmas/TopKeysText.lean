/-
Lemmas about the text of top keys.
-/
import Verif.Lemmas.TopKeysSpec
import Mathlib.Data.Nat.Digits.Defs

namespace Verif.TopKeys

open Spec (top recent uses entered fields)

theorem fmtOps_append {ss : List String} {vs ws : List Nat} (h : ss.length = vs.length) :
    fmtOps ss (vs ++ ws) = fmtOps ss vs := by
  induction ss generalizing vs with
  | nil =>
    cases vs with
    | nil => cases ws <;> simp [fmtOps]
    | cons => simp at h
  | cons s ss ih =>
    cases vs with
    | nil => simp at h
    | cons v vs =>
      simp only [List.cons_append, fmtOps]
      rw [ih (by simpa using h)]

/-- One field. -/
def field (p : String × Nat) : List Char := p.1.toList ++ '=' :: Nat.toDigits 10 p.2

theorem fields_cons (p q : String × Nat) (l : List (String × Nat)) :
    fields (p :: q :: l) = field p ++ ',' :: fields (q :: l) := by
  simp [fields, List.intercalate, field]

theorem fmtOps_fields (ss : List String) (vs : List Nat) (h : ss.length = vs.length)
    (q : String × Nat) (l : List (String × Nat)) :
    fmtOps ss vs ++ fields (q :: l) = fields (ss.zip vs ++ q :: l) := by
  induction ss generalizing vs with
  | nil =>
    cases vs with
    | nil => simp [fmtOps]
    | cons => simp at h
  | cons s ss ih =>
    cases vs with
    | nil => simp at h
    | cons v vs =>
      have h' : ss.length = vs.length := by simpa using h
      have := ih vs h'
      rw [List.zip_cons_cons, List.cons_append]
      cases hz : ss.zip vs ++ q :: l with
      | nil => simp at hz
      | cons p r =>
        rw [fields_cons, ← hz, ← this]
        simp [fmtOps, field, dec]

theorem fields_two (p q : String × Nat) : fields [p, q] = field p ++ ',' :: field q := by
  simp [fields, List.intercalate, field]

/-- The text for a node with the contents the history calls for. -/
theorem fmtLine_entry {n : Nat} {h : List Use} {k : Key} {now : Nat} {x : Node}
    (hx : data x = entry n h k) (hle : entered n k h ≤ now) (hnow : now < 4294967296) :
    fmtLine now x = Spec.line n h now (entered n k h) k := by
  simp only [data, entry, Prod.mk.injEq] at hx
  obtain ⟨_, hct, hat, hcnt⟩ := hx
  have htime : (now + 4294967296 - entered n k h) % 4294967296 = now - entered n k h := by
    have : now + 4294967296 - entered n k h = (now - entered n k h) + 4294967296 := by omega
    rw [this, Nat.add_mod_right, Nat.mod_eq_of_lt (by omega)]
  have hr : List.range 78 = List.range 13 ++ (List.range 65).map (13 + ·) := by
    rw [← List.range_add]
  unfold fmtLine
  rw [hct, hat, htime, hcnt, hr, List.map_append, fmtOps_append (by simp [opNames])]
  have h2 := fmtOps_fields opNames ((List.range 13).map (fun op => uses n k op h)) (by simp [opNames])
    ("ctime", now - entered n k h) [("atime", now - entered n k h)]
  rw [fields_two] at h2
  have h3 : opNames.zip ((List.range 13).map (fun op => uses n k op h)) =
      Spec.names.zipIdx.map (fun p => (p.1, uses n k p.2 h)) := by
    simp [opNames, Spec.names, List.range, List.range.loop, List.zipIdx]
  rw [h3] at h2
  unfold Spec.line
  rw [← h2]
  simp [field, dec]

theorem fields_length (l : List (String × Nat)) (bound : String × Nat → Nat)
    (h : ∀ p ∈ l, (field p).length ≤ bound p) :
    (fields l).length + 1 ≤ (l.map bound).sum + l.length + 1 := by
  induction l with
  | nil => simp [fields, List.intercalate]
  | cons p l ih =>
    cases l with
    | nil =>
      have := h p (by simp)
      simp [fields, List.intercalate, field] at this ⊢
      omega
    | cons q l =>
      rw [fields_cons]
      have h1 := h p (by simp)
      have h2 := ih (fun x hx => h x (List.mem_cons_of_mem _ hx))
      simp only [List.length_append, List.length_cons, List.map_cons, List.sum_cons] at h2 ⊢
      omega

theorem field_length (p : String × Nat) (e : Nat) (he : 0 < e) (h : p.2 < 10 ^ e) :
    (field p).length ≤ p.1.length + 1 + e := by
  have := Nat.toDigits_length 10 p.2 e he h
  simp only [field, List.length_append, List.length_cons, String.length_toList]
  omega

/-- Five digits per counter and nine per time always fit. -/
theorem line_length {n : Nat} {h : List Use} {k : Key} {now last : Nat}
    (hc : ∀ op, op < 13 → uses n k op h < 100000) (hnow : now < 1000000000) :
    (Spec.line n h now last k).length ≤ 248 := by
  have hF : ∀ (s : String) (op : Nat), op < 13 →
      (field (s, uses n k op h)).length ≤ s.length + 6 := by
    intro s op hop
    have := field_length (s, uses n k op h) 5 (by omega) (by have := hc op hop; simpa using this)
    simp only at this
    omega
  have hT : ∀ (s : String) (v : Nat), (field (s, now - v)).length ≤ s.length + 10 := by
    intro s v
    have := field_length (s, now - v) 9 (by omega) (by simp only; omega)
    simp only at this
    omega
  have e : Spec.names.zipIdx.map (fun p => (p.1, uses n k p.2 h)) =
     [("get_hits", uses n k 0 h), ("get_misses", uses n k 1 h), ("cmd_set", uses n k 2 h),
      ("incr_hits", uses n k 3 h), ("incr_misses", uses n k 4 h), ("decr_hits", uses n k 5 h),
      ("decr_misses", uses n k 6 h), ("delete_hits", uses n k 7 h),
      ("delete_misses", uses n k 8 h), ("evictions", uses n k 9 h), ("cas_hits", uses n k 10 h),
      ("cas_misses", uses n k 11 h), ("cas_badval", uses n k 12 h)] := by
    simp [Spec.names, List.zipIdx]
  unfold Spec.line
  rw [e]
  simp only [List.cons_append, List.nil_append, fields_cons, List.length_append, List.length_cons]
  have hlast : ∀ p, fields [p] = field p := by intro p; simp [fields, List.intercalate, field]
  rw [hlast]
  have l0 := hF "get_hits" 0 (by omega)
  have l1 := hF "get_misses" 1 (by omega)
  have l2 := hF "cmd_set" 2 (by omega)
  have l3 := hF "incr_hits" 3 (by omega)
  have l4 := hF "incr_misses" 4 (by omega)
  have l5 := hF "decr_hits" 5 (by omega)
  have l6 := hF "decr_misses" 6 (by omega)
  have l7 := hF "delete_hits" 7 (by omega)
  have l8 := hF "delete_misses" 8 (by omega)
  have l9 := hF "evictions" 9 (by omega)
  have l10 := hF "cas_hits" 10 (by omega)
  have l11 := hF "cas_misses" 11 (by omega)
  have l12 := hF "cas_badval" 12 (by omega)
  have l13 := hT "ctime" (entered n k h)
  have l14 := hT "atime" last
  rw [show "get_hits".length = 8 from rfl] at l0
  rw [show "get_misses".length = 10 from rfl] at l1
  rw [show "cmd_set".length = 7 from rfl] at l2
  rw [show "incr_hits".length = 9 from rfl] at l3
  rw [show "incr_misses".length = 11 from rfl] at l4
  rw [show "decr_hits".length = 9 from rfl] at l5
  rw [show "decr_misses".length = 11 from rfl] at l6
  rw [show "delete_hits".length = 11 from rfl] at l7
  rw [show "delete_misses".length = 13 from rfl] at l8
  rw [show "evictions".length = 9 from rfl] at l9
  rw [show "cas_hits".length = 8 from rfl] at l10
  rw [show "cas_misses".length = 10 from rfl] at l11
  rw [show "cas_badval".length = 10 from rfl] at l12
  rw [show "ctime".length = 5 from rfl] at l13
  rw [show "atime".length = 5 from rfl] at l14
  omega

theorem entered_le {n : Nat} {k : Key} {h : List Use} {now : Nat} (hh : ∀ u ∈ h, u.now ≤ now) :
    entered n k h ≤ now := by
  induction h with
  | nil => simp [entered]
  | cons u h ih =>
    simp only [entered]
    split
    · exact ih (fun v hv => hh v (List.mem_cons_of_mem _ hv))
    · exact hh u (by simp)

theorem statLines_ok {n : Nat} {h : List Use} {now : Nat} {ks : List Key} {ns : List Node}
    (hns : ns.map data = ks.map (entry n h)) (hnow : now < 1000000000)
    (hh : ∀ u ∈ h, u.now ≤ now)
    (hc : ∀ k ∈ ks, ∀ op, op < 13 → uses n k op h < 100000) :
    statLines now ns = some (ks.map (fun k => (k, Spec.line n h now (entered n k h) k))) := by
  induction ns generalizing ks with
  | nil =>
    cases ks with
    | nil => rfl
    | cons => simp at hns
  | cons x ns ih =>
    cases ks with
    | nil => simp at hns
    | cons k ks =>
      simp only [List.map_cons, List.cons.injEq] at hns
      have hl := line_length (last := entered n k h) (hc k (by simp)) hnow
      have hf := fmtLine_entry hns.1 (entered_le hh) (by omega)
      have hk : x.key = k := by
        have := congrArg Prod.fst hns.1
        simpa [data, entry] using this
      have := ih hns.2 (fun k hk => hc k (List.mem_cons_of_mem _ hk))
      simp only [statLines, statValue, hf, hl, if_true, Option.bind_eq_bind, Option.bind_some, this,
        hk, List.map_cons]

/-- The history in which only one key is used. -/
theorem top_one {n : Nat} {k : Key} {h : List Use} (hn : 0 < n) (hh : ∀ u ∈ h, u.key = k) (hne : h ≠ []) :
    top n h = [k] := by
  induction h with
  | nil => exact absurd rfl hne
  | cons u h ih =>
    have hk : u.key = k := hh u (by simp)
    cases h with
    | nil =>
      rw [top_new hn (by simp [top, recent]), hk]
      simp [top, recent]
    | cons v h =>
      have := ih (fun w hw => hh w (List.mem_cons_of_mem _ hw)) (by simp)
      rw [top_old (A := []) (B := []) (by rw [this, hk]; rfl), hk]
      rfl

theorem uses_one {n : Nat} {k : Key} {op : Nat} {h : List Use} (hn : 0 < n)
    (hh : ∀ u ∈ h, u.key = k) : uses n k op h = h.countP (fun u => u.op == op) := by
  induction h with
  | nil => rfl
  | cons u h ih =>
    have hk : u.key = k := hh u (by simp)
    have ih := ih (fun w hw => hh w (List.mem_cons_of_mem _ hw))
    simp only [uses, hk, true_and, List.countP_cons]
    rw [ih]
    have h2 : (if k ∈ top n h then h.countP (fun u => u.op == op) else 0)
        = h.countP (fun u => u.op == op) := by
      cases h with
      | nil => simp
      | cons v h =>
        rw [top_one hn (fun w hw => hh w (List.mem_cons_of_mem _ hw)) (by simp)]
        simp
    rw [h2]
    by_cases e : u.op = op
    · simp [e]; omega
    · simp [e]

theorem dec_long {v e : Nat} (h : 10 ^ e ≤ v) (he : 0 < e) : e < (Nat.toDigits 10 v).length := by
  by_contra hc
  have hle : (Nat.toDigits 10 v).length ≤ e := by omega
  have := (Nat.length_toDigits_le_iff (b := 10) (n := v) (by omega) he).mp hle
  omega

/-- Seven digits per counter never fit. -/
theorem line_long {n : Nat} {h : List Use} {k : Key} {now last : Nat}
    (hc : ∀ op, op < 13 → 1000000 ≤ uses n k op h) :
    250 < (Spec.line n h now last k).length := by
  have hF : ∀ (s : String) (op : Nat), op < 13 →
      s.length + 8 ≤ (field (s, uses n k op h)).length := by
    intro s op hop
    have := dec_long (v := uses n k op h) (e := 6) (by have := hc op hop; simpa using this) (by omega)
    simp only [field, List.length_append, List.length_cons, String.length_toList]
    omega
  have hT : ∀ (s : String) (v : Nat), s.length + 1 ≤ (field (s, now - v)).length := by
    intro s v
    simp only [field, List.length_append, List.length_cons, String.length_toList]
    omega
  have e : Spec.names.zipIdx.map (fun p => (p.1, uses n k p.2 h)) =
     [("get_hits", uses n k 0 h), ("get_misses", uses n k 1 h), ("cmd_set", uses n k 2 h),
      ("incr_hits", uses n k 3 h), ("incr_misses", uses n k 4 h), ("decr_hits", uses n k 5 h),
      ("decr_misses", uses n k 6 h), ("delete_hits", uses n k 7 h),
      ("delete_misses", uses n k 8 h), ("evictions", uses n k 9 h), ("cas_hits", uses n k 10 h),
      ("cas_misses", uses n k 11 h), ("cas_badval", uses n k 12 h)] := by
    simp [Spec.names, List.zipIdx]
  unfold Spec.line
  rw [e]
  simp only [List.cons_append, List.nil_append, fields_cons, List.length_append, List.length_cons]
  have hlast : ∀ p, fields [p] = field p := by intro p; simp [fields, List.intercalate, field]
  rw [hlast]
  have l0 := hF "get_hits" 0 (by omega)
  have l1 := hF "get_misses" 1 (by omega)
  have l2 := hF "cmd_set" 2 (by omega)
  have l3 := hF "incr_hits" 3 (by omega)
  have l4 := hF "incr_misses" 4 (by omega)
  have l5 := hF "decr_hits" 5 (by omega)
  have l6 := hF "decr_misses" 6 (by omega)
  have l7 := hF "delete_hits" 7 (by omega)
  have l8 := hF "delete_misses" 8 (by omega)
  have l9 := hF "evictions" 9 (by omega)
  have l10 := hF "cas_hits" 10 (by omega)
  have l11 := hF "cas_misses" 11 (by omega)
  have l12 := hF "cas_badval" 12 (by omega)
  have l13 := hT "ctime" (entered n k h)
  have l14 := hT "atime" last
  rw [show "get_hits".length = 8 from rfl] at l0
  rw [show "get_misses".length = 10 from rfl] at l1
  rw [show "cmd_set".length = 7 from rfl] at l2
  rw [show "incr_hits".length = 9 from rfl] at l3
  rw [show "incr_misses".length = 11 from rfl] at l4
  rw [show "decr_hits".length = 9 from rfl] at l5
  rw [show "decr_misses".length = 11 from rfl] at l6
  rw [show "delete_hits".length = 11 from rfl] at l7
  rw [show "delete_misses".length = 13 from rfl] at l8
  rw [show "evictions".length = 9 from rfl] at l9
  rw [show "cas_hits".length = 8 from rfl] at l10
  rw [show "cas_misses".length = 10 from rfl] at l11
  rw [show "cas_badval".length = 10 from rfl] at l12
  rw [show "ctime".length = 5 from rfl] at l13
  rw [show "atime".length = 5 from rfl] at l14
  omega

end Verif.TopKeys
