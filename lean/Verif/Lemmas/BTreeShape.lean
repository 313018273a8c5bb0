import Verif.Model.BTree
/-!
# Lemmas on the shape of the tree: levels, paths and counts
-/
namespace Verif.BT

/-- The upper levels describe a level whose nodes hold the numbers of elements `ws`. -/
def Aligned : List (Row Nat) → List Nat → Prop
  | [], ws => ws.length = 1
  | row :: rows, ws => row.flatten = ws ∧ Aligned rows (row.map List.sum)

/-- Nodes hold 1 to 32 items. -/
def Nodes {α : Type} (row : Row α) : Prop := ∀ c ∈ row, 0 < c.length ∧ c.length ≤ 32

/-- All nodes of the upper levels do. -/
def AllNodes (rows : List (Row Nat)) : Prop := ∀ row ∈ rows, Nodes row

/-- Item number `m` of a level is item `i` of node `n`. -/
def At {α : Type} (row : Row α) (m n i : Nat) : Prop := (∃ c, row[n]? = some c ∧ i < c.length) ∧ m = off row n + i

/-- A path from the root to node `m` of the level below. -/
def PathTo : List (Row Nat) → Nat → List Posi → Prop
  | [], m, [] => m = 0
  | row :: rows, m, (n, i) :: p => At row m n i ∧ PathTo rows n p
  | _, _, _ => False

/-- Lengths of all nodes. -/
def shape (rows : List (Row Nat)) : List (List Nat) := rows.map fun r => r.map List.length

/-- A list with one item changed. -/
def bump (f : Nat → Nat) : List Nat → Nat → List Nat
  | [], _ => []
  | x :: xs, 0 => f x :: xs
  | x :: xs, m + 1 => x :: bump f xs m

/-- `k` moved from item `m` to item `m'`. -/
def move (ws : List Nat) (m m' k : Nat) : List Nat := bump (· + k) (bump (· - k) ws m) m'

section lists
variable {α : Type}

theorem split_at {l : List α} {n : Nat} {c : α} (h : l[n]? = some c) : ∃ a b, l = a ++ c :: b ∧ a.length = n := by
  have hn : n < l.length := (List.getElem?_eq_some_iff.mp h).1
  have hc : l[n] = c := (List.getElem?_eq_some_iff.mp h).2
  refine ⟨l.take n, l.drop (n + 1), ?_, by simp; omega⟩
  rw [← hc, ← List.drop_eq_getElem_cons hn, List.take_append_drop]

theorem get_mid (a b : List α) (c : α) : (a ++ c :: b)[a.length]? = some c := by simp

theorem set_mid (a b : List α) (c x : α) : (a ++ c :: b).set a.length x = a ++ x :: b := by simp

theorem off_mid (a b : Row α) (c : List α) : off (a ++ c :: b) a.length = a.flatten.length := by
  simp [off, List.length_flatten]

theorem off_eq (row : Row α) (n : Nat) : off row n = ((row.map List.length).take n).sum := by
  simp [off, List.map_take]

theorem bump_mid (f : Nat → Nat) (a b : List Nat) (x : Nat) : bump f (a ++ x :: b) a.length = a ++ f x :: b := by
  induction a with
  | nil => rfl
  | cons y a ih => simp [bump, ih]

theorem bump_length (f : Nat → Nat) (ws : List Nat) (m : Nat) : (bump f ws m).length = ws.length := by
  induction ws generalizing m with
  | nil => rfl
  | cons x xs ih => cases m <;> simp [bump, ih]

theorem bump_get_ne (f : Nat → Nat) (ws : List Nat) (m j : Nat) (h : j ≠ m) : (bump f ws m)[j]? = ws[j]? := by
  induction ws generalizing m j with
  | nil => rfl
  | cons x xs ih =>
    cases m with
    | zero =>
      cases j with
      | zero => omega
      | succ j => simp [bump]
    | succ m =>
      cases j with
      | zero => simp [bump]
      | succ j => simp only [bump, List.getElem?_cons_succ]; exact ih m j (by omega)

theorem bump_get_eq (f : Nat → Nat) (ws : List Nat) (m : Nat) : (bump f ws m)[m]? = ws[m]?.map f := by
  induction ws generalizing m with
  | nil => rfl
  | cons x xs ih =>
    cases m with
    | zero => rfl
    | succ m => simp only [bump, List.getElem?_cons_succ]; exact ih m

theorem move_length (ws : List Nat) (m m' k : Nat) : (move ws m m' k).length = ws.length := by
  simp [move, bump_length]

theorem move_self (ws : List Nat) (m k : Nat) (h : ∀ x, ws[m]? = some x → k ≤ x) : move ws m m k = ws := by
  apply List.ext_getElem?
  intro j
  by_cases hj : j = m
  · subst hj
    rw [move, bump_get_eq, bump_get_eq]
    cases hx : ws[j]? with
    | none => rfl
    | some x =>
      have := h x hx
      simp only [Option.map_some, Option.some.injEq]; omega
  · rw [move, bump_get_ne _ _ _ _ hj, bump_get_ne _ _ _ _ hj]

theorem sum_take_le (l : List Nat) (n : Nat) : (l.take n).sum ≤ l.sum := by
  conv => rhs; rw [← List.take_append_drop n l]
  rw [List.sum_append]; omega

theorem off_le (row : Row α) (n : Nat) : off row n ≤ row.flatten.length := by
  rw [off_eq, List.length_flatten]
  exact sum_take_le _ _

end lists

section at_
variable {α : Type}

theorem At.mk' {row a b : Row α} {c : List α} (h : row = a ++ c :: b) {i : Nat} (hi : i < c.length) :
    At row (a.flatten.length + i) a.length i := by
  subst h
  exact ⟨⟨c, get_mid a b c, hi⟩, by rw [off_mid]⟩

/-- The decomposition behind a position. -/
theorem At.split {row : Row α} {m n i : Nat} (h : At row m n i) :
    ∃ a c b, row = a ++ c :: b ∧ a.length = n ∧ i < c.length ∧ m = a.flatten.length + i := by
  obtain ⟨⟨c, hc, hi⟩, hm⟩ := h
  obtain ⟨a, b, rfl, rfl⟩ := split_at hc
  exact ⟨a, c, b, rfl, rfl, hi, by rw [hm, off_mid]⟩

theorem At.lt {row : Row α} {m n i : Nat} (h : At row m n i) : m < row.flatten.length := by
  obtain ⟨a, c, b, rfl, rfl, hi, rfl⟩ := h.split
  simp; omega

theorem At.node_lt {row : Row α} {m n i : Nat} (h : At row m n i) : n < row.length :=
  (List.getElem?_eq_some_iff.mp h.1.choose_spec.1).1

theorem At.get {row : Row α} {m n i : Nat} (h : At row m n i) {c : List α} (hc : row[n]? = some c) :
    row.flatten[m]? = c[i]? := by
  obtain ⟨a, c', b, rfl, rfl, hi, rfl⟩ := h.split
  rw [get_mid] at hc
  cases hc
  simp only [List.flatten_append, List.flatten_cons]
  rw [List.getElem?_append_right (by omega), Nat.add_sub_cancel_left, List.getElem?_append_left hi]

theorem At.congr {β : Type} {row : Row α} {row' : Row β} (h : row'.map List.length = row.map List.length) {m n i : Nat}
    (ha : At row m n i) : At row' m n i := by
  obtain ⟨⟨c, hc, hi⟩, hm⟩ := ha
  refine ⟨?_, by rw [hm, off_eq, off_eq, h]⟩
  have h1 : (row'.map List.length)[n]? = some c.length := by rw [h, List.getElem?_map, hc]; rfl
  rw [List.getElem?_map] at h1
  cases hc' : row'[n]? with
  | none => rw [hc'] at h1; simp at h1
  | some c' =>
    rw [hc'] at h1
    simp only [Option.map_some, Option.some.injEq] at h1
    exact ⟨c', rfl, by omega⟩

theorem At.exists {row : Row α} {m : Nat} (h : m < row.flatten.length) : ∃ n i, At row m n i := by
  induction row generalizing m with
  | nil => simp at h
  | cons c row ih =>
    by_cases hm : m < c.length
    · exact ⟨0, m, ⟨c, by simp, hm⟩, by simp [off]⟩
    · simp only [List.flatten_cons, List.length_append] at h
      obtain ⟨n, i, ⟨⟨d, hd, hi⟩, hn⟩⟩ := ih (m := m - c.length) (by omega)
      refine ⟨n + 1, i, ⟨d, by simpa using hd, hi⟩, ?_⟩
      have : off (c :: row) (n + 1) = c.length + off row n := by simp [off]
      omega

theorem off_succ {row : Row α} {n : Nat} {c : List α} (h : row[n]? = some c) : off row (n + 1) = off row n + c.length := by
  obtain ⟨a, b, rfl, rfl⟩ := split_at h
  rw [off_mid, show a ++ c :: b = (a ++ [c]) ++ b by simp, off, List.take_append_of_le_length (by simp),
    List.take_of_length_le (by simp)]
  simp [List.length_flatten]

theorem off_mono (row : Row α) {n n' : Nat} (h : n ≤ n') : off row n ≤ off row n' := by
  have e : (row.map List.length).take n = ((row.map List.length).take n').take n := by
    rw [List.take_take]; congr 1; omega
  rw [off_eq, off_eq, e]
  exact sum_take_le _ _

/-- Positions are ordered like item numbers. -/
theorem At.node_le {row : Row α} {m n i m' n' i' : Nat} (h : At row m n i) (h' : At row m' n' i') (hle : m ≤ m') :
    n ≤ n' := by
  rcases Nat.lt_or_ge n' n with hlt | hge
  · exfalso
    obtain ⟨⟨c, hc, hi⟩, hm⟩ := h
    obtain ⟨⟨c', hc', hi'⟩, hm'⟩ := h'
    have h1 := off_succ hc'
    have h2 := off_mono row (n := n' + 1) (n' := n) (by omega)
    omega
  · exact hge

theorem At.unique {row : Row α} {m n i n' i' : Nat} (h : At row m n i) (h' : At row m n' i') : n = n' ∧ i = i' := by
  have h1 := h.node_le h' (Nat.le_refl m)
  have h2 := h'.node_le h (Nat.le_refl m)
  have h3 : n = n' := by omega
  subst h3
  exact ⟨rfl, by have := h.2; have := h'.2; omega⟩

theorem locate_at {row : Row α} {m : Nat} (h : m < row.flatten.length) : ∃ n i, locate row m = some (n, i) ∧ At row m n i := by
  induction row generalizing m with
  | nil => simp at h
  | cons c row ih =>
    by_cases hm : m < c.length
    · exact ⟨0, m, by simp [locate, hm], ⟨c, by simp, hm⟩, by simp [off]⟩
    · simp only [List.flatten_cons, List.length_append] at h
      obtain ⟨n, i, h1, ⟨⟨d, hd, hi⟩, hn⟩⟩ := ih (m := m - c.length) (by omega)
      refine ⟨n + 1, i, by simp [locate, hm, h1], ⟨d, by simpa using hd, hi⟩, ?_⟩
      have : off (c :: row) (n + 1) = c.length + off row n := by simp [off]
      omega

end at_

/-! ## Steps -/

section steps
variable {α : Type}

theorem incrPosi_spec {row : Row α} {m n i : Nat} (hn : ∀ c ∈ row, 0 < c.length) (h : At row m n i) :
    (m + 1 < row.flatten.length → ∃ n' i', incrPosi row n i = some (.pos n' i') ∧ At row (m + 1) n' i' ∧
      (n' = n ∨ n' = n + 1)) ∧
    (m + 1 = row.flatten.length → incrPosi row n i = some .past) := by
  obtain ⟨a, c, b, rfl, rfl, hi, rfl⟩ := h.split
  have hl : (a ++ c :: b).flatten.length = a.flatten.length + c.length + b.flatten.length := by simp; omega
  by_cases h1 : i + 1 < c.length
  · constructor
    · intro _
      exact ⟨a.length, i + 1, by rw [incrPosi, get_mid]; simp only [h1, if_true], At.mk' rfl h1, .inl rfl⟩
    · intro hm; exfalso; omega
  · cases b with
    | nil =>
      constructor
      · intro hm; simp at hl; simp at hm; omega
      · intro _; rw [incrPosi, get_mid]; simp [h1]
    | cons d b =>
      have hd : 0 < d.length := hn d (by simp)
      constructor
      · intro _
        refine ⟨a.length + 1, 0, ?_, ?_, .inr rfl⟩
        · rw [incrPosi, get_mid]; simp [h1]
        · have e : a ++ c :: d :: b = (a ++ [c]) ++ d :: b := by simp
          have := At.mk' e hd
          simp only [List.flatten_append, List.length_append, List.flatten_cons, List.flatten_nil, List.append_nil,
            List.length_cons, List.length_nil, Nat.add_zero, Nat.zero_add] at this
          rw [show a.flatten.length + i + 1 = a.flatten.length + c.length by omega]
          exact this
      · intro hm; simp at hl; simp at hm; omega

theorem decrPosi_spec {row : Row α} {m n i : Nat} (hn : ∀ c ∈ row, 0 < c.length) (h : At row m n i) :
    (0 < m → ∃ n' i', decrPosi row n i = some (.pos n' i') ∧ At row (m - 1) n' i' ∧ (n' = n ∨ n' + 1 = n)) ∧
    (m = 0 → decrPosi row n i = some .before) := by
  obtain ⟨a, c, b, rfl, rfl, hi, rfl⟩ := h.split
  by_cases h1 : 0 < i
  · constructor
    · intro _
      refine ⟨a.length, i - 1, by rw [decrPosi, if_pos h1], ?_, .inl rfl⟩
      have := At.mk' (row := a ++ c :: b) rfl (i := i - 1) (by omega)
      rw [show a.flatten.length + i - 1 = a.flatten.length + (i - 1) by omega]
      exact this
    · intro hm; omega
  · rcases List.eq_nil_or_concat a with rfl | ⟨a', d, rfl⟩
    · constructor
      · intro hm; simp at hm; omega
      · intro _; rw [decrPosi, if_neg h1]; simp
    · have hd : 0 < d.length := hn d (by simp)
      constructor
      · intro _
        refine ⟨a'.length, d.length - 1, ?_, ?_, .inr (by simp)⟩
        · rw [decrPosi, if_neg h1, if_neg (by simp)]
          have e : (a' ++ [d] ++ c :: b)[(a' ++ [d]).length - 1]? = some d := by simp
          simp only [List.concat_eq_append] at e ⊢
          rw [e]
          have : ¬ d.length = 0 := by omega
          simp only [this, if_false]; simp
        · have e : a'.concat d ++ c :: b = a' ++ d :: (c :: b) := by simp
          have := At.mk' e (i := d.length - 1) (by omega)
          rw [show (a'.concat d).flatten.length + i - 1 = a'.flatten.length + (d.length - 1) by
            have hi0 : i = 0 := by omega
            simp only [List.concat_eq_append, List.flatten_append, List.length_append, List.flatten_cons,
              List.flatten_nil, List.append_nil]; omega]
          exact this
      · intro hm
        simp only [List.concat_eq_append, List.flatten_append, List.length_append, List.flatten_cons,
          List.flatten_nil, List.append_nil] at hm
        omega

/-- Where a step leads. -/
def towards (next : Bool) (m : Nat) : Nat := if next then m + 1 else m - 1

theorem stepPosi_spec {row : Row α} {m n i : Nat} (next : Bool) (hn : ∀ c ∈ row, 0 < c.length) (h : At row m n i)
    (hok : if next then m + 1 < row.flatten.length else 0 < m) :
    ∃ n' i', stepPosi next row n i = some (.pos n' i') ∧ At row (towards next m) n' i' ∧
      (n' = n ∨ (n' = towards next n ∧ (if next then n + 1 < row.length else 0 < n))) := by
  cases next with
  | true =>
    obtain ⟨n', i', h1, h2, h3⟩ := (incrPosi_spec hn h).1 hok
    refine ⟨n', i', h1, h2, ?_⟩
    rcases h3 with h3 | h3
    · exact .inl h3
    · have := h2.node_lt
      exact .inr ⟨h3, by simp only [if_true]; omega⟩
  | false =>
    obtain ⟨n', i', h1, h2, h3⟩ := (decrPosi_spec hn h).1 hok
    refine ⟨n', i', h1, h2, ?_⟩
    rcases h3 with h3 | h3
    · exact .inl h3
    · exact .inr ⟨by simp [towards]; omega, by simp only [Bool.false_eq_true, if_false]; omega⟩

end steps

theorem shape_cons (row : Row Nat) (rows : List (Row Nat)) : shape (row :: rows) = row.map List.length :: shape rows := rfl

theorem Nodes.congr {α β : Type} {row : Row α} {row' : Row β} (h : row'.map List.length = row.map List.length)
    (hn : Nodes row) : Nodes row' := by
  intro c hc
  have : c.length ∈ row.map List.length := by rw [← h]; exact List.mem_map.mpr ⟨c, hc, rfl⟩
  obtain ⟨d, hd, he⟩ := List.mem_map.mp this
  have := hn d hd
  omega

theorem AllNodes.congr {rows rows' : List (Row Nat)} (h : shape rows' = shape rows) (hn : AllNodes rows) : AllNodes rows' := by
  induction rows generalizing rows' with
  | nil =>
    cases rows' with
    | nil => exact hn
    | cons r rs => simp [shape] at h
  | cons r rs ih =>
    cases rows' with
    | nil => simp [shape] at h
    | cons r' rs' =>
      rw [shape_cons, shape_cons, List.cons.injEq] at h
      intro x hx
      rcases List.mem_cons.mp hx with rfl | hx
      · exact Nodes.congr h.1 (hn r (by simp))
      · exact ih h.2 (fun y hy => hn y (by simp [hy])) x hx

theorem PathTo.congr {rows rows' : List (Row Nat)} (h : shape rows' = shape rows) {m : Nat} {p : List Posi}
    (hp : PathTo rows m p) : PathTo rows' m p := by
  induction rows generalizing rows' m p with
  | nil =>
    cases rows' with
    | nil => exact hp
    | cons r rs => simp [shape] at h
  | cons r rs ih =>
    cases rows' with
    | nil => simp [shape] at h
    | cons r' rs' =>
      rw [shape_cons, shape_cons, List.cons.injEq] at h
      cases p with
      | nil => exact hp
      | cons q p =>
        obtain ⟨n, i⟩ := q
        exact ⟨hp.1.congr h.1, ih h.2 hp.2⟩

/-- Steps along a path. -/
theorem stepPath_spec {rows : List (Row Nat)} {ws : List Nat} {m : Nat} {p : List Posi} (next : Bool) (hn : AllNodes rows)
    (ha : Aligned rows ws) (hp : PathTo rows m p) (hok : if next then m + 1 < ws.length else (0 < m ∧ m < ws.length)) :
    ∃ p', stepPath next rows p = some p' ∧ PathTo rows (towards next m) p' := by
  induction rows generalizing ws m p with
  | nil =>
    cases p with
    | nil =>
      rw [Aligned] at ha
      have hp : m = 0 := hp
      exfalso
      cases next <;> simp at hok <;> omega
    | cons _ _ => exact hp.elim
  | cons row rows ih =>
    cases p with
    | nil => exact hp.elim
    | cons q p =>
      obtain ⟨n, i⟩ := q
      obtain ⟨h1, h2⟩ := hp
      obtain ⟨a1, a2⟩ := ha
      have hnr : ∀ c ∈ row, 0 < c.length := fun c hc => (hn row (by simp) c hc).1
      obtain ⟨n', i', s1, s2, s3⟩ := stepPosi_spec next hnr h1 (by
        cases next <;> simp only [if_true, Bool.false_eq_true, if_false] at hok ⊢
        · exact hok.1
        · rw [a1]; exact hok)
      rw [stepPath, s1]
      simp only
      by_cases hnn : n' = n
      · subst hnn
        exact ⟨(n', i') :: p, by simp, s2, h2⟩
      · rcases s3 with s3 | ⟨s3, s4⟩
        · exact absurd s3 hnn
        · obtain ⟨p', q1, q2⟩ := ih (fun r hr => hn r (by simp [hr])) a2 h2 (by
            have := h1.node_lt
            cases next <;> simp only [if_true, Bool.false_eq_true, if_false] at s4 ⊢
            · simp; omega
            · simp; omega)
          refine ⟨(n', i') :: p', by simp only [hnn, if_false, q1], s2, ?_⟩
          rw [s3]; exact q2

theorem Aligned.path_lt {rows : List (Row Nat)} {ws : List Nat} {m : Nat} {p : List Posi} (ha : Aligned rows ws)
    (hp : PathTo rows m p) : m < ws.length := by
  cases rows with
  | nil =>
    cases p with
    | nil =>
      have h1 : ws.length = 1 := ha
      have h2 : m = 0 := hp
      omega
    | cons _ _ => exact hp.elim
  | cons row rows =>
    cases p with
    | nil => exact hp.elim
    | cons q p =>
      obtain ⟨n, i⟩ := q
      have := hp.1.lt
      rw [ha.1] at this
      exact this

theorem Aligned.path {rows : List (Row Nat)} {ws : List Nat} {m : Nat} (ha : Aligned rows ws) (hm : m < ws.length) :
    ∃ p, PathTo rows m p := by
  induction rows generalizing ws m with
  | nil =>
    have h1 : ws.length = 1 := ha
    exact ⟨[], (by omega : m = 0)⟩
  | cons row rows ih =>
    obtain ⟨n, i, h⟩ := At.exists (row := row) (m := m) (by rw [ha.1]; exact hm)
    obtain ⟨p, hp⟩ := ih ha.2 (m := n) (by simpa using h.node_lt)
    exact ⟨(n, i) :: p, h, hp⟩

/-! ## Counts -/

section counts

theorem subAt_spec {row : Row Nat} {m n i k e : Nat} (h : At row m n i) (he : row.flatten[m]? = some e) (hk : k ≤ e) :
    ∃ row', subAt row n i k = some row' ∧ row'.flatten = bump (· - k) row.flatten m ∧
      row'.map List.sum = bump (· - k) (row.map List.sum) n ∧ row'.map List.length = row.map List.length ∧
      (∀ s, (row.map List.sum)[n]? = some s → e ≤ s) := by
  obtain ⟨a, c, b, rfl, rfl, hi, rfl⟩ := h.split
  have hc := h.get (get_mid a b c)
  rw [he] at hc
  obtain ⟨c1, c2, rfl, rfl⟩ := split_at hc.symm
  refine ⟨a ++ (c1 ++ (e - k) :: c2) :: b, ?_, ?_, ?_, ?_, ?_⟩
  · rw [subAt, get_mid]
    simp only [get_mid]
    rw [if_neg (by omega), set_mid, set_mid]
  · have := bump_mid (· - k) (a.flatten ++ c1) (c2 ++ b.flatten) e
    simp only [List.length_append] at this
    simp only [List.flatten_append, List.flatten_cons, List.append_assoc, List.cons_append] at this ⊢
    exact this.symm
  · simp only [List.map_append, List.map_cons]
    have := bump_mid (· - k) (a.map List.sum) (b.map List.sum) (c1 ++ e :: c2).sum
    rw [List.length_map] at this
    rw [this]
    congr 2
    simp; omega
  · simp
  · intro s hs
    have e1 : (List.map List.sum (a ++ (c1 ++ e :: c2) :: b))[a.length]? = some (c1 ++ e :: c2).sum := by
      simp
    rw [e1] at hs
    cases hs
    simp; omega

theorem addAt_spec {row : Row Nat} {m n i : Nat} (k : Nat) (h : At row m n i) :
    ∃ row', addAt row n i k = some row' ∧ row'.flatten = bump (· + k) row.flatten m ∧
      row'.map List.sum = bump (· + k) (row.map List.sum) n ∧ row'.map List.length = row.map List.length := by
  obtain ⟨a, c, b, rfl, rfl, hi, rfl⟩ := h.split
  have hc : c[i]? = some c[i] := List.getElem?_eq_getElem hi
  obtain ⟨c1, c2, hcc, hl⟩ := split_at hc
  generalize c[i] = e at hcc hc
  subst hcc
  subst hl
  refine ⟨a ++ (c1 ++ (e + k) :: c2) :: b, ?_, ?_, ?_, ?_⟩
  · rw [addAt, get_mid]
    simp only [get_mid]
    rw [set_mid, set_mid]
  · have := bump_mid (· + k) (a.flatten ++ c1) (c2 ++ b.flatten) e
    simp only [List.length_append] at this
    simp only [List.flatten_append, List.flatten_cons, List.append_assoc, List.cons_append] at this ⊢
    exact this.symm
  · simp only [List.map_append, List.map_cons]
    have := bump_mid (· + k) (a.map List.sum) (b.map List.sum) (c1 ++ e :: c2).sum
    rw [List.length_map] at this
    rw [this]
    congr 2
    simp; omega
  · simp

/-- Counts along a path, one more element. -/
theorem addPath_spec {rows : List (Row Nat)} {ws : List Nat} {m : Nat} {p : List Posi} (ha : Aligned rows ws)
    (hp : PathTo rows m p) : ∃ rows', addPath rows p = some rows' ∧ Aligned rows' (bump (· + 1) ws m) ∧
      shape rows' = shape rows := by
  induction rows generalizing ws m p with
  | nil =>
    cases p with
    | nil => exact ⟨[], rfl, by rw [Aligned, bump_length]; exact ha, rfl⟩
    | cons _ _ => exact hp.elim
  | cons row rows ih =>
    cases p with
    | nil => exact hp.elim
    | cons q p =>
      obtain ⟨n, i⟩ := q
      obtain ⟨row', r1, r2, r3, r4⟩ := addAt_spec 1 hp.1
      obtain ⟨rows', s1, s2, s3⟩ := ih ha.2 hp.2
      refine ⟨row' :: rows', by simp only [addPath, r1, s1], ⟨by rw [r2, ha.1], by rw [r3]; exact s2⟩, ?_⟩
      rw [shape_cons, shape_cons, r4, s3]

/-- Counts along a path, `k` elements less. -/
theorem subPath_spec {rows : List (Row Nat)} {ws : List Nat} {m k e : Nat} {p : List Posi} (ha : Aligned rows ws)
    (hp : PathTo rows m p) (he : ws[m]? = some e) (hk : k ≤ e) :
    ∃ rows', subPath k rows p = some rows' ∧ Aligned rows' (bump (· - k) ws m) ∧ shape rows' = shape rows := by
  induction rows generalizing ws m e p with
  | nil =>
    cases p with
    | nil => exact ⟨[], rfl, by rw [Aligned, bump_length]; exact ha, rfl⟩
    | cons _ _ => exact hp.elim
  | cons row rows ih =>
    cases p with
    | nil => exact hp.elim
    | cons q p =>
      obtain ⟨n, i⟩ := q
      obtain ⟨row', r1, r2, r3, r4, r5⟩ := subAt_spec hp.1 (by rw [ha.1]; exact he) hk
      have hn := hp.1.node_lt
      have hs : (row.map List.sum)[n]? = some (row.map List.sum)[n]! := by
        rw [List.getElem?_eq_getElem (by simpa using hn)]; simp [hn]
      obtain ⟨rows', s1, s2, s3⟩ := ih ha.2 hp.2 hs (Nat.le_trans hk (r5 _ hs))
      refine ⟨row' :: rows', by simp only [subPath, r1, s1], ⟨by rw [r2, ha.1], by rw [r3]; exact s2⟩, ?_⟩
      rw [shape_cons, shape_cons, r4, s3]

/-- `do_btree_ecnt_move_split` moves a count to the neighbour. -/
theorem ecntMoveSplit_spec {rows : List (Row Nat)} {ws : List Nat} {m k e : Nat} {p : List Posi} (next : Bool)
    (hn : AllNodes rows) (ha : Aligned rows ws) (hp : PathTo rows m p) (he : ws[m]? = some e) (hk : k ≤ e)
    (hok : if next then m + 1 < ws.length else 0 < m) :
    ∃ rows', ecntMoveSplit next k rows p = some rows' ∧ Aligned rows' (move ws m (towards next m) k) ∧
      shape rows' = shape rows := by
  induction rows generalizing ws m e p with
  | nil =>
    cases p with
    | nil =>
      have h1 : ws.length = 1 := ha
      have h2 : m = 0 := hp
      exfalso
      cases next <;> simp at hok <;> omega
    | cons _ _ => exact hp.elim
  | cons row rows ih =>
    cases p with
    | nil => exact hp.elim
    | cons q p =>
      obtain ⟨n, i⟩ := q
      obtain ⟨row1, r1, r2, r3, r4, r5⟩ := subAt_spec hp.1 (by rw [ha.1]; exact he) hk
      have hnr : ∀ c ∈ row1, 0 < c.length := fun c hc => (Nodes.congr r4 (hn row (by simp)) c hc).1
      have hl : row1.flatten.length = ws.length := by rw [r2, bump_length, ha.1]
      obtain ⟨n', i', s1, s2, s3⟩ := stepPosi_spec next hnr (hp.1.congr r4) (by rw [hl]; exact hok)
      obtain ⟨row2, t1, t2, t3, t4⟩ := addAt_spec k s2
      rw [ecntMoveSplit, r1]
      simp only [s1, t1]
      have hf : row2.flatten = move ws m (towards next m) k := by rw [t2, r2, ha.1, move]
      have hs : row2.map List.sum = move (row.map List.sum) n n' k := by rw [t3, r3, move]
      have hlen : row2.map List.length = row.map List.length := by rw [t4, r4]
      by_cases hnn : n' = n
      · subst hnn
        refine ⟨row2 :: rows, by simp, ⟨hf, ?_⟩, by rw [shape_cons, shape_cons, hlen]⟩
        rw [hs, move_self _ _ _ (fun x hx => Nat.le_trans hk (r5 x hx))]
        exact ha.2
      · rcases s3 with s3 | ⟨s3, s4⟩
        · exact absurd s3 hnn
        · have hn1 := hp.1.node_lt
          have hsn : (row.map List.sum)[n]? = some (row.map List.sum)[n]! := by
            rw [List.getElem?_eq_getElem (by simpa using hn1)]; simp [hn1]
          have hl1 : row1.length = row.length := by have := congrArg List.length r4; simpa using this
          obtain ⟨rows', q1, q2, q3⟩ := ih (fun r hr => hn r (by simp [hr])) ha.2 hp.2 hsn
            (Nat.le_trans hk (r5 _ hsn)) (by rw [List.length_map, ← hl1]; exact s4)
          refine ⟨row2 :: rows', by simp only [hnn, if_false, q1], ⟨hf, by rw [hs, s3]; exact q2⟩, ?_⟩
          rw [shape_cons, shape_cons, hlen, q3]

end counts

end Verif.BT
