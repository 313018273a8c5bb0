import Verif.Spec.List
/-! # Doubly linked segments and the list primitives -/
namespace Verif.Lst
open Verif.Lst.Spec

abbrev Heap := Nat → Option Elem

@[simp] theorem upd_self {α : Type} (f : Nat → α) (i : Nat) (v : α) : upd f i v i = v := by simp [upd]
theorem upd_ne {α : Type} (f : Nat → α) {i j : Nat} (v : α) (h : j ≠ i) : upd f i v j = f j := by simp [upd, h]

/-- First element of a segment, or what follows it. -/
def first : List Nat → Ptr → Ptr
  | [], n => n
  | i :: _, _ => .node i

/-- Last element of a segment, or what precedes it. -/
def last : Ptr → List Nat → Ptr
  | p, [] => p
  | _, i :: is => last (.node i) is

/-- `ids` are linked in this order between `p` and `n`. -/
def Seg (h : Heap) : Ptr → List Nat → Ptr → Prop
  | _, [], _ => True
  | p, i :: is, n => (∃ e, h i = some e ∧ e.prev = p ∧ e.next = first is n) ∧ Seg h (.node i) is n

theorem first_append (a b : List Nat) (n : Ptr) : first (a ++ b) n = first a (first b n) := by
  cases a <;> rfl

theorem last_append (p : Ptr) (a b : List Nat) : last p (a ++ b) = last (last p a) b := by
  induction a generalizing p with
  | nil => rfl
  | cons x a ih => exact ih _

theorem seg_append {h : Heap} {p n : Ptr} {a b : List Nat} :
    Seg h p (a ++ b) n ↔ Seg h p a (first b n) ∧ Seg h (last p a) b n := by
  induction a generalizing p with
  | nil => simp [Seg, last]
  | cons x a ih =>
    simp only [List.cons_append, Seg, ih, first_append, last]
    constructor
    · rintro ⟨q1, q2, q3⟩; exact ⟨⟨q1, q2⟩, q3⟩
    · rintro ⟨⟨q1, q2⟩, q3⟩; exact ⟨q1, q2, q3⟩

theorem seg_frame {h h' : Heap} {p n : Ptr} {a : List Nat} (hf : ∀ i ∈ a, h' i = h i) (hs : Seg h p a n) :
    Seg h' p a n := by
  induction a generalizing p with
  | nil => trivial
  | cons x a ih =>
    obtain ⟨⟨e, e1, e2, e3⟩, hs⟩ := hs
    exact ⟨⟨e, by rw [hf x (by simp)]; exact e1, e2, e3⟩, ih (fun i hi => hf i (by simp [hi])) hs⟩

theorem seg_mem {h : Heap} {p n : Ptr} {a : List Nat} (hs : Seg h p a n) {i : Nat} (hi : i ∈ a) :
    ∃ e, h i = some e := by
  induction a generalizing p with
  | nil => simp at hi
  | cons x a ih =>
    obtain ⟨⟨e, e1, -⟩, hs⟩ := hs
    rcases List.mem_cons.mp hi with rfl | hi
    · exact ⟨e, e1⟩
    · exact ih hs hi

/-- Links may change, contents do not. -/
def core (e : Elem) : Nat × List Nat := (e.refcount, e.value)

theorem last_snoc (p : Ptr) (a : List Nat) (x : Nat) : last p (a ++ [x]) = .node x := by
  rw [last_append]; rfl

theorem last_ne_null {a : List Nat} (h : a ≠ []) : last .null a ≠ .null := by
  rcases List.eq_nil_or_concat a with rfl | ⟨a, x, rfl⟩
  · exact absurd rfl h
  · simp [last_snoc]

theorem first_ne_null {a : List Nat} (h : a ≠ []) : first a .null ≠ .null := by
  cases a with
  | nil => exact absurd rfl h
  | cons x a => simp [first]

theorem seg_setNext {h : Heap} {p n : Ptr} {a : List Nat} (hs : Seg h p a n) (ha : a ≠ []) (hn : a.Nodup) (v : Ptr) :
    ∃ h', setNext h (last p a) v = some h' ∧ Seg h' p a v ∧ (∀ j, j ∉ a → h' j = h j) ∧
      (∀ j, (h' j).map core = (h j).map core) := by
  rcases List.eq_nil_or_concat a with rfl | ⟨a, x, rfl⟩
  · exact absurd rfl ha
  · rw [List.concat_eq_append] at *
    rw [seg_append] at hs
    obtain ⟨h1, ⟨e, e1, e2, e3⟩, -⟩ := hs
    have hx : x ∉ a := by
      rw [List.nodup_append] at hn
      intro hx; exact hn.2.2 x hx x (by simp) rfl
    refine ⟨upd h x (some { e with next := v }), by simp [last_snoc, setNext, e1], ?_, ?_, ?_⟩
    · rw [seg_append]
      refine ⟨seg_frame (fun i hi => upd_ne _ _ (by rintro rfl; exact hx hi)) h1, ⟨_, upd_self _ _ _, e2, rfl⟩, trivial⟩
    · intro j hj; exact upd_ne _ _ (by rintro rfl; simp at hj)
    · intro j
      by_cases hj : j = x
      · subst hj; rw [upd_self, e1]; rfl
      · rw [upd_ne _ _ hj]

theorem seg_setPrev {h : Heap} {p n : Ptr} {b : List Nat} (hs : Seg h p b n) (hb : b ≠ []) (hn : b.Nodup) (v : Ptr) :
    ∃ h', setPrev h (first b n) v = some h' ∧ Seg h' v b n ∧ (∀ j, j ∉ b → h' j = h j) ∧
      (∀ j, (h' j).map core = (h j).map core) := by
  cases b with
  | nil => exact absurd rfl hb
  | cons x b =>
    obtain ⟨⟨e, e1, e2, e3⟩, h1⟩ := hs
    have hx : x ∉ b := (List.nodup_cons.mp hn).1
    refine ⟨upd h x (some { e with prev := v }), by simp [first, setPrev, e1], ?_, ?_, ?_⟩
    · exact ⟨⟨_, upd_self _ _ _, rfl, e3⟩, seg_frame (fun i hi => upd_ne _ _ (by rintro rfl; exact hx hi)) h1⟩
    · intro j hj; exact upd_ne _ _ (by rintro rfl; simp at hj)
    · intro j
      by_cases hj : j = x
      · subst hj; rw [upd_self, e1]; rfl
      · rw [upd_ne _ _ hj]

theorem walkNext_seg {h : Heap} {p : Ptr} (a b : List Nat) (hs : Seg h p (a ++ b) .null) :
    walkNext h a.length (first (a ++ b) .null) = some (first b .null) := by
  induction a generalizing p with
  | nil => rfl
  | cons x a ih =>
    obtain ⟨⟨e, e1, e2, e3⟩, h1⟩ := hs
    have : walkNext h (a.length + 1) (.node x) = walkNext h a.length (first (a ++ b) .null) := by
      simp [walkNext, deref, e1, e3]
    simpa [first] using this.trans (ih h1)

theorem walkPrev_seg {h : Heap} {n : Ptr} (a b : List Nat) (hs : Seg h .null (a ++ b) n) :
    walkPrev h b.length (last .null (a ++ b)) = some (last .null a) := by
  generalize hm : b.length = m
  induction m generalizing b n with
  | zero =>
    have : b = [] := List.length_eq_zero_iff.mp hm
    subst this; simp [walkPrev]
  | succ m ih =>
    rcases List.eq_nil_or_concat b with rfl | ⟨b, x, rfl⟩
    · simp at hm
    · rw [List.concat_eq_append] at *
      rw [← List.append_assoc] at hs ⊢
      rw [seg_append] at hs
      obtain ⟨h1, ⟨e, e1, e2, e3⟩, -⟩ := hs
      rw [last_snoc]
      have : walkPrev h (m + 1) (.node x) = walkPrev h m (last .null (a ++ b)) := by
        simp [walkPrev, deref, e1, e2]
      rw [this]
      exact ih b h1 (by simpa using hm)

/-- The list of `info` consists of the elements `ids`. -/
structure DL (h : Heap) (info : Info) (ids : List Nat) : Prop where
  head : info.head = first ids .null
  tail : info.tail = last .null ids
  ccnt : info.ccnt = ids.length
  seg : Seg h .null ids .null
  nodup : ids.Nodup

theorem elemFind_spec {h : Heap} {info : Info} {a b : List Nat} (hd : DL h info (a ++ b)) (hb : b = [] → a = []) :
    elemFind h info a.length = some (first b .null) := by
  unfold elemFind
  have hc := hd.ccnt
  rw [hc]
  split
  · rw [if_neg (by omega), hd.head]
    exact walkNext_seg a b hd.seg
  · rename_i hlt
    have hbne : b ≠ [] := by rintro rfl; have := hb rfl; subst this; simp at hlt
    obtain ⟨x, b', rfl⟩ := List.exists_cons_of_ne_nil hbne
    simp only [List.length_append, List.length_cons] at *
    rw [if_neg (by omega), hd.tail]
    have hx : a ++ x :: b' = (a ++ [x]) ++ b' := by simp
    have h1 := hd.seg
    rw [hx] at h1 ⊢
    have := walkPrev_seg (a ++ [x]) b' h1
    rw [last_snoc] at this
    have e : ((↑(a.length + (b'.length + 1)) : Int) - 1 - (a.length : Int)).toNat = b'.length := by omega
    rw [e, this]; rfl

/-- Insertion of an unlinked element. -/
theorem elemLink_spec {s : St} {info : Info} {a b : List Nat} {i : Nat} {e : Elem} (hd : DL s.heap info (a ++ b))
    (hi : s.heap i = some e) (hni : i ∉ a ++ b) :
    ∃ s' info', elemLink s info a.length i = some (s', info') ∧ DL s'.heap info' (a ++ i :: b) ∧
      s'.nextId = s.nextId ∧ s'.list = s.list ∧
      info' = { info with head := info'.head, tail := info'.tail, ccnt := info'.ccnt } ∧
      (∀ j, j ∉ a ++ i :: b → s'.heap j = s.heap j) ∧ (∀ j, (s'.heap j).map core = (s.heap j).map core) := by
  have hnd := hd.nodup
  obtain ⟨na, nb, nab⟩ := List.nodup_append.mp hnd
  have hia : i ∉ a := fun h => hni (by simp [h])
  have hib : i ∉ b := fun h => hni (by simp [h])
  have hpn : linkPlace s.heap info a.length = some (last .null a, first b .null) := by
    unfold linkPlace
    rcases List.eq_nil_or_concat a with rfl | ⟨a', x, rfl⟩
    · simp [last, hd.head]
    · rw [List.concat_eq_append] at *
      rw [if_neg (by simp only [List.length_append, List.length_cons, List.length_nil]; omega)]
      split
      · rename_i hge
        rw [hd.ccnt] at hge
        have : b = [] := by
          rw [← List.length_eq_zero_iff]; simp only [List.length_append, List.length_cons, List.length_nil] at hge; omega
        subst this
        simp [hd.tail, first]
      · have hs := hd.seg
        have hx : (a' ++ [x]) ++ b = a' ++ x :: b := by simp
        have hd' := hd; rw [hx] at hd'
        have hf := elemFind_spec hd' (by simp)
        have e1 : ((a' ++ [x]).length : Int) - 1 = a'.length := by simp
        rw [e1, hf]
        rw [hx, seg_append] at hs
        obtain ⟨-, ⟨ex, q1, q2, q3⟩, -⟩ := hs
        simp [first, deref, q1, q3, last_snoc]
  have h0s : ∀ j ∈ a ++ b, upd s.heap i (some { e with prev := last .null a, next := first b .null }) j = s.heap j :=
    fun j hj => upd_ne _ _ (by rintro rfl; exact hni hj)
  have hseg := seg_append.mp (seg_frame h0s hd.seg)
  -- first pointer
  unfold elemLink
  rw [if_neg (by omega)]
  simp only [hpn, hi]
  generalize hh0 : upd s.heap i (some { e with prev := last .null a, next := first b .null }) = h0 at *
  have h0core : ∀ j, (h0 j).map core = (s.heap j).map core := by
    intro j; subst hh0
    by_cases hj : j = i
    · subst hj; rw [upd_self, hi]; rfl
    · rw [upd_ne _ _ hj]
  have h0i : h0 i = some { e with prev := last .null a, next := first b .null } := by subst hh0; exact upd_self _ _ _
  have h0o : ∀ j, j ≠ i → h0 j = s.heap j := by intro j hj; subst hh0; exact upd_ne _ _ hj
  obtain ⟨h1, info1, k1, k2, k3, k4, k5⟩ : ∃ h1 info1,
      (if last .null a = .null then some (h0, { info with head := .node i })
        else (setNext h0 (last .null a) (.node i)).map fun h => (h, info)) = some (h1, info1) ∧
      Seg h1 .null a (.node i) ∧ (∀ j, j ∉ a → h1 j = h0 j) ∧ (∀ j, (h1 j).map core = (h0 j).map core) ∧
      info1 = { info with head := first (a ++ [i]) .null } := by
    cases a with
    | nil => exact ⟨h0, { info with head := .node i }, by simp [last], trivial, fun _ _ => rfl, fun _ => rfl, rfl⟩
    | cons y a =>
      obtain ⟨h1, q1, q2, q3, q4⟩ := seg_setNext hseg.1 (by simp) na (.node i)
      refine ⟨h1, info, by rw [if_neg (last_ne_null (by simp)), q1]; rfl, q2, q3, q4, ?_⟩
      have := hd.head
      simp only [first, List.cons_append] at this ⊢
      rw [← this]
  rw [k1]
  simp only
  have sb1 : Seg h1 (last .null a) b .null :=
    seg_frame (fun j hj => k3 j (fun hja => nab j hja j hj rfl)) hseg.2
  obtain ⟨h2, info2, m1, m2, m3, m4, m5⟩ : ∃ h2 info2,
      (if first b .null = .null then some (h1, { info1 with tail := .node i })
        else (setPrev h1 (first b .null) (.node i)).map fun h => (h, info1)) = some (h2, info2) ∧
      Seg h2 (.node i) b .null ∧ (∀ j, j ∉ b → h2 j = h1 j) ∧ (∀ j, (h2 j).map core = (h1 j).map core) ∧
      info2 = { info1 with tail := last (.node i) b } := by
    cases b with
    | nil => exact ⟨h1, { info1 with tail := .node i }, by simp [first], trivial, fun _ _ => rfl, fun _ => rfl, rfl⟩
    | cons y b =>
      obtain ⟨h2, q1, q2, q3, q4⟩ := seg_setPrev sb1 (by simp) nb (.node i)
      refine ⟨h2, info1, by rw [if_neg (first_ne_null (by simp)), q1]; rfl, q2, q3, q4, ?_⟩
      have := hd.tail
      rw [last_append] at this
      have e2 : info1.tail = info.tail := by rw [k5]
      have e3 : last (.node i) (y :: b) = info1.tail := by rw [e2, this]; rfl
      rw [e3]
  rw [m1]
  simp only
  refine ⟨_, _, rfl, ⟨?_, ?_, ?_, ?_, ?_⟩, rfl, rfl, ?_, ?_, ?_⟩
  · simp only [m5, k5]
    rw [show a ++ i :: b = (a ++ [i]) ++ b by simp, first_append (a ++ [i]) b]
    cases a <;> rfl
  · simp only [m5, k5]; rw [last_append]; rfl
  · simp only [m5, k5, hd.ccnt, List.length_append, List.length_cons]; omega
  · rw [seg_append]
    refine ⟨seg_frame (fun j hj => m3 j (fun hjb => nab j hj j hjb rfl)) k2,
      ⟨{ e with prev := last .null a, next := first b .null }, ?_, rfl, rfl⟩, m2⟩
    simp only; rw [m3 i hib, k3 i hia, h0i]
  · rw [List.nodup_append]
    refine ⟨na, List.nodup_cons.mpr ⟨hib, nb⟩, ?_⟩
    intro x hx y hy hxy
    rcases List.mem_cons.mp hy with rfl | hy
    · subst hxy; exact hia hx
    · exact nab x hx y hy hxy
  · simp only [m5, k5]
  · intro j hj
    simp only [List.mem_append, List.mem_cons, not_or] at hj
    simp only
    rw [m3 j hj.2.2, k3 j hj.1, h0o j hj.2.1]
  · intro j; simp only; rw [m4, k4, h0core]

/-- What an element becomes when it is unlinked. -/
def unlinkedOf (e : Elem) : Option Elem :=
  if e.refcount = 0 then none else some { e with prev := .unlinked, next := .unlinked }

/-- Removal of a linked element. -/
theorem elemUnlink_spec {s : St} {info : Info} {a b : List Nat} {i : Nat} {e : Elem} (hd : DL s.heap info (a ++ i :: b))
    (hi : s.heap i = some e) :
    ∃ s' info', elemUnlink s info i = some (s', info') ∧ DL s'.heap info' (a ++ b) ∧
      s'.nextId = s.nextId ∧ s'.list = s.list ∧
      info' = { info with head := info'.head, tail := info'.tail, ccnt := info'.ccnt } ∧
      (∀ j, j ∉ a ++ i :: b → s'.heap j = s.heap j) ∧ (∀ j, j ≠ i → (s'.heap j).map core = (s.heap j).map core) ∧
      s'.heap i = unlinkedOf e := by
  obtain ⟨na, nib, nab⟩ := List.nodup_append.mp hd.nodup
  obtain ⟨hib, nb⟩ := List.nodup_cons.mp nib
  have hia : i ∉ a := fun h => nab i h i (by simp) rfl
  have hseg := seg_append.mp hd.seg
  obtain ⟨sa, ⟨e', e1, e2, e3⟩, sb⟩ := hseg
  rw [hi] at e1; injection e1 with e1; subst e1
  have nab' : ∀ x ∈ a, x ∉ b := fun x hx hxb => nab x hx x (by simp [hxb]) rfl
  unfold elemUnlink
  simp only [hi, e2, e3]
  obtain ⟨h1, info1, k1, k2, k3, k4, k5⟩ : ∃ h1 info1,
      (if last .null a = .null then some (s.heap, { info with head := first b .null })
        else (setNext s.heap (last .null a) (first b .null)).map fun h => (h, info)) = some (h1, info1) ∧
      Seg h1 .null a (first b .null) ∧ (∀ j, j ∉ a → h1 j = s.heap j) ∧ (∀ j, (h1 j).map core = (s.heap j).map core) ∧
      info1 = { info with head := first (a ++ b) .null } := by
    cases a with
    | nil => exact ⟨s.heap, { info with head := first b .null }, by simp [last], trivial, fun _ _ => rfl, fun _ => rfl, rfl⟩
    | cons y a =>
      obtain ⟨h1, q1, q2, q3, q4⟩ := seg_setNext sa (by simp) na (first b .null)
      refine ⟨h1, info, by rw [if_neg (last_ne_null (by simp)), q1]; rfl, q2, q3, q4, ?_⟩
      have := hd.head
      simp only [first, List.cons_append] at this ⊢
      rw [← this]
  rw [k1]
  simp only
  have sb1 : Seg h1 (.node i) b .null := seg_frame (fun j hj => k3 j (fun hja => nab' j hja hj)) sb
  obtain ⟨h2, info2, m1, m2, m3, m4, m5⟩ : ∃ h2 info2,
      (if first b .null = .null then some (h1, { info1 with tail := last .null a })
        else (setPrev h1 (first b .null) (last .null a)).map fun h => (h, info1)) = some (h2, info2) ∧
      Seg h2 (last .null a) b .null ∧ (∀ j, j ∉ b → h2 j = h1 j) ∧ (∀ j, (h2 j).map core = (h1 j).map core) ∧
      info2 = { info1 with tail := last .null (a ++ b) } := by
    cases b with
    | nil => exact ⟨h1, { info1 with tail := last .null a }, by simp [first], trivial, fun _ _ => rfl, fun _ => rfl, by simp⟩
    | cons y b =>
      obtain ⟨h2, q1, q2, q3, q4⟩ := seg_setPrev sb1 (by simp) nb (last .null a)
      refine ⟨h2, info1, by rw [if_neg (first_ne_null (by simp)), q1]; rfl, q2, q3, q4, ?_⟩
      have := hd.tail
      rw [last_append] at this
      have e2 : info1.tail = info.tail := by rw [k5]
      have e3 : last .null (a ++ y :: b) = info1.tail := by rw [e2, this, last_append]; rfl
      rw [e3]
  rw [m1]
  have h2i : h2 i = some e := by rw [m3 i hib, k3 i hia, hi]
  simp only [h2i]
  have hfin : ∀ v : Option Elem, DL (upd h2 i v) { info2 with ccnt := info2.ccnt - 1 } (a ++ b) := by
    intro v
    refine ⟨?_, ?_, ?_, ?_, ?_⟩
    · simp only [m5, k5]
    · simp only [m5]
    · simp only [m5, k5, hd.ccnt, List.length_append, List.length_cons]; omega
    · rw [seg_append]
      constructor
      · refine seg_frame (fun j hj => ?_) k2
        rw [upd_ne _ _ (by rintro rfl; exact hia hj), m3 j (nab' j hj)]
      · exact seg_frame (fun j hj => upd_ne _ _ (by rintro rfl; exact hib hj)) m2
    · rw [List.nodup_append]; exact ⟨na, nb, fun x hx y hy hxy => nab' x hx (hxy ▸ hy)⟩
  have hout : ∀ j, j ∉ a ++ i :: b → h2 j = s.heap j := by
    intro j hj
    simp only [List.mem_append, List.mem_cons, not_or] at hj
    rw [m3 j hj.2.2, k3 j hj.1]
  by_cases hr : e.refcount = 0
  · rw [if_pos hr]
    simp only [elemFree, upd_self, hr, ne_eq, not_true_eq_false, if_false, Option.map_some]
    have hu : ∀ v : Option Elem, upd (upd h2 i v) i none = upd h2 i none := by
      intro v; funext j; simp only [upd]; split <;> rfl
    rw [hu]
    refine ⟨_, _, rfl, hfin none, rfl, rfl, by simp only [m5, k5], ?_, ?_, ?_⟩
    · intro j hj
      simp only; rw [upd_ne _ _ (by rintro rfl; simp at hj), hout j hj]
    · intro j hj; simp only; rw [upd_ne _ _ hj, m4, k4]
    · simp only [upd_self, unlinkedOf, hr, if_true]
  · rw [if_neg hr]
    refine ⟨_, _, rfl, hfin _, rfl, rfl, by simp only [m5, k5], ?_, ?_, ?_⟩
    · intro j hj
      simp only; rw [upd_ne _ _ (by rintro rfl; simp at hj), hout j hj]
    · intro j hj; simp only; rw [upd_ne _ _ hj, m4, k4]
    · simp only [upd_self, unlinkedOf, hr, if_false]

/-- Heap effect of removing the elements `D` from the list `ids`. -/
structure Removed (h h' : Heap) (ids D : List Nat) : Prop where
  out : ∀ j, j ∉ ids → h' j = h j
  keep : ∀ j, j ∉ D → (h' j).map core = (h j).map core
  gone : ∀ j, j ∈ D → ∃ e, h j = some e ∧ (h' j).map (fun e => (core e, e.prev, e.next)) =
    if e.refcount = 0 then none else some (core e, .unlinked, .unlinked)

theorem unlinkedOf_map (e : Elem) : (unlinkedOf e).map (fun e => (core e, e.prev, e.next)) =
    if e.refcount = 0 then none else some (core e, .unlinked, .unlinked) := by
  unfold unlinkedOf; split <;> rfl

/-- Number of elements `do_list_elem_delete` takes from a tail of length `n`. -/
def takeCnt (count n : Nat) : Nat := if count = 0 then n else min count n

theorem deleteLoop_spec (count : Nat) (b : List Nat) : ∀ (fuel : Nat) (s : St) (info : Info) (a : List Nat) (f : Nat),
    DL s.heap info (a ++ b) → b.length ≤ fuel → (count = 0 ∨ f < count) →
    ∃ s' info' , deleteLoop count fuel s info (first b .null) f = some (s', info', f + takeCnt (count - f) b.length) ∧
      DL s'.heap info' (a ++ b.drop (takeCnt (count - f) b.length)) ∧ s'.nextId = s.nextId ∧ s'.list = s.list ∧
      info' = { info with head := info'.head, tail := info'.tail, ccnt := info'.ccnt } ∧
      Removed s.heap s'.heap (a ++ b) (b.take (takeCnt (count - f) b.length)) := by
  induction b with
  | nil =>
    intro fuel s info a f hd _ _
    refine ⟨s, info, ?_, by simpa using hd, rfl, rfl, rfl, fun _ _ => rfl, fun _ _ => rfl, fun j hj => by simp at hj⟩
    cases fuel <;> simp [deleteLoop, first, takeCnt]
  | cons i b ih =>
    intro fuel s info a f hd hfu hcf
    cases fuel with
    | zero => simp at hfu
    | succ fuel =>
      obtain ⟨-, ⟨e, e1, e2, e3⟩, -⟩ := seg_append.mp hd.seg
      obtain ⟨s1, info1, u1, u2, u3, u4, u5, u6, u7, u8⟩ := elemUnlink_spec hd e1
      have hin : i ∉ a ++ b := by
        have := hd.nodup
        rw [List.nodup_append] at this
        intro h
        rcases List.mem_append.mp h with h | h
        · exact this.2.2 i h i (by simp) rfl
        · exact (List.nodup_cons.mp this.2.1).1 h
      simp only [deleteLoop, first, e1, u1]
      by_cases hc : 0 < count ∧ count ≤ f + 1
      · rw [if_pos hc]
        have ht : takeCnt (count - f) (i :: b).length = 1 := by
          have : count - f = 1 := by omega
          simp only [takeCnt, this, List.length_cons]
          rw [if_neg (by omega)]; omega
        rw [ht]
        refine ⟨s1, info1, rfl, by simpa using u2, u3, u4, u5, u6, ?_, ?_⟩
        · intro j hj; exact u7 j (by simpa using hj)
        · intro j hj
          have : j = i := by simpa using hj
          subst this
          exact ⟨e, e1, by rw [u8]; exact unlinkedOf_map e⟩
      · rw [if_neg hc, e3]
        obtain ⟨s2, info2, v1, v2, v3, v4, v5, v6⟩ := ih fuel s1 info1 a (f + 1) u2 (by simpa using hfu) (by omega)
        have ht : takeCnt (count - f) (i :: b).length = takeCnt (count - (f + 1)) b.length + 1 := by
          unfold takeCnt
          by_cases h0 : count = 0
          · simp [h0]
          · rw [if_neg (by omega), if_neg (by omega)]; simp only [List.length_cons]; omega
        rw [ht]
        refine ⟨s2, info2, ?_, by simpa using v2, v3.trans u3, v4.trans u4, ?_, ?_, ?_, ?_⟩
        · rw [v1]; congr 3; omega
        · rw [v5, u5]
        · intro j hj
          rw [v6.out j (by intro h; apply hj; rcases List.mem_append.mp h with h | h <;> simp [h]), u6 j hj]
        · intro j hj
          simp only [List.take_succ_cons, List.mem_cons, not_or] at hj
          rw [v6.keep j hj.2, u7 j hj.1]
        · intro j hj
          simp only [List.take_succ_cons, List.mem_cons] at hj
          rcases hj with rfl | hj
          · refine ⟨e, e1, ?_⟩
            rw [v6.out j hin, u8]; exact unlinkedOf_map e
          · have hji : j ≠ i := by
              rintro rfl; exact hin (by simp [List.mem_of_mem_take hj])
            obtain ⟨e', g1, g2⟩ := v6.gone j hj
            have hco := u7 j hji
            rw [g1] at hco
            cases hx : s.heap j with
            | none => rw [hx] at hco; simp at hco
            | some e'' =>
              rw [hx] at hco
              simp only [Option.map_some, Option.some.injEq] at hco
              refine ⟨e'', rfl, ?_⟩
              rw [g2, hco]
              have : e'.refcount = e''.refcount := by simpa [core] using congrArg Prod.fst hco
              rw [this]

theorem elemDelete_spec {s : St} {info : Info} {a b : List Nat} (hd : DL s.heap info (a ++ b)) (hb : b = [] → a = []) (count : Nat) :
    ∃ s' info', elemDelete s info a.length count = some (s', info', takeCnt count b.length) ∧
      DL s'.heap info' (a ++ b.drop (takeCnt count b.length)) ∧ s'.nextId = s.nextId ∧ s'.list = s.list ∧
      info' = { info with head := info'.head, tail := info'.tail, ccnt := info'.ccnt } ∧
      Removed s.heap s'.heap (a ++ b) (b.take (takeCnt count b.length)) := by
  obtain ⟨s', info', h1, h2⟩ := deleteLoop_spec count b (info.ccnt.toNat + 1) s info a 0 hd
    (by rw [hd.ccnt]; simp; omega) (by omega)
  refine ⟨s', info', ?_, by simpa using h2⟩
  unfold elemDelete
  rw [elemFind_spec hd hb]
  simpa using h1

/-- Heap effect of reading the elements `D`, and removing them from the list if `del`. -/
structure Read (del : Bool) (h h' : Heap) (ids D : List Nat) : Prop where
  out : ∀ j, j ∉ ids → h' j = h j
  keep : ∀ j, j ∉ D → (h' j).map core = (h j).map core
  read : ∀ j, j ∈ D → ∃ e e', h j = some e ∧ h' j = some e' ∧ core e' = (e.refcount + 1, e.value) ∧
    (del = true → e'.prev = .unlinked ∧ e'.next = .unlinked)

/-- Changing the reference count of an element does not disturb the links. -/
theorem DL.ref {h : Heap} {info : Info} {ids : List Nat} (hd : DL h info ids) {i : Nat} {e : Elem} (hi : h i = some e) (r : Nat) :
    DL (upd h i (some { e with refcount := r })) info ids := by
  refine ⟨hd.head, hd.tail, hd.ccnt, ?_, hd.nodup⟩
  have : ∀ p n, Seg h p ids n → Seg (upd h i (some { e with refcount := r })) p ids n := by
    generalize ids = l
    induction l with
    | nil => intro _ _ _; trivial
    | cons x l ih =>
      rintro p n ⟨⟨e', q1, q2, q3⟩, q4⟩
      refine ⟨?_, ih _ _ q4⟩
      by_cases hx : x = i
      · subst hx
        rw [hi] at q1; injection q1 with q1; subst q1
        exact ⟨_, upd_self _ _ _, q2, q3⟩
      · exact ⟨e', by rw [upd_ne _ _ hx]; exact q1, q2, q3⟩
  exact this _ _ hd.seg

/-- One round of the reading loop. -/
theorem getRound {s : St} {info : Info} {a b : List Nat} {i : Nat} {e : Elem} (del : Bool) (hd : DL s.heap info (a ++ i :: b))
    (hi : s.heap i = some e) (hr : e.refcount + 1 < 2 ^ 16) :
    ∃ s' info', (if del then elemUnlink { s with heap := upd s.heap i (some { e with refcount := (e.refcount + 1) % 2 ^ 16 }) } info i
        else some ({ s with heap := upd s.heap i (some { e with refcount := (e.refcount + 1) % 2 ^ 16 }) }, info)) = some (s', info') ∧
      DL s'.heap info' (if del then a ++ b else a ++ i :: b) ∧ s'.nextId = s.nextId ∧ s'.list = s.list ∧
      info' = { info with head := info'.head, tail := info'.tail, ccnt := info'.ccnt } ∧
      Read del s.heap s'.heap (a ++ i :: b) [i] := by
  rw [Nat.mod_eq_of_lt hr]
  have hd1 := hd.ref hi (e.refcount + 1)
  cases del with
  | false =>
    refine ⟨_, _, rfl, hd1, rfl, rfl, rfl, ?_, ?_, ?_⟩
    · intro j hj; exact upd_ne _ _ (by rintro rfl; simp at hj)
    · intro j hj
      have : j ≠ i := by simpa using hj
      simp only; rw [upd_ne _ _ this]
    · intro j hj
      have : j = i := by simpa using hj
      subst this
      exact ⟨e, _, hi, upd_self _ _ _, rfl, by simp⟩
  | true =>
    obtain ⟨s', info', u1, u2, u3, u4, u5, u6, u7, u8⟩ := elemUnlink_spec
      (s := { s with heap := upd s.heap i (some { e with refcount := e.refcount + 1 }) }) hd1 (upd_self _ _ _)
    refine ⟨s', info', u1, u2, u3, u4, u5, ?_, ?_, ?_⟩
    · intro j hj; rw [u6 j hj]; exact upd_ne _ _ (by rintro rfl; simp at hj)
    · intro j hj
      have : j ≠ i := by simpa using hj
      rw [u7 j this]; simp only; rw [upd_ne _ _ this]
    · intro j hj
      have : j = i := by simpa using hj
      subst this
      refine ⟨e, { e with refcount := e.refcount + 1, prev := .unlinked, next := .unlinked }, hi, ?_, rfl, fun _ => ⟨rfl, rfl⟩⟩
      rw [u8]; simp [unlinkedOf]

theorem Read.comp {del : Bool} {h h1 h2 : Heap} {ids ids1 D : List Nat} {i : Nat} (r1 : Read del h h1 ids [i])
    (r2 : Read del h1 h2 ids1 D) (hsub : ∀ j, j ∉ ids → j ∉ ids1) (hiD : i ∉ D) (hi1 : del = true → i ∉ ids1) :
    Read del h h2 ids (i :: D) := by
  refine ⟨?_, ?_, ?_⟩
  · intro j hj; rw [r2.out j (hsub j hj), r1.out j hj]
  · intro j hj
    simp only [List.mem_cons, not_or] at hj
    rw [r2.keep j hj.2, r1.keep j (by simpa using hj.1)]
  · intro j hj
    by_cases hji : j = i
    · subst hji
      obtain ⟨e, e', q1, q2, q3, q4⟩ := r1.read j (by simp)
      cases del with
      | true => exact ⟨e, e', q1, by rw [r2.out j (hi1 rfl)]; exact q2, q3, q4⟩
      | false =>
        have hc := r2.keep j hiD
        rw [q2] at hc
        cases hx : h2 j with
        | none => rw [hx] at hc; simp at hc
        | some e2 =>
          rw [hx] at hc
          simp only [Option.map_some, Option.some.injEq] at hc
          exact ⟨e, e2, q1, rfl, by rw [hc, q3], by simp⟩
    · have hjD : j ∈ D := by simpa [hji] using hj
      obtain ⟨e, e', q1, q2, q3, q4⟩ := r2.read j hjD
      have hc := r1.keep j (by simpa using hji)
      rw [q1] at hc
      cases hx : h j with
      | none => rw [hx] at hc; simp at hc
      | some e0 =>
        rw [hx] at hc
        simp only [Option.map_some, Option.some.injEq, core, Prod.mk.injEq] at hc
        exact ⟨e0, e', rfl, q2, by rw [q3, hc.1, hc.2], q4⟩

theorem core_ref {h h1 : Heap} {j : Nat} {e1 : Elem} (hc : (h1 j).map core = (h j).map core) (h1j : h1 j = some e1) :
    ∃ e, h j = some e ∧ e.refcount = e1.refcount ∧ e.value = e1.value := by
  rw [h1j] at hc
  cases hx : h j with
  | none => rw [hx] at hc; simp at hc
  | some e0 =>
    rw [hx] at hc
    simp only [Option.map_some, Option.some.injEq, core, Prod.mk.injEq] at hc
    exact ⟨e0, rfl, hc.1.symm, hc.2.symm⟩

theorem getLoop_forward (cap : Nat) (del : Bool) (b : List Nat) : ∀ (fuel : Nat) (s : St) (info : Info) (a : List Nat) (arr : List Nat),
    DL s.heap info (a ++ b) → b.length ≤ fuel → arr.length < cap → cap - arr.length ≤ b.length →
    (∀ j ∈ b, ∀ e, s.heap j = some e → e.refcount + 1 < 2 ^ 16) →
    ∃ s' info', getLoop cap cap true del fuel s info (first b .null) arr =
        some (s', info', arr.reverse ++ b.take (cap - arr.length)) ∧
      DL s'.heap info' (a ++ if del then b.drop (cap - arr.length) else b) ∧ s'.nextId = s.nextId ∧ s'.list = s.list ∧
      info' = { info with head := info'.head, tail := info'.tail, ccnt := info'.ccnt } ∧
      Read del s.heap s'.heap (a ++ b) (b.take (cap - arr.length)) := by
  induction b with
  | nil => intro fuel s info a arr hd _ h1 h2; simp at h2; omega
  | cons i b ih =>
    intro fuel s info a arr hd hfu h1 h2 hrc
    cases fuel with
    | zero => simp at hfu
    | succ fuel =>
      obtain ⟨-, ⟨e, e1, e2, e3⟩, -⟩ := seg_append.mp hd.seg
      obtain ⟨s1, info1, u1, u2, u3, u4, u5, u6⟩ := getRound del hd e1 (hrc i (by simp) e e1)
      have hin : i ∉ a ++ b := by
        have := hd.nodup
        rw [List.nodup_append] at this
        intro h
        rcases List.mem_append.mp h with h | h
        · exact this.2.2 i h i (by simp) rfl
        · exact (List.nodup_cons.mp this.2.1).1 h
      simp only [getLoop, first, e1, if_true]
      rw [if_neg (by omega), u1]
      simp only
      by_cases hc : 0 < cap ∧ cap ≤ arr.length + 1
      · rw [if_pos hc]
        have ht : cap - arr.length = 1 := by omega
        rw [ht]
        refine ⟨s1, info1, by simp, ?_, u3, u4, u5, by simpa using u6⟩
        cases del <;> simpa using u2
      · rw [if_neg hc, e3]
        have hd1 : DL s1.heap info1 ((if del then a else a ++ [i]) ++ b) := by
          cases del <;> simpa using u2
        obtain ⟨s2, info2, v1, v2, v3, v4, v5, v6⟩ := ih fuel s1 info1 (if del then a else a ++ [i]) (i :: arr) hd1
          (by simpa using hfu) (by simp; omega) (by simp at h2 ⊢; omega) (by
            intro j hj e' he'
            have hji : j ≠ i := by rintro rfl; exact hin (by simp [hj])
            obtain ⟨e0, q1, q2, -⟩ := core_ref (u6.keep j (by simpa using hji)) he'
            have := hrc j (by simp [hj]) e0 q1; omega)
        have ht : cap - arr.length = (cap - (i :: arr).length) + 1 := by simp; omega
        rw [ht]
        refine ⟨s2, info2, by rw [v1]; simp, ?_, v3.trans u3, v4.trans u4, by rw [v5, u5], ?_⟩
        · cases del <;> simpa using v2
        · rw [List.take_succ_cons]
          refine Read.comp u6 v6 ?_ ?_ ?_
          · intro j hj hj1; apply hj
            cases del <;> simp at hj1 ⊢ <;> grind
          · intro h; exact hin (by simp [List.mem_of_mem_take h])
          · rintro rfl; simpa using hin

theorem getLoop_backward (cap : Nat) (del : Bool) (a : List Nat) : ∀ (fuel : Nat) (s : St) (info : Info) (b : List Nat) (arr : List Nat),
    DL s.heap info (a.reverse ++ b) → a.length ≤ fuel → arr.length < cap → cap - arr.length ≤ a.length →
    (∀ j ∈ a, ∀ e, s.heap j = some e → e.refcount + 1 < 2 ^ 16) →
    ∃ s' info', getLoop cap cap false del fuel s info (last .null a.reverse) arr =
        some (s', info', arr.reverse ++ a.take (cap - arr.length)) ∧
      DL s'.heap info' ((if del then (a.drop (cap - arr.length)).reverse else a.reverse) ++ b) ∧
      s'.nextId = s.nextId ∧ s'.list = s.list ∧
      info' = { info with head := info'.head, tail := info'.tail, ccnt := info'.ccnt } ∧
      Read del s.heap s'.heap (a.reverse ++ b) (a.take (cap - arr.length)) := by
  induction a with
  | nil => intro fuel s info a arr hd _ h1 h2; simp at h2; omega
  | cons i a ih =>
    intro fuel s info b arr hd hfu h1 h2 hrc
    cases fuel with
    | zero => simp at hfu
    | succ fuel =>
      have hd' : DL s.heap info (a.reverse ++ i :: b) := by simpa using hd
      obtain ⟨-, ⟨e, e1, e2, e3⟩, -⟩ := seg_append.mp hd'.seg
      obtain ⟨s1, info1, u1, u2, u3, u4, u5, u6⟩ := getRound del hd' e1 (hrc i (by simp) e e1)
      have hin : i ∉ a.reverse ++ b := by
        have := hd'.nodup
        rw [List.nodup_append] at this
        intro h
        rcases List.mem_append.mp h with h | h
        · exact this.2.2 i h i (by simp) rfl
        · exact (List.nodup_cons.mp this.2.1).1 h
      have hl : last .null (i :: a).reverse = .node i := by rw [List.reverse_cons, last_snoc]
      rw [hl]
      simp only [getLoop, e1, Bool.false_eq_true, if_false]
      rw [if_neg (by omega), u1]
      simp only
      by_cases hc : 0 < cap ∧ cap ≤ arr.length + 1
      · rw [if_pos hc]
        have ht : cap - arr.length = 1 := by omega
        rw [ht]
        refine ⟨s1, info1, by simp, ?_, u3, u4, u5, by simpa using u6⟩
        cases del <;> simpa using u2
      · rw [if_neg hc, e2]
        have hd1 : DL s1.heap info1 (a.reverse ++ (if del then b else i :: b)) := by
          cases del <;> simpa using u2
        obtain ⟨s2, info2, v1, v2, v3, v4, v5, v6⟩ := ih fuel s1 info1 (if del then b else i :: b) (i :: arr) hd1
          (by simpa using hfu) (by simp; omega) (by simp at h2 ⊢; omega) (by
            intro j hj e' he'
            have hji : j ≠ i := by rintro rfl; exact hin (by simp [hj])
            obtain ⟨e0, q1, q2, -⟩ := core_ref (u6.keep j (by simpa using hji)) he'
            have := hrc j (by simp [hj]) e0 q1; omega)
        have ht : cap - arr.length = (cap - (i :: arr).length) + 1 := by simp; omega
        rw [ht]
        refine ⟨s2, info2, by rw [v1]; simp, ?_, v3.trans u3, v4.trans u4, by rw [v5, u5], ?_⟩
        · cases del <;> simpa using v2
        · rw [List.take_succ_cons]
          have : (i :: a).reverse ++ b = a.reverse ++ i :: b := by simp
          rw [this]
          refine Read.comp u6 v6 ?_ ?_ ?_
          · intro j hj hj1; apply hj
            cases del <;> simp at hj1 ⊢ <;> grind
          · intro h; exact hin (by simp [List.mem_of_mem_take h])
          · rintro rfl; simpa using hin

end Verif.Lst
