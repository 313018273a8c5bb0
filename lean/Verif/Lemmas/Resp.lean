import Verif.Spec.Resp
import Verif.Lemmas.Parse
/-!
# The reply buffer: every printed piece stays where it is
-/
namespace Verif.Resp
open Verif.Util (showNat safeHexatostr showNat_spec)
open Verif.BT (BKey)

theorem showNat_len : ∀ (d n : Nat), n < 10 ^ (d + 1) → (showNat n).length ≤ d + 1 := by
  intro d
  induction d with
  | zero =>
    intro n h
    rw [showNat, if_pos (by omega)]; simp
  | succ d ih =>
    intro n h
    rw [showNat]
    split
    · simp
    · have := ih (n / 10) (by rw [Nat.pow_succ] at h; omega)
      simp only [List.length_append, List.length_cons, List.length_nil]; omega

theorem showNat_nz (n : Nat) : 0 ∉ showNat n := fun h => by
  have := (showNat_spec n).2.1 0 h; simp [Verif.Util.Spec.Digit] at this

theorem hex_nz (b : List Nat) : 0 ∉ safeHexatostr b := by
  intro h
  simp only [safeHexatostr, List.mem_flatMap] at h
  obtain ⟨x, _, h⟩ := h
  simp only [List.mem_cons, List.not_mem_nil, or_false, Verif.Util.hexDigit] at h
  rcases h with h | h <;> (split at h <;> omega)

theorem hex_length (b : List Nat) : (safeHexatostr b).length = 2 * b.length := by
  induction b with
  | nil => rfl
  | cons x b ih =>
    have : safeHexatostr (x :: b) = Verif.Util.hexDigit (x / 16) :: Verif.Util.hexDigit (x % 16) :: safeHexatostr b := rfl
    rw [this]; simp only [List.length_cons, ih]; omega

/-- `mem` has become `mem'` by writing `w` at `p`, and nothing before `p` has changed. -/
def Grow (mem : List Nat) (p : Nat) (mem' : List Nat) (p' : Nat) (w : List Nat) : Prop :=
  mem'.length = mem.length ∧ p' = p + w.length ∧ p' ≤ mem.length ∧ mem'.take p' = mem.take p ++ w

theorem Grow.trans {mem p mem1 p1 w1 mem2 p2 w2} (a : Grow mem p mem1 p1 w1) (b : Grow mem1 p1 mem2 p2 w2) :
    Grow mem p mem2 p2 (w1 ++ w2) := by
  obtain ⟨a1, a2, a3, a4⟩ := a; obtain ⟨b1, b2, b3, b4⟩ := b
  refine ⟨by omega, by simp; omega, by omega, ?_⟩
  rw [b4, a4, List.append_assoc]

theorem Grow.nil {mem p} (h : p ≤ mem.length) : Grow mem p mem p [] := ⟨rfl, rfl, h, by simp⟩

theorem write_spec {mem w : List Nat} {p : Nat} (h : p + w.length ≤ mem.length) :
    ∃ mem', write mem p w = some mem' ∧ Grow mem p mem' (p + w.length) w := by
  refine ⟨_, by rw [write, if_pos h], ?_, rfl, h, ?_⟩
  · simp; omega
  · rw [List.take_append_of_le_length (by simp; omega), List.take_of_length_le (by simp; omega)]

theorem strlenAux_app {s r : List Nat} (h : 0 ∉ s) : strlenAux (s ++ 0 :: r) = some s.length := by
  induction s with
  | nil => simp [strlenAux]
  | cons b s ih =>
    simp only [List.mem_cons, not_or] at h
    simp only [List.cons_append, strlenAux, if_neg (Ne.symm h.1), ih h.2, Option.map_some, List.length_cons]

theorem sprintf_spec {mem w : List Nat} {p : Nat} (h : p + w.length + 1 ≤ mem.length) (hz : 0 ∉ w) :
    ∃ mem', sprintf mem p w = some mem' ∧ Grow mem p mem' (p + w.length) w ∧ strlen mem' p = some w.length := by
  have e : write mem p (w ++ [0]) = some (mem.take p ++ (w ++ [0]) ++ mem.drop (p + (w ++ [0]).length)) := by
    rw [write, if_pos (by simp; omega)]
  refine ⟨_, e, ⟨by simp; omega, rfl, by omega, ?_⟩, ?_⟩
  · have hl : (mem.take p ++ w).length = p + w.length := by simp; omega
    rw [← List.append_assoc (mem.take p) w, List.append_assoc (mem.take p ++ w)]
    rw [List.take_append_of_le_length (by omega), List.take_of_length_le (by omega)]
  · have hl : (mem.take p).length = p := by simp; omega
    rw [strlen, List.append_assoc, List.drop_append_of_le_length (by omega), List.drop_of_length_le (by omega), List.nil_append,
      List.append_assoc, List.singleton_append]
    exact strlenAux_app hz

/-! ## Texts -/

/-- A bkey in a reply. -/
def bkeyText : BKey → List Nat
  | .num v => showNat v
  | .bin b => [48, 120] ++ safeHexatostr b

/-- An element flag in a reply, with the blank before it. -/
def eflagText (f : List Nat) : List Nat := if 0 < f.length then [32, 48, 120] ++ safeHexatostr f else []

/-- The length of the data. -/
def lenText (e : Elem) : List Nat := [32] ++ showNat (vlen e) ++ [32]

theorem makeBkey_spec {mem p k} (h : p + (bkeyText k).length + 1 ≤ mem.length) :
    ∃ mem' p', makeBkey mem p k = some (mem', p') ∧ Grow mem p mem' p' (bkeyText k) := by
  cases k with
  | num v =>
    obtain ⟨m1, e1, g1, s1⟩ := sprintf_spec (mem := mem) (p := p) (w := showNat v) h (showNat_nz v)
    exact ⟨m1, _, by simp [makeBkey, e1, s1], g1⟩
  | bin b =>
    simp only [bkeyText, List.length_append, List.length_cons, List.length_nil] at h
    obtain ⟨m1, e1, g1⟩ := write_spec (mem := mem) (p := p) (w := [48, 120]) (by simp; omega)
    obtain ⟨m2, e2, g2, s2⟩ := sprintf_spec (mem := m1) (p := p + 2) (w := safeHexatostr b) (by have := g1.1; omega) (hex_nz b)
    exact ⟨m2, _, by simp [makeBkey, e1, e2, s2], g1.trans g2⟩

theorem makeEflag_spec {mem p f} (h : p + (eflagText f).length + 1 ≤ mem.length) :
    ∃ mem' p', makeEflag mem p f = some (mem', p') ∧ Grow mem p mem' p' (eflagText f) := by
  by_cases hf : 0 < f.length
  · simp only [eflagText, if_pos hf, List.length_append, List.length_cons, List.length_nil] at h ⊢
    obtain ⟨m1, e1, g1⟩ := write_spec (mem := mem) (p := p) (w := [32, 48, 120]) (by simp; omega)
    obtain ⟨m2, e2, g2, s2⟩ := sprintf_spec (mem := m1) (p := p + 3) (w := safeHexatostr f) (by have := g1.1; omega) (hex_nz f)
    exact ⟨m2, _, by simp [makeEflag, hf, e1, e2, s2], g1.trans g2⟩
  · simp only [eflagText, if_neg hf] at h ⊢
    exact ⟨mem, p, by simp only [makeEflag, if_neg hf], Grow.nil (by simp at h; omega)⟩

theorem makeLen_spec {mem p e} (h : p + (lenText e).length + 1 ≤ mem.length) :
    ∃ mem' p', makeLen mem p e = some (mem', p') ∧ Grow mem p mem' p' (lenText e) := by
  obtain ⟨m1, e1, g1, s1⟩ := sprintf_spec (mem := mem) (p := p) (w := lenText e) h
    (by simp only [lenText, List.mem_append, List.mem_singleton, showNat_nz]; simp)
  refine ⟨m1, _, ?_, g1⟩
  unfold makeLen
  unfold lenText at e1 s1
  rw [e1]
  simp only [Option.bind_eq_bind, Option.bind_some, s1]
  rfl

/-- The text of a b+tree element before its data. -/
def bopText (e : Elem) : List Nat := bkeyText e.bkey ++ eflagText e.eflag ++ lenText e

theorem makeBop_spec {mem p e} (h : p + (bopText e).length + 1 ≤ mem.length) :
    ∃ mem' p', makeBop mem p e = some (mem', p') ∧ Grow mem p mem' p' (bopText e) := by
  simp only [bopText, List.length_append] at h
  obtain ⟨m1, p1, e1, g1⟩ := makeBkey_spec (mem := mem) (p := p) (k := e.bkey) (by omega)
  obtain ⟨m2, p2, e2, g2⟩ := makeEflag_spec (mem := m1) (p := p1) (f := e.eflag) (by have := g1.1; have := g1.2.1; omega)
  obtain ⟨m3, p3, e3, g3⟩ := makeLen_spec (mem := m2) (p := p2) (e := e)
    (by have := g1.1; have := g1.2.1; have := g2.1; have := g2.2.1; omega)
  exact ⟨m3, p3, by simp [makeBop, e1, e2, e3], (g1.trans g2).trans g3⟩

theorem makeMop_spec {mem p e} (hf : e.field ≠ []) (h : p + (e.field ++ lenText e).length + 1 ≤ mem.length) :
    ∃ mem' p', makeMop mem p e = some (mem', p') ∧ Grow mem p mem' p' (e.field ++ lenText e) := by
  simp only [List.length_append] at h
  obtain ⟨m1, e1, g1⟩ := write_spec (mem := mem) (p := p) (w := e.field) (by omega)
  obtain ⟨m2, p2, e2, g2⟩ := makeLen_spec (mem := m1) (p := p + e.field.length) (e := e) (by have := g1.1; omega)
  exact ⟨m2, p2, by simp [makeMop, hf, e1, e2], g1.trans g2⟩

/-- The text of a trimmed key behind the key. -/
def trimText (k : BKey) : List Nat := [32] ++ bkeyText k ++ [13, 10]

theorem makeTrim_spec {mem p k} (h : p + (trimText k).length + 1 ≤ mem.length) :
    ∃ mem' p', makeTrim mem p k = some (mem', p') ∧ Grow mem p mem' p' (trimText k) := by
  simp only [trimText, List.length_append, List.length_cons, List.length_nil] at h
  obtain ⟨m1, e1, g1⟩ := write_spec (mem := mem) (p := p) (w := [32]) (by simp; omega)
  obtain ⟨m2, p2, e2, g2⟩ := makeBkey_spec (mem := m1) (p := p + 1) (k := k) (by have := g1.1; omega)
  obtain ⟨m3, e3, g3, _⟩ := sprintf_spec (mem := m2) (p := p2) (w := [13, 10])
    (by have := g1.1; have := g2.1; have := g2.2.1; simp; omega) (by decide)
  exact ⟨m3, p2 + 2, by simp [makeTrim, e1, e2, e3], (g1.trans g2).trans g3⟩

/-! ## The vector -/

/-- An entry lies before `p`. -/
def InR (p : Nat) : Piece → Prop
  | .buf off len => off + len ≤ p
  | .ext _ => True

/-- The reply so far is `t`, and what is printed from `s.ptr` on does not change it. -/
def Ok (s : St) (t : List Nat) : Prop := s.ptr ≤ s.mem.length ∧ (∀ x ∈ s.iov, InR s.ptr x) ∧ s.text = t

theorem bytes_grow {mem p mem' p' w} (g : Grow mem p mem' p' w) {x : Piece} (h : InR p x) : x.bytes mem' = x.bytes mem := by
  obtain ⟨g1, g2, g3, g4⟩ := g
  cases x with
  | ext bs => rfl
  | buf off len =>
    have h : off + len ≤ p := h
    simp only [Piece.bytes]
    have a : (mem'.take p').take p = (mem.take p ++ w).take p := by rw [g4]
    rw [List.take_take, Nat.min_eq_left (by omega), List.take_append_of_le_length (by simp; omega), List.take_take, Nat.min_self] at a
    have b : ((mem'.take p).drop off).take len = ((mem.take p).drop off).take len := by rw [a]
    rw [List.drop_take, List.drop_take, List.take_take, List.take_take, Nat.min_eq_left (by omega)] at b
    exact b

theorem text_grow {mem p mem' p' w} (g : Grow mem p mem' p' w) : ∀ {l : List Piece}, (∀ x ∈ l, InR p x) →
    l.flatMap (Piece.bytes mem') = l.flatMap (Piece.bytes mem) := by
  intro l
  induction l with
  | nil => intro _; rfl
  | cons x l ih =>
    intro h
    rw [List.flatMap_cons, List.flatMap_cons, bytes_grow g (h x List.mem_cons_self), ih fun y hy => h y (List.mem_cons_of_mem _ hy)]

theorem Grow.bytes {mem p mem' p' w} (g : Grow mem p mem' p' w) : (mem'.drop p).take (p' - p) = w := by
  obtain ⟨g1, g2, g3, g4⟩ := g
  have a : (mem'.take p').drop p = (mem.take p ++ w).drop p := by rw [g4]
  rw [List.drop_take, List.drop_append_of_le_length (by simp; omega), List.drop_of_length_le (l := mem.take p) (by simp; omega), List.nil_append] at a
  exact a

/-- A printed piece is added. -/
theorem Ok.buf {s : St} {t mem' p' w} (h : Ok s t) (g : Grow s.mem s.ptr mem' p' w) : Ok ⟨mem', p', s.iov ++ [.buf s.ptr (p' - s.ptr)]⟩ (t ++ w) := by
  obtain ⟨h1, h2, h3⟩ := h
  refine ⟨by have := g.1; have := g.2.2.1; simp only; omega, ?_, ?_⟩
  · intro x hx
    rcases List.mem_append.mp hx with hx | hx
    · have := h2 x hx
      have := g.2.1
      cases x with
      | ext _ => trivial
      | buf _ _ => simp only [InR] at *; omega
    · simp only [List.mem_singleton] at hx; subst hx
      have := g.2.1; simp only [InR]; omega
  · simp only [St.text, List.flatMap_append]
    rw [text_grow g h2, show s.iov.flatMap (Piece.bytes s.mem) = t from h3]
    simp only [List.flatMap_cons, List.flatMap_nil, List.append_nil, Piece.bytes, g.bytes]

theorem Ok.ext {s : St} {t} (h : Ok s t) (bs : List Nat) : Ok (ext s bs) (t ++ bs) := by
  obtain ⟨h1, h2, h3⟩ := h
  refine ⟨h1, ?_, ?_⟩
  · intro x hx
    rcases List.mem_append.mp hx with hx | hx
    · exact h2 x hx
    · simp only [List.mem_singleton] at hx; subst hx; trivial
  · simp only [St.text, Resp.ext, List.flatMap_append]
    rw [show s.iov.flatMap (Piece.bytes s.mem) = t from h3]
    simp [Piece.bytes]

theorem Ok.exts {s : St} {t} (h : Ok s t) : ∀ (bs : List (List Nat)), Ok (bs.foldl Resp.ext s) (t ++ bs.flatten) ∧
    (bs.foldl Resp.ext s).ptr = s.ptr ∧ (bs.foldl Resp.ext s).mem = s.mem := by
  intro bs
  induction bs generalizing s t with
  | nil => simpa using h
  | cons b bs ih =>
    obtain ⟨a1, a2, a3⟩ := ih (h.ext b)
    rw [List.foldl_cons, List.flatten_cons, ← List.append_assoc]
    exact ⟨a1, a2, a3⟩

theorem Ok.einfo {s : St} {t} (h : Ok s t) (e : Elem) : Ok (einfo s e) (t ++ (e.value ++ e.addnl.flatten)) ∧
    (einfo s e).ptr = s.ptr ∧ (einfo s e).mem = s.mem := by
  simp only [Resp.einfo]
  by_cases hv : 0 < e.value.length
  · rw [if_pos hv, ← List.append_assoc]
    exact (h.ext e.value).exts e.addnl
  · have : e.value = [] := List.eq_nil_of_length_eq_zero (by omega)
    rw [if_neg hv, this, List.nil_append]
    exact h.exts e.addnl

theorem emit_ok {s : St} {t w} (h : Ok s t) (hr : s.ptr + w.length + 1 ≤ s.mem.length) (hz : 0 ∉ w) :
    ∃ s', emit s w = some s' ∧ Ok s' (t ++ w) ∧ s'.mem.length = s.mem.length ∧ s'.ptr = s.ptr + w.length := by
  obtain ⟨m1, e1, g1, s1⟩ := sprintf_spec hr hz
  refine ⟨⟨m1, s.ptr + w.length, s.iov ++ [.buf s.ptr w.length]⟩, by simp [emit, e1, s1], ?_, g1.1, rfl⟩
  have := h.buf g1
  rwa [Nat.add_sub_cancel_left] at this

theorem emitLast_ok {s : St} {t w} (h : Ok s t) (hr : s.ptr + w.length + 1 ≤ s.mem.length) (hz : 0 ∉ w) :
    ∃ s', emitLast s w = some s' ∧ s'.text = t ++ w := by
  obtain ⟨m1, e1, g1, s1⟩ := sprintf_spec hr hz
  refine ⟨⟨m1, s.ptr, s.iov ++ [.buf s.ptr w.length]⟩, by simp [emitLast, e1, s1], ?_⟩
  have := (h.buf g1).2.2
  rwa [Nat.add_sub_cancel_left] at this

/-- A loop whose steps print at most `c` bytes each. -/
theorem each_ok {α : Type} {f : St → α → Option St} {tx : α → List Nat} {c : Nat} {P : α → Prop}
    (step : ∀ s t x, P x → Ok s t → s.ptr + c + 1 ≤ s.mem.length →
      ∃ s', f s x = some s' ∧ Ok s' (t ++ tx x) ∧ s'.mem.length = s.mem.length ∧ s'.ptr ≤ s.ptr + c) :
    ∀ (es : List α) (s : St) (t : List Nat), (∀ x ∈ es, P x) → Ok s t → s.ptr + es.length * c + 1 ≤ s.mem.length →
      ∃ s', each f s es = some s' ∧ Ok s' (t ++ es.flatMap tx) ∧ s'.mem.length = s.mem.length ∧ s'.ptr ≤ s.ptr + es.length * c := by
  intro es
  induction es with
  | nil => intro s t _ h _; exact ⟨s, rfl, by simpa using h, rfl, by simp⟩
  | cons x es ih =>
    intro s t hp h hr
    have e : (es.length + 1) * c = es.length * c + c := Nat.succ_mul _ _
    rw [List.length_cons, e] at hr
    obtain ⟨s1, e1, o1, l1, p1⟩ := step s t x (hp x List.mem_cons_self) h (by omega)
    obtain ⟨s2, e2, o2, l2, p2⟩ := ih s1 _ (fun y hy => hp y (List.mem_cons_of_mem _ hy)) o1 (by omega)
    refine ⟨s2, ?_, ?_, by omega, by rw [List.length_cons, e]; omega⟩
    · simp only [each] at e2 ⊢
      rw [List.foldlM_cons, e1]; exact e2
    · rw [List.flatMap_cons, ← List.append_assoc]; exact o2

/-- All text of a b+tree element. -/
def bopAll (e : Elem) : List Nat := bopText e ++ (e.value ++ e.addnl.flatten)

theorem bopElem0_ok {c : Nat} (s : St) (t : List Nat) (e : Elem) (hc : (bopText e).length ≤ c) (h : Ok s t) (hr : s.ptr + c + 1 ≤ s.mem.length) :
    ∃ s', bopElem0 s e = some s' ∧ Ok s' (t ++ bopAll e) ∧ s'.mem.length = s.mem.length ∧ s'.ptr ≤ s.ptr + c := by
  obtain ⟨m1, p1, e1, g1⟩ := makeBop_spec (mem := s.mem) (p := s.ptr) (e := e) (by omega)
  obtain ⟨a, b, d⟩ := (h.buf g1).einfo e
  refine ⟨_, by simp [bopElem0, e1]; rfl, ?_, ?_, ?_⟩
  · rw [bopAll, ← List.append_assoc]; exact a
  · rw [d]; exact g1.1
  · rw [b]; have := g1.2.1; simp only; omega

theorem bopElem_ok {c : Nat} (pre : List Nat) (hz : 0 ∉ pre) (s : St) (t : List Nat) (e : Elem) (hc : pre.length + (bopText e).length ≤ c) (h : Ok s t)
    (hr : s.ptr + c + 1 ≤ s.mem.length) :
    ∃ s', bopElem pre s e = some s' ∧ Ok s' (t ++ (pre ++ bopAll e)) ∧ s'.mem.length = s.mem.length ∧ s'.ptr ≤ s.ptr + c := by
  obtain ⟨m0, e0, g0, s0⟩ := sprintf_spec (mem := s.mem) (p := s.ptr) (w := pre) (by omega) hz
  obtain ⟨m1, p1, e1, g1⟩ := makeBop_spec (mem := m0) (p := s.ptr + pre.length) (e := e) (by have := g0.1; omega)
  have g := g0.trans g1
  obtain ⟨a, b, d⟩ := (h.buf g).einfo e
  refine ⟨_, by simp [bopElem, e0, s0, e1]; rfl, ?_, ?_, ?_⟩
  · rw [bopAll, ← List.append_assoc pre, ← List.append_assoc t]
    exact a
  · rw [d]; exact g.1
  · rw [b]; have := g0.2.1; have := g1.2.1; simp only; omega

/-- All text of a map element. -/
def mopAll (e : Elem) : List Nat := (e.field ++ lenText e) ++ (e.value ++ e.addnl.flatten)

theorem mopElem_ok {c : Nat} (s : St) (t : List Nat) (e : Elem) (hf : e.field ≠ []) (hc : (e.field ++ lenText e).length ≤ c) (h : Ok s t)
    (hr : s.ptr + c + 1 ≤ s.mem.length) :
    ∃ s', mopElem s e = some s' ∧ Ok s' (t ++ mopAll e) ∧ s'.mem.length = s.mem.length ∧ s'.ptr ≤ s.ptr + c := by
  obtain ⟨m1, p1, e1, g1⟩ := makeMop_spec (mem := s.mem) (p := s.ptr) (e := e) hf (by omega)
  obtain ⟨a, b, d⟩ := (h.buf g1).einfo e
  refine ⟨_, by simp [mopElem, e1]; rfl, ?_, ?_, ?_⟩
  · rw [mopAll, ← List.append_assoc]; exact a
  · rw [d]; exact g1.1
  · rw [b]; have := g1.2.1; simp only; omega

/-- All text of a list or set element. -/
def lopAll (e : Elem) : List Nat := (showNat (vlen e) ++ [32]) ++ (e.value ++ e.addnl.flatten)

theorem lopElem_ok {c : Nat} (s : St) (t : List Nat) (e : Elem) (hc : (showNat (vlen e) ++ [32]).length ≤ c) (h : Ok s t)
    (hr : s.ptr + c + 1 ≤ s.mem.length) :
    ∃ s', lopElem s e = some s' ∧ Ok s' (t ++ lopAll e) ∧ s'.mem.length = s.mem.length ∧ s'.ptr ≤ s.ptr + c := by
  obtain ⟨s1, e1, o1, l1, p1⟩ := emit_ok h (w := showNat (vlen e) ++ [32]) (by omega)
    (by simp only [List.mem_append, List.mem_singleton, showNat_nz]; simp)
  obtain ⟨a, b, d⟩ := o1.einfo e
  refine ⟨_, by simp [lopElem, e1]; rfl, ?_, ?_, ?_⟩
  · rw [lopAll, ← List.append_assoc]; exact a
  · rw [d]; exact l1
  · rw [b]; omega

end Verif.Resp
