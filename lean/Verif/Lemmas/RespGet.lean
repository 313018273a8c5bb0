import Verif.Lemmas.RespMany
/-!
# Replies to `get` and `getattr`
-/
namespace Verif.Resp
open Verif.Util (showNat safeHexatostr showNat_spec hexDigit)
open Verif.BT (BKey)
open Verif.Resp.Spec

theorem suffix_eq {t : List Nat} {n : Nat} (h : t.length ≤ 23) (hn : n ≤ t.length) : suffix t n = some (t.take n) := by
  have e : t.take (24 - 1) = t := List.take_of_length_le h
  simp only [suffix, suffixSize, e, List.length_append, List.length_cons, List.length_nil]
  rw [if_pos (by omega), List.take_append_of_le_length hn]

theorem hinfo_flatten (it : Item) : (hinfo it).flatten = it.value ++ it.addnl.flatten := by
  simp only [hinfo]
  by_cases hv : 0 < it.value.length
  · rw [if_pos hv]; simp
  · have : it.value = [] := List.eq_nil_of_length_eq_zero (by omega)
    rw [if_neg hv, this]; simp

theorem suffix_len {cas : Bool} {it : Item} {x : Hit} (h : StoredI cas it x) : (suffixText it).length ≤ 23 ∧ minus2 it.nbytes = x.2.2.1.length := by
  obtain ⟨_, h2, _, h4, _, _, h7, h8, _⟩ := h
  have e : minus2 it.nbytes = x.2.2.1.length := by rw [minus2, h4, if_pos (by omega)]; omega
  refine ⟨?_, e⟩
  have := u32_len (h2 ▸ h7)
  have := showNat_len 8 x.2.2.1.length (by omega)
  simp only [suffixText, e, List.length_append, List.length_cons, List.length_nil]; omega

/-- The text of a hit. -/
def hitText (cas : Bool) (it : Item) : List Nat :=
  [86, 65, 76, 85, 69] ++ [32] ++ it.key ++ [32] ++ showNat it.flags ++ [32] ++ showNat (minus2 it.nbytes) ++
    (if cas then [32] ++ showNat it.cas else []) ++ [13, 10] ++ (it.value ++ it.addnl.flatten)

theorem getSingle_eq {cas : Bool} {it : Item} {x : Hit} (h : StoredI cas it x) : ∃ ps, getSingle cas it = some ps ∧ ps.flatten = hitText cas it := by
  obtain ⟨h1, _⟩ := suffix_len h
  have hc : (showNat it.cas).length ≤ 20 := showNat_len 19 _ (Nat.lt_trans h.2.2.2.2.2.2.2.2 (by decide))
  cases cas with
  | true =>
    have e1 : suffix (suffixText it) ((suffixText it).length - 2) = some ([32] ++ showNat it.flags ++ [32] ++ showNat (minus2 it.nbytes)) := by
      rw [suffix_eq h1 (by omega)]
      have : (suffixText it).length - 2 = ([32] ++ showNat it.flags ++ [32] ++ showNat (minus2 it.nbytes)).length := by simp [suffixText]; omega
      rw [this, suffixText, List.take_left' rfl]
    have e2 : suffix ([32] ++ showNat it.cas ++ [13, 10]) ([32] ++ showNat it.cas ++ [13, 10]).length = some ([32] ++ showNat it.cas ++ [13, 10]) := by
      rw [suffix_eq (by simp; omega) (Nat.le_refl _), List.take_length]
    refine ⟨_, by simp only [getSingle, if_true, e1, Option.bind_eq_bind, Option.bind_some, e2]; rfl, ?_⟩
    simp [hinfo_flatten, hitText]
  | false =>
    have e1 : suffix (suffixText it) (suffixText it).length = some (suffixText it) := by rw [suffix_eq h1 (Nat.le_refl _), List.take_length]
    refine ⟨_, by simp only [getSingle, Bool.false_eq_true, if_false, e1, Option.bind_eq_bind, Option.bind_some]; rfl, ?_⟩
    simp [hinfo_flatten, hitText, suffixText]

theorem getReply_eq {cas : Bool} {its : List Item} {xs : List Hit} (h : Each (StoredI cas) its xs) :
    ∃ ps, getReply cas its = some ps ∧ ps.flatten = its.flatMap (hitText cas) ++ tEnd := by
  induction h with
  | nil => exact ⟨_, rfl, by simp⟩
  | cons h1 _ ih =>
    obtain ⟨a, e1, t1⟩ := getSingle_eq h1
    obtain ⟨b, e2, t2⟩ := ih
    exact ⟨a ++ b, by simp [getReply, e1, e2], by simp [t1, t2]⟩

theorem gets_read {cas : Bool} {its : List Item} {xs : List Hit} (h : Each (StoredI cas) its xs) :
    ∀ (k : Nat), its.length < k → ∀ rest, Spec.gets k (its.flatMap (hitText cas) ++ tEnd ++ rest) = some (xs, rest) := by
  induction h with
  | nil => intro k hk rest; obtain ⟨k, rfl⟩ : ∃ k', k = k' + 1 := ⟨k - 1, by simp at hk; omega⟩; rfl
  | cons hx _ ih =>
    rename_i it x its xs _
    intro k hk rest
    obtain ⟨k, rfl⟩ : ∃ k', k = k' + 1 := ⟨k - 1, by simp at hk; omega⟩
    have ih := ih k (by simp at hk; omega) rest
    obtain ⟨_, hm⟩ := suffix_len hx
    obtain ⟨key, f, d, c⟩ := x
    obtain ⟨h1, h2, h3, h4, h5, h6, h7, h8, h9⟩ := hx
    simp only at h1 h2 h3 h5 h6 hm
    have e : ∀ cas, (it :: its).flatMap (hitText cas) ++ tEnd ++ rest =
        ([86, 65, 76, 85, 69] ++ [32] ++ key ++ [32] ++ showNat f ++ [32] ++ showNat d.length ++ (if cas then [32] ++ showNat it.cas else [])) ++ [13, 10] ++
          (d ++ ([13, 10] ++ (its.flatMap (hitText cas) ++ tEnd ++ rest))) := by
      intro cas
      simp [hitText, h1, h2, h3, hm]
    cases cas with
    | true =>
      simp only [if_true] at h5
      rw [e, Spec.gets, line_end (by simp [showNat10, h6.2.2])]
      simp only [Option.bind_eq_bind, Option.bind_some, if_true, ← List.append_assoc]
      rw [words_five (by decide) h6.2.1 (showNat32 _) (showNat32 _) (showNat32 _)]
      have hb := block_app (d := d) (r := its.flatMap (hitText true) ++ tEnd ++ rest)
      simp only [← List.append_assoc] at hb
      simp only [number_showNat, Option.bind_some, hb, ih, h5]
    | false =>
      simp only [Bool.false_eq_true, if_false] at h5
      rw [e, Spec.gets, line_end (by simp [showNat10, h6.2.2])]
      simp only [Option.bind_eq_bind, Option.bind_some, Bool.false_eq_true, if_false, List.append_nil]
      rw [words_four (by decide) h6.2.1 (showNat32 _) (showNat32 _)]
      simp only [number_showNat, Option.bind_some, block_app, ih, h5]

/-! ## Attributes -/

theorem showInt_not {i : Int} {c : Nat} (h : c < 45 ∨ 57 < c) : c ∉ showInt i := by
  unfold showInt
  split
  · simp only [List.mem_cons, not_or]; exact ⟨by omega, showNat_not (by omega)⟩
  · exact showNat_not (by omega)

theorem showInt_len {i : Int} (h : Num32 i) : (showInt i).length ≤ 11 := by
  obtain ⟨h1, h2⟩ := h
  have := showNat_len 9 i.natAbs (by omega)
  unfold showInt
  split
  · simp only [List.length_cons]; omega
  · omega

theorem integer_nat (n : Nat) : integer (showNat n) = some (n : Int) := by
  have h := number_showNat n
  have hd := showNat_digits n
  unfold integer
  split
  · rename_i r e
    have := hd 45 (by rw [e]; simp)
    omega
  · rw [h]; rfl

theorem integer_read (i : Int) : integer (showInt i) = some i := by
  unfold showInt
  split
  · rw [show integer (45 :: showNat i.natAbs) = (number (showNat i.natAbs)).map (fun n => -(n : Int)) from rfl, number_showNat]
    exact congrArg some (by simp only; omega)
  · rw [integer_nat]; simp only [Option.some.injEq]; omega

/-- The bytes behind `=`. -/
def attrVal (a : Attrs) : AttrId → List Nat
  | .type => typeStr a.type
  | .flags => showNat a.flags
  | .exptime => showInt a.left
  | .count => showInt a.count
  | .maxcount => showInt a.maxcount
  | .ovfl => ovflStr a.ovfl
  | .readable => if a.readable then [111, 110] else [111, 102, 102]
  | .maxrange => (a.maxrange.map bkeyText).getD [48]
  | .minbkey => if 0 < a.count then bkeyText a.minbkey else [45, 49]
  | .maxbkey => if 0 < a.count then bkeyText a.maxbkey else [45, 49]
  | .trimmed => if a.trimmed then [49] else [48]

/-- The name of an attribute. -/
def attrName : AttrId → List Nat
  | .type => [116, 121, 112, 101]
  | .flags => [102, 108, 97, 103, 115]
  | .exptime => [101, 120, 112, 105, 114, 101, 116, 105, 109, 101]
  | .count => [99, 111, 117, 110, 116]
  | .maxcount => [109, 97, 120, 99, 111, 117, 110, 116]
  | .ovfl => [111, 118, 101, 114, 102, 108, 111, 119, 97, 99, 116, 105, 111, 110]
  | .readable => [114, 101, 97, 100, 97, 98, 108, 101]
  | .maxrange => [109, 97, 120, 98, 107, 101, 121, 114, 97, 110, 103, 101]
  | .minbkey => [109, 105, 110, 98, 107, 101, 121]
  | .maxbkey => [109, 97, 120, 98, 107, 101, 121]
  | .trimmed => [116, 114, 105, 109, 109, 101, 100]

/-- The line of an attribute without its end. -/
def attrText (a : Attrs) (i : AttrId) : List Nat := [65, 84, 84, 82, 32] ++ attrName i ++ [61] ++ attrVal a i

theorem bkeyText_nz (k : BKey) : 0 ∉ bkeyText k := by
  cases k with
  | num v => exact showNat_nz v
  | bin b => simp [bkeyText, hex_nz]

theorem strlenAux_app' {s r : List Nat} {n : Nat} (h : 0 ∉ s) (hr : strlenAux r = some n) : strlenAux (s ++ r) = some (s.length + n) := by
  induction s with
  | nil => simp [hr]
  | cons b s ih =>
    simp only [List.mem_cons, not_or] at h
    simp only [List.cons_append, strlenAux, if_neg (Ne.symm h.1), ih h.2, Option.map_some, List.length_cons, Option.some.injEq]; omega

theorem Grow.strlen {mem p mem' p' w1 w2 n} (g : Grow mem p mem' p' (w1 ++ w2)) (hz : 0 ∉ w1) (hs : strlen mem' (p + w1.length) = some n) :
    Resp.strlen mem' p = some (w1.length + n) := by
  have hb := g.bytes
  have g2 := g.2.1
  simp only [List.length_append] at g2
  have e : (mem'.drop p).take w1.length = w1 := by
    have : ((mem'.drop p).take (p' - p)).take w1.length = (w1 ++ w2).take w1.length := by rw [hb]
    rwa [List.take_take, Nat.min_eq_left (by omega), List.take_left' rfl] at this
  have e2 : mem'.drop p = w1 ++ mem'.drop (p + w1.length) := by
    rw [← List.drop_drop]
    conv => lhs; rw [← List.take_append_drop w1.length (mem'.drop p), e]
  rw [Resp.strlen, e2]
  exact strlenAux_app' hz hs

theorem attrBkey_spec {mem name : List Nat} {p : Nat} {k : BKey} (hn : 0 ∉ name) (h : p + (name ++ bkeyText k ++ [13, 10]).length + 1 ≤ mem.length) :
    ∃ mem', attrBkey mem p name k = some mem' ∧ Grow mem p mem' (p + (name ++ bkeyText k ++ [13, 10]).length) (name ++ bkeyText k ++ [13, 10]) ∧
      strlen mem' p = some (name ++ bkeyText k ++ [13, 10]).length := by
  cases k with
  | num v =>
    obtain ⟨m, e, g, s⟩ := sprintf_spec (mem := mem) (p := p) (w := name ++ showNat v ++ [13, 10]) h (by simp [hn, showNat_nz])
    exact ⟨m, e, g, s⟩
  | bin b =>
    simp only [bkeyText, List.length_append, List.length_cons, List.length_nil] at h
    obtain ⟨m1, e1, g1, s1⟩ := sprintf_spec (mem := mem) (p := p) (w := name ++ [48, 120]) (by simp; omega) (by simp [hn])
    have := g1.1
    obtain ⟨m2, e2, g2, s2⟩ := sprintf_spec (mem := m1) (p := p + (name ++ [48, 120]).length) (w := safeHexatostr b) (by simp; omega) (hex_nz b)
    have := g2.1
    obtain ⟨m3, e3, g3, s3⟩ := sprintf_spec (mem := m2) (p := p + (name ++ [48, 120]).length + (safeHexatostr b).length) (w := [13, 10]) (by simp; omega) (by decide)
    have g := (g1.trans g2).trans g3
    have et : name ++ bkeyText (.bin b) ++ [13, 10] = name ++ [48, 120] ++ safeHexatostr b ++ [13, 10] := by simp [bkeyText]
    refine ⟨m3, by simp only [attrBkey, e1, s1, e2, s2, e3, Option.bind_eq_bind, Option.bind_some], ?_, ?_⟩
    · rw [et]
      have : p + (name ++ [48, 120] ++ safeHexatostr b ++ [13, 10]).length = p + (name ++ [48, 120]).length + (safeHexatostr b).length + [13, 10].length := by
        simp only [List.length_append]; omega
      rw [this]; exact g
    · have g' := (g1.trans g2).trans g3
      have := g'.strlen (w1 := name ++ [48, 120] ++ safeHexatostr b) (by simp [hn, hex_nz]) (n := 2)
        (by rw [List.length_append, ← Nat.add_assoc]; exact s3)
      rw [et, this]; simp only [List.length_append, List.length_cons, List.length_nil]

/-- The line of an attribute. -/
def attrAll (a : Attrs) (i : AttrId) : List Nat := attrText a i ++ [13, 10]

theorem attrVal_ok {a : Attrs} {i : AttrId} (h : AttrOk a i) :
    0 ∉ attrVal a i ∧ 10 ∉ attrVal a i ∧ 32 ∉ attrVal a i ∧ (attrName i).length + (attrVal a i).length ≤ 76 := by
  cases i with
  | type =>
    simp only [AttrOk] at h
    have : a.type = 0 ∨ a.type = 1 ∨ a.type = 2 ∨ a.type = 3 ∨ a.type = 4 := by omega
    rcases this with e | e | e | e | e <;> simp only [attrVal, e] <;> decide
  | flags =>
    have := u32_len h
    exact ⟨showNat_nz _, showNat10 _, showNat32 _, by simp only [attrName, attrVal, List.length_cons, List.length_nil]; omega⟩
  | exptime => have := showInt_len h; exact ⟨showInt_not (by omega), showInt_not (by omega), showInt_not (by omega), by simp only [attrName, attrVal, List.length_cons, List.length_nil]; omega⟩
  | count => have := showInt_len h; exact ⟨showInt_not (by omega), showInt_not (by omega), showInt_not (by omega), by simp only [attrName, attrVal, List.length_cons, List.length_nil]; omega⟩
  | maxcount => have := showInt_len h; exact ⟨showInt_not (by omega), showInt_not (by omega), showInt_not (by omega), by simp only [attrName, attrVal, List.length_cons, List.length_nil]; omega⟩
  | ovfl =>
    simp only [AttrOk] at h
    have : a.ovfl = 1 ∨ a.ovfl = 2 ∨ a.ovfl = 3 ∨ a.ovfl = 4 ∨ a.ovfl = 5 ∨ a.ovfl = 6 ∨ a.ovfl = 7 := by omega
    rcases this with e | e | e | e | e | e | e <;> simp only [attrVal, e] <;> decide
  | readable => simp only [attrVal]; cases a.readable <;> decide
  | maxrange =>
    simp only [AttrOk] at h
    simp only [attrVal]
    cases hm : a.maxrange with
    | none => decide
    | some k =>
      have := bkeyText_len (h k hm)
      exact ⟨bkeyText_nz k, bkeyText_not (h k hm) (by omega), bkeyText_not (h k hm) (by omega), by simp only [attrName, Option.map_some, Option.getD_some, List.length_cons, List.length_nil]; omega⟩
  | minbkey =>
    simp only [AttrOk] at h
    simp only [attrVal]
    split
    · rename_i hc
      have := bkeyText_len (h hc)
      exact ⟨bkeyText_nz _, bkeyText_not (h hc) (by omega), bkeyText_not (h hc) (by omega), by simp only [attrName, List.length_cons, List.length_nil]; omega⟩
    · decide
  | maxbkey =>
    simp only [AttrOk] at h
    simp only [attrVal]
    split
    · rename_i hc
      have := bkeyText_len (h hc)
      exact ⟨bkeyText_nz _, bkeyText_not (h hc) (by omega), bkeyText_not (h hc) (by omega), by simp only [attrName, List.length_cons, List.length_nil]; omega⟩
    · decide
  | trimmed => simp only [attrVal]; cases a.trimmed <;> decide

theorem attrAll_ok {a : Attrs} {i : AttrId} (h : AttrOk a i) : 0 ∉ attrAll a i ∧ (attrAll a i).length ≤ 84 := by
  obtain ⟨h1, _, _, h4⟩ := attrVal_ok h
  refine ⟨?_, by simp only [attrAll, attrText, List.length_append, List.length_cons, List.length_nil]; omega⟩
  simp only [attrAll, attrText, List.mem_append, not_or]
  exact ⟨⟨⟨⟨by decide, by cases i <;> decide⟩, by decide⟩, h1⟩, by decide⟩

theorem attrLine_spec {mem : List Nat} {p : Nat} {a : Attrs} {i : AttrId} (ha : AttrOk a i) (h : p + (attrAll a i).length + 1 ≤ mem.length) :
    ∃ mem', attrLine mem p a i = some (mem', p + (attrAll a i).length) ∧ Grow mem p mem' (p + (attrAll a i).length) (attrAll a i) := by
  obtain ⟨h0, _⟩ := attrAll_ok ha
  have plain : ∀ w, w = attrAll a i → ∃ mem', sprintf mem p w = some mem' ∧
      Grow mem p mem' (p + (attrAll a i).length) (attrAll a i) ∧ strlen mem' p = some (attrAll a i).length := by
    intro w hw; subst hw; exact sprintf_spec h h0
  have bk : ∀ name k, 0 ∉ name → name ++ bkeyText k ++ [13, 10] = attrAll a i → ∃ mem', attrBkey mem p name k = some mem' ∧
      Grow mem p mem' (p + (attrAll a i).length) (attrAll a i) ∧ strlen mem' p = some (attrAll a i).length := by
    intro name k hn hw
    have := attrBkey_spec (mem := mem) (p := p) (k := k) hn (by rw [hw]; exact h)
    rwa [hw] at this
  have fin : ∀ (o : Option (List Nat)), (∃ mem', o = some mem' ∧ Grow mem p mem' (p + (attrAll a i).length) (attrAll a i) ∧ strlen mem' p = some (attrAll a i).length) →
      ∃ mem', (do let mem ← o; let n ← strlen mem p; some (mem, p + n)) = some (mem', p + (attrAll a i).length) ∧
        Grow mem p mem' (p + (attrAll a i).length) (attrAll a i) := by
    rintro o ⟨m, rfl, g, s⟩
    exact ⟨m, by simp only [Option.bind_eq_bind, Option.bind_some, s], g⟩
  unfold attrLine
  refine fin _ ?_
  unfold attrPrint
  cases i with
  | maxrange =>
    cases hm : a.maxrange with
    | none => simp only; exact plain _ (by simp [attrAll, attrText, attrName, attrVal, hm])
    | some k => simp only; exact bk _ _ (by decide) (by simp [attrAll, attrText, attrName, attrVal, hm])
  | minbkey =>
    simp only
    split
    · rename_i hc; exact bk _ _ (by decide) (by simp [attrAll, attrText, attrName, attrVal, hc])
    · rename_i hc; exact plain _ (by simp [attrAll, attrText, attrName, attrVal, hc])
  | maxbkey =>
    simp only
    split
    · rename_i hc; exact bk _ _ (by decide) (by simp [attrAll, attrText, attrName, attrVal, hc])
    · rename_i hc; exact plain _ (by simp [attrAll, attrText, attrName, attrVal, hc])
  | _ => simp only; exact plain _ (by simp [attrAll, attrText, attrName, attrVal])

theorem attrLoop_spec {a : Attrs} : ∀ (ids : List AttrId) (mem : List Nat) (p : Nat), (∀ i ∈ ids, AttrOk a i) → p + ids.length * 84 + 1 ≤ mem.length →
    ∃ mem', attrLoop a mem p ids = some (mem', p + (ids.flatMap (attrAll a)).length) ∧
      Grow mem p mem' (p + (ids.flatMap (attrAll a)).length) (ids.flatMap (attrAll a)) ∧ (ids.flatMap (attrAll a)).length ≤ ids.length * 84 ∧
      0 ∉ ids.flatMap (attrAll a) := by
  intro ids
  induction ids with
  | nil => intro mem p _ h; exact ⟨mem, rfl, Grow.nil (by simp at h; omega), by simp, by simp⟩
  | cons i ids ih =>
    intro mem p ha h
    obtain ⟨z, l⟩ := attrAll_ok (ha i List.mem_cons_self)
    simp only [List.length_cons] at h
    obtain ⟨m1, e1, g1⟩ := attrLine_spec (mem := mem) (p := p) (ha i List.mem_cons_self) (by omega)
    obtain ⟨m2, e2, g2, l2, z2⟩ := ih m1 (p + (attrAll a i).length) (fun j hj => ha j (List.mem_cons_of_mem _ hj)) (by have := g1.1; omega)
    have el : p + ((i :: ids).flatMap (attrAll a)).length = p + (attrAll a i).length + (ids.flatMap (attrAll a)).length := by
      rw [List.flatMap_cons, List.length_append]; omega
    refine ⟨m2, ?_, ?_, ?_, ?_⟩
    · rw [el, attrLoop, e1]; exact e2
    · rw [el, List.flatMap_cons]; exact g1.trans g2
    · rw [List.flatMap_cons, List.length_append, List.length_cons]; omega
    · rw [List.flatMap_cons, List.mem_append, not_or]; exact ⟨z, z2⟩

theorem typeName_read {n : Nat} (h : n ≤ 4) : typeName (typeStr n) = some n := by
  have : n = 0 ∨ n = 1 ∨ n = 2 ∨ n = 3 ∨ n = 4 := by omega
  rcases this with rfl | rfl | rfl | rfl | rfl <;> rfl

theorem ovflName_read {n : Nat} (h1 : 1 ≤ n) (h2 : n ≤ 7) : ovflName (ovflStr n) = some n := by
  have : n = 1 ∨ n = 2 ∨ n = 3 ∨ n = 4 ∨ n = 5 ∨ n = 6 ∨ n = 7 := by omega
  rcases this with rfl | rfl | rfl | rfl | rfl | rfl | rfl <;> rfl

theorem bkeyVal_read {k : BKey} (h : BkeyOk k) : bkeyVal (bkeyText k) = some (.bkey k) := by
  rw [bkeyVal, if_neg, bkey_read h]
  · rfl
  · intro e
    exact bkeyText_not h (c := 45) (by omega) (by rw [e]; simp)

theorem split_app {n v : List Nat} (h : 61 ∉ n) : split (n ++ 61 :: v) = some (n, v) := by
  induction n with
  | nil => simp [split]
  | cons b n ih =>
    simp only [List.mem_cons, not_or] at h
    simp only [List.cons_append, split, if_neg (Ne.symm h.1), ih h.2, Option.map_some]

theorem attr_read {a : Attrs} {i : AttrId} (h : AttrOk a i) : attr (attrName i ++ 61 :: attrVal a i) = some (i, attrOf a i) := by
  rw [attr, split_app (by cases i <;> decide)]
  cases i with
  | type => simp [attrName, attrVal, attrOf, typeName_read h]
  | flags => simp [attrName, attrVal, attrOf, integer_nat]
  | exptime => simp [attrName, attrVal, attrOf, integer_read]
  | count => simp [attrName, attrVal, attrOf, integer_read]
  | maxcount => simp [attrName, attrVal, attrOf, integer_read]
  | ovfl => simp [attrName, attrVal, attrOf, ovflName_read h.1 h.2]
  | readable => cases hr : a.readable <;> simp [attrName, attrVal, attrOf, hr]
  | maxrange =>
    cases hm : a.maxrange with
    | none => simp only [attrOf, attrName, attrVal, hm]; rfl
    | some k => simp [attrName, attrVal, attrOf, hm, bkeyVal_read (h k hm)]
  | minbkey =>
    by_cases hc : 0 < a.count
    · simp [attrName, attrVal, attrOf, hc, bkeyVal_read (h hc)]
    · simp only [attrOf, attrName, attrVal, if_neg hc]; rfl
  | maxbkey =>
    by_cases hc : 0 < a.count
    · simp [attrName, attrVal, attrOf, hc, bkeyVal_read (h hc)]
    · simp only [attrOf, attrName, attrVal, if_neg hc]; rfl
  | trimmed => cases hr : a.trimmed <;> simp only [attrOf, attrName, attrVal, hr] <;> rfl

theorem attrs_read {a : Attrs} : ∀ {ids : List AttrId}, (∀ i ∈ ids, AttrOk a i) → ∀ (k : Nat), ids.length < k → ∀ rest,
    attrs k (ids.flatMap (attrAll a) ++ tEnd ++ rest) = some (ids.map (fun i => (i, attrOf a i)), rest) := by
  intro ids
  induction ids with
  | nil => intro _ k hk rest; obtain ⟨k, rfl⟩ : ∃ k', k = k' + 1 := ⟨k - 1, by simp at hk; omega⟩; rfl
  | cons i ids ih =>
    intro ha k hk rest
    obtain ⟨k, rfl⟩ : ∃ k', k = k' + 1 := ⟨k - 1, by simp at hk; omega⟩
    have ih := ih (fun j hj => ha j (List.mem_cons_of_mem _ hj)) k (by simp at hk; omega) rest
    have hi := ha i List.mem_cons_self
    obtain ⟨_, h10, h32, _⟩ := attrVal_ok hi
    have e : (i :: ids).flatMap (attrAll a) ++ tEnd ++ rest =
        ([65, 84, 84, 82] ++ 32 :: (attrName i ++ 61 :: attrVal a i)) ++ [13, 10] ++ (ids.flatMap (attrAll a) ++ tEnd ++ rest) := by
      simp [attrAll, attrText]
    have n10 : 10 ∉ attrName i := by cases i <;> decide
    have n32 : 32 ∉ attrName i := by cases i <;> decide
    rw [e, attrs, line_end (by simp [h10, n10])]
    simp only [Option.bind_eq_bind, Option.bind_some]
    rw [words_app (by decide), words_one (by simp [h32, n32])]
    simp only [attr_read hi, Option.bind_some, ih, List.map_cons]

end Verif.Resp
