import Verif.Spec.LogRec
/-! # Lemmas on writing and reading log records -/
set_option linter.unusedSimpArgs false
namespace Verif.Log
open Spec

theorem le_length (n v : Nat) : (le n v).length = n := by
  induction n generalizing v with
  | zero => rfl
  | succ n ih => simp [le, ih]

theorem unle_le (n v : Nat) : unle (le n v) = v % 256 ^ n := by
  induction n generalizing v with
  | zero => simp [le, unle, Nat.mod_one]
  | succ n ih =>
    simp only [le, unle, ih]
    rw [Nat.pow_succ, Nat.mul_comm (256 ^ n) 256, Nat.mod_mul]

theorem get_here (a rest : Bytes) (n : Nat) (h : n = a.length) : get (a ++ rest) 0 n = some a := by
  subst h
  simp [get]

theorem get_skip (a rest : Bytes) (k n : Nat) (h : a.length ≤ k) :
    get (a ++ rest) k n = get rest (k - a.length) n := by
  unfold get
  have e : (k + n ≤ (a ++ rest).length) = (k - a.length + n ≤ rest.length) := by
    simp only [List.length_append, eq_iff_iff]; omega
  simp only [e, List.drop_append]
  rw [List.drop_eq_nil_of_le h, List.nil_append]

theorem fld_here (v n : Nat) (rest : Bytes) (h : v < 256 ^ n) : fld (le n v ++ rest) 0 n = some v := by
  unfold fld
  rw [get_here _ _ _ (le_length n v).symm]
  simp [unle_le, Nat.mod_eq_of_lt h]

theorem fld_skip (a rest : Bytes) (k n : Nat) (h : a.length ≤ k) :
    fld (a ++ rest) k n = fld rest (k - a.length) n := by
  unfold fld; rw [get_skip _ _ _ _ h]

theorem fld_skip_le (m v : Nat) (rest : Bytes) (k n : Nat) (h : m ≤ k) :
    fld (le m v ++ rest) k n = fld rest (k - m) n := by
  rw [fld_skip _ _ _ _ (by rw [le_length]; exact h), le_length]

theorem fld_skip_cons (x : Nat) (rest : Bytes) (k n : Nat) (h : 1 ≤ k) :
    fld (x :: rest) k n = fld rest (k - 1) n :=
  fld_skip [x] rest k n h

theorem drop_le (m v : Nat) (rest : Bytes) (k : Nat) (h : m ≤ k) :
    (le m v ++ rest).drop k = rest.drop (k - m) := by
  rw [List.drop_append, List.drop_eq_nil_of_le (by rw [le_length]; exact h), le_length, List.nil_append]

theorem drop_cons' (x : Nat) (rest : Bytes) (k : Nat) (h : 1 ≤ k) :
    (x :: rest).drop k = rest.drop (k - 1) := by
  obtain ⟨k, rfl⟩ : ∃ j, k = j + 1 := ⟨k - 1, by omega⟩
  rfl

theorem get_add (a rest : Bytes) (k n : Nat) :
    get (a ++ rest) (a.length + k) n = get rest k n := by
  rw [get_skip _ _ _ _ (by omega)]; congr 1; omega

theorem get_len (a rest : Bytes) (n : Nat) :
    get (a ++ rest) a.length n = get rest 0 n := by
  rw [get_skip _ _ _ _ (by omega), Nat.sub_self]

theorem get_all (a rest : Bytes) : get (a ++ rest) 0 a.length = some a := get_here _ _ _ rfl

theorem fld_add (a rest : Bytes) (k n : Nat) :
    fld (a ++ rest) (a.length + k) n = fld rest k n := by unfold fld; rw [get_add]

theorem toI32_i32 {v : Int} (hl : -2147483648 ≤ v) (hu : v < 2147483648) : toI32 (i32 v) = v := by
  unfold toI32 i32; split <;> omega

theorem i32_lt (v : Int) : i32 v < 4294967296 := by unfold i32; omega

theorem align8_ge (n : Nat) : n ≤ align8 n := by unfold align8; split <;> omega
theorem align8_lt (n : Nat) : align8 n < n + 8 := by unfold align8; split <;> omega
theorem align8_mod (n : Nat) : align8 n % 8 = 0 := by unfold align8; split <;> omega

/-- The bytes copied behind the structure image. -/
def flat (ps : List (Bytes × Nat)) : Bytes := ps.flatMap fun p => p.1.take p.2

theorem put_at (pre rest d : Bytes) (h : d.length ≤ rest.length) :
    put (pre ++ rest) pre.length d = some (pre ++ d ++ rest.drop d.length) := by
  unfold put
  rw [if_pos (by simp only [List.length_append]; omega)]
  congr 1
  rw [List.take_left, List.drop_append, List.drop_eq_nil_of_le (by omega), List.nil_append]
  congr 2
  omega

theorem writePieces_eq (ps : List (Bytes × Nat)) (hp : ∀ p ∈ ps, p.2 ≤ p.1.length) :
    ∀ (pre rest : Bytes), (flat ps).length ≤ rest.length →
      writePieces (pre ++ rest) pre.length ps =
        some (pre ++ flat ps ++ rest.drop (flat ps).length) := by
  induction ps with
  | nil => intro pre rest _; simp [writePieces, flat]
  | cons p ps ih =>
    intro pre rest hl
    obtain ⟨src, n⟩ := p
    have hn : n ≤ src.length := hp (src, n) (by simp)
    have hf : flat ((src, n) :: ps) = src.take n ++ flat ps := rfl
    have hg : get src 0 n = some (src.take n) := by simp [get, hn]
    have ht : (src.take n).length = n := by rw [List.length_take]; omega
    rw [hf, List.length_append] at hl
    simp only [writePieces, hg]
    rw [put_at pre rest _ (by omega)]
    simp only
    have := ih (fun p hp' => hp p (by simp [hp'])) (pre ++ src.take n) (rest.drop (src.take n).length)
      (by rw [List.length_drop]; omega)
    rw [List.length_append, ht] at this
    rw [ht, this, hf]
    simp only [List.append_assoc, List.length_append, ht, List.drop_drop]

theorem hdr_length (rs : Nat → Nat) (r : Rec) : (hdrImage rs r).length = 8 := by
  simp [hdrImage, le_length]

theorem write_eq (rs : Nat → Nat) (r : Rec) (buf : Bytes)
    (hp : ∀ p ∈ r.pieces, p.2 ≤ p.1.length)
    (hl : r.body.length + (flat r.pieces).length ≤ r.bodyLen) (hb : buf.length = 8 + r.bodyLen) :
    ∃ pad : Bytes, write rs r buf = some (hdrImage rs r ++ (r.body ++ (flat r.pieces ++ pad))) ∧
      (hdrImage rs r ++ (r.body ++ (flat r.pieces ++ pad))).length = buf.length := by
  have hh := hdr_length rs r
  refine ⟨(buf.drop (8 + r.body.length)).drop (flat r.pieces).length, ?_, ?_⟩
  · unfold write
    have := put_at [] buf (hdrImage rs r ++ r.body) (by rw [List.length_append]; omega)
    simp only [List.nil_append, List.length_nil] at this
    rw [this]
    simp only
    rw [writePieces_eq _ hp _ _ (by simp only [List.length_drop, List.length_append]; omega)]
    simp only [List.append_assoc, List.length_append, hh]
  · simp only [List.length_append, List.length_drop, hh]; omega

theorem hdr_bodyLen (rs : Nat → Nat) (r : Rec) (rest : Bytes) (h : r.bodyLen < 4294967296) :
    fld (hdrImage rs r ++ rest) 4 4 = some r.bodyLen := by
  simp only [hdrImage, List.append_assoc, List.cons_append, List.nil_append]
  rw [fld_skip_le _ _ _ _ _ (by decide), fld_skip_le _ _ _ _ _ (by decide),
    fld_skip_cons _ _ _ _ (by decide), fld_skip_cons _ _ _ _ (by decide)]
  exact fld_here _ 4 _ (by omega)

theorem hdr_type (rs : Nat → Nat) (r : Rec) (rest : Bytes) (h : r.logtype < 256) :
    fld (hdrImage rs r ++ rest) 0 1 = some r.logtype := by
  simp only [hdrImage, List.append_assoc]
  exact fld_here _ 1 _ (by omega)

theorem hdr_upd (rs : Nat → Nat) (r : Rec) (rest : Bytes) (h : r.updtype < 256) :
    fld (hdrImage rs r ++ rest) 1 1 = some r.updtype := by
  simp only [hdrImage, List.append_assoc]
  rw [fld_skip_le _ _ _ _ _ (by decide)]
  exact fld_here _ 1 _ (by omega)

theorem hdr_skip (rs : Nat → Nat) (r : Rec) (rest : Bytes) (k n : Nat) (h : 8 ≤ k) :
    fld (hdrImage rs r ++ rest) k n = fld rest (k - 8) n := by
  rw [fld_skip _ _ _ _ (by rw [hdr_length]; exact h), hdr_length]

theorem hdr_drop (rs : Nat → Nat) (r : Rec) (rest : Bytes) (k : Nat) (h : 8 ≤ k) :
    (hdrImage rs r ++ rest).drop k = rest.drop (k - 8) := by
  rw [List.drop_append, List.drop_eq_nil_of_le (by rw [hdr_length]; exact h), hdr_length,
    List.nil_append]

/-- The round trip from the facts specific to a record type. -/
theorem roundTrips_of (c c' : Clock) (op : Op)
    (hp : ∀ rs, ∀ p ∈ (construct c rs op).pieces, p.2 ≤ p.1.length)
    (hl : ∀ rs, (construct c rs op).body.length + (flat (construct c rs op).pieces).length ≤
      (construct c rs op).bodyLen)
    (hm : ∀ rs, (construct c rs op).bodyLen % 8 = 0)
    (hb : ∀ rs, (construct c rs op).bodyLen < 4294967296)
    (hr : ∀ rs rest, redo c' (hdrImage rs (construct c rs op) ++ ((construct c rs op).body ++
        (flat (construct c rs op).pieces ++ rest))) =
      some (meaning (fun e => relExp c' (absExp c e)) op)) :
    RoundTrips c c' op := by
  intro rs buf slack hbuf
  obtain ⟨pad, hw, hlen⟩ := write_eq rs _ buf (hp rs) (hl rs) hbuf
  refine ⟨_, hw, hlen, hdr_bodyLen _ _ _ (hb rs), ?_, ?_⟩
  · rw [hlen, hbuf]; have := hm rs; omega
  · have := hr rs (pad ++ slack)
    simp only [List.append_assoc] at this ⊢
    exact this

theorem absExp_lt (c : Clock) (e : Nat) (h : e < 4294967296) : absExp c e < 4294967296 := by
  unfold absExp; split
  · exact h
  · split <;> omega

theorem f1 (v : Nat) (rest : Bytes) (h : v < 256) : fld (le 1 v ++ rest) 0 1 = some v :=
  fld_here v 1 rest (by omega)
theorem f2 (v : Nat) (rest : Bytes) (h : v < 65536) : fld (le 2 v ++ rest) 0 2 = some v :=
  fld_here v 2 rest (by omega)
theorem f4 (v : Nat) (rest : Bytes) (h : v < 4294967296) : fld (le 4 v ++ rest) 0 4 = some v :=
  fld_here v 4 rest (by omega)
theorem f8 (v : Nat) (rest : Bytes) (h : v < 18446744073709551616) :
    fld (le 8 v ++ rest) 0 8 = some v := fld_here v 8 rest (by omega)

theorem tail_le (v : Nat) (rest : Bytes) : (le 1 v ++ rest).tail = rest := rfl

theorem b8_lt (b : Bool) : b8 b < 256 := by cases b <;> decide


theorem attr_length (c : Clock) (rs : Nat → Nat) (it : Item) : (attrImage c rs it).length = 16 := by
  simp [attrImage, le_length]

theorem flat_cons (a : Bytes) (n : Nat) (ps : List (Bytes × Nat)) :
    flat ((a, n) :: ps) = a.take n ++ flat ps := rfl
theorem flat_nil : flat [] = [] := rfl
theorem flat_append (a b : List (Bytes × Nat)) : flat (a ++ b) = flat a ++ flat b := by
  simp [flat]

theorem flat_attr (c : Clock) (rs : Nat → Nat) (it : Item) (cr : Bool) :
    flat (attrPiece c rs it cr) = if cr then attrImage c rs it else [] := by
  cases cr
  · rfl
  · simp only [attrPiece, if_true, flat_cons, flat_nil, List.append_nil]
    rw [List.take_of_length_le (by rw [attr_length]; exact Nat.le_refl _)]

theorem attr_pieces (c : Clock) (rs : Nat → Nat) (it : Item) (cr : Bool) :
    ∀ p ∈ attrPiece c rs it cr, p.2 ≤ p.1.length := by
  intro p hp
  cases cr
  · simp [attrPiece] at hp
  · simp only [attrPiece, if_true, List.mem_singleton] at hp
    subst hp
    rw [attr_length]; exact Nat.le_refl _

theorem flat_attr_length (c : Clock) (rs : Nat → Nat) (it : Item) (cr : Bool) :
    (flat (attrPiece c rs it cr)).length = attrLen cr := by
  rw [flat_attr]; cases cr <;> simp [attrLen, attr_length]

theorem attrLen_mod (cr : Bool) : attrLen cr % 8 = 0 := by cases cr <;> decide
theorem attrLen_le (cr : Bool) : attrLen cr ≤ 16 := by cases cr <;> decide

theorem take_key (it : Item) : (it.key ++ it.value).take it.key.length = it.key := by simp

/-- The attributes are read back where they were written. -/
theorem readCreate_eq (c c' : Clock) (rs : Nat → Nat) (it : Item) (h : GoodItem it) (cr : Bool)
    (pre rest : Bytes) :
    readCreate c' (b8 cr) (pre ++ (flat (attrPiece c rs it cr) ++ rest)) pre.length =
      some (if cr then some (attrOf (fun e => relExp c' (absExp c e)) it) else none) := by
  rw [flat_attr]
  cases cr
  · rfl
  · have e1 := absExp_lt c it.exptime h.exp
    have e2 := i32_lt it.coll.mcnt
    simp [readCreate, b8, readAttr, attrImage, fld_add, fld_skip _ _ _ _ (Nat.le_refl _), f4, h.flags,
      fld_skip_le, fld_skip_cons, e1, e2, f1, h.ovfl, h.mfl, attrOf, readable,
      toI32_i32 h.mcntl h.mcntu]

theorem unlink_round (c c' : Clock) (it : Item) (h : GoodItem it) : RoundTrips c c' (.unlink it) := by
  have hk := h.key
  have hk2 : it.key.length < 65536 := by omega
  have ha := align8_ge (2 + it.key.length)
  have hb := align8_lt (2 + it.key.length)
  apply roundTrips_of
  · intro rs; simp [construct, conUnlink]
  · intro rs; simp [construct, conUnlink, flat, le_length]; omega
  · intro rs; exact align8_mod _
  · intro rs; simp only [construct, conUnlink]; omega
  · intro rs rest
    simp only [redo]
    rw [hdr_type _ _ _ (by simp [construct, conUnlink])]
    simp [construct, conUnlink, redoUnlink, hdr_skip, hdr_drop, f2, hk2, flat, drop_le, tail_le, get_all, meaning]

theorem listDel_round (c c' : Clock) (it : Item) (t : Nat) (e : Int) (d : Nat) (dr : Bool)
    (h : GoodItem it) (ht : t < 4294967296) (he : GoodI32 e) (hd : d < 4294967296) :
    RoundTrips c c' (.listDel it t e d dr) := by
  have hk := h.key
  have hk2 : it.key.length < 65536 := by omega
  have ha := align8_ge (16 + it.key.length)
  have hb := align8_lt (16 + it.key.length)
  have hi := i32_lt e
  have hdr := b8_lt dr
  apply roundTrips_of
  · intro rs; simp [construct, conListDel]
  · intro rs; simp [construct, conListDel, flat, le_length]; omega
  · intro rs; exact align8_mod _
  · intro rs; simp only [construct, conListDel]; omega
  · intro rs rest
    simp only [redo]
    rw [hdr_type _ _ _ (by simp [construct, conListDel])]
    simp [construct, conListDel, redoListDel, hdr_skip, hdr_drop, f2, f1, f4, fld_skip_le, fld_skip_cons,
      drop_cons', hk2, ht, hd, hi, hdr, flat, drop_le, tail_le, get_all, meaning, toI32_i32 he.1 he.2]
    cases dr <;> simp [b8]

theorem listIns_round (c c' : Clock) (it : Item) (t : Nat) (e : Int) (v : Bytes) (cr : Bool)
    (h : GoodItem it) (ht : t < 4294967296) (he : GoodI32 e) (hv : GoodElem v) :
    RoundTrips c c' (.listIns it t e v cr) := by
  have hk := h.key
  have hk2 : it.key.length < 65536 := by omega
  have ha := align8_ge (16 + it.key.length + v.length)
  have hb := align8_lt (16 + it.key.length + v.length)
  have hi := i32_lt e
  have hcr := b8_lt cr
  unfold GoodElem at hv
  have hv2 : v.length < 4294967296 := by omega
  have hal := attrLen_le cr
  have ham := attrLen_mod cr
  apply roundTrips_of
  · intro rs p hp
    simp only [construct, conListIns, List.mem_append] at hp
    rcases hp with hp | hp
    · simp at hp; rcases hp with rfl | rfl <;> simp
    · exact attr_pieces _ _ _ _ p hp
  · intro rs
    simp only [construct, conListIns, flat_append, flat_cons, flat_nil, List.length_append,
      flat_attr_length, List.length_take, le_length, List.length_cons, List.length_nil]; omega
  · intro rs; have := align8_mod (16 + it.key.length + v.length); simp only [construct, conListIns]; omega
  · intro rs; simp only [construct, conListIns]; omega
  · intro rs rest
    simp only [redo]
    rw [hdr_type _ _ _ (by simp [construct, conListIns])]
    have hrc := readCreate_eq c c' rs it h cr (it.key ++ v) rest
    simp only [List.append_assoc, List.length_append] at hrc
    simp [construct, conListIns, redoListIns, hdr_skip, hdr_drop, f2, f1, f4, fld_skip_le, fld_skip_cons,
      drop_cons', hk2, ht, hi, hcr, hv2, flat_append, flat_cons, flat_nil, drop_le, tail_le, get_all, get_len, hrc,
      meaning, toI32_i32 he.1 he.2]

theorem setIns_round (c c' : Clock) (it : Item) (v : Bytes) (cr : Bool)
    (h : GoodItem it) (hv : GoodElem v) :
    RoundTrips c c' (.setIns it v cr) := by
  have hk := h.key
  have hk2 : it.key.length < 65536 := by omega
  have ha := align8_ge (8 + it.key.length + v.length)
  have hb := align8_lt (8 + it.key.length + v.length)
  have hcr := b8_lt cr
  unfold GoodElem at hv
  have hv2 : v.length < 4294967296 := by omega
  have hal := attrLen_le cr
  have ham := attrLen_mod cr
  apply roundTrips_of
  · intro rs p hp
    simp only [construct, conSetIns, List.mem_append] at hp
    rcases hp with hp | hp
    · simp at hp; rcases hp with rfl | rfl <;> simp
    · exact attr_pieces _ _ _ _ p hp
  · intro rs
    simp only [construct, conSetIns, flat_append, flat_cons, flat_nil, List.length_append,
      flat_attr_length, List.length_take, le_length, List.length_cons, List.length_nil]; omega
  · intro rs; have := align8_mod (8 + it.key.length + v.length); simp only [construct, conSetIns]; omega
  · intro rs; simp only [construct, conSetIns]; omega
  · intro rs rest
    simp only [redo]
    rw [hdr_type _ _ _ (by simp [construct, conSetIns])]
    have hrc := readCreate_eq c c' rs it h cr (it.key ++ v) rest
    simp only [List.append_assoc, List.length_append] at hrc
    simp [construct, conSetIns, redoSetIns, hdr_skip, hdr_drop, f2, f1, f4, fld_skip_le, fld_skip_cons,
      drop_cons', hk2, hcr, hv2, flat_append, flat_cons, flat_nil, drop_le, tail_le, get_all, get_len, hrc,
      meaning]

theorem setDel_round (c c' : Clock) (it : Item) (v : Bytes) (dr : Bool)
    (h : GoodItem it) (hv : GoodElem v) :
    RoundTrips c c' (.setDel it v dr) := by
  have hk := h.key
  have hk2 : it.key.length < 65536 := by omega
  have ha := align8_ge (8 + it.key.length + v.length)
  have hb := align8_lt (8 + it.key.length + v.length)
  have hcr := b8_lt dr
  unfold GoodElem at hv
  have hv2 : v.length < 4294967296 := by omega
  apply roundTrips_of
  · intro rs; simp [construct, conSetDel]
  · intro rs; simp [construct, conSetDel, flat, le_length]; omega
  · intro rs; exact align8_mod _
  · intro rs; simp only [construct, conSetDel]; omega
  · intro rs rest
    simp only [redo]
    rw [hdr_type _ _ _ (by simp [construct, conSetDel])]
    simp [construct, conSetDel, redoSetDel, hdr_skip, hdr_drop, f2, f1, f4, fld_skip_le, fld_skip_cons,
      drop_cons', hk2, hcr, hv2, flat_cons, flat_nil, drop_le, tail_le, get_all, get_len, meaning]
    cases dr <;> simp [b8]

theorem mapIns_round (c c' : Clock) (it : Item) (f v : Bytes) (cr : Bool)
    (h : GoodItem it) (hf : f.length ≤ 250) (hv : GoodElem v) :
    RoundTrips c c' (.mapIns it f v cr) := by
  have hk := h.key
  have hk2 : it.key.length < 65536 := by omega
  have hf2 : f.length < 256 := by omega
  have ha := align8_ge (8 + it.key.length + f.length + v.length)
  have hb := align8_lt (8 + it.key.length + f.length + v.length)
  have hcr := b8_lt cr
  unfold GoodElem at hv
  have hv2 : v.length < 4294967296 := by omega
  have hal := attrLen_le cr
  have ham := attrLen_mod cr
  apply roundTrips_of
  · intro rs p hp
    simp only [construct, conMapIns, List.mem_append] at hp
    rcases hp with hp | hp
    · simp at hp; rcases hp with rfl | rfl <;> simp
    · exact attr_pieces _ _ _ _ p hp
  · intro rs
    simp only [construct, conMapIns, flat_append, flat_cons, flat_nil, List.length_append,
      flat_attr_length, List.length_take, le_length, List.length_cons, List.length_nil]; omega
  · intro rs; have := align8_mod (8 + it.key.length + f.length + v.length)
    simp only [construct, conMapIns]; omega
  · intro rs; simp only [construct, conMapIns]; omega
  · intro rs rest
    simp only [redo]
    rw [hdr_type _ _ _ (by simp [construct, conMapIns])]
    have hrc := readCreate_eq c c' rs it h cr (it.key ++ (f ++ v)) rest
    simp only [List.append_assoc, List.length_append] at hrc
    have htake : (f ++ v).take (f.length + v.length) = f ++ v := by
      rw [List.take_of_length_le (by simp)]
    simp [construct, conMapIns, redoMapIns, hdr_skip, hdr_drop, f2, f1, f4, fld_skip_le, fld_skip_cons,
      drop_cons', hk2, hf2, hcr, hv2, flat_append, flat_cons, flat_nil, drop_le, tail_le, get_all, get_len, get_add,
      hrc, htake, meaning, Nat.add_assoc]

theorem mapDel_round (c c' : Clock) (it : Item) (f : Bytes) (dr : Bool)
    (h : GoodItem it) (hf : f.length ≤ 250) :
    RoundTrips c c' (.mapDel it f dr) := by
  have hk := h.key
  have hk2 : it.key.length < 65536 := by omega
  have hf2 : f.length < 256 := by omega
  have ha := align8_ge (4 + it.key.length + f.length)
  have hb := align8_lt (4 + it.key.length + f.length)
  have hcr := b8_lt dr
  apply roundTrips_of
  · intro rs; simp [construct, conMapDel]
  · intro rs; simp [construct, conMapDel, flat, le_length]; omega
  · intro rs; exact align8_mod _
  · intro rs; simp only [construct, conMapDel]; omega
  · intro rs rest
    simp only [redo]
    rw [hdr_type _ _ _ (by simp [construct, conMapDel])]
    simp [construct, conMapDel, redoMapDel, hdr_skip, hdr_drop, f2, f1, f4, fld_skip_le, fld_skip_cons,
      drop_cons', hk2, hcr, hf2, flat_cons, flat_nil, drop_le, tail_le, get_all, get_len, meaning]
    cases dr <;> simp [b8]

theorem Spec.GoodBKey.real {b : BKey} (h : GoodBKey b) : realNbkey b.len = b.val.length := by
  unfold realNbkey
  rcases h with ⟨h1, h2⟩ | ⟨h1, h2, h3⟩
  · rw [if_pos h1, h2]
  · rw [if_neg (by omega), h3]

theorem Spec.GoodBKey.le31 {b : BKey} (h : GoodBKey b) : b.val.length ≤ 31 := by
  rcases h with ⟨h1, h2⟩ | ⟨h1, h2, h3⟩ <;> omega

theorem Spec.GoodBKey.len31 {b : BKey} (h : GoodBKey b) : b.len < 256 := by
  rcases h with ⟨h1, h2⟩ | ⟨h1, h2, h3⟩ <;> omega

theorem Spec.GoodBKey.ne {b : BKey} (h : GoodBKey b) : b.len ≠ 255 := by
  rcases h with ⟨h1, h2⟩ | ⟨h1, h2, h3⟩ <;> omega

theorem btIns_round (c c' : Clock) (it : Item) (b : BKey) (ef v : Bytes) (cr : Bool)
    (h : GoodItem it) (hbk : GoodBKey b) (hf : ef.length ≤ 31) (hv : GoodElem v) :
    RoundTrips c c' (.btIns it b ef v cr) := by
  have hk := h.key
  have hk2 : it.key.length < 65536 := by omega
  have hf2 : ef.length < 256 := by omega
  have hr := hbk.real
  have h31 := hbk.le31
  have hl := hbk.len31
  have ha := align8_ge (12 + it.key.length + b.val.length + ef.length + v.length)
  have hb := align8_lt (12 + it.key.length + b.val.length + ef.length + v.length)
  have hcr := b8_lt cr
  unfold GoodElem at hv
  have hv2 : v.length < 4294967296 := by omega
  have hal := attrLen_le cr
  have ham := attrLen_mod cr
  apply roundTrips_of
  · intro rs p hp
    simp only [construct, conBtIns, List.mem_append, hr] at hp
    rcases hp with hp | hp
    · simp at hp; rcases hp with rfl | rfl
      · simp
      · simp; omega
    · exact attr_pieces _ _ _ _ p hp
  · intro rs
    simp only [construct, conBtIns, flat_append, flat_cons, flat_nil, List.length_append, hr,
      flat_attr_length, List.length_take, le_length, List.length_cons, List.length_nil]; omega
  · intro rs; have := align8_mod (12 + it.key.length + b.val.length + ef.length + v.length)
    simp only [construct, conBtIns, hr]; omega
  · intro rs; simp only [construct, conBtIns, hr]; omega
  · intro rs rest
    simp only [redo]
    rw [hdr_type _ _ _ (by simp [construct, conBtIns])]
    have hrc := readCreate_eq c c' rs it h cr (it.key ++ (b.val ++ (ef ++ v))) rest
    simp only [List.append_assoc, List.length_append] at hrc
    have htake : (b.val ++ (ef ++ v)).take (b.val.length + (ef.length + v.length)) =
        b.val ++ (ef ++ v) := by
      rw [List.take_of_length_le (by simp)]
    simp [construct, conBtIns, redoBtIns, hdr_skip, hdr_drop, f2, f1, f4, fld_skip_le, fld_skip_cons,
      drop_cons', hk2, hf2, hcr, hv2, hl, hr, flat_append, flat_cons, flat_nil, drop_le, tail_le, get_all, get_len,
      get_add, hrc, htake, meaning, Nat.add_assoc]

theorem btDel_round (c c' : Clock) (it : Item) (b : BKey) (dr : Bool)
    (h : GoodItem it) (hbk : GoodBKey b) :
    RoundTrips c c' (.btDel it b dr) := by
  have hk := h.key
  have hk2 : it.key.length < 65536 := by omega
  have hr := hbk.real
  have h31 := hbk.le31
  have hl := hbk.len31
  have ha := align8_ge (4 + b.val.length + it.key.length)
  have hb := align8_lt (4 + b.val.length + it.key.length)
  have hcr := b8_lt dr
  apply roundTrips_of
  · intro rs; simp [construct, conBtDel, hr]
  · intro rs; simp [construct, conBtDel, flat, le_length, hr]; omega
  · intro rs; exact align8_mod _
  · intro rs; simp only [construct, conBtDel, hr]; omega
  · intro rs rest
    simp only [redo]
    rw [hdr_type _ _ _ (by simp [construct, conBtDel])]
    simp [construct, conBtDel, redoBtDel, hdr_skip, hdr_drop, f2, f1, f4, fld_skip_le, fld_skip_cons,
      drop_cons', hk2, hcr, hl, hr, flat_cons, flat_nil, drop_le, tail_le, get_all, get_len, meaning]
    cases dr <;> simp [b8]

theorem range_round (c c' : Clock) (b : Bool) : RoundTrips c c' (.opRange b) := by
  apply roundTrips_of
  · intro rs; simp [construct, conRange]
  · intro rs; simp [construct, conRange, flat]
  · intro rs; rfl
  · intro rs; simp [construct, conRange]
  · intro rs rest
    simp only [redo]
    rw [hdr_type _ _ _ (by cases b <;> simp [construct, conRange])]
    cases b <;> simp [construct, conRange, meaning]

theorem done_round (c c' : Clock) : RoundTrips c c' .snapDone := by
  apply roundTrips_of
  · intro rs; simp [construct, conSnapDone]
  · intro rs; simp [construct, conSnapDone, flat, le_length, engineName, align8]
  · intro rs; exact align8_mod 40
  · intro rs; simp [construct, conSnapDone, align8]
  · intro rs rest
    simp only [redo]
    rw [hdr_type _ _ _ (by simp [construct, conSnapDone])]
    simp [construct, conSnapDone, meaning]

theorem flush_round (c c' : Clock) (p : Bytes) (n : Int) (h : n < 0 ∨ (n = p.length ∧ p.length < 255)) :
    RoundTrips c c' (.flush p n) := by
  rcases h with h | ⟨h, hlt⟩
  · apply roundTrips_of
    · intro rs; simp [construct, conFlush, h]
    · intro rs; simp [construct, conFlush, h, flat, le_length, align8]
    · intro rs; simp [construct, conFlush, h, align8]
    · intro rs; simp [construct, conFlush, h, align8]
    · intro rs rest
      simp only [redo]
      rw [hdr_type _ _ _ (by simp [construct, conFlush])]
      simp [construct, conFlush, h, redoFlush, hdr_skip, f1, meaning]
  · subst h
    have hn : ¬ ((p.length : Int) < 0) := by omega
    have ha := align8_ge (1 + p.length)
    have hb := align8_lt (1 + p.length)
    have hmod : p.length % 256 = p.length := Nat.mod_eq_of_lt (by omega)
    have h256 : p.length < 256 := by omega
    have hne : p.length ≠ 255 := by omega
    apply roundTrips_of
    · intro rs p' hp'
      simp only [construct, conFlush, hn, if_false, Int.toNat_natCast, hmod] at hp'
      split at hp'
      · simp at hp'; subst hp'; simp
      · simp at hp'
    · intro rs; simp [construct, conFlush, hn, hmod, le_length]
      split <;> simp [flat] <;> omega
    · intro rs; exact align8_mod _
    · intro rs; simp [construct, conFlush, hn]; omega
    · intro rs rest
      simp only [redo]
      rw [hdr_type _ _ _ (by simp [construct, conFlush])]
      cases p with
      | nil => simp [construct, conFlush, redoFlush, hdr_skip, f1, meaning]
      | cons x xs =>
        have hz : ¬ ((xs.length : Int) + 1 < 0) := by omega
        have hz2 : ¬ ((xs.length : Int) + 1 = 0) := by omega
        have e0 : (((x :: xs : List Nat).length : Int)).toNat = (x :: xs : List Nat).length := by simp
        have hpos : 0 < (x :: xs : List Nat).length := by simp
        have hnz : (x :: xs : List Nat).length ≠ 0 := by simp
        have hnz2 : ((x :: xs : List Nat).length : Int) ≠ 0 := by simp; omega
        generalize (x :: xs : List Nat) = p at *
        simp [construct, conFlush, hn, e0, hmod, hpos, hlt, redoFlush, hdr_skip, hdr_drop, f1, h256, hne,
          hnz, hnz2, drop_le, tail_le, flat_cons, flat_nil, get_all, meaning]

theorem readMax_none (data : Bytes) : readMax 255 data = some (none, 0) := by simp [readMax, bkeyNull]

theorem readMax_some (b : BKey) (h : GoodBKey b) (rest : Bytes) :
    readMax b.len (b.val ++ rest) = some (some b, b.val.length) := by
  unfold readMax
  rw [if_pos (show b.len ≠ bkeyNull from h.ne), h.real, get_all]
  rfl

theorem setattr_round (c c' : Clock) (it : Item) (u : Nat) (h : GoodItem it)
    (hu : u = 2 ∨ u = 3 ∨ (u = 4 ∧ it.ittype = 4)) : RoundTrips c c' (.setattr it u) := by
  have hk := h.key
  have hk2 : it.key.length < 65536 := by omega
  have e1 := absExp_lt c it.exptime h.exp
  have e2 := i32_lt it.coll.mcnt
  have ho := h.ovfl
  have hmf := h.mfl
  have hu256 : u < 256 := by omega
  have hmc := toI32_i32 h.mcntl h.mcntu
  by_cases h4 : u = 4 ∧ it.coll.maxbkr.len ≠ 255
  · obtain ⟨rfl, hne⟩ := h4
    have hg : GoodBKey it.coll.maxbkr := by
      rcases h.maxb with h | h
      · exact h
      · exact absurd h hne
    have hr := hg.real
    have h31 := hg.le31
    have hl := hg.len31
    have ha := align8_ge (16 + it.coll.maxbkr.val.length + it.key.length)
    have hb := align8_lt (16 + it.coll.maxbkr.val.length + it.key.length)
    apply roundTrips_of
    · intro rs; simp [construct, conSetattr, bkeyNull, hne, hr]
    · intro rs; simp [construct, conSetattr, bkeyNull, hne, hr, flat, le_length]; omega
    · intro rs; exact align8_mod _
    · intro rs; simp [construct, conSetattr, bkeyNull, hne, hr]; omega
    · intro rs rest
      simp only [redo]
      rw [hdr_type _ _ _ (by simp [construct, conSetattr])]
      simp [construct, conSetattr, bkeyNull, hne, hr, redoSetattr, hdr_upd, hdr_skip, hdr_drop, f2, f1, f4,
        fld_skip_le, fld_skip_cons, drop_cons', hk2, e1, e2, ho, hmf, hl, flat_cons, flat_nil, drop_le, tail_le,
        readMax_some _ hg, get_len, get_all, hmc, meaning, optBKey]
  · have hmx : (if u = 4 then it.coll.maxbkr.len else bkeyNull) = 255 := by
      split
      · next h' => exact Classical.byContradiction fun hc => h4 ⟨h', hc⟩
      · rfl
    have hop : u = 4 → optBKey it.coll.maxbkr = none := by
      intro h'
      unfold optBKey
      rw [if_pos (Classical.byContradiction fun hc => h4 ⟨h', hc⟩)]
    have ha := align8_ge (16 + it.key.length)
    have hb := align8_lt (16 + it.key.length)
    apply roundTrips_of
    · intro rs; simp only [construct, conSetattr, hmx]; simp [bkeyNull]
    · intro rs; simp only [construct, conSetattr, hmx]; simp [bkeyNull, flat, le_length]
      rcases hu with rfl | hu
      · simp [le_length]; omega
      · have : u ≠ 2 := by omega
        simp [this, le_length]; omega
    · intro rs; exact align8_mod _
    · intro rs; simp only [construct, conSetattr, hmx]; simp [bkeyNull]; omega
    · intro rs rest
      simp only [redo]
      rw [hdr_type _ _ _ (by simp [construct, conSetattr])]
      simp only [construct, conSetattr, hmx]
      rcases hu with rfl | hu
      · simp [bkeyNull, redoSetattr, hdr_upd, hdr_skip, hdr_drop, f2, f4,
          fld_skip_le, fld_skip_cons, drop_cons', hk2, e1, flat_cons, flat_nil, drop_le, tail_le,
          get_all, meaning]
      · have h2 : u ≠ 2 := by omega
        have hopt : (if u = 4 then optBKey it.coll.maxbkr else none) = none := by
          split
          · next h' => exact hop h'
          · rfl
        simp only [h2, if_false] 
        simp [bkeyNull, redoSetattr, hdr_upd, hu256, h2, hdr_skip, hdr_drop, f2, f1, f4,
          fld_skip_le, fld_skip_cons, drop_cons', hk2, e1, e2, ho, hmf, flat_cons, flat_nil, drop_le, tail_le,
          readMax_none, get_all, hmc, meaning, hopt]

theorem link_round (c c' : Clock) (it : Item) (h : GoodItem it) : RoundTrips c c' (.link it) := by
  have hk := h.key
  have hv := h.value
  have hk2 : it.key.length < 65536 := by omega
  have hv2 : it.value.length < 4294967296 := by omega
  have e1 := absExp_lt c it.exptime h.exp
  have e2 := i32_lt it.coll.mcnt
  have ho := h.ovfl
  have hfl := h.flags
  have hca := h.cas
  have hmf := h.mfl
  have hty := h.ty
  have hty2 : it.ittype < 256 := by omega
  have hmc := toI32_i32 h.mcntl h.mcntu
  have htake : (it.key ++ it.value).take (it.key.length + it.value.length) = it.key ++ it.value := by
    rw [List.take_of_length_le (by simp)]
  by_cases h4 : it.ittype = 4 ∧ it.coll.maxbkr.len ≠ 255
  · obtain ⟨h4, hne⟩ := h4
    have hg : GoodBKey it.coll.maxbkr := by
      rcases h.maxb with h | h
      · exact h
      · exact absurd h hne
    have hr := hg.real
    have h31 := hg.le31
    have hl := hg.len31
    have ha := align8_ge (24 + it.coll.maxbkr.val.length + it.key.length + it.value.length)
    have hb := align8_lt (24 + it.coll.maxbkr.val.length + it.key.length + it.value.length)
    apply roundTrips_of
    · intro rs; simp [construct, conLink, h4, bkeyNull, hne, hr]
    · intro rs; simp [construct, conLink, h4, bkeyNull, hne, hr, flat, le_length]; omega
    · intro rs; exact align8_mod _
    · intro rs; simp [construct, conLink, h4, bkeyNull, hne, hr]; omega
    · intro rs rest
      simp only [redo]
      rw [hdr_type _ _ _ (by simp [construct, conLink])]
      by_cases hexp : relExp c' (absExp c it.exptime) = 1
      · simp [construct, conLink, h4, bkeyNull, hne, hr, redoLink, hdr_skip, f2, f1, f4,
          fld_skip_le, fld_skip_cons, hk2, hv2, e1, hfl, hexp, meaning]
      · simp [construct, conLink, h4, bkeyNull, hne, hr, redoLink, hdr_skip, hdr_drop, f2, f1, f4,
          fld_skip_le, fld_skip_cons, drop_cons', hk2, hv2, e1, e2, ho, hmf, hl, hfl, hexp, flat_cons,
          flat_nil, drop_le, tail_le, htake, readMax_some _ hg, get_len, get_all, hmc, meaning, optBKey,
          readable, trimmed]
  · have hmx : (if it.ittype = 4 then it.coll.maxbkr.len else bkeyNull) = 255 := by
      split
      · next h' => exact Classical.byContradiction fun hc => h4 ⟨h', hc⟩
      · rfl
    have hopt : (if it.ittype = 4 then optBKey it.coll.maxbkr else none) = none := by
      split
      · next h' =>
        unfold optBKey
        rw [if_pos (Classical.byContradiction fun hc => h4 ⟨h', hc⟩)]
      · rfl
    have ha := align8_ge (24 + it.key.length + it.value.length)
    have hb := align8_lt (24 + it.key.length + it.value.length)
    apply roundTrips_of
    · intro rs; simp only [construct, conLink, hmx]; simp [bkeyNull]
    · intro rs; simp only [construct, conLink, hmx]; simp [bkeyNull, flat, le_length]
      by_cases h0 : it.ittype = 0
      · simp [h0, le_length]; omega
      · simp [h0, le_length]; omega
    · intro rs; exact align8_mod _
    · intro rs; simp only [construct, conLink, hmx]; simp [bkeyNull]; omega
    · intro rs rest
      simp only [redo]
      rw [hdr_type _ _ _ (by simp [construct, conLink])]
      simp only [construct, conLink, hmx]
      by_cases hexp : relExp c' (absExp c it.exptime) = 1
      · simp [bkeyNull, redoLink, hdr_skip, f2, f1, f4, hty2,
          fld_skip_le, fld_skip_cons, hk2, hv2, e1, hfl, hexp, meaning]
      · by_cases h0 : it.ittype = 0
        · simp [h0, bkeyNull, redoLink, hdr_skip, hdr_drop, f2, f1, f4, f8,
            fld_skip_le, fld_skip_cons, drop_cons', hk2, hv2, e1, hfl, hca, hexp, flat_cons,
            flat_nil, drop_le, tail_le, htake, get_len, get_all, meaning]
        · by_cases h44 : it.ittype = 4
          · simp only [h44, if_true] at hopt hmx
            simp [h44, bkeyNull, redoLink, hdr_skip, hdr_drop, f2, f1, f4,
              fld_skip_le, fld_skip_cons, drop_cons', hk2, hv2, e1, e2, ho, hmf, hfl, hexp, flat_cons,
              flat_nil, drop_le, tail_le, htake, readMax_none, get_len, get_all, hmc, meaning, hopt,
              readable, trimmed]
          · simp [h0, h44, hty2, bkeyNull, redoLink, hdr_skip, hdr_drop, f2, f1, f4,
              fld_skip_le, fld_skip_cons, drop_cons', hk2, hv2, e1, e2, ho, hmf, hfl, hexp, flat_cons,
              flat_nil, drop_le, tail_le, htake, get_len, get_all, hmc, meaning,
              readable, trimmed]


theorem GoodBKey_real_ne {b : BKey} (h : GoodBKey b) : realNbkey b.len ≠ 255 := by
  have := h.real; have := h.le31; omega

/-- Data of the optional upper bound. -/
def toBytes (b : BKey) : Bytes := if b.len = 255 then [] else b.val

theorem toBytes_le (b : BKey) (h : GoodBKey b ∨ NoBKey b) : (toBytes b).length ≤ 31 := by
  unfold toBytes
  rcases h with h | h
  · rw [if_neg h.ne]; exact h.le31
  · rw [if_pos (show b.len = 255 from h)]; simp

theorem to_len (b : BKey) (h : GoodBKey b ∨ NoBKey b) :
    (if realNbkey b.len = bkeyNull then 0 else realNbkey b.len) = (toBytes b).length := by
  rcases h with h | h
  · rw [if_neg (show realNbkey b.len ≠ bkeyNull from GoodBKey_real_ne h), h.real]
    simp [toBytes, h.ne]
  · have : b.len = 255 := h
    simp [this, realNbkey, bkeyNull, toBytes]

theorem to_pieces (b : BKey) (h : GoodBKey b ∨ NoBKey b) :
    (∀ p ∈ (if realNbkey b.len ≠ bkeyNull then [(b.val, realNbkey b.len)] else []), p.2 ≤ p.1.length) ∧
    flat (if realNbkey b.len ≠ bkeyNull then [(b.val, realNbkey b.len)] else []) = toBytes b := by
  rcases h with h | h
  · rw [if_pos (show realNbkey b.len ≠ bkeyNull from GoodBKey_real_ne h), h.real]
    simp [toBytes, h.ne, flat]
  · have : b.len = 255 := h
    simp [this, realNbkey, bkeyNull, toBytes, flat]

theorem readTo_eq (b : BKey) (h : GoodBKey b ∨ NoBKey b) (pre rest : Bytes) :
    readTo b.len (pre ++ (toBytes b ++ rest)) pre.length = some (optBKey b) := by
  unfold readTo
  rcases h with h | h
  · rw [if_pos (show realNbkey b.len ≠ bkeyNull from GoodBKey_real_ne h), h.real, get_len]
    simp [toBytes, h.ne, get_all, optBKey]
  · have : b.len = 255 := h
    simp [this, realNbkey, bkeyNull, optBKey]

/-- Data of the optional filter. -/
def filterBytes (fl : Option Filter) : Bytes :=
  match fl with
  | none => []
  | some f => f.bitwval ++ f.compval

theorem filter_pieces (fl : Option Filter) (h : ∀ x, fl = some x → GoodFilter x) :
    (∀ p ∈ lgcFilterPieces fl, p.2 ≤ p.1.length) ∧ flat (lgcFilterPieces fl) = filterBytes fl ∧
    (filterBytes fl).length = lgcFilterLen fl ∧ (filterBytes fl).length ≤ 3131 := by
  cases fl with
  | none => simp [lgcFilterPieces, flat, filterBytes, lgcFilterLen]
  | some f =>
    have g := h f rfl
    have hb := g.bw
    have hc := g.cv
    have hm : f.compvcnt * f.ncompval ≤ 100 * 31 := Nat.mul_le_mul g.cc g.nc
    have hnb := g.nb
    refine ⟨?_, ?_, ?_, ?_⟩
    · intro p hp
      simp only [lgcFilterPieces, List.mem_append, List.mem_singleton] at hp
      rcases hp with hp | rfl
      · split at hp
        · simp at hp; subst hp; exact Nat.le_of_eq hb.symm
        · simp at hp
      · exact Nat.le_of_eq hc.symm
    · simp only [lgcFilterPieces, flat_append, flat_cons, flat_nil, List.append_nil, filterBytes]
      rw [← hc, List.take_length]
      congr 1
      split
      · rw [flat_cons, flat_nil, List.append_nil, ← hb, List.take_length]
      · have : f.bitwval.length = 0 := by omega
        rw [List.length_eq_zero_iff.1 this]; rfl
    · simp [filterBytes, lgcFilterLen, hb, hc]
    · simp [filterBytes, hb, hc]; omega

theorem lgcFilter_length (fl : Option Filter) : (lgcFilter fl).length = 7 := by
  cases fl <;> simp [lgcFilter, le_length]

theorem readFilter_eq (b : Bytes) (fl : Option Filter) (h : ∀ x, fl = some x → GoodFilter x)
    (pre0 rest0 : Bytes) (hb : b = pre0 ++ (lgcFilter fl ++ rest0)) (h0 : pre0.length = 13)
    (pre rest : Bytes) :
    readFilter b (pre ++ (filterBytes fl ++ rest)) pre.length = some fl := by
  subst hb
  have hs : ∀ x k n, 13 ≤ k → fld (pre0 ++ x) k n = fld x (k - 13) n := by
    intro x k n hk
    rw [fld_skip _ _ _ _ (by omega), h0]
  cases fl with
  | none =>
    simp [readFilter, hs, lgcFilter, f1]
  | some f =>
    have g := h f rfl
    have h1 : f.nbitwval < 256 := by have := g.nb; omega
    have h2 : f.ncompval < 256 := by have := g.nc; omega
    have h3 : f.compvcnt < 256 := by have := g.cc; omega
    have g1 : get (pre ++ (f.bitwval ++ (f.compval ++ rest))) pre.length f.nbitwval = some f.bitwval := by
      rw [get_len, ← g.bw, get_all]
    have g2 : get (pre ++ (f.bitwval ++ (f.compval ++ rest))) (pre.length + f.nbitwval)
        (f.compvcnt * f.ncompval) = some f.compval := by
      rw [get_add, ← g.bw, get_len, ← g.cv, get_all]
    simp [readFilter, hs, lgcFilter, f1, fld_skip_le, h1, h2, h3, g.off, g.bop, g.cop, filterBytes, g1, g2]

theorem lgc_round (c c' : Clock) (it : Item) (f t : BKey) (fl : Option Filter) (o r : Nat) (dr : Bool)
    (h : GoodItem it) (hf : GoodBKey f) (ht : GoodBKey t ∨ NoBKey t)
    (hfl : ∀ x, fl = some x → GoodFilter x) (ho : o < 4294967296) (hr : r < 4294967296) :
    RoundTrips c c' (.btDelLgc it f t fl o r dr) := by
  have hk := h.key
  have hk2 : it.key.length < 65536 := by omega
  have hfr := hf.real
  have hf31 := hf.le31
  have hfl256 := hf.len31
  have htl := to_len t ht
  have ht31 := toBytes_le t ht
  have ht256 : t.len < 256 := by
    rcases ht with ht | ht
    · exact ht.len31
    · have : t.len = 255 := ht
      omega
  obtain ⟨tp1, tp2⟩ := to_pieces t ht
  obtain ⟨fp1, fp2, fp3, fp4⟩ := filter_pieces fl hfl
  have ha := align8_ge (20 + it.key.length + f.val.length + (toBytes t).length + (filterBytes fl).length)
  have hb := align8_lt (20 + it.key.length + f.val.length + (toBytes t).length + (filterBytes fl).length)
  have hdr := b8_lt dr
  have hbl : ∀ rs, (construct c rs (.btDelLgc it f t fl o r dr)).bodyLen =
      align8 (20 + it.key.length + f.val.length + (toBytes t).length + (filterBytes fl).length) := by
    intro rs
    simp only [construct, conBtDelLgc, htl, hfr, fp3]
  have hflat : ∀ rs, flat (construct c rs (.btDelLgc it f t fl o r dr)).pieces =
      it.key ++ (f.val ++ (toBytes t ++ filterBytes fl)) := by
    intro rs
    simp only [construct, conBtDelLgc, flat_append, tp2, fp2, flat_cons, flat_nil, take_key, hfr,
      List.take_length, List.append_nil, List.append_assoc]
  apply roundTrips_of
  · intro rs p hp
    simp only [construct, conBtDelLgc, List.mem_append] at hp
    rcases hp with (hp | hp) | hp
    · simp [hfr] at hp
      rcases hp with rfl | rfl <;> simp
    · exact tp1 p hp
    · exact fp1 p hp
  · intro rs
    rw [hflat, hbl]
    simp only [construct, conBtDelLgc, List.length_append, le_length, lgcFilter_length]; omega
  · intro rs; rw [hbl]; exact align8_mod _
  · intro rs; rw [hbl]; omega
  · intro rs rest
    rw [hflat]
    simp only [redo]
    rw [hdr_type _ _ _ (by simp [construct, conBtDelLgc])]
    have hskipF : ∀ (rest : Bytes) (k n : Nat), 7 ≤ k →
        fld (lgcFilter fl ++ rest) k n = fld rest (k - 7) n := by
      intro rest k n hkn
      rw [fld_skip _ _ _ _ (by rw [lgcFilter_length]; exact hkn), lgcFilter_length]
    have hdropF : ∀ (rest : Bytes) (k : Nat), 7 ≤ k →
        (lgcFilter fl ++ rest).drop k = rest.drop (k - 7) := by
      intro rest k hkn
      rw [List.drop_append, List.drop_eq_nil_of_le (by rw [lgcFilter_length]; exact hkn),
        lgcFilter_length, List.nil_append]
    have hto := readTo_eq t ht (it.key ++ f.val) (filterBytes fl ++ rest)
    have hrf := readFilter_eq
      (hdrImage rs (construct c rs (.btDelLgc it f t fl o r dr)) ++
        ((construct c rs (.btDelLgc it f t fl o r dr)).body ++
          (it.key ++ (f.val ++ (toBytes t ++ filterBytes fl)) ++ rest))) fl hfl
      (hdrImage rs (construct c rs (.btDelLgc it f t fl o r dr)) ++
        (le 2 it.key.length ++ le 1 (b8 dr) ++ le 1 f.len ++ le 1 t.len))
      (le 4 o ++ le 4 r ++ (it.key ++ (f.val ++ (toBytes t ++ filterBytes fl)) ++ rest))
      (by simp [construct, conBtDelLgc]) (by simp [hdr_length, le_length])
      (it.key ++ (f.val ++ toBytes t)) rest
    simp only [List.append_assoc, List.length_append] at hto hrf
    simp only [construct, conBtDelLgc] at hrf
    simp only [construct, conBtDelLgc, redoBtDelLgc, htl]
    simp [hdr_skip, hdr_drop, f2, f1, f4, fld_skip_le, hskipF, hdropF, hk2, hdr, hfl256, ht256, ho, hr,
      drop_le, get_len, get_all, hto, hfr, htl, Nat.add_assoc, meaning] at hrf ⊢
    rw [hrf]
    cases dr <;> simp [b8]

/-- Every producible record, except the flush of a prefix of 255 bytes or more, reads back as what was
written. -/
theorem all_round (c c' : Clock) (op : Op) (h : Producible op)
    (hf : ∀ p n, op = .flush p n → n < 255) : RoundTrips c c' op := by
  cases op with
  | link it => exact link_round c c' it h
  | unlink it => exact unlink_round c c' it h
  | flush p n =>
    refine flush_round c c' p n ?_
    have := hf p n rfl
    rcases h with h | ⟨h1, _⟩
    · exact Or.inl h
    · exact Or.inr ⟨h1, by omega⟩
  | setattr it u => exact setattr_round c c' it u h.1 h.2
  | listIns it t e v cr => exact listIns_round c c' it t e v cr h.1 h.2.1 h.2.2.1 h.2.2.2
  | listDel it t e d dr => exact listDel_round c c' it t e d dr h.1 h.2.1 h.2.2.1 h.2.2.2
  | setIns it v cr => exact setIns_round c c' it v cr h.1 h.2
  | setDel it v dr => exact setDel_round c c' it v dr h.1 h.2
  | mapIns it f v cr => exact mapIns_round c c' it f v cr h.1 h.2.1 h.2.2
  | mapDel it f dr => exact mapDel_round c c' it f dr h.1 h.2
  | btIns it b e v cr => exact btIns_round c c' it b e v cr h.1 h.2.1 h.2.2.1 h.2.2.2
  | btDel it b dr => exact btDel_round c c' it b dr h.1 h.2
  | btDelLgc it f t fl o r dr =>
    exact lgc_round c c' it f t fl o r dr h.1 h.2.1 h.2.2.1 h.2.2.2.1 h.2.2.2.2.1 h.2.2.2.2.2
  | opRange b => exact range_round c c' b
  | snapElem _ _ _ _ _ => exact h.elim
  | snapDone => exact done_round c c'

end Verif.Log
