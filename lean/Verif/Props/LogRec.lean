import Verif.Lemmas.SnapElem
import Verif.Lemmas.Recover
/-! # C31, C37, C40: command log and snapshot records read back -/
namespace Verif.Log.Props
open Verif.Log Verif.Log.Spec

/-- C31 (partial: without flushes of a prefix of 255 or more bytes).  Every record the server
produces, written into the room it asked for, declares its length, stays inside of the room, and is
redone as the operation it was made from, whatever the unset bytes of the structures, the padding and
the bytes behind the record are. -/
theorem C31_round_trip_partial (c c' : Clock) (op : Op) (h : Producible op)
    (hf : ∀ p n, op = .flush p n → n < 255) : RoundTrips c c' op :=
  all_round c c' op h hf

/-- A b+tree item used in the examples. -/
def sampleItem : Item :=
  { ittype := 4, flags := 7, exptime := 300, cas := 0, key := [98, 58, 49], value := [13, 10],
    coll := { ovflact := 5, mflags := 2, mcnt := -1, maxbkr := ⟨0, [100, 0, 0, 0, 0, 0, 0, 0]⟩ } }

theorem sampleItem_good : GoodItem sampleItem := by
  constructor <;> try decide
  · left; exact Or.inl ⟨rfl, rfl⟩

/-- A range delete with a filter, from 8 byte keys to no upper bound. -/
def sampleDelete : Op :=
  .btDelLgc sampleItem ⟨0, [1, 0, 0, 0, 0, 0, 0, 0]⟩ ⟨255, []⟩
    (some { bitwval := [1], compval := [3, 4], nbitwval := 1, ncompval := 1, compvcnt := 2, offset := 0,
            bitwop := 0, compop := 1 }) 2 30 true

example : Producible sampleDelete ∧ ∀ p n, sampleDelete = .flush p n → n < 255 := by
  refine ⟨⟨sampleItem_good, Or.inl ⟨rfl, rfl⟩, Or.inr rfl, ?_, by decide, by decide⟩,
    fun p n h => by simp [sampleDelete] at h⟩
  intro x hx
  cases Option.some.inj hx
  constructor <;> decide

example : Producible (.link sampleItem) ∧ ∀ p n, Op.link sampleItem = .flush p n → n < 255 :=
  ⟨sampleItem_good, fun p n h => by simp at h⟩

/-- C31 is false as stated: the flush of a prefix of 255 bytes is logged with the length that stands
for "all prefixes" and is redone as the removal of all items. -/
theorem C31_flush_255_false :
    Producible (.flush (List.replicate 255 97) 255) ∧
    ∀ c c', ∃ rs buf bytes, buf.length =
        8 + (construct c rs (.flush (List.replicate 255 97) 255)).bodyLen ∧
      write rs (construct c rs (.flush (List.replicate 255 97) 255)) buf = some bytes ∧
      redo c' bytes = some .flushAll ∧
      meaning id (.flush (List.replicate 255 97) 255) = .flushPrefix (List.replicate 255 97) := by
  have hcon : ∀ c, construct c (fun _ => 0) (.flush (List.replicate 255 97) 255) =
    conFlush (List.replicate 255 97) 255 := fun _ => rfl
  have hredo : ∀ c' b, fld b 0 1 = some 3 → redo c' b = redoFlush b := by
    intro c' b h; simp [redo, h]
  refine ⟨Or.inr ⟨by rw [List.length_replicate]; rfl, by rw [List.length_replicate]; decide⟩,
    fun c c' => ⟨fun _ => 0, List.replicate 264 0,
      [3, 5, 0, 0, 0, 1, 0, 0, 255] ++ List.replicate 255 0, ?_⟩⟩
  rw [hcon, hredo c' ([3, 5, 0, 0, 0, 1, 0, 0, 255] ++ List.replicate 255 0) (by decide +kernel)]
  exact ⟨by decide +kernel, by decide +kernel, by decide +kernel, by decide +kernel⟩

/-- What recovery reads of a snapshot element, exactly: the bytes of the element (field or bkey, eflag,
value) with bytes 10 to 17 replaced by the address of the collection item. -/
theorem C37_damage (x : Elem) (hx : GoodSnapElem x) (c : Clock) (rs : Nat → Nat)
    (buf b slack ptr : Bytes) (hb : buf.length = 8 + (construct c rs x.op).bodyLen)
    (hw : write rs (construct c rs x.op) buf = some b) (hp : ptr.length = 8)
    (hs : 32 ≤ b.length + slack.length) (hl : 18 ≤ x.bytes.length) :
    ∃ k e v, applySnapElem x.ittype ptr (b ++ slack) = some (.snapElem x.ittype k e v) ∧
      k.length = x.ekey.length ∧ e.length = x.eflag.length ∧
      k ++ e ++ v = x.bytes.take 10 ++ ptr ++ x.bytes.drop 18 := by
  have hsl := smash_length ptr x.bytes hp
  have hxl : x.bytes.length = x.ekey.length + x.eflag.length + x.value.length := by
    simp [Elem.bytes]; omega
  refine ⟨_, _, _, snapElem_apply x hx c rs buf b slack ptr hb hw hp hs, ?_, ?_, ?_⟩
  · rw [List.length_take]; omega
  · rw [List.length_take, List.length_drop]; omega
  · have h1 : ((smash ptr x.bytes).drop x.ekey.length).take x.eflag.length ++
        (smash ptr x.bytes).drop (x.ekey.length + x.eflag.length) =
        (smash ptr x.bytes).drop x.ekey.length := by
      rw [← List.drop_drop]; exact List.take_append_drop _ _
    rw [List.append_assoc, h1, List.take_append_drop]
    unfold smash
    apply List.take_of_length_le
    simp only [List.length_append, List.length_take, List.length_drop]
    omega

/-- C37 (partial: elements of at most 10 bytes).  The element is restored as it was, for every
address of the item. -/
theorem C37_short_partial (x : Elem) (hx : GoodSnapElem x) (c : Clock) (rs : Nat → Nat)
    (buf b slack ptr : Bytes) (hb : buf.length = 8 + (construct c rs x.op).bodyLen)
    (hw : write rs (construct c rs x.op) buf = some b) (hp : ptr.length = 8)
    (hs : 32 ≤ b.length + slack.length) (hl : x.bytes.length ≤ 10) :
    applySnapElem x.ittype ptr (b ++ slack) = some x.call := by
  rw [snapElem_apply x hx c rs buf b slack ptr hb hw hp hs, smash_short _ _ hl]
  unfold Elem.call Elem.bytes
  congr 2
  · rw [List.append_assoc, List.take_left]
  · rw [List.append_assoc, List.drop_left, List.take_left]
  · rw [← List.length_append, List.drop_left]

/-- A map element: field "f", value "abc\r\n". -/
def sampleElem : Elem := { ittype := 3, nekey := 1, ekey := [102], eflag := [], value := [97, 98, 99, 13, 10] }

example : GoodSnapElem sampleElem ∧ sampleElem.bytes.length ≤ 10 :=
  ⟨⟨by decide, Or.inr (Or.inl ⟨rfl, rfl, by decide, rfl⟩)⟩, by decide⟩

/-- Its record is written. -/
example : ∃ b, write (fun _ => 0) (construct ⟨0, 0⟩ (fun _ => 0) sampleElem.op)
    (List.replicate (8 + (construct ⟨0, 0⟩ (fun _ => 0) sampleElem.op).bodyLen) 0) = some b :=
  ⟨[15, 15, 0, 0, 16, 0, 0, 0, 5, 0, 0, 0, 1, 0, 102, 97, 98, 99, 13, 10, 0, 0, 0, 0], by decide⟩

/-- A list element of 20 bytes "aaa…a". -/
def longElem : Elem := { ittype := 1, nekey := 0, ekey := [], eflag := [], value := List.replicate 20 97 }

/-- C37 is false: no address of an item (a multiple of 8) lets the list element "aaaaaaaaaaaaaaaaaaaa"
come back from a snapshot. -/
theorem C37_false (c : Clock) (rs : Nat → Nat) (buf b slack ptr : Bytes)
    (hb : buf.length = 8 + (construct c rs longElem.op).bodyLen)
    (hw : write rs (construct c rs longElem.op) buf = some b) (hp : ptr.length = 8)
    (hs : 32 ≤ b.length + slack.length) (h8 : unle ptr % 8 = 0) :
    applySnapElem longElem.ittype ptr (b ++ slack) ≠ some longElem.call := by
  have hx : GoodSnapElem longElem := ⟨by decide, Or.inl ⟨Or.inl rfl, rfl, rfl⟩⟩
  obtain ⟨k, e, v, h1, hk, he, h2⟩ := C37_damage longElem hx c rs buf b slack ptr hb hw hp hs
    (by decide)
  rw [h1]
  intro h
  simp only [Option.some.injEq, Elem.call, Call.snapElem.injEq] at h
  obtain ⟨_, rfl, rfl, rfl⟩ := h
  have h3 : ptr = List.replicate 8 97 := by
    have h4 : longElem.ekey ++ longElem.eflag ++ longElem.value =
        longElem.bytes.take 10 ++ List.replicate 8 97 ++ longElem.bytes.drop 18 := by decide
    rw [h4] at h2
    exact (List.append_cancel_left (List.append_cancel_right h2)).symm
  rw [h3] at h8
  revert h8
  decide

/-- The hypotheses of `C37_false` can be met: an address below 2^48. -/
example : ∃ b, write (fun _ => 0) (construct ⟨0, 0⟩ (fun _ => 0) longElem.op)
    (List.replicate (8 + (construct ⟨0, 0⟩ (fun _ => 0) longElem.op).bodyLen) 0) = some b ∧
    32 ≤ b.length ∧ unle [64, 16, 0, 240, 127, 85, 0, 0] % 8 = 0 :=
  ⟨[15, 7, 0, 0, 32, 0, 0, 0, 20, 0, 0, 0, 0, 0] ++ List.replicate 20 97 ++ List.replicate 6 0,
    by decide, by decide, by decide⟩

/-- C37 is false for another reason for b+trees with a maximum bkey range: the item whose elements
follow is looked up under the bytes of the range instead of its key. -/
theorem C37_maxbkeyrange_false :
    ∃ b, write (fun _ => 0) (construct ⟨5, 1000⟩ (fun _ => 0) (.link sampleItem)) (List.replicate 48 0) =
        some b ∧
      redo ⟨5, 1000⟩ b = some (meaning id (.link sampleItem)) ∧
      linkLookupKey b = some [100, 0, 0] ∧ sampleItem.key = [98, 58, 49] :=
  ⟨[0, 18, 0, 0, 40, 0, 0, 0, 4, 0, 3, 0, 2, 0, 0, 0, 7, 0, 0, 0, 15, 5, 0, 0, 5, 2, 0, 0,
    255, 255, 255, 255, 100, 0, 0, 0, 0, 0, 0, 0, 98, 58, 49, 13, 10, 0, 0, 0],
    by decide +kernel, by decide +kernel, by decide +kernel, rfl⟩

/-- The expiry time an operation carries into the log. -/
def carries : Op → Option Nat
  | .link it => some it.exptime
  | .setattr it _ => some it.exptime
  | _ => none

/-- C40 (partial: the clock of the restarted process is in step with the wall clock).  An item (or a
change of its attributes) logged with expiry `e` and redone by a process with another start time
expires at the same instant; if the instant has passed, the item is not linked, or linked expired;
items that never expire and sticky items stay so. -/
theorem C40_lifetime_partial (start start' : Nat) (c c' : Clock) (op : Op) (e : Nat)
    (hc : carries op = some e) (h : Producible op) (hg : GoodExp start e)
    (hs : InStep start c) (hs' : InStep start' c') (hw : c.wall ≤ c'.wall)
    (hm : c'.wall < 4294967295) (h1 : 1 ≤ c'.cur) (b : Bytes) (hi : Image ⟨c, op⟩ b) (slack : Bytes) :
    ∃ call, redo c' (b ++ slack) = some call ∧
      (passed c'.wall (deadline start e) →
        ∀ e', callExp call = some e' → passed c'.wall (deadline start' e')) ∧
      (¬ passed c'.wall (deadline start e) →
        ∃ e', callExp call = some e' ∧ deadline start' e' = deadline start e) := by
  obtain ⟨rs, buf, hbuf, hwr⟩ := hi
  have hf : ∀ p n, op = .flush p n → n < 255 := by
    rintro p n rfl; simp [carries] at hc
  obtain ⟨b', hwr', _, _, _, hr⟩ := all_round c c' op h hf rs buf slack hbuf
  rw [hwr] at hwr'
  cases Option.some.inj hwr'
  obtain ⟨hl1, hl2⟩ := life_eq hg hs hs' hw hm h1
  refine ⟨_, hr, ?_, ?_⟩
  · intro hp
    have h1' : passed c'.wall (deadline start' 1) := by
      unfold deadline; rw [if_neg (by omega)]
      unfold InStep at hs'
      simp only [passed]; omega
    cases op <;> simp only [carries, reduceCtorEq, Option.some.injEq] at hc
    · subst hc
      simp only [meaning, hl1 hp, if_true]
      intro e' he'; simp [callExp] at he'
    · subst hc
      simp only [meaning, hl1 hp]
      intro e' he'
      split at he'
      · simp only [callExp, Option.some.injEq] at he'; subst he'; exact h1'
      · simp only [callExp, Option.some.injEq] at he'; subst he'; exact h1'
  · intro hp
    obtain ⟨hne, hd, _, _⟩ := hl2 hp
    refine ⟨_, ?_, hd⟩
    cases op <;> simp only [carries, reduceCtorEq, Option.some.injEq] at hc
    · subst hc
      simp only [meaning]
      rw [if_neg hne]
      split <;> rfl
    · subst hc
      simp only [meaning]
      split <;> rfl

example : carries (.link sampleItem) = some 300 ∧ Producible (.link sampleItem) ∧
    GoodExp 1000000 300 ∧ InStep 1000000 ⟨200, 1000200⟩ ∧ InStep 1000248 ⟨2, 1000250⟩ ∧
    Image ⟨⟨200, 1000200⟩, .link sampleItem⟩
      [0, 18, 0, 0, 40, 0, 0, 0, 4, 0, 3, 0, 2, 0, 0, 0, 7, 0, 0, 0, 108, 67, 15, 0, 5, 2, 0, 0,
       255, 255, 255, 255, 100, 0, 0, 0, 0, 0, 0, 0, 98, 58, 49, 13, 10, 0, 0, 0] := by
  refine ⟨rfl, sampleItem_good, Or.inr (Or.inr (by decide)), rfl, rfl, fun _ => 0,
    List.replicate 48 0, by decide, by decide +kernel⟩

/-- The clock of the restarted process does not advance during recovery (it is set before the engine
is initialised and next when the event loop starts).  When it is `d` seconds behind, an item expires
exactly `d` seconds too early. -/
theorem C40_slow (start start' d : Nat) (c c' : Clock) (e : Nat)
    (h0 : e ≠ 0) (hlt : start + e < 4294967295) (hs : InStep start c)
    (hs' : c'.wall = start' + c'.cur + d) (hw : c.wall ≤ c'.wall) (h1 : 1 ≤ c'.cur)
    (hp : ¬ passed c'.wall (deadline start e)) :
    ∃ D', deadline start' (relExp c' (absExp c e)) = some D' ∧ deadline start e = some (D' + d) := by
  unfold InStep at hs
  have hd : deadline start e = some (start + e) := by unfold deadline; rw [if_neg (by omega)]
  rw [hd] at hp ⊢
  simp only [passed] at hp
  have ha : absExp c e = start + e := by
    unfold absExp; rw [if_neg (by omega), if_pos (by omega), Nat.mod_eq_of_lt (by omega)]; omega
  have hwm : c'.wall % 4294967296 = c'.wall := Nat.mod_eq_of_lt (by omega)
  have hr : relExp c' (start + e) = c'.cur + (start + e - c'.wall) := by
    unfold relExp
    rw [if_neg (by omega), hwm, if_pos (by omega), Nat.mod_eq_of_lt (by omega)]
  rw [ha, hr]
  refine ⟨start' + (c'.cur + (start + e - c'.wall)), ?_, ?_⟩
  · unfold deadline; rw [if_neg (by omega)]
  · congr 1; omega

/-- C40 is false for a recovery that takes time: an item with 100 seconds left, redone 60 seconds into
recovery, is gone 60 seconds early. -/
theorem C40_slow_recovery_false :
    InStep 1000000 ⟨200, 1000200⟩ ∧ (1000268 : Nat) = 1000206 + 2 + 60 ∧
    deadline 1000000 300 = some 1000300 ∧
    deadline 1000206 (relExp ⟨2, 1000268⟩ (absExp ⟨200, 1000200⟩ 300)) = some 1000240 := by
  refine ⟨rfl, by decide, by decide, by decide⟩

example : ∃ D', deadline 1000206 (relExp ⟨2, 1000268⟩ (absExp ⟨200, 1000200⟩ 300)) = some D' ∧
    deadline 1000000 300 = some (D' + 60) :=
  C40_slow 1000000 1000206 60 ⟨200, 1000200⟩ ⟨2, 1000268⟩ 300 (by decide) (by decide) rfl (by decide)
    (by decide) (by decide) (by decide)

end Verif.Log.Props
