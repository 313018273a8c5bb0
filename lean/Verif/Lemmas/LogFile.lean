import Verif.Lemmas.LogRec
import Verif.Spec.LogFile
/-! # Lemmas on recovery from a command log -/
set_option linter.unusedSimpArgs false
namespace Verif.Log
open Spec

variable {σ : Type}

theorem get_take (b : Bytes) (m off n : Nat) (h : off + n ≤ m) :
    get (b.take m) off n = get b off n := by
  unfold get
  rw [List.length_take]
  by_cases hb : off + n ≤ b.length
  · rw [if_pos (by omega), if_pos hb, List.drop_take, List.take_take]
    congr 2; omega
  · rw [if_neg (by omega), if_neg hb]

theorem fld_take (b : Bytes) (m off n : Nat) (h : off + n ≤ m) :
    fld (b.take m) off n = fld b off n := by unfold fld; rw [get_take b m off n h]

theorem get_mid (pre b post : Bytes) (n : Nat) (h : n ≤ b.length) :
    get (pre ++ b ++ post) pre.length n = some (b.take n) := by
  rw [List.append_assoc, get_len]
  unfold get
  rw [if_pos (by rw [List.length_append]; omega), List.drop_zero, List.take_append_of_le_length h]

theorem get_mid2 (pre b post : Bytes) (k n : Nat) (h : k + n ≤ b.length) :
    get (pre ++ b ++ post) (pre.length + k) n = some ((b.drop k).take n) := by
  rw [List.append_assoc, get_add]
  unfold get
  rw [if_pos (by rw [List.length_append]; omega), List.drop_append_of_le_length (by omega),
    List.take_append_of_le_length (by rw [List.length_drop]; omega)]

/-- A complete record with a body. -/
structure Record (c : Clock) (b : Bytes) (call : Call) : Prop where
  len : ∃ bl, 0 < bl ∧ bl ≤ maxBody ∧ b.length = 8 + bl ∧ fld b 4 4 = some bl
  ty : ∃ ty, fld b 0 1 = some ty ∧ ty ≠ 13 ∧ ty ≠ 14
  redo : ∀ slack, redo c (b ++ slack) = some call

/-- A range record. -/
structure Mark (t : Nat) (b : Bytes) : Prop where
  len : b.length = 8
  ty : fld b 0 1 = some t
  none : fld b 4 4 = some 0

theorem align8_pos {n : Nat} (h : 0 < n) : 0 < align8 n := by
  have := align8_ge n; omega

theorem bodyLen_pos (c : Clock) (rs : Nat → Nat) (op : Op) (h : Plain op) :
    0 < (construct c rs op).bodyLen := by
  cases op <;> simp only [Plain] at h <;>
    simp only [construct, conLink, conUnlink, conFlush, conSetattr, conListIns, conListDel, conSetIns,
      conSetDel, conMapIns, conMapDel, conBtIns, conBtDel, conBtDelLgc]
  all_goals first
    | (refine Nat.lt_of_lt_of_le ?_ (Nat.le_add_right _ _); exact align8_pos (by omega))
    | exact align8_pos (by omega)

theorem meaning_not_range (life : Nat → Nat) (op : Op) (h : Plain op) :
    meaning life op ≠ .rangeBegin ∧ meaning life op ≠ .rangeEnd := by
  cases op <;> simp only [Plain] at h <;> simp only [meaning] <;>
    (constructor <;> (repeat' split) <;> simp)

theorem update_record (c : Clock) (l : Logged) (b : Bytes) (h : Update l b) :
    Record c b (callOf c l) := by
  obtain ⟨rs, buf, hbuf, hw⟩ := h.image
  have hr := all_round l.clock c l.op h.good h.short rs buf
  have h0 := bodyLen_pos l.clock rs l.op h.plain
  obtain ⟨b', hw', hlen, hf, _, hredo⟩ := hr [] hbuf
  rw [hw] at hw'
  cases Option.some.inj hw'
  have hsz := h.size
  have hall : ∀ slack, redo c (b ++ slack) = some (callOf c l) := by
    intro slack
    obtain ⟨b', hw', _, _, _, hredo⟩ := hr slack hbuf
    rw [hw] at hw'
    cases Option.some.inj hw'
    exact hredo
  have hredo := hall []
  rw [List.append_nil] at hredo
  have hnr := meaning_not_range (fun e => relExp c (absExp l.clock e)) l.op h.plain
  refine ⟨⟨_, h0, ?_, ?_, hf⟩, ?_, hall⟩
  · unfold maxBody; omega
  · omega
  · have : ∃ ty, fld b 0 1 = some ty := by
      unfold fld get
      rw [if_pos (by omega)]
      exact ⟨_, rfl⟩
    obtain ⟨ty, ht⟩ := this
    refine ⟨ty, ht, ?_, ?_⟩
    · intro e
      subst e
      simp [redo, ht] at hredo
      exact hnr.1 hredo.symm
    · intro e
      subst e
      simp [redo, ht] at hredo
      exact hnr.2 hredo.symm

theorem range_mark (c : Clock) (bg : Bool) (b : Bytes) (h : Image ⟨c, .opRange bg⟩ b) :
    Mark (if bg then 13 else 14) b := by
  obtain ⟨rs, buf, hbuf, hw⟩ := h
  simp only [construct] at hbuf hw
  obtain ⟨pad, hw', hlen⟩ := write_eq rs (conRange bg) buf (by simp [conRange])
    (by simp [conRange, flat]) hbuf
  rw [hw] at hw'
  cases Option.some.inj hw'
  refine ⟨?_, ?_, ?_⟩
  · rw [hlen, hbuf]; rfl
  · rw [hdr_type _ _ _ (by cases bg <;> decide)]; rfl
  · rw [hdr_bodyLen _ _ _ (by show (0 : Nat) < _; omega)]; rfl

variable (e : Env) (app : σ → Call → Option σ)

theorem redoRec_record {c : Clock} {b : Bytes} {call : Call} (he : e.clock = c)
    (h : Record c b call) (off : Nat) (st : σ) :
    redoRec e app off (b.take 8) (b.drop 8) st =
      match app st call with
      | none => .fail
      | some st' => .val st' := by
  unfold redoRec
  rw [he, List.take_append_drop, h.redo]
  rfl

theorem turn_record {c : Clock} {b : Bytes} {call : Call} (he : e.clock = c) (h : Record c b call)
    (pre post : Bytes) (st : σ) (pend : Option Nat) (hi : pre.length ≤ intMax) :
    turn e app (pre ++ b ++ post) st pre.length pend =
      match pend with
      | some p => .next st (pre.length + b.length) (some p)
      | none =>
        match app st call with
        | none => .fail
        | some st' => .next st' (pre.length + b.length) none := by
  obtain ⟨bl, hb0, hbm, hbl, hbf⟩ := h.len
  obtain ⟨ty, ht, h13, h14⟩ := h.ty
  unfold turn
  have hfl : (pre ++ b ++ post).length = pre.length + b.length + post.length := by
    simp only [List.length_append]
  rw [if_pos (by omega), if_neg (by omega), get_mid _ _ _ _ (by omega)]
  simp only
  rw [fld_take _ _ _ _ (by omega), fld_take _ _ _ _ (by omega), ht, hbf]
  simp only
  rw [if_neg h13, if_neg h14]
  unfold turnRec
  rw [if_pos hb0, if_neg (by omega), if_neg (by omega), get_mid2 _ _ _ _ _ (by omega)]
  simp only
  have : (b.drop 8).take bl = b.drop 8 := by
    apply List.take_of_length_le; rw [List.length_drop]; omega
  rw [this]
  unfold turnRedo
  have e1 : pre.length + 8 + bl = pre.length + b.length := by omega
  rw [e1]
  cases pend with
  | some p => rfl
  | none =>
    simp only
    rw [redoRec_record e app he h]
    cases app st call <;> rfl

theorem turn_begin {b : Bytes} (h : Mark 13 b) (pre post : Bytes) (st : σ)
    (hi : pre.length ≤ intMax) :
    turn e app (pre ++ b ++ post) st pre.length none =
      .next st (pre.length + 8) (some (pre.length + 8)) := by
  have hl := h.len
  unfold turn
  have hfl : (pre ++ b ++ post).length = pre.length + b.length + post.length := by
    simp only [List.length_append]
  rw [if_pos (by omega), if_neg (by omega), get_mid _ _ _ _ (by omega)]
  simp only
  rw [fld_take _ _ _ _ (by omega), fld_take _ _ _ _ (by omega), h.ty, h.none]
  rfl

theorem turn_end {b : Bytes} (h : Mark 14 b) (pre post : Bytes) (st : σ) (pend : Option Nat)
    (hi : pre.length ≤ intMax) :
    turn e app (pre ++ b ++ post) st pre.length pend =
      turnEnd e app (pre ++ b ++ post) st (pre.length + 8) pend := by
  have hl := h.len
  unfold turn
  have hfl : (pre ++ b ++ post).length = pre.length + b.length + post.length := by
    simp only [List.length_append]
  rw [if_pos (by omega), if_neg (by omega), get_mid _ _ _ _ (by omega)]
  simp only
  rw [fld_take _ _ _ _ (by omega), fld_take _ _ _ _ (by omega), h.ty, h.none]
  rfl

/-- A torn record at the end of the file ends recovery. -/
theorem turn_torn {c : Clock} {b : Bytes} {call : Call} (h : Record c b call)
    (pre : Bytes) (cut : Nat) (hc : cut < b.length) (st : σ) (pend : Option Nat)
    (hi : pre.length + b.length ≤ intMax) :
    turn e app (pre ++ b.take cut) st pre.length pend = .stop st pre.length pend := by
  obtain ⟨bl, hb0, hbm, hbl, hbf⟩ := h.len
  obtain ⟨ty, ht, h13, h14⟩ := h.ty
  have htl : (b.take cut).length = cut := by rw [List.length_take]; omega
  have hfl : (pre ++ b.take cut).length = pre.length + cut := by
    rw [List.length_append, htl]
  unfold turn
  by_cases h0 : cut = 0
  · rw [if_neg (by omega)]
  · rw [if_pos (by omega)]
    by_cases h8 : cut < 8
    · rw [if_pos (by omega)]
    · rw [if_neg (by omega)]
      have := get_mid pre (b.take cut) [] 8 (by omega)
      rw [List.append_nil] at this
      rw [this]
      simp only
      rw [List.take_take, Nat.min_eq_left (by omega), fld_take _ _ _ _ (by omega),
        fld_take _ _ _ _ (by omega), ht, hbf]
      simp only
      rw [if_neg h13, if_neg h14]
      unfold turnRec
      rw [if_pos hb0, if_pos (by omega)]

/-- A torn range record at the end of the file ends recovery. -/
theorem turn_torn_mark {t : Nat} {b : Bytes} (h : Mark t b) (pre : Bytes) (cut : Nat)
    (hc : cut < b.length) (st : σ) (pend : Option Nat) :
    turn e app (pre ++ b.take cut) st pre.length pend = .stop st pre.length pend := by
  have hl := h.len
  have htl : (b.take cut).length = cut := by rw [List.length_take]; omega
  have hfl : (pre ++ b.take cut).length = pre.length + cut := by
    rw [List.length_append, htl]
  unfold turn
  split
  · rw [if_pos (by omega)]
  · rfl

/-- The records of a range, each complete. -/
def Records (c : Clock) (ms : List (Bytes × Call)) : Prop := ∀ m ∈ ms, Record c m.1 m.2

theorem record_pos {c : Clock} {b : Bytes} {call : Call} (h : Record c b call) : 8 < b.length := by
  obtain ⟨bl, h0, _, hl, _⟩ := h.len; omega

/-- The second pass over the records of a range. -/
theorem redoPending_eq {c : Clock} (he : e.clock = c) (mark : Bytes) (hm : Mark 14 mark)
    (ms : List (Bytes × Call)) (hr : Records c ms) :
    ∀ (pre post : Bytes) (n : Nat) (st : σ),
      (ms.map (·.1)).flatten.length + 8 < n →
      redoPending e app (pre ++ ((ms.map (·.1)).flatten ++ mark) ++ post)
          (pre.length + (ms.map (·.1)).flatten.length + 8) n pre.length st =
        match after app st (ms.map (·.2)) with
        | none => .fail
        | some st' => .val st' := by
  have hml := hm.len
  induction ms with
  | nil =>
    intro pre post n st hn
    obtain ⟨n, rfl⟩ : ∃ k, n = k + 2 := ⟨n - 2, by omega⟩
    simp only [List.map_nil, List.flatten_nil, List.nil_append, List.length_nil, Nat.add_zero]
    rw [redoPending, if_pos (by omega), get_mid _ _ _ _ (by omega)]
    simp only
    rw [fld_take _ _ _ _ (by omega), hm.none]
    simp only
    rw [if_neg (by omega), redoPending, if_neg (by omega)]
    rfl
  | cons m ms ih =>
    intro pre post n st hn
    obtain ⟨b, call⟩ := m
    have hrec : Record c b call := hr (b, call) (by simp)
    obtain ⟨bl, hb0, hbm, hbl, hbf⟩ := hrec.len
    simp only [List.map_cons, List.flatten_cons, List.length_append] at hn ⊢
    obtain ⟨n, rfl⟩ : ∃ k, n = k + 1 := ⟨n - 1, by omega⟩
    have hfile : pre ++ (b ++ (ms.map (·.1)).flatten ++ mark) ++ post =
        pre ++ b ++ ((ms.map (·.1)).flatten ++ mark ++ post) := by
      simp only [List.append_assoc]
    have hfile2 : pre ++ (b ++ (ms.map (·.1)).flatten ++ mark) ++ post =
        (pre ++ b) ++ ((ms.map (·.1)).flatten ++ mark) ++ post := by
      simp only [List.append_assoc]
    rw [redoPending, if_pos (by omega)]
    rw [hfile, get_mid _ _ _ _ (by omega)]
    simp only
    rw [fld_take _ _ _ _ (by omega), hbf]
    simp only
    rw [if_pos hb0, if_neg (by omega), get_mid2 _ _ _ _ _ (by omega)]
    simp only
    have : (b.drop 8).take bl = b.drop 8 := by
      apply List.take_of_length_le; rw [List.length_drop]; omega
    rw [this, redoRec_record e app he hrec]
    have := fun st' => ih (fun m hm => hr m (by simp [hm])) (pre ++ b) post n st' (by omega)
    rw [List.length_append] at this
    rw [← hfile, hfile2]
    have e1 : pre.length + 8 + bl = pre.length + b.length := by omega
    have e2 : pre.length + (b.length + (ms.map (·.1)).flatten.length) + 8 =
        pre.length + b.length + (ms.map (·.1)).flatten.length + 8 := by omega
    rw [e1, e2]
    cases ha : app st call with
    | none => simp only [after, ha]
    | some st' =>
      simp only [after, ha]
      exact this st'

/-- The first pass over the records of a range up to a cut leaves the state alone. -/
theorem loop_pending_torn {c : Clock} (he : e.clock = c) (mark : Bytes) (hm : Mark 14 mark)
    (ms : List (Bytes × Call)) (hr : Records c ms) (p : Nat) (st : σ) :
    ∀ (pre : Bytes) (cut n : Nat),
      cut < ((ms.map (·.1)).flatten ++ mark).length → cut < n →
      pre.length + ((ms.map (·.1)).flatten ++ mark).length ≤ intMax →
      ∃ off, applyLoop e app (pre ++ ((ms.map (·.1)).flatten ++ mark).take cut) n st pre.length
        (some p) = .val (st, off) := by
  induction ms with
  | nil =>
    intro pre cut n hc hn hi
    obtain ⟨n, rfl⟩ : ∃ k, n = k + 1 := ⟨n - 1, by omega⟩
    simp only [List.map_nil, List.flatten_nil, List.nil_append] at hc hi ⊢
    rw [applyLoop, turn_torn_mark e app hm pre cut hc st (some p)]
    exact ⟨_, rfl⟩
  | cons m ms ih =>
    intro pre cut n hc hn hi
    obtain ⟨b, call⟩ := m
    have hrec : Record c b call := hr (b, call) (by simp)
    obtain ⟨n, rfl⟩ : ∃ k, n = k + 1 := ⟨n - 1, by omega⟩
    simp only [List.map_cons, List.flatten_cons, List.append_assoc, List.length_append] at hc hi ⊢
    by_cases hcut : cut < b.length
    · rw [List.take_append_of_le_length (by omega), applyLoop,
        turn_torn e app hrec pre cut hcut st (some p) (by omega)]
      exact ⟨_, rfl⟩
    · rw [List.take_append, List.take_of_length_le (by omega), ← List.append_assoc, applyLoop,
        turn_record e app he hrec pre _ st (some p) (by omega)]
      simp only
      have hp := record_pos hrec
      have := ih (fun m hm => hr m (by simp [hm])) (pre ++ b) (cut - b.length) n
        (by simp only [List.length_append]; omega) (by omega)
        (by simp only [List.length_append]; omega)
      rw [List.length_append] at this
      exact this

/-- Both passes over a complete range. -/
theorem loop_pending_whole {c : Clock} (he : e.clock = c) (mark : Bytes) (hm : Mark 14 mark)
    (ms : List (Bytes × Call)) (hr : Records c ms) (st : σ) (p0 : Bytes) (post : Bytes)
    (all : List (Bytes × Call)) (hall : Records c all) :
    ∀ (done : List (Bytes × Call)) (n : Nat), all = done ++ ms →
      ((ms.map (·.1)).flatten ++ mark ++ post).length < n →
      p0.length + ((all.map (·.1)).flatten ++ mark).length ≤ intMax →
      ∃ k, ms.length + 1 + k = n ∧
      applyLoop e app (p0 ++ ((all.map (·.1)).flatten ++ mark) ++ post) n st
          (p0.length + (done.map (·.1)).flatten.length) (some p0.length) =
        match after app st (all.map (·.2)) with
        | none => .fail
        | some st' => applyLoop e app (p0 ++ ((all.map (·.1)).flatten ++ mark) ++ post) k st'
            (p0.length + ((all.map (·.1)).flatten ++ mark).length) none := by
  have hml := hm.len
  induction ms with
  | nil =>
    intro done n hd hn hi
    rw [List.append_nil] at hd
    subst hd
    obtain ⟨n, rfl⟩ : ∃ k, n = k + 1 := ⟨n - 1, by omega⟩
    refine ⟨n, by simp only [List.length_nil]; omega, ?_⟩
    have hfile : p0 ++ ((all.map (·.1)).flatten ++ mark) ++ post =
        (p0 ++ (all.map (·.1)).flatten) ++ mark ++ post := by simp only [List.append_assoc]
    simp only [List.length_append] at hi
    have := turn_end e app hm (p0 ++ (all.map (·.1)).flatten) post st (some p0.length)
      (by rw [List.length_append]; omega)
    rw [List.length_append, ← hfile] at this
    rw [applyLoop, this]
    unfold turnEnd
    simp only
    rw [if_neg (by omega), redoPending_eq e app he mark hm all hall p0 post _ st
      (by simp only [List.length_append]; omega)]
    cases after app st (all.map (·.2)) with
    | none => rfl
    | some st' =>
      simp only [List.length_append, hml]
      rw [Nat.add_assoc]
  | cons m ms ih =>
    intro done n hd hn hi
    obtain ⟨b, call⟩ := m
    have hrec : Record c b call := hr (b, call) (by simp)
    have hp := record_pos hrec
    obtain ⟨n, rfl⟩ : ∃ k, n = k + 1 := ⟨n - 1, by omega⟩
    have hd2 : all = (done ++ [(b, call)]) ++ ms := by rw [hd]; simp
    simp only [List.map_cons, List.flatten_cons, List.append_assoc, List.length_append] at hn
    obtain ⟨k, hk, heq⟩ := ih (fun m hm => hr m (by simp [hm])) (done ++ [(b, call)]) n hd2
      (by simp only [List.append_assoc, List.length_append]; omega) hi
    refine ⟨k, by simp only [List.length_cons]; omega, ?_⟩
    have hfile : p0 ++ ((all.map (·.1)).flatten ++ mark) ++ post =
        (p0 ++ (done.map (·.1)).flatten) ++ b ++ ((ms.map (·.1)).flatten ++ mark ++ post) := by
      rw [hd]
      simp only [List.map_append, List.flatten_append, List.map_cons, List.flatten_cons,
        List.append_assoc]
    have hlen : (all.map (·.1)).flatten.length =
        (done.map (·.1)).flatten.length + (b.length + (ms.map (·.1)).flatten.length) := by
      rw [hd]
      simp only [List.map_append, List.flatten_append, List.map_cons, List.flatten_cons,
        List.length_append]
    simp only [List.length_append] at hi
    have ht := turn_record e app he hrec (p0 ++ (done.map (·.1)).flatten)
      ((ms.map (·.1)).flatten ++ mark ++ post) st (some p0.length)
      (by rw [List.length_append]; omega)
    rw [List.length_append, ← hfile] at ht
    rw [applyLoop, ht]
    simp only
    rw [← heq]
    congr 1
    simp only [List.map_append, List.flatten_append, List.map_cons, List.map_nil, List.flatten_cons,
      List.flatten_nil, List.append_nil, List.length_append]
    omega

theorem after_append (s : σ) (a b : List Call) :
    after app s (a ++ b) =
      match after app s a with
      | none => none
      | some s' => after app s' b := by
  induction a generalizing s with
  | nil => rfl
  | cons x a ih =>
    simp only [List.cons_append, after]
    cases app s x with
    | none => rfl
    | some s' => exact ih s'

/-- What recovery does with a result. -/
def toRes (r : Option σ) (off : Nat) : Res (σ × Nat) :=
  match r with
  | none => .fail
  | some s => .val (s, off)

theorem range_parts {c : Clock} {ls : List Logged} {b : Bytes} (h : EntryImage (.range ls) b) :
    ∃ (b0 b1 : Bytes) (ms : List (Bytes × Call)), Mark 13 b0 ∧ Mark 14 b1 ∧ Records c ms ∧
      ms.map (·.2) = ls.map (callOf c) ∧ b = b0 ++ ((ms.map (·.1)).flatten ++ b1) := by
  obtain ⟨c0, c1, b0, b1, ms, h0, h1, hls, hu, hb⟩ := h
  refine ⟨b0, b1, ms.map fun m => (m.2, callOf c m.1), range_mark _ _ _ h0, range_mark _ _ _ h1, ?_, ?_,
    ?_⟩
  · intro m hm
    obtain ⟨x, hx, rfl⟩ := List.mem_map.1 hm
    exact update_record c x.1 x.2 (hu x hx)
  · rw [← hls, List.map_map, List.map_map]; rfl
  · rw [hb, List.map_map, List.append_assoc]; rfl

theorem loop_log {c : Clock} (he : e.clock = c) (log : List (Entry × Bytes))
    (hl : ∀ x ∈ log, EntryImage x.1 x.2) :
    ∀ (pre : Bytes) (cut n : Nat) (st : σ),
      ((bytes log).take cut).length < n →
      pre.length + (bytes log).length ≤ intMax →
      ∃ off, applyLoop e app (pre ++ (bytes log).take cut) n st pre.length none =
          toRes (afterLog app c st (whole log cut)) off ∧
        ((∀ ls, torn log cut ≠ some (.range ls)) →
          off = pre.length + (bytes (whole log cut)).length) := by
  induction log with
  | nil =>
    intro pre cut n st hn hi
    obtain ⟨n, rfl⟩ : ∃ k, n = k + 1 := ⟨n - 1, by omega⟩
    refine ⟨pre.length, ?_, fun _ => rfl⟩
    simp only [bytes, List.map_nil, List.flatten_nil, List.take_nil, List.append_nil]
    rw [applyLoop, turn, if_neg (by omega)]
    rfl
  | cons x log ih =>
    intro pre cut n st hn hi
    obtain ⟨en, b⟩ := x
    have hx : EntryImage en b := hl (en, b) (by simp)
    have hb : bytes ((en, b) :: log) = b ++ bytes log := rfl
    rw [hb] at hn hi
    rw [hb]
    rw [List.length_append] at hi
    by_cases hcut : b.length ≤ cut
    · -- the entry is complete
      rw [List.take_append, List.take_of_length_le hcut, List.length_append] at hn
      rw [List.take_append, List.take_of_length_le hcut]
      have hw : whole ((en, b) :: log) cut = (en, b) :: whole log (cut - b.length) := by
        simp only [whole]; rw [if_pos hcut]
      have ht : torn ((en, b) :: log) cut = torn log (cut - b.length) := by
        simp only [torn]; rw [if_pos hcut]
      rw [hw, ht]
      have hbw : bytes ((en, b) :: whole log (cut - b.length)) =
        b ++ bytes (whole log (cut - b.length)) := rfl
      rw [hbw]
      have hih := fun m st' hm => ih (fun y hy => hl y (by simp [hy])) (pre ++ b) (cut - b.length) m st'
        hm (by rw [List.length_append]; omega)
      rw [← List.append_assoc]
      cases en with
      | one l =>
        have hrec := update_record c l b hx
        have hp := record_pos hrec
        obtain ⟨n, rfl⟩ : ∃ k, n = k + 1 := ⟨n - 1, by omega⟩
        have hal : afterLog app c st ((.one l, b) :: whole log (cut - b.length)) =
            match app st (callOf c l) with
            | none => none
            | some s => afterLog app c s (whole log (cut - b.length)) := rfl
        rw [applyLoop, turn_record e app he hrec pre _ st none (by omega), hal]
        simp only
        cases app st (callOf c l) with
        | none =>
          exact ⟨_, rfl, fun _ => rfl⟩
        | some st' =>
          obtain ⟨off, h1, h2⟩ := hih n st' (by omega)
          refine ⟨off, ?_, ?_⟩
          · rw [List.length_append] at h1
            exact h1
          · intro h
            rw [h2 h, List.length_append, List.length_append, Nat.add_assoc]
      | range ls =>
        obtain ⟨b0, b1, ms, hm0, hm1, hr, hc, hbb⟩ := range_parts (c := c) hx
        have hl0 := hm0.len
        have hl1 := hm1.len
        have hfile : pre ++ b ++ (bytes log).take (cut - b.length) =
            (pre ++ b0) ++ ((ms.map (·.1)).flatten ++ b1) ++ (bytes log).take (cut - b.length) := by
          rw [hbb]; simp only [List.append_assoc]
        have hfile' : pre ++ b ++ (bytes log).take (cut - b.length) =
            pre ++ b0 ++ (((ms.map (·.1)).flatten ++ b1) ++ (bytes log).take (cut - b.length)) := by
          rw [hbb]; simp only [List.append_assoc]
        have hlen : b.length = 8 + ((ms.map (·.1)).flatten ++ b1).length := by
          rw [hbb, List.length_append, hl0]
        obtain ⟨n, rfl⟩ : ∃ k, n = k + 1 := ⟨n - 1, by omega⟩
        have ht0 := turn_begin e app hm0 pre
          (((ms.map (·.1)).flatten ++ b1) ++ (bytes log).take (cut - b.length)) st (by omega)
        obtain ⟨k, hk, hloop⟩ := loop_pending_whole e app he b1 hm1 ms hr st (pre ++ b0)
          ((bytes log).take (cut - b.length)) ms hr [] n rfl
          (by rw [List.length_append]; omega) (by rw [List.length_append, hl0]; omega)
        rw [← hfile'] at ht0
        rw [← hfile] at hloop
        rw [applyLoop, ht0]
        simp only
        simp only [List.length_append, hl0, List.map_nil, List.flatten_nil, List.length_nil,
          Nat.add_zero, hl1] at hloop
        rw [hloop, hc]
        have hal : afterLog app c st ((.range ls, b) :: whole log (cut - b.length)) =
            match after app st (ls.map (callOf c)) with
            | none => none
            | some s => afterLog app c s (whole log (cut - b.length)) := by
          unfold afterLog
          rw [List.flatMap_cons, after_append]
          rfl
        rw [hal]
        cases after app st (ls.map (callOf c)) with
        | none => exact ⟨_, rfl, fun _ => rfl⟩
        | some st' =>
          have hms : ∀ ms : List (Bytes × Call), Records c ms → ms.length ≤
              (ms.map (·.1)).flatten.length := by
            intro ms hr
            induction ms with
            | nil => simp
            | cons m ms ih =>
              have := record_pos (hr m (by simp))
              have := ih (fun m hm => hr m (by simp [hm]))
              simp only [List.length_cons, List.map_cons, List.flatten_cons, List.length_append]
              omega
          have := hms ms hr
          rw [List.length_append] at hlen
          obtain ⟨off, h1, h2⟩ := hih k st' (by omega)
          refine ⟨off, ?_, ?_⟩
          · simp only
            rw [List.length_append] at h1
            rw [← h1]
            congr 1
            omega
          · intro h
            rw [h2 h, List.length_append, List.length_append, Nat.add_assoc]
    · -- the entry is torn
      have hcut : cut < b.length := by omega
      have hw : whole ((en, b) :: log) cut = [] := by simp only [whole]; rw [if_neg (by omega)]
      have ht : torn ((en, b) :: log) cut = some en := by simp only [torn]; rw [if_neg (by omega)]
      rw [hw, ht]
      rw [List.take_append_of_le_length (by omega)] at hn ⊢
      have htl : (b.take cut).length = cut := by rw [List.length_take]; omega
      rw [htl] at hn
      obtain ⟨n, rfl⟩ : ∃ k, n = k + 1 := ⟨n - 1, by omega⟩
      cases en with
      | one l =>
        have hrec := update_record c l b hx
        refine ⟨pre.length, ?_, fun _ => rfl⟩
        rw [applyLoop, turn_torn e app hrec pre cut hcut st none (by omega)]
        rfl
      | range ls =>
        obtain ⟨b0, b1, ms, hm0, hm1, hr, hc, hbb⟩ := range_parts (c := c) hx
        have hl0 := hm0.len
        by_cases h8 : cut < 8
        · refine ⟨pre.length, ?_, fun h => absurd rfl (h ls)⟩
          rw [hbb, List.take_append_of_le_length (by omega), applyLoop,
            turn_torn_mark e app hm0 pre cut (by omega) st none]
          rfl
        · have hlen : b.length = 8 + ((ms.map (·.1)).flatten ++ b1).length := by
            rw [hbb, List.length_append, hl0]
          obtain ⟨off, h1⟩ := loop_pending_torn e app he b1 hm1 ms hr (pre.length + 8) st (pre ++ b0)
            (cut - 8) n (by omega) (by omega) (by rw [List.length_append]; omega)
          refine ⟨off, ?_, fun h => absurd rfl (h ls)⟩
          have hfile : b.take cut = b0 ++ ((ms.map (·.1)).flatten ++ b1).take (cut - 8) := by
            rw [hbb, List.take_append, List.take_of_length_le (by omega), hl0]
          rw [hfile, ← List.append_assoc, applyLoop, turn_begin e app hm0 pre _ st (by omega)]
          simp only
          rw [List.length_append, hl0] at h1
          rw [h1]
          rfl

/-- Recovery restores the state after the entries written completely, and continues the log behind
them unless a range was torn. -/
theorem fileApply_eq {c : Clock} (he : e.clock = c) (log : List (Entry × Bytes))
    (hl : ∀ x ∈ log, EntryImage x.1 x.2) (cut : Nat) (st : σ) (hi : (bytes log).length ≤ intMax) :
    ∃ off, fileApply e app ((bytes log).take cut) st =
        toRes (afterLog app c st (whole log cut)) off ∧
      ((∀ ls, torn log cut ≠ some (.range ls)) → off = (bytes (whole log cut)).length) := by
  have := loop_log e app he log hl [] cut (((bytes log).take cut).length + 1) st (by omega)
    (by simpa using hi)
  simp only [List.length_nil, List.nil_append, Nat.zero_add] at this
  unfold fileApply
  split
  · rename_i h0
    have hnil : (bytes log).take cut = [] := List.length_eq_zero_iff.1 h0
    rw [hnil, List.length_nil] at this
    obtain ⟨off, h1, h2⟩ := this
    refine ⟨off, ?_, h2⟩
    rw [← h1, applyLoop, turn, if_neg (by simp)]
  · exact this

/-- A log of single updates longer than INT_MAX: recovery stops behind the record that crosses it. -/
theorem loop_long {c : Clock} (he : e.clock = c) (post : Bytes) (ls : List (Logged × Bytes))
    (hl : ∀ x ∈ ls, Update x.1 x.2) :
    ∀ (pre : Bytes) (n : Nat) (st : σ), ls ≠ [] → ls.length < n →
      pre.length + (ls.dropLast.map (·.2)).flatten.length ≤ intMax →
      intMax < pre.length + (ls.map (·.2)).flatten.length →
      applyLoop e app (pre ++ (ls.map (·.2)).flatten ++ post) n st pre.length none =
        toRes (after app st (ls.map fun x => callOf c x.1))
          (pre.length + (ls.map (·.2)).flatten.length) ∨
      applyLoop e app (pre ++ (ls.map (·.2)).flatten ++ post) n st pre.length none = .fail ∧
        after app st (ls.map fun x => callOf c x.1) = none := by
  induction ls with
  | nil => intro pre n st h; exact absurd rfl h
  | cons x ls ih =>
    intro pre n st _ hn h1 h2
    obtain ⟨l, b⟩ := x
    have hrec := update_record c l b (hl (l, b) (by simp))
    obtain ⟨n, rfl⟩ : ∃ k, n = k + 1 := ⟨n - 1, by omega⟩
    have hfile : pre ++ (((l, b) :: ls).map (·.2)).flatten ++ post =
        pre ++ b ++ ((ls.map (·.2)).flatten ++ post) := by simp
    have hfile2 : pre ++ (((l, b) :: ls).map (·.2)).flatten ++ post =
        (pre ++ b) ++ (ls.map (·.2)).flatten ++ post := by simp
    have hpre : pre.length ≤ intMax := by omega
    simp only [List.length_cons] at hn
    simp only [List.map_cons, List.flatten_cons, List.length_append] at h2
    have ht := turn_record e app he hrec pre ((ls.map (·.2)).flatten ++ post) st none hpre
    rw [← hfile] at ht
    rw [applyLoop, ht]
    simp only [List.map_cons, after]
    cases happ : app st (callOf c l) with
    | none => right; exact ⟨rfl, rfl⟩
    | some st' =>
      simp only
      cases ls with
      | nil =>
        left
        obtain ⟨n, rfl⟩ : ∃ k, n = k + 1 := ⟨n - 1, by simp at hn; omega⟩
        simp only [List.map_nil, List.flatten_nil, List.length_nil] at h2
        rw [applyLoop, turn, if_neg (by omega)]
        simp [after, toRes]
      | cons y ls =>
        have := ih (fun z hz => hl z (by simp only [List.mem_cons] at hz ⊢; exact Or.inr hz))
          (pre ++ b) n st' (by simp) (by omega)
          (by
            simp only [List.dropLast_cons_cons, List.map_cons, List.flatten_cons,
              List.length_append] at h1 ⊢
            omega)
          (by rw [List.length_append]; omega)
        simp only [List.append_assoc, List.length_append, List.map_cons, List.flatten_cons] at this ⊢
        rw [← Nat.add_assoc]
        exact this

/-- A record longer than 2 MB makes recovery fail. -/
theorem apply_big (l : Logged) (b : Bytes) (hp : Plain l.op) (hg : Producible l.op)
    (hs : ∀ p n, l.op = .flush p n → n < 255) (hi : Image l b) (hb : 2097152 < b.length)
    (post : Bytes) (st : σ) : fileApply e app (b ++ post) st = .fail := by
  obtain ⟨rs, buf, hbuf, hw⟩ := hi
  obtain ⟨b', hw', hlen, hf, _, hredo⟩ := all_round l.clock e.clock l.op hg hs rs buf [] hbuf
  rw [hw] at hw'
  cases Option.some.inj hw'
  have hnr := meaning_not_range (fun x => relExp e.clock (absExp l.clock x)) l.op hp
  have : ∃ ty, fld b 0 1 = some ty := by
    unfold fld get
    rw [if_pos (by omega)]
    exact ⟨_, rfl⟩
  obtain ⟨ty, ht⟩ := this
  rw [List.append_nil] at hredo
  have h13 : ty ≠ 13 := by
    intro h; subst h
    simp [redo, ht] at hredo
    exact hnr.1 hredo.symm
  have h14 : ty ≠ 14 := by
    intro h; subst h
    simp [redo, ht] at hredo
    exact hnr.2 hredo.symm
  have hfl : (b ++ post).length = b.length + post.length := List.length_append
  have hgm := get_mid [] b post 8 (by omega)
  rw [List.nil_append, List.length_nil] at hgm
  have hturn : turn e app (b ++ post) st 0 none = .fail := by
    unfold turn
    rw [if_pos (by omega), if_neg (by omega), hgm]
    simp only
    rw [fld_take _ _ _ _ (by omega), fld_take _ _ _ _ (by omega), ht, hf]
    simp only
    rw [if_neg h13, if_neg h14]
    unfold turnRec
    rw [if_pos (by omega), if_neg (by omega), if_pos (by unfold maxBody; omega)]
  unfold fileApply
  rw [if_neg (by omega), applyLoop, hturn]

theorem bytes_append (a b : List (Entry × Bytes)) : bytes (a ++ b) = bytes a ++ bytes b := by
  simp [bytes]

theorem whole_prefix (log : List (Entry × Bytes)) :
    ∀ cut, (bytes (whole log cut)).length ≤ cut ∧
      (bytes (whole log cut)).length ≤ (bytes log).length ∧
      (bytes log).take (bytes (whole log cut)).length = bytes (whole log cut) := by
  induction log with
  | nil => intro cut; simp [whole, bytes]
  | cons x log ih =>
    intro cut
    simp only [whole]
    by_cases h : x.2.length ≤ cut
    · rw [if_pos h]
      have hb : bytes (x :: log) = x.2 ++ bytes log := rfl
      have hw : bytes (x :: whole log (cut - x.2.length)) = x.2 ++ bytes (whole log (cut - x.2.length)) :=
        rfl
      obtain ⟨h1, h2, h3⟩ := ih (cut - x.2.length)
      rw [hb, hw, List.length_append, List.length_append]
      refine ⟨by omega, by omega, ?_⟩
      rw [List.take_append, List.take_of_length_le (by omega)]
      have : x.2.length + (bytes (whole log (cut - x.2.length))).length - x.2.length =
        (bytes (whole log (cut - x.2.length))).length := by omega
      rw [this, h3]
    · rw [if_neg h]
      simp [bytes]

/-- Cutting behind complete entries. -/
theorem whole_append (a b : List (Entry × Bytes)) (cut : Nat) :
    whole (a ++ b) ((bytes a).length + cut) = a ++ whole b cut ∧
    torn (a ++ b) ((bytes a).length + cut) = torn b cut := by
  induction a with
  | nil => simp [bytes]
  | cons x a ih =>
    have hb : (bytes (x :: a)).length = x.2.length + (bytes a).length := by
      simp [bytes]
    rw [hb]
    simp only [List.cons_append, whole, torn]
    rw [if_pos (by omega), if_pos (by omega)]
    have : x.2.length + (bytes a).length + cut - x.2.length = (bytes a).length + cut := by omega
    rw [this, ih.1, ih.2]
    exact ⟨rfl, rfl⟩

/-- After any number of restarts the file is a cut log of the complete entries and one more run. -/
theorem restarts_shape (app : Nat → σ → Call → Option σ) (st : σ) {file : Bytes}
    {done : List (Entry × Bytes)} {t : Option Entry} (h : Restarts app st file done t) :
    ∃ log cut, (∀ x ∈ log, EntryImage x.1 x.2) ∧ (bytes log).length ≤ intMax ∧
      file = (bytes log).take cut ∧ done = whole log cut ∧ t = torn log cut := by
  induction h with
  | first log cut hl hi => exact ⟨log, cut, hl, hi, rfl, rfl, rfl⟩
  | again file done t log cut off e s h hr hf hl hlen hi ih =>
    obtain ⟨log0, cut0, hl0, hi0, rfl, rfl, rfl⟩ := ih
    obtain ⟨off', h1, h2⟩ := fileApply_eq e (app e.clock.cur) rfl log0 hl0 cut0 st hi0
    have hoff : off = (bytes (whole log0 cut0)).length := by
      rw [← h2 hr]
      rw [hf] at h1
      unfold toRes at h1
      split at h1
      · simp at h1
      · simp only [Res.val.injEq, Prod.mk.injEq] at h1
        exact h1.2
    obtain ⟨hw1, hw2, hw3⟩ := whole_prefix log0 cut0
    refine ⟨whole log0 cut0 ++ log, (bytes (whole log0 cut0)).length + cut, ?_, ?_, ?_, ?_, ?_⟩
    · intro x hx
      rcases List.mem_append.1 hx with hx | hx
      · have hsub : ∀ (l : List (Entry × Bytes)) c x, x ∈ whole l c → x ∈ l := by
          intro l
          induction l with
          | nil => intro c x hx; simp [whole] at hx
          | cons y l ih =>
            intro c x hx
            simp only [whole] at hx
            split at hx
            · rcases List.mem_cons.1 hx with rfl | hx
              · simp
              · exact List.mem_cons_of_mem _ (ih _ _ hx)
            · simp at hx
        exact hl0 x (hsub _ _ _ hx)
      · exact hl x hx
    · rw [bytes_append, List.length_append]; exact hi
    · unfold fileWrite
      rw [hoff, List.take_take, Nat.min_eq_left hw1, hw3, bytes_append, List.take_append,
        List.take_of_length_le (Nat.le_add_right _ _), Nat.add_sub_cancel_left]
      rw [List.drop_eq_nil_of_le (by rw [hoff] at hlen; exact hlen), List.append_nil]
    · exact (whole_append _ _ _).1.symm
    · exact (whole_append _ _ _).2.symm

end Verif.Log
