import Verif.Lemmas.BinRun
import Verif.Lemmas.BinMem
import Verif.Lemmas.BinClose
import Verif.Lemmas.BinPieces
import Verif.Lemmas.BinObey

/-! Properties C82 to C88: the binary protocol. -/

namespace Verif.Bin.Props

open Verif.Bin Verif.Bin.Spec

/-- A small engine for the examples: a list of items. -/
def mapEngine : Engine (List (Bytes × Bytes × Bytes)) :=
  { call := fun s c => match c with
      | .store _ key flags _ _ data _ => ((key, flags, data) :: s, { code := .success, cas := s.length + 1 })
      | .get key _ => match s.find? (fun x => x.1 = key) with
        | some (_, flags, data) => (s, { code := .success, flags := flags, data := data })
        | none => (s, { code := .keyEnoent })
      | .arith .. => (s, { code := .keyEnoent })
      | .remove key _ _ => if s.any (fun x => x.1 = key) then (s.filter (fun x => x.1 ≠ key), { code := .success }) else (s, { code := .keyEnoent })
      | .unknown .. => (s, { code := .enotsup })
      | .coll .. => (s, { code := .success, flags := [0, 0, 0, 7], vals := [[65, 66, 13, 10], [13, 10], [67, 13, 10]] })
      | _ => (s, { code := .success }) }

theorem mapEngine_noEnotsup : NoEnotsup mapEngine := ⟨fun _ _ _ _ _ _ => by simp [mapEngine], fun _ _ _ _ _ => by simp [mapEngine]⟩

theorem mapEngine_tame : Tame mapEngine := by
  refine ⟨fun s k v => ?_, fun _ _ _ _ _ _ _ _ => by simp [mapEngine, incrAct]⟩
  simp only [mapEngine]
  cases s.find? (fun x => x.1 = k) <;> simp [getAct]

theorem mapEngine_keeps : Keeps mapEngine := by
  intro s key flags data exp vb n _ _
  simp [mapEngine]

/-! ### C82: framing -/

/-- `STAT` whose body, 24 bytes, is the header of a `NOOP`, and a `NOOP` behind it. -/
def statInp : Bytes :=
  [0x80, 0x10, 0, 0, 0, 0, 0, 0, 0, 0, 0, 24, 1, 1, 1, 1, 0, 0, 0, 0, 0, 0, 0, 0] ++
  encode 0x0a [] [] [] [2, 2, 2, 2] 0 0 ++ encode 0x0a [] [] [] [3, 3, 3, 3] 0 0

/-- C82 does not hold: the body of a `STAT` is taken for a request. -/
theorem C82_false : ¬ ∀ (g : Cfg) (inp : Bytes) (c : Conn (List (Bytes × Bytes × Bytes))) (p : Nat) (tr : List (Nat × Ev)),
    Run mapEngine g inp [] c p tr → Framed inp c p tr := by
  intro h
  have r1 : Run mapEngine {} statInp [] _ _ _ := Run.step (n := 72) (deny := false) Run.start rfl
  have r2 := Run.step (n := 72) (deny := false) r1 rfl
  have hb : Boundary statInp 24 := (h _ _ _ _ _ r2).1 _ _ _ _ (List.mem_append_right _ (List.mem_singleton.2 rfl))
  have : ∀ b, Boundary statInp b → b = 0 ∨ 48 ≤ b := by
    intro b hb
    induction hb with
    | start => exact Or.inl rfl
    | @next p _ _ ih =>
      right
      rcases ih with h0 | h0
      · subst h0
        have : bodyAt statInp 0 = 24 := by decide +kernel
        omega
      · omega
  rcases this 24 hb with h0 | h0 <;> omega

/-- `FLUSH_PREFIX` that has a key of 24 bytes by its header and no body, and a `NOOP` behind it. -/
def flushInp : Bytes :=
  [0x80, 0x90, 0, 24, 0, 0, 0, 0, 0, 0, 0, 0, 1, 1, 1, 1, 0, 0, 0, 0, 0, 0, 0, 0] ++ encode 0x0a [] [] [] [2, 2, 2, 2] 0 0

/-- Nor for `FLUSH_PREFIX`: the request behind it is taken for its key and never answered. -/
theorem C82_false_flush : ∃ (c : Conn (List (Bytes × Bytes × Bytes))) (p : Nat) (tr : List (Nat × Ev)),
    Run mapEngine {} flushInp [] c p tr ∧ ¬ Framed flushInp c p tr := by
  have r1 : Run mapEngine {} flushInp [] _ _ _ := Run.step (n := 48) (deny := false) Run.start rfl
  refine ⟨_, _, _, r1, fun h => ?_⟩
  have hb : Boundary flushInp 24 := by
    have := Boundary.next (inp := flushInp) .start (by decide +kernel)
    have hz : bodyAt flushInp 0 = 0 := by decide +kernel
    rw [hz] at this; exact this
  obtain ⟨hh, rs, nx, hm⟩ := h.2 rfl 24 hb (by decide)
  simp at hm

/-- `BOP_UPDATE` with a value that says `novalue`; the value is the header of a `NOOP`. -/
def updateInp : Bytes :=
  encode 0x73 (List.replicate 66 0 ++ [1, 0, 0, 0, 0, 0]) [107] (encode 0x0a [] [] [] [2, 2, 2, 2] 0 0) [1, 1, 1, 1] 0 0

set_option maxRecDepth 20000 in
/-- Nor for `BOP_UPDATE`: a value that is not read is taken for a request. -/
theorem C82_false_update : ∃ (c : Conn (List (Bytes × Bytes × Bytes))) (p : Nat) (tr : List (Nat × Ev)),
    Run mapEngine {} updateInp [] c p tr ∧ ¬ Framed updateInp c p tr := by
  have r1 : Run mapEngine {} updateInp [] _ _ _ := Run.step (n := 200) (deny := false) Run.start rfl
  have r2 := Run.step (n := 200) (deny := false) r1 rfl
  refine ⟨_, _, _, r2, fun h => ?_⟩
  have hb : Boundary updateInp 97 := h.1 _ _ _ _ (List.mem_append_right _ (List.mem_singleton.2 rfl))
  have : ∀ b, Boundary updateInp b → b = 0 ∨ 121 ≤ b := by
    intro b hb
    induction hb with
    | start => exact Or.inl rfl
    | @next p _ _ ih =>
      right
      rcases ih with h0 | h0
      · subst h0
        have : bodyAt updateInp 0 = 97 := by decide +kernel
        omega
      · omega
  rcases this 97 hb with h0 | h0 <;> omega

/-- C82, what holds: if key and extras lie inside the body, no `STAT` has a value and no `BOP_UPDATE` says it has none (`Clean`), and the
engine does not answer a request for room with "not supported", then in every run, however the bytes arrive and whatever the engine answers,
requests are taken exactly where the client began them, and all of them. Missing: the requests that `Clean` excludes. -/
theorem C82_partial {σ : Type} {e : Engine σ} {g : Cfg} {inp : Bytes} {s0 : σ} {c : Conn σ} {p : Nat} {tr : List (Nat × Ev)}
    (he : NoEnotsup e) (hcl : Clean inp) (hr : Run e g inp s0 c p tr) : Framed inp c p tr := by
  have h := frameInv_run he hcl hr
  refine ⟨h.1, fun hc b hb hlt => (h.2 hc).2 b hb (by omega)⟩

/-- A stream with two requests of which the first is too large for a list element and is swallowed; both are taken. -/
example : Clean (encode 0x0a [] [] [] [2, 2, 2, 2] 0 0) := by
  have h0 : ∀ p, Boundary (encode 0x0a [] [] [] [2, 2, 2, 2] 0 0) p → p + 24 ≤ 24 → p = 0 := by intro p _ h; omega
  intro p hp hl
  have hl' : p + 24 ≤ 24 := hl
  have := h0 p hp hl'
  subst this
  decide +kernel

/-- Two requests and what the server did with them: the value of the first is too large, it is thrown away in two pieces. -/
example : ∃ c tr, Run mapEngine { maxElem := 8 } (encode 0x51 (List.replicate 20 0) [107] (List.replicate 30 120) [1, 1, 1, 1] 0 0 ++
    encode 0x0a [] [] [] [2, 2, 2, 2] 0 0) [] c 99 tr ∧ tr.length = 4 ∧ c.closed = false := by
  have r1 : Run mapEngine { maxElem := 8 } (encode 0x51 (List.replicate 20 0) [107] (List.replicate 30 120) [1, 1, 1, 1] 0 0 ++
    encode 0x0a [] [] [] [2, 2, 2, 2] 0 0) [] _ _ _ := Run.step (n := 50) (deny := false) Run.start rfl
  have r2 := Run.step (n := 60) (deny := false) r1 rfl
  have r3 := Run.step (n := 99) (deny := false) r2 rfl
  have r4 := Run.step (n := 99) (deny := false) r3 rfl
  exact ⟨_, _, r4, rfl, rfl⟩

/-- C82, in whatever pieces a request arrives: what is done with it, once its header is there and the server does not wait for more, does not
depend on the bytes that arrive later. -/
theorem C82_pieces {σ : Type} (e : Engine σ) (g : Cfg) (deny : Bool) (s : σ) (inp more : Bytes) (h : 24 ≤ inp.length)
    (hw : handle e g deny s inp ≠ .wait) : handle e g deny s (inp ++ more) = handle e g deny s inp :=
  handle_app e g deny s inp more h hw

/-- A `SET` of which the last byte is missing is waited for; the whole request is carried out. -/
example : (match handle mapEngine {} false [] ((encode 0x01 [0, 0, 0, 5, 0, 0, 0, 0] [107] [120] [1, 2, 3, 4] 0 0).take 33) with
      | .wait => true | _ => false) = true ∧
    (match handle mapEngine {} false [] (encode 0x01 [0, 0, 0, 5, 0, 0, 0, 0] [107] [120] [1, 2, 3, 4] 0 0) with
      | .done o => o.eng | _ => []) = [([107], [0, 0, 0, 5], [120, 13, 10])] := by decide +kernel

/-! ### C83: answers -/

/-- C83: in every run each request that is taken is the one whose header stands at that position, and gets the answers that its form
demands: one; for quiet forms only failures, or hits for quiet gets; several for `STAT`; all of them with its operation code, opaque field and
their true length. -/
theorem C83 {σ : Type} {e : Engine σ} {g : Cfg} {inp : Bytes} {s0 : σ} {c : Conn σ} {p : Nat} {tr : List (Nat × Ev)}
    (hr : Run e g inp s0 c p tr) : ∀ q h rs nx, (q, Ev.req h rs nx) ∈ tr → h = hdrOf (inp.drop q) ∧ Answered h rs nx :=
  answered_run hr

/-- C83: and a connection is closed for a request only because of a `QUIT`, because the request is refused with an answer and before the
engine is called, or because the engine demands it. -/
theorem C83_close {σ : Type} (e : Engine σ) (g : Cfg) (deny : Bool) (s : σ) (inp : Bytes) :
    CloseReason deny (hdrOf inp) (decide ((cmdOf g.sasl (hdrOf inp).opcode).1 ≠ .other)) (handle (logged e) g deny (s, []) inp) :=
  reason_handle e g deny s inp

/-- C83: a `QUIT` always closes the connection, well formed or not, logged in or not, and leaves the data alone; a well-formed one is answered
with success, its quiet form is not answered. -/
theorem C83_quit {σ : Type} (e : Engine σ) (g : Cfg) (deny : Bool) (c : Conn σ) (inp : Bytes) (ho : c.closed = false) (hs : c.sw = 0)
    (hl : 24 ≤ inp.length) (hm : (hdrOf inp).magic = 0x80) (hq : (hdrOf inp).opcode = 0x07 ∨ (hdrOf inp).opcode = 0x17) :
    ∃ c' n rs, step e g deny c inp = .next c' n (.req (hdrOf inp) rs .closing) ∧ c'.closed = true ∧ c'.eng = c.eng ∧
      (deny = false → (hdrOf inp).extlen = 0 → (hdrOf inp).keylen = 0 → (hdrOf inp).bodylen = 0 →
        n = 24 ∧ rs.map (·.status) = if (hdrOf inp).opcode = 0x07 then [0] else []) := by
  obtain ⟨o, h1, h2, h3, h4⟩ := quit_handle e g deny c.eng inp hq hl
  refine ⟨{ eng := o.eng, sw := o.next.sw, closed := decide (o.next = .closing) }, o.used, o.resps, ?_, ?_, h3, h4⟩
  · have hlt : ¬ inp.length < hdrLen := by simp only [hdrLen]; omega
    simp only [step, ho, hs, hlt, hm, h1, h2]
    simp
  · simp [h2]

/-- C83: and when the engine says "disconnect" to a call for the request, other than a removal, the connection is closed without an answer. -/
theorem C83_obeys {σ : Type} (e : Engine σ) (g : Cfg) (deny : Bool) (s : σ) (inp : Bytes) :
    Obeys (handle (logged e) g deny (s, []) inp) :=
  obeys_handle e g deny s inp

/-- A quiet `QUIT`, a `QUIT` with a key that it may not have, and a `FLUSH` for which the engine wants the connection closed. -/
example : (match handle mapEngine {} false [] (encode 0x17 [] [] [] [1, 2, 3, 4] 0 0) with
    | .done o => (o.resps.map (·.status), o.next) | _ => ([7], .newCmd)) = ([], .closing) := by decide +kernel
example : (match handle mapEngine {} false [] (encode 0x07 [] [107] [] [1, 2, 3, 4] 0 0) with
    | .done o => (o.resps.map (·.status), o.next) | _ => ([7], .newCmd)) = ([0x04], .closing) := by decide +kernel
example : (match handle (logged (σ := Unit) { call := fun s _ => (s, { code := .disconnect }) }) {} false ((), [])
      (encode 0x08 [] [] [] [1, 2, 3, 4] 0 0) with
    | .done o => (o.resps.length, o.next, o.eng.2) | _ => (7, .newCmd, [])) =
    (0, .closing, [(.flush none 0, .disconnect)]) := by decide +kernel

/-- A quiet get that hits, one that misses, and a `STAT`. -/
example : (match handle mapEngine {} false [([107], [0, 0, 0, 5], [120, 13, 10])] (encode 0x09 [] [107] [] [1, 2, 3, 4] 0 0) with
    | .done o => o.resps.map (fun r => (r.status, r.opq, r.body)) | _ => []) = [(0, [1, 2, 3, 4], [0, 0, 0, 5, 120])] := by decide +kernel
example : (match handle mapEngine {} false [] (encode 0x09 [] [107] [] [1, 2, 3, 4] 0 0) with
    | .done o => o.resps.map (fun r => r.status) | _ => [7]) = [] := by decide +kernel
example : (match handle mapEngine {} false [] (encode 0x10 [] [] [] [1, 2, 3, 4] 0 0) with
    | .done o => o.resps.map (fun r => (r.status, r.body)) | _ => []) = [(0, [])] := by decide +kernel

/-! ### C84: memory -/

/-- A `GETK` with a key of 2025 bytes. -/
@[irreducible] def longGetk : Bytes := encode 0x0c [] (List.replicate 2025 107) [] [1, 1, 1, 1] 0 0

/-- C84 does not hold: the key of a `GETK` that misses is copied into the write buffer whatever its length. -/
theorem C84_false : ¬ ∀ (g : Cfg) (inp : Bytes), NoFault (handle mapEngine g false [] inp) := by
  intro h
  have aux : ∀ r : Res (List (Bytes × Bytes × Bytes)), (match r with | .fault => true | _ => false) = true → ¬ NoFault r := by
    intro r; cases r <;> simp [NoFault]
  exact aux (handle mapEngine {} false [] longGetk) (by decide +kernel) (h {} longGetk)

/-- Nor for `BOP_UPDATE` that leaves the element flag as it is (length 255): 255 bytes are copied into an array of 31. -/
theorem C84_false_update : (match handle mapEngine {} false []
    (encode 0x73 (List.replicate 31 0 ++ [8] ++ List.replicate 31 0 ++ [255] ++ List.replicate 8 0) [107] [120] [1, 1, 1, 1] 0 0) with
    | .fault => true | _ => false) = true := by decide +kernel

/-- Nor for `SETATTR` with a key range of 32 to 254 bytes. -/
theorem C84_false_setattr : (match handle mapEngine {} false []
    (encode 0x4f (List.replicate 39 0 ++ [200] ++ List.replicate 4 0) [107] [] [1, 1, 1, 1] 0 0) with
    | .fault => true | _ => false) = true := by decide +kernel

/-- Nor for the read buffer: a body of 2 GiB less 24 bytes of an unknown command makes the recorded size negative. -/
theorem C84_false_buffer : BufOk { cap := 2048, rsize := 2048, rcurr := 0, rbytes := 24 } ∧
    (readChunk { cap := 2048, rsize := 2048, rcurr := 0, rbytes := 24 } (2 ^ 30)).rsize = -2 ^ 31 := by
  refine ⟨⟨rfl, by decide, by decide, by decide⟩, by decide +kernel⟩

/-- C84, what holds: with an engine that answers gets and arithmetic with the codes that are known there, no request leads to an access
outside an array or to an `abort()`, if a `GETK` has a key for which there is room in the write buffer, a `SETATTR` a key range of at most 31 bytes (or
none), and an insert or update of a b+tree element a key and an element flag of at most 31 bytes. Missing: the requests of `C84_false`. -/
theorem C84_partial {σ : Type} {e : Engine σ} {g : Cfg} {deny : Bool} {s : σ} {inp : Bytes} (ht : Tame e)
    (h1 : (hdrOf inp).opcode = 0x0c → 24 + (hdrOf inp).keylen ≤ g.wsize)
    (h2 : (hdrOf inp).opcode = 0x4f → byteAt (slice inp 24 44) 39 = 255 ∨ byteAt (slice inp 24 44) 39 ≤ 31)
    (h3 : (hdrOf inp).opcode ∈ [0x71, 0x72, 0x73, 0x7c, 0x7d, 0x7e] →
      byteAt (slice inp 24 (hdrOf inp).extlen) 31 ≤ 31 ∧ byteAt (slice inp 24 (hdrOf inp).extlen) 63 ≤ 31) :
    NoFault (handle e g deny s inp) :=
  noFault_handle ht h1 h2 h3

example : (hdrOf (encode 0x73 (List.replicate 31 0 ++ [8] ++ List.replicate 31 0 ++ [2] ++ List.replicate 8 0) [107] [120] [1, 1, 1, 1] 0 0)).opcode ∈
      [0x71, 0x72, 0x73, 0x7c, 0x7d, 0x7e] ∧
    byteAt (slice (encode 0x73 (List.replicate 31 0 ++ [8] ++ List.replicate 31 0 ++ [2] ++ List.replicate 8 0) [107] [120] [1, 1, 1, 1] 0 0) 24 72) 31 = 8 := by
  decide +kernel

/-- C84, what holds of the read buffer: after room was made for what the dispatcher asks for, the buffer is what its fields say and holds header and
chunk, for every command that is known, and for unknown ones with a body of less than 1 GiB. -/
theorem C84_partial_buffer {b : RBuf} {g : Cfg} {h : Hdr} (hb : BufOk b) (hk : h.keylen ≤ keyMax) (hx : h.extlen < 256)
    (hu : (cmdOf g.sasl h.opcode).1 = .other → h.bodylen + 24 ≤ 2 ^ 30) :
    BufOk (readChunk b (chunkOf (cmdOf g.sasl h.opcode).1 h)) ∧
    (readChunk b (chunkOf (cmdOf g.sasl h.opcode).1 h)).rcurr + 24 + chunkOf (cmdOf g.sasl h.opcode).1 h ≤
      (readChunk b (chunkOf (cmdOf g.sasl h.opcode).1 h)).cap := by
  have hc : chunkOf (cmdOf g.sasl h.opcode).1 h + hdrLen ≤ 2 ^ 30 := by
    generalize (cmdOf g.sasl h.opcode).1 = c at *
    simp only [keyMax] at hk
    cases c <;> simp only [chunkOf, hdrLen, reduceCtorEq, false_implies, forall_const] at hu ⊢ <;> omega
  have := readChunk_ok hb.1 hb.2.1 hb.2.2.1 hb.2.2.2 hc
  exact ⟨⟨this.1, this.2.1, this.2.2.1, this.2.2.2.1⟩, this.2.2.2.2⟩

example : BufOk { cap := 2048, rsize := 2048, rcurr := 2000, rbytes := 24 } ∧
    (readChunk { cap := 2048, rsize := 2048, rcurr := 2000, rbytes := 24 } 16000).cap = 16384 := by
  refine ⟨⟨rfl, by decide, by decide, by decide⟩, by decide +kernel⟩

/-! ### C85: well-formed requests are taken, others are refused -/

/-- C85 does not hold: a `FLUSH_PREFIX` with a key is refused. -/
theorem C85_false : ¬ ∀ (g : Cfg) (inp : Bytes), (hdrOf inp).keylen ≤ keyMax → (hdrOf inp).bodylen ≤ maxVlen →
    WellFormed (cmdOf g.sasl (hdrOf inp).opcode).1 (hdrOf inp) → ¬ Refused (handle mapEngine g false [] inp) := by
  intro h
  refine h {} (encode 0x90 [] [112] [] [1, 1, 1, 1] 0 0) (by decide +kernel) (by decide +kernel) ?_ ?_
  · have hh : hdrOf (encode 0x90 [] [112] [] [1, 1, 1, 1] 0 0) = ⟨0x80, 0x90, 1, 0, 0, 1, [1, 1, 1, 1], 0⟩ := by decide +kernel
    rw [hh]
    refine ⟨by decide, fun _ => by decide, fun hh => by simp [cmdOf, shape] at hh, by simp [cmdOf, shape]⟩
  · obtain ⟨r, h1, h2⟩ := refused_handle mapEngine {} [] (encode 0x90 [] [112] [] [1, 1, 1, 1] 0 0) (Or.inr (by decide +kernel))
    rw [h1]
    exact ⟨rfl, r, by simp, h2⟩

/-- Nor for a lookup of attributes as declared, without extras. -/
theorem C85_false_getattr : accepts .getattr (hdrOf (encode 0x4e [] [107] [] [1, 1, 1, 1] 0 0)) = false ∧
    (shape .getattr).exts = [0] := by decide +kernel

/-- Nor for the commands on ranges of a b+tree (`BOP_DELETE`, `BOP_GET`, `BOP_COUNT`, `BOP_MGET`, `BOP_SMGET`): their extras are longer than 255
bytes, the length of the extras is one byte, so that every such request is refused. -/
theorem C85_false_range {σ : Type} (e : Engine σ) (g : Cfg) (s : σ) (inp : Bytes)
    (hop : (hdrOf inp).opcode ∈ [0x74, 0x75, 0x76, 0x7a, 0x7b, 0x7f]) : Refused (handle e g false s inp) := by
  obtain ⟨r, h1, h2⟩ := refused_handle e g s inp (Or.inr (by
    have hx := extlen_lt inp
    generalize hdrOf inp = h at *
    simp only [List.mem_cons, List.not_mem_nil, or_false] at hop
    rcases hop with h0 | h0 | h0 | h0 | h0 | h0 <;> rw [h0] <;> simp [cmdOf, accepts, bkrangeSize, efilterSize] <;> omega))
  rw [h1]
  exact ⟨rfl, r, by simp, h2⟩

/-- Nor for an element with an empty value. -/
theorem C85_false_empty : accepts .lopInsert (hdrOf (encode 0x51 (List.replicate 20 0) [107] [] [1, 1, 1, 1] 0 0)) = false := by decide +kernel

/-- C85, what holds: a request of a known command other than `FLUSH_PREFIX`, `GETATTR` and the commands on ranges (whose declared extras do not fit in
a request) that has the declared shape, a key of at most 16000 bytes, a value of less than 2 GiB, for elements one that is not empty, is not refused. -/
theorem C85_partial {σ : Type} (e : Engine σ) (g : Cfg) (s : σ) (inp : Bytes)
    (hc : (cmdOf g.sasl (hdrOf inp).opcode).1 ∉ [Cmd.flushPrefix, .getattr, .other])
    (hw : WellFormed (cmdOf g.sasl (hdrOf inp).opcode).1 (hdrOf inp)) (hk : (hdrOf inp).keylen ≤ keyMax)
    (hv : (hdrOf inp).bodylen ≤ (hdrOf inp).keylen + (hdrOf inp).extlen + maxVlen)
    (he : elemCmd (cmdOf g.sasl (hdrOf inp).opcode).1 = true → (hdrOf inp).bodylen ≠ (hdrOf inp).keylen + (hdrOf inp).extlen) :
    ¬ Refused (handle e g false s inp) := by
  have hle : (hdrOf inp).keylen + (hdrOf inp).extlen ≤ (hdrOf inp).bodylen := by
    have := hw.2.2.2
    split at this <;> omega
  refine not_refused_handle e g s inp hk ?_ hle hv
  have hx := extlen_lt inp
  generalize hdrOf inp = h at *
  generalize (cmdOf g.sasl h.opcode).1 = c at *
  by_cases h1 : c = .append ∨ c = .prepend ∨ c = .saslAuth ∨ c = .saslStep
  · exact ((accepts_iff' h1).2 hw).1
  · by_cases h2 : c = .stat
    · subst h2
      have := hw.1
      simp only [shape, List.mem_singleton] at this
      simp [accepts, this]
    · refine (accepts_iff ?_ he hx).2 hw
      simp only [List.mem_cons, List.not_mem_nil, or_false, not_or] at hc h1 ⊢
      exact ⟨hc.1, hc.2.1, h2, hc.2.2, h1.1, h1.2.1, h1.2.2.1, h1.2.2.2⟩

example : WellFormed (cmdOf true (hdrOf (encode 0x61 (List.replicate 16 0) [107] [120] [1, 1, 1, 1] 0 0)).opcode).1
    (hdrOf (encode 0x61 (List.replicate 16 0) [107] [120] [1, 1, 1, 1] 0 0)) := by
  have hh : hdrOf (encode 0x61 (List.replicate 16 0) [107] [120] [1, 1, 1, 1] 0 0) = ⟨0x80, 0x61, 1, 16, 0, 18, [1, 1, 1, 1], 0⟩ := by
    decide +kernel
  rw [hh]
  refine ⟨by decide, fun _ => by decide, fun hh => by simp [cmdOf, shape] at hh, by simp [cmdOf, shape]⟩

/-- C85, the converse: a request of a known command other than `FLUSH_PREFIX`, `GETATTR` and `STAT` that does not have the declared shape, or whose
key is longer than 16000 bytes, is refused and the engine is not called, as soon as header, extras and key are there. -/
theorem C85_partial_refused {σ : Type} (e : Engine σ) (g : Cfg) (s : σ) (inp : Bytes)
    (hc : (cmdOf g.sasl (hdrOf inp).opcode).1 ∉ [Cmd.flushPrefix, .getattr, .stat, .other])
    (hl : 24 + (hdrOf inp).keylen + (hdrOf inp).extlen ≤ inp.length)
    (hw : ¬ WellFormed (cmdOf g.sasl (hdrOf inp).opcode).1 (hdrOf inp) ∨ keyMax < (hdrOf inp).keylen) :
    ∃ r u, handle e g false s inp = .done { eng := s, used := u, resps := [r], next := .closing } ∧ r.status = 0x04 := by
  by_cases hr : keyMax < (hdrOf inp).keylen ∨ accepts (cmdOf g.sasl (hdrOf inp).opcode).1 (hdrOf inp) = false
  · obtain ⟨r, h1, h2⟩ := refused_handle e g s inp hr
    exact ⟨r, _, h1, h2⟩
  · have hk : (hdrOf inp).keylen ≤ keyMax := by
      by_cases h : keyMax < (hdrOf inp).keylen
      · exact absurd (Or.inl h) hr
      · omega
    have ha : accepts (cmdOf g.sasl (hdrOf inp).opcode).1 (hdrOf inp) = true := by
      cases h : accepts (cmdOf g.sasl (hdrOf inp).opcode).1 (hdrOf inp) with
      | true => rfl
      | false => exact absurd (Or.inr h) hr
    have hw := hw.resolve_right (by omega)
    by_cases h1 : (cmdOf g.sasl (hdrOf inp).opcode).1 = .append ∨ (cmdOf g.sasl (hdrOf inp).opcode).1 = .prepend ∨
        (cmdOf g.sasl (hdrOf inp).opcode).1 = .saslAuth ∨ (cmdOf g.sasl (hdrOf inp).opcode).1 = .saslStep
    · refine refused_late e g s inp hk rfl h1 ha ?_ hl
      by_cases hb : (hdrOf inp).bodylen < (hdrOf inp).keylen
      · exact hb
      · exact absurd ((accepts_iff' h1).1 ⟨ha, by omega⟩) hw
    · exfalso
      have hx := extlen_lt inp
      generalize hdrOf inp = h at *
      generalize (cmdOf g.sasl h.opcode).1 = c at *
      by_cases hv : elemCmd c = true ∧ h.bodylen = h.keylen + h.extlen
      · revert ha
        rcases hv with ⟨hv, hb⟩
        cases c <;> simp [elemCmd] at hv <;> simp [accepts, hb]
      · refine hw ((accepts_iff ?_ (fun h2 h3 => hv ⟨h2, h3⟩) hx).1 ha)
        simp only [List.mem_cons, List.not_mem_nil, or_false, not_or] at hc h1 ⊢
        exact ⟨hc.1, hc.2.1, hc.2.2.1, hc.2.2.2, h1.1, h1.2.1, h1.2.2.1, h1.2.2.2⟩

/-- A `SET` without extras is refused. -/
example : (match handle mapEngine {} false [] (encode 0x01 [] [107] [120] [1, 1, 1, 1] 0 0) with
    | .done o => (o.resps.map (fun r => r.status), o.next) | _ => ([], .newCmd)) = ([0x04], .closing) := by decide +kernel

/-! ### C86: a value that was stored is given -/

/-- C86: with an engine that keeps items, after a `SET` (or its quiet form) that is not answered with a failure, a `GET` (any form) with the same
key is answered with success, the flags and the value, for `GETK` with the key between them; both requests are read to their last byte. -/
theorem C86 {σ : Type} {e : Engine σ} (hkp : Keeps e) {g : Cfg} {s : σ} {op op2 exp vb : Nat} {flags key value opq opq2 rest rest2 : Bytes}
    {o : Out σ} (hop : op = 0x01 ∨ op = 0x11) (hop2 : op2 = 0x00 ∨ op2 = 0x09 ∨ op2 = 0x0c ∨ op2 = 0x0d)
    (hf : flags.length = 4) (he : exp < 2 ^ 32) (hk0 : 0 < key.length) (hk : key.length ≤ keyMax) (hv : value.length ≤ maxVlen)
    (ho : opq.length = 4) (ho2 : opq2.length = 4) (hvb : vb < 2 ^ 16)
    (h1 : handle e g false s (encode op (flags ++ toBe 4 exp) key value opq vb 0 ++ rest) = .done o)
    (h2 : ∀ r ∈ o.resps, r.status = 0) (h3 : o.next ≠ .closing) :
    o.used = (encode op (flags ++ toBe 4 exp) key value opq vb 0).length ∧
    ∃ o2 r, handle e g false o.eng (encode op2 [] key [] opq2 vb 0 ++ rest2) = .done o2 ∧
      o2.used = (encode op2 [] key [] opq2 vb 0).length ∧ o2.next = .newCmd ∧ o2.resps = [r] ∧
      r.status = 0 ∧ r.opq = opq2 ∧ r.opcode = op2 ∧ r.extlen = 4 ∧ r.keylen = (if op2 = 0x0c ∨ op2 = 0x0d then key.length else 0) ∧
      r.body = flags ++ (if op2 = 0x0c ∨ op2 = 0x0d then key else []) ++ value := by
  obtain ⟨q, h, hs⟩ := handle_set (e := e) (g := g) (s := s) (rest := rest) hop hf he hk0 hk hv ho hvb
  rw [hs] at h1
  have hl := encode_length op (flags ++ toBe 4 exp) key value opq vb 0 ho
  have hl2 := encode_length op2 [] key [] opq2 vb 0 ho2
  simp only [List.length_append, hf, toBe_length] at hl
  simp only [List.length_nil] at hl2
  simp only [] at h1
  by_cases ha : (e.call s (.alloc key (value.length + 2) flags exp 0)).2.code = .success
  · rw [if_pos ha] at h1
    have hkk := hkp s key flags (value ++ crlf) exp vb (value.length + 2) ha
    revert h1 hkk
    generalize e.call (e.call s (.alloc key (value.length + 2) flags exp 0)).1 (.store .set key flags exp 0 (value ++ crlf) vb) = w
    intro h1 hkk
    by_cases hw : w.2.code = .success
    · rw [storeAct_ok.2 hw] at h1
      simp only [conclude, Res.done.injEq] at h1
      subst h1
      obtain ⟨k1, k2, k3⟩ := hkk hw
      obtain ⟨o2, r, g1, g2, g3⟩ := handle_get (e := e) (g := g) (rest := rest2) hop2 hk0 hk ho2 hvb k1 k2 k3
      refine ⟨by rw [hl], o2, r, g1, by rw [hl2, g2]; omega, g3⟩
    · exfalso
      cases hact : storeAct .set w.2.code with
      | ok => exact hw (storeAct_ok.1 hact)
      | err st =>
        rw [hact] at h1
        simp only [conclude, Res.done.injEq] at h1
        subst h1
        exact storeAct_ne hact (h2 _ (List.mem_singleton.2 rfl))
      | disc =>
        rw [hact] at h1
        simp only [conclude, Res.done.injEq] at h1
        subst h1
        exact h3 rfl
      | abort =>
        rw [hact] at h1
        simp [conclude] at h1
  · exfalso
    rw [if_neg ha] at h1
    unfold refuse at h1
    revert h1
    split <;> intro h1 <;> simp only [Res.done.injEq] at h1 <;> subst h1 <;> first
      | exact h3 rfl
      | exact absurd (h2 _ (List.mem_singleton.2 rfl)) (by simp [packet, mkResp])

example : Keeps mapEngine := mapEngine_keeps

example : ∃ o, handle mapEngine {} false [] (encode 0x11 ([0, 0, 0, 5] ++ toBe 4 0) [107] [120, 121] [1, 1, 1, 1] 0 0 ++ [0x80]) = .done o ∧
    (∀ r ∈ o.resps, r.status = 0) ∧ o.next ≠ .closing := by
  refine ⟨_, rfl, ?_, ?_⟩
  · show ∀ r ∈ [], Resp.status r = 0
    intro r hr; cases hr
  · show Next.newCmd ≠ .closing
    decide

/-! ### C87: the elements of a collection -/

/-- C87: when the engine gives elements for a `LOP_GET` or `SOP_GET`, the one answer has status 0, and a client that takes its body apart by
the number and the lengths in it gets the flags of the item and exactly the values of the elements, in order, without CR LF. -/
theorem C87 {σ : Type} {e : Engine σ} {g : Cfg} {s : σ} {op vb cas : Nat} {ext key opq rest flags : Bytes} {vals : List Bytes} {c : Cmd}
    (hop : op = 0x53 ∧ ext.length = 12 ∧ c = .lopGet ∨ op = 0x64 ∧ ext.length = 8 ∧ c = .sopGet) (hk0 : 0 < key.length) (hk : key.length ≤ keyMax)
    (ho : opq.length = 4) (hvb : vb < 2 ^ 16) (hcas : cas < 2 ^ 64) (h1 : (e.call s (.coll c key ext [] vb)).2.code = .success)
    (h2 : (e.call s (.coll c key ext [] vb)).2.flags = flags) (h3 : (e.call s (.coll c key ext [] vb)).2.vals = vals.map (· ++ crlf))
    (hf : flags.length = 4) (hn : vals.length < 2 ^ 32) (hv : ∀ v ∈ vals, v.length < 2 ^ 32) :
    ∃ o r, handle e g false s (encode op ext key [] opq vb cas ++ rest) = .done o ∧
      o.used = (encode op ext key [] opq vb cas).length ∧ o.next = .newCmd ∧ o.resps = [r] ∧ r.status = 0 ∧ r.opq = opq ∧ r.opcode = op ∧
      decodeElems r.body = (flags, vals) := by
  obtain ⟨o, r, g1, g2, g3, _, g5, g6, g7, g8, _, _, g11⟩ := handle_elems (e := e) (g := g) (rest := rest) hop hk0 hk ho hvb hcas h1
  refine ⟨o, r, g1, by rw [g2, encode_length op ext key [] opq vb cas ho]; simp, g3, g5, g6, g7, g8, ?_⟩
  have hc : c = .lopGet ∨ c = .sopGet := by
    rcases hop with ⟨_, _, h⟩ | ⟨_, _, h⟩
    · exact Or.inl h
    · exact Or.inr h
  rw [g11, decode_elems hc (by rw [h2]; exact hf) (by rw [h3, List.length_map]; exact hn) (by
    rw [h3]
    intro v hv'
    obtain ⟨w, hw, rfl⟩ := List.mem_map.1 hv'
    have := hv w hw
    simp only [List.length_append, crlf, List.length_cons, List.length_nil]; omega)]
  rw [h2, h3]
  congr 1
  rw [List.map_map]
  have : (fun v : Bytes => v.take (v.length - 2)) ∘ (fun v : Bytes => v ++ crlf) = id := by
    funext v
    simp [crlf]
  rw [this, List.map_id]

example : (mapEngine.call [] (.coll .lopGet [107] (List.replicate 12 0) [] 0)).2.vals = [[65, 66], [], [67]].map (· ++ crlf) := by decide +kernel

/-! ### C88: the status tells the truth -/

/-- C88: for every known command, engine and state, if an answer says "success" then all calls of the engine for this request succeeded; if the
engine was called and all calls succeeded then nothing but "success" is answered; and besides asking for room the engine is called at most once. -/
theorem C88 {σ : Type} (e : Engine σ) (g : Cfg) (deny : Bool) (s : σ) (inp : Bytes)
    (hk : (cmdOf g.sasl (hdrOf inp).opcode).1 ≠ .other) : Honest (handle (logged e) g deny (s, []) inp) :=
  honest_handle e g deny s inp hk

/-- An insertion asks for room and inserts once. -/
example : (match handle (logged mapEngine) {} false ([], []) (encode 0x51 (List.replicate 20 0) [107] [120] [1, 1, 1, 1] 0 0) with
    | .done o => (o.eng.2.map (fun x => (isAlloc x.1, x.2)), o.resps.map (fun r => r.status)) | _ => ([], [])) =
    ([(true, .success), (false, .success)], [0]) := by decide +kernel

end Verif.Bin.Props
