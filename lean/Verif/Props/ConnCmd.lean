import Verif.Props.ConnIn
import Verif.Lemmas.ConnPipe
/-
The data of a command is never taken for a command (C64), and a pipeline has one answer (C65).
-/

namespace Verif.Conn.Props
open Spec

variable {E : Type}

/-- Enough rounds to read all that was sent. -/
def Enough (es : List Ev) (rs : List (List Nat)) : Prop := (∀ r ∈ rs, 0 < r.headD 0) ∧ 5 * (sent es).length + 3 ≤ rs.length

/-- The full claim of C64: from well-formed requests, sent in any pieces, the server takes exactly their command lines for commands.  It does
not hold, see `C64_false`, `C64_false_pipe`, `C64_false_2GB`. -/
def C64_Full : Prop :=
  ∀ (E : Type) (g : Engine E) (w : World E) (junk : Nat → Nat) (reqs : List Req) (es : List Ev) (rs : List (List Nat)),
    Polite g → (∀ r ∈ reqs, r.Good g) → Ready w.conn → sent es = wires reqs → Enough es rs →
    ∃ s, run (handler g) junk (St.open w junk) (es ++ rs.map .round) = some s ∧ Idle s ∧
      s.world.lines = w.lines ++ reqs.map Req.line

/-- C64 (partial: no refused list of more than 2 GB, no refused `mop delete` with `noreply` or `pipe`, and not both pipelines and `mop delete`
with lists of fields).  Of well-formed requests, sent in any pieces, exactly the command lines are taken for commands: no data block, no part
of one and no rest of one, whether a request is carried out, refused, for want of memory dropped, or left out of a failed pipeline. -/
theorem C64_partial (g : Engine E) (w : World E) (junk : Nat → Nat) (reqs : List Req) (es : List Ev) (rs : List (List Nat)) (hp : Polite g)
    (hg : ∀ r ∈ reqs, r.Good g) (hr : Ready w.conn) (he : sent es = wires reqs) (hn : Enough es rs) (ht : ∀ r ∈ reqs, Tame (g.parse r.line))
    (hf : (∀ r ∈ reqs, tailOf (g.parse r.line) ≠ .pipe) ∨ ∀ r ∈ reqs, ¬ HasFields (g.parse r.line)) :
    ∃ s, run (handler g) junk (St.open w junk) (es ++ rs.map .round) = some s ∧ Idle s ∧
      s.world.lines = w.lines ++ reqs.map Req.line := by
  obtain ⟨hq, h0, hc⟩ := hr
  obtain ⟨w', e, hl⟩ := serveAll_good (w := w) reqs hp hg ht ⟨hq, ⟨fun h => by rw [h0] at h; cases h⟩⟩ (fun _ => hc)
    (hf.imp (fun h => ⟨h0, h⟩) id)
  obtain ⟨h1, h2, h3⟩ := served_stream (fun r hr => ⟨(hg r hr).oneLine, (hg r hr).text, (hg r hr).short⟩) e
  rw [← he] at h1 h2 h3
  obtain ⟨s, e1, hi, hs⟩ := C63_partial (handler g) w junk es rs h1 h2 hn.1 hn.2
  exact ⟨s, e1, hi, by rw [serves_unique hs h3, hl]⟩

/-- The full claim of C65: a pipeline of any well-formed requests that may be part of one. -/
def C65_Full : Prop :=
  ∀ (E : Type) (g : Engine E) (w : World E) (junk : Nat → Nat) (reqs : List Req) (es : List Ev) (rs : List (List Nat)),
    Polite g → (∀ r ∈ reqs, r.Good g) → Ready w.conn → sent es = wires reqs → Enough es rs → Piped g reqs → 1 < reqs.length →
    (∀ r ∈ reqs, Pipeable (g.parse r.line) ∨ HasFields (g.parse r.line)) → (∀ r ∈ reqs, Talks g r) →
    ∃ e' ss wd, Pipeline g 0 0 w.env reqs e' ss wd ∧
      ∃ s, run (handler g) junk (St.open w junk) (es ++ rs.map .round) = some s ∧ Idle s ∧ s.world.env = e' ∧ Ready s.world.conn ∧
        ∃ bytes, s.world.out = w.out ++ bytes ∧ Reply ss wd bytes

/-- C65 (partial: without `mop delete` with a list of fields).  A pipeline of any length has one answer, with the number of the commands
that were answered, their answers in order, and how it ended; after the first command that fails or has no room, nothing of it is carried out;
and afterwards the connection is ready for the next command. -/
theorem C65_partial (g : Engine E) (w : World E) (junk : Nat → Nat) (reqs : List Req) (es : List Ev) (rs : List (List Nat))
    (hg : ∀ r ∈ reqs, r.Good g) (hr : Ready w.conn) (he : sent es = wires reqs) (hn : Enough es rs) (hpd : Piped g reqs)
    (h1 : 1 < reqs.length) (hp : ∀ r ∈ reqs, Pipeable (g.parse r.line)) (ht : ∀ r ∈ reqs, Talks g r) :
    ∃ e' ss wd, Pipeline g 0 0 w.env reqs e' ss wd ∧
      ∃ s, run (handler g) junk (St.open w junk) (es ++ rs.map .round) = some s ∧ Idle s ∧ s.world.env = e' ∧ Ready s.world.conn ∧
        ∃ bytes, s.world.out = w.out ++ bytes ∧ Reply ss wd bytes := by
  obtain ⟨hq, h0, hc⟩ := hr
  obtain ⟨e', ss, wd, hpl, w', e, h2, h3, bytes, h4, h5⟩ := pipeline_run (w := w) (pre := []) reqs hpd (fun _ => h1) hp hg ht
    ⟨hq, hc, by simp, by simp [h0], fun h => absurd rfl h, by simp⟩
  obtain ⟨i1, i2, i3⟩ := served_stream (fun r hr => ⟨(hg r hr).oneLine, (hg r hr).text, (hg r hr).short⟩) e
  rw [← he] at i1 i2 i3
  obtain ⟨s, e1, hi, hs⟩ := C63_partial (handler g) w junk es rs i1 i2 hn.1 hn.2
  have hw := serves_unique hs i3
  exact ⟨e', ss, wd, hpl, s, e1, hi, by rw [hw, h2], by rw [hw]; exact h3, bytes, by rw [hw, h4], h5⟩

/-! ### Concrete cases -/

/-- `set k 0 0 3` -/
def setLine : List Nat := [115, 101, 116, 32, 107, 32, 48, 32, 48, 32, 51]

/-- `lop insert k 0 3 pipe` -/
def pushLine : List Nat := [108, 111, 112, 32, 105, 110, 115, 101, 114, 116, 32, 107, 32, 48, 32, 51, 32, 112, 105, 112, 101]

/-- `lop insert k 0 3` -/
def lastLine : List Nat := [108, 111, 112, 32, 105, 110, 115, 101, 114, 116, 32, 107, 32, 48, 32, 51]

/-- `lop delete k 0 pipe` -/
def dropLine : List Nat := [108, 111, 112, 32, 100, 101, 108, 101, 116, 101, 32, 107, 32, 48, 32, 112, 105, 112, 101]

/-- `mop delete k 3 1` -/
def mopLine : List Nat := [109, 111, 112, 32, 100, 101, 108, 101, 116, 101, 32, 107, 32, 51, 32, 49]

/-- `mop delete k 9 9 noreply` -/
def mopQuiet : List Nat := [109, 111, 112, 32, 100, 101, 108, 101, 116, 101, 32, 107, 32, 57, 32, 57, 32, 110, 111, 114, 101, 112, 108, 121]

/-- `mget 2147483646 1` -/
def mgetLine : List Nat := [109, 103, 101, 116, 32, 50, 49, 52, 55, 52, 56, 51, 54, 52, 54, 32, 49]

/-- A server that keeps the commands it has carried out and answers `OK`; a value that begins with `!` is an error, as is a line it does not
understand; a refused list is answered with `CLIENT_ERROR bad value`. -/
def demo : Engine (List (List Nat × List Nat)) where
  parse l :=
    if l = setLine then .store .plain 3
    else if l = pushLine then .value .pipe 3
    else if l = lastLine then .value .plain 3
    else if l = dropLine then .quick .pipe
    else if l = mopLine then .fields .plain 3 false
    else if l = mopQuiet then .fields .noreply 9 true
    else if l = mgetLine then .keys 2147483646 true
    else .simple .plain
  room e _ := (e, none)
  exec e l d :=
    if l = mopQuiet ∨ l = mgetLine then (e, .says [67, 76, 73, 69, 78, 84, 95, 69, 82, 82, 79, 82, 32, 98, 97, 100, 32, 118, 97, 108, 117, 101])
    else if d.head? = some 33 then (e, .says [83, 69, 82, 86, 69, 82, 95, 69, 82, 82, 79, 82, 32, 111, 117, 116, 32, 111, 102, 32, 109, 101, 109, 111, 114, 121])
    else if l = setLine ∨ l = pushLine ∨ l = lastLine ∨ l = dropLine ∨ l = mopLine then (e ++ [(l, d)], .says [79, 75])
    else (e ++ [(l, d)], .says [69, 82, 82, 79, 82, 32, 117, 110, 107, 110, 111, 119, 110, 32, 99, 111, 109, 109, 97, 110, 100])

theorem demo_says (e : List (List Nat × List Nat)) (l d : List Nat) : ∃ e' s, demo.exec e l d = (e', .says s) := by
  simp only [demo]
  split
  · exact ⟨_, _, rfl⟩
  · split
    · exact ⟨_, _, rfl⟩
    · split <;> exact ⟨_, _, rfl⟩

theorem demo_polite : Polite demo := by
  refine ⟨fun e l d e' s h => ?_, fun l t len _ e e' s h => ?_⟩
  · obtain ⟨e1, s1, h1⟩ := demo_says e l d
    rw [h1] at h; simp at h
  · obtain ⟨e1, s1, h1⟩ := demo_says e l []
    rw [h1] at h; simp at h

/-- A request with `\r\n` at the end of its line. -/
def req (l d : List Nat) : Req := ⟨l ++ [13], l, d⟩

theorem req_good {l d : List Nat} (h0 : l ≠ []) (h1 : 10 ∉ l) (h2 : l.length < 1024) (h3 : d.length = need (demo.parse l))
    (h4 : Allowed (demo.parse l)) : (req l d).Good demo :=
  ⟨by simp [req, h1], .crlf _ h0, by simp [req]; omega, h3, h4⟩

/-- Data that looks like a command: `Q\n\n`, and the end of the line. -/
def tricky : List Nat := [81, 10, 10, 13, 10]

/-- `set` with tricky data, a pipeline of three with tricky data whose second command fails, an unknown command. -/
def session : List Req :=
  [req setLine tricky, req pushLine tricky, req pushLine [33, 10, 10, 13, 10], req dropLine [], req lastLine tricky, req [120] []]

theorem session_good : ∀ r ∈ session, r.Good demo := by
  intro r hr
  simp only [session, List.mem_cons, List.not_mem_nil, or_false] at hr
  rcases hr with rfl | rfl | rfl | rfl | rfl | rfl
  all_goals exact req_good (by decide) (by decide) (by decide) (by decide) (by simp [demo, setLine, pushLine, lastLine, dropLine, mopLine, mopQuiet, mgetLine, Allowed])

/-- The hypotheses of `C64_partial` are met by this session; exactly its lines are taken for commands. -/
example (es : List Ev) (he : sent es = wires session) :
    ∃ s, run (handler demo) (fun i => i) (St.open (World.start []) fun i => i) (es ++ (List.replicate 1000 [1]).map .round) = some s ∧ Idle s ∧
      s.world.lines = [] ++ session.map Req.line := by
  exact C64_partial demo (World.start []) (fun i => i) session es (List.replicate 1000 [1]) demo_polite session_good ⟨rfl, rfl, rfl⟩ he
    ⟨fun r hr => by rw [List.eq_of_mem_replicate hr]; decide, by rw [he]; decide +kernel⟩
    (by intro r hr; simp only [session, List.mem_cons, List.not_mem_nil, or_false] at hr
        rcases hr with rfl | rfl | rfl | rfl | rfl | rfl <;> simp [demo, req, setLine, pushLine, lastLine, dropLine, mopLine, mopQuiet, mgetLine, Tame])
    (.inr (by intro r hr; simp only [session, List.mem_cons, List.not_mem_nil, or_false] at hr
              rcases hr with rfl | rfl | rfl | rfl | rfl | rfl <;> simp [demo, req, setLine, pushLine, lastLine, dropLine, mopLine, mopQuiet, mgetLine, HasFields]))

/-- The same session, byte for byte in one run: three commands are carried out, and the answers are
`OK`, `RESPONSE 2`, `OK`, `SERVER_ERROR out of memory`, `PIPE_ERROR bad error`, `ERROR unknown command`. -/
example :
    (run (handler demo) (fun i => i) (St.open (World.start []) fun i => i)
      (.sends ((wires session).take 50) :: List.replicate 40 (.round [7]) ++ .sends ((wires session).drop 50) :: List.replicate 100 (.round [7]))).map
        (fun s => (s.world.env, s.world.out)) =
      some ([(setLine, tricky), (pushLine, tricky), ([120], [])],
        [79, 75] ++ crlf ++ [82, 69, 83, 80, 79, 78, 83, 69, 32, 50] ++ crlf ++ [79, 75] ++ crlf ++ [83, 69, 82, 86, 69, 82, 95, 69, 82, 82, 79, 82, 32, 111, 117, 116, 32, 111, 102, 32, 109, 101, 109, 111, 114, 121] ++ crlf ++
        [80, 73, 80, 69, 95, 69, 82, 82, 79, 82, 32, 98, 97, 100, 32, 101, 114, 114, 111, 114] ++ crlf ++ [69, 82, 82, 79, 82, 32, 117, 110, 107, 110, 111, 119, 110, 32, 99, 111, 109, 109, 97, 110, 100] ++ crlf) := by decide +kernel

/-- A pipeline of 400 commands. -/
def longPipe : List Req := List.replicate 399 (req dropLine []) ++ [req lastLine tricky]

theorem piped_replicate {E : Type} {g : Engine E} {a b : Req} (n : Nat) (ha : tailOf (g.parse a.line) = .pipe) (hb : tailOf (g.parse b.line) = .plain) :
    Piped g (List.replicate n a ++ [b]) := by
  induction n with
  | zero => exact hb
  | succ n ih =>
    rw [List.replicate_succ, List.cons_append]
    cases hc : List.replicate n a ++ [b] with
    | nil => simp at hc
    | cons c cs => exact ⟨ha, by rw [← hc]; exact ih⟩

theorem longPipe_mem {r : Req} (h : r ∈ longPipe) : r = req dropLine [] ∨ r = req lastLine tricky := by
  rcases List.mem_append.1 h with h | h
  · exact .inl (List.eq_of_mem_replicate h)
  · exact .inr (by simpa using h)

/-- The hypotheses of `C65_partial` are met by this pipeline. -/
example (es : List Ev) (he : sent es = wires longPipe) (rs : List (List Nat)) (hn : Enough es rs) :
    ∃ e' ss wd, Pipeline demo 0 0 [] longPipe e' ss wd ∧
      ∃ s, run (handler demo) (fun i => i) (St.open (World.start []) fun i => i) (es ++ rs.map .round) = some s ∧ Idle s ∧ s.world.env = e' ∧
        Ready s.world.conn ∧ ∃ bytes, s.world.out = [] ++ bytes ∧ Reply ss wd bytes := by
  exact C65_partial demo (World.start []) (fun i => i) longPipe es rs
    (by intro r hr
        rcases longPipe_mem hr with rfl | rfl
        all_goals
          exact req_good (by decide) (by decide) (by decide) (by decide) (by simp [demo, setLine, pushLine, lastLine, dropLine, mopLine, mopQuiet, mgetLine, Allowed]))
    ⟨rfl, rfl, rfl⟩ he hn
    (piped_replicate _ (by simp [demo, req, tailOf, setLine, pushLine, lastLine, dropLine]) (by simp [demo, req, tailOf, setLine, pushLine, lastLine]))
    (by rw [longPipe, List.length_append, List.length_replicate]; decide)
    (by intro r hr
        rcases longPipe_mem hr with rfl | rfl <;> simp [demo, req, setLine, pushLine, lastLine, dropLine, Pipeable])
    (fun r _ e d => demo_says e r.line d)

/-! ### The exceptions -/

/-- `flush_all` with the end of the line: the list of fields of a refused command, 11 bytes. -/
def evil : List Nat := [102, 108, 117, 115, 104, 95, 97, 108, 108] ++ [13, 10]

/-- The full claim of C64 is false: the fields of a refused `mop delete ... noreply` are carried out as commands. -/
theorem C64_false : ¬ C64_Full := by
  intro h
  have he : (run (handler demo) (fun _ => 0) (St.open (World.start []) fun _ => 0)
      ([.sends (wires [req mopQuiet evil])] ++ (List.replicate 200 [9]).map .round)).map (fun s => s.world.lines) =
      some [mopQuiet, [102, 108, 117, 115, 104, 95, 97, 108, 108]] := by decide +kernel
  obtain ⟨s, e, _, hl⟩ := h _ demo (World.start []) (fun _ => 0) [req mopQuiet evil] [.sends (wires [req mopQuiet evil])] (List.replicate 200 [9]) demo_polite
    (by intro r hr
        rw [List.mem_singleton] at hr
        subst hr
        exact req_good (by decide) (by decide) (by decide) (by decide) (by simp [demo, setLine, pushLine, lastLine, dropLine, mopLine, mopQuiet, mgetLine, Allowed]))
    ⟨rfl, rfl, rfl⟩ (by simp [sent]) ⟨fun r hr => by rw [List.eq_of_mem_replicate hr]; decide, by decide +kernel⟩
  rw [e] at he
  simp only [Option.map_some, Option.some.injEq] at he
  rw [hl] at he
  revert he
  decide

/-- A pipeline whose first command fails, and that ends with `mop delete` and a field. -/
def badPipe : List Req := [req pushLine [33, 10, 10, 13, 10], req mopLine [97, 98, 99, 13, 10]]

theorem badPipe_good : ∀ r ∈ badPipe, r.Good demo := by
  intro r hr
  simp only [badPipe, List.mem_cons, List.not_mem_nil, or_false] at hr
  rcases hr with rfl | rfl
  all_goals exact req_good (by decide) (by decide) (by decide) (by decide) (by simp [demo, setLine, pushLine, lastLine, dropLine, mopLine, mopQuiet, mgetLine, Allowed])

theorem badPipe_run : (run (handler demo) (fun _ => 0) (St.open (World.start []) fun _ => 0)
    ([.sends (wires badPipe)] ++ (List.replicate 300 [9]).map .round)).map (fun s => (s.world.lines, s.world.out)) =
      some ([pushLine, mopLine, [13]], [82, 69, 83, 80, 79, 78, 83, 69, 32, 49] ++ crlf ++ [83, 69, 82, 86, 69, 82, 95, 69, 82, 82, 79, 82, 32, 111, 117, 116, 32, 111, 102, 32, 109, 101, 109, 111, 114, 121] ++ crlf ++ [80, 73, 80, 69, 95, 69, 82, 82, 79, 82, 32, 98, 97, 100, 32, 101, 114, 114, 111, 114] ++ crlf ++
        [69, 82, 82, 79, 82, 32, 117, 110, 107, 110, 111, 119, 110, 32, 99, 111, 109, 109, 97, 110, 100] ++ crlf) := by decide +kernel

/-- The full claim of C64 is false in a second way: of the field list of a `mop delete` in a failed pipeline, the last two bytes are taken
for a command. -/
theorem C64_false_pipe : ¬ C64_Full := by
  intro h
  obtain ⟨s, e, _, hl⟩ := h _ demo (World.start []) (fun _ => 0) badPipe [.sends (wires badPipe)] (List.replicate 300 [9]) demo_polite
    badPipe_good ⟨rfl, rfl, rfl⟩ (by simp [sent]) ⟨fun r hr => by rw [List.eq_of_mem_replicate hr]; decide, by decide +kernel⟩
  have he := badPipe_run
  rw [e] at he
  simp only [Option.map_some, Option.some.injEq, Prod.mk.injEq] at he
  have h1 := he.1
  rw [hl] at h1
  revert h1
  decide

/-- `mget` with a list of 2147483646 bytes, refused because the list is too long for one key: the first byte of the list makes the server leave
its input buffer, at the lower end. -/
theorem sbytes_overrun : run (handler demo) (fun _ => 0) (St.open (World.start []) fun _ => 0)
    [.sends (mgetLine ++ [13, 10, 97]), .round [], .round [100], .round [], .round []] = none := by decide +kernel

/-- The full claim of C64 is false in a third way: key lists of more than 2 GB that are refused. -/
theorem C64_false_2GB : ¬ C64_Full := by
  intro h
  obtain ⟨n, hn⟩ : ∃ n, n = 2147483648 := ⟨_, rfl⟩
  let r : Req := req mgetLine (97 :: List.replicate (n - 1) 98)
  obtain ⟨s, e, _⟩ := h _ demo (World.start []) (fun _ => 0) [r]
    ([.sends (mgetLine ++ [13, 10, 97]), .round [], .round [100], .round [], .round []] ++ [.sends (List.replicate (n - 1) 98)])
    (List.replicate (5 * (mgetLine.length + 2 + n) + 3) [9]) demo_polite
    (by intro r' hr
        rw [List.mem_singleton] at hr
        subst hr
        refine req_good (by decide) (by decide) (by decide) ?_ (by simp [demo, setLine, pushLine, lastLine, dropLine, mopLine, mopQuiet, mgetLine, Allowed])
        rw [List.length_cons, List.length_replicate]
        show _ = 2147483646 + 2
        omega)
    ⟨rfl, rfl, rfl⟩
    (by simp [sent, wires, Req.wire, r, req])
    ⟨fun r hr => by rw [List.eq_of_mem_replicate hr]; decide, by
      simp only [sent, List.cons_append, List.nil_append, List.append_nil, List.length_append, List.length_replicate, List.length_cons, List.length_nil]
      omega⟩
  rw [List.append_assoc, run_append, sbytes_overrun] at e
  cases e

/-- The full claim of C65 is false: a pipeline that fails before a `mop delete` with a list of fields gets a second answer. -/
theorem C65_false : ¬ C65_Full := by
  intro h
  obtain ⟨e', ss, wd, hpl, s, e, _, _, _, bytes, ho, hrep⟩ := h _ demo (World.start []) (fun _ => 0) badPipe [.sends (wires badPipe)] (List.replicate 300 [9]) demo_polite
    badPipe_good ⟨rfl, rfl, rfl⟩ (by simp [sent]) ⟨fun r hr => by rw [List.eq_of_mem_replicate hr]; decide, by decide +kernel⟩
    ⟨by simp [demo, req, tailOf, setLine, pushLine], by simp [Piped, demo, req, tailOf, setLine, pushLine, lastLine, dropLine, mopLine]⟩ (by decide)
    (by intro r hr
        simp only [badPipe, List.mem_cons, List.not_mem_nil, or_false] at hr
        rcases hr with rfl | rfl
        · exact .inl (by simp [demo, req, setLine, pushLine, Pipeable])
        · exact .inr (by simp [demo, req, setLine, pushLine, lastLine, dropLine, mopLine, HasFields]))
    (fun r _ e d => demo_says e r.line d)
  have he := badPipe_run
  rw [e] at he
  simp only [Option.map_some, Option.some.injEq, Prod.mk.injEq] at he
  have h1 := he.2
  rw [ho] at h1
  simp only [World.start, List.nil_append] at h1
  obtain ⟨ds, _, hb⟩ := hrep
  -- the last line of the output is not one of the four endings
  rw [h1] at hb
  have h2 := congrArg List.reverse hb
  cases wd <;> simp [Ending.text, crlf] at h2

end Verif.Conn.Props
