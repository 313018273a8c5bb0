import Verif.Model.AuthData
import Verif.Props.Auth
import Verif.Props.ConnCmd
/-
The data of refused commands (C73), and the data of authentication (C74).
-/

namespace Verif.Auth.Props
open Spec Verif.Conn.Spec Verif.Conn.Props

/-! ### C73 -/

/-- The full claim of C73: also with refused requests, exactly the command lines are taken for commands (the exceptions of C64 left aside).  It does
not hold, see `C73_false`. -/
def C73_Full : Prop :=
  ∀ (E : Type) (g : Verif.Conn.Engine E) (c : Conn) (wd : Verif.Conn.World E) (junk : Nat → Nat) (reqs : List Req) (es : List Verif.Conn.Ev)
    (rs : List (List Nat)), Polite g → (∀ r ∈ reqs, r.Good g) → Ready wd.conn → sent es = wires reqs → Enough es rs →
    (∀ r ∈ reqs, Tame (g.parse r.line)) → (∀ r ∈ reqs, ¬ HasFields (g.parse r.line)) →
    ∃ s, Verif.Conn.run (Verif.Conn.handler (guardEngine c g)) junk (Verif.Conn.St.open wd junk) (es ++ rs.map .round) = some s ∧ Idle s ∧
      s.world.lines = wd.lines ++ reqs.map Req.line

theorem guard_polite {E : Type} {g : Verif.Conn.Engine E} (c : Conn) (h : Polite g) : Polite (guardEngine c g) := by
  refine ⟨fun e l d e' s he => ?_, fun l t len hl e e' s he => ?_⟩
  · simp only [guardEngine] at he ⊢
    cases hr : refuses c l
    · rw [hr] at he; exact h.direct e l d e' s he
    · rfl
  · simp only [guardEngine] at he hl
    cases hr : refuses c l
    · rw [hr] at he hl; exact h.refusal l t len hl e e' s he
    · rw [hr] at hl; rcases hl with hl | hl <;> cases hl

/-- What is refused is what the last confirmed user may not do (from C71). -/
theorem refuses_iff {useAcl : Bool} {t t' : Acl} {story : List Ev} {c : Conn} {l : List Nat} {op : Op} (ht : Short t) (hs : Tidy t story)
    (hc : steps useAcl (t, Conn.new) story = some (t', c)) (h0 : 0 ∉ l) (hw : ¬ Verif.Token.Spec.Words l [w ['s', 'c', 'r', 'u', 'b']]) (hm : NotMixed l)
    (ho : line false true c l = some (.run op)) : refuses c l = true ↔ ¬ Permitted ((fresh t).afterAll useAcl story).right op := by
  obtain ⟨t2, c2, e, p, q, e1, e2, _, hr, _⟩ := C71_partial useAcl true t story l ht hs h0 hw hm
  rw [hc] at e
  cases e
  rw [ho] at e1
  cases e1
  obtain ⟨r1, r2⟩ := hr op rfl
  unfold refuses
  rw [e2]
  constructor
  · intro h hp
    rw [r1 hp] at h
    exact absurd h (by simp)
  · intro hp
    rw [r2 hp]
    decide

/-- C73 (partial: the requests with data are permitted).  With a server that checks rights, whatever happened on the connection before, of well-formed
requests, sent in any pieces, exactly the command lines are taken for commands, whether they are refused or not. -/
theorem C73_partial {E : Type} (g : Verif.Conn.Engine E) (useAcl : Bool) (t t' : Acl) (story : List Ev) (c : Conn) (wd : Verif.Conn.World E)
    (junk : Nat → Nat) (reqs : List Req) (es : List Verif.Conn.Ev) (rs : List (List Nat)) (hst : Short t) (hsi : Tidy t story)
    (hsc : steps useAcl (t, Conn.new) story = some (t', c)) (hp : Polite g) (hg : ∀ r ∈ reqs, r.Good g) (hr : Ready wd.conn) (he : sent es = wires reqs)
    (hn : Enough es rs) (ht : ∀ r ∈ reqs, Tame (g.parse r.line)) (hf : ∀ r ∈ reqs, ¬ HasFields (g.parse r.line))
    (hd : ∀ r ∈ reqs, r.data ≠ [] → 0 ∉ r.line ∧ ¬ Verif.Token.Spec.Words r.line [w ['s', 'c', 'r', 'u', 'b']] ∧ NotMixed r.line ∧
      ∃ op, line false true c r.line = some (.run op) ∧ Permitted ((fresh t).afterAll useAcl story).right op) :
    ∃ s, Verif.Conn.run (Verif.Conn.handler (guardEngine c g)) junk (Verif.Conn.St.open wd junk) (es ++ rs.map .round) = some s ∧ Idle s ∧
      s.world.lines = wd.lines ++ reqs.map Req.line := by
  replace hd : ∀ r ∈ reqs, refuses c r.line = true → r.data = [] := by
    intro r hmem hx
    refine Classical.byContradiction fun hne => ?_
    obtain ⟨h0, hw, hm, op, ho, hpm⟩ := hd r hmem hne
    exact (refuses_iff hst hsi hsc h0 hw hm ho).1 hx hpm
  refine C64_partial (guardEngine c g) wd junk reqs es rs (guard_polite c hp) (fun r hmem => ?_) hr he hn (fun r hmem => ?_) (.inr fun r hmem => ?_)
  · have h := hg r hmem
    simp only [guardEngine]
    refine ⟨h.oneLine, h.text, h.short, ?_, ?_⟩
    · simp only
      cases hx : refuses c r.line
      · exact h.whole
      · rw [hd r hmem hx]; rfl
    · simp only
      cases hx : refuses c r.line
      · exact h.allowed
      · trivial
  · simp only [guardEngine]
    cases hx : refuses c r.line
    · exact ht r hmem
    · trivial
  · simp only [guardEngine]
    cases hx : refuses c r.line
    · exact hf r hmem
    · exact fun h => h

/-- A client without rights asks to store a value whose bytes are `x` and two line feeds. -/
def sneaky : Req := req Verif.Conn.Props.setLine [120, 10, 10, 13, 10]

theorem sneaky_run : (Verif.Conn.run (Verif.Conn.handler (guardEngine Conn.new demo)) (fun _ => 0) (Verif.Conn.St.open (Verif.Conn.World.start []) fun _ => 0)
    ([.sends (wires [sneaky])] ++ (List.replicate 200 [9]).map .round)).map (fun s => (s.world.lines.take 2, s.world.env.take 1)) =
      some ([Verif.Conn.Props.setLine, [120]], [([120], [])]) := by decide +kernel

/-- C73 does not hold as such: of a refused `set`, the value is carried out as commands. -/
theorem C73_false : ¬ C73_Full := by
  intro h
  have hg : ∀ r ∈ [sneaky], r.Good demo := by
    intro r hr
    rw [List.mem_singleton] at hr
    subst hr
    exact req_good (by decide) (by decide) (by decide) (by decide) (by simp [demo, Verif.Conn.Props.setLine, Allowed])
  obtain ⟨s, e, _, hl⟩ := h _ demo Conn.new (Verif.Conn.World.start []) (fun _ => 0) [sneaky] [.sends (wires [sneaky])] (List.replicate 200 [9]) demo_polite
    hg ⟨rfl, rfl, rfl⟩ (by simp [sent]) ⟨fun r hr => by rw [List.eq_of_mem_replicate hr]; decide, by decide +kernel⟩
    (by intro r hr; rw [List.mem_singleton] at hr; subst hr; simp [sneaky, req, demo, Tame])
    (by intro r hr; rw [List.mem_singleton] at hr; subst hr; simp [sneaky, req, demo, HasFields])
  have he := sneaky_run
  rw [e] at he
  simp only [Option.map_some, Option.some.injEq, Prod.mk.injEq] at he
  have h1 := he.1
  rw [hl] at h1
  revert h1
  decide

-- the hypotheses of `C73_partial` are met: `alice` may store and may not flush
example : refuses after Verif.Conn.Props.setLine = false ∧ refuses after flushLine = true := by decide +kernel
example (es : List Verif.Conn.Ev) (he : sent es = wires [sneaky, req flushLine []]) :
    ∃ s, Verif.Conn.run (Verif.Conn.handler (guardEngine after demo)) (fun i => i) (Verif.Conn.St.open (Verif.Conn.World.start []) fun i => i)
      (es ++ (List.replicate 1000 [1]).map .round) = some s ∧ Idle s ∧ s.world.lines = [] ++ [sneaky, req flushLine []].map Req.line := by
  refine C73_partial demo true acl [] story after (Verif.Conn.World.start []) (fun i => i) [sneaky, req flushLine []] es (List.replicate 1000 [1]) acl_short story_tidy story_run
    demo_polite ?_ ⟨rfl, rfl, rfl⟩ he
    ⟨fun r hr => by rw [List.eq_of_mem_replicate hr]; decide, by rw [he]; decide +kernel⟩ ?_ ?_ ?_
  · intro r hr
    simp only [List.mem_cons, List.not_mem_nil, or_false] at hr
    rcases hr with rfl | rfl
    · exact req_good (by decide) (by decide) (by decide) (by decide) (by simp [demo, Verif.Conn.Props.setLine, Allowed])
    · exact req_good (by decide) (by decide) (by decide) (by decide +kernel) (by
        rw [show demo.parse flushLine = .simple .plain from by decide +kernel]; trivial)
  · intro r hr
    simp only [List.mem_cons, List.not_mem_nil, or_false] at hr
    rcases hr with rfl | rfl
    · simp [sneaky, req, demo, Tame]
    · rw [show demo.parse (req flushLine []).line = .simple .plain from by decide +kernel]; trivial
  · intro r hr
    simp only [List.mem_cons, List.not_mem_nil, or_false] at hr
    rcases hr with rfl | rfl
    · simp [sneaky, req, demo, HasFields]
    · rw [show demo.parse (req flushLine []).line = .simple .plain from by decide +kernel]; exact fun h => h
  · intro r hr
    simp only [List.mem_cons, List.not_mem_nil, or_false] at hr
    rcases hr with rfl | rfl
    · intro _
      refine ⟨by decide, ?_, ?_, ⟨.update, [[107]]⟩, by decide +kernel, .inl ⟨w ['k', 'v'], by decide, ?_⟩⟩
      · intro hw
        have := Verif.Token.words_unique hw
        revert this
        decide +kernel
      · intro name k ks hw hn
        have := Verif.Token.words_unique hw
        rw [show Verif.Token.wordsFrom [] sneaky.line = [w ['s', 'e', 't'], w ['k'], w ['0'], w ['0'], w ['3']] from by decide +kernel] at this
        simp only [List.cons.injEq] at this
        rw [this.1] at hn
        exact absurd hn (by decide)
      · show Listed (w ['k', 'v', ',', 'l', 'i', 's', 't']) (w ['k', 'v'])
        rw [← strtok_listed]
        decide +kernel
    · intro h; exact absurd rfl h

/-! ### C74 -/

/-- The full claim of C74: the bytes that `sasl auth` announces, and their line end, are taken as data for the library, and the rest as commands.  It does
not hold, see `C74_false` and `C74_false_memory`. -/
def C74_Full : Prop :=
  ∀ (room : Bool) (args : List (List Nat)) (num data rest : List Nat) (len : Nat), args = [num] ∨ (∃ mech, args = [mech, num] ∧ mech.length ≤ 32) →
    Verif.Util.safeStrtoul (num ++ [0]) = some (some len) → data.length = len + 2 →
    ∃ a, saslAuth true room args (data ++ rest) = some (a, rest) ∧ (a = .given (data.take len) ∨ room = false)

/-- C74 (partial: at most 4294967293 bytes, and there is memory; without authentication at most 2147483645 bytes).  The bytes that `sasl auth` announces are
what the library gets, and the next command begins behind them and their line end. -/
theorem C74_partial (args : List (List Nat)) (num data rest : List Nat) (len : Nat) (ha : args = [num] ∨ (∃ mech, args = [mech, num] ∧ mech.length ≤ 32))
    (hn : Verif.Util.safeStrtoul (num ++ [0]) = some (some len)) (hd : data.length = len + 2) :
    (len ≤ 4294967293 → saslAuth true true args (data ++ rest) = some (.given (data.take len), rest)) ∧
    (len ≤ 2147483645 → ∀ room, saslAuth false room args (data ++ rest) = some (.off, rest)) := by
  have hsel : authNum args = some num := by
    rcases ha with rfl | ⟨mech, rfl, hm⟩
    · rfl
    · have : ¬ mechMax < mech.length := by simp only [mechMax]; omega
      simp only [authNum, if_neg this]
  refine ⟨fun hl => ?_, fun hl room => ?_⟩
  · have hmod : (len + 2) % 4294967296 = len + 2 := Nat.mod_eq_of_lt (by omega)
    simp only [saslAuth, hsel, hn, hmod, Bool.true_eq_false, if_false]
    rw [if_pos (by omega), ← hd, List.take_left, List.drop_left]
  · have hmod : (len + 2) % 4294967296 = len + 2 := Nat.mod_eq_of_lt (by omega)
    simp only [saslAuth, hsel, hn, hmod, if_true]
    rw [if_pos (by omega), ← hd, List.drop_left]

-- `sasl auth PLAIN 3`, then the data and a command
example : saslAuth true true [w ['P', 'L', 'A', 'I', 'N'], w ['3']] (w ['a', 'b', 'c'] ++ [13, 10] ++ w ['q', 'u', 'i', 't']) =
    some (.given (w ['a', 'b', 'c']), w ['q', 'u', 'i', 't']) := by decide +kernel

/-- `4294967295` -/
def hugeNum : List Nat := w ['4', '2', '9', '4', '9', '6', '7', '2', '9', '5']

/-- C74 does not hold as such: for an announced length of 4294967295 one byte is allocated, and the library reads 4294967295. -/
theorem C74_false : ¬ C74_Full := by
  intro h
  obtain ⟨n, hn⟩ : ∃ n, n = 4294967295 := ⟨_, rfl⟩
  obtain ⟨a, e, _⟩ := h true [hugeNum] hugeNum (List.replicate (n + 2) 97) [] n (.inl rfl) (by rw [hn]; decide +kernel) List.length_replicate
  have : ∀ st, saslAuth true true [hugeNum] st = none := by
    intro st
    have hp : Verif.Util.safeStrtoul (hugeNum ++ [0]) = some (some 4294967295) := by decide +kernel
    have hsel : authNum [hugeNum] = some hugeNum := rfl
    simp only [saslAuth, hsel, hp]
    simp
  rw [this] at e
  cases e

/-- C74 does not hold as such in a second way: without memory for them, the data are carried out as commands. -/
theorem C74_false_memory : ¬ C74_Full := by
  intro h
  obtain ⟨a, e, _⟩ := h false [w ['3']] (w ['3']) (w ['a', 'b', 'c'] ++ [13, 10]) [] 3 (.inl rfl) (by decide +kernel) (by decide)
  have : saslAuth true false [w ['3']] (w ['a', 'b', 'c'] ++ [13, 10] ++ []) = some (.noMemory, w ['a', 'b', 'c'] ++ [13, 10]) := by decide +kernel
  rw [this] at e
  simp at e

end Verif.Auth.Props
