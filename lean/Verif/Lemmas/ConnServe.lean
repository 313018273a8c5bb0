import Verif.Lemmas.ConnCmd
/-
Every well-formed request (with the exceptions named in the specification) is served with exactly its own data.
-/

namespace Verif.Conn
open Spec

variable {E : Type}

/-- Between two requests. -/
structure Calm (c : Conn) : Prop where
  quiet : c.noreply = false
  roomy : Roomy c

theorem roomy_setNoreply {c : Conn} (t : Tail) (h : Roomy c) : Roomy (setNoreply c t) := ⟨h.on⟩

theorem roomy_setPipe {c : Conn} (t : Tail) (h : Roomy c) (h0 : c.pipe = .off → c.count = 0) : Roomy (setPipe c t) := by
  cases t with
  | plain => exact ⟨h.on⟩
  | noreply => exact ⟨h.on⟩
  | pipe =>
    refine ⟨fun hp => ?_⟩
    simp only [setPipe] at hp ⊢
    by_cases hc : c.pipe = .off
    · rw [h0 hc]; exact ⟨by omega, fun h => absurd rfl h⟩
    · rw [if_neg hc] at hp; exact h.on hp

/-- The pipeline's counter is zero when there is none. -/
def Zero (c : Conn) : Prop := c.pipe = .off → c.count = 0

theorem outString_zero {c c' : Conn} {s : List Nat} {o : Option (List Nat)} (hr : Roomy c) (h : Zero c)
    (e : outString c s = some (c', o)) : Zero c' := by
  by_cases h0 : c.pipe = .off
  · obtain ⟨o1, e1, _⟩ := outString_off s h0
    rw [e1] at e; cases e; exact fun hp => h hp
  · by_cases h1 : c.pipe = .on
    · obtain ⟨hc, hres⟩ := hr.on h1
      have hsv : c.saved.length < 20000 := by
        unfold Conn.saved; split
        · simp
        · rename_i hz; exact hres hz
      obtain ⟨a1, a2, a3, a4, a5⟩ := outString_on s h1 hc
      by_cases hf : c.saved.length + (s.length + 2) < 20000
      · by_cases he : Fails s
        · obtain ⟨c1, e1, _, hp⟩ := a2 hf he
          rw [e1] at e; cases e
          intro hp'
          split at hp
          · rw [hp] at hp'; cases hp'
          · exact hp.2
        · cases hnr : c.noreply with
          | false =>
            obtain ⟨c1, e1, hd⟩ := a3 hf he hnr
            rw [e1] at e; cases e
            exact fun _ => hd.2.2
          | true =>
            by_cases h9 : c.count = 499
            · obtain ⟨c1, e1, _, hp⟩ := a4 hf he hnr h9
              rw [e1] at e; cases e
              intro hp'; rw [hp] at hp'; cases hp'
            · have e1 := a5 hf he hnr (by omega)
              rw [e1] at e; cases e
              intro hp'; exact absurd hp' h0
      · obtain ⟨c1, e1, _, hp⟩ := a1 (by omega) hsv
        rw [e1] at e; cases e
        intro hp'
        split at hp
        · rw [hp] at hp'; cases hp'
        · exact hp.2
    · obtain ⟨o1, e1, _⟩ := outString_err s h0 h1
      rw [e1] at e; cases e; exact fun _ => rfl

/-- A saying: the connection is calm afterwards. -/
theorem say_ok {w : World E} (s : List Nat) (h : Roomy w.conn) (hz : Zero w.conn) :
    ∃ w' b, say w s = some (w', b) ∧ Calm w'.conn ∧ Zero w'.conn ∧ w'.lines = w.lines ∧ w'.pending = w.pending ∧
      (w.conn.noreply = false → b = true) ∧ (w.conn.pipe = .off → w'.conn.pipe = .off) := by
  obtain ⟨c', o, e, h1, h2, h3, h4⟩ := outString_ok s h
  have hz' := outString_zero h hz e
  unfold say
  rw [e]
  cases o with
  | none => exact ⟨_, _, rfl, ⟨h1, h2⟩, hz', rfl, rfl, fun hn => absurd rfl (h3 hn), h4⟩
  | some b => exact ⟨_, _, rfl, ⟨h1, h2⟩, hz', rfl, rfl, fun _ => rfl, h4⟩

theorem answer_ok {w : World E} (a : Ans) (h : Roomy w.conn) (hz : Zero w.conn) (hd : ∀ s, a = .sends s → w.conn.noreply = false) :
    ∃ w', answer w a = some w' ∧ Calm w'.conn ∧ Zero w'.conn ∧ w'.lines = w.lines ∧ (w.conn.pipe = .off → w'.conn.pipe = .off) := by
  cases a with
  | says s =>
    obtain ⟨w', b, e, h1, h2, h3, h4, h5, h6⟩ := say_ok s h hz
    exact ⟨w', by simp [answer, e], h1, h2, h3, h6⟩
  | sends s => exact ⟨_, rfl, ⟨hd s rfl, h⟩, hz, rfl, id⟩

theorem setNoreply_quiet {c : Conn} {t : Tail} (h : t = .plain) : (setNoreply c t).noreply = false := by subst h; rfl

theorem setPipe_quiet {c : Conn} {t : Tail} (h : t = .plain) : (setPipe c t).noreply = false := by subst h; rfl

theorem setPipe_off {c : Conn} {t : Tail} (h : c.pipe = .off) (ht : t ≠ .pipe) : (setPipe c t).pipe = .off := by
  cases t with
  | plain => exact h
  | noreply => exact h
  | pipe => exact absurd rfl ht

theorem zero_setPipe {c : Conn} {t : Tail} (h : Zero c) : Zero (setPipe c t) := by
  cases t with
  | plain => exact h
  | noreply => exact h
  | pipe =>
    intro hp
    simp only [setPipe] at hp
    split at hp
    · cases hp
    · rename_i h0; exact absurd hp h0

/-- The connection after a request: calm, and without a pipeline if there was none and none was begun. -/
structure After (w w2 : World E) (t : Tail) (l : List Nat) : Prop where
  calm : Calm w2.conn
  zero : Zero w2.conn
  lines : w2.lines = w.lines ++ [l]
  off : w.conn.pipe = .off → t ≠ .pipe → w2.conn.pipe = .off

section

variable {g : Engine E} {w : World E} {r : Req}

/-- The connection when the command of the request is carried out. -/
structure Before (w w1 : World E) (t : Tail) (l : List Nat) : Prop where
  roomy : Roomy w1.conn
  zero : Zero w1.conn
  lines : w1.lines = w.lines ++ [l]
  quiet : t = .plain → w1.conn.noreply = false
  off : w.conn.pipe = .off → t ≠ .pipe → w1.conn.pipe = .off

theorem doNow_ok {w1 : World E} (hp : Polite g) (h : Before w w1 (tailOf (g.parse r.line)) r.line) :
    ∃ w2, doNow g w1 r.line = some (w2, .cmd) ∧ After w w2 (tailOf (g.parse r.line)) r.line := by
  unfold doNow
  cases he : g.exec w1.env r.line [] with
  | mk e a =>
    simp only
    obtain ⟨w', e1, h1, h2, h3, h4⟩ := answer_ok (w := { w1 with env := e }) a h.roomy h.zero
      (fun s hs => h.quiet (hp.direct _ _ _ _ s (by rw [he, hs])))
    rw [e1]
    exact ⟨w', rfl, h1, h2, h3.trans h.lines, fun a b => h4 (h.off a b)⟩

theorem onData_ok {w1 : World E} {d : List Nat} (hp : Polite g) (h : Before w w1 (tailOf (g.parse r.line)) r.line)
    (hl : w1.pending = r.line) : ∃ w2, onData g w1 d = some w2 ∧ After w w2 (tailOf (g.parse r.line)) r.line := by
  unfold onData
  cases he : g.exec w1.env w1.pending d with
  | mk e a =>
    simp only
    obtain ⟨w', e1, h1, h2, h3, h4⟩ := answer_ok (w := { w1 with env := e }) a h.roomy h.zero
      (fun s hs => h.quiet (hp.direct _ _ _ _ s (by rw [← hl, he, hs])))
    exact ⟨w', e1, h1, h2, h3.trans h.lines, fun a b => h4 (h.off a b)⟩

/-- A command for whose data there is room or not. -/
theorem prepare_ok {w1 : World E} {n : Nat} (hp : Polite g) (h : Before w w1 (tailOf (g.parse r.line)) r.line)
    (hn : n = r.data.length) (hs : n < 2147483648) (e : onLine g w r.line = prepare g w1 r.line n) :
    ∃ w2, serve g w r = some w2 ∧ After w w2 (tailOf (g.parse r.line)) r.line := by
  unfold serve
  rw [e]
  unfold prepare
  cases hr : g.room w1.env r.line with
  | mk e1 o =>
    cases o with
    | none =>
      simp only [if_pos hn]
      exact onData_ok hp (w1 := { w1 with env := e1, pending := r.line }) ⟨h.roomy, h.zero, h.lines, h.quiet, h.off⟩ rfl
    | some err =>
      simp only
      obtain ⟨w', b, e2, h1, h2, h3, _, _, h6⟩ := say_ok (w := { w1 with env := e1 }) err h.roomy h.zero
      rw [e2]
      simp only [Option.map_some, toInt_small hs]
      rw [if_pos (by rw [hn])]
      exact ⟨w', rfl, h1, h2, h3.trans h.lines, fun a b => h6 (h.off a b)⟩

theorem doNow_serve {w1 : World E} (hp : Polite g) (h : Before w w1 (tailOf (g.parse r.line)) r.line)
    (hd : r.data.length = 0) (e : onLine g w r.line = doNow g w1 r.line) :
    ∃ w2, serve g w r = some w2 ∧ After w w2 (tailOf (g.parse r.line)) r.line := by
  obtain ⟨w2, e2, h2⟩ := doNow_ok hp h
  unfold serve
  rw [e, e2]
  simp only [List.length_eq_zero_iff] at hd
  simp only [if_pos hd]
  exact ⟨w2, rfl, h2⟩

/-- A refused list. -/
theorem refuse_ok {w1 : World E} {n : Nat} (h : Before w w1 (tailOf (g.parse r.line)) r.line)
    (hq : w1.conn.noreply = false) (hsay : ∀ e e' s, g.exec e r.line [] ≠ (e', .sends s))
    (hn : n = r.data.length) (hs : n < 2147483648) (e : onLine g w r.line = refuse g w1 r.line n) :
    ∃ w2, serve g w r = some w2 ∧ After w w2 (tailOf (g.parse r.line)) r.line := by
  unfold serve
  rw [e]
  unfold refuse
  cases he : g.exec w1.env r.line [] with
  | mk e1 a =>
    cases a with
    | sends s => exact absurd he (hsay _ _ _)
    | says s =>
      simp only
      obtain ⟨w', b, e2, h1, h2, h3, _, h5, h6⟩ := say_ok (w := { w1 with env := e1 }) s h.roomy h.zero
      have hb := h5 hq
      subst hb
      rw [e2]
      simp only [Option.map_some, if_true, toInt_small hs]
      rw [if_pos (by rw [hn])]
      exact ⟨w', rfl, h1, h2, h3.trans h.lines, fun a b => h6 (h.off a b)⟩

end

theorem checkPipe_ok {c : Conn} (h : c.pipe = .off ∨ c.pipe = .on) : checkPipe c = (c, true) := by
  unfold checkPipe; rw [if_pos h]

theorem checkPipe_err {c : Conn} (h : ¬ (c.pipe = .off ∨ c.pipe = .on)) :
    (checkPipe c).2 = false ∧ Calm (checkPipe c).1 ∧ Zero (checkPipe c).1 := by
  unfold checkPipe
  rw [if_neg h]
  simp only [not_or] at h
  split
  · exact ⟨rfl, ⟨rfl, ⟨fun hp => absurd hp h.2⟩⟩, fun hp => absurd hp h.1⟩
  · rename_i hn
    refine ⟨rfl, ⟨?_, ⟨fun hp => (by cases hp)⟩⟩, fun _ => rfl⟩
    simp only [Bool.not_eq_true] at hn
    exact hn

/-- A well-formed request is served with exactly its data. -/
theorem serve_good {g : Engine E} {w : World E} {r : Req} (hp : Polite g) (hg : r.Good g) (ht : Tame (g.parse r.line))
    (hc : Calm w.conn) (hz : Zero w.conn)
    (hf : HasFields (g.parse r.line) → w.conn.pipe = .off ∧ tailOf (g.parse r.line) ≠ .pipe) :
    ∃ w2, serve g w r = some w2 ∧ After w w2 (tailOf (g.parse r.line)) r.line := by
  have hw := hg.whole
  have ha := hg.allowed
  cases hcmd : g.parse r.line with
  | simple t =>
    rw [hcmd] at hw
    simp only [need] at hw
    rw [← hcmd]
    refine doNow_serve hp (w1 := { w with lines := w.lines ++ [r.line], conn := setNoreply w.conn t }) ?_ hw
      (by unfold onLine; simp only [hcmd])
    rw [hcmd]
    exact ⟨roomy_setNoreply t hc.roomy, hz, rfl, setNoreply_quiet, fun a _ => a⟩
  | direct =>
    rw [hcmd] at hw
    simp only [need] at hw
    rw [← hcmd]
    refine doNow_serve hp (w1 := { w with lines := w.lines ++ [r.line] }) ?_ hw (by unfold onLine; simp only [hcmd])
    rw [hcmd]
    exact ⟨hc.roomy, hz, rfl, fun _ => hc.quiet, fun a _ => a⟩
  | quick t =>
    rw [hcmd] at hw
    simp only [need] at hw
    have hB : Before w { w with lines := w.lines ++ [r.line], conn := setPipe w.conn t } t r.line :=
      ⟨roomy_setPipe t hc.roomy hz, zero_setPipe hz, rfl, setPipe_quiet, setPipe_off⟩
    by_cases hs : (setPipe w.conn t).pipe = .off ∨ (setPipe w.conn t).pipe = .on
    · rw [← hcmd]
      refine doNow_serve hp (w1 := { w with lines := w.lines ++ [r.line], conn := setPipe w.conn t }) ?_ hw ?_
      · rw [hcmd]; exact hB
      · unfold onLine; simp only [hcmd, checkPipe_ok hs, if_true]
    · obtain ⟨h1, h2, h3⟩ := checkPipe_err hs
      unfold serve onLine
      simp only [hcmd, h1, Bool.false_eq_true, if_false]
      simp only [List.length_eq_zero_iff] at hw
      simp only [if_pos hw]
      exact ⟨_, rfl, h2, h3, rfl, fun a b => absurd (.inl (hB.off a b)) hs⟩
  | store t len =>
    rw [hcmd] at hw ha
    simp only [need] at hw
    simp only [Allowed] at ha
    rw [← hcmd]
    refine prepare_ok hp (w1 := { w with lines := w.lines ++ [r.line], conn := setNoreply w.conn t }) ?_ hw.symm (by omega)
      (by unfold onLine; simp only [hcmd]; rw [if_neg (by omega)])
    rw [hcmd]
    exact ⟨roomy_setNoreply t hc.roomy, hz, rfl, setNoreply_quiet, fun a _ => a⟩
  | value t len =>
    rw [hcmd] at hw ha
    simp only [need] at hw
    simp only [Allowed] at ha
    have hB : Before w { w with lines := w.lines ++ [r.line], conn := setPipe w.conn t } t r.line :=
      ⟨roomy_setPipe t hc.roomy hz, zero_setPipe hz, rfl, setPipe_quiet, setPipe_off⟩
    by_cases hs : (setPipe w.conn t).pipe = .off ∨ (setPipe w.conn t).pipe = .on
    · rw [← hcmd]
      refine prepare_ok hp (w1 := { w with lines := w.lines ++ [r.line], conn := setPipe w.conn t }) ?_ hw.symm (by omega) ?_
      · rw [hcmd]; exact hB
      · unfold onLine; simp only [hcmd, checkPipe_ok hs, if_true]; rw [if_neg (by omega)]
    · obtain ⟨h1, h2, h3⟩ := checkPipe_err hs
      unfold serve onLine
      simp only [hcmd]
      rw [if_neg (by omega)]
      simp only [h1, Bool.false_eq_true, if_false, toInt_small (show len + 2 < 2147483648 by omega)]
      rw [if_pos (by rw [hw])]
      exact ⟨_, rfl, h2, h3, rfl, fun a b => absurd (.inl (hB.off a b)) hs⟩
  | fields t len refused =>
    rw [hcmd] at hw ha ht hf
    simp only [need] at hw
    simp only [Allowed] at ha
    simp only [Tame] at ht
    have hB : Before w { w with lines := w.lines ++ [r.line], conn := setPipe w.conn t } t r.line :=
      ⟨roomy_setPipe t hc.roomy hz, zero_setPipe hz, rfl, setPipe_quiet, setPipe_off⟩
    cases refused with
    | true =>
      have h0 := ha.2 rfl
      rw [if_neg (by omega)] at hw
      rw [← hcmd]
      refine refuse_ok (w1 := { w with lines := w.lines ++ [r.line], conn := setPipe w.conn t }) ?_ (setPipe_quiet (ht.2 rfl))
        (hp.refusal _ t len (.inl hcmd)) hw.symm (by omega) ?_
      · rw [hcmd]; exact hB
      · unfold onLine; simp only [hcmd]; rw [if_neg (by omega)]; simp only [if_true]
    | false =>
      by_cases h0 : len = 0
      · rw [if_pos h0] at hw
        by_cases hs : (setPipe w.conn t).pipe = .off ∨ (setPipe w.conn t).pipe = .on
        · rw [← hcmd]
          refine doNow_serve hp (w1 := { w with lines := w.lines ++ [r.line], conn := setPipe w.conn t }) ?_ hw ?_
          · rw [hcmd]; exact hB
          · unfold onLine; simp only [hcmd, checkPipe_ok hs, if_true]
            rw [if_neg (by omega)]; simp only [Bool.false_eq_true, if_false, if_pos h0]
        · obtain ⟨h1, h2, h3⟩ := checkPipe_err hs
          unfold serve onLine
          simp only [hcmd]
          rw [if_neg (by omega)]
          simp only [h1, Bool.false_eq_true, if_false]
          rw [if_neg (by omega)]
          simp only [List.length_eq_zero_iff] at hw
          simp only [if_pos hw]
          exact ⟨_, rfl, h2, h3, rfl, fun a b => absurd (.inl (hB.off a b)) hs⟩
      · rw [if_neg h0] at hw
        have hff := hf (by show 0 < len; omega)
        have hs : (setPipe w.conn t).pipe = .off ∨ (setPipe w.conn t).pipe = .on := .inl (setPipe_off hff.1 hff.2)
        rw [← hcmd]
        refine prepare_ok hp (w1 := { w with lines := w.lines ++ [r.line], conn := setPipe w.conn t }) ?_ hw.symm (by omega) ?_
        · rw [hcmd]; exact hB
        · unfold onLine; simp only [hcmd, checkPipe_ok hs, if_true]
          rw [if_neg (by omega)]; simp only [Bool.false_eq_true, if_false, if_neg h0]
  | keys len refused =>
    rw [hcmd] at hw ha ht
    simp only [need] at hw
    simp only [Allowed] at ha
    simp only [Tame] at ht
    have hB : Before w { w with lines := w.lines ++ [r.line] } .plain r.line :=
      ⟨hc.roomy, hz, rfl, fun _ => hc.quiet, fun a _ => a⟩
    cases refused with
    | true =>
      have h0 := ha.2 rfl
      rw [if_neg (by omega)] at hw
      rw [← hcmd]
      refine refuse_ok (w1 := { w with lines := w.lines ++ [r.line] }) ?_ hc.quiet
        (hp.refusal _ .plain len (.inr hcmd)) hw.symm (by omega) ?_
      · rw [hcmd]; exact hB
      · unfold onLine; simp only [hcmd]; rw [if_neg (by omega)]; simp only [if_true]
    | false =>
      by_cases h0 : len = 0
      · rw [if_pos h0] at hw
        rw [← hcmd]
        refine doNow_serve hp (w1 := { w with lines := w.lines ++ [r.line] }) ?_ hw ?_
        · rw [hcmd]; exact hB
        · unfold onLine; simp only [hcmd]
          rw [if_neg (by omega)]; simp only [Bool.false_eq_true, if_false, if_pos h0]
      · rw [if_neg h0] at hw
        rw [← hcmd]
        refine prepare_ok hp (w1 := { w with lines := w.lines ++ [r.line] }) ?_ hw.symm (by omega) ?_
        · rw [hcmd]; exact hB
        · unfold onLine; simp only [hcmd]
          rw [if_neg (by omega)]; simp only [Bool.false_eq_true, if_false, if_neg h0]

/-- All requests of a list, as long as `mop delete` with a list of fields and pipelines do not meet. -/
theorem serveAll_good {g : Engine E} (rs : List Req) {w : World E} (hp : Polite g) (hg : ∀ r ∈ rs, r.Good g)
    (ht : ∀ r ∈ rs, Tame (g.parse r.line)) (hc : Calm w.conn) (hz : Zero w.conn)
    (hf : (w.conn.pipe = .off ∧ ∀ r ∈ rs, tailOf (g.parse r.line) ≠ .pipe) ∨ ∀ r ∈ rs, ¬ HasFields (g.parse r.line)) :
    ∃ w', serveAll g w rs = some w' ∧ w'.lines = w.lines ++ rs.map Req.line := by
  induction rs generalizing w with
  | nil => exact ⟨w, rfl, by simp⟩
  | cons r rs ih =>
    obtain ⟨w2, e, ha⟩ := serve_good (w := w) hp (hg r (by simp)) (ht r (by simp)) hc hz (by
      intro h
      rcases hf with ⟨h1, h2⟩ | h1
      · exact ⟨h1, h2 r (by simp)⟩
      · exact absurd h (h1 r (by simp)))
    obtain ⟨w', e', hl⟩ := ih (w := w2) (fun r hr => hg r (by simp [hr])) (fun r hr => ht r (by simp [hr])) ha.calm ha.zero (by
      rcases hf with ⟨h1, h2⟩ | h1
      · exact .inl ⟨ha.off h1 (h2 r (by simp)), fun r hr => h2 r (by simp [hr])⟩
      · exact .inr fun r hr => h1 r (by simp [hr]))
    refine ⟨w', ?_, ?_⟩
    · simp only [serveAll, e, Option.bind_some]; exact e'
    · rw [hl, ha.lines]; simp

end Verif.Conn
