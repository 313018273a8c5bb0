import Verif.Lemmas.ConnServe
/-
A pipeline does what the specification says.
-/

namespace Verif.Conn
open Spec

variable {E : Type}

/-- The server when the command of `r` has been carried out and its answer is due. -/
def due (w : World E) (t : Tail) (e' : E) (pend l : List Nat) : World E :=
  { w with conn := setPipe w.conn t, env := e', pending := pend, lines := w.lines ++ [l] }

theorem does_total (g : Engine E) (e : E) {r : Req} (ht : Talks g r) : ∃ e' s, Does g e r e' s := by
  by_cases h0 : need (g.parse r.line) = 0
  · obtain ⟨e', s, h⟩ := ht e []
    exact ⟨e', s, .now _ _ _ _ h0 h⟩
  · cases hr : g.room e r.line with
    | mk e1 o =>
      cases o with
      | none =>
        obtain ⟨e', s, h⟩ := ht e1 r.data
        exact ⟨e', s, .data _ _ _ _ _ (by omega) hr h⟩
      | some s => exact ⟨e1, s, .noRoom _ _ _ _ (by omega) hr⟩

theorem serve_does {g : Engine E} {w : World E} {r : Req} {e' : E} {s : List Nat} (hp : Pipeable (g.parse r.line)) (hg : r.Good g)
    (hs : (setPipe w.conn (tailOf (g.parse r.line))).pipe = .off ∨ (setPipe w.conn (tailOf (g.parse r.line))).pipe = .on)
    (hd : Does g w.env r e' s) :
    ∃ pend, serve g w r = (say (due w (tailOf (g.parse r.line)) e' pend r.line) s).map (·.1) := by
  have hw := hg.whole
  have ha := hg.allowed
  have now : ∀ t : Tail, tailOf (g.parse r.line) = t → need (g.parse r.line) = 0 →
      onLine g w r.line = doNow g { w with lines := w.lines ++ [r.line], conn := setPipe w.conn t } r.line →
      ∃ pend, serve g w r = (say (due w t e' pend r.line) s).map (·.1) := by
    intro t _ h0 e
    cases hd with
    | now _ _ _ _ hx =>
      refine ⟨w.pending, ?_⟩
      unfold serve
      rw [e]
      unfold doNow
      simp only [hx, answer]
      have hdt : r.data = [] := List.length_eq_zero_iff.1 (by rw [hw, h0])
      unfold due
      cases say { w with conn := setPipe w.conn t, env := e', lines := w.lines ++ [r.line] } s with
      | none => rfl
      | some p => simp [hdt]
    | data _ _ _ _ h1 => omega
    | noRoom _ _ _ h1 => omega
  cases hcmd : g.parse r.line with
  | simple t => rw [hcmd] at hp; exact hp.elim
  | direct => rw [hcmd] at hp; exact hp.elim
  | store t len => rw [hcmd] at hp; exact hp.elim
  | keys len b => rw [hcmd] at hp; exact hp.elim
  | quick t =>
    rw [hcmd] at hs
    exact now t (by rw [hcmd]; rfl) (by rw [hcmd]; rfl) (by unfold onLine; simp only [hcmd, tailOf] at hs ⊢; rw [checkPipe_ok hs]; simp)
  | fields t len b =>
    rw [hcmd] at hp hs
    obtain ⟨rfl, rfl⟩ := hp
    exact now t (by rw [hcmd]; rfl) (by rw [hcmd]; rfl)
      (by unfold onLine; simp only [hcmd, tailOf] at hs ⊢; rw [checkPipe_ok hs]; simp)
  | value t len =>
    rw [hcmd] at hs hw ha
    simp only [need] at hw
    simp only [Allowed] at ha
    have e : onLine g w r.line = prepare g { w with lines := w.lines ++ [r.line], conn := setPipe w.conn t } r.line (len + 2) := by
      unfold onLine
      simp only [hcmd]
      rw [if_neg (by omega)]
      simp only [tailOf] at hs
      rw [checkPipe_ok hs]
      simp
    cases hd with
    | now _ _ _ h0 => rw [hcmd] at h0; simp [need] at h0
    | data e1 _ _ _ h0 hr hx =>
      refine ⟨r.line, ?_⟩
      unfold serve
      rw [e]
      unfold prepare
      simp only [hr, hw, if_true, onData, hx, answer]
      rfl
    | noRoom _ _ _ h0 hr =>
      refine ⟨w.pending, ?_⟩
      unfold serve
      rw [e]
      unfold prepare
      simp only [hr, toInt_small (show len + 2 < 2147483648 by omega)]
      unfold due
      simp only [tailOf]
      cases say { w with conn := setPipe w.conn t, env := e', lines := w.lines ++ [r.line] } s with
      | none => rfl
      | some p => simp [hw]

theorem serve_skips {g : Engine E} {w : World E} {r : Req} (hp : Pipeable (g.parse r.line)) (hg : r.Good g)
    (hs : ¬ ((setPipe w.conn (tailOf (g.parse r.line))).pipe = .off ∨ (setPipe w.conn (tailOf (g.parse r.line))).pipe = .on)) :
    serve g w r =
      some { w with conn := (checkPipe (setPipe w.conn (tailOf (g.parse r.line)))).1, lines := w.lines ++ [r.line] } := by
  have hw := hg.whole
  have ha := hg.allowed
  obtain ⟨h1, _, _⟩ := checkPipe_err hs
  unfold serve onLine
  cases hcmd : g.parse r.line with
  | simple t => rw [hcmd] at hp; exact hp.elim
  | direct => rw [hcmd] at hp; exact hp.elim
  | store t len => rw [hcmd] at hp; exact hp.elim
  | keys len b => rw [hcmd] at hp; exact hp.elim
  | quick t =>
    rw [hcmd] at h1 hw
    simp only [tailOf] at h1 ⊢
    have hdt : r.data = [] := List.length_eq_zero_iff.1 hw
    simp [h1, hdt]
  | fields t len b =>
    rw [hcmd] at h1 hp hw
    obtain ⟨rfl, rfl⟩ := hp
    simp only [tailOf] at h1 ⊢
    have hdt : r.data = [] := List.length_eq_zero_iff.1 hw
    simp [h1, hdt]
  | value t len =>
    rw [hcmd] at h1 hw ha
    simp only [tailOf] at h1 ⊢
    simp only [need] at hw
    simp only [Allowed] at ha
    rw [if_neg (by omega)]
    simp [h1, toInt_small (show len + 2 < 2147483648 by omega), hw]

/-- The rest of a pipeline that has failed is not executed. -/
theorem drained {g : Engine E} (rs : List Req) {w : World E} (hpd : Piped g rs) (hp : ∀ r ∈ rs, Pipeable (g.parse r.line))
    (hg : ∀ r ∈ rs, r.Good g) (h0 : w.conn.pipe ≠ .off) (h1 : w.conn.pipe ≠ .on) :
    ∃ w', serveAll g w rs = some w' ∧ w'.env = w.env ∧ w'.out = w.out ∧ Ready w'.conn := by
  induction rs generalizing w with
  | nil => exact hpd.elim
  | cons r rs ih =>
    have hset : ∀ t, (setPipe w.conn t).pipe = w.conn.pipe := by
      intro t; cases t <;> simp [setPipe, h0]
    have hs : ∀ t, ¬ ((setPipe w.conn t).pipe = .off ∨ (setPipe w.conn t).pipe = .on) := by
      intro t; rw [hset]; simp [h0, h1]
    have e := serve_skips (w := w) (hp r (by simp)) (hg r (by simp)) (hs _)
    simp only [serveAll, e, Option.bind_some]
    cases rs with
    | nil =>
      have ht : tailOf (g.parse r.line) = .plain := hpd
      refine ⟨_, rfl, rfl, rfl, ?_⟩
      rw [ht]
      unfold checkPipe
      rw [if_neg (hs _)]
      simp [setPipe, pipeClear, Ready]
    | cons r' rs =>
      obtain ⟨ht, hpd'⟩ := hpd
      have hc : (checkPipe (setPipe w.conn .pipe)).1.pipe = w.conn.pipe := by
        unfold checkPipe
        rw [if_neg (hs _)]
        simp [setPipe, h0]
      obtain ⟨w', h2, h3, h4, h5⟩ := ih (w := World.mk (checkPipe (setPipe w.conn (tailOf (g.parse r.line)))).1 w.env w.out w.pending
          (w.lines ++ [r.line]))
        hpd' (fun r hr => hp r (by simp [hr])) (fun r hr => hg r (by simp [hr]))
        (by simp only [ht, hc]; exact h0) (by simp only [ht, hc]; exact h1)
      exact ⟨w', h2, h3, h4, h5⟩

theorem pipeTail_text : pipeTail .on = Ending.text .done ++ [13, 10] ∧ pipeTail .cfull = Ending.text .tooMany ++ [13, 10] ∧
    pipeTail .mfull = Ending.text .tooLong ++ [13, 10] ∧ pipeTail .bad = Ending.text .failed ++ [13, 10] := by decide

theorem reply_of {n : Nat} {ss : List (List Nat)} {w : Ending} {res tail : List Nat} (hn : ss.length = n)
    (hr : res = ss.flatMap (· ++ [13, 10])) (ht : tail = w.text ++ [13, 10]) : Reply ss w (pipeHead n ++ res ++ tail) := by
  refine ⟨digits (n + 1) n, ?_, ?_⟩
  · rw [hn]; exact (digits_decimal (n + 1) n (by omega)).1
  · rw [hr, ht]
    unfold pipeHead crlf
    simp only [List.append_assoc]

/-- Where a pipeline is after `pre` answers: not begun, or under way. -/
structure Under (c : Conn) (pre : List (List Nat)) : Prop where
  quiet : c.noreply = false
  count : c.count = pre.length
  few : pre.length < 500
  pipe : if pre = [] then c.pipe = .off else c.pipe = .on
  res : pre ≠ [] → c.res = pre.flatMap (· ++ [13, 10])
  room : (pre.flatMap (· ++ [13, 10])).length < 20000

theorem pipeline_run {g : Engine E} (rs : List Req) {w : World E} {pre : List (List Nat)} (hpd : Piped g rs)
    (hone : pre = [] → 1 < rs.length)
    (hp : ∀ r ∈ rs, Pipeable (g.parse r.line)) (hg : ∀ r ∈ rs, r.Good g) (htk : ∀ r ∈ rs, Talks g r) (hu : Under w.conn pre) :
    ∃ e' ss wd, Pipeline g pre.length (pre.flatMap (· ++ [13, 10])).length w.env rs e' ss wd ∧
      ∃ w', serveAll g w rs = some w' ∧ w'.env = e' ∧ Ready w'.conn ∧ ∃ bytes, w'.out = w.out ++ bytes ∧ Reply (pre ++ ss) wd bytes := by
  induction rs generalizing w pre with
  | nil => exact hpd.elim
  | cons r rs ih =>
    obtain ⟨e1, s, hd⟩ := does_total g w.env (htk r (by simp))
    -- the state when the answer is due
    have hset : ∀ t, t = tailOf (g.parse r.line) → (setPipe w.conn t).pipe = .on := by
      intro t ht
      have hpipe := hu.pipe
      by_cases hpre : pre = []
      · rw [if_pos hpre] at hpipe
        cases rs with
        | nil => have := hone hpre; simp at this
        | cons r' rs =>
          rw [ht, hpd.1]; simp [setPipe, hpipe]
      · rw [if_neg hpre] at hpipe
        cases t <;> simp [setPipe, hpipe]
    have hon := hset _ rfl
    obtain ⟨pend, hserve⟩ := serve_does (w := w) (hp r (by simp)) (hg r (by simp)) (.inr hon) hd
    generalize ht : tailOf (g.parse r.line) = t at hserve hon
    have hcount : (setPipe w.conn t).count = pre.length := by rw [← hu.count]; cases t <;> rfl
    have hres : (setPipe w.conn t).res = w.conn.res := by cases t <;> rfl
    have hsaved : (setPipe w.conn t).saved = pre.flatMap (· ++ [13, 10]) := by
      unfold Conn.saved
      rw [hcount, hres]
      by_cases hpre : pre = []
      · subst hpre; simp
      · rw [if_neg (by simpa using hpre), hu.res hpre]
    have hlen : ∀ ss : List (List Nat), ((pre ++ [s]).flatMap (· ++ [13, 10])) = pre.flatMap (· ++ [13, 10]) ++ s ++ crlf := by
      intro _; simp [crlf]
    obtain ⟨a1, a2, a3, a4, a5⟩ := outString_on s hon (by rw [hcount]; exact hu.few)
    rw [hsaved, hcount] at a1 a2 a3 a4 a5
    generalize hB : (pre.flatMap (· ++ [13, 10])).length = B at *
    have hnr : (setPipe w.conn t).noreply = decide (t ≠ .plain) := by cases t <;> rfl
    -- the first command with its answer
    have hsay : ∀ c' b, outString (setPipe w.conn t) s = some (c', some b) →
        serve g w r = some { due w t e1 pend r.line with conn := c', out := w.out ++ b } := by
      intro c' b h
      rw [hserve]; unfold say due; simp only [h, Option.map_some]
    have hkeep : ∀ c', outString (setPipe w.conn t) s = some (c', none) →
        serve g w r = some { due w t e1 pend r.line with conn := c' } := by
      intro c' h
      rw [hserve]; unfold say due; simp only [h, Option.map_some]
    -- what happens after an ending that is not the last command
    have hrest : ∀ (c' : Conn) (b : List Nat) (ss : List (List Nat)) (wd : Ending) (p : Pipe), p ≠ .off → p ≠ .on →
        outString (setPipe w.conn t) s = some (c', some b) → c'.noreply = false →
        (if (setPipe w.conn t).noreply = true then c'.pipe = p else c'.pipe = .off ∧ c'.count = 0) →
        Reply (pre ++ ss) wd b → Pipeline g pre.length B w.env (r :: rs) e1 ss wd →
        ∃ e' ss wd, Pipeline g pre.length B w.env (r :: rs) e' ss wd ∧
          ∃ w', serveAll g w (r :: rs) = some w' ∧ w'.env = e' ∧ Ready w'.conn ∧
            ∃ bytes, w'.out = w.out ++ bytes ∧ Reply (pre ++ ss) wd bytes := by
      intro c' b ss wd p hp0 hp1 ho hq hc hrep hpl
      have hsv := hsay _ _ ho
      refine ⟨e1, ss, wd, hpl, ?_⟩
      simp only [serveAll, hsv, Option.bind_some]
      cases rs with
      | nil =>
        have htp : t = .plain := by rw [← ht]; exact hpd
        rw [hnr, htp] at hc
        simp at hc
        exact ⟨_, rfl, rfl, ⟨hq, hc.1, hc.2⟩, b, rfl, hrep⟩
      | cons r' rs =>
        have htp : t = .pipe := by rw [← ht]; exact hpd.1
        rw [hnr, htp] at hc
        simp at hc
        obtain ⟨w', h1, h2, h3, h4⟩ := drained (r' :: rs) (w := { due w t e1 pend r.line with conn := c', out := w.out ++ b }) hpd.2
          (fun r hr => hp r (by simp [hr])) (fun r hr => hg r (by simp [hr])) (by simp only [hc]; exact hp0) (by simp only [hc]; exact hp1)
        exact ⟨w', h1, h2, h4, b, h3, hrep⟩
    obtain ⟨tt1, tt2, tt3, tt4⟩ := pipeTail_text
    by_cases hf : B + (s.length + 2) < 20000
    · by_cases he : Fails s
      · obtain ⟨c', ho, hq, hc⟩ := a2 hf he
        refine hrest c' _ [s] .failed .bad (by simp) (by simp) ho hq hc (reply_of (by simp) ?_ tt4) (.failed _ _ _ _ _ _ _ hd hf he)
        exact (hlen []).symm
      · cases rs with
        | nil =>
          have htp : t = .plain := by rw [← ht]; exact hpd
          obtain ⟨c', ho, hrd⟩ := a3 hf he (by rw [hnr, htp]; rfl)
          have hsv := hsay _ _ ho
          refine ⟨e1, [s], .done, .done _ _ _ _ _ _ hd hf he, ?_⟩
          simp only [serveAll, hsv, Option.bind_some]
          exact ⟨_, rfl, rfl, hrd, _, rfl, reply_of (by simp) (hlen []).symm tt1⟩
        | cons r' rs =>
          have htp : t = .pipe := by rw [← ht]; exact hpd.1
          have hnr1 : (setPipe w.conn t).noreply = true := by rw [hnr, htp]; rfl
          by_cases h9 : pre.length = 499
          · obtain ⟨c', ho, hq, hc⟩ := a4 hf he hnr1 h9
            refine hrest c' _ [s] .tooMany .cfull (by simp) (by simp) ho hq (by rw [hnr1]; exact hc) (reply_of (by simp) ?_ tt2)
              (.tooMany _ _ _ _ _ _ _ _ hd hf he h9)
            exact (hlen []).symm
          · have hfew := hu.few
            have ho := a5 hf he hnr1 (by omega)
            have hsv := hkeep _ ho
            obtain ⟨e', ss, wd, hpl, w', h1, h2, h3, bytes, h4, h5⟩ := ih (w := { due w t e1 pend r.line with
                conn := { setPipe w.conn t with noreply := false, res := pre.flatMap (· ++ [13, 10]) ++ s ++ crlf, count := pre.length + 1 } })
              (pre := pre ++ [s]) hpd.2 (fun h => by simp at h) (fun r hr => hp r (by simp [hr])) (fun r hr => hg r (by simp [hr]))
              (fun r hr => htk r (by simp [hr]))
              ⟨rfl, by simp, by simp; omega, by rw [if_neg (by simp)]; exact hon, fun _ => (hlen []).symm, by
                rw [hlen []]; simp only [List.length_append, crlf, List.length_cons, List.length_nil]; omega⟩
            refine ⟨e', s :: ss, wd, ?_, w', ?_, h2, h3, bytes, h4, ?_⟩
            · refine .more _ _ _ _ _ _ _ _ _ _ _ hd hf he (by omega) ?_
              have hb : ((pre ++ [s]).flatMap (· ++ [13, 10])).length = B + (s.length + 2) := by
                rw [hlen []]; simp only [List.length_append, crlf, List.length_cons, List.length_nil]; omega
              rw [hb] at hpl
              rw [List.length_append] at hpl
              exact hpl
            · rw [serveAll, hsv, Option.bind_some]; exact h1
            · rw [List.append_assoc] at h5; exact h5
    · have hroom := hu.room
      rw [hB] at hroom
      obtain ⟨c', ho, hq, hc⟩ := a1 (by omega) hroom
      refine hrest c' _ [] .tooLong .mfull (by simp) (by simp) ho hq hc (reply_of (by simp) (by simp) tt3)
        (.tooLong _ _ _ _ _ _ _ hd (by omega))

end Verif.Conn
