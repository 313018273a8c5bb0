import Verif.Lemmas.ConnRun
/-
The server stays within its input buffer when no command line begins with 1025 blanks; with 64 KB of blanks it does not.
-/

namespace Verif.Conn
open Spec

variable {W : Type}

theorem takeWhile_eq_self (d : List Nat) (h : d.takeWhile (· == 32) = d) : d = List.replicate d.length 32 := by
  induction d with
  | nil => rfl
  | cons b d ih =>
    by_cases hb : b = 32
    · subst hb
      simp only [List.takeWhile_cons, beq_self_eq_true, if_true, List.cons.injEq, true_and] at h
      rw [List.length_cons, List.replicate_succ, ← ih h]
    · simp [hb] at h

theorem tooLong_some {d : List Nat} (sp : List Nat) (h : ¬ List.replicate 1025 32 <+: d) : ∃ b, tooLong d sp = some b := by
  unfold tooLong
  by_cases hl : d.length ≤ 1024
  · rw [if_pos hl]; exact ⟨_, rfl⟩
  · rw [if_neg hl]
    have h1 : d.takeWhile (· == 32) ≠ d := by
      intro e
      apply h
      rw [takeWhile_eq_self d e]
      generalize hk : 1025 = k
      have hle : k ≤ d.length := by omega
      refine ⟨List.replicate (d.length - k) 32, ?_⟩
      rw [List.replicate_append_replicate, Nat.add_sub_cancel' hle]
    obtain ⟨hb, _⟩ := blanks_eq d sp h1
    rw [hb]
    simp only
    split
    · exact ⟨_, rfl⟩
    · split <;> exact ⟨_, rfl⟩

theorem step_safe {h : Handler W} {w0 : W} {st : List Nat} {s : St W} {junk : Nat → Nat} {caps : List Nat} (hi : Inv h w0 st s)
    (hf : FewBlanks h w0 st) (hs : Sound h w0 st) :
    ∃ s', step h junk caps s = some s' ∧ (Inv h w0 st s' ∨ s'.mode = .closed) := by
  cases hmode : s.mode with
  | parse =>
    have hr := hi.reads
    have ha : s.ahead = s.data ++ s.net := ahead_cmd (by rw [hmode]; rfl)
    rw [ha, hmode] at hr
    unfold step
    rw [hmode]
    simp only
    unfold stepParse
    by_cases hd : s.data = []
    · rw [if_pos hd]
      exact ⟨_, rfl, .inl ⟨by rw [ahead_cmd (by rfl)]; exact hr, fun _ => (by simp [hd]), fun n hw => by cases hw⟩⟩
    · rw [if_neg hd]
      cases hc : cutLine s.data with
      | none =>
        have hn := cutLine_none.1 hc
        obtain ⟨b, hb⟩ := tooLong_some (d := s.data) s.spare (fun hp => hf _ _ hr (hp.trans (List.prefix_append _ _)))
        rw [hb]
        cases b with
        | true => exact ⟨_, rfl, .inr rfl⟩
        | false => exact ⟨_, rfl, .inl ⟨by rw [ahead_cmd (by rfl)]; exact hr, fun _ => hn, fun n hw => by cases hw⟩⟩
      | some p =>
        obtain ⟨l, r⟩ := p
        obtain ⟨hd, hn⟩ := cutLine_some.1 hc
        have hr' : Reads h (w0, .cmd, st) (s.world, .cmd, l ++ 10 :: (r ++ s.net)) := by
          rw [hd, List.append_assoc, List.cons_append] at hr; exact hr
        obtain ⟨w, nx, hh, hp⟩ := line_of_sound hs hr' hn
        simp only [hh]
        refine ⟨_, rfl, .inl ⟨?_, ?_, ?_⟩⟩
        · have hg : nx.mode.got = [] := by cases nx <;> rfl
          have hat : nx.mode.at = At.of nx := by cases nx <;> simp [Next.mode, Mode.at, At.of]
          rw [ahead_cmd hg]
          show Reads h _ (w, nx.mode.at, r ++ s.net)
          rw [hat]
          exact .tail hr' (.line _ _ _ _ _ _ hn (chomp_text l) hh hp)
        · intro hw; cases nx <;> cases hw
        · intro n hw
          cases nx with
          | swallow m => cases hw; exact hp
          | _ => cases hw
  | waiting =>
    unfold step; rw [hmode]
    exact ⟨_, rfl, .inl (stepRead_inv _ _ hi hmode)⟩
  | fresh =>
    unfold step; rw [hmode]
    exact ⟨_, rfl, .inl (stepFresh_inv hi hmode)⟩
  | closed =>
    unfold step; rw [hmode]
    exact ⟨_, rfl, .inr hmode⟩
  | nread n got =>
    unfold step; rw [hmode]
    simp only
    have : ∃ s', stepNread h caps n got s = some s' := by
      unfold stepNread
      split
      · rename_i h0
        have hr := hi.reads
        have ha : s.ahead = got ++ (s.data ++ s.net) := by unfold St.ahead; rw [hmode]; rfl
        rw [ha, hmode, h0] at hr
        obtain ⟨w', h1⟩ := data_of_sound hs hr
        rw [h1]; exact ⟨_, rfl⟩
      · simp only
        split <;> exact ⟨_, rfl⟩
    obtain ⟨s', e⟩ := this
    exact ⟨s', e, .inl (stepNread_inv hi hmode e)⟩
  | swallow n =>
    unfold step; rw [hmode]
    simp only
    have : ∃ s', stepSwallow caps n s = some s' := by
      have hp := hi.pos n hmode
      unfold stepSwallow
      split
      · exact ⟨_, rfl⟩
      · split
        · rw [if_neg (by omega)]; exact ⟨_, rfl⟩
        · rw [if_neg (by omega)]; exact ⟨_, rfl⟩
    obtain ⟨s', e⟩ := this
    exact ⟨s', e, .inl (stepSwallow_inv hi hmode e)⟩

theorem fewBlanks_prefix {h : Handler W} {w : W} {st bs : List Nat} (hm : FewBlanks h w (st ++ bs)) : FewBlanks h w st := by
  intro w' rest hr hp
  exact hm w' (rest ++ bs) (reads_append bs hr) (hp.trans (List.prefix_append _ _))

theorem run_closed {h : Handler W} {junk : Nat → Nat} (es : List Ev) {s : St W} (hc : s.mode = .closed) : ∃ s', run h junk s es = some s' := by
  induction es generalizing s with
  | nil => exact ⟨_, rfl⟩
  | cons ev es ih =>
    cases ev with
    | sends bs => exact ih (s := { s with net := s.net ++ bs }) hc
    | round caps =>
      simp only [run, event, step, hc, Option.bind_some]
      exact ih hc

theorem run_safe {h : Handler W} {w0 : W} {junk : Nat → Nat} (es : List Ev) {st : List Nat} {s : St W} (hi : Inv h w0 st s)
    (hm : FewBlanks h w0 (st ++ sent es)) (hs : Sound h w0 (st ++ sent es)) : ∃ s', run h junk s es = some s' := by
  induction es generalizing st s with
  | nil => exact ⟨_, rfl⟩
  | cons ev es ih =>
    cases ev with
    | sends bs => exact ih (st := st ++ bs) (inv_sends hi) (by rw [List.append_assoc]; exact hm) (by rw [List.append_assoc]; exact hs)
    | round caps =>
      obtain ⟨s1, e1, h1⟩ := step_safe (junk := junk) (caps := caps) hi (fewBlanks_prefix hm) (sound_prefix hs)
      simp only [run, event, e1, Option.bind_some]
      rcases h1 with h1 | h1
      · exact ih h1 hm hs
      · exact run_closed es h1

/-! ### A buffer full of blanks -/

theorem blanks_replicate (n : Nat) : blanks (List.replicate n 32) = none := by
  induction n with
  | zero => rfl
  | succ n ih => simp [List.replicate_succ, blanks, ih]

theorem readLoop_fill (junk : Nat → Nat) (cap : Nat) (k : Nat) (s : St W) (got : Bool) (m n : Nat) (hu : s.used = [])
    (hd : s.data = List.replicate m 32) (hsp : s.spare.length = n) (h0 : 0 < n)
    (hnet : s.net = List.replicate ((m + n) * 2 ^ k - m) 32) (hc : (m + n) * 2 ^ k ≤ cap) :
    (readLoop junk k s got (List.replicate (k + 1) cap)).1.data = List.replicate ((m + n) * 2 ^ k) 32 ∧
      (readLoop junk k s got (List.replicate (k + 1) cap)).1.spare = [] ∧
      (readLoop junk k s got (List.replicate (k + 1) cap)).2 = true := by
  induction k generalizing s got m n with
  | zero =>
    have hne : s.spare ≠ [] := by intro e; rw [e] at hsp; simp at hsp; omega
    have hres : min (min cap s.spare.length) s.net.length = n := by
      rw [hsp, hnet, List.length_replicate]; omega
    have hres0 : min (min cap s.spare.length) s.net.length ≠ 0 := by omega
    have hfull : min (min cap s.spare.length) s.net.length = s.spare.length := hres.trans hsp.symm
    have hdrop : s.spare.drop n = [] := by simp [List.drop_eq_nil_iff, hsp]
    simp only [List.replicate, readLoop, hne, false_and, if_false, if_neg hres0, if_pos hfull, Nat.lt_irrefl, and_false]
    refine ⟨?_, ?_, trivial⟩
    · rw [hres, hd, hnet, List.take_replicate, List.replicate_append_replicate]
      congr 1; simp only [Nat.pow_zero, Nat.mul_one]; omega
    · rw [hres, hdrop]
  | succ k ih =>
    have hpow : (m + n) * 2 ^ (k + 1) = (m + n + (m + n)) * 2 ^ k := by rw [Nat.pow_succ]; grind
    have hge : m + n + (m + n) ≤ (m + n + (m + n)) * 2 ^ k := Nat.le_mul_of_pos_right _ (Nat.two_pow_pos k)
    have hne : s.spare ≠ [] := by intro e; rw [e] at hsp; simp at hsp; omega
    have hres : min (min cap s.spare.length) s.net.length = n := by
      rw [hsp, hnet, List.length_replicate]; omega
    have hres0 : min (min cap s.spare.length) s.net.length ≠ 0 := by omega
    have hfull : min (min cap s.spare.length) s.net.length = s.spare.length := hres.trans hsp.symm
    have hdrop : s.spare.drop n = [] := by simp [List.drop_eq_nil_iff, hsp]
    -- the buffer is filled
    have e1 : readLoop junk (k + 1) s got (List.replicate (k + 1 + 1) cap) =
        readLoop junk (k + 1) { s with data := List.replicate (m + n) 32, spare := [],
                                       net := List.replicate ((m + n + (m + n)) * 2 ^ k - (m + n)) 32 } true (List.replicate (k + 1) cap) := by
      conv => lhs; rw [List.replicate_succ, readLoop]
      simp only [hne, false_and, if_false, if_neg hres0, if_pos hfull]
      rw [hres, hdrop, hd, hnet, List.take_replicate, List.drop_replicate, List.replicate_append_replicate]
      congr 2
      · congr 1; omega
      · congr 1; omega
    -- and enlarged
    have e2 : readLoop junk (k + 1) { s with data := List.replicate (m + n) 32, spare := [],
                                             net := List.replicate ((m + n + (m + n)) * 2 ^ k - (m + n)) 32 } true (List.replicate (k + 1) cap) =
        readLoop junk k { s with data := List.replicate (m + n) 32, spare := (List.range (m + n)).map junk,
                                 net := List.replicate ((m + n + (m + n)) * 2 ^ k - (m + n)) 32 } true (List.replicate (k + 1) cap) := by
      have hr : ({ s with data := List.replicate (m + n) 32, spare := [],
                          net := List.replicate ((m + n + (m + n)) * 2 ^ k - (m + n)) 32 } : St W).rsize = m + n := by
        simp [St.rsize, hu]
      have hne2 : (List.range (m + n)).map junk ≠ [] := by simp; omega
      conv => lhs; rw [List.replicate_succ, readLoop]
      conv => rhs; rw [List.replicate_succ, readLoop]
      simp only [true_and, if_true, Nat.add_one_ne_zero, if_false, Nat.add_sub_cancel, hr, hne2, false_and]
    rw [e1, e2, hpow]
    exact ih _ true (m + n) (m + n) hu rfl (by simp) (by omega) rfl (by omega)

end Verif.Conn
