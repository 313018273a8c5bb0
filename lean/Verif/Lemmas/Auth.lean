import Verif.Lemmas.Token
import Verif.Spec.Auth
/-
The words of an access list, the bits for them, and the checks.
-/

namespace Verif.Auth
open Spec

/-! ## The words of the list -/

theorem strtok_word (l cur word : List Nat) (hc : 44 ∉ cur) :
    word ∈ strtok cur l → word ≠ [] ∧ 44 ∉ word ∧ ∃ a b, cur ++ l = a ++ word ++ b ∧ (a = [] ∨ a.getLast? = some 44) ∧ (b = [] ∨ b.head? = some 44) := by
  induction l generalizing cur with
  | nil =>
    intro h
    simp only [strtok] at h
    by_cases h0 : cur = []
    · simp [h0] at h
    · rw [if_neg h0, List.mem_singleton] at h
      subst h
      exact ⟨h0, hc, [], [], by simp, .inl rfl, .inl rfl⟩
  | cons b r ih =>
    intro h
    simp only [strtok] at h
    have fresh : word ∈ strtok [] r → word ≠ [] ∧ 44 ∉ word ∧ ∃ a b', cur ++ 44 :: r = a ++ word ++ b' ∧ (a = [] ∨ a.getLast? = some 44) ∧ (b' = [] ∨ b'.head? = some 44) := by
      intro h
      obtain ⟨h1, h2, a, b', e, ha, hb⟩ := ih [] (by simp) h
      refine ⟨h1, h2, cur ++ 44 :: a, b', by rw [List.nil_append] at e; rw [e]; simp, .inr ?_, hb⟩
      rcases ha with rfl | ha
      · simp
      · cases a with
        | nil => simp at ha
        | cons x a => rw [List.getLast?_append, List.getLast?_cons_cons, ha]; rfl
    by_cases hb : b = 44
    · subst hb
      rw [if_pos rfl] at h
      by_cases h0 : cur = []
      · rw [if_pos h0] at h
        exact fresh h
      · rw [if_neg h0] at h
        rcases List.mem_cons.1 h with rfl | h
        · exact ⟨h0, hc, [], 44 :: r, by simp, .inl rfl, .inr rfl⟩
        · exact fresh h
    · rw [if_neg hb] at h
      obtain ⟨h1, h2, a, b', e, ha, hb'⟩ := ih (cur ++ [b]) (by simp [hc]; exact fun e => hb e.symm) h
      exact ⟨h1, h2, a, b', by rw [← e]; simp, ha, hb'⟩

theorem strtok_run (x r cur : List Nat) (hx : 44 ∉ x) : strtok cur (x ++ r) = strtok (cur ++ x) r := by
  induction x generalizing cur with
  | nil => simp
  | cons b x ih =>
    have hb : b ≠ 44 := fun h => hx (by simp [h])
    rw [List.cons_append]
    simp only [strtok, if_neg hb]
    rw [ih _ (fun h => hx (by simp [h]))]
    simp

theorem strtok_after (a r cur : List Nat) (word : List Nat) (h : word ∈ strtok [] r) : word ∈ strtok cur (a ++ 44 :: r) := by
  induction a generalizing cur with
  | nil =>
    simp only [List.nil_append, strtok, if_true]
    split
    · exact h
    · exact List.mem_cons_of_mem _ h
  | cons b a ih =>
    rw [List.cons_append]
    simp only [strtok]
    split
    · split
      · exact ih []
      · exact List.mem_cons_of_mem _ (ih [])
    · exact ih _

theorem strtok_listed (data word : List Nat) : word ∈ strtok [] data ↔ Listed data word := by
  constructor
  · intro h
    have := strtok_word data [] word (by simp) h
    simpa [Listed] using this
  · rintro ⟨h0, hw, a, b, rfl, ha, hb⟩
    have key : word ∈ strtok [] (word ++ b) := by
      rw [strtok_run _ _ _ hw, List.nil_append]
      cases b with
      | nil => simp [strtok, h0]
      | cons x b =>
        have : x = 44 := by rcases hb with hb | hb <;> simp at hb; exact hb
        subst this
        simp [strtok, h0]
    rcases ha with rfl | ha
    · simpa using key
    · have hne : a ≠ [] := by intro h; simp [h] at ha
      have e : a = a.dropLast ++ [44] := by
        have := List.dropLast_concat_getLast hne
        rw [List.getLast?_eq_some_getLast hne] at ha
        simp only [Option.some.injEq] at ha
        rw [ha] at this
        exact this.symm
      rw [e]
      have := strtok_after a.dropLast (word ++ b) [] word key
      simpa using this

/-! ## The bits -/

theorem foldl_bit (i : Nat) (ts : List (List Nat)) (r : Nat) :
    (ts.foldl (fun r t => r ||| tokenFlags t) r).testBit i = true ↔ r.testBit i = true ∨ ∃ t ∈ ts, (tokenFlags t).testBit i = true := by
  induction ts generalizing r with
  | nil => simp
  | cons t ts ih =>
    simp only [List.foldl_cons, ih, Nat.testBit_or, Bool.or_eq_true, List.mem_cons, exists_eq_or_imp]
    constructor
    · rintro ((h | h) | h)
      · exact .inl h
      · exact .inr (.inl h)
      · exact .inr (.inr h)
    · rintro (h | h | h)
      · exact .inl (.inl h)
      · exact .inl (.inr h)
      · exact .inr h

/-- The words that give a flag. -/
def words : Nat → List (List Nat)
  | 0 => types
  | 1 => [w ['k', 'v']]
  | 2 => [w ['l', 'i', 's', 't']]
  | 3 => [w ['s', 'e', 't']]
  | 4 => [w ['m', 'a', 'p']]
  | 5 => [w ['b', 't', 'r', 'e', 'e']]
  | 6 => [w ['s', 'c', 'a', 'n']]
  | 7 => [w ['f', 'l', 'u', 's', 'h']]
  | 8 => [w ['a', 't', 't', 'r']]
  | _ => [w ['a', 'd', 'm', 'i', 'n']]

theorem tokenFlags_bit (t : List Nat) (i : Nat) (hi : i < 10) : (tokenFlags t).testBit i = true ↔ t ∈ words i := by
  unfold tokenFlags
  have : i = 0 ∨ i = 1 ∨ i = 2 ∨ i = 3 ∨ i = 4 ∨ i = 5 ∨ i = 6 ∨ i = 7 ∨ i = 8 ∨ i = 9 := by omega
  split
  · rename_i h; subst h; rcases this with rfl | rfl | rfl | rfl | rfl | rfl | rfl | rfl | rfl | rfl <;> decide
  split
  · rename_i h; subst h; rcases this with rfl | rfl | rfl | rfl | rfl | rfl | rfl | rfl | rfl | rfl <;> decide
  split
  · rename_i h; subst h; rcases this with rfl | rfl | rfl | rfl | rfl | rfl | rfl | rfl | rfl | rfl <;> decide
  split
  · rename_i h; subst h; rcases this with rfl | rfl | rfl | rfl | rfl | rfl | rfl | rfl | rfl | rfl <;> decide
  split
  · rename_i h; subst h; rcases this with rfl | rfl | rfl | rfl | rfl | rfl | rfl | rfl | rfl | rfl <;> decide
  split
  · rename_i h; subst h; rcases this with rfl | rfl | rfl | rfl | rfl | rfl | rfl | rfl | rfl | rfl <;> decide
  split
  · rename_i h; subst h; rcases this with rfl | rfl | rfl | rfl | rfl | rfl | rfl | rfl | rfl | rfl <;> decide
  split
  · rename_i h; subst h; rcases this with rfl | rfl | rfl | rfl | rfl | rfl | rfl | rfl | rfl | rfl <;> decide
  split
  · rename_i h; subst h; rcases this with rfl | rfl | rfl | rfl | rfl | rfl | rfl | rfl | rfl | rfl <;> decide
  · rename_i h1 h2 h3 h4 h5 h6 h7 h8 h9
    rw [Nat.zero_testBit]
    rcases this with rfl | rfl | rfl | rfl | rfl | rfl | rfl | rfl | rfl | rfl <;> simp [words, types, *]

/-- The flags are what the right says. -/
def Holds : Right → Nat → Prop
  | .nothing, a => a = NONE ∨ a = FAIL
  | .all, a => a = ALL
  | .listed data, a => a = (strtok [] data).foldl (fun r t => r ||| tokenFlags t) NONE

theorem and_pow_eq (a i : Nat) : a &&& 2 ^ i = 2 ^ i ↔ a.testBit i = true := by
  constructor
  · intro h
    have := congrArg (fun x => x.testBit i) h
    simpa using this
  · intro h
    apply Nat.eq_of_testBit_eq
    intro j
    rw [Nat.testBit_and, Nat.testBit_two_pow]
    by_cases hj : i = j
    · subst hj; simp [h]
    · simp [hj]

theorem holds_bit {r : Right} {a : Nat} (h : Holds r a) (i : Nat) (hi : i < 10) : a &&& 2 ^ i = 2 ^ i ↔ ∃ word ∈ words i, r.Has word := by
  rw [and_pow_eq]
  have this : i = 0 ∨ i = 1 ∨ i = 2 ∨ i = 3 ∨ i = 4 ∨ i = 5 ∨ i = 6 ∨ i = 7 ∨ i = 8 ∨ i = 9 := by omega
  cases r with
  | nothing =>
    have : a.testBit i = false := by
      rcases h with rfl | rfl <;> rcases this with rfl | rfl | rfl | rfl | rfl | rfl | rfl | rfl | rfl | rfl <;> decide
    simp [this, Right.Has]
  | all =>
    subst h
    have hb : ALL.testBit i = true := by
      rcases this with rfl | rfl | rfl | rfl | rfl | rfl | rfl | rfl | rfl | rfl <;> decide
    simp only [hb, Right.Has, and_true, true_iff]
    rcases this with rfl | rfl | rfl | rfl | rfl | rfl | rfl | rfl | rfl | rfl <;> exact ⟨_, List.mem_cons_self ..⟩
  | listed data =>
    simp only [Holds] at h
    subst h
    rw [foldl_bit]
    simp only [NONE, Nat.zero_testBit, Bool.false_eq_true, false_or, Right.Has]
    constructor
    · rintro ⟨t, ht, hb⟩
      exact ⟨t, (tokenFlags_bit t i hi).1 hb, (strtok_listed data t).1 ht⟩
    · rintro ⟨t, ht, hl⟩
      exact ⟨t, (strtok_listed data t).2 hl, (tokenFlags_bit t i hi).2 ht⟩

/-! ## The history of a connection -/

theorem cstr_prefix (data s : List Nat) (h : 0 ∉ data) : Verif.Token.cstr (data ++ 0 :: s) = data := by
  induction data with
  | nil => rfl
  | cons x d ih =>
    have hx : x ≠ 0 := fun e => h (by simp [e])
    simp only [Verif.Token.cstr, List.cons_append, List.takeWhile_cons, bne_iff_ne, ne_eq, hx, not_false_eq_true, if_true] at ih ⊢
    rw [ih (fun e => h (by simp [e]))]

theorem authz_listed (acl : Acl) (user stack data : List Nat) (hl : acl.lookup user = some data) (h0 : 0 ∉ data) (hlen : data.length < 1024)
    (hs : stack[data.length]? = some 0) :
    authz true acl user stack = some ((strtok [] data).foldl (fun r t => r ||| tokenFlags t) NONE) := by
  have hd : ∃ s, (stack.take valueMax).drop data.length = 0 :: s := by
    have : ((stack.take valueMax).drop data.length)[0]? = some 0 := by
      rw [List.getElem?_drop, List.getElem?_take]
      simp only [Nat.add_zero]
      rw [if_pos (by simp [valueMax]; omega)]
      exact hs
    cases hx : (stack.take valueMax).drop data.length with
    | nil => rw [hx] at this; simp at this
    | cons y s => rw [hx] at this; simp at this; exact ⟨s, by rw [this]⟩
  obtain ⟨s, hd⟩ := hd
  have hle : data.length ≤ valueMax := by simp [valueMax]; omega
  simp only [authz, Bool.true_eq_false, if_false, hl, if_pos hle, hd, cstr_prefix data s h0]
  rw [if_pos (by simp)]

/-- The connection is as its history says. -/
structure Agrees (h : Hist) (t : Acl) (c : Conn) : Prop where
  table : t = h.table
  begun : c.started = h.begun
  right : Holds h.right c.authorized
  known : c.authenticated = true → c.authorized ≠ FAIL ∧ ¬ (match h.right with
    | .nothing => True
    | _ => False)

theorem step_ok (useAcl : Bool) (h : Hist) (t : Acl) (c : Conn) (e : Ev) (es : List Ev) (ha : Agrees h t c) (hs : Short t)
    (ht : Tidy t (e :: es)) : ∃ t' c', step useAcl (t, c) e = some (t', c') ∧ Agrees (h.after useAcl e) t' c' ∧ Short t' ∧ Tidy t' es := by
  cases e with
  | mechs =>
    exact ⟨t, initSasl c, rfl, ⟨ha.table, ha.begun, ha.right, fun h => by cases h⟩, hs, ht⟩
  | acl t' =>
    exact ⟨t', c, rfl, ⟨rfl, ha.begun, ha.right, ha.known⟩, ht.1, ht.2⟩
  | auth mech lib user stack =>
    obtain ⟨h1, h2⟩ := ht
    have hfail : ∀ d : List Nat, (strtok [] d).foldl (fun r t => r ||| tokenFlags t) NONE ≠ FAIL := by
      intro d e
      have := (foldl_bit 15 (strtok [] d) NONE).1 (by rw [e]; decide)
      rcases this with h | ⟨t, _, h⟩
      · exact absurd h (by decide)
      · unfold tokenFlags at h
        repeat' split at h
        all_goals exact absurd h (by decide)
    simp only [step, authDone, initSasl, Hist.after, ha.begun]
    by_cases hok : lib = .ok ∧ (mech ∨ h.begun)
    · have hres : (if mech = true then lib else if h.begun = true then lib else Lib.fail) = Lib.ok := by
        rcases hok with ⟨rfl, h | h⟩
        · rw [if_pos h]
        · split
          · rfl
          · rfl
      rw [if_pos hok, hres, if_pos rfl]
      cases useAcl with
      | false =>
        simp only [authz, if_true]
        refine ⟨t, _, rfl, ⟨ha.table, ?_, rfl, fun _ => ⟨(by decide : ALL ≠ FAIL), by simp⟩⟩, hs, h2⟩
        obtain ⟨rfl, _⟩ := hok
        cases mech <;> rfl
      | true =>
        rw [← ha.table]
        cases hl : t.lookup user with
        | none =>
          simp only [authz, hl, Bool.true_eq_false, if_false]
          refine ⟨t, _, rfl, ⟨rfl, ?_, .inr rfl, fun h => by simp at h⟩, hs, h2⟩
          obtain ⟨rfl, _⟩ := hok
          cases mech <;> rfl
        | some data =>
          obtain ⟨d0, dl⟩ := hs user data hl
          rw [authz_listed t user stack data hl d0 dl (h1 data hl)]
          simp only [if_neg (hfail data)]
          refine ⟨t, _, rfl, ⟨rfl, ?_, rfl, fun _ => ⟨hfail data, by simp⟩⟩, hs, h2⟩
          obtain ⟨rfl, _⟩ := hok
          cases mech <;> rfl
    · have hres : (if mech = true then lib else if h.begun = true then lib else Lib.fail) ≠ Lib.ok := by
        intro e
        apply hok
        split at e
        · rename_i hm; exact ⟨e, .inl hm⟩
        · split at e
          · rename_i hm; exact ⟨e, .inr hm⟩
          · cases e
      rw [if_neg hok, if_neg hres]
      refine ⟨t, _, rfl, ⟨ha.table, ?_, ha.right, fun h => by cases h⟩, hs, h2⟩
      cases mech with
      | false => rfl
      | true => cases lib <;> rfl

theorem steps_ok (useAcl : Bool) (es : List Ev) (h : Hist) (t : Acl) (c : Conn) (ha : Agrees h t c) (hs : Short t) (ht : Tidy t es) :
    ∃ t' c', steps useAcl (t, c) es = some (t', c') ∧ Agrees (h.afterAll useAcl es) t' c' := by
  induction es generalizing h t c with
  | nil => exact ⟨t, c, rfl, ha⟩
  | cons e es ih =>
    obtain ⟨t', c', e1, h1, h2, h3⟩ := step_ok useAcl h t c e es ha hs ht
    simp only [steps, e1]
    exact ih _ t' c' h1 h2 h3

/-! ## The checks -/

/-- What is carried out is permitted, what is refused is not. -/
def Same (r : Right) (plain o : Option Outcome) : Prop :=
  ∃ p q, plain = some p ∧ o = some q ∧ p ≠ .refused ∧
    (∀ op, p = .run op → (Permitted r op → q = .run op) ∧ (¬ Permitted r op → q = .refused)) ∧ (p = .error → q = .error ∨ q = .refused)

theorem public_take (k : List Nat) : k.take 6 = w ['a', 'r', 'c', 'u', 's', ':'] ↔ Public k := by
  constructor
  · intro h
    exact ⟨k.drop 6, by rw [← h, List.take_append_drop]⟩
  · rintro ⟨r, rfl⟩
    rfl

/-- The check says whether the right has a word, or the key is public. -/
theorem check_ok {r : Right} {c : Conn} (h : Holds r c.authorized) (i : Nat) (hi : i < 10) (key : Option (List Nat)) (n : Nat) (hn : 2 ≤ n) :
    ∃ b, check c (2 ^ i) key n = some b ∧ (b = true ↔ (∃ word ∈ words i, r.Has word) ∨ ∃ k, key = some k ∧ Public k) := by
  have hb := holds_bit h i hi
  refine ⟨_, by unfold check; rw [if_neg (fun h => by omega)], ?_⟩
  rw [Bool.or_eq_true, decide_eq_true_eq, hb]
  cases key with
  | none => simp
  | some k =>
    simp only [decide_eq_true_eq, public_take, Option.some.injEq]
    constructor
    · rintro (h | h)
      · exact .inl h
      · exact .inr ⟨k, rfl, h⟩
    · rintro (h | ⟨_, rfl, h⟩)
      · exact .inl h
      · exact .inr h

theorem guarded_same {r : Right} {c : Conn} (h : Holds r c.authorized) (i : Nat) (hi : i < 10) (key : Option (List Nat)) (n : Nat) (hn : 2 ≤ n)
    (o : Outcome) (ho : o ≠ .refused)
    (hop : ∀ op, o = .run op → needs op.cmd = some (words i) ∧ ((∃ k, key = some k ∧ Public k) ↔ (op.keys ≠ [] ∧ ∀ k ∈ op.keys, Public k))) :
    Same r (guarded false c (2 ^ i) key n o) (guarded true c (2 ^ i) key n o) := by
  obtain ⟨b, hb, hb'⟩ := check_ok h i hi key n hn
  have e1 : guarded false c (2 ^ i) key n o = some o := rfl
  have e2 : guarded true c (2 ^ i) key n o = some (if b then o else .refused) := by
    unfold guarded
    rw [hb]
    cases b <;> rfl
  refine ⟨o, _, e1, e2, ho, fun op hrun => ?_, fun he => ?_⟩
  · obtain ⟨h1, h2⟩ := hop op hrun
    have hp : Permitted r op ↔ b = true := by
      unfold Permitted
      rw [h1, hb', h2]
    refine ⟨fun h => ?_, fun h => ?_⟩
    · rw [hp.1 h]; exact hrun
    · have : b = false := by cases b; rfl; exact absurd (hp.2 rfl) h
      rw [this]; rfl
  · subst he
    cases b
    · exact .inr rfl
    · exact .inl rfl

theorem free_same (r : Right) (cmd : Cmd) (h : needs cmd = none) : Same r (some (.run ⟨cmd, []⟩)) (some (.run ⟨cmd, []⟩)) := by
  refine ⟨_, _, rfl, rfl, by simp, fun op hop => ?_, fun h => by cases h⟩
  simp only [Outcome.run.injEq] at hop
  subst hop
  refine ⟨fun _ => rfl, fun hp => absurd ?_ hp⟩
  unfold Permitted
  rw [h]
  trivial

theorem error_same (r : Right) : Same r (some .error) (some .error) :=
  ⟨_, _, rfl, rfl, by simp, fun op h => (by cases h), fun _ => .inl rfl⟩

theorem noKey_same {r : Right} {c : Conn} (h : Holds r c.authorized) (i : Nat) (hi : i < 10) (n : Nat) (hn : 2 ≤ n) (cmd : Cmd)
    (hc : needs cmd = some (words i)) : Same r (guarded false c (2 ^ i) none n (.run ⟨cmd, []⟩)) (guarded true c (2 ^ i) none n (.run ⟨cmd, []⟩)) := by
  refine guarded_same h i hi none n hn _ (by simp) (fun op hop => ?_)
  simp only [Outcome.run.injEq] at hop
  subst hop
  exact ⟨hc, by simp⟩

theorem key_same {r : Right} {c : Conn} (h : Holds r c.authorized) (i : Nat) (hi : i < 10) (n : Nat) (hn : 2 ≤ n) (cmd : Cmd) (k : List Nat)
    (hc : needs cmd = some (words i)) : Same r (guarded false c (2 ^ i) (some k) n (.run ⟨cmd, [k]⟩)) (guarded true c (2 ^ i) (some k) n (.run ⟨cmd, [k]⟩)) := by
  refine guarded_same h i hi _ n hn _ (by simp) (fun op hop => ?_)
  simp only [Outcome.run.injEq] at hop
  subst hop
  exact ⟨hc, by simp⟩

end Verif.Auth
