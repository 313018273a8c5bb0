import Verif.Lemmas.Auth
/-
The commands of the text protocol, one by one.
-/

namespace Verif.Auth
open Spec Verif.Token Verif.Token.Spec

theorem same_ite {p : Prop} [Decidable p] {r : Right} {a b a' b' : Option Outcome} (h : p → Same r a b) (h' : ¬ p → Same r a' b') :
    Same r (if p then a else a') (if p then b else b') := by
  by_cases hp : p
  · rw [if_pos hp, if_pos hp]; exact h hp
  · rw [if_neg hp, if_neg hp]; exact h' hp

/-- `get` with a public key first has public keys only. -/
def NotMixed (l : List Nat) : Prop :=
  ∀ name k ks, Words l (name :: k :: ks) → name = w ['g', 'e', 't'] ∨ name = w ['g', 'e', 't', 's'] → Public k → ∀ k' ∈ ks, Public k'

theorem bopOp_same {r : Right} {c : Conn} (h : Holds r c.authorized) (n : Nat) (hn : 2 ≤ n) (sub k : List Nat) :
    Same r (guarded false c BTREE (some k) n (bopOp sub n k)) (guarded true c BTREE (some k) n (bopOp sub n k)) := by
  by_cases hc : 7 ≤ n ∧ n ≤ 14 ∧ (cstr sub = w ['m', 'g', 'e', 't'] ∨ cstr sub = w ['s', 'm', 'g', 'e', 't'])
  · have e : bopOp sub n k = .error ∨ ((∃ v, Verif.Util.safeStrtoul (k ++ [0]) = some (some v)) ∧ bopOp sub n k = .run ⟨.bopKeys, []⟩) := by
      unfold bopOp
      rw [if_pos hc]
      split
      · rename_i v hv; exact .inr ⟨⟨v, hv⟩, rfl⟩
      · exact .inl rfl
    rcases e with e | ⟨⟨v, hv⟩, e⟩
    · rw [e]
      exact guarded_same h 5 (by decide) _ n hn _ (by simp) (fun op hop => by cases hop)
    · rw [e]
      refine guarded_same h 5 (by decide) _ n hn _ (by simp) (fun op hop => ?_)
      simp only [Outcome.run.injEq] at hop
      subst hop
      refine ⟨rfl, ?_⟩
      simp only [Option.some.injEq, exists_eq_left', ne_eq, not_true_eq_false, false_and, iff_false]
      rintro ⟨s, rfl⟩
      -- a public key is no number
      simp [Verif.Util.safeStrtoul, Verif.Util.scanNum, Verif.Util.signPart, w, Verif.Util.isspace, Verif.Util.isdigit, Verif.Util.endOk,
        Verif.Util.digitsVal, List.dropWhile_cons, List.takeWhile_cons] at hv
  · have e : bopOp sub n k = .run ⟨.bop, [k]⟩ := by
      unfold bopOp
      rw [if_neg hc]
    rw [e]
    exact key_same h 5 (by decide) n hn .bop k rfl

/-- The words of a line have no byte 0 if the line has none. -/
theorem words_zero {l : List Nat} {ws : List (List Nat)} (h : Words l ws) (h0 : 0 ∉ l) : ∀ x ∈ ws, 0 ∉ x := by
  induction h with
  | nil => simp
  | cons b x rest ws _ _ _ _ _ ih =>
    intro y hy
    rcases List.mem_cons.1 hy with rfl | hy
    · exact fun h => h0 (by simp [h])
    · exact ih (fun h => h0 (by simp [h])) y hy

theorem cstr_id (x : List Nat) (h : 0 ∉ x) : cstr x = x := by
  induction x with
  | nil => rfl
  | cons b x ih =>
    have hb : b ≠ 0 := fun e => h (by simp [e])
    have hx : 0 ∉ x := fun e => h (by simp [e])
    have := ih hx
    simp only [cstr, List.takeWhile_cons, bne_iff_ne, ne_eq, hb, not_false_eq_true, if_true] at this ⊢
    rw [this]

theorem line_same (ext : Bool) {r : Right} {c : Conn} (h : Holds r c.authorized) (l : List Nat) (h0 : 0 ∉ l) (hm : NotMixed l)
    (hs : ext = true → ¬ Words l [w ['s', 'c', 'r', 'u', 'b']]) : Same r (line false ext c l) (line true ext c l) := by
  obtain ⟨w1, w2⟩ := tokLoop_words l h0 (maxTokens - 1) [] (by decide)
  have hfull := tokLoop_full l (maxTokens - 1) [] (by decide)
  have hw := (wordsFrom_spec l [] (by simp)).1 rfl
  have hz := words_zero hw h0
  have htok : tokenize l = tokLoop (maxTokens - 1) [] l := rfl
  unfold line
  rw [htok]
  generalize tokLoop (maxTokens - 1) [] l = p at w1 w2 hfull
  obtain ⟨ts, rest⟩ := p
  simp only at w1 w2 hfull ⊢
  rw [w1] at hw hz
  cases ts with
  | nil => exact error_same r
  | cons name args =>
    simp only
    have hname : cstr name = name := cstr_id name (hz name (by simp))
    rw [hname]
    refine same_ite (fun hc => ?_) (fun _ => ?_)
    · -- get
      obtain ⟨hn, hg⟩ := hc
      cases args with
      | nil => simp at hn
      | cons k ks =>
        obtain ⟨keys, ok, e, g1, g2⟩ := getLoop_ok (l.length + 1) (k :: ks) rest (fun r hr => ⟨(w2 r hr).2.1, by have := (w2 r hr).1; omega⟩) (by omega)
        have eo : getOp l.length (k :: ks) rest = some (if ok then .run ⟨.get, keys⟩ else .error) := by
          unfold getOp
          rw [e]
          cases ok <;> rfl
        rw [eo]
        refine guarded_same h 1 (by decide) _ _ (by omega) _ (by cases ok <;> simp) (fun op hop => ?_)
        cases ok with
        | false => simp at hop
        | true =>
          simp only [if_true, Outcome.run.injEq] at hop
          subst hop
          refine ⟨rfl, ?_⟩
          by_cases hlong : ∃ t ∈ (k :: ks) ++ restWords rest, keyMax < t.length
          · exact absurd (g2 hlong).1 (by simp)
          · obtain ⟨_, rfl⟩ := g1 (fun t ht => by
              by_cases hx : keyMax < t.length
              · exact absurd ⟨t, ht, hx⟩ hlong
              · omega)
            constructor
            · rintro ⟨k', hk', hp⟩
              simp only [List.head?_cons, Option.some.injEq] at hk'
              subst hk'
              refine ⟨by simp, fun x hx => ?_⟩
              rcases List.mem_cons.1 hx with rfl | hx
              · exact hp
              · exact hm name k (ks ++ restWords rest) hw hg hp x hx
            · rintro ⟨_, hp⟩
              exact ⟨k, rfl, hp k (by simp)⟩
    refine same_ite (fun hc => noKey_same h 1 (by decide) _ (by omega) .mget rfl) (fun _ => ?_)
    refine same_ite (fun hc => ?_) (fun _ => ?_)
    · cases args with
      | nil => simp at hc
      | cons k as => exact key_same h 1 (by decide) _ (by omega) .update k rfl
    refine same_ite (fun hc => ?_) (fun _ => ?_)
    · cases args with
      | nil => simp at hc
      | cons k as => exact key_same h 1 (by decide) _ (by omega) .update k rfl
    refine same_ite (fun hc => ?_) (fun _ => ?_)
    · cases args with
      | nil => simp at hc
      | cons k as => exact key_same h 1 (by decide) _ (by omega) .arith k rfl
    refine same_ite (fun hc => ?_) (fun _ => ?_)
    · cases args with
      | nil => simp at hc
      | cons k as => exact key_same h 0 (by decide) _ (by omega) .delete k rfl
    refine same_ite (fun hc => ?_) (fun _ => ?_)
    · cases args with
      | nil => simp at hc
      | cons s as =>
        cases as with
        | nil => simp at hc
        | cons k as => exact key_same h 2 (by decide) _ (by omega) .lop k rfl
    refine same_ite (fun hc => ?_) (fun _ => ?_)
    · cases args with
      | nil => simp at hc
      | cons s as =>
        cases as with
        | nil => simp at hc
        | cons k as => exact key_same h 3 (by decide) _ (by omega) .sop k rfl
    refine same_ite (fun hc => ?_) (fun _ => ?_)
    · cases args with
      | nil => simp at hc
      | cons s as =>
        cases as with
        | nil => simp at hc
        | cons k as => exact key_same h 4 (by decide) _ (by omega) .mop k rfl
    refine same_ite (fun hc => ?_) (fun _ => ?_)
    · cases args with
      | nil => simp at hc
      | cons s as =>
        cases as with
        | nil => simp at hc
        | cons k as => exact bopOp_same h _ (by omega) s k
    refine same_ite (fun hc => ?_) (fun _ => ?_)
    · cases args with
      | nil => simp at hc
      | cons k as => exact key_same h 8 (by decide) _ (by omega) .getattr k rfl
    refine same_ite (fun hc => ?_) (fun _ => ?_)
    · cases args with
      | nil => simp at hc
      | cons k as => exact key_same h 8 (by decide) _ (by omega) .setattr k rfl
    refine same_ite (fun hc => free_same r .stats rfl) (fun _ => ?_)
    refine same_ite (fun hc => noKey_same h 7 (by decide) _ (by omega) .flush rfl) (fun _ => ?_)
    refine same_ite (fun hc => noKey_same h 7 (by decide) _ (by omega) .flush rfl) (fun _ => ?_)
    refine same_ite (fun hc => noKey_same h 9 (by decide) _ (by omega) .config rfl) (fun _ => ?_)
    refine same_ite (fun hc => ?_) (fun _ => ?_)
    · cases args with
      | nil => simp at hc
      | cons k as => exact key_same h 1 (by decide) _ (by omega) .touch k rfl
    refine same_ite (fun hc => noKey_same h 9 (by decide) _ (by omega) .zkensemble rfl) (fun _ => ?_)
    refine same_ite (fun hc => free_same r .version rfl) (fun _ => ?_)
    refine same_ite (fun hc => noKey_same h 9 (by decide) _ (by omega) .dump rfl) (fun _ => ?_)
    refine same_ite (fun hc => free_same r .quit rfl) (fun _ => ?_)
    refine same_ite (fun hc => free_same r .help rfl) (fun _ => ?_)
    refine same_ite (fun hc => noKey_same h 6 (by decide) _ (by omega) .scan rfl) (fun _ => ?_)
    refine same_ite (fun hc => noKey_same h 9 (by decide) _ (by omega) .cmdlog rfl) (fun _ => ?_)
    refine same_ite (fun hc => noKey_same h 9 (by decide) _ (by omega) .lqdetect rfl) (fun _ => ?_)
    refine same_ite (fun hc => free_same r .ready rfl) (fun _ => ?_)
    refine same_ite (fun hc => free_same r .sasl rfl) (fun _ => ?_)
    refine same_ite (fun hc => noKey_same h 9 (by decide) _ (by omega) .shutdown rfl) (fun _ => ?_)
    refine same_ite (fun hext => ?_) (fun _ => error_same r)
    unfold extension
    refine same_ite (fun _ => error_same r) (fun _ => ?_)
    refine same_ite (fun hc => ?_) (fun _ => error_same r)
    obtain ⟨hsn, hargs⟩ := hc
    have : args ≠ [] := by
      rintro rfl
      have hr : rest = none := by
        cases rest with
        | none => rfl
        | some x => exact absurd (hfull (by simp)) (by simp [maxTokens])
      subst hr
      subst hsn
      exact hs hext (by simpa [restWords] using hw)
    have hlen : 0 < args.length := List.length_pos_iff.2 this
    exact noKey_same h 9 (by decide) _ (by omega) .scrub rfl

theorem check_some (c : Conn) (flag : Nat) (key : Option (List Nat)) (n : Nat) (hn : 2 ≤ n) : check c flag key n ≠ none := by
  unfold check
  rw [if_neg (fun h => by omega)]
  simp

theorem guarded_some (require : Bool) (c : Conn) (flag : Nat) (key : Option (List Nat)) (n : Nat) (hn : 2 ≤ n) (o : Outcome) :
    guarded require c flag key n o ≠ none := by
  unfold guarded
  split
  · split
    · rename_i h; exact absurd h (check_some c flag key n hn)
    · simp
    · simp
  · simp

theorem ite_some {p : Prop} [Decidable p] {a b : Option Outcome} (h : p → a ≠ none) (h' : ¬ p → b ≠ none) : (if p then a else b) ≠ none := by
  by_cases hp : p
  · rw [if_pos hp]; exact h hp
  · rw [if_neg hp]; exact h' hp

theorem line_total (require ext : Bool) (c : Conn) (l : List Nat) (h0 : 0 ∉ l)
    (hs : ¬ Words l [w ['s', 'c', 'r', 'u', 'b']] ∨ ext = false ∨ require = false ∨ (c.authorized &&& ADMIN = ADMIN ∧ c.user.head? ≠ some 42)) :
    line require ext c l ≠ none := by
  obtain ⟨w1, w2⟩ := tokLoop_words l h0 (maxTokens - 1) [] (by decide)
  have hfull := tokLoop_full l (maxTokens - 1) [] (by decide)
  have hw := (wordsFrom_spec l [] (by simp)).1 rfl
  have hz := words_zero hw h0
  have htok : tokenize l = tokLoop (maxTokens - 1) [] l := rfl
  unfold line
  rw [htok]
  generalize tokLoop (maxTokens - 1) [] l = p at w1 w2 hfull
  obtain ⟨ts, rest⟩ := p
  simp only at w1 w2 hfull ⊢
  rw [w1] at hw hz
  cases ts with
  | nil => simp
  | cons name args =>
    simp only
    have hname : cstr name = name := cstr_id name (hz name (by simp))
    rw [hname]
    refine ite_some (fun hc => ?_) (fun _ => ?_)
    · obtain ⟨keys, ok, e, _, _⟩ := getLoop_ok (l.length + 1) args rest (fun r hr => ⟨(w2 r hr).2.1, by have := (w2 r hr).1; omega⟩) (by omega)
      have : getOp l.length args rest = some (if ok then .run ⟨.get, keys⟩ else .error) := by
        unfold getOp
        rw [e]
        cases ok <;> rfl
      rw [this]
      exact guarded_some _ _ _ _ _ (by omega) _
    iterate 27
      refine ite_some (fun hc => ?_) (fun _ => ?_)
      · first
          | (simp; done)
          | exact guarded_some _ _ _ _ _ (by omega) _
          | (cases args with
             | nil => simp at hc
             | cons s as =>
               first
                 | exact guarded_some _ _ _ _ _ (by omega) _
                 | (cases as with
                    | nil => simp at hc
                    | cons k as => exact guarded_some _ _ _ _ _ (by omega) _))
    refine ite_some (fun hext => ?_) (fun _ => by simp)
    unfold extension
    refine ite_some (fun _ => by simp) (fun _ => ?_)
    refine ite_some (fun hc => ?_) (fun _ => by simp)
    obtain ⟨hsn, _⟩ := hc
    cases args with
    | cons a as => exact guarded_some _ _ _ _ _ (by simp) _
    | nil =>
      have hr : rest = none := by
        cases rest with
        | none => rfl
        | some x => exact absurd (hfull (by simp)) (by simp [maxTokens])
      subst hr
      subst hsn
      rcases hs with hs | hs | hs | ⟨h1, h2⟩
      · exact absurd (by simpa [restWords] using hw) hs
      · rw [hs] at hext; cases hext
      · subst hs; simp [guarded]
      · have : check c ADMIN none (([] : List (List Nat)).length + 1) = some true := by
          unfold check
          rw [if_neg (by simp [h1, h2])]
          simp [h1]
        unfold guarded
        rw [this]
        split <;> simp

end Verif.Auth
