import Verif.Lemmas.ConnRun
import Verif.Spec.ConnCmd
/-
Requests that follow each other on a stream: if every request is served on its own, the stream is read request by request.
-/

namespace Verif.Conn
open Spec

variable {E : Type}

/-- One request, with all its data at hand. -/
def serve (g : Engine E) (w : World E) (r : Req) : Option (World E) :=
  match onLine g w r.line with
  | some (w', .cmd) => if r.data = [] then some w' else none
  | some (w', .nread n) => if n = r.data.length then onData g w' r.data else none
  | some (w', .swallow n) => if n = (r.data.length : Int) then some w' else none
  | _ => none

def serveAll (g : Engine E) (w : World E) : List Req → Option (World E)
  | [] => some w
  | r :: rs => (serve g w r).bind fun w => serveAll g w rs

theorem reads_skip_only {W : Type} {h : Handler W} {w : W} {d rest : List Nat} {y : W × At × List Nat}
    (hr : Reads h (w, .skip d.length, d ++ rest) y) : y.2.1 ≠ .cmd ∨ Reads h (w, .cmd, rest) y := by
  induction d with
  | nil =>
    rcases reads_head hr with rfl | ⟨z, hz, hy⟩
    · left; simp
    · right
      rw [takes_det hz (.skipped w _)] at hy
      exact hy
  | cons b d ih =>
    rcases reads_head hr with rfl | ⟨z, hz, hy⟩
    · left; simp
    · rw [takes_det hz (.skip w _ _ _)] at hy
      exact ih hy

theorem serve_path {g : Engine E} {w w2 : World E} {r : Req} (hn : 10 ∉ r.raw) (ht : Text r.raw r.line)
    (e : serve g w r = some w2) (rest : List Nat) :
    Reads (handler g) (w, .cmd, r.wire ++ rest) (w2, .cmd, rest) ∧
      ∀ y, Reads (handler g) (w, .cmd, r.wire ++ rest) y →
        y = (w, .cmd, r.wire ++ rest) ∨ y.2.1 ≠ .cmd ∨ Reads (handler g) (w2, .cmd, rest) y := by
  have hw : r.wire ++ rest = r.raw ++ 10 :: (r.data ++ rest) := by simp [Req.wire]
  rw [hw]
  unfold serve at e
  cases hl : onLine g w r.line with
  | none => rw [hl] at e; cases e
  | some p =>
    obtain ⟨w', nx⟩ := p
    rw [hl] at e
    have ht1 : Proper nx → Takes (handler g) (w, .cmd, r.raw ++ 10 :: (r.data ++ rest)) (w', At.of nx, r.data ++ rest) :=
      fun hp => .line _ _ _ _ _ _ hn ht hl hp
    cases nx with
    | cmd =>
      simp only at e
      split at e
      · rename_i hd
        cases e
        have ht1 := ht1 trivial
        rw [hd] at ht1 ⊢
        refine ⟨.tail (.refl _) ht1, fun y hy => ?_⟩
        rcases reads_head hy with rfl | ⟨z, hz, hy⟩
        · exact .inl rfl
        · right; right
          rw [takes_det hz ht1] at hy; exact hy
      · cases e
    | nread n =>
      simp only at e
      split at e
      · rename_i hd
        have ht1 := ht1 trivial
        subst hd
        have ht2 : Takes (handler g) (w', .want r.data.length, r.data ++ rest) (w2, .cmd, rest) := .data _ _ _ _ e
        refine ⟨.tail (.tail (.refl _) ht1) ht2, fun y hy => ?_⟩
        rcases reads_head hy with rfl | ⟨z, hz, hy⟩
        · exact .inl rfl
        · rw [takes_det hz ht1] at hy
          rcases reads_head hy with rfl | ⟨z, hz, hy⟩
          · right; left; simp [At.of]
          · right; right
            rw [takes_det hz ht2] at hy; exact hy
      · cases e
    | swallow n =>
      simp only at e
      split at e
      · rename_i hd
        cases e
        have ht1 := ht1 (by unfold Proper; simp only [hd]; omega)
        subst hd
        have hat : At.of (.swallow ((r.data.length : Nat) : Int)) = .skip r.data.length := by simp [At.of]
        rw [hat] at ht1
        refine ⟨?_, fun y hy => ?_⟩
        · have h1 : Reads (handler g) (w, .cmd, r.raw ++ 10 :: (r.data ++ rest)) (w2, .skip r.data.length, r.data ++ rest) :=
            .tail (.refl _) ht1
          have h2 := reads_skip (Nat.le_refl _) h1
          rw [Nat.sub_self] at h2
          exact .tail h2 (.skipped _ _)
        · rcases reads_head hy with rfl | ⟨z, hz, hy⟩
          · exact .inl rfl
          · rw [takes_det hz ht1] at hy
            right; exact reads_skip_only hy
      · cases e
    | close => simp at e

theorem serveAll_path {g : Engine E} {w w' : World E} {rs : List Req} (hn : ∀ r ∈ rs, 10 ∉ r.raw ∧ Text r.raw r.line)
    (e : serveAll g w rs = some w') :
    Reads (handler g) (w, .cmd, wires rs) (w', .cmd, []) ∧
      ∀ w1 rest, Reads (handler g) (w, .cmd, wires rs) (w1, .cmd, rest) → ∃ rs', rs' <:+ rs ∧ rest = wires rs' := by
  induction rs generalizing w with
  | nil =>
    cases e
    refine ⟨.refl _, fun w1 rest hr => ?_⟩
    rcases reads_head hr with h | ⟨z, hz, _⟩
    · cases h; exact ⟨[], List.suffix_refl _, rfl⟩
    · exact absurd (takes_not_spent hz) (by simp [wires, Spent])
  | cons r rs ih =>
    simp only [serveAll] at e
    cases h1 : serve g w r with
    | none => rw [h1] at e; cases e
    | some w2 =>
      rw [h1] at e
      obtain ⟨ha, hb⟩ := hn r (by simp)
      obtain ⟨h2, h3⟩ := serve_path ha hb h1 (wires rs)
      obtain ⟨h4, h5⟩ := ih (fun r hr => hn r (by simp [hr])) e
      have hw : wires (r :: rs) = r.wire ++ wires rs := by simp [wires]
      rw [hw]
      refine ⟨reads_trans h2 h4, fun w1 rest hr => ?_⟩
      rcases h3 _ hr with h | h | h
      · cases h; exact ⟨r :: rs, List.suffix_refl _, hw.symm⟩
      · exact absurd rfl h
      · obtain ⟨rs', hs, he⟩ := h5 w1 rest h
        exact ⟨rs', hs.trans (List.suffix_cons _ _), he⟩

theorem prefix_line {p raw rest : List Nat} (hp : p <+: raw ++ 10 :: rest) (hn : 10 ∉ p) : p.length ≤ raw.length := by
  obtain ⟨t, ht⟩ := hp
  induction raw generalizing p with
  | nil =>
    cases p with
    | nil => simp
    | cons x p => simp at ht hn; exact absurd ht.1.symm hn.1
  | cons b raw ih =>
    cases p with
    | nil => simp
    | cons x p =>
      simp at ht hn ⊢
      exact ih hn.2 ht.2

/-- The stream of requests that are all served: the three conditions of the theorems about the reading of a stream. -/
theorem served_stream {g : Engine E} {w w' : World E} {rs : List Req}
    (hn : ∀ r ∈ rs, 10 ∉ r.raw ∧ Text r.raw r.line ∧ r.raw.length ≤ 1024) (e : serveAll g w rs = some w') :
    Sound (handler g) w (wires rs) ∧ Modest (handler g) w (wires rs) ∧ Serves (handler g) w (wires rs) w' := by
  obtain ⟨h1, h2⟩ := serveAll_path (fun r hr => ⟨(hn r hr).1, (hn r hr).2.1⟩) e
  have hsp : Spent .cmd [] := by simp [Spent]
  refine ⟨?_, ?_, ⟨_, _, h1, hsp⟩⟩
  · intro w1 a rest hr
    have := reads_spent h1 hsp hr
    rcases reads_head this with h | ⟨z, hz, _⟩
    · cases h; exact .inl hsp
    · exact .inr ⟨z, hz⟩
  · intro w1 rest hr p hp hnp hx
    obtain ⟨rs', hs, rfl⟩ := h2 w1 rest hr
    have : p.length ≤ 1024 := by
      cases rs' with
      | nil =>
        have := List.IsPrefix.length_le hp
        simp only [wires, List.flatMap_nil, List.length_nil] at this; omega
      | cons r rs' =>
        have hw : wires (r :: rs') = r.raw ++ 10 :: (r.data ++ wires rs') := by simp [wires, Req.wire]
        rw [hw] at hp
        have := prefix_line hp hnp
        have := (hn r (hs.subset (by simp))).2.2
        omega
    exact absurd hx.1 (by omega)

end Verif.Conn
