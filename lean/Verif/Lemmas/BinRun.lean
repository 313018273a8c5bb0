import Verif.Lemmas.Bin

/-! Helper lemmas about runs of a connection that speaks the binary protocol: where it stands in the stream. -/

namespace Verif.Bin

open Spec

theorem byteAt_take (b : Bytes) (m i : Nat) : byteAt (b.take m) i = byteAt b i ∨ byteAt (b.take m) i = 0 := by
  unfold byteAt slice
  by_cases h : i < m
  · left
    rw [List.drop_take, List.take_take]
    congr 2
    omega
  · right
    rw [List.drop_take, show m - i = 0 by omega]
    simp [be]

theorem slice_arrived_take (inp : Bytes) (n p i x : Nat) :
    slice ((inp.take n).drop p) i x = (slice inp (p + i) x).take (n - (p + i)) := by
  unfold slice
  rw [List.drop_drop, List.drop_take, List.take_take, List.take_take, Nat.min_comm]

/-- What is kept during a run. -/
def FrameInv {σ : Type} (inp : Bytes) (c : Conn σ) (p : Nat) (tr : List (Nat × Ev)) : Prop :=
  (∀ q h rs nx, (q, Ev.req h rs nx) ∈ tr → Boundary inp q) ∧
  (c.closed = false → Boundary inp (p + c.sw) ∧ ∀ b, Boundary inp b → b < p + c.sw → ∃ h rs nx, (b, Ev.req h rs nx) ∈ tr)

theorem frameInv_run {σ : Type} {e : Engine σ} {g : Cfg} {inp : Bytes} {s0 : σ} {c : Conn σ} {p : Nat} {tr : List (Nat × Ev)}
    (he : NoEnotsup e) (hcl : Clean inp) (hr : Run e g inp s0 c p tr) : FrameInv inp c p tr := by
  induction hr with
  | start => exact ⟨by simp, fun _ => ⟨.start, fun b _ hb => by simp at hb⟩⟩
  | @step c c' p used n tr deny ev _ hs ih =>
    unfold Bin.step at hs
    split at hs
    · simp at hs
    · rename_i hclosed
      have hcf : c.closed = false := by simpa using hclosed
      obtain ⟨hB, hAll⟩ := ih.2 hcf
      split at hs
      · rename_i hsw
        split at hs
        · simp at hs
        · simp only [CRes.next.injEq] at hs
          obtain ⟨h1, h2, h3⟩ := hs
          subst h1; subst h2; subst h3
          generalize hm : min c.sw ((inp.take n).drop p).length = m
          have hle : m ≤ c.sw := by omega
          have heq : p + m + (c.sw - m) = p + c.sw := by omega
          refine ⟨?_, fun _ => ?_⟩
          · intro q h rs nx hmem
            simp at hmem
            exact ih.1 q h rs nx hmem
          · simp only [heq]
            refine ⟨hB, fun b hb hlt => ?_⟩
            obtain ⟨h, rs, nx, hm'⟩ := hAll b hb hlt
            exact ⟨h, rs, nx, by simp [hm']⟩
      · rename_i hsw
        have hsw0 : c.sw = 0 := by omega
        rw [hsw0, Nat.add_zero] at hB hAll
        split at hs
        · simp at hs
        · rename_i hlen
          split at hs
          · simp only [CRes.next.injEq] at hs
            obtain ⟨h1, h2, h3⟩ := hs
            subst h1; subst h2; subst h3
            refine ⟨?_, fun hh => by simp at hh⟩
            intro q h rs nx hmem
            simp at hmem
            exact ih.1 q h rs nx hmem
          · have hlen' : hdrLen ≤ ((inp.take n).drop p).length := by omega
            have hh := hdrOf_arrived inp n p hlen'
            have hpl : p + 24 ≤ inp.length := by
              simp only [hdrLen, List.length_drop, List.length_take] at hlen'; omega
            obtain ⟨c1, c2, c3⟩ := hcl p hB hpl
            have hw : Whole (hdrOf ((inp.take n).drop p)) (handle e g deny c.eng ((inp.take n).drop p)) := by
              apply whole_handle he
              · rw [hh]; exact c1
              · rw [hh]; exact c2
              · rw [hh]
                intro hop
                have := c3 hop
                rw [slice_arrived_take]
                rcases byteAt_take (slice inp (p + hdrLen) (hdrOf (inp.drop p)).extlen) (n - (p + hdrLen)) 66 with h | h
                · rw [h]; exact this
                · exact h
            revert hs hw
            cases handle e g deny c.eng ((inp.take n).drop p) with
            | wait => intro hs; simp at hs
            | fault => intro hs; simp at hs
            | done o =>
              intro hs hw
              simp only [CRes.next.injEq] at hs
              obtain ⟨h1, h2, h3⟩ := hs
              subst h1; subst h2; subst h3
              refine ⟨?_, fun hc => ?_⟩
              · intro q h rs nx hmem
                rcases List.mem_append.1 hmem with hm | hm
                · exact ih.1 q h rs nx hm
                · simp at hm
                  rw [hm.1]; exact hB
              · have hne : o.next ≠ .closing := by simpa using hc
                have hsum : o.used + o.next.sw = 24 + bodyAt inp p := by
                  rcases hw with hw | hw
                  · exact absurd hw hne
                  · rw [hw, hh, bodyAt_eq]; rfl
                have hpos : p + o.used + o.next.sw = p + 24 + bodyAt inp p := by omega
                simp only [hpos]
                refine ⟨.next hB hpl, fun b hb hlt => ?_⟩
                by_cases h1 : b < p
                · obtain ⟨h, rs, nx, hm'⟩ := hAll b hb h1
                  exact ⟨h, rs, nx, by simp [hm']⟩
                · by_cases h2 : b = p
                  · subst h2
                    exact ⟨_, _, _, List.mem_append_right _ (List.mem_singleton.2 rfl)⟩
                  · have := boundary_chain hB hb hpl (by omega)
                    omega

end Verif.Bin
