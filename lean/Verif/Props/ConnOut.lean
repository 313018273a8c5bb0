import Verif.Lemmas.ConnUdp
/-
C66 and C68: what the server sends is the responses.
-/

namespace Verif.ConnOut.Props
open Verif.ConnOut.Spec

theorem fit_new (udp : Bool) (id : Nat) : Fit (Out.new udp id) :=
  ⟨by show 0 < (List.replicate 400 (Frag.bytes [])).length; rw [List.length_replicate]; omega, by show 0 < 10; omega⟩

/-- C66: over TCP, whatever pieces the responses have and however much of them `sendmsg` takes at a time, what the client receives is a beginning of
the bytes of the responses in order, and all of them if the server thinks so; no list is left or pointer used that is not good any more. -/
theorem C66 (id : Nat) (l : List (List (List Nat) × List Res)) :
    ∃ w st, responses (Out.new false id) l = some (w, st) ∧ w.flatten <+: bytesOf l ∧ (st = .complete → w.flatten = bytesOf l) := by
  obtain ⟨w, st, h1, h2, h3, _⟩ := responses_tcp l (fit_new false id) rfl
  exact ⟨w, st, h1, h2, h3⟩

/-- C66: if writing goes on and never fails, all is sent; that no piece is empty is needed, as a message of empty pieces only is taken for a
failure. -/
theorem C66_ends (id : Nat) (l : List (List (List Nat) × List Res)) (h : ∀ x ∈ l, (∀ b ∈ x.1, b ≠ []) ∧ Willing x.1 x.2) :
    ∃ w, responses (Out.new false id) l = some (w, .complete) ∧ w.flatten = bytesOf l := by
  obtain ⟨w, st, h1, h2, h3, h4⟩ := responses_tcp l (fit_new false id) rfl
  have := h4 h
  subst this
  exact ⟨w, h1, h3 rfl⟩

/-- A case: three pieces, and writes that end in the middle of pieces, then a second response. -/
example : (∀ x ∈ [([[1, 2, 3], [4], [5, 6]], [Res.wrote 2, .again, .wrote 2, .wrote 1, .wrote 1, .wrote 9, .wrote 9, .wrote 9]),
      ([[7]], [.again, .wrote 5, .wrote 5])], (∀ b ∈ x.1, b ≠ []) ∧ Willing x.1 x.2) ∧
    responses (Out.new false 0) [([[1, 2, 3], [4], [5, 6]], [Res.wrote 2, .again, .wrote 2, .wrote 1, .wrote 1, .wrote 9, .wrote 9, .wrote 9]),
      ([[7]], [.again, .wrote 5, .wrote 5])] = some ([[1, 2], [3, 4], [5], [6], [7]], .complete) := by
  constructor
  · intro x hx
    simp only [List.mem_cons, List.not_mem_nil, or_false] at hx
    rcases hx with rfl | rfl
    · exact ⟨by decide, by decide, by decide⟩
    · exact ⟨by decide, by decide, by decide⟩
  · decide +kernel

/-- A response of 1100 pieces, more than fit into a message or into the first list of pieces, and writes of at most three bytes. -/
example : ∃ w, responses (Out.new false 0) [(List.replicate 1100 [7, 8], List.replicate 2201 (.wrote 3))] = some (w, .complete) ∧
    w.flatten = bytesOf [(List.replicate 1100 [7, 8], List.replicate 2201 (.wrote 3))] := by
  refine C66_ends 0 _ fun x hx => ?_
  rw [List.mem_singleton] at hx
  subst hx
  refine ⟨fun b hb => ?_, fun r hr => ?_, ?_⟩
  · rw [List.eq_of_mem_replicate hb]; simp
  · rw [List.eq_of_mem_replicate hr]; simp
  · have : ∀ k, writes (List.replicate k (.wrote 3)) = k := by
      intro k
      induction k with
      | zero => rfl
      | succ k ih => rw [List.replicate_succ]; simp [writes, ih]; omega
    rw [this, List.length_flatten, List.map_replicate, List.sum_replicate_nat]
    decide

/-- C68: over UDP, whatever pieces the response has, there are packets of at most 1400 bytes that are numbered from 0 with the number of all of
them and, put together, give the response; the server sends these and no others, in order, each one once, and all of them if it thinks so. If
writing goes on and never fails, all are sent. -/
theorem C68 (id : Nat) (bs : List (List Nat)) (rs : List Res) :
    ∃ o w st all, respond (Out.new true id) bs rs = some (o, w, st) ∧ Packets id bs.flatten all ∧ w <+: all ∧ (st = .complete → w = all) ∧
      ((∀ r ∈ rs, r ≠ .fails ∧ r ≠ .wrote 0) → all.length < writes rs → st = .complete) :=
  respond_udp (fit_new true id) rfl bs rs

/-- A case: 3000 bytes in three pieces make three packets. -/
example : ((respond (Out.new true 258) [List.replicate 1000 7, List.replicate 1500 8, List.replicate 500 9] [.wrote 1, .again, .wrote 1, .wrote 1, .wrote 1]).map
    fun x => (x.2.1.map fun p => (p.take 8, p.length), x.2.2)) =
      some ([([1, 2, 0, 0, 0, 3, 0, 0], 1400), ([1, 2, 0, 1, 0, 3, 0, 0], 1400), ([1, 2, 0, 2, 0, 3, 0, 0], 224)], .complete) := by decide +kernel

end Verif.ConnOut.Props
