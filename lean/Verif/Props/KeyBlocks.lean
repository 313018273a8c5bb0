import Verif.Lemmas.KeyFeed

/-!
# Lists of keys in memory blocks: C56, C57, C58
-/
namespace Verif.Keys.Props
open Verif.Keys Spec

/-- A setting: sizes as the server uses them (32760, and 16000 or 250), enough blocks for the request, all blocks of one size, and a request
that has arrived in packets; what follows it in the last packet belongs to the next command. -/
structure Setting (bl keycnt maxk : Nat) (junk fresh : Mem) (packets : List (List Nat)) (body : List Nat) : Prop where
  size : maxk + 2 < bl
  some : 0 < keycnt
  blocks : ∀ x ∈ junk, x.length = bl
  spare : ∀ x ∈ fresh, x.length = bl
  enough : (body.length - 1) / bl + 1 ≤ junk.length
  long : 2 < body.length
  arrived : packets.flatten.take body.length = body

theorem Setting.done {bl keycnt maxk : Nat} {junk fresh : Mem} {packets : List (List Nat)} {body : List Nat}
    (h : Setting bl keycnt maxk junk fresh packets body) (compat : Bool) :
    Done bl compat body keycnt maxk fresh.length (request bl body.length keycnt maxk compat junk fresh packets) :=
  Keys.done h.size h.some compat h.blocks h.spare h.enough h.long rfl h.arrived

theorem valid_border {bl d keycnt maxk : Nat} {str : List Nat} (h : Valid d str keycnt maxk) : ¬ Border bl d str keycnt := by
  rintro ⟨a, b, hs, hc, _⟩
  have := h.count
  rw [hs, pieces_delim, List.length_append] at this
  have h1 : 0 < (pieces d b).length := List.length_pos_iff.mpr (pieces_ne _ _)
  omega

theorem valid_lone {bl d keycnt maxk : Nat} {str : List Nat} (h : Valid d str keycnt maxk) : ¬ Lone bl d str := by
  rintro ⟨a, hs, _, _⟩
  apply (h.each [] ?_).1 rfl
  rw [hs, pieces_delim]
  simp [pieces]

theorem ends_unique {body s t : List Nat} (h : Spec.Ends body s) (h' : Spec.Ends body t) : s = t := by
  unfold Spec.Ends at h h'
  rw [h] at h'
  exact List.append_cancel_right h'

/-- **C56.**  A well-formed list of keys is understood, whatever the packets it arrived in, whatever the borders of memory blocks that fall into
it, and whatever the blocks held before: the keys found are the keys sent, in order, byte for byte.  The only other answer is that memory is
short, and only if the list needs more than one block and the pool cannot give two more blocks for every block of the list after the first. -/
theorem C56 {bl keycnt maxk : Nat} {compat : Bool} {junk fresh : Mem} {packets : List (List Nat)} {body : List Nat} {ks : List (List Nat)}
    (h : Setting bl keycnt maxk junk fresh packets body) (hk : Spec.Keys compat body keycnt maxk ks) :
    request bl body.length keycnt maxk compat junk fresh packets = some (.ok ks) ∨
      (request bl body.length keycnt maxk compat junk fresh packets = some .nomem ∧ bl + 2 < body.length ∧
        fresh.length < 2 * ((body.length - 3) / bl)) := by
  have hd := h.done compat
  obtain ⟨str, he, hv⟩ := hk
  cases hr : request bl body.length keycnt maxk compat junk fresh packets with
  | none =>
    exfalso
    rw [hr] at hd
    obtain ⟨str', he', hl⟩ := hd
    rw [← ends_unique he he'] at hl
    rcases hv with ⟨hv, _⟩ | ⟨_, hn, hv, _⟩
    · rcases hl with hl | ⟨_, hn, _⟩
      · exact valid_lone hv hl
      · exact hn hv
    · rcases hl with ⟨a, hs, _⟩ | ⟨_, _, hl⟩
      · exact no_space hv (by rw [hs]; simp)
      · exact valid_lone hv hl
  | some out =>
    rw [hr] at hd
    cases out with
    | bad =>
      exfalso
      obtain ⟨h1, h2⟩ := hd str he
      rcases hv with ⟨hv, _⟩ | ⟨hc, _, hv, _⟩
      · exact h1 hv
      · exact h2 hc hv
    | nomem => exact Or.inr ⟨rfl, hd⟩
    | ok vs =>
      left
      congr 2
      obtain ⟨str', he', hd⟩ := hd
      rw [← ends_unique he he'] at hd
      rcases hv with ⟨hv, hks⟩ | ⟨_, hn, hv, hks⟩
      · rcases hd with ⟨_, hd⟩ | ⟨hb, _⟩ | ⟨_, hn, _⟩
        · rw [hd, hks]
        · exact absurd hb (valid_border hv)
        · exact absurd hv hn
      · rcases hd with ⟨hd, _⟩ | ⟨⟨a, b, hs, _⟩, _⟩ | ⟨_, _, hd⟩
        · exact absurd hd hn
        · exact absurd (by rw [hs]; simp) (no_space hv)
        · rcases hd with ⟨_, hd⟩ | ⟨hb, _⟩
          · rw [hd, hks]
          · exact absurd hb (valid_border hv)

/-- **C57 (partial).**  Only well-formed lists are served: nothing is looked up for a list with an empty key, a key that is too long, another
number of keys than promised or another end of line.  Missing: lists in which the keys promised end at the border of a block and more follows
(`C57_false`). -/
theorem C57_partial {bl keycnt maxk : Nat} {compat : Bool} {junk fresh : Mem} {packets : List (List Nat)} {body : List Nat} {ks : List (List Nat)}
    (h : Setting bl keycnt maxk junk fresh packets body)
    (hb : ∀ str, Spec.Ends body str → ¬ Border bl 32 str keycnt ∧ (compat = true → ¬ Border bl 44 str keycnt))
    (hr : request bl body.length keycnt maxk compat junk fresh packets = some (.ok ks)) : Spec.Keys compat body keycnt maxk ks := by
  have hd := h.done compat
  rw [hr] at hd
  obtain ⟨str, he, hd⟩ := hd
  obtain ⟨b1, b2⟩ := hb str he
  refine ⟨str, he, ?_⟩
  rcases hd with hd | ⟨hd, _⟩ | ⟨hc, hn, hd⟩
  · exact Or.inl hd
  · exact absurd hd b1
  · rcases hd with hd | ⟨hd, _⟩
    · exact Or.inr ⟨hc, hn, hd⟩
    · exact absurd hd (b2 hc)

/-- Whatever is served are the first keys of the list, as many as promised. -/
theorem C57_first {bl keycnt maxk : Nat} {compat : Bool} {junk fresh : Mem} {packets : List (List Nat)} {body : List Nat} {ks : List (List Nat)}
    (h : Setting bl keycnt maxk junk fresh packets body)
    (hr : request bl body.length keycnt maxk compat junk fresh packets = some (.ok ks)) :
    ∃ str, Spec.Ends body str ∧ (ks = (pieces 32 str).take keycnt ∨ (compat = true ∧ ks = (pieces 44 str).take keycnt)) := by
  have hd := h.done compat
  rw [hr] at hd
  obtain ⟨str, he, hd⟩ := hd
  refine ⟨str, he, ?_⟩
  have hall : ∀ d, Valid d str keycnt maxk → pieces d str = (pieces d str).take keycnt := by
    intro d hv
    exact (List.take_of_length_le (by rw [hv.count]; exact Nat.le_refl _)).symm
  rcases hd with ⟨hv, hd⟩ | ⟨_, hd⟩ | ⟨hc, _, ⟨hv, hd⟩ | ⟨_, hd⟩⟩
  · left; rw [hd]; exact hall 32 hv
  · exact Or.inl hd
  · right; refine ⟨hc, ?_⟩; rw [hd]; exact hall 44 hv
  · exact Or.inr ⟨hc, hd⟩

/-- **C58 (partial).**  No list of keys makes the server stop or read outside of its blocks.  Missing: lists whose last block holds nothing but a
delimiter (`C58_false`). -/
theorem C58_partial {bl keycnt maxk : Nat} {compat : Bool} {junk fresh : Mem} {packets : List (List Nat)} {body : List Nat}
    (h : Setting bl keycnt maxk junk fresh packets body)
    (hl : ∀ str, Spec.Ends body str → ¬ Lone bl 32 str ∧ (compat = true → ¬ Lone bl 44 str)) :
    request bl body.length keycnt maxk compat junk fresh packets ≠ none := by
  intro hr
  have hd := h.done compat
  rw [hr] at hd
  obtain ⟨str, he, hd⟩ := hd
  obtain ⟨b1, b2⟩ := hl str he
  rcases hd with hd | ⟨hc, _, hd⟩
  · exact b1 hd
  · exact b2 hc hd

/-- Four blocks of eight bytes, with old bytes in them. -/
def four : Mem := [[1, 2, 3, 4, 5, 6, 7, 8], [9, 32, 44, 32, 44, 32, 13, 10], List.replicate 8 32, List.replicate 8 7]

/-- `aaaaa bbbbb c`, in two packets, the second one with the beginning of the next command: the second key crosses a border. -/
def crossing : List (List Nat) := [[97, 97, 97, 97, 97, 32, 98], [98, 98, 98, 98, 32, 99, 13, 10, 103, 101]]

/-- The case of `C56`: the key is put together. -/
example : Setting 8 3 5 four four crossing (crossing.flatten.take 15) ∧
    Spec.Keys false (crossing.flatten.take 15) 3 5 [[97, 97, 97, 97, 97], [98, 98, 98, 98, 98], [99]] ∧
    request 8 15 3 5 false four four crossing = some (.ok [[97, 97, 97, 97, 97], [98, 98, 98, 98, 98], [99]]) := by
  refine ⟨⟨by decide, by decide, by decide, by decide, by decide, by decide, by decide⟩, ?_, by decide +kernel⟩
  exact ⟨[97, 97, 97, 97, 97, 32, 98, 98, 98, 98, 98, 32, 99], rfl, Or.inl ⟨⟨by decide, by decide⟩, by decide⟩⟩

/-- The other answer of `C56` occurs. -/
example : request 8 15 3 5 false four [] crossing = some .nomem := by decide +kernel

/-- The case of `C57_partial` and `C58_partial` with commas. -/
example : Setting 8 2 5 four [] [[97, 44, 98, 13, 10]] [97, 44, 98, 13, 10] ∧
    request 8 5 2 5 true four [] [[97, 44, 98, 13, 10]] = some (.ok [[97], [98]]) ∧
    (∀ str, Spec.Ends [97, 44, 98, 13, 10] str → ¬ Border 8 32 str 2 ∧ ¬ Border 8 44 str 2 ∧ ¬ Lone 8 32 str ∧ ¬ Lone 8 44 str) := by
  refine ⟨⟨by decide, by decide, by decide, by decide, by decide, by decide, by decide⟩, by decide +kernel, ?_⟩
  intro str he
  have : str = [97, 44, 98] := ends_unique he rfl
  subst this
  have hb : ∀ d, ¬ Border 8 d [97, 44, 98] 2 := by
    rintro d ⟨a, b, hs, _, hm⟩
    have := congrArg List.length hs
    simp at this
    rcases hm with hm | ⟨hm, hne⟩
    · omega
    · have : 0 < a.length := List.length_pos_iff.mpr hne
      omega
  have hl : ∀ d, ¬ Lone 8 d [97, 44, 98] := by
    rintro d ⟨a, hs, _, hm⟩
    have := congrArg List.length hs
    simp at this
    omega
  exact ⟨hb 32, hb 44, hl 32, hl 44⟩

/-- **C57 is false.**  `aaaaa b cc` with two keys promised: the second one ends where the block ends, and the third one is ignored; with blocks of
another size the list is refused. -/
theorem C57_false :
    Setting 8 2 5 four four [[97, 97, 97, 97, 97, 32, 98, 32, 99, 99, 13, 10]] [97, 97, 97, 97, 97, 32, 98, 32, 99, 99, 13, 10] ∧
    request 8 12 2 5 false four four [[97, 97, 97, 97, 97, 32, 98, 32, 99, 99, 13, 10]] = some (.ok [[97, 97, 97, 97, 97], [98]]) ∧
    ¬ Spec.Keys false [97, 97, 97, 97, 97, 32, 98, 32, 99, 99, 13, 10] 2 5 [[97, 97, 97, 97, 97], [98]] ∧
    request 9 12 2 5 false (four.map (0 :: ·)) [] [[97, 97, 97, 97, 97, 32, 98, 32, 99, 99, 13, 10]] = some .bad := by
  refine ⟨⟨by decide, by decide, by decide, by decide, by decide, by decide, by decide⟩, by decide +kernel, ?_, by decide +kernel⟩
  rintro ⟨str, he, hv⟩
  have : str = [97, 97, 97, 97, 97, 32, 98, 32, 99, 99] := ends_unique he rfl
  subst this
  rcases hv with ⟨hv, _⟩ | ⟨hc, _⟩
  · have := hv.count
    revert this
    decide
  · cases hc

/-- **C58 is false.**  `aaaaa bb `, three keys promised: the last block holds one space, it is taken for the delimiter behind the second key, and
the third key is looked for in a part of no bytes: the assertion of `tokenize_mblck` fails. -/
theorem C58_false :
    Setting 8 3 5 four four [[97, 97, 97, 97, 97, 32, 98, 98, 32, 13, 10]] [97, 97, 97, 97, 97, 32, 98, 98, 32, 13, 10] ∧
    request 8 11 3 5 false four four [[97, 97, 97, 97, 97, 32, 98, 98, 32, 13, 10]] = none := by
  refine ⟨⟨by decide, by decide, by decide, by decide, by decide, by decide, by decide⟩, by decide +kernel⟩

end Verif.Keys.Props
