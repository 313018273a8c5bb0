import Verif.Spec.ConnOut
/-
Building a response: the messages lie one after the other in the list of pieces.
-/

namespace Verif.ConnOut

/-- The messages of the allocation `g` lie one after the other, from entry `n` to entry `k`. -/
def Chain (g : Nat) : Nat → List Msg → Nat → Prop
  | n, [], k => n = k
  | n, m :: ms, k => m.gen = g ∧ m.start = n ∧ Chain g (n + m.len) ms k

theorem chain_repoint {g g' : Nat} (ms : List Msg) {n k : Nat} (h : Chain g n ms k) : Chain g' n (repoint g' n ms) k := by
  induction ms generalizing n with
  | nil => exact h
  | cons m ms ih => exact ⟨rfl, rfl, ih h.2.2⟩

theorem repoint_lens (g : Nat) (ms : List Msg) (n : Nat) : (repoint g n ms).map Msg.len = ms.map Msg.len := by
  induction ms generalizing n with
  | nil => rfl
  | cons m ms ih => simp [repoint, ih]

theorem chain_concat {g : Nat} (ms : List Msg) {m : Msg} {n k : Nat} :
    Chain g n (ms ++ [m]) k ↔ Chain g n ms m.start ∧ m.gen = g ∧ m.start + m.len = k := by
  induction ms generalizing n with
  | nil =>
    simp only [List.nil_append, Chain]
    constructor
    · rintro ⟨a, b, c⟩; exact ⟨b.symm, a, by omega⟩
    · rintro ⟨a, b, c⟩; exact ⟨b, a.symm, by omega⟩
  | cons x ms ih =>
    simp only [List.cons_append, Chain, ih]
    constructor
    · rintro ⟨a, b, c, d⟩; exact ⟨⟨a, b, c⟩, d⟩
    · rintro ⟨⟨a, b, c⟩, d⟩; exact ⟨a, b, c, d⟩

theorem map_len_concat (ms : List Msg) (gs : List (List Frag)) (g : List Frag) (h : ms.map Msg.len = (gs ++ [g]).map List.length) :
    ∃ ms' m, ms = ms' ++ [m] ∧ ms'.map Msg.len = gs.map List.length ∧ m.len = g.length := by
  have hne : ms ≠ [] := by rintro rfl; simp at h
  have e := List.dropLast_concat_getLast hne
  rw [← e] at h
  simp only [List.map_append, List.map_cons, List.map_nil] at h
  have h' := List.append_inj' h (by simp)
  exact ⟨_, _, e.symm, h'.1, by simpa using h'.2⟩

/-- The response under construction: the pieces `gs`, message by message. -/
structure Built (o : Out) (gs : List (List Frag)) : Prop where
  chain : Chain o.gen 0 o.msgs o.iovused
  lens : o.msgs.map Msg.len = gs.map List.length
  used : o.iovused ≤ o.iov.length
  frags : o.iov.take o.iovused = gs.flatten
  room : 0 < o.iov.length
  size : o.msgs.length ≤ o.msgsize
  pos : 0 < o.msgsize

theorem ensure_built {o : Out} {gs : List (List Frag)} (h : Built o gs) :
    Built (ensureSpace o) gs ∧ (ensureSpace o).iovused < (ensureSpace o).iov.length ∧ (ensureSpace o).msgbytes = o.msgbytes ∧
      (ensureSpace o).udp = o.udp ∧ (ensureSpace o).id = o.id ∧ (ensureSpace o).msgcurr = o.msgcurr := by
  unfold ensureSpace
  have hr := h.room
  have hu := h.used
  by_cases hc : o.iov.length ≤ o.iovused
  · rw [if_pos hc]
    refine ⟨⟨chain_repoint _ h.chain, ?_, ?_, ?_, ?_, ?_, h.pos⟩, ?_, rfl, rfl, rfl, rfl⟩
    · simp only [repoint_lens]; exact h.lens
    · simp only [List.length_append]; omega
    · simp only [List.take_append_of_le_length hu]; exact h.frags
    · simp only [List.length_append]; omega
    · have := congrArg List.length (repoint_lens (o.gen + 1) o.msgs 0)
      simp only [List.length_map] at this
      simp only [this]; exact h.size
    · simp only [List.length_append, List.length_replicate]; omega
  · rw [if_neg hc]
    exact ⟨h, by omega, rfl, rfl, rfl, rfl⟩

theorem put_built {o : Out} {gs : List (List Frag)} {g : List Frag} (h : Built o (gs ++ [g])) (f : Frag) :
    ∃ o', put o f = some o' ∧ Built o' (gs ++ [g ++ [f]]) ∧ o'.msgbytes = o.msgbytes + f.len ∧ o'.udp = o.udp ∧ o'.id = o.id ∧
      o'.msgcurr = o.msgcurr := by
  obtain ⟨h1, h2, h3, h4, h5, h6⟩ := ensure_built h
  unfold put
  simp only
  generalize ensureSpace o = o1 at h1 h2 h3 h4 h5 h6
  obtain ⟨ms, m, hms, hl, hm⟩ := map_len_concat _ _ _ h1.lens
  have hc := h1.chain
  rw [hms, chain_concat] at hc
  obtain ⟨c1, c2, c3⟩ := hc
  have e1 : o1.msgs.getLast? = some m := by rw [hms]; simp
  rw [e1]
  simp only
  rw [if_neg (by omega)]
  refine ⟨_, rfl, ⟨?_, ?_, ?_, ?_, ?_, ?_, h1.pos⟩, ?_, h4, h5, h6⟩
  · simp only [hms, List.dropLast_concat]
    rw [chain_concat]
    exact ⟨c1, c2, by simp only; omega⟩
  · simp only [hms, List.dropLast_concat]
    simp [hl, hm]
  · simp only [List.length_set]; omega
  · have ht := h1.frags
    simp only [c3]
    rw [List.take_add_one, List.getElem?_set_self h2, Option.toList_some]
    rw [List.take_set_of_le (Nat.le_refl _), ht]
    simp
  · simp only [List.length_set]; exact h1.room
  · have := h1.size
    simp only [hms, List.dropLast_concat, List.length_append, List.length_cons, List.length_nil] at this ⊢
    omega
  · simp only [h3]

/-- The state before a response. -/
structure Fit (o : Out) : Prop where
  room : 0 < o.iov.length
  pos : 0 < o.msgsize

/-- A new message, without its header. -/
def grown (o : Out) : Out :=
  { o with msgsize := if o.msgsize = o.msgs.length then o.msgsize * 2 else o.msgsize,
           msgs := o.msgs ++ [{ gen := o.gen, start := o.iovused, len := 0 }], msgbytes := 0 }

theorem grown_built {o : Out} {gs : List (List Frag)} (h : Built o gs) : Built (grown o) (gs ++ [[]]) := by
  have hs := h.size
  have hp := h.pos
  refine ⟨?_, ?_, h.used, ?_, h.room, ?_, ?_⟩
  · simp only [grown]; rw [chain_concat]; exact ⟨h.chain, rfl, rfl⟩
  · simp [grown, h.lens]
  · simpa [grown] using h.frags
  · simp only [grown, List.length_append, List.length_cons, List.length_nil]; split <;> omega
  · simp only [grown]; split <;> omega

theorem addMsg_eq {o : Out} (hs : o.msgs.length ≤ o.msgsize) (hp : 0 < o.msgsize) :
    addMsg o = if o.udp = true then put (grown o) .header else some (grown o) := by
  unfold addMsg grown
  by_cases hc : o.msgsize = o.msgs.length
  · simp only [if_pos hc]; rw [if_neg (by omega)]
  · simp only [if_neg hc]; rw [if_neg (by omega)]

theorem addMsg_built {o : Out} {gs : List (List Frag)} (h : Built o gs) :
    ∃ o', addMsg o = some o' ∧ Built o' (gs ++ [if o.udp = true then [.header] else []]) ∧ o'.msgbytes = (if o.udp = true then 8 else 0) ∧ o'.udp = o.udp ∧
      o'.id = o.id ∧ o'.msgcurr = o.msgcurr := by
  have hb := grown_built h
  rw [addMsg_eq h.size h.pos]
  by_cases hu : o.udp = true
  · simp only [if_pos hu]
    obtain ⟨o', p1, p2, p3, p4, p5, p6⟩ := put_built hb .header
    exact ⟨o', p1, by simpa using p2, by rw [p3]; rfl, p4, p5, p6⟩
  · simp only [if_neg hu]
    exact ⟨_, rfl, by simpa using hb, rfl, rfl, rfl, rfl⟩

theorem start_built {o : Out} (h : Fit o) :
    ∃ o', start o = some o' ∧ Built o' [if o.udp = true then [.header] else []] ∧ o'.msgbytes = (if o.udp = true then 8 else 0) ∧ o'.udp = o.udp ∧
      o'.id = o.id ∧ o'.msgcurr = 0 := by
  have hb : Built { o with msgcurr := 0, msgs := [], iovused := 0 } [] :=
    ⟨rfl, rfl, by simp, by simp, h.room, by simp, h.pos⟩
  have := addMsg_built hb
  simpa [start] using this

/-- The pieces of a response over TCP: at most `IOV_MAX` in a message, none without pieces except a single one. -/
structure Tcp (gs : List (List Frag)) (bs : List (List Nat)) : Prop where
  text : gs.flatten = bs.map .bytes
  full : gs = [[]] ∨ ∀ g ∈ gs, g ≠ []
  ne : gs ≠ []

theorem concat_of_ne {α : Type} (l : List α) (h : l ≠ []) : ∃ l' a, l = l' ++ [a] :=
  ⟨_, _, (List.dropLast_concat_getLast h).symm⟩

theorem addTcp_built {o : Out} {gs : List (List Frag)} {bs : List (List Nat)} (h : Built o gs) (hu : o.udp = false) (ht : Tcp gs bs) (b : List Nat) :
    ∃ o' gs', addTcp o b = some o' ∧ Built o' gs' ∧ Tcp gs' (bs ++ [b]) ∧ o'.udp = false ∧ o'.id = o.id ∧ o'.msgcurr = o.msgcurr := by
  obtain ⟨gs0, g, rfl⟩ := concat_of_ne gs ht.ne
  obtain ⟨ms, m, hms, hl, hm⟩ := map_len_concat _ _ _ h.lens
  have e1 : o.msgs.getLast? = some m := by rw [hms]; simp
  have htext := ht.text
  unfold addTcp
  rw [e1]
  simp only
  by_cases hf : m.len = iovMax
  · rw [if_pos hf]
    obtain ⟨o1, p1, p2, _, p4, p5, p6⟩ := addMsg_built h
    rw [hu] at p2 p4
    simp only [Bool.false_eq_true, if_false] at p2
    obtain ⟨o2, q1, q2, _, q4, q5, q6⟩ := put_built p2 (.bytes b)
    rw [p1, Option.bind_some, q1]
    refine ⟨o2, _, rfl, q2, ⟨?_, ?_, by simp⟩, by rw [q4, p4], by rw [q5, p5], by rw [q6, p6]⟩
    · simp only [List.flatten_append, List.nil_append] at htext ⊢
      rw [htext]; simp
    · right
      intro x hx
      simp only [List.mem_append, List.mem_singleton, List.nil_append] at hx
      rcases ht.full with h1 | h1
      · have h2 : g = [] := by
          have := congrArg List.getLast? h1
          simpa using this
        rw [h2] at hm
        simp [iovMax] at hf hm
        omega
      · rcases hx with hx | hx
        · exact h1 x (by simpa using hx)
        · rw [hx]; simp
  · rw [if_neg hf]
    obtain ⟨o2, q1, q2, _, q4, q5, q6⟩ := put_built h (.bytes b)
    rw [q1]
    refine ⟨o2, _, rfl, q2, ⟨?_, ?_, by simp⟩, by rw [q4, hu], q5, q6⟩
    · rw [List.map_append, ← htext]; simp
    · right
      intro x hx
      simp only [List.mem_append, List.mem_singleton] at hx
      rcases hx with hx | hx
      · rcases ht.full with h1 | h1
        · have : gs0 = [] := by
            have := congrArg List.length h1
            simp at this
            exact this
          rw [this] at hx; simp at hx
        · exact h1 x (by simp [hx])
      · rw [hx]; simp

theorem addAll_tcp (bs : List (List Nat)) {o : Out} {gs : List (List Frag)} {bs0 : List (List Nat)} (h : Built o gs) (hu : o.udp = false)
    (ht : Tcp gs bs0) :
    ∃ o' gs', addAll o bs = some o' ∧ Built o' gs' ∧ Tcp gs' (bs0 ++ bs) ∧ o'.udp = false ∧ o'.id = o.id ∧ o'.msgcurr = o.msgcurr := by
  induction bs generalizing o gs bs0 with
  | nil => exact ⟨o, gs, rfl, h, by simpa using ht, hu, rfl, rfl⟩
  | cons b bs ih =>
    obtain ⟨o1, gs1, e1, h1, t1, u1, i1, c1⟩ := addTcp_built h hu ht b
    obtain ⟨o2, gs2, e2, h2, t2, u2, i2, c2⟩ := ih h1 u1 t1
    refine ⟨o2, gs2, ?_, h2, by simpa using t2, u2, i2.trans i1, c2.trans c1⟩
    simp only [addAll, addIov, hu, Bool.false_eq_true, if_false, e1, Option.bind_some, e2]

end Verif.ConnOut
