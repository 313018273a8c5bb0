import Verif.Lemmas.ConnSend
/-
A response over UDP: packets that put together give the response.
-/

namespace Verif.ConnOut
open Spec

/-- A message for one packet: the header, and at most 1392 bytes. -/
def Packet (g : List Frag) : Prop := ∃ r, g = .header :: r ∧ Plain r ∧ (text r).length ≤ 1392

/-- The messages of a response over UDP with the bytes `t` so far. -/
structure Udp (o : Out) (gs : List (List Frag)) (t : List Nat) : Prop where
  packets : ∀ g ∈ gs, Packet g
  total : total gs = t
  bytes : ∃ gs0 g, gs = gs0 ++ [g] ∧ o.msgbytes = 8 + (text g).length

theorem total_concat (gs : List (List Frag)) (g : List Frag) : total (gs ++ [g]) = total gs ++ text g := by simp [total]

theorem text_concat (fs : List Frag) (f : Frag) : text (fs ++ [f]) = text fs ++ f.text := by simp [text]

theorem addUdp_built (k : Nat) {o : Out} {gs : List (List Frag)} {t : List Nat} (h : Built o gs) (hu : o.udp = true) (ht : Udp o gs t) (b : List Nat)
    (hk : b.length < k) :
    ∃ o' gs', addUdp k o b = some o' ∧ Built o' gs' ∧ Udp o' gs' (t ++ b) ∧ o'.udp = true ∧ o'.id = o.id ∧ o'.msgcurr = o.msgcurr := by
  induction k generalizing o gs t b with
  | zero => omega
  | succ k ih =>
    obtain ⟨gs0, g, rfl, hmb⟩ := ht.bytes
    obtain ⟨ms, m, hms, hl, hm⟩ := map_len_concat _ _ _ h.lens
    have e1 : o.msgs.getLast? = some m := by rw [hms]; simp
    have hgp : Packet g := ht.packets g (by simp)
    have hglen : (text g).length ≤ 1392 := by
      obtain ⟨r, rfl, _, hr⟩ := hgp
      simpa [text, Frag.text] using hr
    unfold addUdp
    rw [e1]
    simp only
    -- perhaps a new message
    have step1 : ∃ o1 gs1 g1, (if m.len = iovMax ∨ udpMax ≤ o.msgbytes then addMsg o else some o) = some o1 ∧ Built o1 (gs1 ++ [g1]) ∧
        (∀ x ∈ gs1 ++ [g1], Packet x) ∧ total (gs1 ++ [g1]) = t ∧ o1.msgbytes = 8 + (text g1).length ∧ o1.msgbytes < 1400 ∧ o1.udp = true ∧
        o1.id = o.id ∧ o1.msgcurr = o.msgcurr := by
      by_cases hf : m.len = iovMax ∨ udpMax ≤ o.msgbytes
      · rw [if_pos hf]
        obtain ⟨o1, p1, p2, p3, p4, p5, p6⟩ := addMsg_built h
        rw [hu] at p2 p3 p4
        simp only [if_true] at p2 p3
        refine ⟨o1, _, _, p1, p2, ?_, ?_, ?_, by omega, p4, p5, p6⟩
        · intro x hx
          rcases List.mem_append.1 hx with hx | hx
          · exact ht.packets x hx
          · rw [List.mem_singleton] at hx; subst hx
            exact ⟨[], rfl, fun f hf => by simp at hf, by simp [text]⟩
        · rw [total_concat, ht.total]; simp [text, Frag.text]
        · rw [p3]; simp [text, Frag.text]
      · rw [if_neg hf]
        refine ⟨o, gs0, g, rfl, h, ht.packets, ht.total, hmb, ?_, hu, rfl, rfl⟩
        have : ¬ udpMax ≤ o.msgbytes := fun h => hf (.inr h)
        unfold udpMax at this
        omega
    obtain ⟨o1, gs1, g1, s1, s2, s3, s4, s5, s6, s7, s8, s9⟩ := step1
    rw [s1]
    simp only
    generalize hlo : (if udpMax < b.length + o1.msgbytes then b.length + o1.msgbytes - udpMax else 0) = lo
    have hlo' : lo ≤ b.length ∧ (0 < lo → lo < b.length) ∧ b.length - lo + o1.msgbytes ≤ 1400 := by
      unfold udpMax at hlo
      split at hlo <;> omega
    obtain ⟨o2, q1, q2, q3, q4, q5, q6⟩ := put_built s2 (.bytes (b.take (b.length - lo)))
    rw [q1]
    simp only
    have hpk : ∀ x ∈ gs1 ++ [g1 ++ [.bytes (b.take (b.length - lo))]], Packet x := by
      intro x hx
      rcases List.mem_append.1 hx with hx | hx
      · exact s3 x (by simp [hx])
      · rw [List.mem_singleton] at hx; subst hx
        obtain ⟨r, hr1, hr2, hr3⟩ := s3 g1 (by simp)
        subst hr1
        refine ⟨r ++ [.bytes (b.take (b.length - lo))], rfl, ?_, ?_⟩
        · intro f hf
          rcases List.mem_append.1 hf with hf | hf
          · exact hr2 f hf
          · rw [List.mem_singleton] at hf; exact ⟨_, hf⟩
        · have e8 : text (.header :: r) = text r := by simp [text, Frag.text]
          rw [e8] at s5
          rw [text_concat, List.length_append]
          simp only [Frag.text, List.length_take]
          omega
    have hmb2 : o2.msgbytes = 8 + (text (g1 ++ [.bytes (b.take (b.length - lo))])).length := by
      rw [q3, s5, text_concat, List.length_append]
      simp only [Frag.len, Frag.text]
      omega
    have htot : total (gs1 ++ [g1 ++ [.bytes (b.take (b.length - lo))]]) = t ++ b.take (b.length - lo) := by
      rw [total_concat, text_concat, ← List.append_assoc, ← total_concat, s4]
      rfl
    have hud : Udp o2 (gs1 ++ [g1 ++ [.bytes (b.take (b.length - lo))]]) (t ++ b.take (b.length - lo)) := ⟨hpk, htot, _, _, rfl, hmb2⟩
    by_cases h0 : 0 < lo
    · rw [if_pos h0]
      obtain ⟨o3, gs3, r1, r2, r3, r4, r5, r6⟩ := ih q2 (q4.trans s7) hud (b.drop (b.length - lo)) (by rw [List.length_drop]; omega)
      refine ⟨o3, gs3, r1, r2, ?_, r4, by rw [r5, q5, s8], by rw [r6, q6, s9]⟩
      rw [List.append_assoc, List.take_append_drop] at r3
      exact r3
    · rw [if_neg h0]
      have : lo = 0 := by omega
      subst this
      refine ⟨o2, _, rfl, q2, ?_, by rw [q4, s7], by rw [q5, s8], by rw [q6, s9]⟩
      simpa using hud

theorem addAll_udp (bs : List (List Nat)) {o : Out} {gs : List (List Frag)} {t : List Nat} (h : Built o gs) (hu : o.udp = true) (ht : Udp o gs t) :
    ∃ o' gs', addAll o bs = some o' ∧ Built o' gs' ∧ Udp o' gs' (t ++ bs.flatten) ∧ o'.udp = true ∧ o'.id = o.id ∧ o'.msgcurr = o.msgcurr := by
  induction bs generalizing o gs t with
  | nil => exact ⟨o, gs, rfl, h, by simpa using ht, hu, rfl, rfl⟩
  | cons b bs ih =>
    obtain ⟨o1, gs1, e1, h1, t1, u1, i1, c1⟩ := addUdp_built (b.length + 1) h hu ht b (by omega)
    obtain ⟨o2, gs2, e2, h2, t2, u2, i2, c2⟩ := ih h1 u1 t1
    refine ⟨o2, gs2, ?_, h2, by simpa using t2, u2, i2.trans i1, c2.trans c1⟩
    simp only [addAll, addIov, hu, if_true, e1, Option.bind_some, e2]

/-! ### Sending -/

theorem consume_all (iov : List Frag) (len : Nat) {start : Nat} {fs : List Frag} (hs : (iov.drop start).take len = fs)
    (hl : start + len ≤ iov.length) (hp : Plain fs) : consume iov start len (text fs).length = some (iov, start + len, 0) := by
  induction len generalizing start fs with
  | zero =>
    rw [List.take_zero] at hs
    subst hs
    simp [consume, text]
  | succ len ih =>
    cases fs with
    | nil =>
      have := congrArg List.length hs
      simp at this
      omega
    | cons f fs =>
      obtain ⟨hget, hrest⟩ := drop_one_slice hs
      obtain ⟨l, rfl⟩ := hp f (by simp)
      have ht : (text (.bytes l :: fs)).length = l.length + (text fs).length := by simp [text, Frag.text]
      have hfl : (Frag.bytes l).len = l.length := rfl
      rw [ht]
      unfold consume
      rw [hget]
      simp only
      rw [if_pos (by rw [hfl]; omega), hfl, Nat.add_sub_cancel_left, ih hrest (by omega) (fun f hf => hp f (by simp [hf]))]
      rw [Nat.add_assoc, Nat.add_comm 1 len]

/-- A message that is to be sent as packet `j` of `n`: its header may have been filled in. -/
def Ripe (id n j : Nat) (g : List Frag) : Prop :=
  ∃ h r, g = h :: r ∧ (h = .header ∨ h = .bytes (headerBytes id j n)) ∧ Plain r

/-- The messages from packet `j` on; the first one may have been sent. -/
def Queue (id n : Nat) : Nat → List (List Frag) → Prop
  | _, [] => True
  | j, g :: gs => (g = [] ∨ Ripe id n j g) ∧ ∀ i x, gs[i]? = some x → Ripe id n (j + 1 + i) x

/-- The packets that are still to be sent, from packet `j` on. -/
def packets (id n : Nat) : Nat → List (List Frag) → List (List Nat)
  | _, [] => []
  | j, [] :: gs => packets id n (j + 1) gs
  | j, (_ :: r) :: gs => (headerBytes id j n ++ text r) :: packets id n (j + 1) gs

/-- A response that is being sent over UDP. -/
structure SendingU (o : Out) (gs : List (List Frag)) : Prop where
  ranges : Ranges o.iov o.gen 0 (o.msgs.drop o.msgcurr) gs
  queue : Queue o.id o.msgs.length o.msgcurr gs
  udp : o.udp = true

theorem queue_tail {id n j : Nat} {g : List Frag} {gs : List (List Frag)} (h : Queue id n j (g :: gs)) :
    Queue id n (j + 1) gs ∧ ∀ x xs, gs = x :: xs → Ripe id n (j + 1) x := by
  cases gs with
  | nil => exact ⟨trivial, fun x xs h => by cases h⟩
  | cons x xs =>
    have h0 := h.2 0 x rfl
    refine ⟨⟨.inr h0, fun i y hy => ?_⟩, fun x' xs' e => by cases e; exact h0⟩
    have := h.2 (i + 1) y (by simpa using hy)
    rwa [show j + 1 + (i + 1) = j + 1 + 1 + i by omega] at this

/-- What one call of `transmit` does. -/
structure SentU (o : Out) (ps : List (List Nat)) (r : Res) (o' : Out) (w : List (List Nat)) (st : Status) : Prop where
  done : st = .complete → w = [] ∧ ps = []
  more : st = .more → ∃ gs', SendingU o' gs' ∧ ps = w ++ packets o'.id o'.msgs.length o'.msgcurr gs' ∧ (r ≠ .again → w ≠ [])
  closed : st = .closed → w = [] ∧ r = .fails
  same : o'.id = o.id ∧ o'.msgs.length = o.msgs.length

theorem transmit'_udp {o : Out} {gs : List (List Frag)} (h : SendingU o gs) (hne : ∀ x xs, gs = x :: xs → Ripe o.id o.msgs.length o.msgcurr x) (r : Res) :
    ∃ o' w st, transmit' o r = some (o', w, st) ∧ SentU o (packets o.id o.msgs.length o.msgcurr gs) r o' w st := by
  have hr := h.ranges
  have hu := h.udp
  unfold transmit'
  cases hd : o.msgs.drop o.msgcurr with
  | nil =>
    rw [hd] at hr
    rw [get_none_drop.2 hd]
    refine ⟨_, _, _, rfl, ⟨fun _ => ⟨rfl, ?_⟩, fun h => (by cases h), fun h => (by cases h), rfl, rfl⟩⟩
    cases gs with
    | nil => rfl
    | cons => exact hr.elim
  | cons m ms =>
    rw [hd] at hr
    obtain ⟨hget, hms⟩ := drop_eq_cons_get hd
    rw [hget]
    cases gs with
    | nil => exact hr.elim
    | cons f fs =>
      obtain ⟨r1, r2, r3, r4, r5⟩ := hr
      obtain ⟨hh, rr, hf, hhd, hpl⟩ := hne f fs rfl
      subst hf
      have hlt : o.msgcurr < o.msgs.length := by
        rw [List.getElem?_eq_some_iff] at hget
        exact hget.1
      have hmlen : m.len = rr.length + 1 := by
        have := congrArg List.length r4
        rw [List.length_take, List.length_drop, List.length_cons] at this
        omega
      obtain ⟨hget0, hrest⟩ := drop_one_slice (len := rr.length) (by rw [← hmlen]; exact r4)
      simp only [r1, ne_eq, not_true_eq_false, if_false]
      -- the header is filled in
      have hfill : ∃ o1, (if o.udp = true ∧ o.iov[m.start]? = some .header then
            { o with iov := o.iov.set m.start (.bytes (headerBytes o.id o.msgcurr o.msgs.length)) } else o) = o1 ∧
          o1.id = o.id ∧ o1.msgs = o.msgs ∧ o1.msgcurr = o.msgcurr ∧ o1.udp = true ∧ o1.gen = o.gen ∧ m.start + m.len ≤ o1.iov.length ∧
          (o1.iov.drop m.start).take m.len = .bytes (headerBytes o.id o.msgcurr o.msgs.length) :: rr ∧
          Ranges o1.iov o.gen (m.start + m.len) ms fs := by
        by_cases hc : o.udp = true ∧ o.iov[m.start]? = some .header
        · rw [if_pos hc]
          refine ⟨_, rfl, rfl, rfl, rfl, hu, rfl, by simpa using r3, ?_, ranges_set _ _ _ (by omega) r5⟩
          simp only
          rw [List.drop_eq_getElem_cons (by rw [List.length_set]; omega), List.getElem_set_self, hmlen, List.take_succ_cons]
          congr 1
          rw [List.drop_set_of_lt (by omega)]
          exact hrest
        · rw [if_neg hc]
          refine ⟨o, rfl, rfl, rfl, rfl, hu, rfl, r3, ?_, r5⟩
          rcases hhd with hhd | hhd
          · exact absurd ⟨hu, by rw [hget0, hhd]⟩ hc
          · rw [r4, hhd]
      obtain ⟨o1, f0, f1, f2, f3, f4, f5, f6, f7, f8⟩ := hfill
      simp only [f0]
      have hft : (o1.frags m).flatMap Frag.text = headerBytes o.id o.msgcurr o.msgs.length ++ text rr := by
        unfold Out.frags
        rw [f7]
        simp [text, Frag.text]
      simp only [hft, f4, if_true]
      have hpk : packets o.id o.msgs.length o.msgcurr ((hh :: rr) :: fs) =
          (headerBytes o.id o.msgcurr o.msgs.length ++ text rr) :: packets o.id o.msgs.length (o.msgcurr + 1) fs := rfl
      have hq2 := h.queue.2
      cases r with
      | again =>
        refine ⟨_, _, _, rfl, ⟨fun h => (by cases h), fun _ => ⟨(.bytes (headerBytes o.id o.msgcurr o.msgs.length) :: rr) :: fs, ⟨?_, ?_, f4⟩, ?_,
          fun h => absurd rfl h⟩, fun h => (by cases h), f1, by rw [f2]⟩⟩
        · rw [f2, f3, hd]
          exact ⟨r1.trans f5.symm, by omega, f6, f7, by rw [f5]; exact f8⟩
        · rw [f1, f2, f3]
          exact ⟨.inr ⟨_, _, rfl, .inr rfl, hpl⟩, hq2⟩
        · rw [f1, f2, f3, hpk]; rfl
      | fails =>
        exact ⟨_, _, _, rfl, ⟨fun h => (by cases h), fun h => (by cases h), fun _ => ⟨rfl, rfl⟩, f1, by rw [f2]⟩⟩
      | wrote n =>
        simp only
        rw [if_neg (by simp [headerBytes])]
        have hpt : headerBytes o.id o.msgcurr o.msgs.length ++ text rr = text (.bytes (headerBytes o.id o.msgcurr o.msgs.length) :: rr) := by
          simp [text, Frag.text]
        have hc := consume_all o1.iov m.len f7 f6 (fun f hf => by
          rcases List.mem_cons.1 hf with rfl | hf
          · exact ⟨_, rfl⟩
          · exact hpl f hf)
        rw [← hpt] at hc
        rw [hc]
        simp only [List.take_length]
        refine ⟨_, _, _, rfl, ⟨fun h => (by cases h), fun _ => ⟨[] :: fs, ⟨?_, ?_, rfl⟩, ?_, fun _ => by simp⟩, fun h => (by cases h), f1, by simp [f2]⟩⟩
        · have hdr : ∀ x, (o.msgs.set o.msgcurr x).drop o.msgcurr = x :: ms := by
            intro x
            rw [List.drop_eq_getElem_cons (by simpa using hlt), List.getElem_set_self, List.drop_set_of_lt (by omega), hms]
          simp only [f2, f3, hdr]
          exact ⟨by simp only [f5], by omega, by simp only; omega, by simp, by simp only [f5]; exact f8⟩
        · simp only [f1, f2, f3, List.length_set]
          exact ⟨.inl rfl, hq2⟩
        · simp only [f1, f2, f3, List.length_set, hpk]
          rfl

theorem transmit_udp {o : Out} {gs : List (List Frag)} (h : SendingU o gs) (r : Res) :
    ∃ o' w st, transmit o r = some (o', w, st) ∧ SentU o (packets o.id o.msgs.length o.msgcurr gs) r o' w st := by
  have hr := h.ranges
  rw [transmit_eq]
  cases hd : o.msgs.drop o.msgcurr with
  | nil =>
    rw [get_none_drop.2 hd]
    rw [hd] at hr
    cases gs with
    | nil => exact transmit'_udp h (fun x xs e => by cases e) r
    | cons => exact hr.elim
  | cons m ms =>
    rw [hd] at hr
    obtain ⟨hget, hms⟩ := drop_eq_cons_get hd
    rw [hget]
    cases gs with
    | nil => exact hr.elim
    | cons f fs =>
      obtain ⟨r1, r2, r3, r4, r5⟩ := hr
      have hflen : f.length = m.len := by
        rw [← r4, List.length_take, List.length_drop]; omega
      simp only
      by_cases h0 : m.len = 0
      · rw [if_pos h0]
        have hf : f = [] := List.length_eq_zero_iff.1 (by omega)
        subst hf
        obtain ⟨q1, q2⟩ := queue_tail h.queue
        have hs : SendingU { o with msgcurr := o.msgcurr + 1 } fs := by
          refine ⟨?_, q1, h.udp⟩
          simp only [hms]
          exact ranges_le _ (Nat.zero_le _) r5
        obtain ⟨o', w, st, e, hst⟩ := transmit'_udp hs q2 r
        exact ⟨o', w, st, e, ⟨hst.done, hst.more, hst.closed, hst.same⟩⟩
      · rw [if_neg h0]
        refine transmit'_udp h (fun x xs e => ?_) r
        cases e
        rcases h.queue.1 with h1 | h1
        · rw [h1] at hflen; simp at hflen; omega
        · exact h1

theorem sendAll_udp (rs : List Res) {o : Out} {gs : List (List Frag)} (h : SendingU o gs) :
    ∃ o' w st, sendAll o rs = some (o', w, st) ∧ w <+: packets o.id o.msgs.length o.msgcurr gs ∧
      (st = .complete → w = packets o.id o.msgs.length o.msgcurr gs) ∧
      ((∀ r ∈ rs, r ≠ .fails ∧ r ≠ .wrote 0) → (packets o.id o.msgs.length o.msgcurr gs).length < writes rs → st = .complete) := by
  induction rs generalizing o gs with
  | nil => exact ⟨o, [], .more, rfl, by simp, fun h => (by cases h), fun _ hw => by simp [writes] at hw⟩
  | cons r rs ih =>
    obtain ⟨o1, w1, st1, e1, hst⟩ := transmit_udp h r
    generalize hP : packets o.id o.msgs.length o.msgcurr gs = P at hst
    unfold sendAll
    rw [e1]
    cases st1 with
    | complete =>
      obtain ⟨a, b⟩ := hst.done rfl
      exact ⟨o1, w1, .complete, rfl, by simp [a], fun _ => by simp [a, b], fun _ _ => rfl⟩
    | closed =>
      obtain ⟨a, b⟩ := hst.closed rfl
      exact ⟨o1, w1, .closed, rfl, by simp [a], fun h => (by cases h), fun hr _ => absurd b (hr r (by simp)).1⟩
    | more =>
      obtain ⟨gs', a, b, c⟩ := hst.more rfl
      obtain ⟨o2, w2, st2, e2, p1, p2, p3⟩ := ih a
      simp only [e2, Option.map_some]
      refine ⟨o2, _, st2, rfl, ?_, ?_, ?_⟩
      · rw [b]; exact (List.prefix_append_right_inj _).2 p1
      · intro h; rw [b, p2 h]
      · intro hr hw
        refine p3 (fun r hr' => hr r (by simp [hr'])) ?_
        have hbl := congrArg List.length b
        rw [List.length_append] at hbl
        have hr1 := hr r (by simp)
        cases r with
        | again => simp only [writes] at hw; omega
        | fails => exact absurd rfl hr1.1
        | wrote n =>
          have := c (by simp)
          have hpos : 0 < w1.length := List.length_pos_iff.2 this
          simp only [writes] at hw
          split at hw <;> omega

/-! ### The packets -/

theorem packets_spec (id n : Nat) (gs : List (List Frag)) (j : Nat) (h : ∀ g ∈ gs, Packet g) :
    (packets id n j gs).length = gs.length ∧
      ∃ parts : List (List Nat), parts.length = gs.length ∧ parts.flatten = total gs ∧
        ∀ i p q, (packets id n j gs)[i]? = some p → parts[i]? = some q → p.length ≤ 1400 ∧ p = headerBytes id (j + i) n ++ q := by
  induction gs generalizing j with
  | nil => exact ⟨rfl, [], rfl, rfl, fun i p q h => by simp [packets] at h⟩
  | cons g gs ih =>
    obtain ⟨r, rfl, hp, hl⟩ := h g (by simp)
    obtain ⟨l1, parts, l2, l3, l4⟩ := ih (j + 1) (fun g hg => h g (by simp [hg]))
    refine ⟨by simp [packets, l1], text r :: parts, by simp [l2], ?_, ?_⟩
    · rw [List.flatten_cons, l3]; simp [total, text, Frag.text]
    · intro i p q hpi hqi
      cases i with
      | zero =>
        simp only [packets, List.getElem?_cons_zero, Option.some.injEq] at hpi hqi
        subst hpi hqi
        refine ⟨?_, rfl⟩
        rw [List.length_append]
        have : (headerBytes id j n).length = 8 := rfl
        omega
      | succ i =>
        simp only [packets, List.getElem?_cons_succ] at hpi hqi
        obtain ⟨a, b⟩ := l4 i p q hpi hqi
        exact ⟨a, by rw [b, show j + (i + 1) = j + 1 + i by omega]⟩

theorem respond_udp {o : Out} (hf : Fit o) (hu : o.udp = true) (bs : List (List Nat)) (rs : List Res) :
    ∃ o' w st all, respond o bs rs = some (o', w, st) ∧ Packets o.id bs.flatten all ∧ w <+: all ∧ (st = .complete → w = all) ∧
      ((∀ r ∈ rs, r ≠ .fails ∧ r ≠ .wrote 0) → all.length < writes rs → st = .complete) := by
  obtain ⟨o1, e1, b1, m1, u1, i1, c1⟩ := start_built hf
  rw [hu] at b1 u1 m1
  simp only [if_true] at b1 m1
  have hp0 : Packet [.header] := ⟨[], rfl, fun f hf => (by simp at hf), by simp [text]⟩
  obtain ⟨o2, gs, e2, b2, t2, u2, i2, c2⟩ := addAll_udp bs b1 u1 (t := [])
    ⟨fun g hg => by rw [List.mem_singleton] at hg; rw [hg]; exact hp0, by simp [total, text, Frag.text], [], _, rfl, by rw [m1]; simp [text, Frag.text]⟩
  rw [List.nil_append] at t2
  have hlen : o2.msgs.length = gs.length := by
    have := congrArg List.length b2.lens
    simpa using this
  have hripe : ∀ j g, g ∈ gs → Ripe o2.id o2.msgs.length j g := by
    intro j g hg
    obtain ⟨r, rfl, hp, _⟩ := t2.packets g hg
    exact ⟨_, _, rfl, .inl rfl, hp⟩
  have hs : SendingU o2 gs := by
    refine ⟨?_, ?_, u2⟩
    · rw [c2, c1]; exact built_ranges b2
    · cases gs with
      | nil => trivial
      | cons g gs =>
        exact ⟨.inr (hripe _ _ (by simp)), fun i x hx => hripe _ _ (by simp [List.mem_of_getElem? hx])⟩
  obtain ⟨o3, w, st, e3, p1, p2, p3⟩ := sendAll_udp rs hs
  obtain ⟨l1, parts, l2, l3, l4⟩ := packets_spec o2.id o2.msgs.length gs 0 t2.packets
  rw [c2, c1] at p1 p2 p3
  refine ⟨o3, w, st, _, ?_, ?_, p1, p2, p3⟩
  · unfold respond
    rw [e1, Option.bind_some, e2, Option.bind_some, e3]
  · refine ⟨parts, l2.trans l1.symm, by rw [l3, t2.total], fun i p q hp hq => ?_⟩
    obtain ⟨a, b⟩ := l4 i p q hp hq
    refine ⟨a, ?_⟩
    rw [b, l1, hlen, i2, i1, Nat.zero_add]
    rfl

end Verif.ConnOut
