import Verif.Lemmas.LogBufSync
/-! # Whole calls of the flush, and of the write -/
namespace Verif.LogBuf.Lemmas
open Verif.LogBuf Verif.LogBuf.Spec

theorem Files.write_cur (f : Files) (d : Bytes) (dual : Bool) : (f.write d dual).cur = f.cur ++ d := by
  unfold Files.write; split <;> rfl

theorem wrapHead_fields (b : Buf) : (wrapHead b).size = b.size ∧ (wrapHead b).tail = b.tail ∧
    (wrapHead b).fqsz = b.fqsz ∧ (wrapHead b).dwEnd = b.dwEnd ∧
    (∀ e, (wrapHead b).last = some e → b.last = some e) ∧
    (b.last = none → (wrapHead b).last = none ∧ (wrapHead b).head = b.head) := by
  unfold wrapHead
  split
  · rename_i h
    simp [h]
  · simp

/-- A flush that finds no request to write. -/
theorem flushOnce_none {s : St} {l : List Req} {p : Req} (h : Core s l p) (hid : s.flight = .idle)
    (hd : s.buf.dwEnd = none) {all : Bool} (hl : l = [])
    (hp : p.n = 0 ∨ (all = false ∧ requested s = false)) : flushOnce s all = some s := by
  have hfe : s.buf.fbgn = s.buf.fend := h.q.empty_iff.mpr hl
  have hc : choose s s.buf all = some (s.buf, ⟨0, false⟩) := by
    unfold choose
    rw [if_neg (by simp [hfe]), if_neg]
    rw [h.q.opn]
    rcases hp with hp | ⟨rfl, hp⟩
    · omega
    · simp [hp]
  have ht : take s all = some s := by
    unfold take
    have hne : s.buf.dwEnd ≠ some s.buf.fbgn := by rw [hd]; simp
    simp only [if_neg hne, hc, if_neg (Nat.lt_irrefl 0)]
    rw [← hid]
  have hf : flush s = some s := by simp [flush, hid]
  simp [flushOnce, ht, hf]

theorem flushOnce_empty {s : St} (h1 : s.buf.fbgn = s.buf.fend) (h2 : (s.buf.fque s.buf.fend).n = 0)
    (hid : s.flight = .idle) (hd : s.buf.dwEnd = none) (all : Bool) : flushOnce s all = some s := by
  have hc : choose s s.buf all = some (s.buf, ⟨0, false⟩) := by
    unfold choose
    rw [if_neg (by simp [h1]), if_neg (by omega)]
  have ht : take s all = some s := by
    unfold take
    have hne : s.buf.dwEnd ≠ some s.buf.fbgn := by rw [hd]; simp
    simp only [if_neg hne, hc, if_neg (Nat.lt_irrefl 0)]
    rw [← hid]
  have hf : flush s = some s := by simp [flush, hid]
  simp [flushOnce, ht, hf]

/-- A flush that writes a request. -/
theorem flushOnce_some {s : St} {l : List Req} {p : Req} (h : Core s l p) (hid : s.flight = .idle)
    (hd : s.buf.dwEnd = none) {all : Bool} (hsome : l ≠ [] ∨ (0 < p.n ∧ all = true)) :
    ∃ s' n l' p', flushOnce s all = some s' ∧ Core s' l' p' ∧ s'.flight = .idle ∧
      s'.buf.dwEnd = none ∧ s'.chk = s.chk ∧ s'.nxtWrite = s.nxtWrite ∧
      s'.buf.size = s.buf.size ∧ s'.buf.fqsz = s.buf.fqsz ∧ s'.buf.tail = s.buf.tail ∧
      (∀ e, s'.buf.last = some e → s.buf.last = some e) ∧
      (s.buf.last = none → s'.buf.last = none) ∧
      s'.files.cur = s.files.cur ++ (content s.buf).take n ∧
      content s'.buf = (content s.buf).drop n ∧
      ((∃ r, l = r :: l' ∧ n = r.n ∧ p' = p) ∨ (l = [] ∧ n = p.n ∧ l' = [] ∧ p'.n = 0)) ∧
      (0 < n ∧ s'.nxtFlush = ⟨s.nxtFlush.file, s.nxtFlush.off + n⟩ ∧ s'.sync = s.sync ∧
        s'.nxtFsync = s.nxtFsync ∧ s'.durable = s.durable) := by
  obtain ⟨b1, r, l', p', hch, hq, hr, hct, hsame, hfl, hll, hpos, hzero⟩ :=
    choose_spec (s := s) h.q h.r h.fq all
  have hd' : s.buf.dwEnd ≠ some s.buf.fbgn := by rw [hd]; simp
  -- the request is not empty
  have hrn : 0 < r.n := by
    rcases Nat.eq_zero_or_pos r.n with h0 | h0
    · have hl' := hzero h0
      rcases hll with ⟨e1, _⟩ | ⟨_, e2, _⟩
      · rcases hsome with h1 | ⟨h1, rfl⟩
        · exact absurd (e1.symm.trans hl') h1
        · -- with `all` the open request is chosen
          have hl : l = [] := e1.symm.trans hl'
          have hfe : s.buf.fbgn = s.buf.fend := h.q.empty_iff.mpr hl
          unfold choose at hch
          rw [if_neg (by simp [hfe]), h.q.opn, if_pos ⟨h1, Or.inl rfl⟩] at hch
          simp only [Option.some.injEq, Prod.mk.injEq] at hch
          rw [← hch.2] at h0
          omega
      · rw [e2] at hl'; simp at hl'
    · exact h0
  have hb1 : b1.tail = s.buf.tail ∧ b1.last = s.buf.last := by
    unfold choose at hch
    split at hch
    · split at hch
      · simp at hch
      · simp only [Option.some.injEq, Prod.mk.injEq] at hch
        rw [← hch.1]; exact ⟨rfl, rfl⟩
    · split at hch
      · simp only [Option.some.injEq, Prod.mk.injEq] at hch
        rw [← hch.1]; exact ⟨rfl, rfl⟩
      · simp only [Option.some.injEq, Prod.mk.injEq] at hch
        rw [← hch.1]; exact ⟨rfl, rfl⟩
  rw [if_pos hrn] at hq hr hct hsame hpos
  have htake : take s all = some { s with buf := wrapHead b1, flight := .put r.n r.dual } := by
    unfold take
    simp only [if_neg hd', hch, if_pos hrn]
  obtain ⟨⟨t, rfl⟩, hlast⟩ := hpos hrn
  obtain ⟨hsp, hsl⟩ := head_slice hq hr hlast
  have hw := wrapHead_fields b1
  have f1 : flush { s with buf := wrapHead b1, flight := .put r.n r.dual } =
      some { s with buf := wrapHead b1,
                    files := s.files.write ((content (wrapHead b1)).take r.n) r.dual,
                    flight := .lsn r.n } := by
    simp only [flush]
    rw [if_pos hsp, hsl]
  have f2 : flush { s with buf := wrapHead b1,
                           files := s.files.write ((content (wrapHead b1)).take r.n) r.dual,
                           flight := .lsn r.n } =
      some { s with buf := wrapHead b1,
                    files := s.files.write ((content (wrapHead b1)).take r.n) r.dual,
                    nxtFlush := ⟨s.nxtFlush.file, s.nxtFlush.off + r.n⟩, flight := .fin r.n } := rfl
  obtain ⟨q', r', ct', sz', fq', dw', ds', bg'⟩ := fin_spec hq hr hlast
  have hw2 := wrapHead_fields { wrapHead b1 with head := (wrapHead b1).head + r.n }
  have f3 : ∃ b2, flush
      { s with buf := wrapHead b1,
                           files := s.files.write ((content (wrapHead b1)).take r.n) r.dual,
                           nxtFlush := ⟨s.nxtFlush.file, s.nxtFlush.off + r.n⟩, flight := .fin r.n } =
      some { s with buf := b2, files := s.files.write ((content (wrapHead b1)).take r.n) r.dual,
                    nxtFlush := ⟨s.nxtFlush.file, s.nxtFlush.off + r.n⟩, flight := .idle } ∧
      QInv b2 t p' ∧ RInv b2 t p' ∧ content b2 = (content (wrapHead b1)).drop r.n ∧
      b2.size = (wrapHead b1).size ∧ b2.fqsz = (wrapHead b1).fqsz ∧ b2.dwEnd = (wrapHead b1).dwEnd ∧
      b2.tail = (wrapHead b1).tail ∧ (∀ e, b2.last = some e → (wrapHead b1).last = some e) ∧
      ((wrapHead b1).last = none → b2.last = none) :=
    ⟨_, rfl, q', r', ct', sz', fq', dw', hw2.2.1, hw2.2.2.2.2.1, fun hn => (hw2.2.2.2.2.2 hn).1⟩
  obtain ⟨b2, f3, q2, r2, ct2, sz2, fq2, dw2, tl2, ls2, ln2⟩ := f3
  have f4 : flush { s with buf := b2, files := s.files.write ((content (wrapHead b1)).take r.n) r.dual,
                           nxtFlush := ⟨s.nxtFlush.file, s.nxtFlush.off + r.n⟩, flight := .idle } =
      some { s with buf := b2, files := s.files.write ((content (wrapHead b1)).take r.n) r.dual,
                    nxtFlush := ⟨s.nxtFlush.file, s.nxtFlush.off + r.n⟩, flight := .idle } := rfl
  refine ⟨{ s with buf := b2, files := s.files.write ((content (wrapHead b1)).take r.n) r.dual,
                   nxtFlush := ⟨s.nxtFlush.file, s.nxtFlush.off + r.n⟩, flight := .idle }, r.n, t, p', ?_,
    ⟨q2, r2, ?_, fun hb => absurd hb (by simp [busy]), fun _ hne => absurd rfl hne⟩, rfl, ?_, rfl, rfl, ?_, ?_,
    ?_, ?_, ?_, ?_, ?_, ?_, hrn, rfl, rfl, rfl, rfl⟩
  · simp only [flushOnce, htake, Option.bind_some, f1, f2, f3, f4]
  · show 1 < b2.fqsz
    rw [fq2, hsame.fqsz]; exact h.fq
  · show b2.dwEnd = none
    rw [dw2, hsame.dwEnd]; exact hd
  · show b2.size = _
    rw [sz2, hsame.size]
  · show b2.fqsz = _
    rw [fq2, hsame.fqsz]
  · show b2.tail = _
    rw [tl2, hw.2.1, hb1.1]
  · intro e he
    rw [← hb1.2]
    exact hw.2.2.2.2.1 e (ls2 e he)
  · intro hn
    rw [← hb1.2] at hn
    exact ln2 (hw.2.2.2.2.2 hn).1
  · show (s.files.write _ _).cur = _
    rw [Files.write_cur, hct]
  · show content b2 = _
    rw [ct2, hct]
  · rcases hll with ⟨e1, e2⟩ | ⟨e1, e2, e3⟩
    · exact Or.inl ⟨r, e1.symm, rfl, e2⟩
    · simp only [List.cons.injEq] at e2
      exact Or.inr ⟨e1, by rw [e2.1], e2.2, e3⟩

/-- Calls of the flush until no closed request is left. -/
theorem flushes_closed : ∀ (l : List Req) (s : St) (p : Req), Core s l p → s.flight = .idle →
    s.buf.dwEnd = none → ∃ s' p', flushes false l.length s = some s' ∧ Core s' [] p' ∧
      s'.flight = .idle ∧ s'.buf.dwEnd = none ∧ s'.chk = s.chk ∧
      s'.files.cur ++ content s'.buf = s.files.cur ++ content s.buf ∧
      s'.buf.tail = s.buf.tail ∧ (s.buf.last = none → s'.buf.last = none) ∧
      s'.nxtWrite = s.nxtWrite ∧ p' = p ∧ s'.buf.fqsz = s.buf.fqsz ∧ s'.buf.size = s.buf.size
  | [], s, p, h, hid, hd => ⟨s, p, rfl, h, hid, hd, rfl, rfl, rfl, id, rfl, rfl, rfl, rfl⟩
  | r :: l, s, p, h, hid, hd => by
    obtain ⟨s1, n, l1, p1, h1, c1, i1, d1, k1, w1, z1, q1, t1, a1, ln1, f1, ct1, hc, _⟩ :=
      flushOnce_some (all := false) h hid hd (Or.inl (by simp))
    rcases hc with ⟨r', e1, e2, e3⟩ | ⟨e1, _⟩
    · obtain ⟨rfl, rfl⟩ : r = r' ∧ l = l1 := by simpa using e1
      subst e3
      obtain ⟨s2, p2, h2, c2, i2, d2, k2, f2, t2, l2, w2, e4, q2, z2⟩ := flushes_closed l s1 p1 c1 i1 d1
      refine ⟨s2, p2, ?_, c2, i2, d2, k2.trans k1, ?_, t2.trans t1, fun hn => l2 (ln1 hn), w2.trans w1, e4,
        q2.trans q1, z2.trans z1⟩
      · rw [List.length_cons, flushes, h1]; exact h2
      · rw [f2, f1, ct1, List.append_assoc, List.take_append_drop]
    · simp at e1

/-- Calls of the flush until nothing is left. -/
theorem flushes_all : ∀ (k : Nat) (s : St) (l : List Req) (p : Req), Core s l p → s.flight = .idle →
    s.buf.dwEnd = none → l.length + (if 0 < p.n then 1 else 0) = k →
    ∃ s' p', flushes true k s = some s' ∧ Core s' [] p' ∧ p'.n = 0 ∧
      s'.flight = .idle ∧ s'.buf.dwEnd = none ∧
      s'.files.cur = s.files.cur ++ content s.buf ∧ content s'.buf = [] ∧
      s'.buf.tail = s.buf.tail ∧ (s.buf.last = none → s'.buf.last = none) ∧ s'.buf.size = s.buf.size := by
  intro k
  induction k with
  | zero =>
    intro s l p h hid hd hk
    have hl : l = [] := by
      cases l with
      | nil => rfl
      | cons => simp at hk
    have hp : p.n = 0 := by
      rcases Nat.eq_zero_or_pos p.n with h0 | h0
      · exact h0
      · rw [if_pos h0] at hk; omega
    subst hl
    have hc : content s.buf = [] := by
      apply List.eq_nil_of_length_eq_zero
      rw [h.r.length, hp]; rfl
    exact ⟨s, p, rfl, h, hp, hid, hd, by rw [hc, List.append_nil], hc, rfl, id, rfl⟩
  | succ k ih =>
    intro s l p h hid hd hk
    have hsome : l ≠ [] ∨ (0 < p.n ∧ true = true) := by
      cases l with
      | cons => exact Or.inl (by simp)
      | nil =>
        refine Or.inr ⟨?_, rfl⟩
        rcases Nat.eq_zero_or_pos p.n with h0 | h0
        · rw [h0] at hk; simp at hk
        · exact h0
    obtain ⟨s1, n, l1, p1, h1, c1, i1, d1, k1, w1, z1, q1, t1, a1, ln1, f1, ct1, hc, _⟩ :=
      flushOnce_some (all := true) h hid hd hsome
    have hk1 : l1.length + (if 0 < p1.n then 1 else 0) = k := by
      rcases hc with ⟨r, e1, _, e3⟩ | ⟨e1, e2, e3, e4⟩
      · rw [e1, List.length_cons] at hk
        rw [e3]; omega
      · rw [e1] at hk hsome
        have : 0 < p.n := by rcases hsome with h5 | ⟨h5, _⟩; exact absurd rfl h5; exact h5
        rw [if_pos this] at hk
        rw [e3, e4]
        simp at hk ⊢
        omega
    obtain ⟨s2, p2, g1, g2, g3, g4, g5, g6, g7, g8, g9, g10⟩ := ih s1 l1 p1 c1 i1 d1 hk1
    refine ⟨s2, p2, ?_, g2, g3, g4, g5, ?_, g7, g8.trans t1, fun hn => g9 (ln1 hn), g10.trans z1⟩
    · rw [flushes, h1]; exact g1
    · rw [g6, f1, ct1, List.append_assoc, List.take_append_drop]

/-! ## A writer gets its record into the buffer -/

/-- If the ring has wrapped, it was nearly full. -/
def LastOk (m z : Nat) (b : Buf) : Prop := b.size = z ∧ ∀ e, b.last = some e → z ≤ e + m

theorem bump_fields (b : Buf) : (bump b).last = b.last ∧ (bump b).size = b.size ∧ (bump b).head = b.head := by
  unfold bump; split <;> exact ⟨rfl, rfl, rfl⟩

theorem place_last {m z : Nat} {b b' : Buf} {len : Nat} {ok : Bool} (h : LastOk m z b) (hm : len ≤ m)
    (hp : place b len = some (b', ok)) : LastOk m z b' := by
  unfold place at hp
  split at hp
  · split at hp
    · simp at hp
    · split at hp
      · simp only [Option.some.injEq, Prod.mk.injEq] at hp
        rw [← hp.1]; exact h
      · split at hp
        · simp only [Option.some.injEq, Prod.mk.injEq] at hp
          rw [← hp.1]
          obtain ⟨h1, h2, _⟩ := bump_fields { b with last := some b.tail, tail := 0 }
          refine ⟨h2.trans h.1, fun e he => ?_⟩
          rw [h1] at he
          simp only [Option.some.injEq] at he
          have := h.1
          omega
        · simp only [Option.some.injEq, Prod.mk.injEq] at hp
          rw [← hp.1]; exact h
  · split at hp
    · simp at hp
    · simp only [Option.some.injEq, Prod.mk.injEq] at hp
      rw [← hp.1]; exact h

theorem enqueue_last : ∀ (fuel : Nat) (b b' : Buf) (len : Nat) (d : Bool), enqueue fuel b len d = some b' →
    b'.last = b.last ∧ b'.size = b.size
  | _, b, b', 0, d, h => by
    have : some b = some b' := by
      rw [← h]; unfold enqueue; rfl
    simp only [Option.some.injEq] at this
    subst this; exact ⟨rfl, rfl⟩
  | 0, b, b', _ + 1, d, h => by simp [enqueue] at h
  | fuel + 1, b, b', len + 1, d, h => by
    rw [enqueue] at h
    split at h
    · simp at h
    · have := enqueue_last fuel _ b' _ d h
      simp only at this
      split at this <;> exact this

theorem commit_last {s s' : St} {b : Buf} {rec : Bytes} {d : Bool} {o : Option LSN}
    (h : commit s b rec d = some (s', o)) : s'.buf.last = b.last ∧ s'.buf.size = b.size := by
  unfold commit at h
  split at h
  · simp at h
  · simp only at h
    split at h
    · simp at h
    · rename_i b3 hb
      simp only [Option.some.injEq, Prod.mk.injEq] at h
      rw [← h.1]
      have := enqueue_last _ _ _ _ _ hb
      simp only at this ⊢
      split at this <;> exact this

theorem write_last {m z : Nat} {s s' : St} {rec : Bytes} {d : Bool} {o : Option LSN} (h : LastOk m z s.buf)
    (hm : rec.length ≤ m) (hw : write s rec d = some (s', o)) : LastOk m z s'.buf := by
  unfold write at hw
  split at hw
  · simp at hw
  · split at hw
    · simp at hw
    · rename_i b hb
      simp only [Option.some.injEq, Prod.mk.injEq] at hw
      rw [← hw.1]
      exact place_last h hm hb
    · rename_i b hb
      obtain ⟨h1, h2⟩ := commit_last hw
      have := place_last h hm hb
      exact ⟨h2.trans this.1, fun e he => this.2 e (by rw [← h1]; exact he)⟩

theorem clearDual_last : ∀ (fuel : Nat) (b : Buf) (i : Nat), (clearDual fuel b i).last = b.last ∧
    (clearDual fuel b i).size = b.size
  | 0, b, _ => ⟨rfl, rfl⟩
  | fuel + 1, b, i => by
    rw [clearDual]
    split
    · simp only
      split
      · exact ⟨rfl, rfl⟩
      · exact clearDual_last fuel _ _
    · exact ⟨rfl, rfl⟩

theorem choose_last {s : St} {b b1 : Buf} {all : Bool} {r : Req} (h : choose s b all = some (b1, r)) :
    b1.last = b.last ∧ b1.size = b.size := by
  unfold choose at h
  split at h
  · split at h
    · simp at h
    · simp only [Option.some.injEq, Prod.mk.injEq] at h
      rw [← h.1]; exact ⟨rfl, rfl⟩
  · split at h
    · simp only [Option.some.injEq, Prod.mk.injEq] at h
      rw [← h.1]; exact ⟨rfl, rfl⟩
    · simp only [Option.some.injEq, Prod.mk.injEq] at h
      rw [← h.1]; exact ⟨rfl, rfl⟩

theorem step_last {m z : Nat} {s s' : St} {a : Act} {o : Option LSN} (h : LastOk m z s.buf)
    (hm : ∀ rec d, a = .write rec d → rec.length ≤ m) (hs : step s a = some (s', o)) :
    LastOk m z s'.buf := by
  have trivialCase : s'.buf = s.buf → LastOk m z s'.buf := fun e => by rw [e]; exact h
  have sub : (∀ e, s'.buf.last = some e → s.buf.last = some e) → s'.buf.size = s.buf.size →
      LastOk m z s'.buf := by
    intro h1 h2
    exact ⟨h2.trans h.1, fun e he => h.2 e (h1 e he)⟩
  cases a with
  | write rec d => exact write_last h (hm rec d rfl) hs
  | take all =>
    simp only [step] at hs
    split at hs
    · obtain ⟨s1, h1, h2⟩ := Option.map_eq_some_iff.mp hs
      simp only [Prod.mk.injEq] at h2
      rw [← h2.1]
      rw [← h2.1] at sub
      unfold take at h1
      simp only at h1
      split at h1
      · simp at h1
      · rename_i b r hb
        simp only [Option.some.injEq] at h1
        subst h1
        obtain ⟨c1, c2⟩ := choose_last hb
        have hb0 : (if s.buf.dwEnd = some s.buf.fbgn then { s.buf with dwSize := 0, dwEnd := none }
            else s.buf : Buf).last = s.buf.last ∧
            (if s.buf.dwEnd = some s.buf.fbgn then { s.buf with dwSize := 0, dwEnd := none }
            else s.buf : Buf).size = s.buf.size := by split <;> exact ⟨rfl, rfl⟩
        rw [hb0.1] at c1
        rw [hb0.2] at c2
        have hw := wrapHead_fields b
        apply sub
        · intro e he
          have he : (if 0 < r.n then wrapHead b else b).last = some e := he
          split at he
          · rw [← c1]; exact hw.2.2.2.2.1 e he
          · rw [← c1]; exact he
        · show (if 0 < r.n then wrapHead b else b).size = _
          split
          · rw [hw.1, c2]
          · exact c2
    · simp only [Option.some.injEq, Prod.mk.injEq] at hs
      exact trivialCase (by rw [← hs.1])
  | flush =>
    simp only [step] at hs
    obtain ⟨s1, h1, h2⟩ := Option.map_eq_some_iff.mp hs
    simp only [Prod.mk.injEq] at h2
    rw [← h2.1]
    rw [← h2.1] at sub trivialCase
    unfold flush at h1
    split at h1
    · simp only [Option.some.injEq] at h1
      subst h1; exact h
    · rename_i x n d _
      apply trivialCase
      have key : ∀ fl : Flight, (if x = s.files.complete.size then
          some { s with nxtFlush := ⟨s.nxtFlush.file + 1, x⟩, files := s.files.complete, durable := 0,
                        flight := fl } else none) = some s1 → s1.buf = s.buf := by
        intro fl hfl
        split at hfl
        · simp only [Option.some.injEq] at hfl
          rw [← hfl]
        · simp at hfl
      split at h1
      · exact key _ h1
      · exact key _ h1
    · split at h1
      · simp only [Option.some.injEq] at h1
        subst h1; exact h
      · simp at h1
    · simp only [Option.some.injEq] at h1
      subst h1; exact h
    · rename_i n _
      simp only [Option.some.injEq] at h1
      have hw := wrapHead_fields { s.buf with head := s.buf.head + n }
      apply sub
      · intro e he
        rw [← h1] at he
        exact hw.2.2.2.2.1 e he
      · rw [← h1]; exact hw.1
  | request l =>
    simp only [step] at hs
    split at hs <;> (simp only [Option.some.injEq, Prod.mk.injEq] at hs; exact trivialCase (by rw [← hs.1]))
  | openNext =>
    simp only [step] at hs
    split at hs <;> (simp only [Option.some.injEq, Prod.mk.injEq] at hs; exact trivialCase (by rw [← hs.1]))
  | scan =>
    simp only [step] at hs
    split at hs <;> (simp only [Option.some.injEq, Prod.mk.injEq] at hs; exact trivialCase (by rw [← hs.1]))
  | complete ok =>
    simp only [step] at hs
    split at hs
    · split at hs
      · obtain ⟨s1, h1, h2⟩ := Option.map_eq_some_iff.mp hs
        simp only [Prod.mk.injEq] at h2
        rw [← h2.1]
        unfold completeOk at h1
        simp only at h1
        split at h1
        · simp at h1
        · simp only [Option.some.injEq] at h1
          obtain ⟨c1, c2, _⟩ := bump_fields s.buf
          rw [← h1]
          exact ⟨c2.trans h.1, fun e he => h.2 e (by rw [← c1]; exact he)⟩
      · simp only [Option.some.injEq, Prod.mk.injEq] at hs
        rw [← hs.1]
        obtain ⟨c1, c2⟩ := clearDual_last s.buf.fqsz { s.buf with dwSize := 0 } s.buf.fbgn
        exact ⟨c2.trans h.1, fun e he => h.2 e (c1.symm.trans he)⟩
    · simp only [Option.some.injEq, Prod.mk.injEq] at hs; exact trivialCase (by rw [← hs.1])
  | close =>
    simp only [step] at hs
    split at hs <;> (simp only [Option.some.injEq, Prod.mk.injEq] at hs; exact trivialCase (by rw [← hs.1]))
  | finished =>
    simp only [step] at hs
    split at hs <;> (simp only [Option.some.injEq, Prod.mk.injEq] at hs; exact trivialCase (by rw [← hs.1]))
  | syncBegin =>
    simp only [step] at hs
    split at hs <;> (simp only [Option.some.injEq, Prod.mk.injEq] at hs; exact trivialCase (by rw [← hs.1]))
  | syncEnd =>
    simp only [step] at hs
    split at hs
    · simp only [Option.some.injEq, Prod.mk.injEq] at hs; exact trivialCase (by rw [← hs.1])
    · split at hs <;> (simp only [Option.some.injEq, Prod.mk.injEq] at hs; exact trivialCase (by rw [← hs.1]))

theorem reach_last {m size fqsz : Nat} {s : St} {g : Logs} (h : Reach (AllowedUpTo m) size fqsz s g) :
    LastOk m size s.buf := by
  induction h with
  | init data => exact ⟨rfl, fun e he => by simp [init] at he⟩
  | @step s s' g a o _ hp hs ih => exact step_last ih hp.2 hs

/-- If there is no room, there is a closed request to flush. -/
theorem no_room {m : Nat} {s : St} {l : List Req} {p : Req} {rec : Bytes} {d : Bool} {s1 : St}
    (h : Core s l p) (hl : LastOk m s.buf.size s.buf) (hsz : 2 * m + auto ≤ s.buf.size) (h0 : 0 < rec.length)
    (hm : rec.length ≤ m) (hw : write s rec d = some (s1, none)) (hroom : l.length + 1 < s.buf.fqsz) :
    ∃ b1 t p1, s1 = { s with buf := b1 } ∧ QInv b1 (l ++ t) p1 ∧ RInv b1 (l ++ t) p1 ∧
      content b1 = content s.buf ∧ flags (l ++ t) p1 = flags l p ∧ Same s.buf b1 ∧
      l ++ t ≠ [] ∧ ((t = [] ∧ p1 = p) ∨ (t = [p] ∧ 0 < p.n ∧ p1.n = 0) ∨ (t = [] ∧ p.n = 0 ∧ p1.n = 0)) := by
  obtain ⟨b1, ok, t, p1, hpl, hq1, hr1, hc1, hf1, hsame, hhead, hpp, htl, hfd, hok, hlast⟩ :=
    place_spec h.q h.r hroom rec.length
  have hplt := h.q.plt
  have hok' : ok = false := by
    cases ok with
    | false => rfl
    | true =>
      unfold write at hw
      rw [if_neg (by omega), hpl] at hw
      unfold commit at hw
      simp only at hw
      split at hw
      · simp at hw
      · split at hw <;> simp at hw
  subst hok'
  have hs1 : s1 = { s with buf := b1 } := by
    unfold write at hw
    rw [if_neg (by omega), hpl] at hw
    simp only [Option.some.injEq, Prod.mk.injEq] at hw
    exact hw.1.symm
  -- the three ways to have no room
  have htcase : (t = [] ∧ p1 = p) ∨ (t = [p] ∧ 0 < p.n ∧ p1.n = 0) ∨ (t = [] ∧ p.n = 0 ∧ p1.n = 0) := by
    rcases hpp with h5 | h5
    · exact Or.inl h5
    · have e := congrArg List.length hf1
      simp only [flags_length, total_append] at e
      cases t with
      | nil => exact Or.inr (Or.inr ⟨rfl, by simp at e; omega, h5⟩)
      | cons r t =>
        have : t = [] := by
          cases t with
          | nil => rfl
          | cons => simp at htl
        subst this
        -- the closed request is the open one
        have hb : b1.fque (rot b1 l.length) = r := by
          have := hq1.ent l.length (by simp)
          simpa using this
        rw [hfd.1] at hb
        have hrot : rot b1 l.length = rot s.buf l.length := by
          simp [rot, hsame.fqsz, hsame.fbgn]
        rw [hrot, ← h.q.fend, h.q.opn] at hb
        subst hb
        have := (hq1.pos p (by simp)).1
        exact Or.inr (Or.inl ⟨rfl, this, h5⟩)
  refine ⟨b1, t, p1, hs1, hq1, hr1, hc1, hf1, hsame, ?_, htcase⟩
  intro hnil
  have hln : l = [] ∧ t = [] := by simpa using hnil
  obtain ⟨rfl, rfl⟩ := hln
  have hr := h.r
  unfold RInv at hr
  unfold place at hpl
  cases hla : s.buf.last with
  | none =>
    rw [hla] at hr
    simp only [total_nil] at hr
    rw [if_pos hr.1, if_neg (by rw [hla]; simp)] at hpl
    split at hpl
    · simp at hpl
    · split at hpl
      · simp only [Option.some.injEq, Prod.mk.injEq, decide_eq_false_iff_not] at hpl
        -- the open request would have been closed
        have hp0 : p.n = 0 := by
          rcases htcase with ⟨_, h6⟩ | ⟨h6, _⟩ | ⟨_, h6, _⟩
          · rcases Nat.eq_zero_or_pos p.n with h7 | h7
            · exact h7
            · have hb := hpl.1
              unfold bump at hb
              rw [if_pos (by show 0 < (s.buf.fque s.buf.fend).n; rw [h.q.opn]; exact h7)] at hb
              have e1 := hq1.fend
              rw [← hb] at e1
              have e1 : inc s.buf.fqsz s.buf.fend = rot s.buf 0 := e1
              rw [h.q.fend, inc_rot (by have := h.fq; omega)] at e1
              have := rot_inj (by simpa using hroom) (by have := h.fq; omega) e1
              simp at this
          · simp at h6
          · exact h6
        omega
      · omega
  | some e =>
    rw [hla] at hr
    obtain ⟨h1, h2, h3, l1, l2, h4, h5, h6⟩ := hr
    have h4 : l1 = [] ∧ l2 = [] := by simpa using h4.symm
    obtain ⟨rfl, rfl⟩ := h4
    simp only [total_nil] at h5 h6
    have := hl.2 e hla
    rw [if_neg (by omega), if_neg (by rw [hla]; simp)] at hpl
    simp only [Option.some.injEq, Prod.mk.injEq, decide_eq_false_iff_not] at hpl
    omega

/-- A writer without rivals gets its record into the buffer. -/
theorem attempts_succeed {m : Nat} (rec : Bytes) (d : Bool) (h0 : 0 < rec.length) (hm : rec.length ≤ m) :
    ∀ (k : Nat) (s : St) (l : List Req) (p : Req), Core s l p → LastOk m s.buf.size s.buf →
    2 * m + auto ≤ s.buf.size → s.flight = .idle → s.buf.dwEnd = none →
    l.length + (if 0 < p.n then 1 else 0) + rec.length / auto + 2 < s.buf.fqsz →
    2 * l.length + (if 0 < p.n then 1 else 0) ≤ k →
    ∃ n s' q, attempts n s rec d = some (s', some q) ∧ q = s.nxtWrite ∧
      s'.files.cur ++ content s'.buf = s.files.cur ++ content s.buf ++ rec := by
  intro k
  induction k with
  | zero =>
    intro s l p h hl hsz hid hd hroom hk
    have hl0 : l = [] := by
      cases l with
      | nil => rfl
      | cons => simp at hk
    obtain ⟨b', t, p', o, hw, hq, hr, hct, hfl, _⟩ := write_spec (d := d) h.q h.r h0
      (by omega) (by
        have : ∀ a : Nat, l.length + rec.length / auto + 2 ≤ l.length + a + rec.length / auto + 2 := by omega
        exact Nat.lt_of_le_of_lt (this _) hroom)
    cases o with
    | true =>
      refine ⟨1, { s with buf := b', nxtWrite := ⟨s.nxtWrite.file, s.nxtWrite.off + rec.length⟩ }, s.nxtWrite, ?_, rfl, ?_⟩
      · rw [attempts, hw]
        rfl
      · show s.files.cur ++ content b' = _
        rw [hct]; simp
    | false =>
      have hw : write s rec d = some (_, none) := hw
      obtain ⟨b1, t1, p1, hs1, hq1, hr1, hc1, hf1, hsame, hne, hcase⟩ := no_room h hl hsz h0 hm hw (by
        rw [hl0]; have := h.fq; simpa using this)
      exfalso
      rcases hcase with ⟨rfl, _⟩ | ⟨_, h5, _⟩ | ⟨rfl, _, _⟩
      · simp [hl0] at hne
      · rw [if_pos h5] at hk; omega
      · simp [hl0] at hne
  | succ k ih =>
    intro s l p h hl hsz hid hd hroom hk
    have hrm : l.length + rec.length / auto + 2 < s.buf.fqsz := by
      have : ∀ a : Nat, l.length + rec.length / auto + 2 ≤ l.length + a + rec.length / auto + 2 := by omega
      exact Nat.lt_of_le_of_lt (this _) hroom
    have hrm2 : l.length + 1 < s.buf.fqsz := by
      generalize rec.length / auto = x at hrm; omega
    obtain ⟨b', t, p', o, hw, hq, hr, hct, hfl, _⟩ := write_spec (d := d) h.q h.r h0 (by omega) hrm
    cases o with
    | true =>
      refine ⟨1, { s with buf := b', nxtWrite := ⟨s.nxtWrite.file, s.nxtWrite.off + rec.length⟩ }, s.nxtWrite, ?_, rfl, ?_⟩
      · rw [attempts, hw]
        rfl
      · show s.files.cur ++ content b' = _
        rw [hct]; simp
    | false =>
      have hw : write s rec d = some (_, none) := hw
      obtain ⟨b1, t1, p1, hs1, hq1, hr1, hc1, hf1, hsame, hne, hcase⟩ := no_room h hl hsz h0 hm hw hrm2
      have hl1 : LastOk m s.buf.size b1 := by
        have := write_last hl hm hw
        rw [hs1] at this
        exact this
      have hcore1 : Core { s with buf := b1 } (l ++ t1) p1 :=
        ⟨hq1, hr1, by show 1 < b1.fqsz; rw [hsame.fqsz]; exact h.fq,
          fun hb => absurd hb (by show ¬ 0 < busy s.flight; rw [hid]; simp [busy]),
          fun _ hn => absurd hid hn⟩
      obtain ⟨s2, n, l2, p2, h1, c1, i1, d1, k1, w1, z1, q1, t1', a1, ln1, f1, ct1, hc, _⟩ :=
        flushOnce_some (all := false) hcore1 hid (hsame.dwEnd.trans hd) (Or.inl hne)
      have hc2 : ∃ r, l ++ t1 = r :: l2 ∧ p2 = p1 := by
        rcases hc with ⟨r, e1, _, e3⟩ | ⟨e1, _⟩
        · exact ⟨r, e1, e3⟩
        · exact absurd e1 hne
      obtain ⟨r, e1, e3⟩ := hc2
      have hlen := congrArg List.length e1
      simp only [List.length_append, List.length_cons] at hlen
      have hmeas : l2.length + (if 0 < p2.n then 1 else 0) ≤ l.length + (if 0 < p.n then 1 else 0) ∧
          2 * l2.length + (if 0 < p2.n then 1 else 0) ≤ k := by
        rw [e3]
        rcases hcase with ⟨rfl, rfl⟩ | ⟨rfl, h5, h6⟩ | ⟨rfl, h5, h6⟩
        · simp only [List.length_nil] at hlen
          omega
        · rw [if_pos h5] at hk ⊢
          rw [h6, if_neg (by omega)]
          simp only [List.length_cons, List.length_nil] at hlen
          omega
        · rw [h6, if_neg (by omega), h5, if_neg (by omega)]
          simp only [List.length_nil] at hlen
          omega
      obtain ⟨n2, s', q, g1, g2, g3⟩ := ih s2 l2 p2 c1
        (by
          rw [z1]
          exact ⟨z1, fun e he => hl1.1.symm ▸ hl1.2 e (a1 e he)⟩)
        (by rw [z1]; show _ ≤ b1.size; rw [hsame.size]; exact hsz) i1 d1
        (by
          rw [q1]
          show _ < b1.fqsz
          rw [hsame.fqsz]
          have := hmeas.1
          generalize rec.length / auto = x at hroom ⊢
          omega)
        hmeas.2
      refine ⟨n2 + 1, s', q, ?_, ?_, ?_⟩
      · rw [attempts, hw]
        simp only
        rw [hs1, h1]
        exact g1
      · rw [g2, w1]
      · rw [g3, f1, ct1, List.append_assoc s.files.cur, List.take_append_drop]
        show s.files.cur ++ content b1 ++ rec = _
        rw [hc1]

/-! ## The first record -/

theorem enqueue_tail : ∀ (fuel : Nat) (b b' : Buf) (len : Nat) (d : Bool), enqueue fuel b len d = some b' →
    b'.tail = b.tail ∧ b'.head = b.head
  | _, b, b', 0, d, h => by
    have : some b = some b' := by
      rw [← h]; unfold enqueue; rfl
    simp only [Option.some.injEq] at this
    subst this; exact ⟨rfl, rfl⟩
  | 0, b, b', _ + 1, d, h => by simp [enqueue] at h
  | fuel + 1, b, b', len + 1, d, h => by
    rw [enqueue] at h
    split at h
    · simp at h
    · have := enqueue_tail fuel _ b' _ d h
      simp only at this
      split at this <;> exact this

theorem commit_tail {s s' : St} {b : Buf} {rec : Bytes} {d : Bool} {o : Option LSN}
    (h : commit s b rec d = some (s', o)) : s'.buf.tail = b.tail + rec.length ∧ s'.buf.head = b.head ∧
      ∃ q, o = some q := by
  unfold commit at h
  split at h
  · simp at h
  · simp only at h
    split at h
    · simp at h
    · rename_i b3 hb
      simp only [Option.some.injEq, Prod.mk.injEq] at h
      rw [← h.1]
      have := enqueue_tail _ _ _ _ _ hb
      simp only at this ⊢
      refine ⟨?_, ?_, s.nxtWrite, h.2.symm⟩
      · rw [this.1]; split <;> rfl
      · rw [this.2]; split <;> rfl

theorem write_init (data : Nat → Nat) {size fqsz : Nat} {rec : Bytes} (h0 : 0 < rec.length)
    (h1 : rec.length < size) (hq : rec.length / auto + 2 < fqsz) :
    ∃ s1 l p, step (init data size fqsz) (.write rec false) = some (s1, some ⟨1, 0⟩) ∧ Core s1 l p ∧
      content s1.buf = rec ∧ s1.buf.last = none ∧ s1.buf.tail = rec.length ∧ s1.flight = .idle ∧
      s1.buf.dwEnd = none ∧ s1.files.cur = [] ∧ s1.nxtFlush = ⟨1, 0⟩ ∧ s1.nxtFsync = ⟨0, 0⟩ ∧
      s1.sync = none ∧ s1.buf.size = size ∧ s1.uptFlush = ⟨0, 0⟩ ∧ s1.buf.fqsz = fqsz := by
  obtain ⟨l0, p0, hcore, hp⟩ := (inv_init False data (size := size) (fqsz := fqsz)
    (by generalize rec.length / auto = x at hq; omega)).plain rfl
  have hl0 : l0 = [] := hcore.q.empty_iff.mp rfl
  subst hl0
  obtain ⟨b', t, p', o, hw, hq', hr, hct, _, hsz, hfq, _, hdw, _⟩ := write_spec (s := init data size fqsz)
    (d := false) hcore.q hcore.r h0 h1
    (by show [].length + _ + 2 < fqsz; rw [List.length_nil, Nat.zero_add]; exact hq)
  have hpl : place (init data size fqsz).buf rec.length = some ((init data size fqsz).buf, true) := by
    unfold place
    have e1 : (init data size fqsz).buf.head ≤ (init data size fqsz).buf.tail := Nat.le_refl 0
    have e2 : ¬ (init data size fqsz).buf.last ≠ none := fun h => h rfl
    have e3 : rec.length < (init data size fqsz).buf.size - (init data size fqsz).buf.tail := h1
    rw [if_pos e1, if_neg e2, if_pos e3]
  have hcm : write (init data size fqsz) rec false =
      commit (init data size fqsz) (init data size fqsz).buf rec false := by
    unfold write
    rw [if_neg (by intro h; exact h h1), hpl]
  have hw2 := hw
  rw [hcm] at hw2
  obtain ⟨c1, c2, q, c3⟩ := commit_tail hw2
  obtain ⟨c4, c5⟩ := commit_last hw2
  cases o with
  | false => simp at c3
  | true =>
    refine ⟨{ init data size fqsz with buf := b', nxtWrite := ⟨1, 0 + rec.length⟩ }, t, p', hw,
      ⟨hq', hr, ?_, fun hb => absurd hb (by simp [init, busy]), fun _ hne => absurd rfl hne⟩, ?_, c4, ?_, rfl, hdw,
      rfl, rfl, rfl, rfl, hsz, rfl, hfq⟩
    · show 1 < b'.fqsz
      rw [hfq]
      show 1 < fqsz
      generalize rec.length / auto = x at hq; omega
    · show content b' = rec
      rw [hct]
      have : content (init data size fqsz).buf = [] := rfl
      rw [this]; rfl
    · have : b'.tail = 0 + rec.length := c1
      show b'.tail = _
      omega

end Verif.LogBuf.Lemmas
