import Verif.Lemmas.LogBufRun
/-! # Properties of the command log buffer

C32 (every record reaches the files exactly once and in order), C33 (a record is on disk when its
client is told so), C39 (the assertion about the dual write), C48 (clean shutdown), C49 (an idle server
has all but a little of the log in the file), C50 (a writer gets its record into the buffer). -/
namespace Verif.LogBuf.Props
open Verif.LogBuf Verif.LogBuf.Spec Verif.LogBuf.Lemmas

/-! ## Concrete runs, for the examples -/

/-- `Allowed` as a test. -/
def allowedB (s : St) : Act → Bool
  | .write rec dual => !rec.isEmpty && decide (rec.length < s.buf.size) &&
      (!dual || decide (s.chk = .scanning)) && decide (used s.buf + rec.length / auto + 2 < s.buf.fqsz)
  | .complete _ => decide (used s.buf + 1 < s.buf.fqsz)
  | .openNext => decide (s.flight = .idle)
  | _ => true

theorem allowed_of {s : St} {a : Act} (h : allowedB s a = true) : Allowed s a := by
  cases a <;> simp [allowedB, Allowed] at h ⊢ <;> try exact h
  obtain ⟨⟨⟨h1, h2⟩, h3⟩, h4⟩ := h
  refine ⟨h1, h2, fun hd => ?_, h4⟩
  rcases h3 with h3 | h3
  · rw [hd] at h3; simp at h3
  · exact h3

/-- A run of allowed steps. -/
def run : List Act → St × Logs → Option (St × Logs)
  | [], c => some c
  | a :: as, (s, g) =>
    if allowedB s a then
      match step s a with
      | none => none
      | some (s', o) => run as (s', g.next s a o)
    else none

theorem run_reach {P : St → Act → Prop} {size fqsz : Nat} : ∀ (as : List Act) {s s' : St} {g g' : Logs},
    (∀ s a, a ∈ as → Allowed s a → P s a) → Reach P size fqsz s g → run as (s, g) = some (s', g') →
    Reach P size fqsz s' g'
  | [], s, s', g, g', _, h, hr => by
    simp only [run, Option.some.injEq, Prod.mk.injEq] at hr
    rw [← hr.1, ← hr.2]; exact h
  | a :: as, s, s', g, g', hP, h, hr => by
    rw [run] at hr
    split at hr
    · rename_i ha
      split at hr
      · simp at hr
      · rename_i s1 o hs
        exact run_reach as (fun s b hb => hP s b (by simp [hb]))
          (Reach.step a o h (hP s a (by simp) (allowed_of ha)) hs) hr
    · simp at hr

/-- The start, with the sizes of the server. -/
def start : St × Logs := (init (fun _ => 0) 104857600 6553600, ⟨[], [], .plain⟩)

/-- A state with a property from a run. -/
theorem reach_of (P : St → Act → Prop) (as : List Act) (hP : ∀ s a, a ∈ as → Allowed s a → P s a)
    (t : St × Logs → Bool) (h : (match run as start with | some c => t c | none => false) = true) :
    ∃ s g, Reach P 104857600 6553600 s g ∧ t (s, g) = true := by
  split at h
  · rename_i c hc
    obtain ⟨s, g⟩ := c
    exact ⟨s, g, run_reach as hP (Reach.init _) hc, h⟩
  · simp at h

/-! ## C32 -/

/-- **C32** (partial).  Whatever the order in which clients, the flusher and the checkpoint run, no byte
of the log is lost, doubled or moved: the bytes that wait in the ring are `pre ++ post`, the current
file with `pre` behind it is the log the clients wrote (`post` is empty as long as no snapshot is
complete), and during a checkpoint the next file, followed by the bytes of `pre` that are marked for
dual write and by `post`, is the log that belongs to the new snapshot.  When the flusher switches to the
next file, that log becomes the current one (`Logs.next`).

Partial: the callers leave room in the queue of flush requests (`Allowed`). -/
theorem C32_partial {size fqsz : Nat} (hq : 1 < fqsz) {s : St} {g : Logs}
    (h : Reach Allowed size fqsz s g) :
    ∃ pre post, unwritten s = pre ++ post ∧ s.files.cur ++ pre = g.cur ∧
      (g.mode ≠ .after → post = []) ∧
      (g.mode ≠ .plain → ∃ x dual, s.files.next = some x ∧ dual.Sublist pre ∧
        x ++ dual ++ post = g.new) := by
  obtain ⟨l, p, hc, hm⟩ := inv_reach (z := False) hq (fun s a hP => ⟨hP, fun h => h.elim⟩) h
  rcases hm with h | ⟨x, h⟩ | ⟨x, k, m, h⟩ | ⟨x, n, dsz, d, h⟩
  · exact ⟨unwritten s, [], by simp, h.cur, fun _ => rfl, fun hne => absurd h.mode hne⟩
  · exact ⟨unwritten s, [], by simp, h.cur, fun _ => rfl, fun _ => ⟨x, _, h.nxt, sel_sublist _ _,
      by rw [List.append_nil]; exact h.new⟩⟩
  · exact ⟨(unwritten s).take m, (unwritten s).drop m, by simp, h.cur, fun hne => absurd h.mode hne,
      fun _ => ⟨x, _, h.nxt, sel_sublist _ _, by rw [List.append_assoc]; exact h.new⟩⟩
  · exact ⟨[], unwritten s, rfl, by rw [List.append_nil]; exact h.cur, fun hne => absurd h.mode hne,
      fun _ => ⟨x, [], h.nxt, List.nil_sublist _, by rw [List.append_nil]; exact h.new⟩⟩

/-- **C32**: the steps do not fail on an assertion and do not access memory outside of the buffer, except
for the assertion at the end of the dual write (C39). -/
theorem C32_safe {size fqsz : Nat} (hq : 1 < fqsz) {s : St} {g : Logs} (h : Reach Allowed size fqsz s g)
    (a : Act) (ha : Allowed s a) :
    (∃ s' o, step s a = some (s', o)) ∨ (a = .flush ∧ ∃ size n dual, s.flight = .comp size n dual) := by
  have hi := inv_reach (z := False) hq (fun s a hP => ⟨hP, fun h => h.elim⟩) h
  rcases good_step hi a ha (fun h => h.elim) with ⟨s', o, h1, _⟩ | ⟨_, _, h2, h3⟩
  · exact Or.inl ⟨s', o, h1⟩
  · refine Or.inr ⟨h2, ?_⟩
    cases hf : s.flight with
    | comp a b c => exact ⟨a, b, c, rfl⟩
    | _ => rw [hf] at h3; simp [isComp] at h3

/-- A checkpoint: `[3]` is written to both logs, `[4]` belongs to the old one (the scan had not reached
its key), `[5]` is written after the snapshot. -/
def checkpoint : List Act :=
  [.write [1, 2] false, .openNext, .scan, .write [3] true, .write [4] false, .take false, .flush, .flush,
   .flush, .complete true, .write [5] false]

example : ∃ s g, Reach Allowed 104857600 6553600 s g ∧ decide (g = ⟨[1, 2, 3, 4], [3, 5], .after⟩ ∧
    s.files.cur = [1, 2] ∧ s.files.next = some [] ∧ unwritten s = [3, 4, 5]) = true :=
  reach_of Allowed checkpoint (fun _ _ _ h => h)
    (fun c => decide (c.2 = ⟨[1, 2, 3, 4], [3, 5], .after⟩ ∧ c.1.files.cur = [1, 2] ∧
      c.1.files.next = some [] ∧ unwritten c.1 = [3, 4, 5])) (by decide +kernel)

/-- The same run after the flusher has switched: the current file is the log of the new snapshot. -/
example : ∃ s g, Reach Allowed 104857600 6553600 s g ∧ decide (g = ⟨[3, 5], [], .plain⟩ ∧
    s.files.cur = [3] ∧ s.files.next = none ∧ unwritten s = [5]) = true :=
  reach_of Allowed (checkpoint ++ [.take false, .flush, .flush, .flush, .take false, .flush, .flush, .flush,
      .take false, .flush]) (fun _ _ _ h => h)
    (fun c => decide (c.2 = ⟨[3, 5], [], .plain⟩ ∧ c.1.files.cur = [3] ∧
      c.1.files.next = none ∧ unwritten c.1 = [5])) (by decide +kernel)

/-! ## C33 -/

/-- **C33** (partial).  When a client is told that its record is on disk, the bytes of the record are in
the part of the log file that has been fsynced.

Partial: for records that lie in one flush request (`fits`; see `C33_false` for the others), and without
checkpoints. -/
theorem C33_partial {size fqsz : Nat} (hq : 1 < fqsz) {s : St} {g : Logs} {h : List (LSN × Bytes)}
    (hr : Logged size fqsz s g h) {q : LSN} {rec : Bytes} (hm : (q, rec) ∈ h) (ha : acked s q) :
    q.off + rec.length ≤ s.durable ∧ s.durable ≤ s.files.cur.length ∧
      (s.files.cur.drop q.off).take rec.length = rec := by
  have j := jj_logged hq hr
  obtain ⟨h1, h2, h3, h4, _, _⟩ := j.j.hist q rec hm
  have hf : s.nxtFsync.file = 1 ∧ q.off < s.nxtFsync.off := by
    have hfs := j.j.fs
    unfold acked LSN.le at ha
    simp only [Bool.or_eq_false_iff, decide_eq_false_iff_not, Bool.and_eq_false_iff] at ha
    omega
  have hc := h4 hf.1
  have hd := j.j.fs1 hf.1
  have hdu := j.j.du
  unfold clear at hc
  have hle : q.off + rec.length ≤ s.durable := by omega
  obtain ⟨l, p, _, hp⟩ := j.inv.plain j.j.chk
  exact ⟨hle, hdu, Core.cur_prefix hp h2 (by omega)⟩

/-- The first record is on disk, and its client is told; the second one is not. -/
example : ∃ s g h, Logged 104857600 6553600 s g h ∧ (⟨1, 0⟩, [1, 2]) ∈ h ∧ (⟨1, 2⟩, [3]) ∈ h ∧
    acked s ⟨1, 0⟩ ∧ ¬ acked s ⟨1, 2⟩ := by
  have h0 := Logged.init (size := 104857600) (fqsz := 6553600) (fun _ => 0)
  have h1 := h0.step (.write [1, 2] false) _ (allowed_of (by decide +kernel)) (by simp) rfl
  have h2 := h1.step (.take true) _ trivial (by simp) rfl
  have h3 := h2.step .flush _ trivial (by simp) rfl
  have h4 := h3.step .flush _ trivial (by simp) rfl
  have h5 := h4.step .flush _ trivial (by simp) rfl
  have h6 := h5.step (.write [3] false) _ (allowed_of (by decide +kernel)) (by simp) rfl
  have h7 := h6.step .syncBegin _ trivial (by simp) rfl
  have h8 := h7.step .syncEnd _ trivial (by simp) rfl
  exact ⟨_, _, _, h8, by decide +kernel, by decide +kernel, by unfold acked; decide +kernel,
    by unfold acked; decide +kernel⟩

/-- **C33** does not hold for records that are cut: of a record of more than 32768 bytes, the flusher
writes the first request, and after the next fsync the client is told that the record is on disk. -/
theorem C33_false (data : Nat → Nat) (rec : Bytes) (h1 : auto < rec.length)
    (h2 : rec.length < 104857600) :
    ∃ s1 s2 s3 s4, step (init data 104857600 6553600) (.write rec false) = some (s1, some ⟨1, 0⟩) ∧
      flushOnce s1 false = some s2 ∧ step s2 .syncBegin = some (s3, none) ∧
      step s3 .syncEnd = some (s4, none) ∧ acked s4 ⟨1, 0⟩ ∧ s4.files.cur.length ≤ auto := by
  have hdiv : rec.length / auto ≤ 104857600 / auto := Nat.div_le_div_right (by omega)
  have hdiv2 : 104857600 / auto = 3200 := by decide
  have ha : auto = 32768 := rfl
  obtain ⟨s1, l, p, hw, hc, hct, hla, _, hid, hdw, hcur, hnf, hfs, hsy, _⟩ := write_init data
    (size := 104857600) (fqsz := 6553600) (rec := rec) (by omega) h2 (by
      generalize rec.length / auto = x at hdiv ⊢; omega)
  have hlen := hc.r.length
  rw [hct] at hlen
  have hl : l ≠ [] := by
    intro hl
    subst hl
    have := hc.q.plt
    simp only [total_nil] at hlen
    omega
  obtain ⟨s2, n, l', p', f1, c1, i1, d1, k1, w1, z1, q1, t1, a1, ln1, cur1, ct1, hcase, hn, nf1, sy1, fs1, _⟩ :=
    flushOnce_some (all := false) hc hid hdw (Or.inl hl)
  have hna : n ≤ auto := by
    rcases hcase with ⟨r, e1, e2, _⟩ | ⟨e1, _⟩
    · rw [e2]; exact (hc.q.pos r (by rw [e1]; simp)).2
    · exact absurd e1 hl
  have hle : (s2.nxtFlush.le s2.nxtFsync) = false := by
    rw [nf1, fs1, hnf, hfs]
    simp [LSN.le]
  refine ⟨s1, s2, { s2 with sync := some s2.nxtFlush },
    { s2 with sync := none, nxtFsync := s2.nxtFlush,
              durable := if s2.nxtFlush.file = s2.nxtFlush.file then s2.files.cur.length else s2.durable },
    hw, f1, ?_, ?_, ?_, ?_⟩
  · simp only [step]
    rw [sy1, hsy]
  · simp only [step]
    rw [if_neg (by rw [hle]; simp)]
  · show s2.nxtFlush.le ⟨1, 0⟩ = false
    rw [nf1, hnf]
    simp [LSN.le]
    omega
  · show s2.files.cur.length ≤ auto
    rw [cur1, hcur, List.nil_append, List.length_take]
    omega

/-! ## C39 -/

/-- **C39** (partial).  No assertion of the log buffer fails and no access is outside of it, in particular
at the end of the dual write the size of the next file is the number of bytes the clients have marked.

Partial: while a checkpoint that fails closes its log file, nothing has been written to that file
(see `C39_false`). -/
theorem C39_partial {size fqsz : Nat} (hq : 1 < fqsz) {s : St} {g : Logs}
    (h : Reach (fun s a => Allowed s a ∧ (a = .close → s.files.nextSize = 0)) size fqsz s g)
    (a : Act) (ha : Allowed s a) (hc : a = .close → s.files.nextSize = 0) : ∃ r, step s a = some r := by
  have hi := inv_reach (z := True) hq (fun s a hP => ⟨hP.1, fun _ => hP.2⟩) h
  rcases good_step hi a ha (fun _ => hc) with ⟨s', o, h1, _⟩ | ⟨_, h1, _⟩
  · exact ⟨_, h1⟩
  · exact absurd trivial h1

/-- The flusher is about to switch files, and the sizes agree. -/
example : ∃ s g, Reach (fun s a => Allowed s a ∧ (a = .close → s.files.nextSize = 0)) 104857600 6553600 s g ∧
    decide (s.flight = .comp 1 1 false ∧ s.files.next = some [3]) = true :=
  reach_of _ (checkpoint ++ [.take false, .flush, .flush, .flush, .take false, .flush, .flush, .flush,
      .request ⟨2, 9⟩, .take false])
    (fun s a hm h => ⟨h, fun hc => by rw [hc] at hm; exact absurd hm (by decide)⟩)
    (fun c => decide (c.1.flight = .comp 1 1 false ∧ c.1.files.next = some [3])) (by decide +kernel)

/-- **C39** does not hold in general: a checkpoint that fails leaves the number of bytes that it has
written to the next file; the assertion fails at the end of the next checkpoint, and the server stops. -/
theorem C39_false : ∃ s g, Reach Allowed 104857600 6553600 s g ∧ step s .flush = none := by
  obtain ⟨s, g, h, ht⟩ := reach_of Allowed
    [.openNext, .scan, .write [1] true, .take true, .flush, .flush, .flush, .complete false, .close,
     .openNext, .scan, .complete true, .take false] (fun _ _ _ h => h)
    (fun c => (step c.1 .flush).isNone) (by decide +kernel)
  exact ⟨s, g, h, by simpa using ht⟩

/-! ## C48 -/

/-- **C48** (partial).  At a clean shutdown the last flush brings the whole log into the file, if no
closed flush request is waiting and no dual write is going on; and if requests are waiting, as many calls
of the flush as there are requests would do it. -/
theorem C48_partial {size fqsz : Nat} (hq : 1 < fqsz) {s : St} {g : Logs}
    (h : Reach Allowed size fqsz s g) (hidle : s.flight = .idle) (hm : g.mode = .plain) :
    (used s.buf = 0 → ∃ s', flushOnce s true = some s' ∧ s'.files.cur = g.cur) ∧
    (∃ n ≤ used s.buf + 1, ∃ s', flushes true n s = some s' ∧ s'.files.cur = g.cur) := by
  obtain ⟨l, p, hc, hp⟩ := inv_reach (z := False) hq (fun s a hP => ⟨hP, fun h => h.elim⟩) h
  have hp : Plain False s g l p := by
    rcases hp with h | ⟨x, h⟩ | ⟨x, k, m, h⟩ | ⟨x, n, dsz, d, h⟩
    · exact h
    · have := h.mode; rw [hm] at this; simp at this
    · have := h.mode; rw [hm] at this; simp at this
    · have := h.mode; rw [hm] at this; simp at this
  have hu : used s.buf = l.length := used_eq hc.q
  have hcur := hp.cur
  rw [unwritten_eq, hidle] at hcur
  simp only [gone, List.drop_zero] at hcur
  refine ⟨fun h0 => ?_, ?_⟩
  · have hl : l = [] := List.eq_nil_of_length_eq_zero (by omega)
    subst hl
    rcases Nat.eq_zero_or_pos p.n with h1 | h1
    · refine ⟨s, flushOnce_none hc hidle hp.dw rfl (Or.inl h1), ?_⟩
      have : content s.buf = [] := by
        apply List.eq_nil_of_length_eq_zero
        rw [hc.r.length, h1]; rfl
      rw [this, List.append_nil] at hcur
      exact hcur
    · obtain ⟨s', n, l', p', f1, _, _, _, _, _, _, _, _, _, _, cur1, _, hcase, _⟩ :=
        flushOnce_some (all := true) hc hidle hp.dw (Or.inr ⟨h1, rfl⟩)
      refine ⟨s', f1, ?_⟩
      rcases hcase with ⟨r, e1, _⟩ | ⟨_, e2, _⟩
      · simp at e1
      · rw [cur1, ← hcur, e2, List.take_of_length_le]
        rw [hc.r.length]
        simp
  · obtain ⟨s', p', f1, _, _, _, _, cur1, _⟩ := flushes_all _ s l p hc hidle hp.dw rfl
    refine ⟨_, ?_, s', f1, ?_⟩
    · rw [hu]; split <;> omega
    · rw [cur1, hcur]

/-- A server with two records in the buffer that shuts down. -/
example : ∃ s g, Reach Allowed 104857600 6553600 s g ∧ decide (s.flight = .idle ∧ g.mode = .plain ∧
    used s.buf = 0 ∧ g.cur = [1, 2, 3] ∧ s.files.cur = [] ∧
    (flushOnce s true).map (·.files.cur) = some [1, 2, 3]) = true :=
  reach_of Allowed [.write [1, 2] false, .write [3] false] (fun _ _ _ h => h)
    (fun c => decide (c.1.flight = .idle ∧ c.2.mode = .plain ∧ used c.1.buf = 0 ∧ c.2.cur = [1, 2, 3] ∧
      c.1.files.cur = [] ∧ (flushOnce c.1 true).map (·.files.cur) = some [1, 2, 3])) (by decide +kernel)

/-- **C48** does not hold in general: the shutdown calls the flush once, and a call writes at most 32768
bytes.  The rest of the log is lost, here the end of a record. -/
theorem C48_false (data : Nat → Nat) (rec : Bytes) (h1 : auto < rec.length)
    (h2 : rec.length < 104857600) :
    ∃ s1 s2, step (init data 104857600 6553600) (.write rec false) = some (s1, some ⟨1, 0⟩) ∧
      flushOnce s1 true = some s2 ∧ s2.files.cur.length ≤ auto := by
  have hdiv : rec.length / auto ≤ 104857600 / auto := Nat.div_le_div_right (by omega)
  have hdiv2 : 104857600 / auto = 3200 := by decide
  have ha : auto = 32768 := rfl
  obtain ⟨s1, l, p, hw, hc, hct, hla, _, hid, hdw, hcur, _⟩ := write_init data
    (size := 104857600) (fqsz := 6553600) (rec := rec) (by omega) h2 (by
      generalize rec.length / auto = x at hdiv ⊢; omega)
  have hlen := hc.r.length
  rw [hct] at hlen
  have hl : l ≠ [] := by
    intro hl
    subst hl
    have := hc.q.plt
    simp only [total_nil] at hlen
    omega
  obtain ⟨s2, n, l', p', f1, c1, i1, d1, k1, w1, z1, q1, t1, a1, ln1, cur1, ct1, hcase, _⟩ :=
    flushOnce_some (all := true) hc hid hdw (Or.inl hl)
  refine ⟨s1, s2, hw, f1, ?_⟩
  rw [cur1, hcur, List.nil_append, List.length_take]
  rcases hcase with ⟨r, e1, e2, _⟩ | ⟨e1, _⟩
  · have := (hc.q.pos r (by rw [e1]; simp)).2
    omega
  · exact absurd e1 hl

/-! ## C49 -/

/-- **C49** (partial).  With asynchronous logging, once the clients pause, the flusher (which stops as
soon as a call finds nothing to write) leaves less than 32768 bytes of the log outside of the file.

Partial: no checkpoint is going on, and the room in the queue (`Allowed`). -/
theorem C49_partial {size fqsz : Nat} (hq : 1 < fqsz) {s : St} {g : Logs}
    (h : Reach Allowed size fqsz s g) (hidle : s.flight = .idle) (hm : s.chk = .idle) :
    ∃ n s', flushes false n s = some s' ∧ s'.files.cur ++ unwritten s' = g.cur ∧
      (unwritten s').length < 32768 ∧ used s'.buf = 0 := by
  obtain ⟨l, p, hc, hp⟩ :=
    (inv_reach (z := False) hq (fun s a hP => ⟨hP, fun h => h.elim⟩) h).plain hm
  obtain ⟨s', p', h1, c1, i1, d1, k1, f1, _⟩ := flushes_closed l s p hc hidle hp.dw
  have hcur := hp.cur
  rw [unwritten_eq, hidle] at hcur
  simp only [gone, List.drop_zero] at hcur
  have hu : unwritten s' = content s'.buf := by rw [unwritten_eq, i1]; simp [gone]
  refine ⟨l.length, s', h1, ?_, ?_, ?_⟩
  · rw [hu, f1, hcur]
  · rw [hu, c1.r.length]
    have := c1.q.plt
    simp only [total_nil]
    show 0 + p'.n < auto
    omega
  · rw [used_eq c1.q]; rfl

/-- Two closed requests and an open one (they are closed because the dual write flag changes). -/
example : ∃ s g, Reach Allowed 104857600 6553600 s g ∧ decide (s.flight = .idle ∧ s.chk = .idle ∧
    used s.buf = 2 ∧ (flushes false 2 s).map (fun s => (s.files.cur, unwritten s)) =
      some ([1, 2, 3], [4])) = true :=
  reach_of Allowed [.openNext, .scan, .write [1, 2] false, .write [3] true, .write [4] false,
      .complete false, .close] (fun _ _ _ h => h)
    (fun c => decide (c.1.flight = .idle ∧ c.1.chk = .idle ∧ used c.1.buf = 2 ∧
      (flushes false 2 c.1).map (fun s => (s.files.cur, unwritten s)) = some ([1, 2, 3], [4])))
    (by decide +kernel)

/-! ## C50 -/

/-- **C50** (partial).  A client that has to log a record gets it into the buffer after finitely many
turns of its loop, behind everything that is there.

Partial: no record has more than `m` bytes, where two of them and a flush request fit into the buffer
(see `C50_false`); no other thread runs during the loop; no dual write ends during it; and the room in the
queue. -/
theorem C50_partial {m size fqsz : Nat} (hq : 1 < fqsz) (hsize : 2 * m + 32768 ≤ size) {s : St} {g : Logs}
    (h : Reach (AllowedUpTo m) size fqsz s g) (hidle : s.flight = .idle) (hd : s.buf.dwEnd = none)
    (rec : Bytes) (d : Bool) (h0 : rec ≠ []) (hm : rec.length ≤ m)
    (hroom : used s.buf + rec.length / auto + 3 < s.buf.fqsz) :
    ∃ n s', attempts n s rec d = some (s', some s.nxtWrite) ∧
      s'.files.cur ++ content s'.buf = s.files.cur ++ content s.buf ++ rec := by
  obtain ⟨l, p, hc, _⟩ := inv_reach (z := False) hq (fun s a hP => ⟨hP.1, fun h => h.elim⟩) h
  have hl := reach_last h
  have hsz : s.buf.size = size := hl.1
  have hu : used s.buf = l.length := used_eq hc.q
  obtain ⟨n, s', q, h1, rfl, h3⟩ := attempts_succeed (m := m) rec d (List.length_pos_iff.mpr h0) hm _ s l p hc (hsz.symm ▸ hl)
    (by rw [hsz]; exact hsize) hidle hd (by
      rw [hu] at hroom
      generalize rec.length / auto = x at hroom ⊢
      split <;> omega) (Nat.le_refl _)
  exact ⟨n, s', h1, h3⟩

/-- A small buffer of 40000 bytes in which there is a record of 2 bytes. -/
example : ∃ s g, Reach (AllowedUpTo 3000) 40000 2500 s g ∧ s.flight = .idle ∧ s.buf.dwEnd = none ∧
    content s.buf = [1, 2] ∧ used s.buf + 1 / auto + 3 < s.buf.fqsz := by
  have h0 := Reach.init (P := AllowedUpTo 3000) (size := 40000) (fqsz := 2500) (fun _ => 0)
  have h1 := h0.step (.write [1, 2] false) _ ⟨allowed_of (by decide +kernel), by
    intro rec d h; cases h; decide⟩ rfl
  exact ⟨_, _, h1, rfl, rfl, by decide +kernel, by decide +kernel⟩

/-- **C50** does not hold for every record that is smaller than the buffer: with 52428800 bytes of the
buffer (its half) used and flushed, a record of 52428800 bytes fits neither behind nor in front of that
place.  The client turns in its loop for ever, and keeps its locks. -/
theorem C50_false (data : Nat → Nat) (rec : Bytes) (h : rec.length = 52428800) :
    ∃ s1 n s2, step (init data 104857600 6553600) (.write rec false) = some (s1, some ⟨1, 0⟩) ∧
      flushes true n s1 = some s2 ∧ ∀ k, ∃ s', attempts k s2 rec false = some (s', none) := by
  have ha : auto = 32768 := rfl
  obtain ⟨s1, l, p, hw, hc, hct, hla, htl, hid, hdw, hcur, _, _, _, hsz, _⟩ := write_init data
    (size := 104857600) (fqsz := 6553600) (rec := rec) (by omega) (by omega) (by
      rw [h, ha]; decide)
  obtain ⟨s2, p2, g1, g2, g3, g4, g5, g6, g7, g8, g9, g10⟩ := flushes_all _ s1 l p hc hid hdw rfl
  refine ⟨s1, _, s2, hw, g1, ?_⟩
  have hl2 : s2.buf.last = none := g9 hla
  have ht2 : s2.buf.tail = 52428800 := by rw [g8, htl, h]
  have hs2 : s2.buf.size = 104857600 := g10.trans hsz
  have hh2 : s2.buf.head = 52428800 := by
    have := g2.r
    unfold RInv at this
    rw [hl2] at this
    simp only [total_nil, g3] at this
    omega
  -- the first turn moves the tail to the front
  have hpl : place s2.buf rec.length = some ({ s2.buf with last := some 52428800, tail := 0 }, false) := by
    unfold place
    rw [if_pos (by omega), if_neg (by rw [hl2]; simp), if_neg (by omega), if_pos (by omega)]
    unfold bump
    rw [if_neg (by show ¬ 0 < (s2.buf.fque s2.buf.fend).n; rw [g2.q.opn]; omega), ht2]
    simp only [Option.some.injEq, Prod.mk.injEq, true_and, decide_eq_false_iff_not]
    omega
  have hw1 : write s2 rec false = some ({ s2 with buf := { s2.buf with last := some 52428800, tail := 0 } },
      none) := by
    unfold write
    rw [if_neg (by omega), hpl]
  -- nothing is there to flush, and there is no room from now on
  have hf1 : flushOnce { s2 with buf := { s2.buf with last := some 52428800, tail := 0 } } false =
      some { s2 with buf := { s2.buf with last := some 52428800, tail := 0 } } :=
    flushOnce_empty (s := { s2 with buf := { s2.buf with last := some 52428800, tail := 0 } })
      (g2.q.empty_iff.mpr rfl) (by show (s2.buf.fque s2.buf.fend).n = 0; rw [g2.q.opn]; exact g3) g4 g5 false
  have hw2 : write { s2 with buf := { s2.buf with last := some 52428800, tail := 0 } } rec false =
      some ({ s2 with buf := { s2.buf with last := some 52428800, tail := 0 } }, none) := by
    unfold write
    rw [if_neg (by show ¬ ¬ rec.length < s2.buf.size; omega)]
    have : place { s2.buf with last := some 52428800, tail := 0 } rec.length =
        some ({ s2.buf with last := some 52428800, tail := 0 }, false) := by
      unfold place
      rw [if_neg (by show ¬ s2.buf.head ≤ 0; omega), if_neg (by simp)]
      simp only [Option.some.injEq, Prod.mk.injEq, true_and, decide_eq_false_iff_not]
      omega
    simp only [this]
  have hloop : ∀ k, attempts k { s2 with buf := { s2.buf with last := some 52428800, tail := 0 } } rec false =
      some ({ s2 with buf := { s2.buf with last := some 52428800, tail := 0 } }, none) := by
    intro k
    induction k with
    | zero => rfl
    | succ k ih => rw [attempts, hw2]; simp only; rw [hf1]; exact ih
  intro k
  cases k with
  | zero => exact ⟨s2, rfl⟩
  | succ k =>
    refine ⟨{ s2 with buf := { s2.buf with last := some 52428800, tail := 0 } }, ?_⟩
    rw [attempts, hw1]
    simp only
    rw [hf1]
    exact hloop k

end Verif.LogBuf.Props
