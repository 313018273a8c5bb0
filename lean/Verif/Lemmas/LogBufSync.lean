import Verif.Lemmas.LogBufInv
/-! # Log sequence numbers and fsync, without checkpoints -/
namespace Verif.LogBuf.Lemmas
open Verif.LogBuf Verif.LogBuf.Spec

/-- The requests are determined by the queue. -/
theorem QInv.unique {b : Buf} {l l' : List Req} {p p' : Req} (h : QInv b l p) (h' : QInv b l' p') :
    l = l' ∧ p = p' := by
  have hlen : l.length = l'.length := by
    apply rot_inj h.len h'.len
    rw [← h.fend, ← h'.fend]
  refine ⟨?_, by rw [← h.opn, ← h'.opn]⟩
  apply List.ext_getElem hlen
  intro i h1 h2
  rw [← h.ent i h1, ← h'.ent i h2]

/-- Bytes that are in the file but not counted in `nxt_flush_lsn`. -/
def lsnN : Flight → Nat
  | .lsn n => n
  | _ => 0

/-- `y` is not inside of the record. -/
def clear (q : LSN) (rec : Bytes) (y : Nat) : Prop := y ≤ q.off ∨ q.off + rec.length ≤ y

structure J (s : St) (g : Logs) (h : List (LSN × Bytes)) : Prop where
  chk : s.chk = .idle
  wr : s.nxtWrite = ⟨1, g.cur.length⟩
  fl1 : s.nxtFlush.file = 1
  fl2 : s.nxtFlush.off + lsnN s.flight = s.files.cur.length
  fs : s.nxtFsync.file ≤ 1
  fs1 : s.nxtFsync.file = 1 → s.nxtFsync.off ≤ s.durable
  du : s.durable ≤ s.files.cur.length
  sy : ∀ q, s.sync = some q → q.file = 1 ∧ q.off ≤ s.files.cur.length
  hist : ∀ q rec, (q, rec) ∈ h → q.file = 1 ∧ (g.cur.drop q.off).take rec.length = rec ∧
    q.off + rec.length ≤ g.cur.length ∧ (s.nxtFsync.file = 1 → clear q rec s.nxtFsync.off) ∧
    (∀ q', s.sync = some q' → clear q rec q'.off) ∧
    (∀ l p, QInv s.buf l p → ∀ k, k ≤ l.length →
      clear q rec (s.files.cur.length - gone s.flight + total (l.take k)))

theorem total_take_le (l : List Req) (k : Nat) : total (l.take k) ≤ total l := by
  have : total l = total (l.take k) + total (l.drop k) := by rw [← total_append, List.take_append_drop]
  omega

/-- In front of a checkpoint the state is a plain one. -/
theorem Inv.plain {z : Prop} {s : St} {g : Logs} (hi : Inv z s g) (hc : s.chk = .idle) :
    ∃ l p, Core s l p ∧ Plain z s g l p := by
  obtain ⟨l, p, hcore, hm⟩ := hi
  rcases hm with h | ⟨x, h⟩ | ⟨x, k, m, h⟩ | ⟨x, n, dsz, dd, h⟩
  · exact ⟨l, p, hcore, h⟩
  · have := h.chk; rw [hc] at this; simp at this
  · have := h.chk; rw [hc] at this; simp at this
  · have := h.chk; rw [hc] at this; simp at this

theorem Plain.length {z : Prop} {s : St} {g : Logs} {l : List Req} {p : Req} (hc : Core s l p)
    (h : Plain z s g l p) : s.files.cur.length + (total l + p.n) = g.cur.length + gone s.flight := by
  have h1 := congrArg List.length h.cur
  rw [List.length_append, unwritten_eq, List.length_drop, hc.r.length] at h1
  have := hc.gone_le
  omega

theorem j_init (data : Nat → Nat) (size fqsz : Nat) : J (init data size fqsz) ⟨[], [], .plain⟩ [] := by
  refine ⟨rfl, rfl, rfl, rfl, by simp [init], by simp [init], by simp [init], by simp [init], ?_⟩
  intro q rec h
  simp at h

/-- The file has the bytes of the request that is being flushed. -/
theorem gone_file {s : St} {g : Logs} {h : List (LSN × Bytes)} (j : J s g h)
    (hfin : ∀ n, s.flight = .fin n → n ≤ s.nxtFlush.off) : gone s.flight ≤ s.files.cur.length := by
  have := j.fl2
  cases hf : s.flight with
  | lsn n => rw [hf] at this; simp [lsnN] at this; simp [gone]; omega
  | fin n => rw [hf] at this; simp [lsnN] at this; have := hfin n hf; simp [gone]; omega
  | _ => simp [gone]

/-- Everything together. -/
structure JJ (s : St) (g : Logs) (h : List (LSN × Bytes)) : Prop where
  inv : Inv False s g
  j : J s g h
  fin : ∀ n, s.flight = .fin n → n ≤ s.nxtFlush.off

theorem JJ.gone_le {s : St} {g : Logs} {h : List (LSN × Bytes)} (j : JJ s g h) :
    gone s.flight ≤ s.files.cur.length := gone_file j.j j.fin

/-- Where `nxt_flush_lsn` stands. -/
theorem JJ.flush_clear {s : St} {g : Logs} {h : List (LSN × Bytes)} (j : JJ s g h) {q : LSN} {rec : Bytes}
    (hm : (q, rec) ∈ h) : clear q rec s.nxtFlush.off := by
  obtain ⟨l, p, hcore, hp⟩ := j.inv.plain j.j.chk
  have hb := (j.j.hist q rec hm).2.2.2.2.2 l p hcore.q
  have h2 := j.j.fl2
  have hg := j.gone_le
  cases hf : s.flight with
  | idle =>
    have := hb 0 (by omega)
    rw [hf] at this h2
    simp only [gone, lsnN, List.take_zero, total_nil] at this h2
    have e : s.nxtFlush.off = s.files.cur.length - 0 + 0 := by omega
    rw [e]; exact this
  | comp a b c => have := hp.nc; rw [hf] at this; simp [isComp] at this
  | put n d =>
    have := hb 0 (by omega)
    rw [hf] at this h2
    simp only [gone, lsnN, List.take_zero, total_nil] at this h2
    have e : s.nxtFlush.off = s.files.cur.length - 0 + 0 := by omega
    rw [e]; exact this
  | lsn n =>
    have := hb 0 (by omega)
    rw [hf] at this h2
    simp only [gone, lsnN, List.take_zero, total_nil] at this h2
    have e : s.nxtFlush.off = s.files.cur.length - n + 0 := by omega
    rw [e]; exact this
  | fin n =>
    have hn := hcore.pos (by rw [hf]; rfl) (by rw [hf]; simp)
    obtain ⟨r, t, rfl, hr, _⟩ := hcore.fl hn
    have := hb 1 (by simp)
    rw [hf] at this h2 hr hg
    simp only [gone, lsnN, busy, List.take_succ_cons, List.take_zero, total_cons, total_nil] at this h2 hr hg
    have e : s.nxtFlush.off = s.files.cur.length - n + (r.n + 0) := by omega
    rw [e]; exact this

theorem jj_step {s s' : St} {g : Logs} {h : List (LSN × Bytes)} {a : Act} {o : Option LSN}
    (jj : JJ s g h) (ha : Allowed s a) (hne : a ≠ .openNext) (hs : step s a = some (s', o)) :
    JJ s' (g.next s a o) (note s a o h) := by
  have hinv' : Inv False s' (g.next s a o) := by
    rcases good_step jj.inv a ha (fun z => z.elim) with ⟨s1, o1, h1, h2⟩ | ⟨h1, _⟩
    · rw [hs] at h1
      obtain ⟨rfl, rfl⟩ : s' = s1 ∧ o = o1 := by simpa using h1
      exact h2
    · rw [hs] at h1; simp at h1
  obtain ⟨hinv, j, hfin⟩ := jj
  have jj : JJ s g h := ⟨hinv, j, hfin⟩
  obtain ⟨l, p, hcore, hp⟩ := hinv.plain j.chk
  have hlen := hp.length hcore
  have hgle := jj.gone_le
  -- steps of the checkpoint thread do nothing
  have same : s' = s → g.next s a o = g → note s a o h = h →
      JJ s' (g.next s a o) (note s a o h) := by
    rintro rfl hg hn
    rw [hg, hn]; exact jj
  cases a with
  | write rec d =>
    obtain ⟨h0, h1, h2, h3⟩ := ha
    rw [used_eq hcore.q] at h3
    have h0' : 0 < rec.length := List.length_pos_iff.mpr h0
    obtain ⟨b', t, p', ok, hw, hq, hr, hct, hfl, hsz, hfq, hbg, hdw, hds, hlast, hends⟩ :=
      write_spec (d := d) hcore.q hcore.r h0' h1 h3
    have hs : write s rec d = some (s', o) := hs
    rw [hw] at hs
    simp only [Option.some.injEq, Prod.mk.injEq] at hs
    obtain ⟨rfl, rfl⟩ := hs
    have hgn : g.next s (.write rec d) (if ok = true then some s.nxtWrite else none) =
        { g with cur := g.cur ++ (if ok then rec else []) } := by
      have hmo := hp.mode
      rcases g with ⟨gc, gn, gm⟩
      simp only at hmo
      subst hmo
      cases ok <;> simp [Logs.next]
    rw [hgn] at hinv' ⊢
    refine ⟨hinv', ⟨j.chk, ?_, j.fl1, j.fl2, j.fs, j.fs1, j.du, j.sy, ?_⟩, hfin⟩
    · show (⟨s.nxtWrite.file, _⟩ : LSN) = _
      rw [j.wr, List.length_append]
      cases ok <;> rfl
    · -- the remembered records
      have old : ∀ q r, (q, r) ∈ h → q.file = 1 ∧
          ((g.cur ++ (if ok then rec else [])).drop q.off).take r.length = r ∧
          q.off + r.length ≤ (g.cur ++ (if ok then rec else [])).length ∧
          (s.nxtFsync.file = 1 → clear q r s.nxtFsync.off) ∧
          (∀ q', s.sync = some q' → clear q r q'.off) ∧
          (∀ l p, QInv b' l p → ∀ k, k ≤ l.length →
            clear q r (s.files.cur.length - gone s.flight + total (l.take k))) := by
        intro q r hm
        obtain ⟨a1, a2, a3, a4, a5, a6⟩ := j.hist q r hm
        refine ⟨a1, ?_, ?_, a4, a5, ?_⟩
        · rw [List.drop_append_of_le_length (by omega), List.take_append_of_le_length (by
            rw [List.length_drop]; omega)]
          exact a2
        · rw [List.length_append]; omega
        · intro l2 p2 hq2 k hk
          obtain ⟨rfl, rfl⟩ := hq2.unique hq
          by_cases hkl : k ≤ l.length
          · rw [List.take_append_of_le_length hkl]
            exact a6 l p hcore.q k hkl
          · have := (hends k (by omega) hk).1
            right
            omega
      intro q r hm
      show q.file = 1 ∧ ((g.cur ++ _).drop q.off).take r.length = r ∧ _
      by_cases hok : ok = true ∧ fits s rec = true
      · obtain ⟨rfl, hfit⟩ := hok
        have hm : (q, r) ∈ (s.nxtWrite, rec) :: h := by
          simpa [note, hfit] using hm
        rcases List.mem_cons.mp hm with hm | hm
        · have hqr : q = s.nxtWrite ∧ r = rec := by simpa using hm
          obtain ⟨rfl, rfl⟩ := hqr
          have hfit : p.n + r.length ≤ auto := by
            have : (s.buf.fque s.buf.fend).n + r.length ≤ auto := by simpa [fits] using hfit
            rwa [hcore.q.opn] at this
          have hcurle : s.files.cur.length ≤ g.cur.length := by
            have := congrArg List.length hp.cur
            rw [List.length_append] at this
            omega
          have hoff : s.nxtWrite.off = g.cur.length := by rw [j.wr]
          refine ⟨by rw [j.wr], ?_, ?_, ?_, ?_, ?_⟩
          · rw [hoff]; simp
          · rw [hoff]; simp
          · intro h5
            left
            have := j.fs1 h5
            have := j.du
            show s.nxtFsync.off ≤ _
            omega
          · intro q' hq'
            left
            have := (j.sy q' hq').2
            omega
          · intro l2 p2 hq2 k hk
            obtain ⟨rfl, rfl⟩ := hq2.unique hq
            show clear _ _ (s.files.cur.length - gone s.flight + _)
            by_cases hkl : k ≤ l.length
            · rw [List.take_append_of_le_length hkl]
              left
              have := total_take_le l k
              omega
            · rcases (hends k (by omega) hk).2 hfit with h5 | h5
              · left; omega
              · right; omega
        · exact old q r hm
      · have hm : (q, r) ∈ h := by
          cases ok with
          | false => simpa [note] using hm
          | true =>
            have : fits s rec = false := by simpa using hok
            simpa [note, this] using hm
        exact old q r hm
  | take all =>
    have hnote : note s (.take all) o h = h := rfl
    have hgn : g.next s (.take all) o = g := rfl
    rw [hnote]
    rw [hgn] at hinv' ⊢
    by_cases hid : s.flight = .idle
    · have hd : s.buf.dwEnd ≠ some s.buf.fbgn := by rw [hp.dw]; simp
      obtain ⟨b1, r, l', p', hch, hq, hr, hct, hsame, hfl, hll, hpos, hzero⟩ :=
        choose_spec (s := s) hcore.q hcore.r hcore.fq all
      have hst : step s (.take all) = some ({ s with
          buf := if 0 < r.n then wrapHead b1 else b1
          flight := if 0 < r.n then .put r.n r.dual else .idle }, none) := by
        simp only [step, hid, take, if_neg hd]
        rw [hch]
        rfl
      rw [hst] at hs
      simp only [Option.some.injEq, Prod.mk.injEq] at hs
      obtain ⟨rfl, rfl⟩ := hs
      have hg0 : gone s.flight = 0 := by rw [hid]; rfl
      have hgn0 : gone (if 0 < r.n then Flight.put r.n r.dual else Flight.idle) = 0 := by split <;> rfl
      have hls0 : lsnN s.flight = 0 := by rw [hid]; rfl
      have hls : lsnN (if 0 < r.n then Flight.put r.n r.dual else Flight.idle) = 0 := by split <;> rfl
      have hnf : ∀ n, (if 0 < r.n then Flight.put r.n r.dual else Flight.idle) ≠ .fin n := by
        intro n; split <;> simp
      generalize (if 0 < r.n then Flight.put r.n r.dual else Flight.idle) = fl at *
      generalize (if 0 < r.n then wrapHead b1 else b1) = b2 at *
      refine ⟨hinv', ⟨j.chk, j.wr, j.fl1, ?_, j.fs, j.fs1, j.du, j.sy, ?_⟩, fun n hn => absurd hn (hnf n)⟩
      · show s.nxtFlush.off + lsnN fl = _
        rw [hls, ← hls0]; exact j.fl2
      · intro q r' hm
        obtain ⟨a1, a2, a3, a4, a5, a6⟩ := j.hist q r' hm
        refine ⟨a1, a2, a3, a4, a5, ?_⟩
        intro l2 p2 hq2 k hk
        obtain ⟨rfl, rfl⟩ := hq2.unique hq
        show clear _ _ (s.files.cur.length - gone fl + _)
        rcases hll with ⟨rfl, rfl⟩ | ⟨rfl, rfl, hp0⟩
        · have := a6 l2 p2 hcore.q k hk
          rwa [hgn0, ← hg0]
        · rcases Nat.eq_zero_or_pos k with rfl | hk0
          · have := a6 [] p hcore.q 0 (by simp)
            simp only [List.take_zero] at this ⊢
            rwa [hgn0, ← hg0]
          · have : k = 1 := by simp at hk; omega
            subst this
            right
            simp only [List.take_succ_cons, List.take_zero, total_cons, total_nil] at hlen ⊢
            omega
    · have : step s (.take all) = some (s, none) := by
        simp only [step]
      rw [this] at hs
      simp only [Option.some.injEq, Prod.mk.injEq] at hs
      obtain ⟨rfl, rfl⟩ := hs
      exact jj
  | flush =>
    have hnote : note s .flush o h = h := rfl
    rw [hnote]
    cases hf : s.flight with
    | idle =>
      have hst : step s .flush = some (s, none) := by simp [step, flush, hf]
      rw [hst] at hs
      simp only [Option.some.injEq, Prod.mk.injEq] at hs
      obtain ⟨rfl, rfl⟩ := hs
      have hgn : g.next s .flush none = g := by simp [Logs.next, hf]
      rw [hgn]; exact jj
    | comp x y z => have := hp.nc; rw [hf] at this; simp [isComp] at this
    | put n d =>
      have hgn : g.next s .flush o = g := by simp [Logs.next, hf]
      rw [hgn] at hinv' ⊢
      have hn : 0 < n := by
        have := hcore.pos (by rw [hf]; rfl) (by rw [hf]; simp)
        rw [hf] at this; exact this
      obtain ⟨r, t, rfl, hrn, hlast⟩ := hcore.fl (by rw [hf]; exact hn)
      rw [hf] at hrn
      have hrn : r.n = n := hrn
      subst hrn
      obtain ⟨hsp, hsl⟩ := head_slice hcore.q hcore.r hlast
      have hst : step s .flush = some ({ s with files := s.files.write (slice s.buf.data s.buf.head r.n) d,
                                                flight := .lsn r.n }, none) := by
        simp only [step, flush, hf]
        rw [if_pos hsp]; rfl
      rw [hst] at hs
      simp only [Option.some.injEq, Prod.mk.injEq] at hs
      obtain ⟨rfl, rfl⟩ := hs
      have hcl : (s.files.write (slice s.buf.data s.buf.head r.n) d).cur.length = s.files.cur.length + r.n := by
        have : (s.files.write (slice s.buf.data s.buf.head r.n) d).cur =
            s.files.cur ++ slice s.buf.data s.buf.head r.n := by
          unfold Files.write; split <;> rfl
        rw [this, List.length_append, slice_length]
      have h2 := j.fl2
      rw [hf] at h2
      simp only [lsnN] at h2
      refine ⟨hinv', ⟨j.chk, j.wr, j.fl1, ?_, j.fs, j.fs1, ?_, ?_, ?_⟩, fun n hn => by simp at hn⟩
      · show s.nxtFlush.off + r.n = (s.files.write _ d).cur.length
        rw [hcl]; omega
      · show s.durable ≤ (s.files.write _ d).cur.length
        have := j.du
        rw [hcl]; omega
      · intro q hq
        have := j.sy q hq
        refine ⟨this.1, ?_⟩
        show _ ≤ (s.files.write _ d).cur.length
        rw [hcl]; omega
      · intro q r' hm
        obtain ⟨a1, a2, a3, a4, a5, a6⟩ := j.hist q r' hm
        refine ⟨a1, a2, a3, a4, a5, ?_⟩
        intro l2 p2 hq2 k hk
        have := a6 l2 p2 hq2 k hk
        rw [hf] at this
        simp only [gone] at this
        show clear q r' ((s.files.write _ d).cur.length - r.n + _)
        rw [hcl]
        have e : s.files.cur.length + r.n - r.n = s.files.cur.length - 0 := by omega
        rw [e]; exact this
    | lsn n =>
      have hgn : g.next s .flush o = g := by simp [Logs.next, hf]
      rw [hgn] at hinv' ⊢
      have hst : step s .flush = some ({ s with nxtFlush := ⟨s.nxtFlush.file, s.nxtFlush.off + n⟩,
                                                flight := .fin n }, none) := by
        simp only [step, flush, hf]; rfl
      rw [hst] at hs
      simp only [Option.some.injEq, Prod.mk.injEq] at hs
      obtain ⟨rfl, rfl⟩ := hs
      have h2 := j.fl2
      rw [hf] at h2
      simp only [lsnN] at h2
      refine ⟨hinv', ⟨j.chk, j.wr, j.fl1, ?_, j.fs, j.fs1, j.du, j.sy, ?_⟩, ?_⟩
      · show s.nxtFlush.off + n + 0 = _
        omega
      · intro q r' hm
        obtain ⟨a1, a2, a3, a4, a5, a6⟩ := j.hist q r' hm
        refine ⟨a1, a2, a3, a4, a5, ?_⟩
        intro l2 p2 hq2 k hk
        have := a6 l2 p2 hq2 k hk
        rw [hf] at this
        exact this
      · intro m hm
        simp only [Flight.fin.injEq] at hm
        subst hm
        show n ≤ s.nxtFlush.off + n
        omega
    | fin n =>
      have hgn : g.next s .flush o = g := by simp [Logs.next, hf]
      rw [hgn] at hinv' ⊢
      have hn : 0 < n := by
        have := hcore.pos (by rw [hf]; rfl) (by rw [hf]; simp)
        rw [hf] at this; exact this
      obtain ⟨r, t, rfl, hrn, hlast⟩ := hcore.fl (by rw [hf]; exact hn)
      rw [hf] at hrn
      have hrn : r.n = n := hrn
      subst hrn
      obtain ⟨hq, hr, hct, hsz, hfqs, hdw, hds, hbg⟩ := fin_spec hcore.q hcore.r hlast
      have hst : ∃ b2, step s .flush = some ({ s with buf := b2, flight := .idle }, none) ∧ QInv b2 t p :=
        ⟨_, by simp only [step, flush, hf]; rfl, hq⟩
      obtain ⟨b2, hst, hq⟩ := hst
      rw [hst] at hs
      simp only [Option.some.injEq, Prod.mk.injEq] at hs
      obtain ⟨rfl, rfl⟩ := hs
      have h2 := j.fl2
      rw [hf] at h2 hgle
      simp only [lsnN] at h2
      simp only [gone] at hgle
      refine ⟨hinv', ⟨j.chk, j.wr, j.fl1, h2, j.fs, j.fs1, j.du, j.sy, ?_⟩, fun m hm => by simp at hm⟩
      intro q r' hm
      obtain ⟨a1, a2, a3, a4, a5, a6⟩ := j.hist q r' hm
      refine ⟨a1, a2, a3, a4, a5, ?_⟩
      intro l2 p2 hq2 k hk
      obtain ⟨rfl, rfl⟩ := hq2.unique hq
      have := a6 (r :: l2) p2 hcore.q (k + 1) (by simpa using hk)
      rw [hf] at this
      simp only [gone, List.take_succ_cons, total_cons] at this
      show clear q r' (s.files.cur.length - 0 + _)
      have e : s.files.cur.length - 0 + total (l2.take k) =
          s.files.cur.length - r.n + (r.n + total (l2.take k)) := by omega
      rw [e]; exact this
  | request x =>
    have hnote : note s (.request x) o h = h := rfl
    have hgn : g.next s (.request x) o = g := rfl
    by_cases hc : (s.nxtFlush.le x = true ∧ s.uptFlush.le x = true)
    · have hst : step s (.request x) = some ({ s with uptFlush := x }, none) := by
        simp only [step]; rw [if_pos hc]
      rw [hst] at hs
      simp only [Option.some.injEq, Prod.mk.injEq] at hs
      obtain ⟨rfl, rfl⟩ := hs
      exact ⟨hinv', ⟨j.chk, j.wr, j.fl1, j.fl2, j.fs, j.fs1, j.du, j.sy, j.hist⟩, hfin⟩
    · have hst : step s (.request x) = some (s, none) := by
        simp only [step]; rw [if_neg hc]
      rw [hst] at hs
      simp only [Option.some.injEq, Prod.mk.injEq] at hs
      obtain ⟨rfl, rfl⟩ := hs
      exact jj
  | openNext => exact absurd rfl hne
  | scan =>
    have hst : step s .scan = some (s, none) := by simp [step, j.chk]
    rw [hst] at hs
    simp only [Option.some.injEq, Prod.mk.injEq] at hs
    obtain ⟨rfl, rfl⟩ := hs
    exact same rfl (by simp [Logs.next, j.chk]) rfl
  | complete ok =>
    have hst : step s (.complete ok) = some (s, none) := by simp [step, j.chk]
    rw [hst] at hs
    simp only [Option.some.injEq, Prod.mk.injEq] at hs
    obtain ⟨rfl, rfl⟩ := hs
    exact same rfl (by simp [Logs.next, j.chk]) rfl
  | close =>
    have hst : step s .close = some (s, none) := by simp [step, j.chk]
    rw [hst] at hs
    simp only [Option.some.injEq, Prod.mk.injEq] at hs
    obtain ⟨rfl, rfl⟩ := hs
    exact jj
  | finished =>
    have hst : step s .finished = some (s, none) := by simp [step, j.chk]
    rw [hst] at hs
    simp only [Option.some.injEq, Prod.mk.injEq] at hs
    obtain ⟨rfl, rfl⟩ := hs
    exact jj
  | syncBegin =>
    cases hsy : s.sync with
    | some x =>
      have hst : step s .syncBegin = some (s, none) := by simp [step, hsy]
      rw [hst] at hs
      simp only [Option.some.injEq, Prod.mk.injEq] at hs
      obtain ⟨rfl, rfl⟩ := hs
      exact jj
    | none =>
      have hst : step s .syncBegin = some ({ s with sync := some s.nxtFlush }, none) := by
        simp [step, hsy]
      rw [hst] at hs
      simp only [Option.some.injEq, Prod.mk.injEq] at hs
      obtain ⟨rfl, rfl⟩ := hs
      refine ⟨hinv', ⟨j.chk, j.wr, j.fl1, j.fl2, j.fs, j.fs1, j.du, ?_, ?_⟩, hfin⟩
      · intro q hq
        have hq : some s.nxtFlush = some q := hq
        simp only [Option.some.injEq] at hq
        subst hq
        have := j.fl2
        exact ⟨j.fl1, by show _ ≤ s.files.cur.length; omega⟩
      · intro q r' hm
        obtain ⟨a1, a2, a3, a4, a5, a6⟩ := j.hist q r' hm
        refine ⟨a1, a2, a3, a4, ?_, a6⟩
        intro q' hq'
        have hq' : some s.nxtFlush = some q' := hq'
        simp only [Option.some.injEq] at hq'
        subst hq'
        exact jj.flush_clear hm
  | syncEnd =>
    cases hsy : s.sync with
    | none =>
      have hst : step s .syncEnd = some (s, none) := by simp [step, hsy]
      rw [hst] at hs
      simp only [Option.some.injEq, Prod.mk.injEq] at hs
      obtain ⟨rfl, rfl⟩ := hs
      exact jj
    | some x =>
      obtain ⟨hx1, hx2⟩ := j.sy x hsy
      by_cases hc : x.le s.nxtFsync = true
      · have hst : step s .syncEnd = some ({ s with sync := none }, none) := by
          simp only [step, hsy]; rw [if_pos hc]
        rw [hst] at hs
        simp only [Option.some.injEq, Prod.mk.injEq] at hs
        obtain ⟨rfl, rfl⟩ := hs
        refine ⟨hinv', ⟨j.chk, j.wr, j.fl1, j.fl2, j.fs, j.fs1, j.du, fun q hq => by simp at hq, ?_⟩, hfin⟩
        intro q r' hm
        obtain ⟨a1, a2, a3, a4, a5, a6⟩ := j.hist q r' hm
        exact ⟨a1, a2, a3, a4, fun q' hq' => by simp at hq', a6⟩
      · have hst : step s .syncEnd = some ({ s with sync := none, nxtFsync := x,
                                                    durable := s.files.cur.length }, none) := by
          simp only [step, hsy]
          rw [if_neg hc, if_pos (by rw [hx1, j.fl1])]
        rw [hst] at hs
        simp only [Option.some.injEq, Prod.mk.injEq] at hs
        obtain ⟨rfl, rfl⟩ := hs
        refine ⟨hinv', ⟨j.chk, j.wr, j.fl1, j.fl2, by show x.file ≤ 1; omega, fun _ => hx2, Nat.le_refl _,
          fun q hq => by simp at hq, ?_⟩, hfin⟩
        intro q r' hm
        obtain ⟨a1, a2, a3, a4, a5, a6⟩ := j.hist q r' hm
        exact ⟨a1, a2, a3, fun _ => a5 x hsy, fun q' hq' => by simp at hq', a6⟩

theorem jj_logged {size fqsz : Nat} (hq : 1 < fqsz) {s : St} {g : Logs} {h : List (LSN × Bytes)}
    (hr : Logged size fqsz s g h) : JJ s g h := by
  induction hr with
  | init data => exact ⟨inv_init False data hq, j_init data size fqsz, fun n hn => by simp [init] at hn⟩
  | @step s s' g h a o _ ha hne hs ih => exact jj_step ih ha hne hs

theorem Core.cur_prefix {z : Prop} {s : St} {g : Logs} {l : List Req} {p : Req} (hp : Plain z s g l p)
    {off n : Nat} {rec : Bytes} (h : (g.cur.drop off).take n = rec) (hn : off + n ≤ s.files.cur.length) :
    (s.files.cur.drop off).take n = rec := by
  rw [← h, ← hp.cur, List.drop_append_of_le_length (by omega),
    List.take_append_of_le_length (by rw [List.length_drop]; omega)]

end Verif.LogBuf.Lemmas
