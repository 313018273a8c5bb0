import Verif.Lemmas.LogBufTake
/-! # What the files and the ring hold together -/
namespace Verif.LogBuf.Lemmas
open Verif.LogBuf Verif.LogBuf.Spec

/-- The marked bytes. -/
def sel : Bytes → List Bool → Bytes
  | a :: as, true :: fs => a :: sel as fs
  | _ :: as, false :: fs => sel as fs
  | _, _ => []

theorem sel_append : ∀ (a : Bytes) (f : List Bool) (b : Bytes) (h : List Bool), a.length = f.length →
    sel (a ++ b) (f ++ h) = sel a f ++ sel b h
  | [], [], _, _, _ => rfl
  | [], _ :: _, _, _, e => by simp at e
  | _ :: _, [], _, _, e => by simp at e
  | x :: a, true :: f, b, h, e => by
    simp only [List.cons_append, sel]
    rw [sel_append a f b h (by simpa using e)]
  | x :: a, false :: f, b, h, e => by
    simp only [List.cons_append, sel]
    rw [sel_append a f b h (by simpa using e)]

theorem sel_false : ∀ (a : Bytes) (f : List Bool), (∀ x ∈ f, x = false) → sel a f = []
  | [], _, _ => by unfold sel; rfl
  | _ :: _, [], _ => rfl
  | _ :: a, true :: f, h => by simp at h
  | _ :: a, false :: f, h => by
    simp only [sel]
    exact sel_false a f (fun x hx => h x (by simp [hx]))

theorem sel_replicate : ∀ (a : Bytes) (d : Bool), sel a (List.replicate a.length d) = if d then a else []
  | [], d => by cases d <;> rfl
  | x :: a, true => by
    simp only [List.length_cons, List.replicate_succ, sel, sel_replicate a true, if_true]
  | x :: a, false => by
    simp [List.replicate_succ, sel, sel_replicate a false]

theorem sel_sublist : ∀ (a : Bytes) (f : List Bool), (sel a f).Sublist a
  | [], _ => by unfold sel; exact List.Sublist.refl _
  | _ :: a, [] => by unfold sel; exact List.nil_sublist _
  | x :: a, true :: f => by simp only [sel]; exact (sel_sublist a f).cons_cons x
  | x :: a, false :: f => by simp only [sel]; exact (sel_sublist a f).cons x

/-- Bytes of the first request that are in the file already. -/
def gone : Flight → Nat
  | .lsn n => n
  | .fin n => n
  | _ => 0

/-- Size of the request that is being flushed. -/
def busy : Flight → Nat
  | .idle => 0
  | .comp _ n _ => n
  | .put n _ => n
  | .lsn n => n
  | .fin n => n

/-- The flag of the request that is going to be written. -/
def putDual : Flight → Option Bool
  | .put _ d => some d
  | _ => none

/-- Is the flusher about to switch files? -/
def isComp : Flight → Bool
  | .comp _ _ _ => true
  | _ => false

theorem unwritten_eq (s : St) : unwritten s = (content s.buf).drop (gone s.flight) := by
  unfold unwritten
  cases s.flight <;> simp [gone]

theorem gone_le_busy (f : Flight) : gone f ≤ busy f := by cases f <;> simp [gone, busy]

/-- The ring, the queue and the flusher. -/
structure Core (s : St) (l : List Req) (p : Req) : Prop where
  q : QInv s.buf l p
  r : RInv s.buf l p
  fq : 1 < s.buf.fqsz
  fl : 0 < busy s.flight → ∃ r t, l = r :: t ∧ r.n = busy s.flight ∧ s.buf.last ≠ some s.buf.head
  pos : isComp s.flight = false → s.flight ≠ .idle → 0 < busy s.flight

/-- Flags of the bytes that are not in the file. -/
def pflags (s : St) (l : List Req) (p : Req) : List Bool := (flags l p).drop (gone s.flight)

theorem Core.gone_le {s : St} {l : List Req} {p : Req} (h : Core s l p) :
    gone s.flight ≤ total l + p.n := by
  rcases Nat.eq_zero_or_pos (busy s.flight) with h0 | h0
  · have := gone_le_busy s.flight; omega
  · obtain ⟨r, t, rfl, hr, _⟩ := h.fl h0
    have := gone_le_busy s.flight
    simp only [total_cons]
    omega

theorem Core.pflags_length {s : St} {l : List Req} {p : Req} (h : Core s l p) :
    (unwritten s).length = (pflags s l p).length := by
  rw [unwritten_eq, pflags, List.length_drop, List.length_drop, h.r.length, flags_length]

/-- No checkpoint is copying. -/
structure Plain (z : Prop) (s : St) (g : Logs) (l : List Req) (p : Req) : Prop where
  mode : g.mode = .plain
  nc : isComp s.flight = false
  dw : s.buf.dwEnd = none
  chk : s.chk ≠ .scanning
  cur : s.files.cur ++ unwritten s = g.cur
  fl : ∀ f ∈ flags l p, f = false
  none1 : s.chk = .idle ∨ s.chk = .waiting → s.files.next = none
  some1 : s.chk = .opened → s.files.next = some []
  pd : s.chk = .opened ∨ s.chk = .waiting → putDual s.flight ≠ some true
  sz : z → s.buf.dwSize = 0 ∧ (s.chk ≠ .failed → s.files.nextSize = 0)

/-- The snapshot is being made. -/
structure Both (z : Prop) (s : St) (g : Logs) (l : List Req) (p : Req) (x : Bytes) : Prop where
  mode : g.mode = .both
  nc : isComp s.flight = false
  dw : s.buf.dwEnd = none
  chk : s.chk = .scanning
  cur : s.files.cur ++ unwritten s = g.cur
  nxt : s.files.next = some x
  new : x ++ sel (unwritten s) (pflags s l p) = g.new
  pd : ∀ d, putDual s.flight = some d → ∃ r t, l = r :: t ∧ r.dual = d
  sz : z → s.files.nextSize = x.length ∧ s.buf.dwSize = g.new.length

/-- The snapshot is complete, the end of the dual write has not been reached. -/
structure Mark (z : Prop) (s : St) (g : Logs) (l : List Req) (p : Req) (x : Bytes) (k m : Nat) :
    Prop where
  mode : g.mode = .after
  nc : isComp s.flight = false
  dw : s.buf.dwEnd = some (rot s.buf k)
  chk : s.chk = .waiting
  kl : k ≤ l.length
  kpos : 0 < busy s.flight → 0 < k
  sum : total (l.take k) = m + gone s.flight
  ml : m ≤ (unwritten s).length
  cur : s.files.cur ++ (unwritten s).take m = g.cur
  nxt : s.files.next = some x
  new : x ++ (sel ((unwritten s).take m) ((pflags s l p).take m) ++ (unwritten s).drop m) = g.new
  fl : ∀ f ∈ (pflags s l p).drop m, f = false
  pd : ∀ d, putDual s.flight = some d → ∃ r t, l = r :: t ∧ r.dual = d
  sz : z → s.files.nextSize = x.length ∧ s.buf.dwSize + ((unwritten s).drop m).length = g.new.length

/-- The flusher is about to switch to the next file. -/
structure Comp (z : Prop) (s : St) (g : Logs) (l : List Req) (p : Req) (x : Bytes) (n dsz : Nat)
    (d : Bool) : Prop where
  mode : g.mode = .after
  fli : s.flight = .comp dsz n d
  dw : s.buf.dwEnd = none
  chk : s.chk = .waiting
  cur : s.files.cur = g.cur
  nxt : s.files.next = some x
  new : x ++ unwritten s = g.new
  fl : ∀ f ∈ flags l p, f = false
  pd : 0 < n → d = false
  sz : z → dsz = s.files.nextSize ∧ s.buf.dwSize = 0 ∧ s.files.nextSize = x.length

/-- The invariant; `z` says whether the sizes that the assertions compare are right too. -/
def Inv (z : Prop) (s : St) (g : Logs) : Prop :=
  ∃ l p, Core s l p ∧ (Plain z s g l p ∨ (∃ x, Both z s g l p x) ∨ (∃ x k m, Mark z s g l p x k m) ∨
    ∃ x n dsz d, Comp z s g l p x n dsz d)

theorem inv_init (z : Prop) (data : Nat → Nat) {size fqsz : Nat} (h : 1 < fqsz) :
    Inv z (init data size fqsz) ⟨[], [], .plain⟩ := by
  refine ⟨[], ⟨0, false⟩, ⟨⟨?_, ?_, ?_, ?_, ?_, ?_, ?_, ?_⟩, ?_, h, ?_, ?_⟩, Or.inl ?_⟩
  · show 0 < fqsz; omega
  · show 0 < fqsz; omega
  · simp [init, rot]
  · intro i hi; simp at hi
  · rfl
  · intro i _ _; rfl
  · intro r hr; simp at hr
  · decide
  · simp [RInv, init]
  · intro h; simp [init, busy] at h
  · intro _ h; simp [init] at h
  · refine ⟨rfl, rfl, rfl, by simp [init], ?_, ?_, fun _ => rfl, ?_, ?_, fun _ => ⟨rfl, fun _ => rfl⟩⟩
    · simp [init, unwritten, content, slice]
    · simp [flags]
    · intro h; simp [init] at h
    · intro _; simp [init, putDual]

/-- What a step may do: it goes on and keeps the invariant, or the comparison of the sizes fails. -/
def Good (z : Prop) (s : St) (g : Logs) (a : Act) : Prop :=
  (∃ s' o, step s a = some (s', o) ∧ Inv z s' (g.next s a o)) ∨
    (step s a = none ∧ ¬ z ∧ a = .flush ∧ isComp s.flight = true)

theorem same_unwritten {s s' : St} (hb : s'.buf = s.buf) (hf : s'.flight = s.flight) :
    unwritten s' = unwritten s := by
  rw [unwritten_eq, unwritten_eq, hb, hf]

/-- Only the buffer, the flusher, the files and the checkpoint count. -/
theorem Inv.congr {z : Prop} {s s' : St} {g : Logs} (h : Inv z s g) (hb : s'.buf = s.buf)
    (hf : s'.flight = s.flight) (hfi : s'.files = s.files) (hc : s'.chk = s.chk) : Inv z s' g := by
  have hu := same_unwritten hb hf
  obtain ⟨l, p, hcore, hm⟩ := h
  have hp : pflags s' l p = pflags s l p := by rw [pflags, pflags, hf]
  refine ⟨l, p, ⟨?_, ?_, ?_, ?_, ?_⟩, ?_⟩
  · rw [hb]; exact hcore.q
  · rw [hb]; exact hcore.r
  · rw [hb]; exact hcore.fq
  · rw [hb, hf]; exact hcore.fl
  · rw [hf]; exact hcore.pos
  · rcases hm with h | ⟨x, h⟩ | ⟨x, k, m, h⟩ | ⟨x, n, dsz, d, h⟩
    · obtain ⟨a1, a2, a3, a4, a5, a6, a7, a8, a9, a10⟩ := h
      exact Or.inl ⟨a1, hf ▸ a2, hb ▸ a3, hc ▸ a4, by rw [hfi, hu]; exact a5, a6, by rw [hc, hfi]; exact a7,
        by rw [hc, hfi]; exact a8, by rw [hc, hf]; exact a9, by rw [hb, hc, hfi]; exact a10⟩
    · obtain ⟨a1, a2, a3, a4, a5, a6, a7, a8, a9⟩ := h
      exact Or.inr (Or.inl ⟨x, a1, hf ▸ a2, hb ▸ a3, hc ▸ a4, by rw [hfi, hu]; exact a5, hfi ▸ a6,
        by rw [hu, hp]; exact a7, by rw [hf]; exact a8, by rw [hb, hfi]; exact a9⟩)
    · obtain ⟨a1, a2, a3, a4, a5, a6, a7, a8, a9, a10, a11, a12, a13, a14⟩ := h
      exact Or.inr (Or.inr (Or.inl ⟨x, k, m, a1, hf ▸ a2, by rw [hb]; exact a3, hc ▸ a4, a5,
        by rw [hf]; exact a6, by rw [hf]; exact a7, by rw [hu]; exact a8, by rw [hfi, hu]; exact a9,
        hfi ▸ a10, by rw [hu, hp]; exact a11, by rw [hp]; exact a12, by rw [hf]; exact a13,
        by rw [hb, hfi, hu]; exact a14⟩))
    · obtain ⟨a1, a2, a3, a4, a5, a6, a7, a8, a9, a10⟩ := h
      exact Or.inr (Or.inr (Or.inr ⟨x, n, dsz, d, a1, hf ▸ a2, hb ▸ a3, hc ▸ a4, hfi ▸ a5, hfi ▸ a6,
        by rw [hu]; exact a7, a8, a9, by rw [hb, hfi]; exact a10⟩))

/-! ## Writing -/

theorem good_write {z : Prop} {s : St} {g : Logs} {rec : Bytes} {d : Bool} (hi : Inv z s g)
    (ha : Allowed s (.write rec d)) : Good z s g (.write rec d) := by
  obtain ⟨l, p, hcore, hm⟩ := hi
  obtain ⟨h0, h1, h2, h3⟩ := ha
  rw [used_eq hcore.q] at h3
  have h0' : 0 < rec.length := List.length_pos_iff.mpr h0
  obtain ⟨b', t, p', o, hw, hq, hr, hct, hfl, hsz, hfq, hbg, hdw, hds, hlast, _⟩ :=
    write_spec (d := d) hcore.q hcore.r h0' h1 h3
  left
  refine ⟨_, _, hw, ?_⟩
  have hg := hcore.gone_le
  have hu : unwritten { s with buf := b', nxtWrite := ⟨s.nxtWrite.file,
      s.nxtWrite.off + if o then rec.length else 0⟩ } = unwritten s ++ (if o then rec else []) := by
    rw [unwritten_eq, unwritten_eq]
    show List.drop (gone s.flight) (content b') = _
    rw [hct, List.drop_append_of_le_length (by rw [hcore.r.length]; exact hg)]
  have hpf : (flags (l ++ t) p').drop (gone s.flight) = (flags l p).drop (gone s.flight) ++
      (if o then List.replicate rec.length d else []) := by
    rw [hfl, List.drop_append_of_le_length (by rw [flags_length]; exact hg)]
  have hlen := hcore.pflags_length
  have hdf : s.chk ≠ .scanning → d = false := by
    intro hne
    cases d with
    | false => rfl
    | true => exact absurd (h2 rfl) hne
  have hff : d = false → ∀ f ∈ (if o then List.replicate rec.length d else []), f = false := by
    intro hd f hf
    cases o with
    | false => simp at hf
    | true =>
      rw [if_pos rfl] at hf
      rw [← hd]; exact (List.mem_replicate.mp hf).2
  have hcore' : Core { s with buf := b', nxtWrite := ⟨s.nxtWrite.file,
      s.nxtWrite.off + if o then rec.length else 0⟩ } (l ++ t) p' := by
    refine ⟨hq, hr, by show 1 < b'.fqsz; rw [hfq]; exact hcore.fq, ?_, hcore.pos⟩
    intro hb
    have hb : 0 < busy s.flight := hb
    obtain ⟨r, t0, rfl, hrn, hl⟩ := hcore.fl hb
    exact ⟨r, t0 ++ t, rfl, hrn, hlast (by simp only [total_cons]; omega) hl⟩
  have hpd : ∀ dd, (∃ r t0, l = r :: t0 ∧ r.dual = dd) → ∃ r t0, l ++ t = r :: t0 ∧ r.dual = dd := by
    rintro dd ⟨r, t0, rfl, h⟩
    exact ⟨r, t0 ++ t, rfl, h⟩
  refine ⟨l ++ t, p', hcore', ?_⟩
  rcases hm with h | ⟨x, h⟩ | ⟨x, k, m, h⟩ | ⟨x, n, dsz, dd, h⟩
  · have hd := hdf h.chk
    have hgn : g.next s (.write rec d) (if o = true then some s.nxtWrite else none) =
        { g with cur := g.cur ++ (if o then rec else []) } := by
      have hmo := h.mode
      rcases g with ⟨gc, gn, gm⟩
      simp only at hmo
      subst hmo
      cases o <;> simp [Logs.next]
    rw [hgn]
    refine Or.inl ⟨h.mode, h.nc, hdw.trans h.dw, h.chk, ?_, ?_, h.none1, h.some1, h.pd, ?_⟩
    · show s.files.cur ++ unwritten _ = g.cur ++ _
      rw [hu, ← List.append_assoc, h.cur]
    · intro f hf
      rw [hfl] at hf
      rcases List.mem_append.mp hf with hf | hf
      · exact h.fl f hf
      · exact hff hd f hf
    · intro hz
      refine ⟨?_, (h.sz hz).2⟩
      show b'.dwSize = 0
      rw [hds, (h.sz hz).1, hd]
      simp
  · have hgn : g.next s (.write rec d) (if o = true then some s.nxtWrite else none) =
        { g with cur := g.cur ++ (if o then rec else []),
                 new := g.new ++ (if o && d then rec else []) } := by
      have hmo := h.mode
      rcases g with ⟨gc, gn, gm⟩
      simp only at hmo
      subst hmo
      cases o <;> cases d <;> simp [Logs.next]
    rw [hgn]
    refine Or.inr (Or.inl ⟨x, h.mode, h.nc, hdw.trans h.dw, h.chk, ?_, h.nxt, ?_, ?_, ?_⟩)
    · show s.files.cur ++ unwritten _ = g.cur ++ _
      rw [hu, ← List.append_assoc, h.cur]
    · show x ++ sel (unwritten _) ((flags (l ++ t) p').drop (gone s.flight)) = _
      rw [hu, hpf, sel_append _ _ _ _ (by rw [hlen]; rfl), ← List.append_assoc]
      have h5 : x ++ sel (unwritten s) ((flags l p).drop (gone s.flight)) = g.new := h.new
      rw [h5]
      congr 1
      cases o with
      | false => simp [sel]
      | true =>
        simp only [if_true, Bool.true_and]
        exact sel_replicate rec d
    · exact fun dd hdd => hpd dd (h.pd dd hdd)
    · intro hz
      refine ⟨(h.sz hz).1, ?_⟩
      show b'.dwSize = (g.new ++ _).length
      rw [hds, (h.sz hz).2, List.length_append]
      cases o <;> cases d <;> simp
  · have hd := hdf (by rw [h.chk]; decide)
    have hgn : g.next s (.write rec d) (if o = true then some s.nxtWrite else none) =
        { g with new := g.new ++ (if o then rec else []) } := by
      have hmo := h.mode
      rcases g with ⟨gc, gn, gm⟩
      simp only at hmo
      subst hmo
      cases o <;> simp [Logs.next]
    rw [hgn]
    have hml := h.ml
    have htk : ∀ X : Bytes, (unwritten s ++ X).take m = (unwritten s).take m :=
      fun X => List.take_append_of_le_length hml
    have hdr : ∀ X : Bytes, (unwritten s ++ X).drop m = (unwritten s).drop m ++ X :=
      fun X => List.drop_append_of_le_length hml
    have hpl : m ≤ ((flags l p).drop (gone s.flight)).length := by
      have := hcore.pflags_length
      rw [pflags] at this
      omega
    refine Or.inr (Or.inr (Or.inl ⟨x, k, m, h.mode, h.nc, ?_, h.chk, ?_, h.kpos, ?_, ?_, ?_, h.nxt, ?_, ?_,
      ?_, ?_⟩))
    · show b'.dwEnd = some (rot b' k)
      rw [hdw, h.dw]
      simp [rot, hbg, hfq]
    · rw [List.length_append]; have := h.kl; omega
    · rw [List.take_append_of_le_length h.kl]; exact h.sum
    · rw [hu, List.length_append]; omega
    · rw [hu, htk]; exact h.cur
    · show x ++ (sel _ (((flags (l ++ t) p').drop (gone s.flight)).take m) ++ _) = _
      rw [hu, htk, hdr, hpf, List.take_append_of_le_length hpl]
      have h5 : x ++ (sel ((unwritten s).take m) (((flags l p).drop (gone s.flight)).take m) ++
        (unwritten s).drop m) = g.new := h.new
      show _ = g.new ++ _
      rw [← h5]
      simp
    · show ∀ f ∈ (((flags (l ++ t) p').drop (gone s.flight)).drop m), f = false
      rw [hpf, List.drop_append_of_le_length hpl]
      intro f hf
      rcases List.mem_append.mp hf with hf | hf
      · exact h.fl f hf
      · exact hff hd f hf
    · exact fun dd hdd => hpd dd (h.pd dd hdd)
    · intro hz
      refine ⟨(h.sz hz).1, ?_⟩
      show b'.dwSize + ((unwritten _).drop m).length = (g.new ++ _).length
      rw [hu, hdr, hds, hd, List.length_append, List.length_append]
      have h5 := (h.sz hz).2
      have h6 : (if (o && false) = true then rec.length else 0) = 0 := by cases o <;> rfl
      have h7 : (if o = true then rec else ([] : Bytes)).length = if o = true then rec.length else 0 := by
        cases o <;> rfl
      rw [h6, h7]
      omega
  · have hd := hdf (by rw [h.chk]; decide)
    have hgn : g.next s (.write rec d) (if o = true then some s.nxtWrite else none) =
        { g with new := g.new ++ (if o then rec else []) } := by
      have hmo := h.mode
      rcases g with ⟨gc, gn, gm⟩
      simp only at hmo
      subst hmo
      cases o <;> simp [Logs.next]
    rw [hgn]
    refine Or.inr (Or.inr (Or.inr ⟨x, n, dsz, dd, h.mode, h.fli, hdw.trans h.dw, h.chk, h.cur, h.nxt, ?_, ?_,
      h.pd, ?_⟩))
    · show x ++ unwritten _ = g.new ++ _
      rw [hu, ← List.append_assoc, h.new]
    · intro f hf
      rw [hfl] at hf
      rcases List.mem_append.mp hf with hf | hf
      · exact h.fl f hf
      · exact hff hd f hf
    · intro hz
      refine ⟨(h.sz hz).1, ?_, (h.sz hz).2.2⟩
      show b'.dwSize = 0
      rw [hds, (h.sz hz).2.1, hd]
      simp

/-! ## Flushing -/

theorem flags_head_false {r : Req} {t : List Req} {p : Req} (h : ∀ f ∈ flags (r :: t) p, f = false)
    (hn : 0 < r.n) : r.dual = false := by
  apply h
  rw [flags_cons]
  exact List.mem_append_left _ (List.mem_replicate.mpr ⟨by omega, rfl⟩)

theorem good_take {z : Prop} {s : St} {g : Logs} {all : Bool} (hi : Inv z s g) :
    Good z s g (.take all) := by
  by_cases hid : s.flight = .idle
  · obtain ⟨l, p, hcore, hm⟩ := hi
    let b0 := if s.buf.dwEnd = some s.buf.fbgn then { s.buf with dwSize := 0, dwEnd := none } else s.buf
    have hq0 : QInv b0 l p := by
      show QInv (if _ then _ else _) l p
      split
      · exact hcore.q.congr rfl rfl rfl rfl
      · exact hcore.q
    have hr0 : RInv b0 l p := by
      show RInv (if _ then _ else _) l p
      split
      · exact hcore.r
      · exact hcore.r
    have hfq0 : b0.fqsz = s.buf.fqsz := by
      show (if _ then _ else _ : Buf).fqsz = _
      split <;> rfl
    have hbg0 : b0.fbgn = s.buf.fbgn := by
      show (if _ then _ else _ : Buf).fbgn = _
      split <;> rfl
    have hc0 : content b0 = content s.buf := by
      show content (if _ then _ else _ : Buf) = _
      split <;> rfl
    obtain ⟨b1, r, l', p', hch, hq, hr, hct, hsame, hfl, hll, hpos, hzero⟩ :=
      choose_spec (s := s) hq0 hr0 (by rw [hfq0]; exact hcore.fq) all
    have hst : step s (.take all) = some ({ s with
        buf := if 0 < r.n then wrapHead b1 else b1
        flight := if s.buf.dwEnd = some s.buf.fbgn then .comp s.buf.dwSize r.n r.dual
          else if 0 < r.n then .put r.n r.dual else .idle }, none) := by
      simp only [step, hid, take]
      rw [hch]
      rfl
    left
    refine ⟨_, _, hst, ?_⟩
    have hgn : g.next s (.take all) none = g := rfl
    rw [hgn]
    have hgone : gone s.flight = 0 := by rw [hid]; rfl
    have hu0 : unwritten s = content s.buf := by rw [unwritten_eq, hgone, List.drop_zero]
    have hp0 : pflags s l p = flags l p := by rw [pflags, hgone, List.drop_zero]
    have hs1 := hsame.dwEnd
    have hs2 := hsame.dwSize
    have hs3 := hsame.fqsz
    have hs4 := hsame.fbgn
    generalize hb2 : (if 0 < r.n then wrapHead b1 else b1) = b2 at hq hr hct hpos hs1 hs2 hs3 hs4 ⊢
    by_cases hd : s.buf.dwEnd = some s.buf.fbgn
    · -- the end of the dual write
      rw [if_pos hd]
      have hb0d : b0 = { s.buf with dwSize := 0, dwEnd := none } := by
        show (if _ then _ else _) = _
        rw [if_pos hd]
      have hu : unwritten { s with buf := b2, flight := .comp s.buf.dwSize r.n r.dual } = unwritten s := by
        rw [hu0, ← hc0, ← hct, unwritten_eq]
        simp [gone]
      refine ⟨l', p', ⟨hq, hr, by show 1 < b2.fqsz; rw [hs3, hfq0]; exact hcore.fq, ?_, ?_⟩, ?_⟩
      · intro hb
        have hb : 0 < r.n := hb
        obtain ⟨⟨t, ht⟩, hl⟩ := hpos hb
        exact ⟨r, t, ht, rfl, hl⟩
      · intro hn
        simp [isComp] at hn
      · rcases hm with h | ⟨x, h⟩ | ⟨x, k, m, h⟩ | ⟨x, n, dsz, dd, h⟩
        · rw [h.dw] at hd; simp at hd
        · rw [h.dw] at hd; simp at hd
        · have hk : k = 0 := by
            rw [h.dw] at hd
            have : rot s.buf k = rot s.buf 0 := by
              rw [rot_zero hcore.q.bgn]; simpa using hd
            exact rot_inj (by have := h.kl; have := hcore.q.len; omega)
              (by have := hcore.q.len; omega) this
          subst hk
          have hm0 : m = 0 := by
            have := h.sum
            simp only [List.take_zero, total_nil] at this
            omega
          subst hm0
          have hfalse : ∀ f ∈ flags l' p', f = false := by
            rw [hfl]
            have := h.fl
            rw [hp0] at this
            simpa using this
          have hcur := h.cur
          simp only [List.take_zero, List.append_nil] at hcur
          have hnew := h.new
          simp only [List.take_zero, List.drop_zero] at hnew
          have hnew' : x ++ unwritten s = g.new := by
            simpa [sel] using hnew
          refine Or.inr (Or.inr (Or.inr ⟨x, r.n, s.buf.dwSize, r.dual, h.mode, rfl, ?_, h.chk, hcur, h.nxt, ?_,
            hfalse, ?_, ?_⟩))
          · show b2.dwEnd = none
            rw [hs1, hb0d]
          · rw [hu]; exact hnew'
          · intro hn
            obtain ⟨⟨t, ht⟩, _⟩ := hpos hn
            rw [ht] at hfalse
            exact flags_head_false hfalse hn
          · intro hz
            obtain ⟨z1, z2⟩ := h.sz hz
            refine ⟨?_, ?_, z1⟩
            · show s.buf.dwSize = s.files.nextSize
              rw [z1]
              rw [List.drop_zero, ← hnew', List.length_append] at z2
              omega
            · show b2.dwSize = 0
              rw [hs2, hb0d]
        · rw [h.dw] at hd; simp at hd
    · rw [if_neg hd]
      have hb0d : b0 = s.buf := by
        show (if _ then _ else _) = _
        rw [if_neg hd]
      rw [hb0d] at hs1 hs2 hs3 hs4
      have hgn' : gone (if 0 < r.n then Flight.put r.n r.dual else Flight.idle) = 0 := by
        split <;> rfl
      have hbusy : busy (if 0 < r.n then Flight.put r.n r.dual else Flight.idle) = r.n := by
        split
        · rfl
        · show 0 = r.n; omega
      have hcomp : isComp (if 0 < r.n then Flight.put r.n r.dual else Flight.idle) = false := by
        split <;> rfl
      have hpd : ∀ d, putDual (if 0 < r.n then Flight.put r.n r.dual else Flight.idle) = some d →
          0 < r.n ∧ r.dual = d := by
        intro d hd
        split at hd
        · rename_i hn
          exact ⟨hn, by simpa [putDual] using hd⟩
        · simp [putDual] at hd
      have hidle : ¬ 0 < r.n → (if 0 < r.n then Flight.put r.n r.dual else Flight.idle) = .idle := by
        intro hn; rw [if_neg hn]
      generalize (if 0 < r.n then Flight.put r.n r.dual else Flight.idle) = fl at *
      have hu : unwritten { s with buf := b2, flight := fl } = unwritten s := by
        rw [hu0, ← hc0, ← hct, unwritten_eq]
        show List.drop (gone fl) (content b2) = _
        rw [hgn', List.drop_zero]
      have hpf : pflags { s with buf := b2, flight := fl } l' p' = pflags s l p := by
        show (flags l' p').drop (gone fl) = _
        rw [hgn', hp0, hfl, List.drop_zero]
      have hpd' : ∀ d, putDual fl = some d → ∃ r t, l' = r :: t ∧ r.dual = d := by
        intro d hd
        obtain ⟨hn, hdd⟩ := hpd d hd
        obtain ⟨⟨t, ht⟩, _⟩ := hpos hn
        exact ⟨r, t, ht, hdd⟩
      refine ⟨l', p', ⟨hq, hr, by show 1 < b2.fqsz; rw [hs3]; exact hcore.fq, ?_, ?_⟩, ?_⟩
      · intro hb
        have hb : 0 < busy fl := hb
        rw [hbusy] at hb
        obtain ⟨⟨t, ht⟩, hl⟩ := hpos hb
        exact ⟨r, t, ht, by show r.n = busy fl; rw [hbusy], hl⟩
      · intro _ hne
        show 0 < busy fl
        rw [hbusy]
        rcases Nat.eq_zero_or_pos r.n with h0 | h0
        · exact absurd (hidle (by omega)) hne
        · exact h0
      · rcases hm with h | ⟨x, h⟩ | ⟨x, k, m, h⟩ | ⟨x, n, dsz, dd, h⟩
        · refine Or.inl ⟨h.mode, hcomp, ?_, h.chk, ?_, ?_, h.none1, h.some1, ?_, ?_⟩
          · show b2.dwEnd = none
            rw [hs1]; exact h.dw
          · rw [hu]; exact h.cur
          · rw [hfl]; exact h.fl
          · intro _ he
            have he : putDual fl = some true := he
            obtain ⟨hn, hdd⟩ := hpd _ he
            obtain ⟨⟨t, ht⟩, _⟩ := hpos hn
            have : r.dual = false := by
              have h5 := h.fl
              rw [← hfl, ht] at h5
              exact flags_head_false h5 hn
            rw [this] at hdd
            simp at hdd
          · intro hz
            exact ⟨by show b2.dwSize = 0; rw [hs2]; exact (h.sz hz).1, (h.sz hz).2⟩
        · refine Or.inr (Or.inl ⟨x, h.mode, hcomp, ?_, h.chk, ?_, h.nxt, ?_, hpd', ?_⟩)
          · show b2.dwEnd = none
            rw [hs1]; exact h.dw
          · rw [hu]; exact h.cur
          · rw [hu, hpf]; exact h.new
          · intro hz
            exact ⟨(h.sz hz).1, by show b2.dwSize = _; rw [hs2]; exact (h.sz hz).2⟩
        · have hk : k ≠ 0 := by
            rintro rfl
            exact hd (by rw [h.dw, rot_zero hcore.q.bgn])
          have hl' : l' = l := by
            rcases hll with ⟨h5, _⟩ | ⟨h5, _⟩
            · exact h5
            · have := h.kl
              rw [h5] at this
              simp at this
              exact absurd this hk
          refine Or.inr (Or.inr (Or.inl ⟨x, k, m, h.mode, hcomp, ?_, h.chk, ?_, fun _ => by omega, ?_, ?_, ?_,
            h.nxt, ?_, ?_, hpd', ?_⟩))
          · show b2.dwEnd = some (rot b2 k)
            rw [hs1, h.dw]
            simp [rot, hs3, hs4]
          · rw [hl']; exact h.kl
          · show total (l'.take k) = m + gone fl
            rw [hl', hgn', h.sum, hgone]
          · rw [hu]; exact h.ml
          · rw [hu]; exact h.cur
          · rw [hu, hpf]; exact h.new
          · rw [hpf]; exact h.fl
          · intro hz
            refine ⟨(h.sz hz).1, ?_⟩
            show b2.dwSize + _ = _
            rw [hs2, hu]; exact (h.sz hz).2
        · have := h.fli
          rw [hid] at this
          simp at this
  · left
    refine ⟨s, none, ?_, hi⟩
    simp only [step]

theorem take_length_self (a b : Bytes) : (a ++ b).take a.length = a := by simp

theorem good_flush {z : Prop} {s : St} {g : Logs} (hi : Inv z s g) : Good z s g .flush := by
  cases hf : s.flight with
  | idle =>
    left
    refine ⟨s, none, by simp [step, flush, hf], ?_⟩
    have : g.next s .flush none = g := by simp [Logs.next, hf]
    rw [this]; exact hi
  | comp dsz0 n0 d0 =>
    obtain ⟨l, p, hcore, hm⟩ := hi
    rcases hm with h | ⟨x, h⟩ | ⟨x, k, m, h⟩ | ⟨x, n, dsz, d, h⟩
    · have := h.nc; rw [hf] at this; simp [isComp] at this
    · have := h.nc; rw [hf] at this; simp [isComp] at this
    · have := h.nc; rw [hf] at this; simp [isComp] at this
    · have hff := h.fli
      rw [hf] at hff
      simp only [Flight.comp.injEq] at hff
      obtain ⟨rfl, rfl, rfl⟩ := hff
      have hcomp : s.files.complete = { cur := x, size := s.files.nextSize, next := none, nextSize := 0 } := by
        simp [Files.complete, h.nxt]
      by_cases hsz : dsz0 = s.files.nextSize
      · left
        refine ⟨{ s with files := ⟨x, s.files.nextSize, none, 0⟩,
                         nxtFlush := ⟨s.nxtFlush.file + 1, dsz0⟩, durable := 0,
                         flight := if 0 < n0 then .put n0 d0 else .idle }, none, ?_, ?_⟩
        · simp only [step, flush, hf, hcomp]
          rw [if_pos hsz]
          rfl
        · have hgn : g.next s .flush none = ⟨g.new, [], .plain⟩ := by simp [Logs.next, hf]
          rw [hgn]
          have hgn' : gone (if 0 < n0 then Flight.put n0 d0 else Flight.idle) = 0 := by split <;> rfl
          have hbusy : busy (if 0 < n0 then Flight.put n0 d0 else Flight.idle) = n0 := by
            split
            · rfl
            · show 0 = n0; omega
          have hc : isComp (if 0 < n0 then Flight.put n0 d0 else Flight.idle) = false := by split <;> rfl
          have hpd : putDual (if 0 < n0 then Flight.put n0 d0 else Flight.idle) ≠ some true := by
            split
            · rename_i hn
              rw [h.pd hn]; simp [putDual]
            · simp [putDual]
          have hidle : ¬ 0 < n0 → (if 0 < n0 then Flight.put n0 d0 else Flight.idle) = .idle := by
            intro hn; rw [if_neg hn]
          generalize (if 0 < n0 then Flight.put n0 d0 else Flight.idle) = fl at *
          have hg0 : gone s.flight = 0 := by rw [hf]; rfl
          refine ⟨l, p, ⟨hcore.q, hcore.r, hcore.fq, ?_, ?_⟩, Or.inl ⟨rfl, hc, h.dw, ?_, ?_, h.fl,
            fun _ => rfl, ?_, fun _ => hpd, ?_⟩⟩
          · intro hb
            have hb : 0 < busy fl := hb
            obtain ⟨r, t, h1, h2, h3⟩ := hcore.fl (by rw [hf]; rw [hbusy] at hb; exact hb)
            refine ⟨r, t, h1, ?_, h3⟩
            show r.n = busy fl
            rw [h2, hf, hbusy]; rfl
          · intro _ hne
            show 0 < busy fl
            rw [hbusy]
            rcases Nat.eq_zero_or_pos n0 with h0 | h0
            · exact absurd (hidle (by omega)) hne
            · exact h0
          · show s.chk ≠ _
            rw [h.chk]; decide
          · rw [← h.new, unwritten_eq, unwritten_eq, hg0]
            show x ++ List.drop (gone fl) _ = _
            rw [hgn']
          · intro hc
            have hc : s.chk = .opened := hc
            rw [h.chk] at hc; simp at hc
          · intro hz
            exact ⟨(h.sz hz).2.1, fun _ => rfl⟩
      · right
        refine ⟨?_, ?_, rfl, by rw [hf]; rfl⟩
        · simp only [step, flush, hf, hcomp]
          rw [if_neg hsz]
          rfl
        · intro hz
          exact hsz (h.sz hz).1
  | put n d =>
    obtain ⟨l, p, hcore, hm⟩ := hi
    have hn : 0 < n := by
      have := hcore.pos (by rw [hf]; rfl) (by rw [hf]; simp)
      rw [hf] at this; exact this
    obtain ⟨r, t, rfl, hrn, hlast⟩ := hcore.fl (by rw [hf]; exact hn)
    rw [hf] at hrn
    have hrn : r.n = n := hrn
    subst hrn
    obtain ⟨hsp, hsl⟩ := head_slice hcore.q hcore.r hlast
    have hu : unwritten s = content s.buf := by rw [unwritten_eq, hf]; simp [gone]
    left
    refine ⟨{ s with files := s.files.write ((content s.buf).take r.n) d, flight := .lsn r.n }, none, ?_, ?_⟩
    · simp only [step, flush, hf]
      rw [if_pos hsp, hsl]
      rfl
    have hgn : g.next s .flush none = g := by simp [Logs.next, hf]
    rw [hgn]
    have hu' : unwritten { s with files := s.files.write ((content s.buf).take r.n) d,
                                  flight := .lsn r.n } = (unwritten s).drop r.n := by
      rw [hu]; rfl
    have hpf : pflags { s with files := s.files.write ((content s.buf).take r.n) d,
                               flight := .lsn r.n } (r :: t) p = flags t p := by
      show (flags (r :: t) p).drop r.n = _
      rw [flags_cons, List.drop_append, List.drop_of_length_le (by simp)]
      simp
    have hpf0 : pflags s (r :: t) p = List.replicate r.n r.dual ++ flags t p := by
      rw [pflags, hf]
      show (flags (r :: t) p).drop 0 = _
      rw [List.drop_zero, flags_cons]
    have hcl : (content s.buf).length = r.n + total t + p.n := by
      rw [hcore.r.length, total_cons]
    have hwcur : (s.files.write ((content s.buf).take r.n) d).cur =
        s.files.cur ++ (content s.buf).take r.n := by
      unfold Files.write
      split <;> rfl
    have hwnone : s.files.next = none → (s.files.write ((content s.buf).take r.n) d).next = none ∧
        (s.files.write ((content s.buf).take r.n) d).nextSize = s.files.nextSize := by
      intro h
      unfold Files.write
      rw [h]
      cases d <;> exact ⟨rfl, rfl⟩
    have hwfalse : d = false → (s.files.write ((content s.buf).take r.n) d).next = s.files.next ∧
        (s.files.write ((content s.buf).take r.n) d).nextSize = s.files.nextSize := by
      rintro rfl
      exact ⟨rfl, rfl⟩
    have hwsome : ∀ x, s.files.next = some x →
        (s.files.write ((content s.buf).take r.n) d).next =
          some (x ++ if d then (content s.buf).take r.n else []) ∧
        (s.files.write ((content s.buf).take r.n) d).nextSize = s.files.nextSize +
          (if d then (content s.buf).take r.n else []).length := by
      intro x h
      unfold Files.write
      rw [h]
      cases d
      · exact ⟨by simp [h], by simp⟩
      · exact ⟨rfl, rfl⟩
    have hsel : ∀ dd, r.dual = dd → sel ((content s.buf).take r.n) (List.replicate r.n r.dual) =
        if dd then (content s.buf).take r.n else [] := by
      rintro dd rfl
      have := sel_replicate ((content s.buf).take r.n) r.dual
      rwa [List.length_take, Nat.min_eq_left (by omega)] at this
    refine ⟨r :: t, p, ⟨hcore.q, hcore.r, hcore.fq, fun _ => ⟨r, t, rfl, rfl, hlast⟩, fun _ _ => hn⟩, ?_⟩
    rcases hm with h | ⟨x, h⟩ | ⟨x, k, m, h⟩ | ⟨x, n, dsz, dd, h⟩
    · have hpdd : s.chk = .opened ∨ s.chk = .waiting → d = false := by
        intro hh
        have := h.pd hh
        rw [hf] at this
        cases d with
        | false => rfl
        | true => exact absurd rfl this
      refine Or.inl ⟨h.mode, rfl, h.dw, h.chk, ?_, h.fl, ?_, ?_, ?_, ?_⟩
      · rw [hu', ← h.cur]
        show (s.files.write _ d).cur ++ _ = _
        rw [hwcur, hu, List.append_assoc, List.take_append_drop]
      · intro hh
        exact (hwnone (h.none1 hh)).1
      · intro hh
        rw [← h.some1 hh]
        exact (hwfalse (hpdd (Or.inl hh))).1
      · intro _; simp [putDual]
      · intro hz
        refine ⟨(h.sz hz).1, ?_⟩
        intro hne
        have hne : s.chk ≠ .failed := hne
        show (s.files.write _ d).nextSize = 0
        rw [← (h.sz hz).2 hne]
        cases hchk : s.chk with
        | idle => exact (hwnone (h.none1 (Or.inl hchk))).2
        | opened => exact (hwfalse (hpdd (Or.inl hchk))).2
        | scanning => exact absurd hchk h.chk
        | waiting => exact (hwfalse (hpdd (Or.inr hchk))).2
        | failed => exact absurd hchk hne
    · have hrd : r.dual = d := by
        obtain ⟨r', t', he, hd⟩ := h.pd d (by rw [hf]; rfl)
        have : r = r' := (List.cons.inj he).1
        rw [this]; exact hd
      obtain ⟨w1, w2⟩ := hwsome x h.nxt
      refine Or.inr (Or.inl ⟨_, h.mode, rfl, h.dw, h.chk, ?_, w1, ?_, fun dd hdd => by simp [putDual] at hdd, ?_⟩)
      · rw [hu', ← h.cur]
        show (s.files.write _ d).cur ++ _ = _
        rw [hwcur, hu, List.append_assoc, List.take_append_drop]
      · rw [hu', hpf, ← h.new, hpf0, List.append_assoc]
        congr 1
        have e : sel (unwritten s) (List.replicate r.n r.dual ++ flags t p) =
            sel ((content s.buf).take r.n ++ (content s.buf).drop r.n)
              (List.replicate r.n r.dual ++ flags t p) := by
          rw [List.take_append_drop, hu]
        rw [e, sel_append _ _ _ _ (by rw [List.length_take, List.length_replicate, Nat.min_eq_left (by omega)]),
          hsel d hrd, hu]
      · intro hz
        refine ⟨?_, (h.sz hz).2⟩
        show (s.files.write _ d).nextSize = _
        rw [w2, (h.sz hz).1, List.length_append]
    · have hrd : r.dual = d := by
        obtain ⟨r', t', he, hd⟩ := h.pd d (by rw [hf]; rfl)
        have : r = r' := (List.cons.inj he).1
        rw [this]; exact hd
      obtain ⟨w1, w2⟩ := hwsome x h.nxt
      have hk := h.kpos (by rw [hf]; exact hn)
      obtain ⟨k', rfl⟩ : ∃ k', k = k' + 1 := ⟨k - 1, by omega⟩
      have hsum := h.sum
      rw [hf] at hsum
      simp only [List.take_succ_cons, total_cons, gone] at hsum
      have hm : m = r.n + (m - r.n) := by omega
      have hml := h.ml
      rw [hu] at hml
      have hsplit : (content s.buf).take m =
          (content s.buf).take r.n ++ ((content s.buf).drop r.n).take (m - r.n) := by
        rw (occs := [1]) [hm]
        rw [List.take_add]
      have hdrop : (content s.buf).drop m = ((content s.buf).drop r.n).drop (m - r.n) := by
        rw [List.drop_drop, ← hm]
      refine Or.inr (Or.inr (Or.inl ⟨_, k' + 1, m - r.n, h.mode, rfl, h.dw, h.chk, h.kl, fun _ => by omega, ?_, ?_,
        ?_, w1, ?_, ?_, fun dd hdd => by simp [putDual] at hdd, ?_⟩))
      · show total ((r :: t).take (k' + 1)) = m - r.n + r.n
        rw [List.take_succ_cons, total_cons]
        omega
      · rw [hu', hu, List.length_drop]; omega
      · rw [hu', ← h.cur]
        show (s.files.write _ d).cur ++ _ = _
        rw [hwcur, hu, hsplit, List.append_assoc]
      · rw [hu', hpf, ← h.new, hpf0, List.append_assoc, hu, hsplit, hdrop]
        have e : (List.replicate r.n r.dual ++ flags t p).take m =
            List.replicate r.n r.dual ++ (flags t p).take (m - r.n) := by
          rw [List.take_append, List.take_of_length_le (by simp; omega), List.length_replicate]
        rw [e, sel_append _ _ _ _ (by rw [List.length_take, List.length_replicate, Nat.min_eq_left (by omega)]),
          hsel d hrd]
        simp
      · intro f hff
        apply h.fl f
        rw [hpf] at hff
        rw [hpf0, List.drop_append, List.drop_of_length_le (by simp; omega), List.length_replicate,
          List.nil_append]
        exact hff
      · intro hz
        obtain ⟨z1, z2⟩ := h.sz hz
        refine ⟨?_, ?_⟩
        · show (s.files.write _ d).nextSize = _
          rw [w2, z1, List.length_append]
        · show s.buf.dwSize + _ = _
          rw [hu', hu, ← hdrop, ← hu]
          exact z2
    · have := h.fli
      rw [hf] at this
      simp at this
  | lsn n =>
    left
    refine ⟨_, none, by simp only [step, flush, hf]; rfl, ?_⟩
    have hgn : g.next s .flush none = g := by simp [Logs.next, hf]
    rw [hgn]
    obtain ⟨l, p, hcore, hm⟩ := hi
    have hu : unwritten { s with nxtFlush := ⟨s.nxtFlush.file, s.nxtFlush.off + n⟩,
                                 flight := .fin n } = unwritten s := by
      rw [unwritten_eq, unwritten_eq, hf]; rfl
    have hpf : pflags { s with nxtFlush := ⟨s.nxtFlush.file, s.nxtFlush.off + n⟩,
                               flight := .fin n } l p = pflags s l p := by
      rw [pflags, pflags, hf]; rfl
    refine ⟨l, p, ⟨hcore.q, hcore.r, hcore.fq, ?_, ?_⟩, ?_⟩
    · have := hcore.fl
      rw [hf] at this
      exact this
    · intro _ _
      have := hcore.pos (by rw [hf]; rfl) (by rw [hf]; simp)
      rw [hf] at this
      exact this
    · rcases hm with h | ⟨x, h⟩ | ⟨x, k, m, h⟩ | ⟨x, n, dsz, dd, h⟩
      · exact Or.inl ⟨h.mode, rfl, h.dw, h.chk, by rw [hu]; exact h.cur, h.fl, h.none1, h.some1,
          fun _ => by simp [putDual], h.sz⟩
      · exact Or.inr (Or.inl ⟨x, h.mode, rfl, h.dw, h.chk, by rw [hu]; exact h.cur, h.nxt,
          by rw [hu, hpf]; exact h.new, fun dd hdd => by simp [putDual] at hdd, h.sz⟩)
      · refine Or.inr (Or.inr (Or.inl ⟨x, k, m, h.mode, rfl, h.dw, h.chk, h.kl, ?_, ?_, by rw [hu]; exact h.ml,
          by rw [hu]; exact h.cur, h.nxt, by rw [hu, hpf]; exact h.new, by rw [hpf]; exact h.fl,
          fun dd hdd => by simp [putDual] at hdd, by rw [hu]; exact h.sz⟩))
        · have := h.kpos; rw [hf] at this; exact this
        · have := h.sum; rw [hf] at this; exact this
      · have := h.fli
        rw [hf] at this
        simp at this
  | fin n =>
    obtain ⟨l, p, hcore, hm⟩ := hi
    have hn : 0 < n := by
      have := hcore.pos (by rw [hf]; rfl) (by rw [hf]; simp)
      rw [hf] at this; exact this
    obtain ⟨r, t, rfl, hrn, hlast⟩ := hcore.fl (by rw [hf]; exact hn)
    rw [hf] at hrn
    have hrn : r.n = n := hrn
    subst hrn
    obtain ⟨hq, hr, hct, hsz, hfqs, hdw, hds, hbg⟩ := fin_spec hcore.q hcore.r hlast
    left
    refine ⟨_, none, by simp only [step, flush, hf]; rfl, ?_⟩
    have hgn : g.next s .flush none = g := by simp [Logs.next, hf]
    rw [hgn]
    generalize hb2 : ({ (wrapHead { s.buf with head := s.buf.head + r.n }) with
      fque := fun i => if i = (wrapHead { s.buf with head := s.buf.head + r.n }).fbgn then ⟨0, false⟩
        else (wrapHead { s.buf with head := s.buf.head + r.n }).fque i,
      fbgn := inc (wrapHead { s.buf with head := s.buf.head + r.n }).fqsz
        (wrapHead { s.buf with head := s.buf.head + r.n }).fbgn } : Buf) = b2 at hq hr hct hsz hfqs hdw hds hbg ⊢
    have hu : unwritten { s with buf := b2, flight := .idle } = unwritten s := by
      rw [unwritten_eq, unwritten_eq, hf]
      show (content b2).drop 0 = _
      rw [List.drop_zero, hct]
      rfl
    have hpf : pflags { s with buf := b2, flight := .idle } t p = pflags s (r :: t) p := by
      rw [pflags, pflags, hf]
      show (flags t p).drop 0 = (flags (r :: t) p).drop r.n
      rw [List.drop_zero, flags_cons, List.drop_append, List.drop_of_length_le (by simp)]
      simp
    have hfl : ∀ f ∈ flags t p, f ∈ flags (r :: t) p := by
      intro f hff
      rw [flags_cons]
      exact List.mem_append_right _ hff
    refine ⟨t, p, ⟨hq, hr, by show 1 < b2.fqsz; rw [hfqs]; exact hcore.fq, fun h => ?_, fun _ h => absurd rfl h⟩, ?_⟩
    · have h : 0 < 0 := h
      omega
    · rcases hm with h | ⟨x, h⟩ | ⟨x, k, m, h⟩ | ⟨x, n, dsz, dd, h⟩
      · exact Or.inl ⟨h.mode, rfl, hdw.trans h.dw, h.chk, by rw [hu]; exact h.cur,
          fun f hff => h.fl f (hfl f hff), h.none1, h.some1, fun _ => by simp [putDual],
          fun hz => ⟨hds.trans (h.sz hz).1, (h.sz hz).2⟩⟩
      · exact Or.inr (Or.inl ⟨x, h.mode, rfl, hdw.trans h.dw, h.chk, by rw [hu]; exact h.cur, h.nxt,
          by rw [hu, hpf]; exact h.new, fun dd hdd => by simp [putDual] at hdd,
          fun hz => ⟨(h.sz hz).1, hds.trans (h.sz hz).2⟩⟩)
      · have hk := h.kpos (by rw [hf]; exact hn)
        obtain ⟨k', rfl⟩ : ∃ k', k = k' + 1 := ⟨k - 1, by omega⟩
        refine Or.inr (Or.inr (Or.inl ⟨x, k', m, h.mode, rfl, ?_, h.chk, ?_, fun h => ?_, ?_, by rw [hu]; exact h.ml,
          by rw [hu]; exact h.cur, h.nxt, by rw [hu, hpf]; exact h.new, by rw [hpf]; exact h.fl,
          fun dd hdd => by simp [putDual] at hdd, ?_⟩))
        · show b2.dwEnd = some (rot b2 k')
          rw [hdw, h.dw]
          congr 1
          show _ = (b2.fbgn + k') % b2.fqsz
          rw [hbg, hfqs]
          unfold rot
          rw [Nat.mod_add_mod]
          congr 1
          omega
        · have := h.kl
          simpa using this
        · have h : 0 < 0 := h
          omega
        · have hs := h.sum
          rw [hf, List.take_succ_cons, total_cons] at hs
          simp only [gone] at hs
          show total (t.take k') = m + 0
          omega
        · intro hz
          refine ⟨(h.sz hz).1, ?_⟩
          show b2.dwSize + _ = _
          rw [hds, hu]; exact (h.sz hz).2
      · have := h.fli
        rw [hf] at this
        simp at this

/-! ## The checkpoint -/

theorem good_open {z : Prop} {s : St} {g : Logs} (hi : Inv z s g) (ha : Allowed s .openNext) :
    Good z s g .openNext := by
  left
  by_cases hc : s.chk = .idle
  · refine ⟨_, none, by simp only [step, hc, if_true]; rfl, ?_⟩
    have hgn : g.next s .openNext none = g := rfl
    rw [hgn]
    obtain ⟨l, p, hcore, hm⟩ := hi
    refine ⟨l, p, ⟨hcore.q, hcore.r, hcore.fq, hcore.fl, hcore.pos⟩, ?_⟩
    rcases hm with h | ⟨x, h⟩ | ⟨x, k, m, h⟩ | ⟨x, n, dsz, dd, h⟩
    · refine Or.inl ⟨h.mode, h.nc, h.dw, by simp, h.cur, h.fl, fun h => by simp at h, fun _ => rfl, ?_, ?_⟩
      · intro _
        have : s.flight = .idle := ha
        show putDual s.flight ≠ _
        rw [this]; simp [putDual]
      · intro hz
        exact ⟨(h.sz hz).1, fun _ => (h.sz hz).2 (by rw [hc]; decide)⟩
    · have := h.chk; rw [hc] at this; simp at this
    · have := h.chk; rw [hc] at this; simp at this
    · have := h.chk; rw [hc] at this; simp at this
  · exact ⟨s, none, by simp only [step, hc, if_false], hi⟩

theorem good_scan {z : Prop} {s : St} {g : Logs} (hi : Inv z s g) : Good z s g .scan := by
  left
  by_cases hc : s.chk = .opened
  · refine ⟨_, none, by simp only [step, hc, if_true]; rfl, ?_⟩
    have hgn : g.next s .scan none = { g with new := [], mode := .both } := by simp [Logs.next, hc]
    rw [hgn]
    obtain ⟨l, p, hcore, hm⟩ := hi
    refine ⟨l, p, ⟨hcore.q, hcore.r, hcore.fq, hcore.fl, hcore.pos⟩, ?_⟩
    rcases hm with h | ⟨x, h⟩ | ⟨x, k, m, h⟩ | ⟨x, n, dsz, dd, h⟩
    · refine Or.inr (Or.inl ⟨[], rfl, h.nc, h.dw, rfl, h.cur, h.some1 hc, ?_, ?_, ?_⟩)
      · show [] ++ sel _ _ = []
        rw [List.nil_append]
        exact sel_false _ _ (fun f hf => h.fl f (List.mem_of_mem_drop hf))
      · intro d hd
        have hd : putDual s.flight = some d := hd
        have hne := h.pd (Or.inl hc)
        have hdf : d = false := by
          cases d with
          | false => rfl
          | true => exact absurd hd hne
        cases hfl : s.flight with
        | put n d' =>
          have hpos := hcore.pos (by rw [hfl]; rfl) (by rw [hfl]; simp)
          obtain ⟨r, t, rfl, hrn, _⟩ := hcore.fl hpos
          exact ⟨r, t, rfl, by rw [hdf]; exact flags_head_false h.fl (by omega)⟩
        | _ => rw [hfl] at hd; simp [putDual] at hd
      · intro hz
        exact ⟨(h.sz hz).2 (by rw [hc]; decide), (h.sz hz).1⟩
    · have := h.chk; rw [hc] at this; simp at this
    · have := h.chk; rw [hc] at this; simp at this
    · have := h.chk; rw [hc] at this; simp at this
  · refine ⟨s, none, by simp only [step, hc, if_false], ?_⟩
    have hgn : g.next s .scan none = g := by simp [Logs.next, hc]
    rw [hgn]; exact hi

theorem good_complete {z : Prop} {s : St} {g : Logs} {ok : Bool} (hi : Inv z s g)
    (ha : Allowed s (.complete ok)) : Good z s g (.complete ok) := by
  left
  by_cases hc : s.chk = .scanning
  · have hgn : g.next s (.complete ok) none = { g with mode := if ok then .after else .plain } := by
      simp [Logs.next, hc]
    obtain ⟨l, p, hcore, hm⟩ := hi
    have hroom : l.length + 1 < s.buf.fqsz := by
      have : used s.buf + 1 < s.buf.fqsz := ha
      rwa [used_eq hcore.q] at this
    rcases hm with h | ⟨x, h⟩ | ⟨x, k, m, h⟩ | ⟨x, n, dsz, dd, h⟩
    · exact absurd hc h.chk
    · have hlen := hcore.pflags_length
      cases ok with
      | true =>
        obtain ⟨fe, l', p', hb, hq, hfl, hp0, hcase⟩ := bump_spec hcore.q hroom
        have htot := total_close hcase
        have hdw : (bump s.buf).dwEnd = none := by rw [hb]; exact h.dw
        refine ⟨{ s with buf := { s.buf with fend := fe, dwEnd := some fe },
                         nxtWrite := ⟨s.nxtWrite.file + 1, s.buf.dwSize⟩, chk := .waiting }, none, ?_, ?_⟩
        · simp only [step, hc, if_true, completeOk]
          rw [if_neg (by rw [hdw]; simp), hb]
          rfl
        · rw [hgn]
          have hbe : ∀ r t, l = r :: t → ∃ t', l' = r :: t' := by
            rintro r t rfl
            rcases hcase with ⟨_, rfl⟩ | ⟨_, rfl⟩
            · exact ⟨t, rfl⟩
            · exact ⟨t ++ [p], rfl⟩
          have hfe : fe = rot s.buf l'.length := hq.fend
          have hpl : (unwritten s).length = total l' - gone s.flight := by
            rw [unwritten_eq, List.length_drop, hcore.r.length, htot]
          have hgl : gone s.flight ≤ total l' := by rw [htot]; exact hcore.gone_le
          have hr' : RInv { s.buf with fend := fe, dwEnd := some fe } l' p' := by
            have hr := hcore.r
            unfold RInv at hr ⊢
            cases hlast : s.buf.last with
            | none =>
              rw [hlast] at hr
              simp only at hr ⊢
              exact ⟨hr.1, hr.2.1, by omega⟩
            | some e =>
              rw [hlast] at hr
              obtain ⟨h1, h2, h3, l1, l2, rfl, h5, h6⟩ := hr
              rcases hcase with ⟨h7, rfl⟩ | ⟨h7, rfl⟩
              · exact ⟨h1, h2, h3, l1, l2, rfl, h5, by show _ = s.buf.tail; omega⟩
              · exact ⟨h1, h2, h3, l1, l2 ++ [p], by simp, h5, by
                  show _ = s.buf.tail; simp only [total_append, total_cons, total_nil]; omega⟩
          have hu : unwritten { s with buf := { s.buf with fend := fe, dwEnd := some fe },
                                       nxtWrite := ⟨s.nxtWrite.file + 1, s.buf.dwSize⟩, chk := .waiting } =
              unwritten s := by
            rw [unwritten_eq, unwritten_eq]; rfl
          have hpf : pflags { s with buf := { s.buf with fend := fe, dwEnd := some fe },
                                     nxtWrite := ⟨s.nxtWrite.file + 1, s.buf.dwSize⟩, chk := .waiting } l' p' =
              pflags s l p := by
            show (flags l' p').drop _ = _
            rw [hfl]; rfl
          refine ⟨l', p', ⟨hq.congr rfl rfl rfl rfl, hr', hcore.fq, ?_, hcore.pos⟩,
            Or.inr (Or.inr (Or.inl ⟨x, l'.length, (unwritten s).length, rfl, h.nc, ?_, rfl, Nat.le_refl _, ?_, ?_,
              ?_, ?_, h.nxt, ?_, ?_, ?_, ?_⟩))⟩
          · intro hb
            obtain ⟨r, t, h1, h2, h3⟩ := hcore.fl hb
            obtain ⟨t', h4⟩ := hbe r t h1
            exact ⟨r, t', h4, h2, h3⟩
          · show some fe = some (rot _ _)
            rw [hfe]; rfl
          · intro hb
            obtain ⟨r, t, h1, h2, h3⟩ := hcore.fl hb
            obtain ⟨t', h4⟩ := hbe r t h1
            rw [h4]; simp
          · rw [List.take_length, hpl]
            show _ = _ + gone s.flight
            omega
          · rw [hu]; exact Nat.le_refl _
          · rw [hu, List.take_length]; exact h.cur
          · rw [hu, hpf, List.take_length, hlen, List.take_length, ← hlen, List.drop_length, List.append_nil]
            exact h.new
          · rw [hpf, hlen, List.drop_length]; simp
          · intro d hd
            obtain ⟨r, t, h1, h2⟩ := h.pd d hd
            obtain ⟨t', h4⟩ := hbe r t h1
            exact ⟨r, t', h4, h2⟩
          · intro hz
            rw [hu, List.drop_length]
            exact ⟨(h.sz hz).1, (h.sz hz).2⟩
      | false =>
        obtain ⟨fq, l', p', hb, hq, hr, hfl, hmap, hpn⟩ :=
          clearDual_spec (b := { s.buf with dwSize := 0 }) (hcore.q.congr rfl rfl rfl rfl) hcore.r
        refine ⟨{ s with buf := { s.buf with dwSize := 0, fque := fq }, chk := .failed }, none, ?_, ?_⟩
        · simp only [step, hc, completeFail]
          have hb : clearDual s.buf.fqsz { s.buf with dwSize := 0 } s.buf.fbgn =
            { s.buf with dwSize := 0, fque := fq } := hb
          rw [hb]
          rfl
        · rw [hgn]
          refine ⟨l', p', ⟨hq, hr, hcore.fq, ?_, hcore.pos⟩, Or.inl ⟨rfl, h.nc, h.dw, by simp, h.cur, hfl, ?_, ?_, ?_, ?_⟩⟩
          · intro hb
            obtain ⟨r, t, rfl, h2, h3⟩ := hcore.fl hb
            cases l' with
            | nil => simp at hmap
            | cons r' t' =>
              simp at hmap
              exact ⟨r', t', rfl, by rw [hmap.1]; exact h2, h3⟩
          · intro hh; simp at hh
          · intro hh; simp at hh
          · intro hh; simp at hh
          · intro _
            exact ⟨rfl, fun hh => absurd rfl hh⟩
    · have := h.chk; rw [hc] at this; simp at this
    · have := h.chk; rw [hc] at this; simp at this
  · refine ⟨s, none, by simp only [step, hc, if_false], ?_⟩
    have hgn : g.next s (.complete ok) none = g := by simp [Logs.next, hc]
    rw [hgn]; exact hi

theorem good_close {z : Prop} {s : St} {g : Logs} (hi : Inv z s g) (ha : z → s.files.nextSize = 0) :
    Good z s g .close := by
  left
  have hgn : ∀ o, g.next s .close o = g := fun _ => rfl
  by_cases hc : s.chk = .opened ∨ s.chk = .failed
  · refine ⟨_, none, by simp only [step]; rw [if_pos hc], ?_⟩
    rw [hgn]
    obtain ⟨l, p, hcore, hm⟩ := hi
    refine ⟨l, p, ⟨hcore.q, hcore.r, hcore.fq, hcore.fl, hcore.pos⟩, ?_⟩
    rcases hm with h | ⟨x, h⟩ | ⟨x, k, m, h⟩ | ⟨x, n, dsz, dd, h⟩
    · exact Or.inl ⟨h.mode, h.nc, h.dw, by simp, h.cur, h.fl, fun _ => rfl, fun h => by simp at h,
        fun h => by simp at h, fun hz => ⟨(h.sz hz).1, fun _ => ha hz⟩⟩
    · have := h.chk; rw [this] at hc; simp at hc
    · have := h.chk; rw [this] at hc; simp at hc
    · have := h.chk; rw [this] at hc; simp at hc
  · refine ⟨s, none, by simp only [step]; rw [if_neg hc], ?_⟩
    rw [hgn]; exact hi

theorem good_finished {z : Prop} {s : St} {g : Logs} (hi : Inv z s g) : Good z s g .finished := by
  left
  have hgn : ∀ o, g.next s .finished o = g := fun _ => rfl
  by_cases hc : s.chk = .waiting ∧ s.files.next = none
  · refine ⟨_, none, by simp only [step]; rw [if_pos hc], ?_⟩
    rw [hgn]
    obtain ⟨l, p, hcore, hm⟩ := hi
    refine ⟨l, p, ⟨hcore.q, hcore.r, hcore.fq, hcore.fl, hcore.pos⟩, ?_⟩
    rcases hm with h | ⟨x, h⟩ | ⟨x, k, m, h⟩ | ⟨x, n, dsz, dd, h⟩
    · exact Or.inl ⟨h.mode, h.nc, h.dw, by simp, h.cur, h.fl, fun _ => hc.2, fun h => by simp at h,
        fun h => by simp at h, fun hz => ⟨(h.sz hz).1, fun _ => (h.sz hz).2 (by rw [hc.1]; decide)⟩⟩
    · have := h.nxt; rw [hc.2] at this; simp at this
    · have := h.nxt; rw [hc.2] at this; simp at this
    · have := h.nxt; rw [hc.2] at this; simp at this
  · refine ⟨s, none, by simp only [step]; rw [if_neg hc], ?_⟩
    rw [hgn]; exact hi

/-- Every allowed step. -/
theorem good_step {z : Prop} {s : St} {g : Logs} (hi : Inv z s g) (a : Act) (ha : Allowed s a)
    (hz : z → a = .close → s.files.nextSize = 0) : Good z s g a := by
  cases a with
  | write rec d => exact good_write hi ha
  | take all => exact good_take hi
  | flush => exact good_flush hi
  | request l =>
    left
    by_cases hc : (s.nxtFlush.le l = true ∧ s.uptFlush.le l = true)
    · exact ⟨{ s with uptFlush := l }, none, by simp only [step]; rw [if_pos hc], hi.congr rfl rfl rfl rfl⟩
    · exact ⟨s, none, by simp only [step]; rw [if_neg hc], hi⟩
  | openNext => exact good_open hi ha
  | scan => exact good_scan hi
  | complete ok => exact good_complete hi ha
  | close => exact good_close hi (fun h => hz h rfl)
  | finished => exact good_finished hi
  | syncBegin =>
    left
    cases hs : s.sync with
    | none =>
      exact ⟨{ s with sync := some s.nxtFlush }, none, by simp only [step, hs], hi.congr rfl rfl rfl rfl⟩
    | some l => exact ⟨s, none, by simp only [step, hs], hi⟩
  | syncEnd =>
    left
    cases hs : s.sync with
    | none => exact ⟨s, none, by simp only [step, hs], hi⟩
    | some l =>
      by_cases hc : l.le s.nxtFsync = true
      · exact ⟨{ s with sync := none }, none, by simp only [step, hs]; rw [if_pos hc],
          hi.congr rfl rfl rfl rfl⟩
      · exact ⟨{ s with sync := none, nxtFsync := l,
                        durable := if l.file = s.nxtFlush.file then s.files.cur.length else s.durable },
          none, by simp only [step, hs]; rw [if_neg hc], hi.congr rfl rfl rfl rfl⟩

theorem inv_reach {z : Prop} {P : St → Act → Prop} {size fqsz : Nat} (hq : 1 < fqsz)
    (hP : ∀ s a, P s a → Allowed s a ∧ (z → a = .close → s.files.nextSize = 0)) {s : St} {g : Logs}
    (h : Reach P size fqsz s g) : Inv z s g := by
  induction h with
  | init data => exact inv_init z data hq
  | @step s s' g a o _ hp hs ih =>
    rcases good_step ih a (hP s a hp).1 (hP s a hp).2 with ⟨s1, o1, h1, h2⟩ | ⟨h1, _⟩
    · rw [hs] at h1
      obtain ⟨rfl, rfl⟩ : s' = s1 ∧ o = o1 := by simpa using h1
      exact h2
    · rw [hs] at h1; simp at h1

end Verif.LogBuf.Lemmas
