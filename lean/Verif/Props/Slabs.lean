import Verif.Lemmas.SlabStat
/-! # Properties of the allocator for small memory

C59 (pieces are private and no assertion fails), C60 (memory comes back and is refused only if there is none), C61 (the statistics are
right), C62 (the count of space that can still be had). -/
namespace Verif.Slabs.Props
open Verif.Slabs Verif.Slabs.Spec Verif.Run

/-! ## Concrete runs, for the examples -/

/-- `Legal` as a test. -/
def legalB (σ : List Piece) : Op → Bool
  | .alloc size _ _ => decide (0 < size) && decide (size ≤ 49148)
  | .free ptr size => σ.any fun c => decide (c.ptr = ptr) && decide (c.size = size)
  | .store adr v => σ.any fun c => decide (c.Holds adr) && (decide (adr ≠ c.ptr) || decide (v ≠ 0))
  | .load adr => σ.any fun c => decide (c.Holds adr)
  | _ => true

theorem legal_of {σ : List Piece} {op : Op} (h : legalB σ op = true) : Legal σ op := by
  cases op with
  | alloc size short os =>
    simp only [legalB, Bool.and_eq_true, decide_eq_true_eq] at h
    exact .alloc h.1 h.2
  | free ptr size =>
    simp only [legalB, List.any_eq_true, Bool.and_eq_true, decide_eq_true_eq] at h
    obtain ⟨c, hc, rfl, rfl⟩ := h
    exact .free hc
  | store adr v =>
    simp only [legalB, List.any_eq_true, Bool.and_eq_true, Bool.or_eq_true, decide_eq_true_eq] at h
    obtain ⟨c, hc, h1, h2⟩ := h
    exact .store hc h1 (fun ha => h2.resolve_left (fun hn => hn ha))
  | load adr =>
    simp only [legalB, List.any_eq_true, decide_eq_true_eq] at h
    obtain ⟨c, hc, h1⟩ := h
    exact .load hc h1
  | otherPage len => exact .otherPage
  | limit n => exact .limit

/-- The pieces after an event. -/
def nextP (σ : List Piece) : Op → Obs → List Piece
  | .alloc size _ _, .ptr p => if p = 0 then σ else ⟨p, size, fun _ => none⟩ :: σ
  | .free ptr _, _ => σ.filter fun c => decide (c.ptr ≠ ptr)
  | .store adr v, _ => σ.map fun c => if c.Holds adr then c.put adr v else c
  | _, _ => σ

/-- A run of legal events. -/
def go : List Op → List Piece × St → Option (List Piece × St)
  | [], r => some r
  | op :: ops, (σ, s) =>
    if legalB σ op then
      match step s op with
      | none => none
      | some (s', o) => go ops (nextP σ op o, s')
    else none

theorem go_reach {c : Cfg} {mem : Nat → Nat} (h1 : c.Ok) (h2 : 262144 ≤ c.itemMax) : ∀ (ops : List Op) {σ σ' : List Piece} {s s' : St},
    Reach (init c mem) σ s → go ops (σ, s) = some (σ', s') → Reach (init c mem) σ' s'
  | [], σ, σ', s, s', h, e => by
    simp only [go, Option.some.injEq, Prod.mk.injEq] at e
    rw [← e.1, ← e.2]; exact h
  | op :: ops, σ, σ', s, s', h, e => by
    rw [go] at e
    split at e
    · rename_i hl
      split at e
      · simp at e
      · rename_i s1 o hs
        refine go_reach h1 h2 ops ?_ e
        obtain ⟨s2, o2, σ2, e2, k, -⟩ := sim (reach_rel h1 h2 h).1 (legal_of hl)
        rw [hs, Option.some.injEq, Prod.mk.injEq] at e2
        obtain ⟨rfl, rfl⟩ := e2
        have : nextP σ op o = σ2 := by
          cases k with
          | alloc hp => simp [nextP, hp]
          | _ => rfl
        rw [this]
        exact h.next (legal_of hl) hs k
    · simp at e

/-- The usual sizes: items up to 1 MB, 64 MB of memory. -/
def usual : Cfg := ⟨1048576, 67108864⟩

theorem usual_ok : usual.Ok := by unfold Cfg.Ok usual; decide

/-- Some reachable state of such a server has a property. -/
def Seen (t : List Piece → St → Bool) : Prop := ∃ σ s, Reach (init usual fun _ => 0) σ s ∧ t σ s = true

theorem seen_of (ops : List Op) {t : List Piece → St → Bool} (h : (match go ops ([], init usual fun _ => 0) with | some r => t r.1 r.2 | none => false) = true) :
    Seen t := by
  split at h
  · rename_i r e
    exact ⟨r.1, r.2, go_reach usual_ok (by decide) ops .start e, h⟩
  · simp at h

/-! ## C59 -/

/-- C59: whatever users do, as long as they give back what they got and stay within it, no assertion fails, every piece is aligned and touches
no other piece, and what is stored in a piece stays there. -/
def PrivatePieces (c : Cfg) : Prop := ∀ mem, Implements step (init c mem) Step Legal []

/-- It holds if the largest item size is a block (256 KB) or more. -/
theorem C59_partial (c : Cfg) (_ : c.Ok) (h : 262144 ≤ c.itemMax) : PrivatePieces c := fun mem =>
  of_simulation Rel (rel_init c h mem) fun _ _ _ hr hl => sim hr hl

/-- It fails for smaller ones, which memcached.c 15837-15844 accepts from 20 KB on: slabs.c 356 then makes pages of
no block, and the first block handed out lies outside of its page. -/
theorem C59_false : ¬ ∀ c : Cfg, c.Ok → PrivatePieces c := by
  intro h
  have h1 := h ⟨102400, 67108864⟩ (by unfold Cfg.Ok; decide) (fun _ => 0) (fun _ => .alloc 100 false true) (fun _ _ _ => .alloc (by decide) (by decide)) 1
  obtain ⟨s, t, e, -⟩ := h1
  have : (play step (init ⟨102400, 67108864⟩ fun _ => 0) (fun _ => Op.alloc 100 false true) 1).isNone = true := by decide +kernel
  rw [e] at this
  simp at this

/-- A user that asks for 100 bytes and, if it gets them, stores a word there for ever. -/
def storer : Client Op Obs
  | [] => .alloc 100 false true
  | (_, .ptr p) :: _ => if p = 0 then .limit 0 else .store p 7
  | _ => .limit 0

/-- Legal users: one that asks for 100 bytes again and again, and `storer`. -/
example : LegalClient Step Legal [] (fun _ => .alloc 100 false true) := fun _ _ _ => .alloc (by decide) (by decide)

example : LegalClient Step Legal [] storer := by
  have key : ∀ t σ, SpecRun Step [] storer t σ → match t with | (_, .ptr p) :: _ => p ≠ 0 → ∃ c ∈ σ, c.ptr = p ∧ c.size = 100 | _ => True := by
    intro t σ h
    induction h with
    | nil => trivial
    | @snoc t σ o σ' h k ih =>
      cases t with
      | nil =>
        simp only [storer] at k
        cases k with
        | null => exact fun h => absurd rfl h
        | alloc hp h8 ha => exact fun _ => ⟨_, List.mem_cons_self, rfl, rfl⟩
      | cons a t =>
        obtain ⟨op, ob⟩ := a
        cases ob with
        | ptr p =>
          intro hp
          obtain ⟨c, hc, h1, h2⟩ := ih hp
          simp only [storer, if_neg hp] at k
          cases k
          exact ⟨_, List.mem_map.mpr ⟨c, hc, rfl⟩, by split <;> simp [Piece.put, h1], by split <;> simp [Piece.put, h2]⟩
        | _ => trivial
  intro t σ h
  have := key t σ h
  cases t with
  | nil => exact .alloc (by decide) (by decide)
  | cons a t =>
    obtain ⟨op, ob⟩ := a
    cases ob with
    | ptr p =>
      simp only [storer]
      split
      · exact .limit
      · rename_i hp
        obtain ⟨c, hc, h1, h2⟩ := this hp
        exact .store hc ⟨by omega, by omega, by rw [h1]; simp⟩ (fun _ => by decide)
    | _ => exact .limit

/-- A run: two pieces, stores at both ends of both, one given back, a smaller one in its place, the other one unharmed. -/
example : answers step (init usual fun _ => 0)
    [.alloc 100 false true, .alloc 5000 false true, .store 262176 1, .store 262272 2, .store 262280 3, .store 267276 4, .free 262176 100,
      .alloc 60 false true, .load 262280, .load 267276] =
    some [.ptr 262176, .ptr 262280, .done, .done, .done, .done, .done, .ptr 262176, .word 3, .word 4] := by decide +kernel

/-- Why the first word of a piece must not be 0: the neighbour given back takes the piece for a free slot, and the assertion at slabs.c 977
fails. -/
example : answers step (init usual fun _ => 0) [.alloc 100 false true, .alloc 100 false true, .store 262280 0, .free 262176 100] = none ∧
    (answers step (init usual fun _ => 0) [.alloc 100 false true, .alloc 100 false true, .store 262280 1, .free 262176 100]).isSome = true := by
  constructor <;> decide +kernel

/-! ## C60 -/

theorem cf_mono {m n : Nat} (h : m ≤ n) : cf m ≤ cf n := by
  unfold cf; (repeat' split) <;> omega

/-- C60: a request is refused only if no page can be had (the limit is reached and the reserve used up, or the system has no memory), and only
if no stretch of the blocks, between the pieces and clear of the 32 bytes at the start of each block, is as large as twice the room asked for. -/
theorem C60_refused (c : Cfg) (h1 : c.Ok) (h2 : 262144 ≤ c.itemMax) (mem : Nat → Nat) {σ : List Piece} {s s' : St} (h : Reach (init c mem) σ s)
    {size : Nat} (_ : 0 < size) (hs : size ≤ 49148) {short os : Bool} (e : step s (.alloc size short os) = some (s', .ptr 0)) :
    (os = false ∨ (s.pg.memLimit < s.pg.memMalloced + 262144 * s.pg.perslab ∧ s.pg.rsvd ≤ s.pg.slabs)) ∧
    ∀ k off n, k < s.pg.slabs * s.pg.perslab → 32 ≤ off → off + n ≤ 262144 →
      (∀ d ∈ σ, Apart (262144 * (k + 1) + off) n d.ptr (room d.size)) → n < 2 * room size := by
  obtain ⟨S, L, hi, hp⟩ := (reach_rel h1 h2 h).1.inv
  rcases alloc_ok hi hs short os with ⟨-, ⟨f1, f2, f3⟩, hz⟩ | ⟨t, p, R, L', e2, h0, -⟩
  · refine ⟨?_, ?_⟩
    · rcases f3 with ⟨-, f4, f5⟩ | f3
      · exact .inr ⟨f4, f5⟩
      · exact .inl f3
    · intro k off n hk ho hn hd
      rw [room_eq]
      have hsl := slen_spec size
      apply Classical.byContradiction
      intro hlt
      have hkL : k ∈ L := hi.pg.where' (by rw [hi.pg.en f2]; omega) (by rw [f1]; simp)
      obtain ⟨y, hy, y1, y2, y3⟩ := hi.core.geo.gap hi.tight hkL (n := n) (a := 262144 * (k + 1) + off) (by omega) (by omega) (by omega) (by omega) (by
        intro x hx hxk
        obtain ⟨d, hdσ, rfl⟩ := List.mem_map.mp (hp.mem_iff.mpr (mem_usedOf.mpr ⟨hx, hxk⟩))
        have := hd d hdσ
        rw [room_eq] at this
        exact this)
      have h3 := hz y hy y1 (by omega)
      have h4 := cc_le_double hsl.2.1 hsl.1
      have h5 := cf_mono (show slen size * 2 ≤ y.len by omega)
      omega
  · simp only [step, e2, Option.map_some, Option.some.injEq, Prod.mk.injEq, Obs.ptr.injEq] at e
    exact absurd e.2 h0

/-- C60: blocks are kept only for pieces, so that all are free again once all pieces are given back. -/
theorem C60_returns (c : Cfg) (h1 : c.Ok) (h2 : 262144 ≤ c.itemMax) (mem : Nat → Nat) {σ : List Piece} {s : St} (h : Reach (init c mem) σ s) :
    s.pg.slabs * s.pg.perslab ≤ s.pg.slots.length + s.pg.endFree + σ.length ∧ (σ = [] → s.pg.slots.length + s.pg.endFree = s.pg.slabs * s.pg.perslab) := by
  obtain ⟨S, L, hi, hp⟩ := (reach_rel h1 h2 h).1.inv
  have h3 := hi.core.geo.blocks_le hi.tight (List.nodup_append.mp hi.pg.nodup).1
  rw [← hp.length_eq, List.length_map] at h3
  have h4 := hi.pg.cnt
  refine ⟨by omega, fun h0 => ?_⟩
  rw [h0] at h3
  simp only [List.length_nil] at h3
  omega

/-- No refusal though the system has no memory, as the block of the one piece has room; with five large pieces in each of the four blocks there
is one. -/
example : Seen fun σ s => decide (σ.length = 1) && ((step s (.alloc 40000 false false)).map (·.2) != some (.ptr 0)) :=
  seen_of [.alloc 40000 false true] (by decide +kernel)

example : Seen fun σ s => decide (σ.length = 20) && ((step s (.alloc 40000 false false)).map (·.2) == some (.ptr 0)) && decide (s.pg.slabs * s.pg.perslab = 4) :=
  seen_of (List.replicate 20 (.alloc 49148 false true)) (by decide +kernel)

/-- All given back: all four blocks of the page are free. -/
example : Seen fun σ s => σ.isEmpty && decide (s.pg.slabs = 1) && decide (s.pg.slots.length + s.pg.endFree = 4) :=
  seen_of [.alloc 49148 false true, .alloc 100 false true, .free 262176 49148, .free 311328 100] (by decide +kernel)

/-! ## C61 -/

/-- C61: the statistics of small memory are right in every state that can be reached. -/
theorem C61 (c : Cfg) (h1 : c.Ok) (h2 : 262144 ≤ c.itemMax) (mem : Nat → Nat) {σ : List Piece} {s : St} (h : Reach (init c mem) σ s) : Stats σ s :=
  stats_ok (reach_rel h1 h2 h).1

/-- A state with three pieces in three classes. -/
example : Seen fun σ s => decide (σ.length = 3) && decide (s.total = 104 + 32 + 5008) && decide (s.unum = 3) && decide (s.umin = 4) && decide (s.umax = 317) && decide (s.pct = 317) && decide (s.pctsp = 5008) :=
  seen_of [.alloc 100 false true, .alloc 5000 false true, .alloc 200 false true, .free 267288 200, .alloc 7 false true] (by decide +kernel)

/-! ## C62 -/

/-- C62: once the reserve is fixed, `free_chunk_space` is the space of the blocks that are free or in pages kept in reserve; before, it is 0. -/
def ChunkSpaceRight (s : St) : Prop :=
  s.pg.freeChunk = if s.pg.rsvd = 0 then 0 else (s.pg.slots.length + s.pg.endFree + (s.pg.rsvd - s.pg.slabs) * s.pg.perslab) * 262144

/-- It holds as long as the pages for small memory are below 4 GB. -/
theorem C62_partial (c : Cfg) (h1 : c.Ok) (h2 : 262144 ≤ c.itemMax) (mem : Nat → Nat) {σ : List Piece} {s : St} (h : Reach (init c mem) σ s)
    (h4 : s.pg.slabs * s.pg.perslab * 262144 < 4294967296) : ChunkSpaceRight s := by
  have hc := (reach_rel h1 h2 h).2
  unfold ChunkSpaceRight
  split
  · rename_i h0; exact (hc.off h0).1
  · rename_i h0; exact (hc.on h0 (by omega)).2.1

/-- It fails above that: slabs.c 1307-1309 multiply 32-bit numbers, and the space kept in reserve is short by 4 GB or more. -/
theorem C62_false : ∃ (c : Cfg) (σ : List Piece) (s : St), c.Ok ∧ 262144 ≤ c.itemMax ∧ Reach (init c fun _ => 0) σ s ∧ ¬ ChunkSpaceRight s := by
  obtain ⟨σ, s, h, h1, h2⟩ := big_run (fun _ => 0)
  refine ⟨bigCfg, σ, s, bigCfg_ok, by decide, h, ?_⟩
  unfold ChunkSpaceRight
  rw [if_neg h1]
  unfold avail at h2
  omega

/-- The reserve fixed after another class took most of the memory. -/
example : Seen fun σ s => decide (σ.length = 1) && decide (s.pg.rsvd ≠ 0) && decide (0 < s.pg.freeChunk) && decide (s.pg.slabs * s.pg.perslab * 262144 < 4294967296) :=
  seen_of [.alloc 100 false true, .otherPage 62914560, .otherPage 1048576] (by decide +kernel)

end Verif.Slabs.Props
