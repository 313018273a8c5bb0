import Verif.Model.Slabs
import Verif.Spec.Run
/-!
# What an allocator is

Only `Op`, `Obs` and, to say what a run is, `step` are taken from the model.
-/
namespace Verif.Slabs.Spec

/-- A piece of memory handed out and not given back: where it is, the size asked for, and what its words hold (`none`: not written yet). -/
structure Piece where
  ptr : Nat
  size : Nat
  data : Nat → Option Nat

/-- The words of a piece: at multiples of 4 bytes from its start, up to its size. -/
def Piece.Holds (c : Piece) (adr : Nat) : Prop := c.ptr ≤ adr ∧ adr < c.ptr + c.size ∧ (adr - c.ptr) % 4 = 0

instance (c : Piece) (adr : Nat) : Decidable (c.Holds adr) := by unfold Piece.Holds; infer_instance

/-- A size in whole words. -/
def whole (n : Nat) : Nat := (n + 3) / 4 * 4

/-- Two stretches of memory do not touch. -/
def Apart (p n q m : Nat) : Prop := p + n ≤ q ∨ q + m ≤ p

/-- The piece with a word written. -/
def Piece.put (c : Piece) (adr v : Nat) : Piece := { c with data := fun a => if a = adr then some v else c.data a }

/-- Events: a piece handed out is aligned and touches no other; a load sees the last store to the word in the piece. -/
inductive Step : List Piece → Op → Obs → List Piece → Prop where
  | null {σ size short os} : Step σ (.alloc size short os) (.ptr 0) σ
  | alloc {σ size short os p} : p ≠ 0 → p % 8 = 0 → (∀ c ∈ σ, Apart p (whole size) c.ptr (whole c.size)) →
      Step σ (.alloc size short os) (.ptr p) (⟨p, size, fun _ => none⟩ :: σ)
  | free {σ ptr size} : Step σ (.free ptr size) .done (σ.filter fun c => decide (c.ptr ≠ ptr))
  | store {σ adr v} : Step σ (.store adr v) .done (σ.map fun c => if c.Holds adr then c.put adr v else c)
  | load {σ adr v} : (∀ c ∈ σ, ∀ w, c.Holds adr → c.data adr = some w → v = w) → Step σ (.load adr) (.word v) σ
  | otherPage {σ len} : Step σ (.otherPage len) .done σ
  | limit {σ n b} : Step σ (.limit n) (.ok b) σ

/-- What users do: they give back pieces they have, with the size they asked for, and read and write words of their pieces only.  The first word
of a piece never becomes 0: all users keep a nonzero class number there (`slabs_clsid` in item_base.h 147-310),
which item_base.c 916 clears right before the release, under the same cache lock. -/
inductive Legal : List Piece → Op → Prop where
  | alloc {σ size short os} : 0 < size → size ≤ 49148 → Legal σ (.alloc size short os)
  | free {σ} {c : Piece} : c ∈ σ → Legal σ (.free c.ptr c.size)
  | store {σ adr v} {c : Piece} : c ∈ σ → c.Holds adr → (adr = c.ptr → v ≠ 0) → Legal σ (.store adr v)
  | load {σ adr} {c : Piece} : c ∈ σ → c.Holds adr → Legal σ (.load adr)
  | otherPage {σ len} : Legal σ (.otherPage len)
  | limit {σ n} : Legal σ (.limit n)

/-- The pieces and the state of the allocator after some run of users that do only what is legal. -/
inductive Reach (start : St) : List Piece → St → Prop where
  | start : Reach start [] start
  | next {σ s op s' o σ'} : Reach start σ s → Legal σ op → step s op = some (s', o) → Step σ op o σ' → Reach start σ' s'

/-- The space a piece takes: its size and 4 bytes, at least 32, in multiples of 8. -/
def room (size : Nat) : Nat := if size + 4 < 32 then 32 else (size + 4 + 7) / 8 * 8

/-- The space all pieces take. -/
def space : List Piece → Nat
  | [] => 0
  | c :: σ => room c.size + space σ

/-- The size class of a piece: steps of 8 bytes up to 1 KB, of 16 up to 3 KB, of 32 up to 7 KB, of 64 up to 15 KB, of 128 up to 31 KB, of 256 up
to 48 KB. -/
def cls (size : Nat) : Nat :=
  let n := room size
  if n ≤ 1024 then n / 8
  else if n ≤ 3072 then 128 + (n - 1024 + 15) / 16
  else if n ≤ 7168 then 256 + (n - 3072 + 31) / 32
  else if n ≤ 15360 then 384 + (n - 7168 + 63) / 64
  else if n ≤ 31744 then 512 + (n - 15360 + 127) / 128
  else 640 + (n - 31744 + 255) / 256

/-- What `stats slabs` says about small memory agrees with the pieces: the space used, the classes used (how many, the least and the greatest),
all space of the blocks in use accounted for, and the class from which on the pieces take at least one per cent of the space. -/
structure Stats (σ : List Piece) (s : St) : Prop where
  used : s.total = space σ
  all : s.total + s.fsmall + s.favail = (s.pg.slabs * s.pg.perslab - s.pg.slots.length - s.pg.endFree) * 262112
  num : s.unum = (((List.range 709).filter fun k => σ.any fun c => decide (cls c.size = k)).length : Nat)
  idle : σ = [] → s.umin = 709 ∧ s.umax = -1 ∧ s.pct = -1 ∧ s.pctsp = 0
  least : σ ≠ [] → (∃ c ∈ σ, cls c.size = s.umin) ∧ ∀ c ∈ σ, s.umin ≤ cls c.size
  most : σ ≠ [] → (∃ c ∈ σ, s.umax = cls c.size) ∧ ∀ c ∈ σ, (cls c.size : Int) ≤ s.umax
  onePct : σ ≠ [] → s.pctsp = space (σ.filter fun c => decide (s.pct ≤ (cls c.size : Int))) ∧ s.total < s.pctsp * 100 ∧ ∃ c ∈ σ, s.pct = cls c.size

end Verif.Slabs.Spec
