import Verif.Lemmas.SmgetAnswer
import Verif.Lemmas.BTreeStep
import Verif.Spec.SmgetDb
import Verif.Spec.Run
import Verif.Props.BTree
/-!
# Properties C24 and C52: the sort-merge get
-/
namespace Verif.Smget.Props
open Verif.BT Verif.BT.Spec Verif.Run Verif.Smget.Spec

/-- The only commands that may fault: an insertion into a tree of the greatest depth whose top node is full (see C18). -/
def Halts (db : List Nat → Entry) : Cmd → Prop
  | .bop key op => ∃ info, db key = .tree info ∧ Stuck (some info) op
  | _ => False

theorem sees_set {view : List Nat → View} {db : List Nat → Entry} (h : Sees view db) {key : List Nat} {σ : S} {s : Option Info}
    (R : RelS σ s) : Sees (change view key (viewOf σ)) (set db key (entry s)) := by
  intro k
  by_cases hk : k = key
  · subst hk
    simp only [change, Smget.set, if_true]
    cases σ with
    | none =>
      cases s with
      | none => exact .inl ⟨rfl, rfl⟩
      | some info => exact R.elim
    | some c =>
      cases s with
      | none => exact R.elim
      | some info => exact .inr (.inr ⟨c, info, rfl, rfl, R⟩)
  · simp only [change, Smget.set, hk, if_false]; exact h k

/-- C24, C52: on any sequence of commands on any keys, the sort-merge get answers at any time as specified in `Answer` and `Reply`: the
elements are those of the merge of what all keys offer, in order, without any that lies behind the requested number; keys are reported as
missed and as trimmed exactly where they are; and it gives back the references it took.  Not covered: requests that name a key twice,
keys that contain a zero byte, and requests whose sum of offset and count exceeds 32 bits. -/
theorem C24_merge_partial (cfg : Cfg) (h : 0 < cfg.maxSize) :
    ImplementsUntil (Smget.step cfg) noItems (Smget.Spec.Step cfg.maxSize) Smget.Spec.Legal Smget.Spec.start Halts := by
  refine of_simulation_until Sees (fun k => .inl ⟨rfl, rfl⟩) ?_
  intro view db cmd R hl
  cases cmd with
  | bop key op =>
    rcases R key with ⟨v1, v2⟩ | ⟨v1, v2⟩ | ⟨c, info, v1, v2, Rk⟩
    · have hR : RelS none none := trivial
      rcases step_sim h hR (hl none v1) with ⟨-, h2⟩ | ⟨s', r, σ', h1, h2, h3⟩
      · obtain ⟨-, info, h3, -⟩ := h2; cases h3
      · refine .inr ⟨_, .bop r, _, ?_, ⟨none, σ', v1, h2, rfl⟩, sees_set R h3⟩
        simp only [Smget.step, v2, h1, Option.map_some]
    · exact .inr ⟨db, .badType, view, by simp only [Smget.step, v2], ⟨v1, rfl⟩, R⟩
    · have hR : RelS (some c) (some info) := Rk
      rcases step_sim h hR (hl (some c) v1) with ⟨h1, h2⟩ | ⟨s', r, σ', h1, h2, h3⟩
      · left
        refine ⟨?_, info, v2, h2⟩
        simp only [Smget.step, v2, h1, Option.map_none]
      · refine .inr ⟨_, .bop r, _, ?_, ⟨some c, σ', v1, h2, rfl⟩, sees_set R h3⟩
        simp only [Smget.step, v2, h1, Option.map_some]
  | put key =>
    refine .inr ⟨_, .done, _, rfl, rfl, ?_⟩
    intro k
    by_cases hk : k = key
    · subst hk; simp [change, Smget.set]
    · simp only [change, Smget.set, hk, if_false]; exact R k
  | drop key =>
    refine .inr ⟨_, .done, _, rfl, rfl, ?_⟩
    intro k
    by_cases hk : k = key
    · subst hk; simp [change, Smget.set]
    · simp only [change, Smget.set, hk, if_false]; exact R k
  | smget keys r f offset count unique =>
    obtain ⟨rep, refs, g1, g2, g3, g4, g5⟩ := smget_spec R hl unique
    refine .inr ⟨db, .smget rep refs, view, by simp only [Smget.step, g1, Option.map_some], ⟨rfl, g2, g3, ?_⟩, R⟩
    rintro (hu | he)
    · exact g4 hu
    · exact g5 he

/-! Concrete cases: `A` holds 1, 3, 5; `B` holds at most three elements and trims the largest, of 1, 2, 3, 9 it lost 9. -/

def kA : List Nat := [97]
def kB : List Nat := [98]

def fill : List Cmd :=
  [.bop kA (BT.Props.crt .smallest 0), .bop kA (BT.Props.ins 1 1), .bop kA (BT.Props.ins 3 1), .bop kA (BT.Props.ins 5 1),
   .bop kB (BT.Props.crt .largest 3), .bop kB (BT.Props.ins 1 2), .bop kB (BT.Props.ins 2 2), .bop kB (BT.Props.ins 3 2),
   .bop kB (BT.Props.ins 9 2)]

/-- One element at each of two keys, with the same bkey. -/
def pair (a b : List Nat) : List Cmd :=
  [.bop a (BT.Props.crt .smallest 0), .bop a (BT.Props.ins 1 1), .bop b (BT.Props.crt .smallest 0), .bop b (BT.Props.ins 1 2)]

/-- An answer in short: numbers of keys with bkeys of elements, missed keys, trimmed keys, whether bkeys occur twice, references given
back twice. -/
structure Short where
  elems : List (Nat × BKey)
  miss : List (Nat × Miss)
  trim : List (Nat × BKey)
  dup : Bool
  over : List Nat
deriving DecidableEq

/-- The last answer to the commands, in short. -/
def short (l : List Cmd) : Option Short :=
  match (answers (Smget.step ⟨50000⟩) noItems l).bind List.getLast? with
  | some (.smget (.ok R) refs) => some ⟨R.elems.map (fun x => (x.kidx, x.elem.bkey)), R.miss, R.trim, R.dup, refs.over⟩
  | _ => none

/-- The last answer is this error. -/
def failed (l : List Cmd) : Option Err :=
  match (answers (Smget.step ⟨50000⟩) noItems l).bind List.getLast? with
  | some (.smget (.err e) _) => some e
  | _ => none

/-- The requests below meet the hypotheses of `C24_merge_partial`. -/
example : Fair [kA, kB, [99]] ⟨.num 0, some (.num 10)⟩ none 1 3 :=
  ⟨by decide, by decide, by simp [RangeOk, ValidKey, SameKind], by simp [FilterOk], by decide, by decide⟩

example : short (fill ++ [.smget [kA, kB, [99]] ⟨.num 0, some (.num 10)⟩ none 0 10 false]) =
    some ⟨[(0, .num 1), (1, .num 1), (1, .num 2), (0, .num 3), (1, .num 3), (0, .num 5)], [(2, .enoent)], [(1, .num 3)], true, []⟩ := by
  decide +kernel

example : short (fill ++ [.smget [kA, kB, [99]] ⟨.num 0, some (.num 10)⟩ none 1 3 true]) =
    some ⟨[(1, .num 2), (0, .num 3), (0, .num 5)], [(2, .enoent)], [(1, .num 3)], false, []⟩ := by
  decide +kernel

example : short (fill ++ [.smget [kA, kB, [99]] ⟨.num 10, some (.num 0)⟩ none 0 3 false]) =
    some ⟨[(0, .num 5), (0, .num 3), (0, .num 1)], [(1, .bkeyoor), (2, .enoent)], [], false, []⟩ := by
  decide +kernel

example : failed (fill ++ [.put [99], .smget [kA, kB, [99]] ⟨.num 0, some (.num 10)⟩ none 0 3 false]) = some .badType := by
  decide +kernel

/-- C24 without the bound on offset and count: the check `(offset+count) > MAX_SMGET_REQ_COUNT` of the text protocol, memcached.c
13080, computes the sum in 32 bits and passes an offset of 4294967295 with a count of 1.  The engine then works with a requested
number of 0 and writes before the beginning of its index array. -/
theorem C24_wrap_false : (answers (Smget.step ⟨50000⟩) noItems (pair kA kB)).isSome = true ∧
    answers (Smget.step ⟨50000⟩) noItems (pair kA kB ++ [.smget [kA, kB] ⟨.num 0, some (.num 10)⟩ none 4294967295 1 false]) = none := by
  decide +kernel

/-- C24 for keys that contain a zero byte: two different keys with equal bkeys are taken for the same key, and the request fails. -/
theorem C24_zero_false : [97, 0, 1] ≠ [97, 0, 2] ∧
    failed (pair [97, 0, 1] [97, 0, 2] ++ [.smget [[97, 0, 1], [97, 0, 2]] ⟨.num 0, some (.num 10)⟩ none 0 2 false]) = some .badValue := by
  decide +kernel

/-- A range that ends exactly at the only element in it is reported as trimmed there, although it does not reach what was trimmed;
the same range with one more element is not. -/
theorem C24_trim_false :
    short (fill ++ [.smget [kB] ⟨.num 3, some (.num 3)⟩ none 0 3 false]) = some ⟨[(0, .num 3)], [], [(0, .num 3)], false, []⟩ ∧
    short (fill ++ [.smget [kB] ⟨.num 2, some (.num 3)⟩ none 0 3 false]) = some ⟨[(0, .num 2), (0, .num 3)], [], [], false, []⟩ := by
  decide +kernel

/-- C52: in any sequence of commands, every sort-merge get gives back all references it took, and in duplicate mode, and whenever it
fails, it gives back none that it did not take.  Not covered: unique mode, where that is false, see `C52_unique_false`. -/
theorem C52_references_partial (cfg : Cfg) (h : 0 < cfg.maxSize) (c : Client Cmd Out)
    (hc : LegalClient (Smget.Spec.Step cfg.maxSize) Smget.Spec.Legal Smget.Spec.start c) {n : Nat} {db : List Nat → Entry}
    {t : List (Cmd × Out)} (hp : play (Smget.step cfg) noItems c n = some (db, t)) {keys : List (List Nat)} {r : Range}
    {f : Option EFilter} {offset count : Nat} {unique : Bool} {rep : Smget.Rep} {refs : Refs}
    (hm : (Cmd.smget keys r f offset count unique, Out.smget rep refs) ∈ t) :
    refs.held = [] ∧ (unique = false ∨ (∃ e, rep = .err e) → refs.over = []) := by
  obtain ⟨k, s, t', hk, h1, -, ⟨σ, h2⟩, h3⟩ := C24_merge_partial cfg h c hc n
  have hkn : k = n := by
    rcases Nat.lt_or_eq_of_le hk with hlt | he
    · exfalso
      have hnone : ∀ d, play (Smget.step cfg) noItems c (k + 1 + d) = none := by
        intro d
        induction d with
        | zero => simp only [play, h1, (h3 hlt).1]
        | succ d ih => rw [← Nat.add_assoc, play, ih]
      have := hnone (n - (k + 1))
      rw [show k + 1 + (n - (k + 1)) = n by omega, hp] at this
      cases this
    · exact he
  subst hkn
  rw [hp] at h1
  cases h1
  obtain ⟨_, _, _, -, hst⟩ := h2.mem hm
  exact hst.2.2

/-- A run of ten commands, the last a sort-merge get for one element: the item at one key contributes it, that at the other is dropped
from the merge; both references are given back. -/
example : (play (Smget.step ⟨50000⟩) noItems (fun t => (fill ++ [Cmd.smget [kA, kB] ⟨.num 0, some (.num 10)⟩ none 0 1 false]).getD t.length (.drop []))
    10).bind (fun p => p.2.getLast?.map fun x => match x.2 with | .smget (.ok R) refs => (R.elems.length, refs.held, refs.over) | _ => (0, [0], [0])) =
    some (1, [], []) := by
  decide +kernel

/-- A request that names a key twice (not covered by the theorem) fails, and gives back both references. -/
example : (answers (Smget.step ⟨50000⟩) noItems (pair kA kB ++ [.smget [kA, kB, kA] ⟨.num 0, some (.num 10)⟩ none 0 3 true])).bind List.getLast? =
    some (.smget (.err .badValue) ⟨[], []⟩) := by
  decide +kernel

/-- C52 in unique mode: an element that loses against one with an equal bkey, at the last key of the request and the last of its key,
has its item released twice. -/
theorem C52_unique_false :
    short (pair kA kB ++ [.smget [kA, kB] ⟨.num 0, some (.num 10)⟩ none 0 3 true]) = some ⟨[(0, .num 1)], [], [], false, [1]⟩ := by
  decide +kernel

end Verif.Smget.Props
