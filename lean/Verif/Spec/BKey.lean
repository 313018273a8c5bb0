import Verif.Model.BKey
import Verif.Spec.Util
/-!
# Specification of bkeys and element filters

Only the types `BKey`, `CmpOp`, `BitOp` are shared with the model.
-/
namespace Verif.BT.Spec
open Verif.BT

/-- Both keys are numbers, or both are byte strings. -/
def SameKind : BKey → BKey → Prop
  | .num _, .num _ => True
  | .bin _, .bin _ => True
  | _, _ => False

/-- Keys clients can name: numbers below 2^64, byte strings of 1 to 31 bytes. -/
def ValidKey : BKey → Prop
  | .num v => v < 2 ^ 64
  | .bin b => 1 ≤ b.length ∧ b.length ≤ 31 ∧ ∀ x ∈ b, x < 256

/-- The documented order: numbers by size, byte strings lexicographically (a proper prefix is smaller). -/
def KLt : BKey → BKey → Prop
  | .num a, .num b => a < b
  | .bin a, .bin b => List.Lex (· < ·) a b
  | _, _ => False

/-- What the operators mean in terms of a strict order `lt`. -/
def CmpOp.Holds {α : Type} (lt : α → α → Prop) (op : CmpOp) (a b : α) : Prop :=
  match op with
  | .eq => a = b
  | .ne => a ≠ b
  | .lt => lt a b
  | .le => lt a b ∨ a = b
  | .gt => lt b a
  | .ge => lt b a ∨ a = b

/-- A filter as documented: a slice of the eflag starting at `offset`, as long as the values; an optional bitwise
operation with an operand of the same length; a comparison with one value, or (`EQ`, `NE`) with a list of values. -/
structure Filter where
  offset : Nat
  bitw : Option (BitOp × List Nat)
  op : CmpOp
  values : List (List Nat)

/-- What the bitwise operators do to two bits. -/
def onBits : BitOp → Bool → Bool → Bool
  | .and, a, b => a && b
  | .or, a, b => a || b
  | .xor, a, b => a != b

/-- Length of the slice. -/
def Filter.len (f : Filter) : Nat := (f.values.headD []).length

/-- The slice of the eflag after the bitwise operation. -/
def Filter.operand (f : Filter) (eflag : List Nat) : List Nat :=
  let sl := (eflag.drop f.offset).take f.len
  match f.bitw with
  | none => sl
  | some (op, b) => List.zipWith (Nat.bitwise (onBits op)) sl b

/-- The elements a filter selects: if the eflag does not cover the slice, only `NE` selects it. -/
def Filter.Keeps (f : Filter) (eflag : List Nat) : Prop :=
  if f.offset + f.len ≤ eflag.length then
    match f.op with
    | .eq => f.operand eflag ∈ f.values
    | .ne => f.operand eflag ∉ f.values
    | op => ∃ v, f.values = [v] ∧ CmpOp.Holds (List.Lex (· < ·)) op (f.operand eflag) v
  else f.op = .ne

/-- What can be written as a filter: 1 to 100 values of the same length of at least one byte, which is also the length
of the bitwise operand; only `EQ` and `NE` take several; slices end within the 31 bytes of the longest eflag. -/
def Filter.Valid (f : Filter) : Prop :=
  f.values ≠ [] ∧ f.values.length ≤ 100 ∧ (∀ v ∈ f.values, v.length = f.len) ∧ 0 < f.len ∧ f.offset + f.len ≤ 31 ∧
  (∀ op b, f.bitw = some (op, b) → b.length = f.len) ∧ (f.op ≠ .eq → f.op ≠ .ne → f.values.length = 1)

/-! ## How filters are written -/

/-- The pieces of a comma separated list; empty pieces are skipped. -/
inductive Pieces : List Nat → List (List Nat) → Prop where
  | nil : Pieces [] []
  | comma {cs ps} : Pieces cs ps → Pieces (44 :: cs) ps
  | last {p} : p ≠ [] → 44 ∉ p → Pieces p [p]
  | cons {p cs ps} : p ≠ [] → 44 ∉ p → Pieces cs ps → Pieces (p ++ 44 :: cs) (p :: ps)

/-- A hexadecimal operand: `0x` followed by the notation of the bytes. -/
def Hexa (t v : List Nat) : Prop := ∃ h, t = 48 :: 120 :: h ∧ Verif.Util.Spec.HexString h v ∧ v ≠ []

/-- `0x...` -/
def Starts0x (t : List Nat) : Prop := ∃ h, t = 48 :: 120 :: h

/-- Names of the comparison operators. -/
def cmpName : CmpOp → List Nat
  | .eq => [69, 81] | .ne => [78, 69] | .lt => [76, 84] | .le => [76, 69] | .gt => [71, 84] | .ge => [71, 69]

/-- Names of the bitwise operators: `&`, `|`, `^`. -/
def bitName : BitOp → List Nat
  | .and => [38] | .or => [124] | .xor => [94]

/-- Two lists related position by position. -/
inductive All2 {α β : Type} (R : α → β → Prop) : List α → List β → Prop where
  | nil : All2 R [] []
  | cons {a b as bs} : R a b → All2 R as bs → All2 R (a :: as) (b :: bs)

/-- The list of values of a comparison: comma separated for `EQ` and `NE`, else a single one. -/
def ValuesText (op : CmpOp) (t : List Nat) (vs : List (List Nat)) : Prop :=
  if op = .eq ∨ op = .ne then ∃ ps, Pieces t ps ∧ All2 Hexa ps vs
  else ∃ v, vs = [v] ∧ Hexa t v

/-- `<offset> [<bitop> <operand>] <compop> <values>` at the start of the tokens, `n` of which belong to the filter. -/
inductive Written : List (List Nat) → Nat → Filter → Prop where
  | short {t0 t2 : List Nat} {more : List (List Nat)} {off : Nat} {op : CmpOp} {vs : List (List Nat)} :
      Verif.Util.Spec.Number t0 false off → off < 2 ^ 32 → Starts0x t2 → ValuesText op t2 vs →
      (∀ t3 t4 r, more = t3 :: t4 :: r → ¬ Starts0x t4) →
      Written (t0 :: cmpName op :: t2 :: more) 3 ⟨off, none, op, vs⟩
  | long {t0 t2 t4 : List Nat} {more : List (List Nat)} {off : Nat} {op : CmpOp} {bop : BitOp} {b : List Nat}
      {vs : List (List Nat)} :
      Verif.Util.Spec.Number t0 false off → off < 2 ^ 32 → Hexa t2 b → Starts0x t4 → ValuesText op t4 vs →
      Written (t0 :: bitName bop :: t2 :: cmpName op :: t4 :: more) 5 ⟨off, some (bop, b), op, vs⟩

end Verif.BT.Spec

namespace Verif.BT
open Verif.BT.Spec

/-- The structure holds the given filter. -/
structure Holds (f : EFilter) (s : Filter) : Prop where
  offset : f.offset = s.offset
  op : f.compop = s.op
  ncomp : f.ncompval = s.len
  cnt : f.compvcnt = s.values.length
  vals : ∀ i (h : i < s.values.length), (f.compval.drop (i * f.ncompval)).take f.ncompval = s.values[i] ∧
    i * f.ncompval + f.ncompval ≤ f.compval.length
  nobit : s.bitw = none → f.nbitwval = 0
  bit : ∀ op b, s.bitw = some (op, b) → f.nbitwval = s.len ∧ f.bitwop = op ∧ f.bitwval.take s.len = b ∧
    s.len ≤ f.bitwval.length

end Verif.BT
