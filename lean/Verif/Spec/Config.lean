/-
What the options of an engine mean.
-/
import Verif.Model.Config
import Verif.Spec.Util

namespace Verif.Config.Spec

open Verif.Config (Text DT Val str)
open Verif.Util.Spec (decVal Digit Space)

/-- A text with each `stop` escaped. -/
def esc (stop : Nat) (t : Text) : Text := t.flatMap (fun c => if c = stop then [92, c] else [c])

/-- `key=value`. -/
def entry (x : Text × Text) : Text := esc 61 x.1 ++ 61 :: esc 59 x.2

/-- `key=value;key=value;…`. -/
def render : List (Text × Text) → Text
  | [] => []
  | [x] => entry x
  | x :: xs => entry x ++ 59 :: render xs

/-- A text that can be written: not empty, no backslash, no white space in front, not too long. -/
def Plain (stop size : Nat) (t : Text) : Prop :=
  t ≠ [] ∧ 92 ∉ t ∧ (∀ c, t.head? = some c → ¬ Space c) ∧ (esc stop t).length < size

/-- The options can be written; the last value does not end in white space. -/
def Writable (kvs : List (Text × Text)) : Prop :=
  (∀ x ∈ kvs, Plain 61 80 x.1 ∧ Plain 59 1024 x.2) ∧
  ∀ x c, kvs.getLast? = some x → x.2.getLast? = some c → ¬ Space c

/-- An amount: digits, and perhaps a suffix for a power of 1024. -/
def Amount (v : Text) (n : Nat) : Prop :=
  ∃ ds sfx i, v = ds ++ sfx ∧ ds ≠ [] ∧ (∀ d ∈ ds, Digit d) ∧ n = decVal ds * 1024 ^ i ∧
    ((sfx = [] ∧ i = 0) ∨ (sfx ∈ [str "k", str "K"] ∧ i = 1) ∨ (sfx ∈ [str "m", str "M"] ∧ i = 2) ∨
     (sfx ∈ [str "g", str "G"] ∧ i = 3) ∨ (sfx ∈ [str "t", str "T"] ∧ i = 4))

/-- No suffix for 1024 to the fourth. -/
def NoTera (v : Text) : Prop := 116 ∉ v ∧ 84 ∉ v

/-- Two words are equal but for case. -/
def sameWord (v : Text) (w : String) : Prop :=
  v.map (fun c => if 65 ≤ c ∧ c ≤ 90 then c + 32 else c) = w.toList.map Char.toNat

/-- What a value means for an option; amounts must fit. -/
def Means (strtof : Text → Option Nat) : DT → Text → Val → Prop
  | .size, v, x => ∃ n, Amount v n ∧ n < 18446744073709551616 ∧ x = .size n
  | .u32, v, x => ∃ n, Amount v n ∧ n < 4294967296 ∧ x = .u32 n
  | .float, v, x => ∃ y, strtof v = some y ∧ x = .float y
  | .string, v, x => x = .string v
  | .char, v, x => ∃ r c, v = c :: r ∧ x = .char c
  | .bool, v, x => ((sameWord v "true" ∨ sameWord v "on") ∧ x = .bool true) ∨
      ((sameWord v "false" ∨ sameWord v "off") ∧ x = .bool false)
  | .file, _, _ => False

/-- The type of an option: that of the first item of its name. -/
def Has (items : List (Text × DT)) (key : Text) (dt : DT) : Prop :=
  ∃ a b, items = a ++ (key, dt) :: b ∧ ∀ x ∈ a, x.1 ≠ key

/-- There is no option of this name. -/
def Unknown (items : List (Text × DT)) (key : Text) : Prop := ∀ x ∈ items, x.1 ≠ key

instance (items : List (Text × DT)) (key : Text) : Decidable (Unknown items key) := by
  unfold Unknown; infer_instance

/-- What is stored for options: the values of the known ones, in order. -/
inductive Stores (items : List (Text × DT)) (strtof : Text → Option Nat) :
    List (Text × Text) → List (Text × Val) → Prop where
  | nil : Stores items strtof [] []
  | unknown {k v kvs st} : Unknown items k → Stores items strtof kvs st →
      Stores items strtof ((k, v) :: kvs) st
  | known {k v kvs st dt x} : Has items k dt → Means strtof dt v x →
      ((dt = .size ∨ dt = .u32) → NoTera v) → Stores items strtof kvs st →
      Stores items strtof ((k, v) :: kvs) ((k, x) :: st)

/-- The options are written without backslashes, and the last one has a name of at least one
    character, `=`, and a value without `;`. -/
def LastHasValue (s : Text) : Prop :=
  92 ∉ s ∧ ∃ a x v, s = a ++ x :: 61 :: v ∧ ¬ Space x ∧ x ≠ 59 ∧ 59 ∉ v

end Verif.Config.Spec
