import Verif.Model.SmgetDb
import Verif.Spec.Smget
/-!
# Specification of the commands on several keys
-/
namespace Verif.Smget.Spec
open Verif.BT Verif.BT.Spec

/-- What a b+tree command leaves. -/
def viewOf : S → View
  | none => .absent
  | some c => .coll c

/-- Change of one key. -/
def change (view : List Nat → View) (key : List Nat) (v : View) : List Nat → View := fun k => if k = key then v else view k

/-- What the commands do.  The b+tree commands are those of `Verif.BT.Spec`, on one key. -/
def Step (mx : Nat) (view : List Nat → View) : Cmd → Out → (List Nat → View) → Prop
  | .bop key op, .bop rep, view' =>
    ∃ σ σ', view key = viewOf σ ∧ BT.Spec.Step mx σ op rep σ' ∧ view' = change view key (viewOf σ')
  | .bop key _, .badType, view' => view key = .other ∧ view' = view
  | .put key, .done, view' => view' = change view key .other
  | .drop key, .done, view' => view' = change view key .absent
  | .smget keys r f offset count unique, .smget rep refs, view' =>
    view' = view ∧ Reply view keys r f offset count unique rep ∧
      refs.held = [] ∧ (unique = false ∨ (∃ e, rep = .err e) → refs.over = [])
  | _, _, _ => False

/-- Commands the protocol layer passes on. -/
def Legal (view : List Nat → View) : Cmd → Prop
  | .bop key op => ∀ σ, view key = viewOf σ → BT.Spec.Legal σ op
  | .smget keys r f offset count _ => Fair keys r f offset count
  | _ => True

/-- No items. -/
def start : List Nat → View := fun _ => .absent

end Verif.Smget.Spec
