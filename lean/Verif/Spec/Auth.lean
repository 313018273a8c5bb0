import Verif.Model.Auth
import Verif.Spec.Token
/-
What a user may do, in terms of the words in the access list.
-/

namespace Verif.Auth.Spec

/-- The word stands in the list, whose words are separated by commas. -/
def Listed (data word : List Nat) : Prop :=
  word ≠ [] ∧ 44 ∉ word ∧ ∃ a b, data = a ++ word ++ b ∧ (a = [] ∨ a.getLast? = some 44) ∧ (b = [] ∨ b.head? = some 44)

/-- The words for the types of items. -/
def types : List (List Nat) :=
  [w ['k', 'v'], w ['l', 'i', 's', 't'], w ['s', 'e', 't'], w ['m', 'a', 'p'], w ['b', 't', 'r', 'e', 'e']]

/-- The words one of which is needed for a command; `none`: the command is for everybody. -/
def needs : Cmd → Option (List (List Nat))
  | .get | .mget | .update | .arith | .touch => some [w ['k', 'v']]
  | .lop => some [w ['l', 'i', 's', 't']]
  | .sop => some [w ['s', 'e', 't']]
  | .mop => some [w ['m', 'a', 'p']]
  | .bop | .bopKeys => some [w ['b', 't', 'r', 'e', 'e']]
  | .delete => some types
  | .getattr | .setattr => some [w ['a', 't', 't', 'r']]
  | .flush => some [w ['f', 'l', 'u', 's', 'h']]
  | .scan => some [w ['s', 'c', 'a', 'n']]
  | .config | .zkensemble | .dump | .cmdlog | .lqdetect | .shutdown | .scrub => some [w ['a', 'd', 'm', 'i', 'n']]
  | .stats | .version | .quit | .help | .ready | .sasl => none

/-- What the last user whose identity was confirmed on a connection may do. -/
inductive Right where
  | nothing | all | listed (data : List Nat)

/-- The right has the word. -/
def Right.Has : Right → List Nat → Prop
  | .nothing, _ => False
  | .all, _ => True
  | .listed data, word => Listed data word

/-- Keys that everybody may use. -/
def Public (k : List Nat) : Prop := ∃ r, k = w ['a', 'r', 'c', 'u', 's', ':'] ++ r

/-- A holder of the right may do it. -/
def Permitted (r : Right) (op : Op) : Prop :=
  match needs op.cmd with
  | none => True
  | some words => (∃ word ∈ words, r.Has word) ∨ (op.keys ≠ [] ∧ ∀ k ∈ op.keys, Public k)

/-- What is known of a connection: the access list now, whether the library has begun an authentication, and the right of the last confirmed user. -/
structure Hist where
  table : Acl
  begun : Bool
  right : Right

/-- What is known after an event: an authentication that is confirmed by the library, and has begun, gives the right of the user as it is listed at
that moment. -/
def Hist.after (useAcl : Bool) (h : Hist) : Ev → Hist
  | .auth mech lib user _ =>
    { table := h.table
      begun := if mech then decide (lib ≠ .fail) else h.begun
      right := if lib = .ok ∧ (mech ∨ h.begun) then
          if useAcl then (match h.table.lookup user with
            | none => .nothing
            | some data => .listed data)
          else .all
        else h.right }
  | .mechs => h
  | .acl t => { h with table := t }

/-- What is known after events. -/
def Hist.afterAll (useAcl : Bool) (h : Hist) (es : List Ev) : Hist := es.foldl (Hist.after useAcl) h

/-- The data of users are words, shorter than 1024 bytes. -/
def Short (t : Acl) : Prop := ∀ user data, t.lookup user = some data → 0 ∉ data ∧ data.length < 1024

/-- The access list has short data at all times, and on every confirmation the byte behind the data happens to be 0. -/
def Tidy : Acl → List Ev → Prop
  | _, [] => True
  | t, .auth _ _ user stack :: es => (∀ data, t.lookup user = some data → stack[data.length]? = some 0) ∧ Tidy t es
  | t, .mechs :: es => Tidy t es
  | _, .acl t :: es => Short t ∧ Tidy t es

end Verif.Auth.Spec
