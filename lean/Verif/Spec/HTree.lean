import Verif.Model.HTree
/-!
# Specification of the set and map commands: a finite set, a finite map

A set is a list of distinct values, a map a list of pairs with distinct fields; the order means nothing to clients.
Sets are treated as maps whose fields are the values.  Only the types of the calls and replies (`Op`, `Rep`, `Attr`,
`Kind`, `Cfg`) are shared with the model.
-/
namespace Verif.HT.Spec
open Verif.HT

abbrev Key := List Nat
abbrev Val := List Nat
abbrev KV := Key × Val

/-- A set or map as the client sees it. `maxcount = none`: the configured maximum applies. -/
structure C where
  maxcount : Option Nat
  readable : Bool
  sticky : Bool
  flags : Nat
  elems : List KV

/-- The collection under the observed key, and the elements allocated but not yet inserted by clients. -/
structure S where
  coll : Option C
  pend : Nat → Option KV

def start : S := ⟨none, fun _ => none⟩

/-- Largest number of elements. -/
def C.cap (mx : Nat) (c : C) : Nat := match c.maxcount with | some m => m | none => mx

/-- Maximum count from a client's argument: negative = whatever is configured, 0 = 4000, clipped to the
configured maximum. -/
def wantCap (mx : Nat) (m : Int) : Option Nat :=
  if m < 0 then none else if m = 0 then some 4000 else some (min m.toNat mx)

/-- A freshly created collection. -/
def fresh (mx : Nat) (a : Attr) : C := ⟨wantCap mx a.maxcount, a.readable, a.sticky, a.flags, []⟩

/-- The pair with the given key. -/
def lookup (el : List KV) (key : Key) : Option KV := el.find? fun p => p.1 == key

/-- Removal of the pairs with the given keys. -/
def without (el : List KV) (keys : List Key) : List KV := el.filter fun p => decide (p.1 ∉ keys)

/-- The pairs found when the keys are looked up one by one and each pair found is taken out. -/
def picks : List Key → List KV → List KV
  | [], _ => []
  | f :: fs, el =>
    match lookup el f with
    | none => picks fs el
    | some p => p :: picks fs (without el [f])

/-- Answer and effect of inserting `kv` (`none` = new, `some true` = replaced, else refused with the reply).
`mem = false`: the allocator may fail. -/
inductive Insert (k : Kind) (mx : Nat) (c : C) (kv : KV) (repl mem full : Bool) : Option Rep → C → Prop where
  /-- No room for the new element in the sticky memory. -/
  | stickyFull : c.sticky = true → full = true → (k = .set ∨ lookup c.elems kv.1 = none) →
      Insert k mx c kv repl mem full (some .enomem) c
  /-- The maximum count is reached. -/
  | overflow : ¬ (c.sticky = true ∧ full = true) → c.cap mx ≤ c.elems.length → (k = .set ∨ lookup c.elems kv.1 = none) →
      Insert k mx c kv repl mem full (some .eoverflow) c
  /-- Out of memory. -/
  | nomem : mem = false → Insert k mx c kv repl mem full (some .enomem) c
  /-- Already a member. -/
  | dup : (k = .set → ¬ (c.sticky = true ∧ full = true) ∧ c.elems.length < c.cap mx) → (k = .map → repl = false) →
      (∃ v, lookup c.elems kv.1 = some v) → Insert k mx c kv repl mem full (some .elemEexists) c
  /-- New element. -/
  | new : ¬ (c.sticky = true ∧ full = true) → c.elems.length < c.cap mx → lookup c.elems kv.1 = none →
      Insert k mx c kv repl mem full (some .ok) { c with elems := kv :: c.elems }
  /-- No room for the larger value in the sticky memory. -/
  | replFull (old : KV) : k = .map → repl = true → lookup c.elems kv.1 = some old → c.sticky = true → full = true →
      old.2.length < kv.2.length → Insert k mx c kv repl mem full (some .enomem) c
  /-- The value of the field is replaced. -/
  | repl (old : KV) : k = .map → repl = true → lookup c.elems kv.1 = some old →
      ¬ (c.sticky = true ∧ full = true ∧ old.2.length < kv.2.length) →
      Insert k mx c kv repl mem full none { c with elems := kv :: without c.elems [kv.1] }

/-- The collection after a removal that may drop the emptied key. -/
def shrink (c : C) (rest : List KV) (drop : Bool) : Option C :=
  if rest = [] ∧ drop = true then none else some { c with elems := rest }

/-- Number of elements answered for a random read of `count` (0 = all) out of `n`. -/
def takes (count n : Nat) : Nat := if count = 0 then n else min count n

/-- The answer `ids` of a get, standing for the pairs `outs`, and what it leaves. -/
def Got (σ : S) (c : C) (ids : List Nat) (outs : List KV) (del drop : Bool) (r : Rep) (val : Nat → Option KV) (σ' : S) : Prop :=
  ids.map val = outs.map some ∧ ids.Nodup ∧
  if del = true then
    r = .elems c.flags ids (decide (without c.elems (outs.map Prod.fst) = [] ∧ drop = true)) ∧
    σ' = { σ with coll := shrink c (without c.elems (outs.map Prod.fst)) drop }
  else r = .elems c.flags ids false ∧ σ' = σ

/-- Attributes that are refused: a maximum below the present count, another overflow action than `error`, making the
collection unreadable. -/
def BadAttr (mx : Nat) (c : C) (m : Option Int) (o : Option Nat) (rd : Option Bool) : Prop :=
  (∃ x k, m = some x ∧ wantCap mx x = some k ∧ k < c.elems.length) ∨ (∃ x, o = some x ∧ x ≠ ovflError) ∨ rd = some false

/-- The collection with the given attributes replaced. -/
def setAttrs (mx : Nat) (c : C) (m : Option Int) (rd : Option Bool) : C :=
  { c with
    maxcount := match m with | some x => wantCap mx x | none => c.maxcount
    readable := match rd with | some _ => true | none => c.readable }

/-- `Step k mx σ op r val σ'`: call `op` in state `σ` may answer `r` and leave `σ'`; `val` is what a client reads
through an element handle in the reply. -/
def Step (k : Kind) (mx : Nat) (σ : S) (op : Op) (r : Rep) (val : Nat → Option KV) (σ' : S) : Prop :=
  match op with
  | .create a mem =>
    match σ.coll with
    | some _ => r = .eexists ∧ σ' = σ
    | none => if mem = true then r = .ok ∧ σ' = { σ with coll := some (fresh mx a) } else r = .enomem ∧ σ' = σ
  | .alloc key v => ∃ i, σ.pend i = none ∧ r = .allocated i ∧ σ' = { σ with pend := upd σ.pend i (some (key, v)) }
  | .free i => r = .ok ∧ σ' = { σ with pend := upd σ.pend i none }
  | .insert i repl a imem mem full =>
    match σ.coll, a with
    | none, none => r = .enoent ∧ σ' = σ
    | none, some a =>
      if imem = false then r = .enomem ∧ σ' = σ
      else ∃ kv c' r', σ.pend i = some kv ∧ Insert k mx (fresh mx a) kv repl mem full r' c' ∧
        (match r' with
         | none => r = .inserted true true ∧ σ' = { coll := some c', pend := upd σ.pend i none }
         | some .ok => r = .inserted true false ∧ σ' = { coll := some c', pend := upd σ.pend i none }
         | some e => r = e ∧ σ' = σ)
    | some c, _ => ∃ kv c' r', σ.pend i = some kv ∧ Insert k mx c kv repl mem full r' c' ∧
        (match r' with
         | none => r = .inserted false true ∧ σ' = { coll := some c', pend := upd σ.pend i none }
         | some .ok => r = .inserted false false ∧ σ' = { coll := some c', pend := upd σ.pend i none }
         | some e => r = e ∧ σ' = σ)
  | .update f v emem full =>
    match σ.coll with
    | none => r = .enoent ∧ σ' = σ
    | some c =>
      match lookup c.elems f with
      | none => r = .elemEnoent ∧ σ' = σ
      | some old =>
        (r = .ok ∧ ¬ (c.sticky = true ∧ full = true ∧ old.2.length < v.length) ∧
          σ' = { σ with coll := some { c with elems := (f, v) :: without c.elems [f] } }) ∨
        (r = .enomem ∧ σ' = σ ∧ (emem = false ∨ (c.sticky = true ∧ full = true ∧ old.2.length < v.length)))
  | .delete keys drop =>
    match σ.coll with
    | none => r = .enoent ∧ σ' = σ
    | some c =>
      let gone := if keys = [] then c.elems else picks keys c.elems
      let rest := if keys = [] then [] else without c.elems keys
      if gone = [] then r = .elemEnoent ∧ σ' = σ
      else r = .deleted gone.length (decide (rest = [] ∧ drop = true)) ∧ σ' = { σ with coll := shrink c rest drop }
  | .exist v =>
    match σ.coll with
    | none => r = .enoent ∧ σ' = σ
    | some c =>
      if c.readable = false then r = .unreadable ∧ σ' = σ
      else r = .exist (decide (v ∈ c.elems.map Prod.fst)) ∧ σ' = σ
  | .getRandom count del drop mem hmem _ _ =>
    match σ.coll with
    | none => r = .enoent ∧ σ' = σ
    | some c =>
      if c.readable = false then r = .unreadable ∧ σ' = σ
      else if c.elems = [] then r = .elemEnoent ∧ σ' = σ
      else if mem = false then r = .enomem ∧ σ' = σ
      else
        (∃ ids outs, outs.Nodup ∧ (∀ p ∈ outs, p ∈ c.elems) ∧ outs.length = takes count c.elems.length ∧
          Got σ c ids outs del drop r val σ') ∨
        ((count ≠ 0 ∧ del = false ∧ 10 * count ≤ c.elems.length) ∧ σ' = σ ∧ (r = .running ∨ (r = .enomem ∧ hmem = false)))
  | .getFields fs del drop mem =>
    match σ.coll with
    | none => r = .enoent ∧ σ' = σ
    | some c =>
      if c.readable = false then r = .unreadable ∧ σ' = σ
      else if c.elems = [] then r = .elemEnoent ∧ σ' = σ
      else if mem = false then r = .enomem ∧ σ' = σ
      else
        ∃ outs : List KV, (if fs = [] then outs.Perm c.elems else outs = picks fs c.elems) ∧
          ((outs = [] ∧ r = .elemEnoent ∧ σ' = σ) ∨ (outs ≠ [] ∧ ∃ ids, Got σ c ids outs del drop r val σ'))
  | .release _ => r = .ok ∧ σ' = σ
  | .setattr m o rd =>
    match σ.coll with
    | none => r = .enoent ∧ σ' = σ
    | some c =>
      (BadAttr mx c m o rd ∧ r = .ebadvalue ∧ σ' = σ) ∨
      (¬ BadAttr mx c m o rd ∧ r = .ok ∧ σ' = { σ with coll := some (setAttrs mx c m rd) })
  | .getattr =>
    match σ.coll with
    | none => r = .enoent ∧ σ' = σ
    | some c => r = .attrs c.elems.length (c.cap mx) ovflError c.readable ∧ σ' = σ
  | .remove =>
    match σ.coll with
    | none => r = .enoent ∧ σ' = σ
    | some _ => r = .ok ∧ σ' = { σ with coll := none }

/-- References clients hold on elements after a call: a get hands out one per element returned. -/
def heldStep (h : Nat → Nat) (op : Op) (r : Rep) : Nat → Nat :=
  match op, r with
  | .release i, _ => upd h i (h i - 1)
  | .getRandom .., .elems _ ids _ => fun i => h i + ids.count i
  | .getFields .., .elems _ ids _ => fun i => h i + ids.count i
  | _, _ => h

/-- Number of elements whose key agrees with `key` in the low 28 bits of the hash value. -/
def collisions (hash : Key → Nat) (key : Key) (c : Option C) : Nat :=
  match c with
  | none => 0
  | some c => c.elems.countP fun p => hash p.1 % 2 ^ 28 == hash key % 2 ^ 28

/-- Calls the protocol layer may issue: it frees or inserts elements it allocated, releases elements it holds, asks
for every field once; and no 64 elements agree with a new one in 28 bits of the hash value. -/
def Legal (k : Kind) (cfg : Cfg) (σ : S) (h : Nat → Nat) (op : Op) : Prop :=
  (∀ i, h i < 65535) ∧
  match op with
  | .free i => (σ.pend i).isSome
  | .insert i _ _ _ _ _ => ∃ kv, σ.pend i = some kv ∧ collisions cfg.hash kv.1 σ.coll < 64
  | .release i => 0 < h i
  | .exist _ => k = .set
  | .update .. => k = .map
  | .getRandom _ del drop _ _ _ _ => k = .set ∧ (drop = true → del = true)
  | .getFields fs del drop _ => k = .map ∧ (drop = true → del = true) ∧ (del = false → fs.Nodup)
  | _ => True

end Verif.HT.Spec
