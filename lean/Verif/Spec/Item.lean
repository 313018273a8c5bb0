import Verif.Model.Item
/-!
# Specification of the key-value commands: one map

The state is a plain map from keys to entries, the clock, the last unique id handed out, and the
items that clients have allocated but not stored yet.  Nothing here mentions the table, the queues,
reference counts or dead entries.
-/
namespace Verif.Item.Spec
open Verif.Item Verif.Util

/-- What clients can see of an item. -/
structure Entry where
  flags : Nat
  exptime : Nat
  cas : Nat
  coll : Bool
  data : List Nat
deriving DecidableEq, Repr

/-- An item allocated by a client and not stored yet. -/
structure Pend where
  key : Key
  flags : Nat
  exptime : Nat
  cas : Nat
  data : List Nat

structure S where
  now : Nat
  cas : Nat
  m : Key → Option Entry
  pend : Id → Option Pend

def start (now : Nat) : S := ⟨now, 0, fun _ => none, fun _ => none⟩

/-- The entry of a key, unless its expiry time has been reached (0 = never). -/
def S.live (σ : S) (k : Key) : Option Entry :=
  match σ.m k with
  | none => none
  | some e => if e.exptime ≠ 0 ∧ e.exptime ≤ σ.now then none else some e

/-- `p` is the prefix name of key `k`: the part before the first delimiter that is not the first byte. -/
def HasPrefix (d : Nat) (p : List Nat) (k : Key) : Prop :=
  p ≠ [] ∧ ∃ r, k = p ++ d :: r ∧ d ∉ p.tail

/-- Characters allowed in a prefix name. -/
def NameChar (c : Nat) : Prop :=
  (48 ≤ c ∧ c ≤ 57) ∨ (65 ≤ c ∧ c ≤ 90) ∨ (97 ≤ c ∧ c ≤ 122) ∨ c = 95 ∨ c = 45 ∨ c = 43 ∨ c = 46

/-- The prefix name of the key, if it has one, is well formed: allowed characters, not starting with '-'. -/
def NameOk (d : Nat) (k : Key) : Prop :=
  ∀ p, HasPrefix d p k → (∀ c ∈ p, NameChar c) ∧ p.head? ≠ some 45

/-- Scope of a flush: everything, the keys of one prefix, or (empty name) the keys without prefix. -/
def InScope (d : Nat) : Option (List Nat) → Key → Prop
  | none, _ => True
  | some p, k => if p = [] then ∀ p', ¬ HasPrefix d p' k else HasPrefix d p k

/-- Store the entry under the next unique id. -/
def S.put (σ : S) (k : Key) (flags exptime : Nat) (coll : Bool) (data : List Nat) : S :=
  { σ with cas := σ.cas + 1, m := upd σ.m k (some ⟨flags, exptime, σ.cas + 1, coll, data⟩) }

/-- Reply `r` and next map of a store of the pending item `p`.  `mem`: memory could be obtained for
the combined item (append and prepend only). -/
def StoreStep (d : Nat) (σ : S) (p : Pend) (op : StoreOp) (mem : Bool) (r : Rep) (σ' : S) : Prop :=
  let ok := r = .stored (σ.cas + 1) ∧ σ' = σ.put p.key p.flags p.exptime false p.data
  match σ.live p.key with
  | none =>
    match op with
    | .set | .add =>
      (NameOk d p.key ∧ ok) ∨ (¬ NameOk d p.key ∧ r = .ename ∧ σ' = { σ with cas := σ.cas + 1 })
    | .cas => r = .enoent ∧ σ' = σ
    | _ => r = .notStored ∧ σ' = σ
  | some e =>
    if e.coll then r = .ebadtype ∧ σ' = σ
    else
      match op with
      | .set | .replace => ok
      | .add => r = .notStored ∧ σ' = σ
      | .cas => if p.cas = e.cas then ok else r = .eexists ∧ σ' = σ
      | .append | .prepend =>
        if p.cas ≠ 0 ∧ p.cas ≠ e.cas then r = .eexists ∧ σ' = σ
        else if mem then
          r = .stored (σ.cas + 1) ∧
          σ' = σ.put p.key e.flags e.exptime false
            (if op = .append then e.data.take (e.data.length - 2) ++ p.data
             else p.data.take (p.data.length - 2) ++ e.data)
        else r = .notStored ∧ σ' = σ

/-- Some entries may have been evicted to make room; never that of key `keep`, and none when the
memory search touched no item. -/
def Evict (acts : List EnvAct) (keep : Option Key) (σ σ' : S) : Prop :=
  σ'.now = σ.now ∧ σ'.cas = σ.cas ∧ σ'.pend = σ.pend ∧
  ∀ k, σ'.m k = σ.m k ∨ (σ'.m k = none ∧ acts ≠ [] ∧ keep ≠ some k)

/-- The map after one call, and its reply, before evictions. -/
def Core (d : Nat) (σ : S) (op : Op) (r : Rep) (σ' : S) : Prop :=
  match op with
  | .tick dt => r = .ok ∧ σ' = { σ with now := σ.now + dt }
  | .alloc k f e c dat env =>
    (env.ok = false ∧ r = .enomem ∧ σ' = σ) ∨
    (env.ok = true ∧ ∃ i, r = .allocated i ∧ σ.pend i = none ∧
      σ' = { σ with pend := upd σ.pend i (some ⟨k, f, e, c, dat⟩) })
  | .store i sop env =>
    ∃ p σ1, σ.pend i = some p ∧ StoreStep d σ p sop env.ok r σ1 ∧ σ' = { σ1 with pend := upd σ.pend i none }
  | .release i => r = .ok ∧ σ' = { σ with pend := upd σ.pend i none }
  | .get k =>
    σ' = σ ∧
    match σ.live k with
    | none => r = .enoent
    | some e => if e.coll then r = .ebadtype else ∃ i, r = .hit i e.flags e.cas e.data
  | .delete k c =>
    match σ.live k with
    | none => r = .enoent ∧ σ' = σ
    | some e =>
      if c = 0 ∨ c = e.cas then r = .ok ∧ σ' = { σ with m := upd σ.m k none } else r = .eexists ∧ σ' = σ
  | .arith k inc create delta initial f e rest env =>
    match σ.live k with
    | none =>
      if create then
        if env.ok then
          (NameOk d k ∧ r = .num initial (σ.cas + 1) ∧ σ' = σ.put k f e false (showNat initial ++ [13, 10])) ∨
          (¬ NameOk d k ∧ r = .ename ∧ σ' = { σ with cas := σ.cas + 1 })
        else r = .enomem ∧ σ' = σ
      else r = .enoent ∧ σ' = σ
    | some en =>
      match safeStrtoull (en.data ++ rest) with
      | some (some v) =>
        if env.ok then
          let w := if inc then (v + delta) % 2 ^ 64 else v - delta
          r = .num w (σ.cas + 1) ∧ σ' = σ.put k en.flags en.exptime false (showNat w ++ [13, 10])
        else r = .enomem ∧ σ' = σ
      | _ => r = .einval ∧ σ' = σ
  | .setExp k x =>
    match σ.live k with
    | none => r = .enoent ∧ σ' = σ
    | some e =>
      if (e.exptime = sticky ↔ x = sticky) then
        r = .ok ∧ σ' = { σ with m := upd σ.m k (some { e with exptime := x }) }
      else r = .ebadvalue ∧ σ' = σ
  | .collCreate k f e env =>
    match σ.live k with
    | some _ => r = .eexists ∧ σ' = σ
    | none =>
      if env.ok then
        (NameOk d k ∧ r = .stored (σ.cas + 1) ∧ σ' = σ.put k f e true []) ∨
        (¬ NameOk d k ∧ r = .ename ∧ σ' = { σ with cas := σ.cas + 1 })
      else r = .enomem ∧ σ' = σ
  | .flush sc _ =>
    (∀ k, (InScope d sc k → σ'.m k = none) ∧ (¬ InScope d sc k → σ'.m k = σ.m k)) ∧
    σ'.now = σ.now ∧ σ'.cas = σ.cas ∧ σ'.pend = σ.pend ∧
    (r = .ok ∨ (r = .pfxEnoent ∧ ∃ p, p ≠ [] ∧ sc = some p ∧ ∀ k, HasPrefix d p k → σ.live k = none))
  | .background _ => r = .ok ∧ σ' = σ

/-- The background actions of a call. -/
def opActs : Op → List EnvAct
  | .alloc _ _ _ _ _ env => env.acts
  | .store _ _ env => env.acts
  | .arith _ _ _ _ _ _ _ _ env => env.acts
  | .collCreate _ _ _ env => env.acts
  | .background acts => acts
  | _ => []

/-- The key a call works on. -/
def opKey (σ : S) : Op → Option Key
  | .store i _ _ => (σ.pend i).map (·.key)
  | .get k => some k
  | .delete k _ => some k
  | .arith k _ _ _ _ _ _ _ _ => some k
  | .setExp k _ => some k
  | .collCreate k _ _ _ => some k
  | _ => none

/-- One call with reply `r`. -/
def Step (d : Nat) (σ : S) (op : Op) (r : Rep) (σ' : S) : Prop :=
  ∃ σ1, Core d σ op r σ1 ∧ Evict (opActs op) (opKey σ op) σ1 σ'

/-- References held by clients after a call: `alloc` and a `get` hit hand one out, `release` takes one back. -/
def heldStep (h : Id → Nat) (op : Op) (r : Rep) : Id → Nat :=
  match op, r with
  | .release i, _ => upd h i (h i - 1)
  | .alloc .., .allocated i => upd h i (h i + 1)
  | .get _, .hit i _ _ _ => upd h i (h i + 1)
  | _, _ => h

/-- Largest number of references to one item the counters are sure to represent. -/
def refBound : Nat := 32768 * 255

/-- Calls the protocol layer may issue, given the map and the references it holds.
`fl`: whether flushes occur in the history (then no referenced item may be dropped off its queue).
Left out: `do_item_repair`, arithmetic on a collection, delayed flushes, and a flush in the first
second; see the refuting theorems. -/
def Legal (fl : Bool) (σ : S) (h : Id → Nat) (op : Op) : Prop :=
  (∀ i, h i < refBound) ∧
  (∀ i, .repair i ∉ opActs op) ∧ (fl = true → ∀ i, .lruDrop i ∉ opActs op) ∧
  match op with
  | .store i _ _ => (σ.pend i).isSome
  | .release i => 0 < h i
  | .arith k _ _ _ _ _ _ rest _ =>
    ∀ e, σ.live k = some e → e.coll = false ∧ safeStrtoull (e.data ++ rest) ≠ none
  | .flush _ w => fl = true ∧ w = 0 ∧ 2 ≤ σ.now
  | _ => True

end Verif.Item.Spec
