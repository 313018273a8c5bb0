import Verif.Model.Lru
/-! What the claims about the items in memory (C76 to C81) speak of. -/
namespace Verif.Lru.Spec

variable {M : Type}

/-- Its time is not over, and no flush has been carried out since it was stored or got. -/
def Fresh (s : St M) (it : It) : Prop :=
  (it.exp = 0 ∨ s.now < it.exp) ∧ (s.oldest = 0 ∨ s.now < s.oldest ∨ s.oldest < it.time) ∧
  (s.pmark it.pfx = 0 ∨ s.now < s.pmark it.pfx ∨ s.pmark it.pfx < it.time)

instance (s : St M) (it : It) : Decidable (Fresh s it) := by
  unfold Fresh
  infer_instance

/-- The item is stored under the key and good. -/
def Stored (s : St M) (k : Nat) (i : Id) : Prop := i ∈ s.tbl ∧ ∃ it, s.heap i = some it ∧ it.key = k ∧ Fresh s it

/-- The calls that ask for memory. -/
def AsksMemory : Op → Prop
  | .alloc .. | .mem _ | .background => True
  | _ => False

/-- What a client or the clock asks for, by which a good item is no longer given: it is unlinked or replaced, it is flushed, it gets an expire time that is
over, or its time comes. -/
def Asked (s' : St M) (i : Id) (it : It) : Op → Prop
  | .unlink j => j = i
  | .replace j _ => j = i
  | .flush p _ => p = none ∨ p = some it.pfx
  | .setExp j e => j = i ∧ e ≠ 0 ∧ e ≤ s'.now
  | .tick _ => ¬ Fresh s' it
  | _ => False

/-- The caller may make the call: items are ones that are there, an item is linked once, and under a key that is not in use, the new item replaces one
with its key, a collection shrinks at most by its size, the clock has not run out. -/
def Callable (s : St M) : Op → Prop
  | .tick dt => s.now + dt < 4294967295
  | .alloc .. | .mem _ | .memFree _ | .get .. | .flush .. | .background => True
  | .link i => ∃ it, s.heap i = some it ∧ i ∉ s.tbl ∧ ∀ j ∈ s.tbl, ∀ jt, s.heap j = some jt → jt.key ≠ it.key
  | .replace i j => ∃ it jt, s.heap i = some it ∧ s.heap j = some jt ∧ i ∈ s.tbl ∧ j ∉ s.tbl ∧ it.key = jt.key ∧ it.pfx = jt.pfx
  | .unlink i | .update i | .release i | .setExp i _ => ∃ it, s.heap i = some it
  | .grow i _ => i ∈ s.tbl
  | .shrink i n => i ∈ s.tbl ∧ ∃ it, s.heap i = some it ∧ n ≤ it.size

/-- Calls, what each gives, and the state after them. -/
inductive Calls (cfg : Cfg) (sl : Slabs M) : St M → List (Op × Out) → St M → Prop
  | nil (s) : Calls cfg sl s [] s
  | cons {s t u op out l} : step cfg sl s op = some (t, out) → Calls cfg sl t l u → Calls cfg sl s ((op, out) :: l) u

/-- A state that can come about. -/
def Reachable (cfg : Cfg) (sl : Slabs M) (s : St M) : Prop := ∃ now m l, now < 4294967295 ∧ Calls cfg sl (init now m) l s

/-- The call stores the item, gets it, gives it back or changes its expire time. -/
def Touch : Op → Out → Id → Prop
  | .link i, _, y => i = y
  | .replace _ j, _, y => j = y
  | .update i, _, y => i = y
  | .release i, _, y => i = y
  | .setExp i _, _, y => i = y
  | .get _ u, o, y => u = true ∧ o = .item y
  | _, _, _ => False

/-- The call stores the item or gets it. -/
def Use : Op → Out → Id → Prop
  | .link i, _, y => i = y
  | .replace _ j, _, y => j = y
  | .update i, _, y => i = y
  | .get _ u, o, y => u = true ∧ o = .item y
  | _, _, _ => False

/-- The sum of a number over all items in the table. -/
def total (s : St M) (f : It → Nat) : Nat := (s.tbl.map fun i => match s.heap i with | some it => f it | none => 0).sum

/-- The space taken by sticky items. -/
def stickySpace (s : St M) : Nat := total s fun it => if it.exp = sticky then it.size else 0

/-- The number of plain items of a class that are in use. -/
def inUse (s : St M) (c : Nat) : Nat := total s fun it => if it.cls = c ∧ it.exp ≠ sticky ∧ it.refs ≠ 0 then 1 else 0

/-- The number of good items. -/
def goods (s : St M) : Nat := total s fun it => if Fresh s it then 1 else 0

/-- The call replaces an item only by one that is sticky if it is. -/
def Steady (s : St M) : Op → Prop
  | .replace i j => ∀ it jt, s.heap i = some it → s.heap j = some jt → (it.exp = sticky ↔ jt.exp = sticky)
  | _ => True

/-- Calls of which none replaces a sticky item by another or the other way round. -/
inductive SteadyCalls (cfg : Cfg) (sl : Slabs M) : St M → St M → Prop
  | nil (s) : SteadyCalls cfg sl s s
  | snoc {s t u op out} : SteadyCalls cfg sl s t → Steady t op → step cfg sl t op = some (u, out) → SteadyCalls cfg sl s u

/-- Once an item of the class has been freed, there is memory for this request. -/
def Lends (sl : Slabs M) (n c : Nat) : Prop := ∀ m x, (sl.alloc (sl.free m x c) n c).isSome = true

end Verif.Lru.Spec
