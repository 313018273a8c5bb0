import Verif.Lemmas.RestartIds
/-! # C114, C115: what a restart does to flushes and unique ids -/
namespace Verif.Restart.Props
open Verif.Restart Verif.Restart.Spec Verif.Restart.Lemmas

/-- The first byte of a key of more than one byte is its prefix: for the examples. -/
def pfx0 (k : Bytes) : Bytes := if 1 < k.length then k.take 1 else []

/-! ## C114 -/

/-- Full claim of C114: whatever clients and the server do, across restarts, a key that was not found is not
found again before it is stored, and with flushes without delay all replies are those of one map.  **False**,
see `C114_false`. -/
def C114_full : Prop := ∀ (pfx : Bytes → Bytes) (d : Nat) (ops : List Op),
  NoReturn (run pfx (start pfx d []) ops).1 ∧
  (Immediate ops → Runs pfx (fun _ => none) (run pfx (start pfx d []) ops).1)

/-- C114 (partial: flushes without delay).  Across any number of checkpoints and restarts, all replies are those
of one map that restarts leave alone, unique ids included; in particular what was deleted, evicted or flushed
does not come back. -/
theorem C114_partial (pfx : Bytes → Bytes) (d : Nat) (ops : List Op) (h : Immediate ops) :
    Runs pfx (fun _ => none) (run pfx (start pfx d []) ops).1 ∧ NoReturn (run pfx (start pfx d []) ops).1 := by
  have := run_R (pfx := pfx) ops (start_R pfx d []) h
  exact ⟨this, Runs.noReturn this⟩

/-- A run with a restart amid two prefixes, one of them flushed, and a checkpoint. -/
def ops0 : List Op :=
  [.set [97, 1] [7], .set [98, 1] [8], .tick 5, .flush (some [97]) 0, .set [97, 2] [9], .restart 0, .get [97, 1], .get [98, 1],
   .get [97, 2], .checkpoint, .delete [98, 1], .restart 1, .get [98, 1], .cas [97, 2] [10] 3, .get [97, 2]]

example : Immediate ops0 := by
  intro scope w h
  simp [ops0] at h
  exact h.2

example : ((run pfx0 (start pfx0 0 []) ops0).1.map (·.2)) =
    [.stored 1, .stored 2, .none, .ok, .stored 3, .none, .miss, .value [8] 2, .value [9] 3, .none, .deleted, .none, .miss,
     .stored 3, .value [10] 3] := by decide +kernel

/-- C114 is false: "k" is stored at second 2, `flush_all` is called for second 12, and ten seconds later "k" is
not found.  After a restart it is there again: the call is not in the log, as it has a delay, and neither is the
removal of the item. -/
def opsGone : List Op := [.set [107] [118], .flush none 12, .tick 10, .get [107], .restart 0, .get [107]]

theorem C114_run : (run pfx0 (start pfx0 0 []) opsGone).1 =
    [(.set [107] [118], .stored 1), (.flush none 12, .ok), (.tick 10, .none), (.get [107], .miss), (.restart 0, .none),
     (.get [107], .value [118] 1)] := by decide +kernel

theorem C114_false : ¬ C114_full := by
  intro h
  have := (h pfx0 0 opsGone).1
  rw [C114_run] at this
  have := this [(.set [107] [118], .stored 1), (.flush none 12, .ok), (.tick 10, .none)] [(.restart 0, .none)] [] [107]
    (.value [118] 1) rfl (by
      intro e he
      simp at he
      subst he
      exact not_stores fun _ h => by cases h)
  cases this

/-- A flush that is still to come is forgotten by a restart: with the restart the item is served after the time
given in the call, without it it is not; the same for the flush of a prefix.  Before that time the item is served. -/
theorem C114_pending_false :
    ((run pfx0 (start pfx0 0 []) [.set [97, 1] [7], .flush none 12, .get [97, 1]]).1.getLast?).map (·.2) = some (.value [7] 1) ∧
    ((run pfx0 (start pfx0 0 []) [.set [97, 1] [7], .flush (some [97]) 12, .get [97, 1]]).1.getLast?).map (·.2) = some (.value [7] 1) ∧
    ((run pfx0 (start pfx0 0 []) [.set [97, 1] [7], .flush none 12, .tick 100, .get [97, 1]]).1.getLast?).map (·.2) = some .miss ∧
    ((run pfx0 (start pfx0 0 []) [.set [97, 1] [7], .flush none 12, .restart 0, .tick 100, .get [97, 1]]).1.getLast?).map (·.2) =
      some (.value [7] 1) ∧
    ((run pfx0 (start pfx0 0 []) [.set [97, 1] [7], .flush (some [97]) 12, .tick 100, .get [97, 1]]).1.getLast?).map (·.2) = some .miss ∧
    ((run pfx0 (start pfx0 0 []) [.set [97, 1] [7], .flush (some [97]) 12, .restart 0, .tick 100, .get [97, 1]]).1.getLast?).map (·.2) =
      some (.value [7] 1) := by
  refine ⟨?_, ?_, ?_, ?_, ?_, ?_⟩ <;> decide +kernel

/-! ## C115 -/

/-- Full claim of C115: a cas with a unique id a client has been told for the key succeeds only if nothing has been
stored under the key since, across restarts.  **False**, see `C115_false`. -/
def C115_full : Prop := ∀ (pfx : Bytes → Bytes) (d : Nat) (ops : List Op), NoLostUpdate (run pfx (start pfx d []) ops).1

/-- C115 (partial: no restart comes after a checkpoint).  As long as the log holds all stores since the first start,
a recovery counts as many unique ids as were given, and no id is given twice. -/
theorem C115_partial (pfx : Bytes → Bytes) (d : Nat) (ops : List Op) (h : RestartsFirst ops) :
    NoLostUpdate (run pfx (start pfx d []) ops).1 := by
  intro t1 t2 t3 k v id id' e0 e ht
  exact told t1 (start_inv pfx d) (ok_of (pre := []) h) e ht

/-- Restarts, then a checkpoint; the second cas comes too late. -/
def ops1 : List Op :=
  [.set [107] [1], .get [107], .restart 0, .set [107] [2], .cas [107] [3] 1, .get [107], .restart 3, .cas [107] [4] 2, .checkpoint,
   .cas [107] [5] 2]

example : RestartsFirst ops1 := by
  intro a b d e hc
  have h1 : a = ops1.take a.length := by rw [e]; simp
  have h2 : ops1[a.length]? = some (.restart d) := by rw [e]; simp
  generalize a.length = n at h1 h2
  subst h1
  match n, h2 with
  | 2, _ => revert hc; decide
  | 6, _ => revert hc; decide
  | 0, h2 | 1, h2 | 3, h2 | 4, h2 | 5, h2 | 7, h2 | 8, h2 | 9, h2 => simp [ops1] at h2
  | n + 10, h2 => simp [ops1] at h2

example : ((run pfx0 (start pfx0 0 []) ops1).1.map (·.2)) =
    [.stored 1, .value [1] 1, .none, .stored 2, .exists_, .value [2] 2, .none, .stored 3, .none, .exists_] := by decide +kernel

/-- C115 is false: "k" has been stored twice, a client is told the id 2, a checkpoint is made and the server is started
again.  The recovery counts one id, for the one item of the snapshot; the next store of "k", by another client, gets
the id 2 again, and the first client's cas with the id 2 overwrites it. -/
def opsLost : List Op :=
  [.set [107] [1], .set [107] [2], .get [107], .checkpoint, .restart 0, .set [107] [3], .cas [107] [4] 2]

theorem C115_run : (run pfx0 (start pfx0 0 []) opsLost).1 =
    [(.set [107] [1], .stored 1), (.set [107] [2], .stored 2), (.get [107], .value [2] 2), (.checkpoint, .none),
     (.restart 0, .none), (.set [107] [3], .stored 2), (.cas [107] [4] 2, .stored 3)] := by decide +kernel

theorem C115_false : ¬ C115_full := by
  intro h
  have := h pfx0 0 opsLost
  rw [C115_run] at this
  exact this [(.set [107] [1], .stored 1), (.set [107] [2], .stored 2)]
    [(.checkpoint, .none), (.restart 0, .none), (.set [107] [3], .stored 2)] [] [107] [4] 2 3 (.get [107], .value [2] 2) rfl
    (.inl ⟨[2], rfl⟩) (.set [107] [3], .stored 2) (by simp) ⟨[3], 2, .inl rfl⟩

end Verif.Restart.Props
