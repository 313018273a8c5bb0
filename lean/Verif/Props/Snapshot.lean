import Verif.Lemmas.SnapshotRun
/-! # C36: the snapshot and the new command log hold the live state -/
namespace Verif.Snapshot.Props
open Verif.Log Verif.Log.Spec

/-- C36 for key-value items.  Let the checkpoint of a server started at `start` run in any
interleaving with client updates, until it is complete and beyond.  Then a server started at
`start'` that loads the snapshot and replays the new command log at clock `c'` serves for key `k`,
from the recovery on, exactly what the live server would serve.  Conditions (`Safe`, per step): the
clocks are in step and the lifetimes are such that C40 and C41 hold; no flush that concerns `k`
between the start of the scan and the time `k` is scanned (`C36_flush_false`); no change of `k`
between the opening of the scan and its first step if `k` is in bucket 0 (`C36_early_false`); the
scan hands out every item before it ends (C26).  Missing: collections. -/
theorem C36_partial (sc : Scope) (junk : Bytes → Bool) (start start' : Nat) (c' : Clock) (k : Bytes)
    (live : Store) (acts : List Act) (s : Chk)
    (hlive : ∀ v, live k = some v → GoodExp start v.exp)
    (hclock : InStep start' c') (hwall : c'.wall < 4294967295) (hcur : 1 ≤ c'.cur)
    (hsafe : Safe sc junk start c'.wall k (Chk.start live) acts)
    (hrun : (Chk.start live).run sc junk acts = some s) (hdone : s.closed = true) :
    ∃ t, recovered sc c' s = some t ∧
      ∀ w, c'.wall ≤ w → served start' t w k = served start s.live w k := by
  have hc := run_cinv hclock hwall hcur acts (CInv.start (sc := sc) hlive) hsafe hrun
  obtain ⟨t, ht, rel⟩ := hc.saved hdone
    (run_closed_held acts (by intro h; simp [Chk.start] at h) hrun hdone)
  exact ⟨t, ht, fun w hw => rel_served rel hclock hwall w hw⟩

/-! ## A checkpoint with updates in all places -/

/-- Clients' times. -/
def at_ (cur : Nat) : Clock := ⟨cur, 1000 + cur⟩

/-- A key-value item. -/
def item (k : Bytes) (v : Bytes) (e : Nat) : Item :=
  { ittype := 0, flags := 7, exptime := e, cas := 1, key := k, value := v,
    coll := ⟨0, 0, 0, ⟨255, []⟩⟩ }

/-- No prefixes. -/
def sc0 : Scope := ⟨fun _ _ => false, fun _ => true⟩

/-- Three items. -/
def live0 : Store := fun k =>
  if k = [1] then some ⟨7, 0, [11], 1⟩ else if k = [2] then some ⟨7, 900, [12], 2⟩
  else if k = [3] then some ⟨7, 0, [13], 3⟩ else none

/-- Item 1 is deleted between its scan and its dump, item 2 is changed before its scan and touched
between its scan and its dump, item 3 is replaced after its dump, a new item 4 comes during the
scan, and item 2 is touched once more after the checkpoint. -/
def acts0 : List Act :=
  [.client (at_ 5) (.store (item [2] [22] 800)), .next (at_ 6) [[1], [3]],
   .client (at_ 7) (.delete [1]), .dump (at_ 8), .client (at_ 8) (.store (item [4] [44] 0)),
   .dump (at_ 9), .client (at_ 10) (.store (item [3] [33] 0)), .next (at_ 11) [[2], [4]],
   .client (at_ 12) (.touch [2] 700), .dump (at_ 13), .dump (at_ 14), .finish,
   .client (at_ 15) (.touch [2] 600)]

/-- What is served after a crash and a restart at time 1100. -/
example : (((Chk.start live0).run sc0 (fun _ => false) acts0).bind fun s =>
      (recovered sc0 ⟨2, 1100⟩ s).map fun t =>
        [served 1098 t 1500 [1], served 1098 t 1500 [2], served 1098 t 1600 [2],
         served 1098 t 1500 [3], served 1098 t 1500 [4]]) =
    some [none, some ⟨7, [22], 1⟩, none, some ⟨7, [33], 1⟩, some ⟨7, [44], 1⟩] := by
  decide +kernel

/-- The sizes of the two files (in records). -/
example : ((Chk.start live0).run sc0 (fun _ => false) acts0).map (fun s =>
      (s.closed, s.snap.length, s.new.length)) = some (true, 4, 4) := by
  decide +kernel

theorem safe_cons {sc : Scope} {junk : Bytes → Bool} {start wall : Nat} {k : Bytes} {s s1 : Chk} {a : Act}
    {r : List Act} (h : s.step sc junk a = some s1) (h1 : SafeAct sc junk start wall k s a)
    (h2 : Safe sc junk start wall k s1 r) : Safe sc junk start wall k s (a :: r) :=
  ⟨h1, fun s' hs => by rw [h] at hs; cases Option.some.inj hs; exact h2⟩

/-- The hypotheses of `C36_partial` hold for it, e.g. at key 2. -/
example : Safe sc0 (fun _ => false) 1000 1100 [2] (Chk.start live0) acts0 := by
  refine safe_cons rfl ⟨⟨rfl, by decide, fun _ => ⟨rfl, .inr (.inr (by decide)), by decide⟩⟩,
    fun _ _ => rfl, fun _ h => by simp at h⟩ ?_
  refine safe_cons rfl ⟨rfl, by decide⟩ ?_
  refine safe_cons rfl ⟨⟨rfl, by decide, trivial⟩, fun _ _ => rfl, fun _ h => by simp at h⟩ ?_
  refine safe_cons rfl ⟨rfl, by decide⟩ ?_
  refine safe_cons rfl ⟨⟨rfl, by decide, fun h => by simp [item] at h⟩,
    fun _ _ => rfl, fun _ h => by simp at h⟩ ?_
  refine safe_cons rfl ⟨rfl, by decide⟩ ?_
  refine safe_cons rfl ⟨⟨rfl, by decide, fun h => by simp [item] at h⟩,
    fun _ _ => rfl, fun _ h => by simp at h⟩ ?_
  refine safe_cons rfl ⟨rfl, by decide⟩ ?_
  refine safe_cons rfl ⟨⟨rfl, by decide, fun _ => ⟨.inr (.inr (by decide)), ?_⟩⟩,
    fun _ _ => rfl, fun _ h => by simp at h⟩ ?_
  · intro v hv; cases Option.some.inj hv; decide
  refine safe_cons rfl ⟨rfl, by decide⟩ ?_
  refine safe_cons rfl ⟨rfl, by decide⟩ ?_
  refine safe_cons rfl (fun _ _ => rfl) ?_
  refine safe_cons rfl ⟨⟨rfl, by decide, fun _ => ⟨.inr (.inr (by decide)), ?_⟩⟩,
    fun _ _ => rfl, fun _ h => by simp at h⟩ trivial
  intro v hv; cases Option.some.inj hv; decide

/-! ## Where it fails -/

/-- C36 fails with a flush during the scan: the flush is logged in the new log at once; an item
stored afterwards in the part not yet scanned is written to the snapshot only; replaying the flush
behind the snapshot removes it.  Here flush_all, then a store, then the scan. -/
theorem C36_flush_false :
    ((Chk.start live0).run sc0 (fun _ => false)
      [.client (at_ 5) .flushAll, .client (at_ 6) (.store (item [1] [21] 0)), .next (at_ 7) [[1]],
       .dump (at_ 8), .finish]).map (fun s =>
        (s.closed, served 1000 s.live 1100 [1], (recovered sc0 ⟨2, 1100⟩ s).map fun t =>
          served 1098 t 1100 [1])) =
    some (true, some ⟨7, [21], 1⟩, some none) := by
  decide +kernel

/-- C36 fails between the opening of the scan and its first step: a store of an item of bucket 0
counts as scanned, is logged in the new log and cannot be undone: the unlink of the item, after the
first step of the scan but before the item has been scanned, is not logged there.  The deleted item
is back after a restart. -/
theorem C36_early_false :
    ((Chk.start live0).run sc0 (fun k => k = [9])
      [.client (at_ 5) (.store (item [9] [21] 0)), .next (at_ 7) [[1]], .client (at_ 7) (.delete [9]),
       .dump (at_ 8), .next (at_ 9) [[2], [3]], .dump (at_ 9), .dump (at_ 9), .finish]).map (fun s =>
        (s.closed, served 1000 s.live 1100 [9], (recovered sc0 ⟨2, 1100⟩ s).map fun t =>
          served 1098 t 1100 [9])) =
    some (true, none, some (some ⟨7, [21], 1⟩)) := by
  decide +kernel

end Verif.Snapshot.Props
