import Verif.Lemmas.AssocRel
import Verif.Lemmas.AssocLog
/-!
# C25 to C28: the hash table, its expansion and its scans

The transcripts are those of an arbitrary client, which may choose its next call from all answers before; every answer comes with a flag
that only matters for `scanDirect`.
-/
namespace Verif.Assoc.Props
open Verif.Run Verif.Assoc Verif.Assoc.Spec

/-! ## C25: a finite map -/

/-- C25: for every hash function, every legal client and every number of calls, find, insert, replace and delete answer as on a finite
map, through all expansions and with all scans; the scans and cursor reads answer as specified too.  The only call that can fail is a
cursor read while the table grows and a pair of chains does not have room in the array. -/
theorem C25_table (cfg : Cfg) :
    ImplementsUntil (callStep cfg) (init cfg) (Step cfg.hp cfg.hash) Legal start
      (fun s op => s.expanding = true ∧ ∃ c req arr, op = .scanDirect c req arr ∧ ¬ Roomy cfg s req arr) :=
  of_simulation_until (Rel cfg) (rel_init cfg) fun _ _ _ h hl => h.step hl

/-- C25: without cursor reads no call ever fails. -/
theorem C25_map (cfg : Cfg) :
    Implements (callStep cfg) (init cfg) (Step cfg.hp cfg.hash) (fun σ op => Legal σ op ∧ ∀ c req arr, op ≠ .scanDirect c req arr) start := by
  apply of_simulation (Rel cfg) (rel_init cfg)
  intro σ s op h hl
  rcases h.step hl.1 with ⟨-, -, c, req, arr, h1, -⟩ | h1
  · exact absurd h1 (hl.2 c req arr)
  · exact h1

/-- The hash function of the examples: the first byte of the key. -/
def hash1 : List Nat → Nat
  | [] => 0
  | b :: _ => b

/-- A table with two buckets. -/
def cfg1 : Cfg := ⟨1, hash1⟩

def it (b : Nat) : Item := ⟨[b], b, none⟩

def ins (b : Nat) : Op := .insert (it b) true true

/-- Example: twelve insertions; the table is doubled, and a scan that began before holds up the redistribution of its bucket; deletion,
replacement and lookup go on. -/
example : (answers (callStep cfg1) (init cfg1)
    ((List.range 4).map ins ++ [.scanInit 7, .scanNext 0 1 0, .scanNext 0 1 0] ++ (List.range 8).map (fun i => ins (i + 4)) ++
      [.find [5], .delete [5], .find [5], .replace [6] ⟨[6], 99, none⟩, .find [6], .find [11], .find [1, 1], .scanNext 0 5 0, .scanNext 0 50 0,
       .scanNext 0 5 0, .visited 0 (it 0), .scanFinal 0])).map (fun l => (l.drop 15).map Prod.fst) =
    some [.found (some (it 5)), .ok, .found none, .ok, .found (some ⟨[6], 99, none⟩), .found (some (it 11)), .found none,
      .next (some [it 9, it 1, it 11, it 7, it 3]), .next none, .next none, .visited true, .ok] := by
  decide +kernel

/-! ## C26: scans -/

/-- C26: a key that is in the table when the scan begins, and is not deleted until the scan reports its end, is delivered exactly once,
whatever else happens: insertions, deletions, replacements, expansions and other scans. -/
theorem C26_exactly_once (cfg : Cfg) (cl : Client Op (Rep × Bool)) (hc : LegalClient (Step cfg.hp cfg.hash) Legal start cl)
    {n : Nat} {s : St} {a b c : List (Op × (Rep × Bool))} {it : Item} {m1 m2 : Bool} {r : Rep × Bool} {junk sid arr lim : Nat} {f g : Bool}
    (h : play (callStep cfg) (init cfg) cl n = some (s, a ++ (.insert it m1 m2, r) :: b ++ (.scanInit junk, (.scan sid, f)) :: c ++
      [(.scanNext sid arr lim, (.next none, g))]))
    (hb : NoDelete it.key b) (hd : NoDelete it.key c) : delivered sid it.key c = 1 := by
  obtain ⟨σ, hr, -⟩ := play_run hc h
  obtain ⟨σ3, hs, h3⟩ := (Seg.of_run hc hr).split
  obtain ⟨σ2, hs, h2⟩ := hs.split
  obtain ⟨σ1, h1, hs⟩ := hs.split
  cases hs with
  | @cons _ _ _ σ1' _ _ l1 k1 hs =>
    cases h2 with
    | @cons _ _ _ σ2' _ _ l2 k2 h2 =>
      cases h3 with
      | cons l3 k3 _ =>
        have s1 := sane_step (h1.sane sane_start) l1 k1
        have s2 := hs.sane s1
        have hk : it.key ∈ keys σ2.items := by
          apply hs.stay s1 hb
          rw [k1.2.1, mem_keys]
          exact ⟨it, List.mem_cons_self, rfl⟩
        have s3 := sane_step s2 l2 k2
        obtain ⟨e1, e2⟩ := k2
        simp only [Rep.scan.injEq] at e1
        obtain ⟨o3, ho3, he⟩ := k3
        have ho2 : owed σ2' sid = some ⟨keys σ2.items, false⟩ := by
          rw [e2, owed_append', if_pos e1]
        have hdue := h2.due s3 hd ho2 ho3 hk
        rcases he with ⟨-, he, -⟩ | ⟨l, he, -⟩
        · rcases hdue with ⟨h4, -⟩ | ⟨-, h4⟩
          · rw [he] at h4; cases h4
          · exact h4
        · cases he

/-- C26: between two deletions of a key no scan delivers it twice. -/
theorem C26_at_most_once (cfg : Cfg) (cl : Client Op (Rep × Bool)) (hc : LegalClient (Step cfg.hp cfg.hash) Legal start cl)
    {n : Nat} {s : St} {a b c : List (Op × (Rep × Bool))} (h : play (callStep cfg) (init cfg) cl n = some (s, a ++ b ++ c))
    {key : List Nat} (hd : NoDelete key b) (sid : Nat) : delivered sid key b ≤ 1 := by
  obtain ⟨σ, hr, -⟩ := play_run hc h
  obtain ⟨σ1, hs, -⟩ := (Seg.of_run hc hr).split
  obtain ⟨σ2, h1, h2⟩ := hs.split
  exact h2.once (h1.sane sane_start) hd sid

/-- C26: what a scan delivers is in the table at that moment. -/
theorem C26_resident (cfg : Cfg) (cl : Client Op (Rep × Bool)) (hc : LegalClient (Step cfg.hp cfg.hash) Legal start cl)
    {n : Nat} {s : St} {a : List (Op × (Rep × Bool))} {sid arr lim : Nat} {l : List Item} {f : Bool}
    (h : play (callStep cfg) (init cfg) cl n = some (s, a ++ [(.scanNext sid arr lim, (.next (some l), f))])) :
    ∃ σ, SpecRun (Step cfg.hp cfg.hash) start cl a σ ∧ l ≠ [] ∧ l.length ≤ arr ∧ ∀ it ∈ l, it ∈ σ.items := by
  obtain ⟨σ, hr, -⟩ := play_run hc h
  have hlast : ∀ {t σ}, SpecRun (Step cfg.hp cfg.hash) start cl t σ → ∀ {a x}, t = a ++ [x] →
      ∃ σ0, SpecRun (Step cfg.hp cfg.hash) start cl a σ0 ∧ Step cfg.hp cfg.hash σ0 x.1 x.2 σ := by
    intro t σ ht a x he
    cases ht with
    | nil => cases a <;> cases he
    | snoc h1 h2 =>
      have hx := List.append_inj' he rfl
      obtain ⟨rfl, hx⟩ := hx
      simp only [List.cons.injEq, and_true] at hx
      subst hx
      exact ⟨_, h1, h2⟩
  obtain ⟨σ0, h1, o, -, h2⟩ := hlast hr rfl
  rcases h2 with ⟨h2, -⟩ | ⟨l', h2, h3, h4, h5, -⟩
  · cases h2
  · simp only [Rep.next.injEq, Option.some.injEq] at h2
    subst h2
    exact ⟨σ0, h1, h3, h4, fun it hi => (h5 it hi).1⟩

/-- C26: `assoc_scan_in_visited_area` tells the truth about the future of a scan: an item it calls visited is not delivered any more,
any other is delivered exactly once, until the end of the scan if the key is not deleted. -/
theorem C26_visited (cfg : Cfg) (cl : Client Op (Rep × Bool)) (hc : LegalClient (Step cfg.hp cfg.hash) Legal start cl)
    {n : Nat} {s : St} {a c : List (Op × (Rep × Bool))} {it : Item} {v : Bool} {sid arr lim : Nat} {f g : Bool}
    (h : play (callStep cfg) (init cfg) cl n = some (s, a ++ (.visited sid it, (.visited v, f)) :: c ++
      [(.scanNext sid arr lim, (.next none, g))]))
    (hd : NoDelete it.key c) : delivered sid it.key c = if v then 0 else 1 := by
  obtain ⟨σ, hr, -⟩ := play_run hc h
  obtain ⟨σ3, hs, h3⟩ := (Seg.of_run hc hr).split
  obtain ⟨σ2, h1, hs⟩ := hs.split
  cases hs with
  | cons l1 k1 hs =>
    cases h3 with
    | cons l3 k3 _ =>
      obtain ⟨o, ho, hv, he⟩ := k1
      subst he
      simp only [Rep.visited.injEq] at hv
      have hk := mem_keys.mpr ⟨it, l1.1, rfl⟩
      obtain ⟨o3, ho3, he⟩ := k3
      have s2 := h1.sane sane_start
      rcases he with ⟨-, he, -⟩ | ⟨l, he, -⟩
      · by_cases hm : it.key ∈ o.todo
        · rw [if_neg (by rw [hv]; simpa using hm)]
          rcases hs.due s2 hd ho ho3 hm with ⟨h4, -⟩ | ⟨-, h4⟩
          · rw [he] at h4; cases h4
          · exact h4
        · rw [if_pos (by rw [hv]; simpa using hm)]
          exact (hs.paid s2 hd ho hk hm).1
      · cases he

/-- C26 fails for `assoc_scan_in_visited_area` before the first `assoc_scan_next`: `assoc_scan_init` leaves `tabidx` as it was, and an item of
bucket 0 counts as visited although nothing has been delivered and it is delivered later. -/
theorem C26_visited_before_start_false :
    answers (callStep cfg1) (init cfg1) [ins 0, .scanInit 1, .visited 0 (it 0), .scanNext 0 9 0, .scanNext 0 9 0] =
      some [(.ok, true), (.scan 0, true), (.visited true, true), (.next (some [it 0]), true), (.next none, true)] := by
  decide +kernel

/-! ## A legal client -/

/-- What the client remembers of the transcript: the cursor of the last cursor read, or 0. -/
def cursorOf (t : List (Op × (Rep × Bool))) : Nat :=
  t.foldl (fun c x => match x.2.1 with | .direct (some (_, c')) => c' | _ => c) 0

/-- A client that inserts two keys, begins a scan, inserts two more keys, and then alternates steps of the scan with cursor reads that
follow the cursors. -/
def demo : Client Op (Rep × Bool) := fun t =>
  if t.length = 0 then ins 3
  else if t.length = 1 then ins 4
  else if t.length = 2 then .scanInit 5
  else if t.length = 3 then ins 1
  else if t.length = 4 then ins 6
  else if t.length % 2 = 0 then .scanNext 0 1 0
  else .scanDirect (cursorOf t) 1 8

theorem cursorOf_snoc (t : List (Op × (Rep × Bool))) (x : Op × (Rep × Bool)) :
    cursorOf (t ++ [x]) = match x.2.1 with | .direct (some (_, c')) => c' | _ => cursorOf t := by
  unfold cursorOf; rw [List.foldl_append]; rfl

/-- What holds while `demo` runs. -/
structure DemoInv (t : List (Op × (Rep × Bool))) (σ : S) : Prop where
  items : σ.items = [[], [it 3], [it 4, it 3], [it 4, it 3], [it 1, it 4, it 3]].getD t.length [it 6, it 1, it 4, it 3]
  scans : t.length < 3 → σ.scans = []
  owe : 3 ≤ t.length → owed σ 0 ≠ none
  cur : cursorOf t = 0 ∨ cursorOf t ∈ σ.cursors

theorem demo_inv {hp : Nat} {hash : List Nat → Nat} {t : List (Op × (Rep × Bool))} {σ : S} (h : SpecRun (Step hp hash) start demo t σ) :
    DemoInv t σ := by
  have hins : ∀ {σ σ' : S} {x : Item} {m1 m2 : Bool} {r : Rep × Bool} {t : List (Op × (Rep × Bool))}, Step hp hash σ (.insert x m1 m2) r σ' →
      cursorOf (t ++ [(.insert x m1 m2, r)]) = cursorOf t ∧ (σ.scans = [] → σ'.scans = []) ∧ (owed σ 0 ≠ none → owed σ' 0 ≠ none) := by
    intro σ σ' x m1 m2 r t hs
    obtain ⟨h1, -, -, h3, h4⟩ := hs
    refine ⟨by rw [cursorOf_snoc]; simp only [h1], ?_, ?_⟩
    · intro h0
      rw [h0] at h3
      exact List.eq_nil_of_length_eq_zero h3
    · intro h0 h5
      have := h4 0
      rw [h5] at this
      cases h6 : owed σ 0 with
      | none => exact h0 h6
      | some o => rw [h6] at this; exact this
  induction h with
  | nil => exact ⟨rfl, fun _ => rfl, fun h => absurd h (by simp), .inl rfl⟩
  | @snoc t σ r σ' _ hs ih =>
    have hlen : (t ++ [(demo t, r)]).length = t.length + 1 := by simp
    by_cases h0 : t.length = 0
    · have hd : demo t = ins 3 := by simp [demo, h0]
      rw [hd] at hs hlen ⊢
      obtain ⟨k1, k2, k3⟩ := hins hs
      refine ⟨?_, ?_, ?_, ?_⟩
      · rw [hs.2.1, ih.items, hlen, h0]; rfl
      · intro _; exact k2 (ih.scans (by omega))
      · intro h; omega
      · rw [show cursorOf (t ++ [(ins 3, r)]) = cursorOf t from k1, hs.2.2.1]; exact ih.cur
    · by_cases h1 : t.length = 1
      · have hd : demo t = ins 4 := by simp [demo, h1]
        rw [hd] at hs hlen ⊢
        obtain ⟨k1, k2, k3⟩ := hins hs
        refine ⟨?_, ?_, ?_, ?_⟩
        · rw [hs.2.1, ih.items, hlen, h1]; rfl
        · intro _; exact k2 (ih.scans (by omega))
        · intro h; omega
        · rw [show cursorOf (t ++ [(ins 4, r)]) = cursorOf t from k1, hs.2.2.1]; exact ih.cur
      · by_cases h2 : t.length = 2
        · have hd : demo t = .scanInit 5 := by simp [demo, h2]
          rw [hd] at hs hlen ⊢
          obtain ⟨k1, rfl⟩ := hs
          refine ⟨?_, ?_, ?_, ?_⟩
          · rw [hlen, h2]; simp only; rw [ih.items, h2]; rfl
          · intro h; omega
          · intro _; rw [owed_append', ih.scans (by omega)]; simp
          · rw [cursorOf_snoc]; simp only [k1]; exact ih.cur
        · by_cases h3 : t.length = 3
          · have hd : demo t = ins 1 := by simp [demo, h3]
            rw [hd] at hs hlen ⊢
            obtain ⟨k1, k2, k3⟩ := hins hs
            refine ⟨?_, ?_, ?_, ?_⟩
            · rw [hs.2.1, ih.items, hlen, h3]; rfl
            · intro h; omega
            · intro _; exact k3 (ih.owe (by omega))
            · rw [show cursorOf (t ++ [(ins 1, r)]) = cursorOf t from k1, hs.2.2.1]; exact ih.cur
          · by_cases h4 : t.length = 4
            · have hd : demo t = ins 6 := by simp [demo, h4]
              rw [hd] at hs hlen ⊢
              obtain ⟨k1, k2, k3⟩ := hins hs
              refine ⟨?_, ?_, ?_, ?_⟩
              · rw [hs.2.1, ih.items, hlen, h4]; rfl
              · intro h; omega
              · intro _; exact k3 (ih.owe (by omega))
              · rw [show cursorOf (t ++ [(ins 6, r)]) = cursorOf t from k1, hs.2.2.1]; exact ih.cur
            · have hit : σ.items = [it 6, it 1, it 4, it 3] := by
                rw [ih.items, List.getD_eq_getElem?_getD, List.getElem?_eq_none (by simp; omega)]; rfl
              have hit' : [[], [it 3], [it 4, it 3], [it 4, it 3], [it 1, it 4, it 3]].getD (t.length + 1) [it 6, it 1, it 4, it 3] =
                  [it 6, it 1, it 4, it 3] := by
                rw [List.getD_eq_getElem?_getD, List.getElem?_eq_none (by simp; omega)]; rfl
              by_cases h5 : t.length % 2 = 0
              · have hd : demo t = .scanNext 0 1 0 := by simp [demo, h0, h1, h2, h3, h4, h5]
                rw [hd] at hs hlen ⊢
                obtain ⟨o, ho, hs⟩ := hs
                rcases hs with ⟨k1, -, rfl⟩ | ⟨l, k1, -, -, -, -, rfl⟩
                · refine ⟨by rw [hlen, hit']; exact hit, fun h => by omega, ?_, ?_⟩
                  · intro _; rw [owed_next ho]; simp
                  · rw [cursorOf_snoc]; simp only [k1]; exact ih.cur
                · refine ⟨by rw [hlen, hit']; exact hit, fun h => by omega, ?_, ?_⟩
                  · intro _; rw [owed_next ho]; simp
                  · rw [cursorOf_snoc]; simp only [k1]; exact ih.cur
              · have hd : demo t = .scanDirect (cursorOf t) 1 8 := by simp [demo, h0, h1, h2, h3, h4, h5]
                rw [hd] at hs hlen ⊢
                obtain ⟨l, c', k1, -, -, -, rfl⟩ := hs
                refine ⟨by rw [hlen, hit']; exact hit, fun h => by omega, ?_, ?_⟩
                · intro _; exact ih.owe (by omega)
                · rw [cursorOf_snoc]; simp only [k1]; exact .inr List.mem_cons_self

/-- The client makes only legal calls. -/
theorem demo_legal (hp : Nat) (hash : List Nat → Nat) : LegalClient (Step hp hash) Legal start demo := by
  intro t σ h
  have hi := demo_inv h
  by_cases h0 : t.length = 0
  · have hd : demo t = ins 3 := by simp [demo, h0]
    rw [hd]; refine ⟨by simp [it], ?_⟩
    rw [hi.items, h0]; simp [keys]
  · by_cases h1 : t.length = 1
    · have hd : demo t = ins 4 := by simp [demo, h1]
      rw [hd]; refine ⟨by simp [it], ?_⟩
      rw [hi.items, h1]; simp [keys, it]
    · by_cases h2 : t.length = 2
      · have hd : demo t = .scanInit 5 := by simp [demo, h2]
        rw [hd]; trivial
      · by_cases h3 : t.length = 3
        · have hd : demo t = ins 1 := by simp [demo, h3]
          rw [hd]; refine ⟨by simp [it], ?_⟩
          rw [hi.items, h3]; simp [keys, it]
        · by_cases h4 : t.length = 4
          · have hd : demo t = ins 6 := by simp [demo, h4]
            rw [hd]; refine ⟨by simp [it], ?_⟩
            rw [hi.items, h4]; simp [keys, it]
          · by_cases h5 : t.length % 2 = 0
            · have hd : demo t = .scanNext 0 1 0 := by simp [demo, h0, h1, h2, h3, h4, h5]
              rw [hd]; exact ⟨hi.owe (by omega), by decide⟩
            · have hd : demo t = .scanDirect (cursorOf t) 1 8 := by simp [demo, h0, h1, h2, h3, h4, h5]
              rw [hd]; exact ⟨hi.cur, by decide, by decide, fun _ => by decide⟩

/-- The transcript of the first 15 calls: the table is doubled at the fifth; the scan delivers the four keys and ends, the cursor goes from
0 to 1 and back to 0. -/
def demoLog : List (Op × (Rep × Bool)) :=
  [(ins 3, (.ok, true)), (ins 4, (.ok, true)), (.scanInit 5, (.scan 0, true)), (ins 1, (.ok, true)), (ins 6, (.ok, true)),
   (.scanDirect 0 1 8, (.direct (some ([it 6, it 4], 1)), true)), (.scanNext 0 1 0, (.next (some [it 6]), true)),
   (.scanDirect 1 1 8, (.direct (some ([it 1, it 3], 0)), true)), (.scanNext 0 1 0, (.next (some [it 4]), true)),
   (.scanDirect 0 1 8, (.direct (some ([it 6, it 4], 1)), true)), (.scanNext 0 1 0, (.next (some [it 1]), true)),
   (.scanDirect 1 1 8, (.direct (some ([it 1, it 3], 0)), true)), (.scanNext 0 1 0, (.next (some [it 3]), true)),
   (.scanDirect 0 1 8, (.direct (some ([it 6, it 4], 1)), true)), (.scanNext 0 1 0, (.next none, true))]

theorem demo_play : (play (callStep cfg1) (init cfg1) demo 15).map (·.2) = some demoLog := by decide +kernel

/-- Example for `C26_exactly_once`: key 3 in that transcript. -/
example : ∃ s, play (callStep cfg1) (init cfg1) demo 15 = some (s, [] ++ (.insert (it 3) true true, (.ok, true)) :: [(ins 4, (.ok, true))] ++
      (.scanInit 5, (.scan 0, true)) :: (demoLog.drop 3).take 11 ++ [(.scanNext 0 1 0, (.next none, true))]) ∧
    NoDelete [3] [(ins 4, (.ok, true))] ∧ NoDelete [3] ((demoLog.drop 3).take 11) ∧ delivered 0 [3] ((demoLog.drop 3).take 11) = 1 := by
  have h := demo_play
  cases hp : play (callStep cfg1) (init cfg1) demo 15 with
  | none => rw [hp] at h; cases h
  | some st =>
    rw [hp] at h
    simp only [Option.map_some, Option.some.injEq] at h
    refine ⟨st.1, ?_, by intro r; simp [ins], by intro r; simp [demoLog, ins], by decide +kernel⟩
    rw [show st = (st.1, st.2) from rfl, h]
    rfl

/-! ## C27: cursors -/

/-- C27: a caller that follows the cursors from 0 until it gets 0 again, with room in its array at each call, is given every key that was
inserted before and is not deleted in the meantime, whatever else happens, expansions included. -/
theorem C27_cursors_partial (cfg : Cfg) (cl : Client Op (Rep × Bool)) (hc : LegalClient (Step cfg.hp cfg.hash) Legal start cl)
    {n : Nat} {s : St} {a b c d : List (Op × (Rep × Bool))} {it : Item} {m1 m2 : Bool} {r : Rep × Bool} {ls : List (List Item)}
    (h : play (callStep cfg) (init cfg) cl n = some (s, a ++ (.insert it m1 m2, r) :: b ++ c ++ d))
    (hb : NoDelete it.key b) (hd : NoDelete it.key c) (hf : Follows 0 c ls 0) (hne : ls ≠ []) : ∃ l ∈ ls, ∃ x ∈ l, x.key = it.key := by
  obtain ⟨σ, hr, -⟩ := play_run hc h
  obtain ⟨σ3, hs, -⟩ := (Seg.of_run hc hr).split
  obtain ⟨σ2, hs, h2⟩ := hs.split
  obtain ⟨σ1, h1, hs⟩ := hs.split
  cases hs with
  | cons l1 k1 hs =>
    have s1 := sane_step (h1.sane sane_start) l1 k1
    have hk : it.key ∈ keys σ2.items := by
      apply hs.stay s1 hb
      rw [k1.2.1, mem_keys]
      exact ⟨it, List.mem_cons_self, rfl⟩
    rcases h2.follows (hs.sane s1) hd hk hf (not_covered_zero _) with h3 | ⟨-, h3⟩
    · exact h3
    · exact absurd (h3 rfl) hne

/-- Example: the cursors of `demo`. -/
example : Follows 0 ((demoLog.drop 5).take 3) [[it 6, it 4], [it 1, it 3]] 0 := .call (.other (.call .nil))

/-- Example: the table grows between the calls: cursor 1 was returned for a table of one row and is used with two rows, one of them with
more keys. -/
example : (answers (callStep cfg1) (init cfg1) ([ins 2, ins 3, .scanDirect 0 1 9] ++ (List.range 5).map (fun i => ins (2 * i + 5)) ++
      [.scanDirect 1 1 9, .scanDirect 3 1 9])).map (fun l => (l.drop 2).take 1 ++ l.drop 8) =
    some [(.direct (some ([it 2], 1)), true), (.direct (some ([it 13, it 9, it 5], 3)), true),
      (.direct (some ([it 11, it 3, it 7], 0)), true)] := by
  decide +kernel

/-- C27 fails without room: with an array of two entries a third item of the same chain is never returned. -/
theorem C27_crowded_false :
    answers (callStep cfg1) (init cfg1) [ins 0, ins 2, ins 4, .scanDirect 0 1 2, .scanDirect 1 1 2] =
      some [(.ok, true), (.ok, true), (.ok, true), (.direct (some ([it 4, it 2], 1)), false), (.direct (some ([], 0)), false)] := by
  decide +kernel

/-! ## C28: the result array -/

/-- C28: a cursor read with any cursor stays inside the array, if the table does not grow or the first chain of each pair has room in the
part of the array that is not asked for. -/
theorem C28_inside_partial (cfg : Cfg) (cl : Client Op (Rep × Bool)) (hc : LegalClient (Step cfg.hp cfg.hash) Legal start cl)
    {n : Nat} {s : St} {t : List (Op × (Rep × Bool))} (h : play (callStep cfg) (init cfg) cl n = some (s, t)) {c req arr : Nat}
    (hreq : req ≤ arr) (harr : 0 < arr)
    (hroom : s.expanding = true → ∀ t b, t < 2 ^ s.prevpower → b < 2 ^ cfg.hp → (its (s.table t b)).length + req ≤ arr) :
    scanDirect cfg s c req arr = some none ∨ ∃ l c', scanDirect cfg s c req arr = some (some (l, c')) ∧ l.length ≤ arr := by
  obtain ⟨σ, -, hr⟩ := play_run hc h
  exact scanDirect_safe hr.tab.pw (fun he => (hr.tab.geo he).1) hreq harr hroom

theorem iterCount_first {count : Nat} (h : count ≤ 200) : iterCount count 0 = count := by
  have h1 : (count + 4294967296 - 0) % 4294967296 = count := by omega
  unfold iterCount
  rw [h1]
  split <;> omega

/-- C28: a SCAN of keys with a count of at most 200 stays inside the array under the same condition for the hundred extra entries. -/
theorem C28_keyscan_partial (cfg : Cfg) (ss : Nat → St) (keep : Item → Bool) {cursor count rounds : Nat} (hcnt : count ≤ 200)
    (hss : ∃ cl n t, LegalClient (Step cfg.hp cfg.hash) Legal start cl ∧ play (callStep cfg) (init cfg) cl n = some (ss 0, t))
    (hroom : (ss 0).expanding = true → ∀ t b, t < 2 ^ (ss 0).prevpower → b < 2 ^ cfg.hp → (its ((ss 0).table t b)).length ≤ 100) :
    keyscan cfg ss cursor count (count + 100) keep rounds = some none ∨
    ∃ l c', keyscan cfg ss cursor count (count + 100) keep rounds = some (some (l, c')) ∧ l.length ≤ count + 100 := by
  obtain ⟨cl, n, t, hc, hp⟩ := hss
  have hks : keyscan cfg ss cursor count (count + 100) keep rounds =
      keyscanLoop cfg ss count (count + 100) keep rounds 0 cursor 0 [] := by
    unfold keyscan; rw [if_neg (Nat.lt_irrefl _)]
  rw [hks]
  cases rounds with
  | zero => rw [keyscanLoop]; exact .inr ⟨[], cursor, rfl, Nat.zero_le _⟩
  | succ m =>
    rw [keyscanLoop]
    by_cases h0 : 0 < count
    · rw [if_pos h0]
      have e1 : iterCount count ([] : List Item).length = count := iterCount_first hcnt
      rw [e1, List.length_nil, Nat.sub_zero]
      rcases C28_inside_partial cfg cl hc hp (c := cursor) (req := count) (arr := count + 100) (by omega) (by omega)
          (fun he t b ht hb => by have := hroom he t b ht hb; omega) with h1 | ⟨l, c', h1, h2⟩
      · rw [h1]; exact .inl rfl
      · rw [h1]
        have hlen : ([] ++ l.filter keep).length ≤ count + 100 := Nat.le_trans (List.length_filter_le _ _) h2
        simp only
        by_cases hz : c' = 0
        · rw [if_pos hz]; exact .inr ⟨_, _, rfl, hlen⟩
        · rw [if_neg hz]
          cases m with
          | zero => rw [keyscanLoop]; exact .inr ⟨_, _, rfl, hlen⟩
          | succ m =>
            rw [keyscanLoop, if_neg (by omega)]
            exact .inr ⟨_, _, rfl, hlen⟩
    · rw [if_neg h0]; exact .inr ⟨[], cursor, rfl, Nat.zero_le _⟩

/-- C28 fails while the table grows: with a full array after the first chain of a pair the second chain is stored outside. -/
theorem C28_outside_false :
    answers (callStep cfg1) (init cfg1) [ins 1, ins 3, ins 5, ins 7, ins 9, .scanDirect 1 1 2] = none ∧
    (answers (callStep cfg1) (init cfg1) [ins 1, ins 3, ins 5, ins 7, ins 9]).isSome = true := by
  decide +kernel

/-- A table with 256 buckets. -/
def cfg8 : Cfg := ⟨8, hash1⟩

/-- The client fills 200 buckets with one key each, then puts two more keys into bucket 199. -/
def fill8 : Client Op (Rep × Bool) := fun t =>
  if t.length < 200 then ins t.length else .insert ⟨[199, t.length], 0, none⟩ true true

/-- The table after the first `k` calls, `k ≤ 200`. -/
def part8 (k : Nat) : St :=
  { init cfg8 with table := fun t b => if t = 0 ∧ b < k then [.item (it b)] else [], items := k }

/-- The table after 202 calls: 199 buckets with one key and one with three. -/
def full8 : St :=
  { init cfg8 with
    table := fun t b =>
      if t = 0 ∧ b = 199 then [.item ⟨[199, 201], 0, none⟩, .item ⟨[199, 200], 0, none⟩, .item (it 199)]
      else if t = 0 ∧ b < 199 then [.item (it b)] else []
    items := 202 }

theorem part8_play : ∀ k, k ≤ 200 → ∃ t, play (callStep cfg8) (init cfg8) fill8 k = some (part8 k, t) ∧ t.length = k := by
  intro k
  induction k with
  | zero =>
    intro _
    refine ⟨[], ?_, rfl⟩
    simp only [play, Option.some.injEq, Prod.mk.injEq, and_true]
    simp [part8, init]
  | succ k ih =>
    intro hk
    obtain ⟨t, h1, h2⟩ := ih (by omega)
    have hop : fill8 t = ins k := by simp only [fill8, h2]; rw [if_pos (by omega)]
    have hb : bucketOf cfg8 [k] = k := by simp only [bucketOf, cfg8, hash1]; omega
    have ht : tabOf cfg8 (part8 k) [k] = 0 := by
      simp only [tabOf, curTab, part8, init, upperOf, cfg8, hash1]
      simp [Nat.mod_one]
    have hch : chain cfg8 (part8 k) 0 k = some [] := by
      unfold chain
      rw [if_pos ⟨by simp [part8, init], by simp only [cfg8]; omega⟩]
      simp [part8]
    have hst : callStep cfg8 (part8 k) (ins k) = some (part8 (k + 1), (.ok, true)) := by
      simp only [callStep, step, ins, it, insert, find, hb, ht, hch]
      simp only [if_false, List.cons_ne_nil, List.findSome?_nil]
      rw [if_neg (by simp [part8, init]), if_neg (by simp only [part8, init]; simp only [expLimit, cfg8]; omega)]
      simp only [Option.map_some, roomFlag, Option.some.injEq, Prod.mk.injEq, and_true]
      simp only [part8, St.mk.injEq, and_true]
      funext t' b'
      simp only [setChain, it]
      by_cases h : t' = 0 ∧ b' = k
      · rw [if_pos h, if_pos (by omega)]; rw [h.2]
      · rw [if_neg h]
        by_cases h3 : t' = 0 ∧ b' < k
        · rw [if_pos h3, if_pos (by omega)]
        · rw [if_neg h3, if_neg (by omega)]
    refine ⟨t ++ [(ins k, (.ok, true))], ?_, by simp [h2]⟩
    simp only [play, h1, hop, hst]

theorem play_succ {St Op Obs : Type} {step : St → Op → Option (St × Obs)} {s0 s s' : St} {c : Client Op Obs} {n : Nat} {t : List (Op × Obs)}
    {op : Op} {o : Obs} (h : play step s0 c n = some (s, t)) (hop : c t = op) (hs : step s op = some (s', o)) :
    play step s0 c (n + 1) = some (s', t ++ [(op, o)]) := by
  simp only [play, h, hop, hs]

/-- The table after 201 calls. -/
def mid8 : St :=
  { init cfg8 with table := setChain (part8 200).table 0 199 [.item ⟨[199, 200], 0, none⟩, .item (it 199)], items := 201 }

theorem full8_play : ∃ t, play (callStep cfg8) (init cfg8) fill8 202 = some (full8, t) := by
  obtain ⟨t, h1, h2⟩ := part8_play 200 (by omega)
  have s1 : callStep cfg8 (part8 200) (.insert ⟨[199, 200], 0, none⟩ true true) = some (mid8, (.ok, true)) := by rfl
  have p1 := play_succ h1 (op := .insert ⟨[199, 200], 0, none⟩ true true) (by simp [fill8, h2]) s1
  have s2 : callStep cfg8 mid8 (.insert ⟨[199, 201], 0, none⟩ true true) =
      some ({ mid8 with
          table := setChain mid8.table 0 199 [.item ⟨[199, 201], 0, none⟩, .item ⟨[199, 200], 0, none⟩, .item (it 199)], items := 202 },
        (.ok, true)) := by rfl
  have p2 := play_succ p1 (op := .insert ⟨[199, 201], 0, none⟩ true true) (by simp [fill8, h2]) s2
  have he : ({ mid8 with
          table := setChain mid8.table 0 199 [.item ⟨[199, 201], 0, none⟩, .item ⟨[199, 200], 0, none⟩, .item (it 199)], items := 202 } : St) =
      full8 := by
    simp only [full8, mid8, part8, St.mk.injEq, and_true]
    funext t' b'
    simp only [setChain]
    by_cases h : t' = 0 ∧ b' = 199
    · rw [if_pos h, if_pos h]
    · rw [if_neg h, if_neg h, if_neg h]
      by_cases h3 : t' = 0 ∧ b' < 199
      · rw [if_pos h3, if_pos (by omega)]
      · rw [if_neg h3, if_neg (by omega)]
  rw [he] at p2
  exact ⟨_, p2⟩

/-- C28 fails for a SCAN of keys with a count above 200: the first round returns 202 keys, `count - scan_total` is -1 as an unsigned
number, and 200 more are asked for with 99 places left (the assertion in `assoc_scan_direct`).  With a count of 200 the same table is
read without trouble. -/
theorem C28_keyscan_wrap_false : (∃ t, play (callStep cfg8) (init cfg8) fill8 202 = some (full8, t)) ∧
    keyscan cfg8 (fun _ => full8) 0 201 301 (fun _ => true) 10 = none ∧
    (keyscan cfg8 (fun _ => full8) 0 200 300 (fun _ => true) 10).isSome = true :=
  ⟨full8_play, by decide +kernel, by decide +kernel⟩

end Verif.Assoc.Props
