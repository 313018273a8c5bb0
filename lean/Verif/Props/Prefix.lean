import Verif.Lemmas.PrefixScan
/-!
# C29, C46 and the prefix part of C28: prefix statistics and prefix scans
-/
namespace Verif.Prefix.Props
open Verif.Run Verif.Prefix Verif.Prefix.Spec

/-! ## C29: the statistics -/

/-- C29: for every delimiter, hash function, legal client and number of calls, the dumps of prefix statistics, the number of prefixes, the
total counters and the prefix scans are what the resident items and their sizes make them, through all links, unlinks, replacements and
changes of collections; no call fails, no dump leaves its buffer and no reference is lost.  Legal: see `Spec.Legal`; the prefixes of keys
have at most 255 bytes, and sizes fit in 32 bits. -/
theorem C29_statistics_partial (cfg : Cfg) : Implements (step cfg) init (Step cfg.delim cfg.hash) (Legal cfg.delim cfg.hash) start :=
  of_simulation (Rel cfg) (rel_init cfg) fun _ _ _ h hl => h.step hl

/-- The specification state of a run is related to the state of the model. -/
theorem play_run {cfg : Cfg} {cl : Client Op Rep} (hc : LegalClient (Step cfg.delim cfg.hash) (Legal cfg.delim cfg.hash) start cl)
    {n : Nat} {s : St} {t : List (Op × Rep)} (h : play (step cfg) init cl n = some (s, t)) :
    ∃ σ, SpecRun (Step cfg.delim cfg.hash) start cl t σ ∧ Rel cfg σ s := by
  induction n generalizing s t with
  | zero =>
    simp only [play, Option.some.injEq, Prod.mk.injEq] at h
    obtain ⟨rfl, rfl⟩ := h
    exact ⟨_, .nil, rel_init cfg⟩
  | succ n ih =>
    simp only [play] at h
    split at h
    · cases h
    · rename_i s1 t1 h1
      obtain ⟨σ, k1, k2⟩ := ih h1
      obtain ⟨s', r, σ', k3, k4, k5⟩ := k2.step (hc _ _ k1)
      rw [k3] at h
      simp only [Option.some.injEq, Prod.mk.injEq] at h
      obtain ⟨rfl, rfl⟩ := h
      exact ⟨σ', k1.snoc k4, k5⟩

/-- The items of the examples: ":" is 58. -/
def key1 : List Nat := [97, 58, 98]

/-- Example client: an item with prefix "a" is linked, gets an element, and its statistics are read. -/
def demo : Client Op Rep := fun t =>
  if t.length = 0 then .link 0 key1 1 100 20 true else if t.length = 1 then .grow 0 50 else .statsAll

theorem demo_items {hash : List Nat → Nat} {t : List (Op × Rep)} {σ : S} (h : SpecRun (Step 58 hash) start demo t σ) :
    σ.items = if t.length = 0 then [] else if t.length = 1 then [⟨0, key1, 1, 100, 20⟩] else [⟨0, key1, 1, 100, 70⟩] := by
  induction h with
  | nil => rfl
  | @snoc t σ r σ' _ hs ih =>
    have hlen : (t ++ [(demo t, r)]).length = t.length + 1 := by simp
    rw [hlen]
    unfold demo at hs
    by_cases h0 : t.length = 0
    · rw [if_pos h0] at hs ih
      rw [if_neg (by omega), if_pos (by omega)]
      rcases hs with ⟨-, rfl, -⟩ | ⟨p, h1, -, -, h2⟩
      · simp [ih]
      · exfalso
        have : owner 58 key1 = some [97] := by decide
        rw [this] at h1; cases h1
        rcases h2 with ⟨-, h2⟩ | ⟨-, -, h2⟩
        · exact h2 (by unfold GoodName NameByte; decide)
        · cases h2
    · rw [if_neg h0] at hs ih
      rw [if_neg (by omega), if_neg (by omega)]
      by_cases h1 : t.length = 1
      · rw [if_pos h1] at hs ih
        obtain ⟨-, rfl⟩ := hs
        simp [ih]
      · rw [if_neg h1] at hs ih
        obtain ⟨rfl, -⟩ := hs
        exact ih

/-- The example client is legal, for every hash function. -/
example (hash : List Nat → Nat) : LegalClient (Step 58 hash) (Legal 58 hash) start demo := by
  intro t σ h
  have hi := demo_items h
  unfold demo
  by_cases h0 : t.length = 0
  · rw [if_pos h0] at hi ⊢
    refine ⟨by simp [hi], by decide, ?_, by decide, by decide, by decide, by simp [hi]⟩
    intro p hp
    have : owner 58 key1 = some [97] := by decide
    rw [this] at hp; cases hp; decide
  · rw [if_neg h0] at hi ⊢
    by_cases h1 : t.length = 1
    · rw [if_pos h1] at hi ⊢
      exact ⟨_, by rw [hi]; exact List.mem_singleton.mpr rfl, rfl, by decide, by decide⟩
    · rw [if_neg h1]; trivial

/-- The delimiter ":" and a hash function: the first byte. -/
def cfg1 : Cfg := ⟨58, fun l => l.headD 0⟩

/-- A dumped line of the examples: name, counts and bytes. -/
def brief (r : Rep) : Rep :=
  match r with
  | .stats l => .stats (l.map fun x => (x.1, (x.2.1.1, []), (x.2.2.1, [])))
  | r => r

deriving instance DecidableEq for Op
deriving instance DecidableEq for Rep

/-- Example: three items under "a" and no prefix, statistics between the changes, and a scanned prefix that is deleted while its name is
still being read. -/
example : (answers (step cfg1) init
    [.link 0 key1 0 100 0 true, .link 1 [97, 58, 99] 2 80 0 true, .link 2 [120] 0 60 0 true, .grow 1 40, .statsAll, .replace 0 3 key1 0 90 0,
     .shrink 1 10, .statsOf [[97], [98], nullName], .count, .totals, .scan 0 50 150, .unlink 1, .unlink 3, .name (some 0), .count, .statsAll,
     .release (some 0), .release none, .link 4 [97, 32, 58] 0 1 0 true]).map (·.map brief) =
    some [.ok, .ok, .ok, .ok, .stats [(none, (1, []), (60, [])), (some [97], (2, []), (220, []))], .ok, .ok,
      .stats [(some [97], (2, []), (200, [])), (none, (1, []), (60, []))], .count 2, .totals 3 260, .scan [(none, none), (some 0, some [97])] 200,
      .ok, .ok, .name (some [97]), .count 1, .stats [(none, (1, []), (60, []))], .ok, .ok, .ename] := by
  decide +kernel

/-! ### Where C29 fails -/

/-- C29 fails for long prefixes: nothing limits the prefix of a key, and its length is kept in eight bits.  Two items whose keys share a
valid prefix of at least 256 bytes cannot be stored: the second meets `assert(_prefix_find(...) == NULL)`, for every hash function. -/
theorem C29_long_prefix_false (cfg : Cfg) (p k1 k2 : List Nat) (hp : GoodName p) (hlong : 256 ≤ p.length) (hd : cfg.delim ∉ p) :
    (answers (step cfg) init [.link 0 (p ++ cfg.delim :: k1) 0 100 0 true]).isSome = true ∧
    answers (step cfg) init [.link 0 (p ++ cfg.delim :: k1) 0 100 0 true, .link 1 (p ++ cfg.delim :: k2) 0 100 0 true] = none := by
  have hne : ∀ k, p ++ cfg.delim :: k ≠ [] := by intro k; simp
  have hfd : ∀ k, firstDelim cfg.delim (p ++ cfg.delim :: k) = some p.length := by
    intro k
    cases p with
    | nil => simp at hlong
    | cons a r =>
      have hr : cfg.delim ∉ r := fun h => hd (List.mem_cons_of_mem _ h)
      have : (r ++ cfg.delim :: k).takeWhile (· != cfg.delim) = r := by
        rw [List.takeWhile_append_of_pos (by intro x hx; simp; rintro rfl; exact hr hx)]
        simp
      simp [firstDelim, this]; omega
  have htk : ∀ k, (p ++ cfg.delim :: k).take p.length = p := by intro k; simp
  have hval : ∀ k, Verif.Util.isValidName (p ++ cfg.delim :: k) p.length = some true := by
    intro k
    have := isValidName_iff (key := p ++ cfg.delim :: k) (n := p.length) (by omega) (by simp)
    rw [htk] at this
    rcases this with ⟨h1, -⟩ | ⟨-, h1⟩
    · exact h1
    · exact absurd hp h1
  let pt : Pt := ⟨p, p.length % 256, isRsvd (p ++ cfg.delim :: k1) p.length, true, 0, Acct.zero.incr 0 (100 % w32)⟩
  let s1 : St := { init with
    heap := upd (upd init.heap 0 (some { pt with acct := .zero })) 0 (some pt), fresh := 1
    table := upd init.table (bucket (cfg.hash p)) [0], total := (0 + 1) % w32
    items := upd init.items 0 (some ⟨p ++ cfg.delim :: k1, 0, 100, 0, some 0⟩), currItems := add64 0 1, currBytes := add64 0 100 }
  have h1 : step cfg init (.link 0 (p ++ cfg.delim :: k1) 0 100 0 true) = some (s1, .ok) := by
    simp only [step, link, hne, if_false, getPrefix, hfd, htk, hval, find, init, findChain, insertPt, withAcct]
    rfl
  have hfind : ∀ nm n, find s1 nm n (cfg.hash p) = some (if named pt nm n then some 0 else none) := by
    intro nm n
    have e1 : s1.table (bucket (cfg.hash p)) = [0] := upd_same _ _ _
    have e2 : s1.heap 0 = some pt := rfl
    unfold find
    rw [e1]
    simp only [findChain, e2]
    split <;> rfl
  have h2 : step cfg s1 (.link 1 (p ++ cfg.delim :: k2) 0 100 0 true) = none := by
    have n1 : named pt (p ++ cfg.delim :: k2) p.length = false := by
      unfold named
      have : ¬ p.length = p.length % 256 := by omega
      simp [pt, this]
    have n2 : named pt p (p.length % 256) = true := by simp [named, pt]
    have e1 : getPrefix cfg s1 (p ++ cfg.delim :: k2) true = none := by
      simp only [getPrefix, hfd, htk, hval, hfind, n1, insertPt, n2]
      rfl
    simp only [step, link, hne, if_false, e1]
  constructor
  · simp [answers, h1]
  · simp [answers, h1, h2]

/-- A prefix of 256 letters. -/
example : GoodName (List.replicate 256 97) ∧ 256 ≤ (List.replicate 256 97).length ∧ (58 : Nat) ∉ List.replicate 256 97 := by
  refine ⟨?_, by decide +kernel, by decide +kernel⟩
  unfold GoodName NameByte; decide +kernel

/-- C29 fails for long prefixes: with such a prefix a single item leaves its prefix behind, which is counted without having items (here the
hash is the length of the name). -/
theorem C29_left_behind_false :
    answers (step ⟨58, List.length⟩) init [.link 0 (List.replicate 256 97 ++ [58]) 0 100 0 true, .unlink 0, .count, .totals] =
      some [.ok, .ok, .count 1, .totals 0 0] := by
  decide +kernel

/-- C29 fails for collections of 4 GiB: their size is kept in 32 bits and wraps; when the collection is deleted
`assert(pt->total_bytes_exclusive == 0)` fails. -/
theorem C29_big_collection_false :
    answers (step cfg1) init [.link 0 key1 1 100 0 true, .grow 0 (2 ^ 31), .grow 0 (2 ^ 31), .unlink 0] = none ∧
    answers (step cfg1) init [.link 0 key1 1 100 0 true, .grow 0 (2 ^ 31), .unlink 0] = some [.ok, .ok, .ok] := by
  decide +kernel

/-- C29 fails when an item is replaced by one of another type, as the recovery does (`item_apply_kv_link`, items.c 1741): the bytes are
booked under the type of the old item. -/
theorem C29_other_type_false :
    answers (step cfg1) init [.link 0 key1 1 100 0 true, .replace 0 1 key1 0 150 0, .statsAll] =
      some [.ok, .ok, .stats [(some [97], (1, [0, 1, 0, 0, 0]), (150, [0, 150, 0, 0, 0]))]] := by
  decide +kernel

/-! ## C46: prefix scans -/

/-- Runs between two specification states. -/
inductive Seg (d : Nat) (hash : List Nat → Nat) : S → List (Op × Rep) → S → Prop where
  | nil {σ} : Seg d hash σ [] σ
  | cons {σ op r σ1 t σ'} : Step d hash σ op r σ1 → Seg d hash σ1 t σ' → Seg d hash σ ((op, r) :: t) σ'

theorem Seg.append {d : Nat} {hash : List Nat → Nat} {σ σ1 σ2 : S} {t1 t2 : List (Op × Rep)} (h1 : Seg d hash σ t1 σ1)
    (h2 : Seg d hash σ1 t2 σ2) : Seg d hash σ (t1 ++ t2) σ2 := by
  induction h1 with
  | nil => exact h2
  | cons b _ ih => exact .cons b (ih h2)

theorem Seg.split {d : Nat} {hash : List Nat → Nat} {σ σ2 : S} {t1 t2 : List (Op × Rep)} (h : Seg d hash σ (t1 ++ t2) σ2) :
    ∃ σ1, Seg d hash σ t1 σ1 ∧ Seg d hash σ1 t2 σ2 := by
  induction t1 generalizing σ with
  | nil => exact ⟨σ, .nil, h⟩
  | cons x t1 ih =>
    cases h with
    | cons b c =>
      obtain ⟨σ1, k1, k2⟩ := ih c
      exact ⟨σ1, .cons b k1, k2⟩

theorem Seg.of_run {d : Nat} {hash : List Nat → Nat} {c : Client Op Rep} {t : List (Op × Rep)}
    {σ : S} (h : SpecRun (Step d hash) start c t σ) : Seg d hash start t σ := by
  induction h with
  | nil => exact .nil
  | snoc h1 h2 ih => exact ih.append (.cons h2 .nil)

/-- An item is neither unlinked nor replaced. -/
def Kept (id : Nat) (t : List (Op × Rep)) : Prop :=
  ∀ x ∈ t, x.1 ≠ .unlink id ∧ ∀ new key ty base stotal, x.1 ≠ .replace id new key ty base stotal

/-- A caller follows the cursors from `c` until 0 is returned, with other calls in between; the names it is given, scan by scan. -/
inductive Follows : Nat → List (Op × Rep) → List (List (Option (List Nat))) → Prop where
  | last {c req arr l} : Follows c [(.scan c req arr, .scan l 0)] [l.map (·.2)]
  | more {c req arr l next t ls} : next ≠ 0 → Follows next t ls → Follows c ((.scan c req arr, .scan l next) :: t) (l.map (·.2) :: ls)
  | other {c x t ls} : Follows c t ls → Follows c (x :: t) ls

theorem kept_step {d : Nat} {hash : List Nat → Nat} {σ σ' : S} {op : Op} {r : Rep} (h : Step d hash σ op r σ') {id : Nat} {p : Option (List Nat)}
    (h1 : op ≠ .unlink id) (h2 : ∀ new key ty base stotal, op ≠ .replace id new key ty base stotal)
    (hx : ∃ x ∈ σ.items, x.id = id ∧ owner d x.key = p) : ∃ x ∈ σ'.items, x.id = id ∧ owner d x.key = p := by
  obtain ⟨x, hx, hid, hk⟩ := hx
  cases op with
  | link =>
    rcases h with ⟨-, rfl, -⟩ | ⟨-, -, -, rfl, -⟩
    · exact ⟨x, List.mem_cons_of_mem _ hx, hid, hk⟩
    · exact ⟨x, hx, hid, hk⟩
  | unlink i =>
    obtain ⟨-, rfl⟩ := h
    refine ⟨x, List.mem_filter.mpr ⟨hx, ?_⟩, hid, hk⟩
    have : x.id ≠ i := by rintro rfl; exact h1 (by rw [hid])
    simpa using this
  | grow i n =>
    obtain ⟨-, rfl⟩ := h
    refine ⟨_, List.mem_map_of_mem hx, ?_, ?_⟩ <;> split <;> assumption
  | shrink i n =>
    obtain ⟨-, rfl⟩ := h
    refine ⟨_, List.mem_map_of_mem hx, ?_, ?_⟩ <;> split <;> assumption
  | replace old new key ty base stotal =>
    obtain ⟨-, rfl⟩ := h
    have : x.id ≠ old := by rintro rfl; exact h2 new key ty base stotal (by rw [hid])
    exact ⟨_, List.mem_map_of_mem hx, by rw [if_neg this]; exact hid, by rw [if_neg this]; exact hk⟩
  | statsAll => obtain ⟨rfl, -⟩ := h; exact ⟨x, hx, hid, hk⟩
  | statsOf => obtain ⟨rfl, -⟩ := h; exact ⟨x, hx, hid, hk⟩
  | count => obtain ⟨rfl, -⟩ := h; exact ⟨x, hx, hid, hk⟩
  | totals => obtain ⟨rfl, -⟩ := h; exact ⟨x, hx, hid, hk⟩
  | scan => obtain ⟨l, next, -, -, rfl, -⟩ := h; exact ⟨x, hx, hid, hk⟩
  | release => obtain ⟨-, nm, l1, l2, -, rfl⟩ := h; exact ⟨x, hx, hid, hk⟩
  | name => obtain ⟨rfl, -⟩ := h; exact ⟨x, hx, hid, hk⟩

theorem Seg.kept {d : Nat} {hash : List Nat → Nat} {σ σ' : S} {t : List (Op × Rep)} (h : Seg d hash σ t σ') {id : Nat} {p : Option (List Nat)}
    (hk : Kept id t) (hx : ∃ x ∈ σ.items, x.id = id ∧ owner d x.key = p) : ∃ x ∈ σ'.items, x.id = id ∧ owner d x.key = p := by
  induction h with
  | nil => exact hx
  | cons b _ ih =>
    have := hk _ List.mem_cons_self
    exact ih (fun y hy => hk y (List.mem_cons_of_mem _ hy)) (kept_step b this.1 this.2 hx)

theorem place_lt (hash : List Nat → Nat) (p : Option (List Nat)) : place hash p < 1024 := by
  cases p with
  | none => simp [place]
  | some p => exact Nat.mod_lt _ (by decide)

theorem Seg.follow {d : Nat} {hash : List Nat → Nat} {σ σ' : S} {t : List (Op × Rep)} (h : Seg d hash σ t σ') {id : Nat} {p : Option (List Nat)}
    (hp : p ≠ some internalName) (hk : Kept id t) (hx : ∃ x ∈ σ.items, x.id = id ∧ owner d x.key = p) {c : Nat} (hc : c < 1024)
    {ls : List (List (Option (List Nat)))} (hf : Follows c t ls) : ls.flatten.count p = if c ≤ place hash p then 1 else 0 := by
  have hone : ∀ {σ σ' : S} {req arr next : Nat} {l : List (Option Nat × Option (List Nat))}, (∃ x ∈ σ.items, x.id = id ∧ owner d x.key = p) →
      ∀ {c : Nat}, c < 1024 → Step d hash σ (.scan c req arr) (.scan l next) σ' →
      (l.map (·.2)).count p = (if c ≤ place hash p ∧ (next = 0 ∨ place hash p < next) then 1 else 0) ∧ (next = 0 ∨ c < next ∧ next < 1024) := by
    intro σ σ' req arr next l hx c hc hs
    obtain ⟨l', next', e, -, -, hn, hnx, hm⟩ := hs
    simp only [Rep.scan.injEq] at e
    obtain ⟨rfl, rfl⟩ := e
    refine ⟨?_, hnx⟩
    obtain ⟨x, hx, -, ho⟩ := hx
    have hne : under d σ p ≠ [] := List.ne_nil_of_mem (mem_under.mpr ⟨hx, ho⟩)
    have := hm p
    split
    · rename_i h1
      have hin := this.mpr ⟨hne, hp, h1.1, h1.2, hc⟩
      have := List.nodup_iff_count.mp hn p
      have := List.count_pos_iff.mpr hin
      omega
    · rename_i h1
      rw [List.count_eq_zero]
      intro h2
      obtain ⟨-, -, h3, h4, -⟩ := this.mp h2
      exact h1 ⟨h3, h4⟩
  induction hf generalizing σ with
  | @last c req arr l =>
    cases h with
    | cons b _ =>
      obtain ⟨h1, -⟩ := hone hx hc b
      simp only [List.flatten_cons, List.flatten_nil, List.append_nil]
      rw [h1]; simp
  | @more c req arr l next t ls hne _ ih =>
    cases h with
    | cons b rest =>
      obtain ⟨h1, h2⟩ := hone hx hc b
      have hk1 := hk _ List.mem_cons_self
      have := ih rest (fun y hy => hk y (List.mem_cons_of_mem _ hy)) (kept_step b hk1.1 hk1.2 hx) (by omega)
      rw [List.flatten_cons, List.count_append, h1, this]
      have := place_lt hash p
      repeat' split
      all_goals omega
  | other _ ih =>
    cases h with
    | cons b rest =>
      have hk1 := hk _ List.mem_cons_self
      exact ih rest (fun y hy => hk y (List.mem_cons_of_mem _ hy)) (kept_step b hk1.1 hk1.2 hx) hc

/-- C46: a caller that follows the cursors of a prefix scan from 0 until 0 is returned gets every prefix that keeps an item all the time
exactly once, whatever else is called in between (the internal prefix "arcus" is not shown). -/
theorem C46_exactly_once (cfg : Cfg) (cl : Client Op Rep) (hc : LegalClient (Step cfg.delim cfg.hash) (Legal cfg.delim cfg.hash) start cl)
    {n : Nat} {s : St} {a b c e : List (Op × Rep)} {id : Nat} {key : List Nat} {ty base stotal : Nat} {mem : Bool} {ls : List (List (Option (List Nat)))}
    (h : play (step cfg) init cl n = some (s, a ++ (.link id key ty base stotal mem, .ok) :: b ++ c ++ e))
    (hb : Kept id b) (hk : Kept id c) (hp : owner cfg.delim key ≠ some internalName) (hf : Follows 0 c ls) :
    ls.flatten.count (owner cfg.delim key) = 1 := by
  obtain ⟨σ, hr, -⟩ := play_run hc h
  obtain ⟨σ3, hs, -⟩ := (Seg.of_run hr).split
  obtain ⟨σ2, hs, h2⟩ := hs.split
  obtain ⟨σ1, -, hs⟩ := hs.split
  cases hs with
  | cons k1 hs =>
    rcases k1 with ⟨-, rfl, -⟩ | ⟨p, -, -, -, ⟨h3, -⟩ | ⟨h3, -⟩⟩
    · have hx := hs.kept (p := owner cfg.delim key) hb ⟨_, List.mem_cons_self, rfl, rfl⟩
      rw [h2.follow hp hk hx (by decide) hf, if_pos (Nat.zero_le _)]
    · cases h3
    · cases h3

/-- Example client: an item with prefix "a" is linked, and all prefixes are scanned. -/
def demo2 : Client Op Rep := fun t =>
  if t.length = 0 then .link 0 key1 1 100 20 true else if t.length = 1 then .scan 0 256 356 else .count

theorem demo2_items {hash : List Nat → Nat} {t : List (Op × Rep)} {σ : S} (h : SpecRun (Step 58 hash) start demo2 t σ) :
    (t.length ≤ 1 → σ.held = []) ∧ σ.items = if t.length = 0 then [] else [⟨0, key1, 1, 100, 20⟩] := by
  induction h with
  | nil => exact ⟨fun _ => rfl, rfl⟩
  | @snoc t σ r σ' _ hs ih =>
    have hlen : (t ++ [(demo2 t, r)]).length = t.length + 1 := by simp
    rw [hlen, if_neg (by omega)]
    unfold demo2 at hs
    by_cases h0 : t.length = 0
    · rw [if_pos h0] at hs ih
      rcases hs with ⟨-, rfl, -⟩ | ⟨p, h1, -, -, h2⟩
      · simp [ih, h0]
      · exfalso
        have : owner 58 key1 = some [97] := by decide
        rw [this] at h1; cases h1
        rcases h2 with ⟨-, h2⟩ | ⟨-, -, h2⟩
        · exact h2 (by unfold GoodName NameByte; decide)
        · cases h2
    · rw [if_neg h0] at hs ih
      refine ⟨fun h => by omega, ?_⟩
      by_cases h1 : t.length = 1
      · rw [if_pos h1] at hs
        obtain ⟨l, next, -, -, rfl, -⟩ := hs
        exact ih.2
      · rw [if_neg h1] at hs
        obtain ⟨rfl, -⟩ := hs
        exact ih.2

theorem demo2_legal (hash : List Nat → Nat) : LegalClient (Step 58 hash) (Legal 58 hash) start demo2 := by
  intro t σ h
  have hi := demo2_items h
  unfold demo2
  by_cases h0 : t.length = 0
  · rw [if_pos h0] at hi ⊢
    refine ⟨by simp [hi], by decide, ?_, by decide, by decide, by decide, by simp [hi]⟩
    intro p hp
    have : owner 58 key1 = some [97] := by decide
    rw [this] at hp; cases hp; decide
  · rw [if_neg h0] at hi ⊢
    by_cases h1 : t.length = 1
    · rw [if_pos h1]
      refine ⟨by decide, by decide, ?_, ?_⟩
      · intro b
        unfold crowd
        rw [hi.2]
        simp only [List.map_cons, List.map_nil, List.filter_cons, List.filter_nil]
        split <;> simp [List.eraseDups_cons]
      · intro i; rw [hi.1 (by omega)]; simp
    · rw [if_neg h1]; trivial

/-- Example for `C46_exactly_once` and `C28_prefix_inside_partial`. -/
example : ∃ s, play (step cfg1) init demo2 2 =
      some (s, [] ++ (.link 0 key1 1 100 20 true, .ok) :: [] ++ [(.scan 0 256 356, .scan [(some 0, some [97])] 0)] ++ []) ∧
    Follows 0 [(.scan 0 256 356, .scan [(some 0, some [97])] 0)] [[some [97]]] ∧ owner 58 key1 = some [97] := by
  have h : (play (step cfg1) init demo2 2).map (·.2) =
      some [(.link 0 key1 1 100 20 true, .ok), (.scan 0 256 356, .scan [(some 0, some [97])] 0)] := by decide +kernel
  cases hp : play (step cfg1) init demo2 2 with
  | none => rw [hp] at h; cases h
  | some st =>
    rw [hp] at h
    simp only [Option.map_some, Option.some.injEq] at h
    refine ⟨st.1, ?_, .last, by decide⟩
    rw [show st = (st.1, st.2) from rfl, h]
    rfl

/-! ## C28: the array of a prefix scan -/

/-- C28 for prefixes: a prefix scan stays inside its array, if the part of the array that is not asked for, and one more entry, has room
for the prefixes of any bucket. -/
theorem C28_prefix_inside_partial (cfg : Cfg) (cl : Client Op Rep) (hc : LegalClient (Step cfg.delim cfg.hash) (Legal cfg.delim cfg.hash) start cl)
    {n : Nat} {s : St} {t : List (Op × Rep)} (h : play (step cfg) init cl n = some (s, t)) :
    ∃ σ, SpecRun (Step cfg.delim cfg.hash) start cl t σ ∧ ∀ cur req arr, 0 < req → req ≤ arr → (∀ b, req + crowd cfg.delim cfg.hash σ b ≤ arr + 1) →
      (∀ i, (σ.held.filter fun h => decide (h.1 = some i)).length < 65535) →
      ∃ s' l next, step cfg s (.scan cur req arr) = some (s', .scan l next) ∧ l.length ≤ arr := by
  obtain ⟨σ, hr, hR⟩ := play_run hc h
  refine ⟨σ, hr, ?_⟩
  intro cur req arr h1 h2 h3 h4
  obtain ⟨s', r, σ', k1, ⟨l, next, rfl, k2, -⟩, -⟩ := hR.scan (cur := cur) ⟨h1, h2, h3, h4⟩
  exact ⟨s', l, next, k1, k2⟩

/-- C28 fails for prefixes: a chain is stored to its end, whatever room there is. -/
theorem C28_prefix_outside_false :
    answers (step cfg1) init [.link 0 [97, 58] 0 1 0 true, .link 1 [97, 97, 58] 0 1 0 true, .link 2 [97, 98, 58] 0 1 0 true, .scan 97 1 2] = none ∧
    (answers (step cfg1) init [.link 0 [97, 58] 0 1 0 true, .link 1 [97, 97, 58] 0 1 0 true, .link 2 [97, 98, 58] 0 1 0 true, .scan 97 1 3]).isSome = true := by
  decide +kernel

end Verif.Prefix.Props
