import Verif.Lemmas.HTreeStep
import Verif.Spec.Run
/-!
# Properties C12 to C15: the set and map commands
-/
namespace Verif.HT.Props
open Verif.HT Verif.HT.Spec Verif.Run

/-- An answer: the reply, and what a client reads through element handles after the call. -/
abbrev Obs := Rep × (Nat → Option KV)

/-- One call of the model with what the client sees. -/
def callStep (k : Kind) (cfg : Cfg) (s : St) (op : Op) : Option (St × Obs) :=
  (step k cfg s op).map fun p => (p.1, p.2, kv p.1.heap)

/-- Specification state with the element references clients hold. -/
abbrev SH := S × (Nat → Nat)

/-- No collection, no references. -/
def start0 : SH := (start, fun _ => 0)

/-- Specification of a call with the references it hands out. -/
def SpecStep (k : Kind) (mx : Nat) (σ : SH) (op : Op) (o : Obs) (σ' : SH) : Prop :=
  Step k mx σ.1 op o.1 o.2 σ'.1 ∧ σ'.2 = heldStep σ.2 op o.1

theorem implements (k : Kind) (cfg : Cfg) (hmx : 4000 ≤ cfg.maxSize) :
    Implements (callStep k cfg) init (SpecStep k cfg.maxSize) (fun σ op => Legal k cfg σ.1 σ.2 op) start0 := by
  refine of_simulation (fun σ s => R k cfg σ.1 s σ.2) (R_init k cfg) ?_
  rintro ⟨σ, h⟩ s op hR hL
  obtain ⟨s', r, σ', k1, k2, k3, -⟩ := step_sim hmx hR hL
  exact ⟨s', (r, kv s'.heap), (σ', heldStep h op r), by simp [callStep, k1], ⟨k2, rfl⟩, k3⟩

/-- C12: the set commands behave like operations on a finite set, for every hash function, history and set size;
no call faults.  Partial: 64 or more values agreeing in 28 bits of their hash value are excluded
(`C12_collisions_false` shows that the code does fault then). -/
theorem C12_set_partial (cfg : Cfg) (hmx : 4000 ≤ cfg.maxSize) :
    Implements (callStep .set cfg) init (SpecStep .set cfg.maxSize) (fun σ op => Legal .set cfg σ.1 σ.2 op) start0 :=
  implements .set cfg hmx

/-- C14: the map commands behave like operations on a finite map.  Partial: as C12, and a get without delete names
each field once (`C15_repeated_false`). -/
theorem C14_map_partial (cfg : Cfg) (hmx : 4000 ≤ cfg.maxSize) :
    Implements (callStep .map cfg) init (SpecStep .map cfg.maxSize) (fun σ op => Legal .map cfg σ.1 σ.2 op) start0 :=
  implements .map cfg hmx

/-- Elements handed out by a get keep their contents until their last release, whatever is deleted, replaced,
updated or removed meanwhile. -/
theorem C12_C14_values (k : Kind) (cfg : Cfg) (hmx : 4000 ≤ cfg.maxSize) : ∃ Rel : SH → St → Prop,
    Rel start0 init ∧
    ∀ σ s, Rel σ s → ∀ op, Legal k cfg σ.1 σ.2 op → ∃ s' r σ', step k cfg s op = some (s', r) ∧
      SpecStep k cfg.maxSize σ op (r, kv s'.heap) σ' ∧ Rel σ' s' ∧
      ∀ i, 0 < σ.2 i → 0 < σ'.2 i → ∃ v, kv s.heap i = some v ∧ kv s'.heap i = some v := by
  refine ⟨fun σ s => R k cfg σ.1 s σ.2, R_init k cfg, ?_⟩
  rintro ⟨σ, h⟩ s hR op hL
  obtain ⟨s', r, σ', k1, k2, k3, k4⟩ := step_sim hmx hR hL
  refine ⟨s', r, (σ', heldStep h op r), k1, ⟨k2, rfl⟩, k3, ?_⟩
  intro i h1 h2
  obtain ⟨L, m, -⟩ := hR
  have h3 : (s'.heap i).isSome := by
    obtain ⟨L', m', -⟩ := k3
    have h4 := m'.hld i h2
    cases hx : s'.heap i with
    | none => rw [hx] at h4; simp at h4
    | some e => rfl
  have h5 := k4 i h1 h3
  obtain ⟨e, he⟩ := Option.isSome_iff_exists.mp h3
  refine ⟨(e.key, e.val), ?_, by simp [kv, he]⟩
  rw [← h5]; simp [kv, he]

/-- Attributes for the examples. -/
def at0 : Attr := ⟨0, true, false, 7⟩

/-- Example: a set of two values; a duplicate; membership; a read of everything; removal of both. -/
example : answers (step .set ⟨4000, genhash⟩) init
    [.alloc [97] [], .insert 0 false (some at0) true true false, .alloc [98] [], .insert 1 false none true true false,
     .alloc [97] [], .insert 2 false none true true false, .free 2, .exist [98], .exist [99],
     .getRandom 0 false false true true (fun _ => 0) 0, .delete [[97]] true, .getRandom 5 true true true true (fun _ => 0) 0,
     .exist [97], .release 0, .release 1, .release 1] =
    some [.allocated 0, .inserted true false, .allocated 1, .inserted false false, .allocated 2, .elemEexists, .ok,
      .exist true, .exist false, .elems 7 [0, 1] false, .deleted 1 false, .elems 7 [1] true, .enoent, .ok, .ok, .ok] := by
  decide +kernel

/-- Example: a map with two fields; a refused duplicate, a replacement, an update in place and by a new element, reads
of fields in the order asked, removal. -/
example : answers (step .map ⟨4000, genhash⟩) init
    [.alloc [97] [1], .insert 0 false (some at0) true true false, .alloc [98] [2], .insert 1 false none true true false,
     .alloc [97] [3], .insert 2 false none true true false, .insert 2 true none true true false,
     .update [98] [9] true false, .update [98] [9, 9] true false, .update [99] [1] true false,
     .getFields [[98], [99], [97]] false false true, .delete [[97], [97], [98]] true, .getattr] =
    some [.allocated 0, .inserted true false, .allocated 1, .inserted false false, .allocated 2, .elemEexists,
      .inserted false true, .ok, .ok, .elemEnoent, .elems 7 [3, 2] false, .deleted 2 true, .enoent] := by
  decide +kernel

/-! ## The maximum count -/

/-- Never more elements than the maximum, which is at most the configured one. -/
def Bounded (mx : Nat) (σ : SH) : Prop :=
  ∀ c, σ.1.coll = some c → c.elems.length ≤ c.cap mx ∧ c.cap mx ≤ mx

/-- Fields (values, in a set) are distinct. -/
def Distinct (σ : SH) : Prop := ∀ c, σ.1.coll = some c → (c.elems.map Prod.fst).Nodup

/-- C12, C14: every attribute reply has `count ≤ maxcount ≤` the configured maximum. -/
theorem C12_C14_bound (k : Kind) (cfg : Cfg) (hmx : 4000 ≤ cfg.maxSize) : ∃ Rel : SH → St → Prop,
    Rel start0 init ∧
    (∀ σ s, Rel σ s → ∀ op, Legal k cfg σ.1 σ.2 op → ∃ s' r σ', step k cfg s op = some (s', r) ∧
      SpecStep k cfg.maxSize σ op (r, kv s'.heap) σ' ∧ Rel σ' s') ∧
    ∀ σ s, Rel σ s → Bounded cfg.maxSize σ ∧ Distinct σ := by
  refine ⟨fun σ s => R k cfg σ.1 s σ.2, R_init k cfg, ?_, ?_⟩
  · rintro ⟨σ, h⟩ s hR op hL
    obtain ⟨s', r, σ', k1, k2, k3, -⟩ := step_sim hmx hR hL
    exact ⟨s', r, (σ', heldStep h op r), k1, ⟨k2, rfl⟩, k3⟩
  · rintro ⟨σ, h⟩ s ⟨L, m, hc⟩
    rcases hc with ⟨-, h2, -⟩ | ⟨info, c, -, h2, r⟩
    · exact ⟨fun c hc => by (have := h2.symm.trans hc; cases this), fun c hc => by (have := h2.symm.trans hc; cases this)⟩
    · refine ⟨fun c' hc => ?_, fun c' hc => ?_⟩ <;> (simp only at hc; rw [h2] at hc; injection hc with hc; subst hc)
      · refine ⟨r.le, ?_⟩
        unfold C.cap
        cases hq : c.maxcount with
        | none => exact Nat.le_refl _
        | some n => exact (r.mpos n hq).2
      · exact r.keys

/-! ## C13: random reads -/

/-- C13: what a random read may answer, for every source of random numbers: exactly the requested number of elements
(all of them for 0, or if fewer exist), pairwise different, all members; and with `delete` exactly these are gone. -/
theorem C13_random {mx : Nat} {σ σ' : S} {c : C} {count : Nat} {del drop hmem : Bool} {rnd : Nat → Nat} {rounds : Nat}
    {flags : Nat} {ids : List Nat} {dropped : Bool} {val : Nat → Option KV} (hc : σ.coll = some c) (hd : (c.elems.map Prod.fst).Nodup)
    (hs : Step .set mx σ (.getRandom count del drop true hmem rnd rounds) (.elems flags ids dropped) val σ') :
    ∃ outs : List KV, ids.map val = outs.map some ∧ outs.Nodup ∧ (∀ p ∈ outs, p ∈ c.elems) ∧
      outs.length = takes count c.elems.length ∧ flags = c.flags ∧
      (del = false → σ' = σ) ∧
      (del = true → ∃ rest, c.elems.Perm (outs ++ rest) ∧
        σ'.coll = (if rest = [] ∧ drop = true then none else some { c with elems := rest })) := by
  simp only [Step, hc] at hs
  split at hs
  · simp at hs
  · split at hs
    · simp at hs
    · rw [if_neg (by decide)] at hs
      rcases hs with ⟨ids', outs, h1, h2, h3, h4, -, h5⟩ | ⟨-, -, h | ⟨h, -⟩⟩
      · split at h5
        · rename_i hdel
          simp only [Rep.elems.injEq] at h5
          obtain ⟨⟨rfl, rfl, rfl⟩, rfl⟩ := h5
          refine ⟨outs, h4, h1, h2, h3, rfl, fun h => by simp [h] at hdel, fun _ => ⟨without c.elems (outs.map Prod.fst), ?_, rfl⟩⟩
          have hnd : c.elems.Nodup := List.Pairwise.of_map Prod.fst (fun a b h e => h (by rw [e])) hd
          rw [List.perm_ext_iff_of_nodup hnd]
          · intro p
            simp only [List.mem_append, without, List.mem_filter, decide_eq_true_eq]
            constructor
            · intro hp
              by_cases hq : p.1 ∈ outs.map Prod.fst
              · left
                obtain ⟨q, q1, q2⟩ := List.mem_map.mp hq
                have : q = p := by
                  have h7 : ∀ (l : List KV), (l.map Prod.fst).Nodup → q ∈ l → p ∈ l → q.1 = p.1 → q = p := by
                    intro l
                    induction l with
                    | nil => intro _ h; cases h
                    | cons x xs ih =>
                      intro hn m1 m2 he
                      simp only [List.map_cons, List.nodup_cons, List.mem_map, not_exists, not_and] at hn
                      rcases List.mem_cons.mp m1 with e1 | n1 <;> rcases List.mem_cons.mp m2 with e2 | n2
                      · rw [e1, e2]
                      · exact absurd (by rw [← he, e1]) (hn.1 p n2)
                      · exact absurd (by rw [he, e2]) (hn.1 q n1)
                      · exact ih hn.2 n1 n2 he
                  exact h7 _ hd (h2 q q1) hp q2
                rw [← this]; exact q1
              · exact Or.inr ⟨hp, hq⟩
            · rintro (hp | ⟨hp, -⟩)
              · exact h2 p hp
              · exact hp
          · rw [List.nodup_append]
            refine ⟨h1, hnd.filter _, ?_⟩
            rintro a ha b hb rfl
            simp only [without, List.mem_filter, decide_eq_true_eq] at hb
            exact hb.2 (List.mem_map_of_mem ha)
        · rename_i hdel
          simp only [Rep.elems.injEq] at h5
          obtain ⟨⟨rfl, rfl, rfl⟩, rfl⟩ := h5
          exact ⟨outs, h4, h1, h2, h3, rfl, fun _ => rfl, fun h => absurd h hdel⟩
      · cases h
      · cases h

/-- Example: draws of 1 out of 12 with a source that answers the same number again and again, and then of 3 out of 12
(sampling), and a removal of 2. -/
example : answers (step .set ⟨4000, genhash⟩) init
    (((List.range 12).map fun i => [.alloc [97 + i] [], .insert i false (some at0) true true false]).flatten ++
     [.getRandom 1 false false true true (fun _ => 5) 3, .getRandom 3 false false true true (fun p => p) 0,
      .getRandom 2 true false true true (fun _ => 1) 0, .getattr]) =
    some (((List.range 12).map fun i => [.allocated i, .inserted (i == 0) false]).flatten ++
     [.elems 7 [2] false, .elems 7 [1, 4, 3] false, .elems 7 [3, 6] false, .attrs 10 4000 1 true]) := by decide +kernel

/-! ### The draw with the table of offsets cannot get stuck -/

/-- Number of keys in the first `n` buckets. -/
def load (b : Nat → List Nat) : Nat → Nat
  | 0 => 0
  | n + 1 => load b n + (b n).length

theorem load_upd (b : Nat → List Nat) (i : Nat) (l : List Nat) (n : Nat) :
    load (upd b i l) n + (if i < n then (b i).length else 0) = load b n + (if i < n then l.length else 0) := by
  induction n with
  | zero => simp [load]
  | succ n ih =>
    simp only [load]
    by_cases h : n = i
    · subst h
      simp only [upd_self]
      simp at ih ⊢
      omega
    · rw [upd_ne _ _ h]
      by_cases h2 : i < n
      · simp only [h2, if_true, show i < n + 1 by omega] at ih ⊢; omega
      · simp only [h2, if_false, show ¬ i < n + 1 by omega] at ih ⊢; omega

theorem empty_bucket {b : Nat → List Nat} {n : Nat} (h : load b n < n) : ∃ i, i < n ∧ b i = [] := by
  induction n with
  | zero => simp [load] at h
  | succ n ih =>
    simp only [load] at h
    by_cases h2 : b n = []
    · exact ⟨n, by omega, h2⟩
    · have : 0 < (b n).length := List.length_pos_iff.mpr h2
      obtain ⟨i, h3, h4⟩ := ih (by omega)
      exact ⟨i, by omega, h4⟩

theorem hashInsert_load {cap key : Nat} {b b' : Nat → List Nat} (hcap : 0 < cap) (h : hashInsert cap b key = some b') :
    load b' cap = load b cap + 1 := by
  unfold hashInsert at h
  simp only at h
  split at h
  · cases h
  · split at h
    · cases h
    · injection h with h; subst h
      have := load_upd b (key % cap) (b (key % cap) ++ [key]) cap
      rw [if_pos (Nat.mod_lt _ hcap), if_pos (Nat.mod_lt _ hcap)] at this
      simp only [List.length_append, List.length_singleton] at this
      omega

/-- Some source finishes the draw in as many more rounds as elements are missing. -/
theorem randHash_finish {h : Heap} {t : T} (hw : WF .set h t 0 0) {ccnt count cap : Nat} (hc : ccnt = (ids t).length)
    (hcap : count ≤ cap) (hcc : cap ≤ ccnt) (h0 : 0 < count) (p : Nat) :
    ∀ (n : Nat) (b : Nat → List Nat) (out : List Nat), load b cap = out.length → count ≤ out.length + n → ∀ rnd : Nat → Nat,
      ∃ rnd', (∀ q, q < p → rnd' q = rnd q) ∧ ∃ res, randHash rnd' t ccnt count cap n p b out = some (some res) := by
  intro n
  induction n generalizing p with
  | zero =>
    intro b out _ hle rnd
    refine ⟨rnd, fun _ _ => rfl, out, ?_⟩
    unfold randHash; rw [if_pos (by omega)]
  | succ n ih =>
    intro b out hl hle rnd
    by_cases hf : count ≤ out.length
    · exact ⟨rnd, fun _ _ => rfl, out, by unfold randHash; rw [if_pos hf]⟩
    · obtain ⟨i, h1, h2⟩ := empty_bucket (b := b) (n := cap) (by omega)
      have hm : i % cap = i := Nat.mod_eq_of_lt h1
      have hmc : i % ccnt = i := Nat.mod_eq_of_lt (by omega)
      have hins : hashInsert cap b i = some (upd b i [i]) := by simp [hashInsert, hm, h2]
      have hlt : i < (ids t).length := by omega
      obtain ⟨x, t', k1, -⟩ := at_spec (del := false) (by decide) hw i hlt
      have hl' := hashInsert_load (by omega) hins
      obtain ⟨rnd', g1, res, g2⟩ := ih (p + 1) (upd b i [i]) (out ++ [x]) (by simp [hl', hl]) (by simp; omega) (upd rnd p i)
      have hp : rnd' p = i := by rw [g1 p (by omega), upd_self]
      refine ⟨rnd', fun q hq => by rw [g1 q (by omega), upd_ne _ _ (by omega)], res, ?_⟩
      unfold randHash
      rw [if_neg hf]
      simp only
      rw [if_neg (by omega), hp, hmc, hins]
      simp only
      rw [k1]
      exact g2

/-- From any point of the draw some source finishes it. -/
theorem randHash_unstuck {h : Heap} {t : T} (hw : WF .set h t 0 0) {ccnt count cap : Nat} (hc : ccnt = (ids t).length)
    (hcap : count ≤ cap) (hcc : cap ≤ ccnt) (h0 : 0 < count) (rnd : Nat → Nat) :
    ∀ (rounds p : Nat) (b : Nat → List Nat) (out : List Nat), load b cap = out.length →
      ∃ rnd', (∀ q, q < p + rounds → rnd' q = rnd q) ∧ ∃ res, randHash rnd' t ccnt count cap (rounds + count) p b out = some (some res) := by
  intro rounds
  induction rounds with
  | zero =>
    intro p b out hl
    obtain ⟨rnd', g1, g2⟩ := randHash_finish hw hc hcap hcc h0 p count b out hl (by omega) rnd
    exact ⟨rnd', g1, by rw [Nat.zero_add]; exact g2⟩
  | succ rounds ih =>
    intro p b out hl
    by_cases hf : count ≤ out.length
    · exact ⟨rnd, fun _ _ => rfl, out, by unfold randHash; rw [if_pos hf]⟩
    · have hlt : rnd p % ccnt < (ids t).length := by rw [← hc]; exact Nat.mod_lt _ (by omega)
      obtain ⟨x, t', k1, -⟩ := at_spec (del := false) (by decide) hw _ hlt
      cases hi : hashInsert cap b (rnd p % ccnt) with
      | none =>
        obtain ⟨rnd', g1, res, g2⟩ := ih (p + 1) b out hl
        refine ⟨rnd', fun q hq => g1 q (by omega), res, ?_⟩
        rw [show rounds + 1 + count = (rounds + count) + 1 by omega]
        unfold randHash
        rw [if_neg hf]
        simp only
        rw [if_neg (by omega), g1 p (by omega), hi]
        exact g2
      | some b' =>
        have hl' := hashInsert_load (by omega) hi
        obtain ⟨rnd', g1, res, g2⟩ := ih (p + 1) b' (out ++ [x]) (by simp [hl', hl])
        refine ⟨rnd', fun q hq => g1 q (by omega), res, ?_⟩
        rw [show rounds + 1 + count = (rounds + count) + 1 by omega]
        unfold randHash
        rw [if_neg hf]
        simp only
        rw [if_neg (by omega), g1 p (by omega), hi]
        simp only
        rw [k1]
        exact g2

theorem load_nil (n : Nat) : load (fun _ => []) n = 0 := by
  induction n with
  | zero => rfl
  | succ n ih => simp [load, ih]

theorem finishGet_ne_running (s : St) (info : Info) (t : T) (ids : List Nat) (cap : Nat) (del drop : Bool) (s' : St) :
    finishGet .set s info t ids cap del drop ≠ some (s', .running) := by
  unfold finishGet
  intro h
  split at h
  · cases h
  · split at h
    · cases h
    · split at h
      · cases h
      · simp only at h
        split at h
        · simp at h
        · split at h
          · split at h <;> simp at h
          · simp at h

theorem running_case {info : Info} {t : T} {count : Nat} {del hmem : Bool} {rnd : Nat → Nat} {rounds : Nat}
    (h : setGet info t count del hmem rnd rounds = some .running) :
    ¬ (count ≥ info.ccnt ∨ count = 0) ∧ del = false ∧ count ≤ info.ccnt / 10 ∧ hmem = true := by
  unfold setGet at h
  by_cases h1 : count ≥ info.ccnt ∨ count = 0
  · rw [if_pos h1] at h; simp at h
  · rw [if_neg h1] at h
    cases del with
    | true => simp at h
    | false =>
      rw [if_neg (by decide)] at h
      by_cases h2 : count ≤ info.ccnt / 10
      · rw [if_pos h2] at h
        cases hmem with
        | false => simp at h
        | true => exact ⟨h1, rfl, h2, rfl⟩
      · rw [if_neg h2] at h
        split at h
        · cases h
        · simp at h

/-- C13: a random read never gets stuck.  Whatever numbers were drawn in the first `rounds` rounds, some further
numbers lead to an answer within `count` more rounds: the draw ends with probability one for any source that can
produce every number. -/
theorem C13_unstuck (cfg : Cfg) (hmx : 4000 ≤ cfg.maxSize) : ∃ Rel : SH → St → Prop,
    Rel start0 init ∧
    (∀ σ s, Rel σ s → ∀ op, Legal .set cfg σ.1 σ.2 op → ∃ s' r σ', step .set cfg s op = some (s', r) ∧
      SpecStep .set cfg.maxSize σ op (r, kv s'.heap) σ' ∧ Rel σ' s') ∧
    ∀ σ s, Rel σ s → ∀ count del hmem rnd rounds,
      Legal .set cfg σ.1 σ.2 (.getRandom count del false true hmem rnd rounds) →
      step .set cfg s (.getRandom count del false true hmem rnd rounds) = some (s, .running) →
      ∃ rnd', (∀ q, q < rounds → rnd' q = rnd q) ∧ ∃ s' flags ids,
        step .set cfg s (.getRandom count del false true hmem rnd' (rounds + count)) = some (s', .elems flags ids false) := by
  refine ⟨fun σ s => R .set cfg σ.1 s σ.2, R_init .set cfg, ?_, ?_⟩
  · rintro ⟨σ, h⟩ s hR op hL
    obtain ⟨s', r, σ', k1, k2, k3, -⟩ := step_sim hmx hR hL
    exact ⟨s', r, (σ', heldStep h op r), k1, ⟨k2, rfl⟩, k3⟩
  · rintro ⟨σ, h⟩ s hR count del hmem rnd rounds hL hrun
    have hR0 := hR
    obtain ⟨L, m, hc⟩ := hR
    rcases hc with ⟨h1, -, -⟩ | ⟨info, c, h1, h2, r⟩
    · simp [step, setElemGet, h1] at hrun
    · simp only [step, setElemGet, h1] at hrun
      by_cases a1 : (!info.readable) = true
      · rw [if_pos a1] at hrun; simp at hrun
      · rw [if_neg a1] at hrun
        by_cases a2 : info.ccnt = 0
        · rw [if_pos a2] at hrun; simp at hrun
        · rw [if_neg a2, if_neg (by decide)] at hrun
          cases hr : info.root with
          | none => rw [hr] at hrun; simp at hrun
          | some t =>
            rw [hr] at hrun
            simp only at hrun
            have hL' : L = ids t := by rw [r.rids, hr]; rfl
            obtain ⟨q1, q2⟩ := r.root t hr
            have hlen : info.ccnt = (ids t).length := by rw [r.ccnt, ← hL', ← r.vals.length_eq, vals_len m.alive]
            have hsg : setGet info t count del hmem rnd rounds = some .running := by
              revert hrun
              cases hg : setGet info t count del hmem rnd rounds with
              | none => simp
              | some g =>
                cases g with
                | running => simp
                | done t' ids' => simp only; intro hf; exact absurd hf (finishGet_ne_running _ _ _ _ _ _ _ _)
            obtain ⟨b1, b2, b3, b4⟩ := running_case hsg
            subst b2 b4
            obtain ⟨rnd', g1, res, g2⟩ := randHash_unstuck q2 hlen (show count ≤ 13 * count / 10 by omega) (show 13 * count / 10 ≤ info.ccnt by omega)
              (by omega) rnd rounds 0 (fun _ => []) [] (load_nil _)
            have hsg' : setGet info t count false true rnd' (rounds + count) = some (.done t res) := by
              unfold setGet
              rw [if_neg (by omega), if_neg (by decide), if_pos b3, if_neg (by decide), g2]
            refine ⟨rnd', fun q hq => g1 q (by omega), ?_⟩
            obtain ⟨s', r', σ', k1, k2, -⟩ := step_sim hmx (op := .getRandom count false false true true rnd' (rounds + count)) hR0 hL
            have hnr : r' ≠ .running := by
              rintro rfl
              simp only [step, setElemGet, h1] at k1
              rw [if_neg a1, if_neg a2, if_neg (by decide), hr] at k1
              simp only at k1
              rw [hsg'] at k1
              exact finishGet_ne_running _ _ _ _ _ _ _ _ k1
            have h2 : σ.coll = some c := h2
            have hel : c.elems ≠ [] := by intro h; apply a2; rw [r.ccnt, h]; rfl
            have hrd : ¬ c.readable = false := by intro h; apply a1; rw [r.readable, h]; rfl
            simp only [Step, h2] at k2
            rw [if_neg hrd, if_neg hel, if_neg (by decide)] at k2
            rcases k2 with ⟨ids', outs, -, -, -, -, -, h5⟩ | ⟨-, -, h | ⟨-, h⟩⟩
            · rw [if_neg (by decide)] at h5
              obtain ⟨rfl, -⟩ := h5
              exact ⟨s', _, _, k1⟩
            · exact absurd h hnr
            · cases h

/-! ## C12, C14: too many collisions -/

/-- The two spellings of each of seven pairs of bytes that leave `genhash_string_hash` in the same state. -/
def pairs : List (List Nat × List Nat) :=
  [([49, 64], [48, 97]), ([50, 64], [49, 99]), ([49, 64], [48, 97]), ([50, 64], [49, 99]), ([49, 64], [48, 97]),
   ([50, 64], [49, 99]), ([49, 64], [48, 97])]

/-- Values of 14 printable bytes with equal hash values. -/
def word (i : Nat) : List Nat :=
  ((List.range 7).zip pairs).flatMap fun p => if i / 2 ^ p.1 % 2 = 0 then p.2.1 else p.2.2

/-- The words are different and all have the hash value 3949425847. -/
theorem word_hash : ((List.range 128).map word).Nodup ∧ ∀ i ∈ List.range 128, genhash (word i) = 3949425847 := by
  constructor
  · decide +kernel
  · decide +kernel

/-- Calls that insert the first `n` words. -/
def storm (n : Nat) : List Op :=
  (List.range n).flatMap fun i => [.alloc (word i) [], .insert i false (some at0) true true false]

/-- The claim for all values is false: the hash function has easily constructed collisions; 70 colliding
values of 14 printable bytes are stored, the 71st makes the tree eight levels deep, where the slot of a hash value is
computed by an undefined shift (`SET_GET_HASHIDX`; with gcc the lookups get index -2 for this hash value). -/
theorem C12_collisions_false :
    (answers (step .set ⟨4000, genhash⟩) init (storm 70)).isSome = true ∧
    answers (step .set ⟨4000, genhash⟩) init (storm 71) = none := by
  constructor
  · decide +kernel
  · decide +kernel

/-- The same for the fields of a map. -/
theorem C14_collisions_false :
    (answers (step .map ⟨4000, genhash⟩) init (storm 70)).isSome = true ∧
    answers (step .map ⟨4000, genhash⟩) init (storm 71) = none := by
  constructor
  · decide +kernel
  · decide +kernel

/-! ## C15 -/

/-- C15 is false: a get with the same field twice writes two entries into an array of one (the array has as many
entries as the map has elements, coll_map.c 891-895). -/
theorem C15_repeated_false :
    answers (step .map ⟨4000, genhash⟩) init
      [.alloc [97] [1], .insert 0 false (some at0) true true false] = some [.allocated 0, .inserted true false] ∧
    answers (step .map ⟨4000, genhash⟩) init
      [.alloc [97] [1], .insert 0 false (some at0) true true false, .getFields [[97], [97]] false false true] = none :=
  ⟨by decide +kernel, by decide +kernel⟩

end Verif.HT.Props
