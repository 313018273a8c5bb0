import Verif.Lemmas.ItemDemo
import Verif.Model.Realtime
/-!
# Properties C01–C09 and C30: the key-value commands, flushes and item memory

Histories are `Path`s: sequences of engine calls, each legal for the protocol layer (`Spec.Legal`),
executed by the model (`step`) and paired with the map specification (`Spec.Step`).
`C01_simulation` and `C01_history` say that every sequence of legal calls is such a history.
-/
namespace Verif.Item.Props
open Verif.Item Verif.Item.Spec Verif.Util Verif.Util.Spec

/-- A small configuration and a run of the model, used for the examples and counterexamples. -/
def cfg0 : Cfg := ⟨58, fun _ => 1, 8000, 2, fun _ => by decide⟩

/-- Replies of the model to a list of calls; `none` is a fault. -/
def exec (cfg : Cfg) (s : St) : List Op → Option (List Rep)
  | [] => some []
  | op :: ops =>
    match step cfg s op with
    | none => none
    | some (s', r) => (exec cfg s' ops).map (r :: ·)

/-- Memory is available and nothing has to be evicted. -/
def mem : Env := ⟨[], true⟩

/-! ## C01 -/

/-- Forward simulation: there is a relation between engine states and map states that holds at the
start and is kept by every legal call; no legal call faults, and every reply is one the map gives. -/
theorem C01_simulation (cfg : Cfg) (fl : Bool) :
    ∃ Rel : S → St → (Id → Nat) → Prop,
      (∀ now, Rel (start now) (init now) (fun _ => 0)) ∧
      ∀ σ s h, Rel σ s h → ∀ op, Legal fl σ h op →
        ∃ s' r σ', step cfg s op = some (s', r) ∧ Step cfg.delim σ op r σ' ∧ Rel σ' s' (heldStep h op r) := by
  refine ⟨R cfg fl, R.init cfg fl, fun σ s h hR op hL => ?_⟩
  obtain ⟨s', r, σ', h1, h2, h3, -⟩ := step_sim hR hL
  exact ⟨s', r, σ', h1, h2, h3⟩

/-- A client decides on its next call from the calls and replies so far. -/
abbrev Client := List (Op × Rep) → Op

/-- The transcript of the first `n` calls of a client against the engine. -/
def play (cfg : Cfg) (now : Nat) (c : Client) : Nat → Option (St × List (Op × Rep))
  | 0 => some (init now, [])
  | n + 1 =>
    match play cfg now c n with
    | none => none
    | some (s, t) =>
      match step cfg s (c t) with
      | none => none
      | some (s', r) => some (s', t ++ [(c t, r)])

/-- Transcripts of the client against the map. -/
inductive SpecRun (d now : Nat) (c : Client) : List (Op × Rep) → S → (Id → Nat) → Prop where
  | nil : SpecRun d now c [] (start now) (fun _ => 0)
  | snoc {t σ h r σ'} : SpecRun d now c t σ h → Step d σ (c t) r σ' →
      SpecRun d now c (t ++ [(c t, r)]) σ' (heldStep h (c t) r)

/-- The client makes only legal calls as long as the replies are those of a map. -/
def LegalClient (d : Nat) (fl : Bool) (now : Nat) (c : Client) : Prop :=
  ∀ t σ h, SpecRun d now c t σ h → Legal fl σ h (c t)

/-- All replies a client ever sees, over any number of calls, are replies of the map. -/
theorem C01_history (cfg : Cfg) (fl : Bool) (now : Nat) (c : Client) (hc : LegalClient cfg.delim fl now c) (n : Nat) :
    ∃ s t, play cfg now c n = some (s, t) ∧ t.length = n ∧ ∃ σ h, SpecRun cfg.delim now c t σ h := by
  have key : ∃ s t, play cfg now c n = some (s, t) ∧ t.length = n ∧
      ∃ σ h, SpecRun cfg.delim now c t σ h ∧ R cfg fl σ s h := by
    induction n with
    | zero => exact ⟨_, _, rfl, rfl, _, _, .nil, R.init cfg fl now⟩
    | succ n ih =>
      obtain ⟨s, t, h1, h2, σ, h, h3, h4⟩ := ih
      obtain ⟨s', r, σ', k1, k2, k3, -⟩ := step_sim h4 (hc t σ h h3)
      refine ⟨s', t ++ [(c t, r)], ?_, by simp [h2], σ', _, h3.snoc k2, k3⟩
      simp only [play, h1, k1]
  obtain ⟨s, t, h1, h2, σ, h, h3, -⟩ := key
  exact ⟨s, t, h1, h2, σ, h, h3⟩

/-- Every history can be continued by every legal call. -/
theorem C01_progress (cfg : Cfg) (fl : Bool) (now : Nat) {t : List Ev} {c : Cf}
    (hp : Path cfg fl (Cf.start now) t c) {op : Op} (hL : Legal fl c.σ c.h op) :
    ∃ r c', Path cfg fl (Cf.start now) (t ++ [⟨c.σ, op, r⟩]) c' := by
  obtain ⟨s', r, σ', k1, k2, k3, -⟩ := step_sim (hp.R (start_R cfg fl now)) hL
  exact ⟨r, _, hp.append (.cons hL k1 k2 k3 (.nil _))⟩

/-- Example run: set, get, add refused, cas with the right and then the stale id, delete, miss. -/
example : exec cfg0 (init 5)
    [.alloc [97] 7 0 0 [120, 13, 10] mem, .store 0 .set mem, .release 0, .get [97],
     .alloc [97] 8 0 1 [121, 13, 10] mem, .store 1 .add mem, .store 1 .cas mem,
     .alloc [97] 9 0 1 [122, 13, 10] mem, .store 2 .cas mem, .get [97], .delete [97] 0, .get [97]] =
    some [.allocated 0, .stored 1, .ok, .hit 0 7 1 [120, 13, 10],
      .allocated 1, .notStored, .stored 2, .allocated 2, .eexists, .hit 1 8 2 [121, 13, 10], .ok, .enoent] := by
  decide

/-! ## C02 -/

/-- A successful cas with the unique id `u` that a `get` of the key delivered: between the two the key was
never written, it held the delivered value all the time, and that value is the one replaced.  (The expiry
time alone may have been changed by setattr, which keeps the unique id.) -/
theorem C02_cas (cfg : Cfg) (fl : Bool) (now : Nat) {t1 t2 : List Ev} {σ1 σ2 : S} {k : Key} {i j : Id}
    {f u c : Nat} {dat : List Nat} {env : Env} {p : Pend} {b : Cf}
    (h : Path cfg fl (Cf.start now)
      (t1 ++ ⟨σ1, .get k, .hit i f u dat⟩ :: (t2 ++ [⟨σ2, .store j .cas env, .stored c⟩])) b)
    (hp : σ2.pend j = some p) (hk : p.key = k) (hu : p.cas = u) :
    (∀ ev ∈ t2, ¬ ev.Writes k) ∧
    (∀ ev ∈ t2, ∃ x, ev.σ.m k = some ⟨f, x, u, false, dat⟩) ∧
    (∃ x, σ2.live k = some ⟨f, x, u, false, dat⟩) ∧ u < c := by
  obtain ⟨a, h1, h2⟩ := h.split
  have h2' : Path cfg fl a ([⟨σ1, .get k, .hit i f u dat⟩] ++ (t2 ++ [⟨σ2, .store j .cas env, .stored c⟩])) b := h2
  obtain ⟨a1, g1, h3⟩ := h2'.split
  obtain ⟨a2, g2, h4⟩ := h3.split
  have hca := h1.casLe (start_casLe now)
  -- the get
  obtain ⟨a', q1, q2, q3⟩ := get_reply (t := []) g1
  cases q1
  cases hl : a.σ.live k with
  | none => rw [hl] at q3; simp at q3
  | some e =>
    rw [hl] at q3; simp only at q3
    cases hcol : e.coll with
    | true => rw [hcol] at q3; simp at q3
    | false =>
      rw [hcol] at q3
      simp only [Bool.false_eq_true, if_false, Rep.hit.injEq] at q3
      obtain ⟨i', rfl, rfl, rfl, rfl⟩ := q3
      have hle := hca k e (live_some hl).1
      have hle1 := g1.cas_mono
      have hle2 := g2.cas_mono
      -- the cas
      obtain ⟨a3, r1, r2, -, -, r3, -⟩ := Path.last (t := []) h4
      cases r1
      simp only at r2 r3
      subst r2
      obtain ⟨σ', ⟨p', σ3, hp', hs, -⟩, -⟩ := r3
      rw [hp] at hp'; injection hp' with hp'; subst hp' hk
      have key : ∃ e2, a2.σ.live p.key = some e2 ∧ p.cas = e2.cas ∧ c = a2.σ.cas + 1 := by
        unfold StoreStep at hs
        simp only at hs
        split at hs
        · simp at hs
        · next e2 he2 =>
          split at hs
          · simp at hs
          · split at hs
            · next hcs => exact ⟨e2, he2, hcs, by simpa using hs.1⟩
            · simp at hs
      obtain ⟨e2, he2, hcs, rfl⟩ := key
      have hcs2 : e2.cas = e.cas := hcs.symm.trans hu
      -- nothing happened in between
      have P : Path cfg fl a ([⟨σ1, .get p.key, .hit i e.flags e.cas e.data⟩] ++ t2) a2 := g1.append g2
      obtain ⟨⟨e0, m1, m2⟩, m3, m4⟩ := P.same hca (live_some he2).1 (by omega)
      rw [(live_some hl).1] at m1; injection m1 with m1; subst m1
      have ent : ∀ y : Entry, e2 = { y with exptime := e2.exptime } → y = ⟨e.flags, y.exptime, e.cas, false, e.data⟩ := by
        intro y hy
        have a1 : y.flags = e.flags := by
          have := congrArg Entry.flags (hy.symm.trans m2); exact this
        have a2 : y.cas = e.cas := by
          have := congrArg Entry.cas (hy.symm.trans m2); exact this
        have a3 : y.coll = e.coll := by
          have := congrArg Entry.coll (hy.symm.trans m2); exact this
        have a4 : y.data = e.data := by
          have := congrArg Entry.data (hy.symm.trans m2); exact this
        rw [← a1, ← a2, ← hcol, ← a3, ← a4]
      refine ⟨fun ev hev => m3 ev (List.mem_append_right _ hev), ?_, ⟨e2.exptime, ?_⟩, by omega⟩
      · intro ev hev
        obtain ⟨y, y1, y2⟩ := m4 ev (List.mem_append_right _ hev)
        exact ⟨y.exptime, by rw [y1, ← ent y y2]⟩
      · rw [he2, ← ent e2 rfl]

/-- Unique ids handed out are strictly increasing, hence never reused. -/
theorem C02_fresh (cfg : Cfg) (fl : Bool) (now : Nat) {t1 t2 : List Ev} {e1 e2 : Ev} {k1 k2 : Key} {b : Cf} {u1 u2 : Nat}
    (h : Path cfg fl (Cf.start now) (t1 ++ e1 :: (t2 ++ [e2])) b)
    (hw1 : e1.Writes k1) (hw2 : e2.Writes k2)
    (hu1 : e1.r = .stored u1 ∨ ∃ v, e1.r = .num v u1) (hu2 : e2.r = .stored u2 ∨ ∃ v, e2.r = .num v u2) :
    u1 < u2 := by
  have one : ∀ {a b : Cf} {e : Ev} {k : Key} {u : Nat}, Path cfg fl a [e] b → e.Writes k →
      (e.r = .stored u ∨ ∃ v, e.r = .num v u) → u = a.σ.cas + 1 ∧ b.σ.cas = a.σ.cas + 1 := by
    intro a b e k u hp hw hu
    obtain ⟨a3, r1, r2, -, -, r3, -⟩ := Path.last (t := []) hp
    cases r1
    obtain ⟨eσ, eop, er⟩ := e
    simp only at r2 r3 hu
    subst r2
    obtain ⟨σ1, hcore, -, e2, -, -⟩ := r3
    rw [e2]
    cases eop with
    | store i sop env =>
      obtain ⟨p, σ2, hp', hs, rfl⟩ := hcore
      rcases hu with rfl | ⟨v, rfl⟩
      · unfold StoreStep at hs
        simp only [S.put] at hs
        split at hs
        · cases sop <;> simp at hs <;> grind
        · split at hs
          · simp at hs
          · cases sop <;> simp at hs <;> grind
      · obtain ⟨-, c, hc⟩ := hw; simp at hc
    | arith k' inc cr dl ini f ee rest env =>
      obtain ⟨-, v, c, hc⟩ := hw
      simp only at hc; subst hc
      have hv : u = c := by
        rcases hu with h | ⟨w, h⟩
        · simp at h
        · injection h with h1 h2; exact h2.symm
      subst hv
      simp only [Core] at hcore
      repeat' split at hcore
      all_goals first
        | (simp at hcore; done)
        | (simp only [Rep.num.injEq] at hcore; obtain ⟨⟨-, rfl⟩, rfl⟩ := hcore; exact ⟨rfl, rfl⟩)
        | (rcases hcore with ⟨-, h1, rfl⟩ | ⟨-, h1, -⟩
           · simp only [Rep.num.injEq] at h1; exact ⟨h1.2, rfl⟩
           · simp at h1)
    | collCreate k' f ee env =>
      obtain ⟨-, c, hc⟩ := hw
      simp only at hc; subst hc
      have hv : u = c := by
        rcases hu with h | ⟨w, h⟩
        · injection h with h; exact h.symm
        · simp at h
      subst hv
      simp only [Core] at hcore
      repeat' split at hcore
      all_goals first
        | (simp at hcore; done)
        | (rcases hcore with ⟨-, h1, rfl⟩ | ⟨-, h1, -⟩
           · simp only [Rep.stored.injEq] at h1; exact ⟨h1, rfl⟩
           · simp at h1)
    | _ => simp [Ev.Writes] at hw
  obtain ⟨a, h1, h2⟩ := h.split
  have h2' : Path cfg fl a ([e1] ++ (t2 ++ [e2])) b := h2
  obtain ⟨a1, g1, h3⟩ := h2'.split
  obtain ⟨a2, g2, h4⟩ := h3.split
  obtain ⟨x1, x2⟩ := one g1 hw1 hu1
  obtain ⟨y1, y2⟩ := one h4 hw2 hu2
  have := g2.cas_mono
  omega

/-- Example history meeting the hypotheses: two clients get the value, both try cas, one succeeds. -/
example : ∃ l c, Path cfg0 true (Cf.start 5) l c ∧ l.map (fun e => (e.op, e.r)) =
    [(.alloc [97] 7 0 0 [120, 13, 10] mem, .allocated 0), (.store 0 .set mem, .stored 1),
     (.get [97], .hit 0 7 1 [120, 13, 10]), (.get [98], .enoent),
     (.alloc [97] 8 0 1 [121, 13, 10] mem, .allocated 1), (.alloc [97] 8 0 1 [122, 13, 10] mem, .allocated 2),
     (.store 1 .cas mem, .stored 2), (.store 2 .cas mem, .eexists)] :=
  demo_start (ops := [.alloc [97] 7 0 0 [120, 13, 10] mem, .store 0 .set mem, .get [97], .get [98],
    .alloc [97] 8 0 1 [121, 13, 10] mem, .alloc [97] 8 0 1 [122, 13, 10] mem, .store 1 .cas mem, .store 2 .cas mem])
    (by decide +kernel) (by decide)

/-! ## C03 -/

/-- An item stored by `set` with expiry time `T`, with only reads of that key and other activity since:
a later get hits before `T` (or when `T = 0`) and misses from `T` on. -/
theorem C03_expiry (cfg : Cfg) (fl : Bool) (now : Nat) {t1 t2 : List Ev} {σ1 σ2 : S} {i : Id} {env : Env} {c : Nat}
    {p : Pend} {r : Rep} {b : Cf}
    (h : Path cfg fl (Cf.start now)
      (t1 ++ ⟨σ1, .store i .set env, .stored c⟩ :: (t2 ++ [⟨σ2, .get p.key, r⟩])) b)
    (hp : σ1.pend i = some p) :
    ((∀ e ∈ t2, e.Quiet cfg.delim p.key) → (p.exptime = 0 ∨ σ2.now < p.exptime) →
      ∃ j, r = .hit j p.flags c p.data) ∧
    ((∀ e ∈ t2, ¬ e.Writes p.key ∧ ¬ e.SetsExp p.key) → (p.exptime ≠ 0 ∧ p.exptime ≤ σ2.now) → r = .enoent) := by
  obtain ⟨a, h1, h2⟩ := h.split
  have h2' : Path cfg fl a ([⟨σ1, .store i .set env, .stored c⟩] ++ (t2 ++ [⟨σ2, .get p.key, r⟩])) b := h2
  obtain ⟨a1, g1, h3⟩ := h2'.split
  obtain ⟨-, s2, s3⟩ := set_effect g1 hp
  obtain ⟨a2, g2, rfl, g3⟩ := get_reply h3
  constructor
  · intro hq ht
    have hm := g2.quiet hq
    rw [s2] at hm
    have hl : a2.σ.live p.key = some ⟨p.flags, p.exptime, c, false, p.data⟩ := by
      unfold S.live; rw [hm]; simp only; rw [if_neg (by omega)]
    rw [hl] at g3; simpa using g3
  · intro hq ht
    have hl : a2.σ.live p.key = none := by
      rcases g2.fades hq with hm | hm
      · rw [s2] at hm; unfold S.live; rw [hm]; simp only; rw [if_pos ht]
      · exact live_none hm
    rw [hl] at g3; exact g3

/-- The engine's reading of the client's expiry argument, at uptime `now ≥ 1` (the server starts its
clock at 2, memcached.c 298), for uptimes below 2^31 - 1 seconds: 0 never expires; negative numbers other
than -1 have already expired; -1 is sticky; up to 30 days it is relative; larger it is absolute (in the
past: already expired). -/
theorem C03_realtime (started : Int) (now w : Nat) (x : Int) (h1 : 1 ≤ now) (hw : now ≤ w)
    (hb : w < 0x7FFFFFFF) :
    (realtime started now x = 0 ∨ w < realtime started now x) ↔
      (x = 0 ∨ x = -1 ∨ (0 < x ∧ x ≤ 2592000 ∧ (w : Int) < now + x) ∨ (2592000 < x ∧ started + w < x)) := by
  unfold realtime
  split
  · simp_all
  · split
    · split
      · subst_vars; simp; omega
      · omega
    · split
      · split
        · omega
        · simp only; split <;> omega
      · have : (x.toNat + now) % 2 ^ 32 = x.toNat + now := Nat.mod_eq_of_lt (by omega)
        rw [this]; omega

/-- -1 and only -1 gives a sticky item (uptime below 2^31 - 1 seconds). -/
theorem C03_sticky (started : Int) (now : Nat) (x : Int) (hb : now < 0x7FFFFFFF) :
    realtime started now x = sticky ↔ x = -1 := by
  unfold realtime sticky
  split
  · subst_vars; simp
  · split
    · split
      · simp_all
      · simp_all
    · split
      · split
        · omega
        · simp only; split <;> omega
      · have : (x.toNat + now) % 2 ^ 32 = x.toNat + now := Nat.mod_eq_of_lt (by omega)
        rw [this]; omega

example : realtime 1700000000 100 60 = 160 ∧ realtime 1700000000 100 1700000500 = 500 ∧
    realtime 1700000000 100 1699999999 = 1 := by decide

/-- Stored for 10 seconds at second 5: hit at second 14, miss at 15. -/
example : ∃ l c, Path cfg0 true (Cf.start 5) l c ∧ l.map (fun e => (e.op, e.r)) =
    [(.alloc [97] 7 15 0 [120, 13, 10] mem, .allocated 0), (.store 0 .set mem, .stored 1), (.release 0, .ok),
     (.tick 9, .ok), (.get [97], .hit 0 7 1 [120, 13, 10]), (.tick 1, .ok), (.get [97], .enoent)] :=
  demo_start (ops := [.alloc [97] 7 15 0 [120, 13, 10] mem, .store 0 .set mem, .release 0, .tick 9, .get [97],
    .tick 1, .get [97]]) (by decide) (by decide)

/-! ## C04 -/

/-- After a flush_all without delay no key is served until it is written again. -/
theorem C04_gone_partial (cfg : Cfg) (fl : Bool) (now : Nat) {t1 t2 : List Ev} {σ1 σ2 : S} {k : Key} {r0 r : Rep} {b : Cf}
    (h : Path cfg fl (Cf.start now) (t1 ++ ⟨σ1, .flush none 0, r0⟩ :: (t2 ++ [⟨σ2, .get k, r⟩])) b)
    (hq : ∀ e ∈ t2, ¬ e.Writes k) : r = .enoent := by
  obtain ⟨a, h1, h2⟩ := h.split
  have h2' : Path cfg fl a ([⟨σ1, .flush none 0, r0⟩] ++ (t2 ++ [⟨σ2, .get k, r⟩])) b := h2
  obtain ⟨a1, g1, h3⟩ := h2'.split
  obtain ⟨a2, g2, rfl, g3⟩ := get_reply h3
  have := g2.dead (live_none ((flush_effect g1 k).1 trivial)) hq
  rw [this] at g3; exact g3

/-- An item stored after the flush, be it in the same second, is served until it expires or is removed. -/
theorem C04_newer_partial (cfg : Cfg) (fl : Bool) (now : Nat) {t1 t2 t3 : List Ev} {σ0 σ1 σ2 : S} {i : Id} {env : Env} {c : Nat}
    {p : Pend} {r0 r : Rep} {b : Cf}
    (h : Path cfg fl (Cf.start now) (t1 ++ ⟨σ0, .flush none 0, r0⟩ ::
      (t2 ++ ⟨σ1, .store i .set env, .stored c⟩ :: (t3 ++ [⟨σ2, .get p.key, r⟩]))) b)
    (hp : σ1.pend i = some p) (hq : ∀ e ∈ t3, e.Quiet cfg.delim p.key) (ht : p.exptime = 0 ∨ σ2.now < p.exptime) :
    ∃ j, r = .hit j p.flags c p.data := by
  have h' : Path cfg fl (Cf.start now) ((t1 ++ ⟨σ0, .flush none 0, r0⟩ :: t2) ++
      ⟨σ1, .store i .set env, .stored c⟩ :: (t3 ++ [⟨σ2, .get p.key, r⟩])) b := by
    simpa using h
  exact (C03_expiry cfg fl now h' hp).1 hq ht

/-- Two items, flush_all, one stored again in the same second; a minute later. -/
example : ∃ l c, Path cfg0 true (Cf.start 5) l c ∧ l.map (fun e => (e.op, e.r)) =
    [(.alloc [97] 7 0 0 [120, 13, 10] mem, .allocated 0), (.store 0 .set mem, .stored 1),
     (.alloc [98] 7 0 0 [121, 13, 10] mem, .allocated 1), (.store 1 .set mem, .stored 2),
     (.flush none 0, .ok), (.alloc [97] 7 0 0 [122, 13, 10] mem, .allocated 2), (.store 2 .set mem, .stored 3),
     (.tick 60, .ok), (.get [98], .enoent), (.get [97], .hit 2 7 3 [122, 13, 10])] :=
  demo_start (ops := [.alloc [97] 7 0 0 [120, 13, 10] mem, .store 0 .set mem,
    .alloc [98] 7 0 0 [121, 13, 10] mem, .store 1 .set mem, .flush none 0,
    .alloc [97] 7 0 0 [122, 13, 10] mem, .store 2 .set mem, .tick 60, .get [98], .get [97]])
    (by decide +kernel) (by decide)

/-- Without the restriction on `lruDrop` C04 is false: an item in use by a slow client can be taken off its
LRU queue when memory is short (item_base.c 675-680, 856-859); flush_all in the same second does not find it,
and it is served again afterwards. -/
theorem C04_lruDrop_false : exec cfg0 (init 5)
    [.alloc [97] 7 0 0 [120, 13, 10] mem, .store 0 .set mem, .background [.lruDrop 0], .flush none 0,
     .tick 1, .get [97]] =
    some [.allocated 0, .stored 1, .ok, .ok, .ok, .hit 0 7 1 [120, 13, 10]] := by decide

/-! ## C05 -/

/-- Full claim of C05 on the model: if after a flush a get misses, it also misses when another flush command
is issued in between.  **False**, see `C05_false`. -/
def C05_full : Prop := ∀ (cfg : Cfg) (now : Nat) (ops : List Op) (k : Key) (sc1 sc2 : Option (List Nat)) (w1 w2 : Nat)
  (l l' : List Rep), exec cfg (init now) (ops ++ [.flush sc1 w1, .get k]) = some l → l.getLast? = some .enoent →
  exec cfg (init now) (ops ++ [.flush sc1 w1, .flush sc2 w2, .get k]) = some l' → l'.getLast? = some .enoent

/-- Counterexample to C05: stored at second 5, flush_all at second 20 (a get misses), then `flush_all` with
delay 100: the delayed flush overwrites the mark of the first one, and the item is served again. -/
theorem C05_false : ¬ C05_full := by
  intro h
  have := h cfg0 5 [.alloc [97] 7 0 0 [120, 13, 10] mem, .store 0 .set mem, .release 0, .tick 15] [97] none none 0 120
    [.allocated 0, .stored 1, .ok, .ok, .ok, .enoent]
    [.allocated 0, .stored 1, .ok, .ok, .ok, .ok, .hit 0 7 1 [120, 13, 10]] (by decide) (by decide) (by decide)
  simp at this

/-- Part of C05 that holds: histories whose flushes (of any scope) have no delay.  Once a flush covers a key,
it is invisible until written again, whatever other immediate flushes follow.  Missing: delayed flushes,
for which the claim is false. -/
theorem C05_partial (cfg : Cfg) (fl : Bool) (now : Nat) {t1 t2 : List Ev} {σ1 σ2 : S} {k : Key}
    {sc : Option (List Nat)} {w : Nat} {r0 r : Rep} {b : Cf}
    (h : Path cfg fl (Cf.start now) (t1 ++ ⟨σ1, .flush sc w, r0⟩ :: (t2 ++ [⟨σ2, .get k, r⟩])) b)
    (hsc : InScope cfg.delim sc k) (hq : ∀ e ∈ t2, ¬ e.Writes k) : r = .enoent := by
  obtain ⟨a, h1, h2⟩ := h.split
  have h2' : Path cfg fl a ([⟨σ1, .flush sc w, r0⟩] ++ (t2 ++ [⟨σ2, .get k, r⟩])) b := h2
  obtain ⟨a1, g1, h3⟩ := h2'.split
  obtain ⟨a2, g2, rfl, g3⟩ := get_reply h3
  have := g2.dead (live_none ((flush_effect g1 k).1 hsc)) hq
  rw [this] at g3; exact g3

example : ∃ l c, Path cfg0 true (Cf.start 5) l c ∧ l.map (fun e => (e.op, e.r)) =
    [(.alloc [97, 58, 98] 7 0 0 [120, 13, 10] mem, .allocated 0), (.store 0 .set mem, .stored 1), (.release 0, .ok),
     (.tick 15, .ok), (.flush (some [97]) 0, .ok), (.flush none 0, .ok), (.flush (some []) 0, .ok),
     (.get [97, 58, 98], .enoent)] :=
  demo_start (ops := [.alloc [97, 58, 98] 7 0 0 [120, 13, 10] mem, .store 0 .set mem, .release 0, .tick 15,
    .flush (some [97]) 0, .flush none 0, .flush (some []) 0, .get [97, 58, 98]]) (by decide) (by decide)

/-! ## C30 -/

/-- flush_prefix p without delay: keys of prefix p are gone until written again. -/
theorem C30_gone_partial (cfg : Cfg) (fl : Bool) (now : Nat) {t1 t2 : List Ev} {σ1 σ2 : S} {k : Key} {p : List Nat}
    {r0 r : Rep} {b : Cf}
    (h : Path cfg fl (Cf.start now) (t1 ++ ⟨σ1, .flush (some p) 0, r0⟩ :: (t2 ++ [⟨σ2, .get k, r⟩])) b)
    (hk : HasPrefix cfg.delim p k) (hq : ∀ e ∈ t2, ¬ e.Writes k) : r = .enoent :=
  C05_partial cfg fl now h (by
    simp only [InScope]; rw [if_neg hk.1]; exact hk) hq

/-- What a get reply says, apart from the address of the item. -/
def Rep.view : Rep → Option (Nat × Nat × List Nat)
  | .hit _ f c d => some (f, c, d)
  | _ => none

/-- ... and the keys of all other prefixes are untouched: a get right after the flush answers what a get
right before it would have answered. -/
theorem C30_untouched_partial (cfg : Cfg) (fl : Bool) (now : Nat) {t1 : List Ev} {σ1 σ2 σ3 : S} {k : Key} {p : List Nat}
    {r0 r2 r3 : Rep} {a b1 b2 : Cf} (_h0 : Path cfg fl (Cf.start now) t1 a)
    (h1 : Path cfg fl a [⟨σ1, .flush (some p) 0, r0⟩, ⟨σ2, .get k, r2⟩] b1)
    (h2 : Path cfg fl a [⟨σ3, .get k, r3⟩] b2) (hp : p ≠ []) (hk : ¬ HasPrefix cfg.delim p k) :
    Rep.view r2 = Rep.view r3 ∧ (r2 = .enoent ↔ r3 = .enoent) ∧ (r2 = .ebadtype ↔ r3 = .ebadtype) := by
  obtain ⟨c1, g1, rfl, g2⟩ := get_reply (t := [⟨σ1, .flush (some p) 0, r0⟩]) h1
  obtain ⟨c2, g3, rfl, g4⟩ := get_reply (t := []) h2
  cases g3
  have hm := (flush_effect g1 k).2 (by simp only [InScope]; rw [if_neg hp]; exact hk)
  obtain ⟨c3, q1, -, -, -, ⟨σ', ⟨-, hn, -⟩, e1, -⟩, -⟩ := Path.last (t := []) g1
  cases q1
  have hl : c1.σ.live k = a.σ.live k := by
    unfold S.live; rw [hm, e1, hn]
  rw [hl] at g2
  cases hx : a.σ.live k with
  | none =>
    rw [hx] at g2 g4; simp only at g2 g4; subst g2 g4; simp
  | some e =>
    rw [hx] at g2 g4; simp only at g2 g4
    cases hc : e.coll with
    | true => rw [hc] at g2 g4; simp only [if_true] at g2 g4; subst g2 g4; simp
    | false =>
      rw [hc] at g2 g4; simp only [Bool.false_eq_true, if_false] at g2 g4
      obtain ⟨i, rfl⟩ := g2; obtain ⟨j, rfl⟩ := g4; simp [Rep.view]

/-- Prefixes `a` and `b` and a key without prefix; flush_prefix `a`. -/
example : ∃ l c, Path cfg0 true (Cf.start 5) l c ∧ l.map (fun e => (e.op, e.r)) =
    [(.alloc [97, 58, 120] 7 0 0 [120, 13, 10] mem, .allocated 0), (.store 0 .set mem, .stored 1),
     (.alloc [98, 58, 120] 7 0 0 [120, 13, 10] mem, .allocated 1), (.store 1 .set mem, .stored 2),
     (.alloc [97] 7 0 0 [120, 13, 10] mem, .allocated 2), (.store 2 .set mem, .stored 3), (.tick 3, .ok),
     (.flush (some [97]) 0, .ok), (.get [97, 58, 120], .enoent), (.get [98, 58, 120], .hit 1 7 2 [120, 13, 10]),
     (.get [97], .hit 2 7 3 [120, 13, 10])] :=
  demo_start (ops := [.alloc [97, 58, 120] 7 0 0 [120, 13, 10] mem, .store 0 .set mem,
    .alloc [98, 58, 120] 7 0 0 [120, 13, 10] mem, .store 1 .set mem, .alloc [97] 7 0 0 [120, 13, 10] mem,
    .store 2 .set mem, .tick 3, .flush (some [97]) 0, .get [97, 58, 120], .get [98, 58, 120], .get [97]])
    (by decide +kernel) (by decide)

/-! ## C06 -/

/-- incr/decr of an item holding decimal digits of a value below 2^64 (from 2^63 on: provided no minus sign is
found in the memory behind the item before the next NUL).  With memory available the reply is
`(v + delta) mod 2^64` resp. `max (v - delta) 0`, the new value is exactly the digits of that number, flags
and expiry are kept; otherwise the item is unchanged. -/
theorem C06_partial (cfg : Cfg) (fl : Bool) (now : Nat) {t : List Ev} {a b : Cf} {k : Key} {inc create : Bool}
    {delta initial f e : Nat} {rest : List Nat} {env : Env} {r : Rep} {en : Entry} {ds : List Nat}
    (h0 : Path cfg fl (Cf.start now) t a)
    (h : Path cfg fl a [⟨a.σ, .arith k inc create delta initial f e rest env, r⟩] b)
    (hl : a.σ.live k = some en) (hd : en.data = ds ++ [13, 10]) (hdig : ∀ c ∈ ds, Digit c) (hne : ds ≠ [])
    (hv : decVal ds < 2 ^ 64) (hm : decVal ds < 2 ^ 63 ∨ strchrMinus rest = some false) :
    (env.ok = true → ∃ ds' u, r = .num (decVal ds') u ∧
      decVal ds' = (if inc then (decVal ds + delta) % 2 ^ 64 else decVal ds - delta) ∧
      (∀ c ∈ ds', Digit c) ∧ ds' ≠ [] ∧ b.σ.m k = some ⟨en.flags, en.exptime, u, false, ds' ++ [13, 10]⟩) ∧
    (env.ok = false → r = .enomem ∧ b.σ.m k = some en) := by
  obtain ⟨c, q1, -, -, -, ⟨σ', hc, -, -, -, e4⟩, -⟩ := Path.last (t := []) h
  cases q1
  have hb : b.σ.m k = σ'.m k := by
    rcases e4 k with q | ⟨-, -, q⟩
    · exact q
    · simp [opKey] at q
  simp only [Core, hl, hd] at hc
  rw [show ds ++ [13, 10] ++ rest = ds ++ [13, 10] ++ rest from rfl, parse_digits ds rest hdig hne hv hm] at hc
  simp only at hc
  constructor
  · intro hok
    rw [hok] at hc; simp only [if_true] at hc
    obtain ⟨rfl, rfl⟩ := hc
    obtain ⟨s1, s2, s3⟩ := showNat_spec (if inc = true then (decVal ds + delta) % 2 ^ 64 else decVal ds - delta)
    refine ⟨_, _, by rw [s1], s1, s2, s3, ?_⟩
    rw [hb]; exact upd_self _ _ _
  · intro hok
    rw [hok] at hc; simp only [Bool.false_eq_true, if_false] at hc
    obtain ⟨rfl, rfl⟩ := hc
    exact ⟨rfl, by rw [hb]; exact (live_some hl).1⟩

/-- An item whose data starts with a character that is neither a digit nor white space nor a sign is refused and
left unchanged. -/
theorem C06_refuse_partial (cfg : Cfg) (fl : Bool) (now : Nat) {t : List Ev} {a b : Cf} {k : Key} {inc create : Bool}
    {delta initial f e : Nat} {rest : List Nat} {env : Env} {r : Rep} {en : Entry} {c : Nat} {cs : List Nat}
    (h0 : Path cfg fl (Cf.start now) t a)
    (h : Path cfg fl a [⟨a.σ, .arith k inc create delta initial f e rest env, r⟩] b)
    (hl : a.σ.live k = some en) (hd : en.data = c :: cs) (h1 : ¬ Digit c) (h2 : ¬ Space c) (h3 : c ≠ 43) (h4 : c ≠ 45) :
    r = .einval ∧ b.σ.m k = some en := by
  obtain ⟨c', q1, -, -, -, ⟨σ', hc, -, -, -, e4⟩, -⟩ := Path.last (t := []) h
  cases q1
  have hb : b.σ.m k = σ'.m k := by
    rcases e4 k with q | ⟨-, -, q⟩
    · exact q
    · simp [opKey] at q
  simp only [Core, hl, hd, List.cons_append] at hc
  rw [parse_refuse c (cs ++ rest) h1 h2 h3 h4] at hc
  obtain ⟨rfl, rfl⟩ := hc
  exact ⟨rfl, by rw [hb]; exact (live_some hl).1⟩

/-- A missing key without create is refused; with create the initial value is stored. -/
theorem C06_create (cfg : Cfg) (fl : Bool) (now : Nat) {t : List Ev} {a b : Cf} {k : Key} {inc create : Bool}
    {delta initial f e : Nat} {rest : List Nat} {env : Env} {r : Rep}
    (h0 : Path cfg fl (Cf.start now) t a)
    (h : Path cfg fl a [⟨a.σ, .arith k inc create delta initial f e rest env, r⟩] b) (hl : a.σ.live k = none) :
    (create = false → r = .enoent ∧ b.σ.live k = none) ∧
    (create = true → env.ok = true → NameOk cfg.delim k →
      ∃ ds u, r = .num initial u ∧ decVal ds = initial ∧ (∀ c ∈ ds, Digit c) ∧
        b.σ.m k = some ⟨f, e, u, false, ds ++ [13, 10]⟩) := by
  obtain ⟨c', q1, -, -, -, ⟨σ', hc, e1, -, -, e4⟩, -⟩ := Path.last (t := []) h
  cases q1
  have hb : b.σ.m k = σ'.m k := by
    rcases e4 k with q | ⟨-, -, q⟩
    · exact q
    · simp [opKey] at q
  simp only [Core, hl] at hc
  constructor
  · intro hcr; rw [hcr] at hc; simp only [Bool.false_eq_true, if_false] at hc
    obtain ⟨rfl, rfl⟩ := hc
    exact ⟨rfl, live_none_now hl hb (Nat.le_of_eq e1.symm)⟩
  · intro hcr hok hn
    rw [hcr, hok] at hc; simp only [if_true] at hc
    rcases hc with ⟨-, rfl, rfl⟩ | ⟨q, -⟩
    · obtain ⟨s1, s2, -⟩ := showNat_spec initial
      exact ⟨_, _, rfl, s1, s2, by rw [hb]; exact upd_self _ _ _⟩
    · exact absurd hn q

example : ∃ l c, Path cfg0 true (Cf.start 5) l c ∧ l.map (fun e => (e.op, e.r)) =
    [(.alloc [97] 7 0 0 [57, 57, 13, 10] mem, .allocated 0), (.store 0 .set mem, .stored 1),
     (.arith [97] true false 5 0 0 0 [] mem, .num 104 2), (.arith [97] false false 200 0 0 0 [] mem, .num 0 3),
     (.get [97], .hit 2 7 3 [48, 13, 10])] :=
  demo_start (ops := [.alloc [97] 7 0 0 [57, 57, 13, 10] mem, .store 0 .set mem,
    .arith [97] true false 5 0 0 0 [] mem, .arith [97] false false 200 0 0 0 [] mem, .get [97]])
    (by decide +kernel) (by decide)

/-- Full claim "a non-numeric item is refused"; **false** (`C06_blank_false`): the empty value is taken as 0 and
`12 abc` as 12. -/
def C06_full : Prop := ∀ (cfg : Cfg) (now : Nat) (k : Key) (v : List Nat) (rest : List Nat) (l : List Rep),
  exec cfg (init now) [.alloc k 0 0 0 (v ++ [13, 10]) mem, .store 0 .set mem, .arith k true false 1 0 0 0 rest mem] = some l →
  (v = [] ∨ ∃ c ∈ v, ¬ Digit c) → l.getLast? = some .einval

theorem C06_blank_false : ¬ C06_full ∧
    exec cfg0 (init 5) [.alloc [97] 0 0 0 [49, 50, 32, 97, 98, 99, 13, 10] mem, .store 0 .set mem,
      .arith [97] true false 1 0 0 0 [0] mem, .get [97]] =
    some [.allocated 0, .stored 1, .num 13 2, .hit 1 0 2 [49, 51, 13, 10]] := by
  refine ⟨fun h => ?_, by decide +kernel⟩
  have := h cfg0 5 [97] [] [0] [.allocated 0, .stored 1, .num 1 2] (by decide +kernel) (Or.inl rfl)
  simp at this

/-- From 2^63 on the outcome depends on the memory behind the item: the same counter is refused or incremented. -/
theorem C06_overread : ∃ v : List Nat, (∀ c ∈ v, Digit c) ∧ decVal v = 2 ^ 63 ∧
    exec cfg0 (init 5) [.alloc [97] 0 0 0 (v ++ [13, 10]) mem, .store 0 .set mem, .arith [97] true false 1 0 0 0 [45] mem] =
      some [.allocated 0, .stored 1, .einval] ∧
    exec cfg0 (init 5) [.alloc [97] 0 0 0 (v ++ [13, 10]) mem, .store 0 .set mem, .arith [97] true false 1 0 0 0 [0] mem] =
      some [.allocated 0, .stored 1, .num (2 ^ 63 + 1) 2] :=
  ⟨[57,50,50,51,51,55,50,48,51,54,56,53,52,55,55,53,56,48,56], by unfold Digit; decide, by decide, by decide, by decide⟩

/-! ## C07 -/

/-- append and prepend to a key-value item, both values ending in CRLF: the reply and the new value. -/
theorem C07_attach (cfg : Cfg) (fl : Bool) (now : Nat) {t : List Ev} {a b : Cf} {i : Id} {env : Env} {app : Bool} {r : Rep}
    {p : Pend} {old new : List Nat} {en : Entry} (h0 : Path cfg fl (Cf.start now) t a)
    (h : Path cfg fl a [⟨a.σ, .store i (if app then .append else .prepend) env, r⟩] b)
    (hp : a.σ.pend i = some p) (hl : a.σ.live p.key = some en)
    (hold : en.data = old ++ [13, 10]) (hnew : p.data = new ++ [13, 10]) :
    (en.coll = true → r = .ebadtype ∧ b.σ.m p.key = some en) ∧
    (en.coll = false → (p.cas ≠ 0 ∧ p.cas ≠ en.cas) → r = .eexists ∧ b.σ.m p.key = some en) ∧
    (en.coll = false → ¬ (p.cas ≠ 0 ∧ p.cas ≠ en.cas) → env.ok = false → r = .notStored ∧ b.σ.m p.key = some en) ∧
    (en.coll = false → ¬ (p.cas ≠ 0 ∧ p.cas ≠ en.cas) → env.ok = true → ∃ u, r = .stored u ∧
      b.σ.m p.key = some ⟨en.flags, en.exptime, u, false, (if app then old ++ new else new ++ old) ++ [13, 10]⟩) := by
  obtain ⟨c', q1, -, -, -, ⟨σ', ⟨p', σ1, hp', hs, rfl⟩, -, -, -, e4⟩, -⟩ := Path.last (t := []) h
  cases q1
  rw [hp] at hp'; injection hp' with hp'; subst hp'
  have hb : b.σ.m p.key = σ1.m p.key := by
    rcases e4 p.key with q | ⟨-, -, q⟩
    · exact q
    · simp [opKey, hp] at q
  have hm := (live_some hl).1
  simp only [StoreStep, hl] at hs
  refine ⟨?_, ?_, ?_, ?_⟩
  · intro hc; rw [hc] at hs; simp only [if_true] at hs
    obtain ⟨rfl, rfl⟩ := hs; exact ⟨rfl, by rw [hb, hm]⟩
  · intro hc hx; rw [hc] at hs; simp only [Bool.false_eq_true, if_false] at hs
    cases app <;> simp only [Bool.false_eq_true, if_false, if_true] at hs <;> rw [if_pos hx] at hs <;>
      (obtain ⟨rfl, rfl⟩ := hs; exact ⟨rfl, by rw [hb, hm]⟩)
  · intro hc hx hok; rw [hc, hok] at hs; simp only [Bool.false_eq_true, if_false] at hs
    cases app <;> simp only [Bool.false_eq_true, if_false, if_true] at hs <;> rw [if_neg hx] at hs <;>
      (obtain ⟨rfl, rfl⟩ := hs; exact ⟨rfl, by rw [hb, hm]⟩)
  · intro hc hx hok; rw [hc, hok] at hs; simp only [Bool.false_eq_true, if_false] at hs
    cases app <;> simp only [Bool.false_eq_true, if_false, if_true] at hs <;> rw [if_neg hx] at hs
    · obtain ⟨rfl, rfl⟩ := hs
      refine ⟨_, rfl, ?_⟩
      rw [hb]; simp [S.put, upd_self, hold, hnew]
    · obtain ⟨rfl, rfl⟩ := hs
      refine ⟨_, rfl, ?_⟩
      rw [hb]; simp [S.put, upd_self, hold, hnew]

/-- Appending to a missing key fails. -/
theorem C07_missing (cfg : Cfg) (fl : Bool) (now : Nat) {t : List Ev} {a b : Cf} {i : Id} {env : Env} {app : Bool} {r : Rep}
    {p : Pend} (h0 : Path cfg fl (Cf.start now) t a)
    (h : Path cfg fl a [⟨a.σ, .store i (if app then .append else .prepend) env, r⟩] b)
    (hp : a.σ.pend i = some p) (hl : a.σ.live p.key = none) : r = .notStored ∧ b.σ.live p.key = none := by
  obtain ⟨c', q1, -, -, -, ⟨σ', ⟨p', σ1, hp', hs, rfl⟩, e1, -, -, e4⟩, -⟩ := Path.last (t := []) h
  cases q1
  rw [hp] at hp'; injection hp' with hp'; subst hp'
  have hb : b.σ.m p.key = σ1.m p.key := by
    rcases e4 p.key with q | ⟨-, -, q⟩
    · exact q
    · simp [opKey, hp] at q
  simp only [StoreStep, hl] at hs
  have : r = .notStored ∧ σ1 = a.σ := by cases app <;> simpa using hs
  obtain ⟨rfl, rfl⟩ := this
  exact ⟨rfl, live_none_now hl hb (Nat.le_of_eq e1.symm)⟩

example : ∃ l c, Path cfg0 true (Cf.start 5) l c ∧ l.map (fun e => (e.op, e.r)) =
    [(.alloc [97] 7 99 0 [120, 13, 10] mem, .allocated 0), (.store 0 .set mem, .stored 1),
     (.alloc [97] 3 0 1 [121, 122, 13, 10] mem, .allocated 1), (.store 1 .append mem, .stored 2),
     (.alloc [97] 3 0 0 [119, 13, 10] mem, .allocated 3), (.store 3 .prepend mem, .stored 3),
     (.alloc [97] 3 0 1 [121, 122, 13, 10] mem, .allocated 5), (.store 5 .append mem, .eexists),
     (.get [97], .hit 4 7 3 [119, 120, 121, 122, 13, 10])] :=
  demo_start (ops := [.alloc [97] 7 99 0 [120, 13, 10] mem, .store 0 .set mem,
    .alloc [97] 3 0 1 [121, 122, 13, 10] mem, .store 1 .append mem, .alloc [97] 3 0 0 [119, 13, 10] mem,
    .store 3 .prepend mem, .alloc [97] 3 0 1 [121, 122, 13, 10] mem, .store 5 .append mem, .get [97]])
    (by decide +kernel) (by decide)

/-! ## C08 -/

/-- In every reachable state an item is allocated exactly when it is in the table or some client holds it. -/
theorem C08_live_partial (cfg : Cfg) (fl : Bool) (now : Nat) {t : List Ev} {c : Cf} (h : Path cfg fl (Cf.start now) t c) (i : Id) :
    (∃ o, c.s.heap i = some o) ↔ (0 < c.h i ∨ ∃ k, c.s.tbl.lookup k = some i) := by
  have hI := (h.R (start_R cfg fl now)).inv
  constructor
  · rintro ⟨o, ho⟩
    cases hl : o.linked with
    | false => exact Or.inl (hI.noLeak i o ho hl)
    | true => exact Or.inr ⟨o.key, (hI.tblIff o.key i).mpr ⟨o, ho, hl, rfl⟩⟩
  · rintro (hh | ⟨k, hk⟩)
    · exact hI.heldOk i hh
    · obtain ⟨o, ho, -⟩ := (hI.tblIff k i).mp hk; exact ⟨o, ho⟩

/-- While a client holds an item its contents do not change (except that storing it fills in the unique id). -/
theorem C08_held_partial (cfg : Cfg) (fl : Bool) (now : Nat) {t : List Ev} {c c' : Cf} {e : Ev} (h : Path cfg fl (Cf.start now) t c)
    (he : Path cfg fl c [e] c') {i : Id} {o : Obj} (ho : c.s.heap i = some o) (h1 : 0 < c.h i) (h2 : 0 < c'.h i)
    (hs : ∀ sop env, e.op ≠ .store i sop env) :
    ∃ o', c'.s.heap i = some o' ∧ o'.key = o.key ∧ o'.flags = o.flags ∧ o'.cas = o.cas ∧ o'.coll = o.coll ∧ o'.data = o.data := by
  obtain ⟨a, q1, -, q2, q3, -, q4⟩ := Path.last (t := []) he
  cases q1
  obtain ⟨s', r, σ', k1, -, -, k4⟩ := step_sim (h.R (start_R cfg fl now)) q2
  rw [q3] at k1; simp only [Option.some.injEq, Prod.mk.injEq] at k1
  obtain ⟨rfl, rfl⟩ := k1
  rw [q4] at h2
  obtain ⟨o', m1, m2, m3, m4, m5, m6, -⟩ := k4 i o ho h1 h2 hs
  exact ⟨o', m1, m2, m3, m4, m5, m6⟩

/-- Memory that has been released is never released again nor used again: its identifier stays unallocated
(freeing or touching an unallocated item is a fault, and no legal call faults, `C01_simulation`). -/
theorem C08_once_partial (cfg : Cfg) (fl : Bool) {t : List Ev} {a c : Cf} (h : Path cfg fl a t c) {i : Id}
    (hi : i < a.s.nextId) (hf : a.s.heap i = none) : c.s.heap i = none := by
  induction h with
  | nil => exact hf
  | @cons x y op r s' σ' t g1 g2 g3 g4 g5 ih =>
    have hg := grow_step g2
    refine ih (Nat.lt_of_lt_of_le hi hg.1) ?_
    cases hs : s'.heap i with
    | none => rfl
    | some o => exact absurd hi (Nat.not_lt.mpr (hg.2 i hf (by rw [hs]; simp)))

/-- A held item survives delete and is released by its holder; the identifier is then dead. -/
example : ∃ l c, Path cfg0 true (Cf.start 5) l c ∧ l.map (fun e => (e.op, e.r)) =
    [(.alloc [97] 7 0 0 [120, 13, 10] mem, .allocated 0), (.store 0 .set mem, .stored 1), (.release 0, .ok),
     (.get [97], .hit 0 7 1 [120, 13, 10]), (.delete [97] 0, .ok), (.release 0, .ok)] :=
  demo_start (ops := [.alloc [97] 7 0 0 [120, 13, 10] mem, .store 0 .set mem, .release 0, .get [97],
    .delete [97] 0, .release 0]) (by decide) (by decide)

/-- `do_item_repair` (item_base.c 634-646) breaks C08: an item still held after three hours is freed when
memory is short, and the holder's release then touches freed memory (fault). -/
theorem C08_repair_false : exec cfg0 (init 5)
    [.alloc [97] 7 0 0 [120, 13, 10] mem, .store 0 .set mem, .tick 10801, .background [.repair 0], .release 0] = none := by
  decide

/-! ## C09 -/

/-- Full claim of C09: on a fresh cache with one item, any single call other than those that hand out or take back
a reference leaves its reference counter as it was.  **False**, see `C09_false`. -/
def C09_full : Prop := ∀ (cfg : Cfg) (s s' : St) (i : Id) (o o' : Obj) (op : Op) (r : Rep) (ops : List Op),
  (∃ reps, exec cfg (init 5) ops = some reps) →
  ops.foldl (fun s op => s.bind fun s => (step cfg s op).map (·.1)) (some (init 5)) = some s →
  step cfg s op = some (s', r) → (∀ h : Id → Nat, heldStep h op r = h) →
  s.heap i = some o → s'.heap i = some o' → o'.ref.cnt + 32768 * o'.ref.chunk = o.ref.cnt + 32768 * o.ref.chunk

/-- Counterexample: incr on a collection keeps the reference it took (items.c 369-371). -/
theorem C09_false : ¬ C09_full := by
  intro hf
  have := hf cfg0
    (match step cfg0 (init 5) (.collCreate [97] 0 0 mem) with | some (s, _) => s | none => init 5)
    (match step cfg0 (init 5) (.collCreate [97] 0 0 mem) with
     | some (s, _) => (match step cfg0 s (.arith [97] true false 1 0 0 0 [] mem) with | some (s, _) => s | none => init 5)
     | none => init 5)
    0 ⟨[97], 0, 0, 5, 1, true, [], true, true, ⟨0, 0⟩⟩ ⟨[97], 0, 0, 5, 1, true, [], true, true, ⟨1, 0⟩⟩
    (.arith [97] true false 1 0 0 0 [] mem) .ebadtype [.collCreate [97] 0 0 mem]
    ⟨[.stored 1], by decide⟩ rfl rfl (fun h => rfl) (by decide) (by decide)
  simp at this

/-- Part of C09 that holds: in every history of legal calls the reference counter pair of every item equals the
number of references the clients hold (handed out by allocation and get, given back by release).
Missing: arithmetic on a collection, which leaks one reference per call. -/
theorem C09_partial (cfg : Cfg) (fl : Bool) (now : Nat) {t : List Ev} {c : Cf} (h : Path cfg fl (Cf.start now) t c)
    {i : Id} {o : Obj} (ho : c.s.heap i = some o) : o.ref.cnt + 32768 * o.ref.chunk = c.h i :=
  ((h.R (start_R cfg fl now)).inv.refs i o ho).2

example : ∃ l c, Path cfg0 true (Cf.start 5) l c ∧ l.map (fun e => (e.op, e.r)) =
    [(.collCreate [97] 0 0 mem, .stored 1), (.get [97], .ebadtype), (.setExp [97] 100, .ok),
     (.alloc [97] 7 0 0 [120, 13, 10] mem, .allocated 1), (.store 1 .set mem, .ebadtype), (.release 1, .ok)] :=
  demo_start (ops := [.collCreate [97] 0 0 mem, .get [97], .setExp [97] 100, .alloc [97] 7 0 0 [120, 13, 10] mem,
    .store 1 .set mem, .release 1]) (by decide) (by decide)

end Verif.Item.Props
