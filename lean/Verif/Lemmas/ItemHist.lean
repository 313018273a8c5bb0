import Verif.Lemmas.ItemCmd
import Verif.Lemmas.Parse
/-! Histories of engine calls, and what the map specification says about them. -/
namespace Verif.Item
open Verif.Util Verif.Item.Spec

/-- Map state, engine state and references held by the clients. -/
structure Cf where
  σ : S
  s : St
  h : Id → Nat

/-- A call that was answered, with the map state before it. -/
structure Ev where
  σ : S
  op : Op
  r : Rep

/-- Sequences of legal calls executed by the engine, paired with the map specification. -/
inductive Path (cfg : Cfg) (fl : Bool) : Cf → List Ev → Cf → Prop where
  | nil (c : Cf) : Path cfg fl c [] c
  | cons {c c' : Cf} {op : Op} {r : Rep} {s' : St} {σ' : S} {t : List Ev} :
      Legal fl c.σ c.h op → step cfg c.s op = some (s', r) → Step cfg.delim c.σ op r σ' →
      R cfg fl σ' s' (heldStep c.h op r) → Path cfg fl ⟨σ', s', heldStep c.h op r⟩ t c' →
      Path cfg fl c (⟨c.σ, op, r⟩ :: t) c'

/-- The engine right after its start. -/
def Cf.start (now : Nat) : Cf := ⟨Spec.start now, init now, fun _ => 0⟩

/-- The call succeeded in writing key `k`. -/
def Ev.Writes (e : Ev) (k : Key) : Prop :=
  match e.op with
  | .store i _ _ => (∃ p, e.σ.pend i = some p ∧ p.key = k) ∧ ∃ c, e.r = .stored c
  | .arith k' _ _ _ _ _ _ _ _ => k' = k ∧ ∃ v c, e.r = .num v c
  | .collCreate k' _ _ _ => k' = k ∧ ∃ c, e.r = .stored c
  | _ => False

/-- The call changed the expiry time of key `k`. -/
def Ev.SetsExp (e : Ev) (k : Key) : Prop :=
  match e.op with
  | .setExp k' _ => k' = k ∧ e.r = .ok
  | _ => False

/-- The call may remove key `k`: a successful delete, a flush with `k` in its scope, or eviction work. -/
def Ev.MayRemove (d : Nat) (e : Ev) (k : Key) : Prop :=
  match e.op with
  | .delete k' _ => k' = k ∧ e.r = .ok
  | .flush sc _ => InScope d sc k
  | op => opActs op ≠ [] ∧ opKey e.σ op ≠ some k

variable {cfg : Cfg} {fl : Bool} {d : Nat}

theorem core_effect {σ σ' : S} {op : Op} {r : Rep} (hc : Core d σ op r σ') (k : Key) :
    σ.now ≤ σ'.now ∧ σ.cas ≤ σ'.cas ∧
    ((σ'.m k = σ.m k) ∨
     (σ'.m k = none ∧ Ev.MayRemove d ⟨σ, op, r⟩ k) ∨
     (Ev.SetsExp ⟨σ, op, r⟩ k ∧ ∃ e x, σ.live k = some e ∧ σ'.m k = some { e with exptime := x } ∧ op = .setExp k x) ∨
     (Ev.Writes ⟨σ, op, r⟩ k ∧ ∃ e, σ'.m k = some e ∧ e.cas = σ.cas + 1 ∧ σ'.cas = σ.cas + 1)) := by
  have put : ∀ k' f x c dd, Ev.Writes ⟨σ, op, r⟩ k' → σ' = σ.put k' f x c dd →
      σ.now ≤ σ'.now ∧ σ.cas ≤ σ'.cas ∧
      ((σ'.m k = σ.m k) ∨ (σ'.m k = none ∧ Ev.MayRemove d ⟨σ, op, r⟩ k) ∨
       (Ev.SetsExp ⟨σ, op, r⟩ k ∧ ∃ e x, σ.live k = some e ∧ σ'.m k = some { e with exptime := x } ∧ op = .setExp k x) ∨
       (Ev.Writes ⟨σ, op, r⟩ k ∧ ∃ e, σ'.m k = some e ∧ e.cas = σ.cas + 1 ∧ σ'.cas = σ.cas + 1)) := by
    intro k' f x c dd hw he
    subst he
    refine ⟨Nat.le_refl _, Nat.le_succ _, ?_⟩
    by_cases hk : k = k'
    · subst hk; right; right; right; exact ⟨hw, _, upd_self _ _ _, rfl, rfl⟩
    · left; exact upd_ne _ _ hk
  cases op with
  | tick dt => obtain ⟨-, rfl⟩ := hc; exact ⟨Nat.le_add_right _ _, Nat.le_refl _, Or.inl rfl⟩
  | alloc k' f e c dat env =>
    rcases hc with ⟨-, -, rfl⟩ | ⟨-, i, -, -, rfl⟩ <;> exact ⟨Nat.le_refl _, Nat.le_refl _, Or.inl rfl⟩
  | store i sop env =>
    obtain ⟨p, σ1, hp, hs, rfl⟩ := hc
    have key : (σ1 = σ ∨ σ1 = { σ with cas := σ.cas + 1 }) ∨
        ∃ f x c dd, r = .stored (σ.cas + 1) ∧ σ1 = σ.put p.key f x c dd := by
      unfold StoreStep at hs
      simp only at hs
      split at hs
      · cases sop <;> simp only at hs <;> grind
      · split at hs
        · exact Or.inl (Or.inl hs.2)
        · cases sop <;> simp only at hs <;> grind
    rcases key with (rfl | rfl) | ⟨f, x, c, dd, hr, rfl⟩
    · exact ⟨Nat.le_refl _, Nat.le_refl _, Or.inl rfl⟩
    · exact ⟨Nat.le_refl _, Nat.le_succ _, Or.inl rfl⟩
    · have hw : Ev.Writes ⟨σ, .store i sop env, r⟩ p.key := ⟨⟨p, hp, rfl⟩, _, hr⟩
      refine ⟨Nat.le_refl _, Nat.le_succ _, ?_⟩
      by_cases hk : k = p.key
      · subst hk; right; right; right; exact ⟨hw, _, upd_self _ _ _, rfl, rfl⟩
      · left; exact upd_ne _ _ hk
  | release i => obtain ⟨-, rfl⟩ := hc; exact ⟨Nat.le_refl _, Nat.le_refl _, Or.inl rfl⟩
  | get k' => obtain ⟨rfl, -⟩ := hc; exact ⟨Nat.le_refl _, Nat.le_refl _, Or.inl rfl⟩
  | delete k' c =>
    simp only [Core] at hc
    split at hc
    · obtain ⟨-, rfl⟩ := hc; exact ⟨Nat.le_refl _, Nat.le_refl _, Or.inl rfl⟩
    · split at hc
      · obtain ⟨hr, rfl⟩ := hc
        refine ⟨Nat.le_refl _, Nat.le_refl _, ?_⟩
        by_cases hk : k = k'
        · subst hk; right; left; exact ⟨upd_self _ _ _, rfl, hr⟩
        · left; exact upd_ne _ _ hk
      · obtain ⟨-, rfl⟩ := hc; exact ⟨Nat.le_refl _, Nat.le_refl _, Or.inl rfl⟩
  | arith k' inc cr dl ini f e rest env =>
    simp only [Core] at hc
    split at hc
    · split at hc
      · split at hc
        · rcases hc with ⟨-, hr, he⟩ | ⟨-, -, rfl⟩
          · exact put k' _ _ _ _ ⟨rfl, _, _, hr⟩ he
          · exact ⟨Nat.le_refl _, Nat.le_succ _, Or.inl rfl⟩
        · obtain ⟨-, rfl⟩ := hc; exact ⟨Nat.le_refl _, Nat.le_refl _, Or.inl rfl⟩
      · obtain ⟨-, rfl⟩ := hc; exact ⟨Nat.le_refl _, Nat.le_refl _, Or.inl rfl⟩
    · split at hc
      · split at hc
        · exact put k' _ _ _ _ ⟨rfl, _, _, hc.1⟩ hc.2
        · obtain ⟨-, rfl⟩ := hc; exact ⟨Nat.le_refl _, Nat.le_refl _, Or.inl rfl⟩
      · obtain ⟨-, rfl⟩ := hc; exact ⟨Nat.le_refl _, Nat.le_refl _, Or.inl rfl⟩
  | setExp k' x =>
    simp only [Core] at hc
    split at hc
    · obtain ⟨-, rfl⟩ := hc; exact ⟨Nat.le_refl _, Nat.le_refl _, Or.inl rfl⟩
    · next e he =>
      split at hc
      · obtain ⟨hr, rfl⟩ := hc
        refine ⟨Nat.le_refl _, Nat.le_refl _, ?_⟩
        by_cases hk : k = k'
        · subst hk; right; right; left; exact ⟨⟨rfl, hr⟩, e, x, he, upd_self _ _ _, rfl⟩
        · left; exact upd_ne _ _ hk
      · obtain ⟨-, rfl⟩ := hc; exact ⟨Nat.le_refl _, Nat.le_refl _, Or.inl rfl⟩
  | collCreate k' f e env =>
    simp only [Core] at hc
    split at hc
    · obtain ⟨-, rfl⟩ := hc; exact ⟨Nat.le_refl _, Nat.le_refl _, Or.inl rfl⟩
    · split at hc
      · rcases hc with ⟨-, hr, he⟩ | ⟨-, -, rfl⟩
        · exact put k' _ _ _ _ ⟨rfl, _, hr⟩ he
        · exact ⟨Nat.le_refl _, Nat.le_succ _, Or.inl rfl⟩
      · obtain ⟨-, rfl⟩ := hc; exact ⟨Nat.le_refl _, Nat.le_refl _, Or.inl rfl⟩
  | flush sc w =>
    obtain ⟨h1, h2, h3, h4, h5⟩ := hc
    refine ⟨Nat.le_of_eq h2.symm, Nat.le_of_eq h3.symm, ?_⟩
    by_cases hk : InScope d sc k
    · right; left; exact ⟨(h1 k).1 hk, hk⟩
    · left; exact (h1 k).2 hk
  | background acts => obtain ⟨-, rfl⟩ := hc; exact ⟨Nat.le_refl _, Nat.le_refl _, Or.inl rfl⟩

/-- Effect of one call on key `k` of the map. -/
theorem step_effect {σ σ' : S} {op : Op} {r : Rep} (hs : Step d σ op r σ') (k : Key) :
    σ.now ≤ σ'.now ∧ σ.cas ≤ σ'.cas ∧
    ((σ'.m k = σ.m k) ∨
     (σ'.m k = none ∧ Ev.MayRemove d ⟨σ, op, r⟩ k) ∨
     (Ev.SetsExp ⟨σ, op, r⟩ k ∧ ∃ e x, σ.live k = some e ∧ σ'.m k = some { e with exptime := x } ∧ op = .setExp k x) ∨
     (Ev.Writes ⟨σ, op, r⟩ k ∧ ∃ e, σ'.m k = some e ∧ e.cas = σ.cas + 1 ∧ σ'.cas = σ.cas + 1)) := by
  obtain ⟨σ1, hc, e1, e2, e3, e4⟩ := hs
  obtain ⟨h1, h2, h3⟩ := core_effect hc k
  refine ⟨by omega, by omega, ?_⟩
  rcases e4 k with e | ⟨e, ha, hk⟩
  · rw [e, e2]; exact h3
  · right; left; refine ⟨e, ?_⟩
    unfold Ev.MayRemove
    cases op <;> simp only [opActs] at ha ⊢ <;> first | exact ⟨ha, hk⟩ | exact absurd rfl ha

theorem step_expTime {σ σ' : S} {op : Op} {r : Rep} (hs : Step d σ op r σ') (k : Key) :
    σ.now ≤ σ'.now := (step_effect hs k).1

theorem Path.append {a b c : Cf} {t u : List Ev} (h1 : Path cfg fl a t b) (h2 : Path cfg fl b u c) :
    Path cfg fl a (t ++ u) c := by
  induction h1 with
  | nil => exact h2
  | cons g1 g2 g3 g4 _ ih => exact .cons g1 g2 g3 g4 (ih h2)

theorem Path.split {c : Cf} {u : List Ev} : ∀ {t : List Ev} {a : Cf}, Path cfg fl a (t ++ u) c →
    ∃ b, Path cfg fl a t b ∧ Path cfg fl b u c := by
  intro t
  induction t with
  | nil => intro a h; exact ⟨a, .nil a, h⟩
  | cons e t ih =>
    intro a h
    cases h with
    | cons g1 g2 g3 g4 g5 =>
      obtain ⟨b, k1, k2⟩ := ih g5
      exact ⟨b, .cons g1 g2 g3 g4 k1, k2⟩

theorem Path.R {a b : Cf} {t : List Ev} (hR : Item.R cfg fl a.σ a.s a.h) (h : Path cfg fl a t b) :
    Item.R cfg fl b.σ b.s b.h := by
  induction h with
  | nil => exact hR
  | cons g1 g2 g3 g4 _ ih => exact ih g4

/-- A successful write leaves an entry with the next unique id. -/
theorem writes_put {σ σ' : S} {op : Op} {r : Rep} (hc : Core d σ op r σ') {k : Key} (hw : Ev.Writes ⟨σ, op, r⟩ k) :
    ∃ e, σ'.m k = some e ∧ e.cas = σ.cas + 1 := by
  cases op with
  | store i sop env =>
    obtain ⟨⟨p, hp, hk⟩, c, hr⟩ := hw
    simp only at hp hr
    obtain ⟨p', σ1, hp', hs, rfl⟩ := hc
    rw [hp] at hp'; injection hp' with hp'; subst hp' hk
    have : ∃ f x c dd, σ1 = σ.put p.key f x c dd := by
      unfold StoreStep at hs
      simp only at hs
      split at hs
      · cases sop <;> simp only at hs <;> grind
      · split at hs
        · obtain ⟨h1, -⟩ := hs; rw [hr] at h1; simp at h1
        · cases sop <;> simp only at hs <;> grind
    obtain ⟨f, x, c, dd, rfl⟩ := this
    exact ⟨_, upd_self _ _ _, rfl⟩
  | arith k' inc cr dl ini f e rest env =>
    obtain ⟨rfl, v, c, hr⟩ := hw
    simp only at hr
    simp only [Core, hr] at hc
    split at hc
    · split at hc
      · split at hc
        · rcases hc with ⟨-, -, rfl⟩ | ⟨-, h1, -⟩
          · exact ⟨_, upd_self _ _ _, rfl⟩
          · simp at h1
        · simp at hc
      · simp at hc
    · split at hc
      · split at hc
        · obtain ⟨-, rfl⟩ := hc; exact ⟨_, upd_self _ _ _, rfl⟩
        · simp at hc
      · simp at hc
  | collCreate k' f e env =>
    obtain ⟨rfl, c, hr⟩ := hw
    simp only at hr
    simp only [Core, hr] at hc
    split at hc
    · simp at hc
    · split at hc
      · rcases hc with ⟨-, -, rfl⟩ | ⟨-, h1, -⟩
        · exact ⟨_, upd_self _ _ _, rfl⟩
        · simp at h1
      · simp at hc
  | _ => simp [Ev.Writes] at hw

/-- Unique ids in the map are at most the counter. -/
def CasLe (σ : S) : Prop := ∀ k e, σ.m k = some e → e.cas ≤ σ.cas

theorem live_some {σ : S} {k : Key} {e : Entry} (h : σ.live k = some e) :
    σ.m k = some e ∧ ¬ (e.exptime ≠ 0 ∧ e.exptime ≤ σ.now) := by
  unfold S.live at h
  split at h
  · simp at h
  · split at h
    · simp at h
    · next h1 => injection h with h; subst h; exact ⟨by assumption, h1⟩

theorem CasLe.step {σ σ' : S} {op : Op} {r : Rep} (h : CasLe σ) (hs : Step d σ op r σ') : CasLe σ' := by
  intro k e he
  obtain ⟨h1, h2, h3⟩ := step_effect hs k
  rcases h3 with g | ⟨g, -⟩ | ⟨-, e0, x, g1, g2, -⟩ | ⟨-, e0, g1, g2, g3⟩
  · rw [g] at he; have := h k e he; omega
  · rw [g] at he; simp at he
  · rw [g2] at he; injection he with he; subst he
    have := h k e0 (live_some g1).1; exact Nat.le_trans this h2
  · rw [g1] at he; injection he with he; subst he; omega

theorem Path.casLe {a b : Cf} {t : List Ev} (h : Path cfg fl a t b) (hc : CasLe a.σ) : CasLe b.σ := by
  induction h with
  | nil => exact hc
  | cons g1 g2 g3 g4 _ ih => exact ih (hc.step g3)

theorem Path.cas_mono {a b : Cf} {t : List Ev} (h : Path cfg fl a t b) : a.σ.cas ≤ b.σ.cas := by
  induction h with
  | nil => exact Nat.le_refl _
  | cons g1 g2 g3 g4 _ ih => exact Nat.le_trans (step_effect g3 []).2.1 ih

theorem Path.now_mono {a b : Cf} {t : List Ev} (h : Path cfg fl a t b) : a.σ.now ≤ b.σ.now := by
  induction h with
  | nil => exact Nat.le_refl _
  | cons g1 g2 g3 g4 _ ih => exact Nat.le_trans (step_effect g3 []).1 ih

/-- An entry carrying an old unique id has been there all along, with the same contents. -/
theorem Path.same {a b : Cf} {t : List Ev} (h : Path cfg fl a t b) (hc : CasLe a.σ) {k : Key} {e : Entry}
    (he : b.σ.m k = some e) (hu : e.cas ≤ a.σ.cas) :
    (∃ e0, a.σ.m k = some e0 ∧ e = { e0 with exptime := e.exptime }) ∧
    (∀ ev ∈ t, ¬ ev.Writes k) ∧
    (∀ ev ∈ t, ∃ e1, ev.σ.m k = some e1 ∧ e = { e1 with exptime := e.exptime }) := by
  induction h with
  | nil => exact ⟨⟨e, he, rfl⟩, by simp, by simp⟩
  | @cons c c' op r s' σ' t g1 g2 g3 g4 g5 ih =>
    obtain ⟨m1, m2, h3⟩ := step_effect g3 k
    have m2' : c.σ.cas ≤ σ'.cas := m2
    obtain ⟨⟨e0, k1, k2⟩, k3, k4⟩ := ih (hc.step g3) he (Nat.le_trans hu m2')
    have hcas : e0.cas = e.cas := by rw [k2]
    have hu' : e.cas ≤ c.σ.cas := hu
    have k1' : σ'.m k = some e0 := k1
    have key : ¬ Ev.Writes ⟨c.σ, op, r⟩ k → ∃ e1, c.σ.m k = some e1 ∧ e = { e1 with exptime := e.exptime } := by
      intro hw
      rcases h3 with g | ⟨g, -⟩ | ⟨-, e1, x, q1, q2, -⟩ | ⟨g, -⟩
      · exact ⟨e0, by rw [← g]; exact k1', k2⟩
      · rw [g] at k1'; simp at k1'
      · rw [q2] at k1'; injection k1' with k1'; subst k1'
        exact ⟨e1, (live_some q1).1, by rw [k2]⟩
      · exact absurd g hw
    have hw : ¬ Ev.Writes ⟨c.σ, op, r⟩ k := by
      intro hw
      -- a write leaves a newer id
      obtain ⟨σ1, hcore, e1, e2, e3, e4⟩ := g3
      have hk := writes_put hcore hw
      rcases e4 k with q | ⟨q, -⟩
      · rw [q] at k1'; obtain ⟨en, p1, p2⟩ := hk; rw [p1] at k1'; injection k1' with k1'; subst k1'; omega
      · rw [q] at k1'; simp at k1'
    refine ⟨key hw, ?_, ?_⟩
    · intro ev hev; rcases List.mem_cons.mp hev with rfl | hev
      · exact hw
      · exact k3 ev hev
    · intro ev hev; rcases List.mem_cons.mp hev with rfl | hev
      · exact key hw
      · exact k4 ev hev

/-! ### allocation of identifiers -/

/-- Identifiers are only ever allocated upwards. -/
def Grow (s s' : St) : Prop :=
  s.nextId ≤ s'.nextId ∧ ∀ i, s.heap i = none → s'.heap i ≠ none → s.nextId ≤ i

theorem Grow.refl (s : St) : Grow s s := ⟨Nat.le_refl _, fun _ h1 h2 => absurd h1 h2⟩
theorem Grow.trans {a b c : St} (h1 : Grow a b) (h2 : Grow b c) : Grow a c := by
  refine ⟨Nat.le_trans h1.1 h2.1, fun i g1 g2 => ?_⟩
  by_cases hb : b.heap i = none
  · exact Nat.le_trans h1.1 (h2.2 i hb g2)
  · exact h1.2 i g1 hb

theorem Grow.after {a b c : St} (h2 : Grow b c) (h1 : Grow a b) : Grow a c := h1.trans h2

/-- Changing allocated objects and other fields. -/
theorem Grow.upd {s s' : St} {i : Id} {o : Obj} {x : Option Obj} (ho : s.heap i = some o)
    (hn : s'.nextId = s.nextId) (hh : s'.heap = upd s.heap i x) : Grow s s' := by
  refine ⟨Nat.le_of_eq hn.symm, fun j g1 g2 => ?_⟩
  rw [hh] at g2
  by_cases hj : j = i
  · subst hj; rw [ho] at g1; simp at g1
  · rw [upd_ne _ _ hj] at g2; exact absurd g1 g2

theorem grow_linkQ {s s' : St} {i : Id} (h : itemLinkQ cfg s i = some s') : Grow s s' := by
  unfold itemLinkQ at h
  split at h
  · simp at h
  · next o ho => simp only [Option.some.injEq] at h; subst h; exact Grow.upd ho rfl rfl

theorem grow_unlinkQ {s s' : St} {i : Id} (h : itemUnlinkQ cfg s i = some s') : Grow s s' := by
  unfold itemUnlinkQ at h
  split at h
  · simp at h
  · next o ho =>
    split at h
    · simp only [Option.some.injEq] at h; subst h; exact .refl _
    · simp only [Option.some.injEq] at h; subst h; exact Grow.upd ho rfl rfl

theorem grow_free {s s' : St} {i : Id} (h : doItemFree s i = some s') : Grow s s' := by
  unfold doItemFree at h
  split at h
  · simp at h
  · next o ho =>
    split at h
    · simp at h
    · simp only [Option.some.injEq] at h; subst h; exact Grow.upd ho rfl rfl

theorem pfxDrop_heap (s : St) (p : List Nat) : (pfxDrop cfg s p).heap = s.heap ∧ (pfxDrop cfg s p).nextId = s.nextId := by
  unfold pfxDrop; split <;> exact ⟨rfl, rfl⟩

theorem grow_unlink {s s' : St} {i : Id} (h : doItemUnlink cfg s i = some s') : Grow s s' := by
  unfold doItemUnlink at h
  split at h
  · simp at h
  · next o ho =>
    split at h
    · simp only [Option.some.injEq] at h; subst h; exact .refl _
    · split at h
      · simp at h
      · next s1 h1 =>
        split at h
        · simp at h
        · next o1 ho1 =>
          simp only at h
          have g1 := grow_unlinkQ h1
          have g2 : Grow s1 (pfxDrop cfg { s1 with tbl := assocDelete s1.tbl o1.key, heap := upd s1.heap i (some { o1 with linked := false }) } (pfxOf cfg o1.key)) :=
            Grow.upd ho1 (pfxDrop_heap _ _).2 (pfxDrop_heap _ _).1
          split at h
          · exact (g1.trans g2).trans (grow_free h)
          · simp only [Option.some.injEq] at h; subst h; exact g1.trans g2

theorem grow_link {s s' : St} {i : Id} {r : Rep} (h : doItemLink cfg s i = some (s', r)) : Grow s s' := by
  unfold doItemLink at h
  split at h
  · simp at h
  · next o ho =>
    split at h
    · simp at h
    · simp only at h
      split at h
      · simp only [Option.some.injEq, Prod.mk.injEq] at h; obtain ⟨rfl, -⟩ := h; exact Grow.upd ho rfl rfl
      · split at h
        · simp at h
        · split at h
          · simp at h
          · next s1 h1 =>
            simp only [Option.some.injEq, Prod.mk.injEq] at h; obtain ⟨rfl, -⟩ := h
            refine (grow_linkQ h1).after (Grow.upd (x := some { o with cas := s.casId + 1, linked := true, time := s.now }) ho rfl ?_)
            funext j; simp only [upd]; split <;> simp_all

theorem grow_replace {s s' : St} {a b : Id} {c : Nat} (h : doItemReplace cfg s a b = some (s', c)) : Grow s s' := by
  unfold doItemReplace at h
  split at h
  · simp at h
  · next o ho =>
    split at h
    · simp at h
    · split at h
      · simp at h
      · next s1 h1 =>
        split at h
        · simp at h
        · next n hn =>
          simp only at h
          split at h
          · simp at h
          · next o2 ho2 =>
            split at h
            · simp at h
            · next s3 h3 =>
              split at h
              · simp at h
              · next s4 h4 =>
                simp only [Option.some.injEq, Prod.mk.injEq] at h; obtain ⟨rfl, -⟩ := h
                refine (grow_linkQ h4).after ((grow_unlinkQ h1).trans ?_)
                have g1 : Grow s1 { s1 with casId := s1.casId + 1, heap := upd s1.heap b (some { n with cas := s1.casId + 1, linked := true, time := s1.now }), tbl := assocReplace s1.tbl a b } :=
                  Grow.upd hn rfl rfl
                split at h3
                · exact (grow_free h3).after (g1.trans (Grow.upd ho2 rfl rfl))
                · simp only [Option.some.injEq] at h3; subst h3; exact g1.trans (Grow.upd ho2 rfl rfl)

theorem grow_update {s s' : St} {i : Id} {f : Bool} (h : doItemUpdate cfg s i f = some s') : Grow s s' := by
  unfold doItemUpdate at h
  split at h
  · simp at h
  · next o ho =>
    split at h
    · simp only [Option.some.injEq] at h; subst h; exact .refl _
    · split at h
      · split at h
        · simp at h
        · next s1 h1 =>
          split at h
          · simp at h
          · next o1 ho1 =>
            exact (grow_linkQ h).after ((grow_unlinkQ h1).trans (Grow.upd ho1 rfl rfl))
      · simp only [Option.some.injEq] at h; subst h; exact .refl _

theorem grow_get {s s' : St} {k : Key} {u : Bool} {x : Option Id} (h : doItemGet cfg s k u = some (s', x)) : Grow s s' := by
  unfold doItemGet at h
  split at h
  · simp only [Option.some.injEq, Prod.mk.injEq] at h; obtain ⟨rfl, -⟩ := h; exact .refl _
  · next i hi =>
    split at h
    · simp at h
    · next o ho =>
      split at h
      · split at h
        · simp at h
        · next r hr =>
          simp only at h
          have g : Grow s { s with heap := upd s.heap i (some { o with ref := r }) } := Grow.upd ho rfl rfl
          split at h
          · split at h
            · simp at h
            · next s1 h1 =>
              simp only [Option.some.injEq, Prod.mk.injEq] at h; obtain ⟨rfl, -⟩ := h
              exact g.trans (grow_update h1)
          · simp only [Option.some.injEq, Prod.mk.injEq] at h; obtain ⟨rfl, -⟩ := h; exact g
      · split at h
        · simp at h
        · next s1 h1 =>
          simp only [Option.some.injEq, Prod.mk.injEq] at h; obtain ⟨rfl, -⟩ := h
          exact grow_unlink h1

theorem grow_release {s s' : St} {i : Id} (h : doItemRelease cfg s i = some s') : Grow s s' := by
  unfold doItemRelease at h
  split at h
  · simp at h
  · next o ho =>
    generalize (if o.ref.cnt ≠ 0 then o.ref.decr else o.ref) = r at h
    simp only at h
    have g : Grow s { s with heap := upd s.heap i (some { o with ref := r }) } := Grow.upd ho rfl rfl
    split at h
    · split at h
      · exact g.trans (grow_free h)
      · split at h
        · split at h
          · refine (grow_linkQ h).after (Grow.upd (x := some { o with ref := r, time := s.now }) ho rfl ?_)
            funext j; simp only [upd]; split <;> simp_all
          · exact g.trans (grow_unlink h)
        · simp only [Option.some.injEq] at h; subst h; exact g
    · simp only [Option.some.injEq] at h; subst h; exact g

theorem grow_envAct {s s' : St} {a : EnvAct} (h : envAct cfg s a = some s') : Grow s s' := by
  cases a with
  | evict i =>
    simp only [envAct] at h
    split at h
    · simp only [Option.some.injEq] at h; subst h; exact .refl _
    · split at h
      · exact grow_unlink h
      · simp only [Option.some.injEq] at h; subst h; exact .refl _
  | lruDrop i =>
    simp only [envAct] at h
    split at h
    · simp only [Option.some.injEq] at h; subst h; exact .refl _
    · split at h
      · exact grow_unlinkQ h
      · simp only [Option.some.injEq] at h; subst h; exact .refl _
  | repair i =>
    simp only [envAct] at h
    split at h
    · simp only [Option.some.injEq] at h; subst h; exact .refl _
    · next o ho =>
      split at h
      · exact (grow_unlink h).after (Grow.upd ho rfl rfl)
      · simp only [Option.some.injEq] at h; subst h; exact .refl _

theorem grow_envActs {acts : List EnvAct} : ∀ {s s' : St}, envActs cfg s acts = some s' → Grow s s' := by
  induction acts with
  | nil => intro s s' h; simp only [envActs, Option.some.injEq] at h; subst h; exact .refl _
  | cons a as ih =>
    intro s s' h
    simp only [envActs] at h
    split at h
    · simp at h
    · next s1 h1 => exact (grow_envAct h1).trans (ih h)

theorem grow_alloc {s s' : St} {env : Env} {k : Key} {f e : Nat} {c : Bool} {dat : List Nat} {x : Option Id}
    (h : doItemAlloc cfg s env k f e c dat = some (s', x)) :
    Grow s s' := by
  unfold doItemAlloc at h
  split at h
  · simp at h
  · next s1 h1 =>
    split at h
    · simp only [Option.some.injEq, Prod.mk.injEq] at h; obtain ⟨rfl, -⟩ := h
      refine (grow_envActs h1).trans ⟨Nat.le_succ _, fun j g1 g2 => ?_⟩
      simp only [upd] at g2
      split at g2
      · next hj => exact Nat.le_of_eq hj.symm
      · exact absurd g1 g2
    · simp only [Option.some.injEq, Prod.mk.injEq] at h; obtain ⟨rfl, -⟩ := h; exact grow_envActs h1

theorem grow_walk {sc : Key → Bool} {mark : Nat} : ∀ {ids : List Id} {s s' : St},
    flushWalk cfg sc mark s ids = some s' → Grow s s' := by
  intro ids
  induction ids with
  | nil => intro s s' h; simp only [flushWalk, Option.some.injEq] at h; subst h; exact .refl _
  | cons i ids ih =>
    intro s s' h
    unfold flushWalk at h
    repeat' split at h
    all_goals first
      | simp at h; done
      | (simp only [Option.some.injEq] at h; subst h; exact .refl _)
      | (next h1 => exact (grow_unlink h1).trans (ih h))
      | exact ih h

theorem grow_classes {sc : Key → Bool} {mark : Nat} : ∀ {qs : List (Nat × Bool)} {s s' : St},
    flushClasses cfg sc mark s qs = some s' → Grow s s' := by
  intro qs
  induction qs with
  | nil => intro s s' h; simp only [flushClasses, Option.some.injEq] at h; subst h; exact .refl _
  | cons i ids ih =>
    intro s s' h
    unfold flushClasses at h
    split at h
    · simp at h
    · next s1 h1 => exact (grow_walk h1).trans (ih h)

macro "grow_tac" h:ident : tactic => `(tactic| (
  repeat' split at $h:ident
  all_goals first
    | (simp at $h:ident; done)
    | (simp only [Option.some.injEq, Prod.mk.injEq] at $h:ident; obtain ⟨rfl, -⟩ := $h:ident
       grind [→ Grow.trans, Grow.refl, → grow_link, → grow_replace, → grow_update, → grow_get, → grow_release, → grow_alloc])
    | grind [→ Grow.trans, Grow.refl, → grow_link, → grow_replace, → grow_update, → grow_get, → grow_release, → grow_alloc]))

theorem grow_set {s s' : St} {i : Id} {r : Rep} (h : storeSet cfg s i = some (s', r)) : Grow s s' := by
  unfold storeSet at h; grow_tac h
theorem grow_add {s s' : St} {i : Id} {r : Rep} (h : storeAdd cfg s i = some (s', r)) : Grow s s' := by
  unfold storeAdd at h; grow_tac h
theorem grow_repl {s s' : St} {i : Id} {r : Rep} (h : storeReplace cfg s i = some (s', r)) : Grow s s' := by
  unfold storeReplace at h; grow_tac h
theorem grow_cas {s s' : St} {i : Id} {r : Rep} (h : storeCas cfg s i = some (s', r)) : Grow s s' := by
  unfold storeCas at h; grow_tac h
theorem grow_attach {s s' : St} {i : Id} {r : Rep} {a : Bool} {env : Env} (h : storeAttach cfg s i a env = some (s', r)) :
    Grow s s' := by
  unfold storeAttach at h; grow_tac h
theorem grow_delta {s s' : St} {i : Id} {r : Rep} {a : Bool} {d : Nat} {rest : List Nat} {env : Env}
    (h : doAddDelta cfg s i a d rest env = some (s', r)) : Grow s s' := by
  unfold doAddDelta at h; grow_tac h

theorem grow_arith {s s' : St} {k : Key} {inc cr : Bool} {d ini f e : Nat} {rest : List Nat} {env : Env} {r : Rep}
    (h : itemArithmetic cfg s k inc cr d ini f e rest env = some (s', r)) : Grow s s' := by
  unfold itemArithmetic at h
  repeat' split at h
  all_goals first
    | (simp at h; done)
    | (simp only [Option.some.injEq, Prod.mk.injEq] at h; obtain ⟨rfl, -⟩ := h
       grind [→ Grow.trans, Grow.refl, → grow_get, → grow_release, → grow_alloc, → grow_add, → grow_delta])

theorem grow_delete {s s' : St} {k : Key} {c : Nat} {r : Rep}
    (h : itemDelete cfg s k c = some (s', r)) : Grow s s' := by
  unfold itemDelete at h
  repeat' split at h
  all_goals first
    | (simp at h; done)
    | (simp only [Option.some.injEq, Prod.mk.injEq] at h; obtain ⟨rfl, -⟩ := h
       grind [→ Grow.trans, Grow.refl, → grow_get, → grow_release, → grow_unlink])

theorem grow_setExp {s s' : St} {k : Key} {c : Nat} {r : Rep}
    (h : itemSetExp cfg s k c = some (s', r)) : Grow s s' := by
  unfold itemSetExp at h
  split at h
  · simp at h
  · next h1 => simp only [Option.some.injEq, Prod.mk.injEq] at h; obtain ⟨rfl, -⟩ := h; exact grow_get h1
  · next s1 i h1 =>
    split at h
    · simp at h
    · next o ho =>
      split at h
      · split at h
        · simp at h
        · next h2 => simp only [Option.some.injEq, Prod.mk.injEq] at h; obtain ⟨rfl, -⟩ := h; exact (grow_get h1).trans (grow_release h2)
      · simp only at h
        split at h
        · simp at h
        · next s2 h2 =>
          split at h
          · simp at h
          · next h3 =>
            simp only [Option.some.injEq, Prod.mk.injEq] at h; obtain ⟨rfl, -⟩ := h
            refine (grow_release h3).after ((grow_get h1).trans ?_)
            split at h2
            · exact (grow_update h2).after (Grow.upd ho rfl rfl)
            · simp only [Option.some.injEq] at h2; subst h2; exact Grow.upd ho rfl rfl

theorem grow_step {s s' : St} {op : Op} {r : Rep} (h : step cfg s op = some (s', r)) : Grow s s' := by
  cases op with
  | tick dt =>
    simp only [step, Option.some.injEq, Prod.mk.injEq] at h; obtain ⟨rfl, -⟩ := h
    exact ⟨Nat.le_refl _, fun _ a b => absurd a b⟩
  | alloc k f e c dat env =>
    simp only [step, itemAlloc] at h
    split at h
    · simp at h
    · next h1 => simp only [Option.some.injEq, Prod.mk.injEq] at h; obtain ⟨rfl, -⟩ := h; exact grow_alloc h1
    · next h1 =>
      split at h
      · simp at h
      · next ho =>
        simp only [Option.some.injEq, Prod.mk.injEq] at h; obtain ⟨rfl, -⟩ := h
        exact (grow_alloc h1).trans (Grow.upd ho rfl rfl)
  | store i sop env =>
    simp only [step, itemStore] at h
    cases sop <;> simp only at h
    · exact grow_set h
    · exact grow_add h
    · exact grow_repl h
    · exact grow_cas h
    · exact grow_attach h
    · exact grow_attach h
  | release i =>
    simp only [step, Option.map_eq_some_iff] at h; obtain ⟨s1, h1, h2⟩ := h
    simp only [Prod.mk.injEq] at h2; obtain ⟨rfl, -⟩ := h2; exact grow_release h1
  | get k => simp only [step, itemGet] at h; grow_tac h
  | delete k c => exact grow_delete h
  | arith k inc cr d ini f e rest env => exact grow_arith h
  | setExp k x => exact grow_setExp h
  | collCreate k f e env => simp only [step, collCreate] at h; grow_tac h
  | flush sc w =>
    simp only [step, itemFlush] at h
    generalize (if w = 0 then s.now - 1 else w - 1) = mark at h
    have aux : ∀ s1 : St, s1.heap = s.heap → s1.nextId = s.nextId → Grow s s1 := fun s1 a b =>
      ⟨Nat.le_of_eq b.symm, fun i g1 g2 => by rw [a] at g2; exact absurd g1 g2⟩
    split at h
    · split at h
      · simp only [Option.some.injEq, Prod.mk.injEq] at h; obtain ⟨rfl, -⟩ := h; exact .refl _
      · split at h
        · split at h
          · simp at h
          · next h1 =>
            simp only [Option.some.injEq, Prod.mk.injEq] at h; obtain ⟨rfl, -⟩ := h
            exact (grow_classes h1).after (aux _ rfl rfl)
        · simp only [Option.some.injEq, Prod.mk.injEq] at h; obtain ⟨rfl, -⟩ := h; exact aux _ rfl rfl
    · split at h
      · split at h
        · simp at h
        · next h1 =>
          simp only [Option.some.injEq, Prod.mk.injEq] at h; obtain ⟨rfl, -⟩ := h
          exact (grow_classes h1).after (aux _ rfl rfl)
      · simp only [Option.some.injEq, Prod.mk.injEq] at h; obtain ⟨rfl, -⟩ := h; exact aux _ rfl rfl
  | background acts =>
    simp only [step, Option.map_eq_some_iff] at h; obtain ⟨s1, h1, h2⟩ := h
    simp only [Prod.mk.injEq] at h2; obtain ⟨rfl, -⟩ := h2; exact grow_envActs h1

/-! ### consequences for histories -/

theorem Path.last {a b : Cf} {t : List Ev} {e : Ev} (h : Path cfg fl a (t ++ [e]) b) :
    ∃ c, Path cfg fl a t c ∧ e.σ = c.σ ∧ Legal fl c.σ c.h e.op ∧ step cfg c.s e.op = some (b.s, e.r) ∧
      Step cfg.delim c.σ e.op e.r b.σ ∧ b.h = heldStep c.h e.op e.r := by
  obtain ⟨c, h1, h2⟩ := h.split
  cases h2 with
  | cons g1 g2 g3 g4 g5 =>
    cases g5
    exact ⟨c, h1, rfl, g1, g2, g3, rfl⟩

theorem start_R (cfg : Cfg) (fl : Bool) (now : Nat) : Item.R cfg fl (Cf.start now).σ (Cf.start now).s (Cf.start now).h :=
  R.init cfg fl now

theorem start_casLe (now : Nat) : CasLe (Cf.start now).σ := by
  intro k e h; simp [Cf.start, Spec.start] at h

/-- No call of the history concerns key `k` except reads. -/
def Ev.Quiet (d : Nat) (e : Ev) (k : Key) : Prop := ¬ e.Writes k ∧ ¬ e.SetsExp k ∧ ¬ e.MayRemove d k

theorem Path.quiet {a b : Cf} {t : List Ev} (h : Path cfg fl a t b) {k : Key}
    (hq : ∀ e ∈ t, e.Quiet cfg.delim k) : b.σ.m k = a.σ.m k := by
  induction h with
  | nil => rfl
  | @cons c c' op r s' σ' t g1 g2 g3 g4 g5 ih =>
    obtain ⟨-, -, h3⟩ := step_effect g3 k
    obtain ⟨q1, q2, q3⟩ := hq _ (List.mem_cons_self ..)
    rw [ih (fun e he => hq e (List.mem_cons_of_mem _ he))]
    rcases h3 with g | ⟨-, g⟩ | ⟨g, -⟩ | ⟨g, -⟩
    · exact g
    · exact absurd g q3
    · exact absurd g q2
    · exact absurd g q1

theorem live_none_now {σ σ' : S} {k : Key} (h : σ.live k = none) (hm : σ'.m k = σ.m k) (hn : σ.now ≤ σ'.now) :
    σ'.live k = none := by
  unfold S.live at h ⊢
  rw [hm]
  split at h
  · rfl
  · next e h1 =>
    split at h
    · next h2 => rw [if_pos ⟨h2.1, Nat.le_trans h2.2 hn⟩]
    · simp at h

theorem Path.dead {a b : Cf} {t : List Ev} (h : Path cfg fl a t b) {k : Key} (hd : a.σ.live k = none)
    (hq : ∀ e ∈ t, ¬ e.Writes k) : b.σ.live k = none := by
  induction h with
  | nil => exact hd
  | @cons c c' op r s' σ' t g1 g2 g3 g4 g5 ih =>
    obtain ⟨hn, -, h3⟩ := step_effect g3 k
    refine ih ?_ (fun e he => hq e (List.mem_cons_of_mem _ he))
    rcases h3 with g | ⟨g, -⟩ | ⟨-, e, x, g, -⟩ | ⟨g, -⟩
    · exact live_none_now hd g hn
    · exact live_none g
    · rw [hd] at g; simp at g
    · exact absurd g (hq _ (List.mem_cons_self ..))

/-- Without writes and expiry changes the entry stays the same or disappears. -/
theorem Path.fades {a b : Cf} {t : List Ev} (h : Path cfg fl a t b) {k : Key}
    (hq : ∀ e ∈ t, ¬ e.Writes k ∧ ¬ e.SetsExp k) : b.σ.m k = a.σ.m k ∨ b.σ.m k = none := by
  induction h with
  | nil => exact Or.inl rfl
  | @cons c c' op r s' σ' t g1 g2 g3 g4 g5 ih =>
    obtain ⟨-, -, h3⟩ := step_effect g3 k
    obtain ⟨q1, q2⟩ := hq _ (List.mem_cons_self ..)
    have ih := ih (fun e he => hq e (List.mem_cons_of_mem _ he))
    rcases h3 with g | ⟨g, -⟩ | ⟨g, -⟩ | ⟨g, -⟩
    · simp only at ih; rw [g] at ih; exact ih
    · simp only at ih; rw [g] at ih; simp at ih; exact Or.inr ih
    · exact absurd g q2
    · exact absurd g q1

/-- What a get answers. -/
theorem get_reply {a b : Cf} {t : List Ev} {σ : S} {k : Key} {r : Rep}
    (h : Path cfg fl a (t ++ [⟨σ, .get k, r⟩]) b) :
    ∃ c, Path cfg fl a t c ∧ σ = c.σ ∧
      match c.σ.live k with
      | none => r = .enoent
      | some e => if e.coll then r = .ebadtype else ∃ i, r = .hit i e.flags e.cas e.data := by
  obtain ⟨c, h1, h2, -, -, h3, -⟩ := h.last
  obtain ⟨σ1, hc, -⟩ := h3
  exact ⟨c, h1, h2, hc.2⟩

/-- A successful set leaves exactly the stored item. -/
theorem set_effect {a b : Cf} {σ : S} {i : Id} {env : Env} {c : Nat} {p : Pend}
    (h : Path cfg fl a [⟨σ, .store i .set env, .stored c⟩] b) (hp : σ.pend i = some p) :
    c = σ.cas + 1 ∧ b.σ.m p.key = some ⟨p.flags, p.exptime, c, false, p.data⟩ ∧ b.σ.now = σ.now := by
  obtain ⟨c', h1, h2, -, -, h3, -⟩ := Path.last (t := []) h
  cases h1
  simp only at h2 h3
  subst h2
  obtain ⟨σ1, ⟨p', σ2, hp', hs, rfl⟩, e1, e2, e3, e4⟩ := h3
  rw [hp] at hp'; injection hp' with hp'; subst hp'
  have key : c = a.σ.cas + 1 ∧ σ2 = a.σ.put p.key p.flags p.exptime false p.data := by
    unfold StoreStep at hs
    simp only [Rep.stored.injEq] at hs
    split at hs
    · rcases hs with ⟨-, h⟩ | ⟨-, h, -⟩
      · exact h
      · simp at h
    · split at hs
      · simp at hs
      · exact hs
  obtain ⟨rfl, rfl⟩ := key
  refine ⟨rfl, ?_, e1⟩
  rcases e4 p.key with q | ⟨-, -, q⟩
  · rw [q]; exact upd_self _ _ _
  · exact absurd (by simp [opKey, hp]) q

theorem flush_effect {a b : Cf} {σ : S} {sc : Option (List Nat)} {w : Nat} {r : Rep}
    (h : Path cfg fl a [⟨σ, .flush sc w, r⟩] b) (k : Key) :
    (InScope cfg.delim sc k → b.σ.m k = none) ∧ (¬ InScope cfg.delim sc k → b.σ.m k = a.σ.m k) := by
  obtain ⟨c', h1, h2, -, -, h3, -⟩ := Path.last (t := []) h
  cases h1
  obtain ⟨σ1, ⟨hc, -⟩, e1, e2, e3, e4⟩ := h3
  have : b.σ.m k = σ1.m k := by
    rcases e4 k with q | ⟨-, q, -⟩
    · exact q
    · simp [opActs] at q
  rw [this]; exact hc k

/-! ### numbers in item data -/

theorem digit_notspace {c : Nat} (h : Verif.Util.Spec.Digit c) : isspace c = false := by
  unfold Verif.Util.Spec.Digit at h; unfold isspace; simp; omega

/-- Parse of decimal digits followed by CRLF. -/
theorem parse_digits (ds rest : List Nat) (hd : ∀ c ∈ ds, Verif.Util.Spec.Digit c) (hne : ds ≠ [])
    (hv : Verif.Util.Spec.decVal ds < 2 ^ 64)
    (hm : Verif.Util.Spec.decVal ds < 2 ^ 63 ∨ strchrMinus rest = some false) :
    safeStrtoull (ds ++ [13, 10] ++ rest) = some (some (Verif.Util.Spec.decVal ds)) := by
  obtain ⟨c, ds', rfl⟩ : ∃ c ds', ds = c :: ds' := by
    cases ds with
    | nil => exact absurd rfl hne
    | cons c ds' => exact ⟨c, ds', rfl⟩
  have hc := hd c (List.mem_cons_self ..)
  have hc' : 48 ≤ c ∧ c ≤ 57 := hc
  have hdig : ∀ x ∈ c :: ds', isdigit x = true := fun x hx => (isdigit_iff x).mpr (hd x hx)
  have hsp : signPart ((c :: ds') ++ [13, 10] ++ rest) = some (false, (c :: ds') ++ [13, 10] ++ rest) := by
    unfold signPart
    simp only [List.cons_append, List.dropWhile_cons, digit_notspace hc, Bool.false_eq_true, if_false]
    have h1 : (c == 45) = false := by simp; omega
    have h2 : (c == 43) = false := by simp; omega
    simp only [h1, h2, Bool.false_eq_true, if_false]
  have happ : (c :: ds') ++ [13, 10] ++ rest = (c :: ds') ++ (13 :: 10 :: rest) := by simp
  have htk : ((c :: ds') ++ [13, 10] ++ rest).takeWhile isdigit = c :: ds' := by
    rw [happ, List.takeWhile_append_of_pos hdig]; simp [isdigit]
  have hdr : ((c :: ds') ++ [13, 10] ++ rest).dropWhile isdigit = 13 :: 10 :: rest := by
    rw [happ, List.dropWhile_append_of_pos hdig]; simp [isdigit]
  have hscan : scanNum ((c :: ds') ++ [13, 10] ++ rest) = some ⟨false, c :: ds', 13 :: 10 :: rest⟩ := by
    unfold scanNum; rw [hsp]; simp only [htk, hdr]; rfl
  have hmin : ∀ l : List Nat, (∀ x ∈ l, Verif.Util.Spec.Digit x) → strchrMinus (l ++ [13, 10] ++ rest) = strchrMinus rest := by
    intro l
    induction l with
    | nil => intro _; simp [strchrMinus]
    | cons x l ih =>
      intro hx
      have hx' : 48 ≤ x ∧ x ≤ 57 := hx x (List.mem_cons_self ..)
      simp only [List.cons_append, strchrMinus]
      rw [if_neg (by simp; omega), if_neg (by simp; omega)]
      exact ih (fun y hy => hx y (List.mem_cons_of_mem _ hy))
  unfold safeStrtoull
  rw [hscan]
  simp only [digitsVal_eq, Bool.false_eq_true, if_false, endOk, hmin _ hd]
  rw [if_neg (by omega)]
  have : isspace 13 = true := by decide
  simp only [this, Bool.true_or, if_true]
  rcases hm with hm | hm
  · rw [if_neg (by omega)]
  · rw [hm]; simp

/-- Data starting with a character that cannot start a number is refused. -/
theorem parse_refuse (c : Nat) (t : List Nat) (h1 : ¬ Verif.Util.Spec.Digit c) (h2 : ¬ Verif.Util.Spec.Space c)
    (h3 : c ≠ 43) (h4 : c ≠ 45) : safeStrtoull (c :: t) = some none := by
  have e1 : isdigit c = false := by cases h : isdigit c with
    | false => rfl
    | true => exact absurd ((isdigit_iff c).mp h) h1
  have e2 : isspace c = false := by cases h : isspace c with
    | false => rfl
    | true => exact absurd ((isspace_iff c).mp h) h2
  have e3 : (c == 43) = false := by simpa using h3
  have e4 : (c == 45) = false := by simpa using h4
  have hs : signPart (c :: t) = some (false, c :: t) := by
    unfold signPart; simp [e2, e3, e4]
  unfold safeStrtoull scanNum
  rw [hs]
  simp [e1, e2, endOk, digitsVal]

end Verif.Item
