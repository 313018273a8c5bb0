import Verif.Lemmas.ItemHist
/-! Concrete histories by evaluation: used to show that hypotheses of the theorems are met. -/
namespace Verif.Item
open Verif.Util Verif.Item.Spec

/-- Pending items after a call. -/
def pendIds (l : List Id) (op : Op) (r : Rep) : List Id :=
  match op, r with
  | .alloc .., .allocated i => i :: l
  | .store i _ _, _ => l.filter (· != i)
  | .release i, _ => l.filter (· != i)
  | _, _ => l

theorem pendIds_spec {d : Nat} {σ σ' : S} {op : Op} {r : Rep} (hs : Step d σ op r σ') {l : List Id}
    (hl : ∀ i, i ∈ l → (σ.pend i).isSome) : ∀ i, i ∈ pendIds l op r → (σ'.pend i).isSome := by
  obtain ⟨σ1, hc, -, -, e3, -⟩ := hs
  intro i hi
  rw [e3]
  have same : σ1.pend = σ.pend → pendIds l op r = l → (σ1.pend i).isSome := by
    intro h1 h2; rw [h1]; rw [h2] at hi; exact hl i hi
  cases op with
  | tick dt => obtain ⟨-, rfl⟩ := hc; exact same rfl rfl
  | alloc k' f e c dat env =>
    rcases hc with ⟨-, rfl, rfl⟩ | ⟨-, j, rfl, -, rfl⟩
    · exact same rfl rfl
    · simp only [pendIds, List.mem_cons] at hi
      simp only [upd]; split
      · rfl
      · exact hl i (hi.resolve_left (by assumption))
  | store j sop env =>
    obtain ⟨p, σ2, hp, hs, rfl⟩ := hc
    simp only [pendIds, List.mem_filter, bne_iff_ne] at hi
    simp only [upd]; rw [if_neg hi.2]; exact hl i hi.1
  | release j =>
    obtain ⟨-, rfl⟩ := hc
    simp only [pendIds, List.mem_filter, bne_iff_ne] at hi
    simp only [upd]; rw [if_neg hi.2]; exact hl i hi.1
  | get k' => obtain ⟨rfl, -⟩ := hc; exact same rfl rfl
  | delete k' c =>
    simp only [Core] at hc
    repeat' split at hc
    all_goals (obtain ⟨-, rfl⟩ := hc; exact same rfl rfl)
  | arith k' inc cr dl ini f e rest env =>
    simp only [Core] at hc
    repeat' split at hc
    all_goals first
      | (obtain ⟨-, rfl⟩ := hc; exact same rfl rfl)
      | (rcases hc with ⟨-, -, rfl⟩ | ⟨-, -, rfl⟩ <;> exact same rfl rfl)
  | setExp k' x =>
    simp only [Core] at hc
    repeat' split at hc
    all_goals (obtain ⟨-, rfl⟩ := hc; exact same rfl rfl)
  | collCreate k' f e env =>
    simp only [Core] at hc
    repeat' split at hc
    all_goals first
      | (obtain ⟨-, rfl⟩ := hc; exact same rfl rfl)
      | (rcases hc with ⟨-, -, rfl⟩ | ⟨-, -, rfl⟩ <;> exact same rfl rfl)
  | flush sc w => exact same hc.2.2.2.1 rfl
  | background acts => obtain ⟨-, rfl⟩ := hc; exact same rfl rfl

/-- Sufficient test for legality, evaluated on the model state. -/
def legalB (cfg : Cfg) (fl : Bool) (s : St) (pend : List Id) (h : Id → Nat) (op : Op) : Bool :=
  (opActs op).all (fun | .evict _ => true | _ => false) &&
  match op with
  | .store i _ _ => pend.contains i
  | .release i => 0 < h i
  | .arith k _ _ _ _ _ _ rest _ =>
    match vis cfg s k with
    | none => true
    | some e => !e.coll && (safeStrtoull (e.data ++ rest)).isSome
  | .flush _ w => fl && w == 0 && 2 ≤ s.now
  | _ => true

theorem legalB_spec {cfg : Cfg} {fl : Bool} {σ : S} {s : St} {h : Id → Nat} (hR : R cfg fl σ s h) {pend : List Id}
    (hp : ∀ i, i ∈ pend → (σ.pend i).isSome) (hb : ∀ i, h i < refBound) {op : Op}
    (hL : legalB cfg fl s pend h op = true) : Legal fl σ h op := by
  unfold legalB at hL
  rw [Bool.and_eq_true, List.all_eq_true] at hL
  refine ⟨hb, fun i hi => ?_, fun _ i hi => ?_, ?_⟩
  · have := hL.1 _ hi; simp at this
  · have := hL.1 _ hi; simp at this
  · have h2 := hL.2
    cases op with
    | store i sop env => simp only [List.contains_iff_mem] at h2; exact hp i h2
    | release i => simpa using h2
    | arith k inc cr dl ini f e rest env =>
      simp only [hR.vis] at h2
      intro en he
      rw [he] at h2; simp only [Bool.and_eq_true, Bool.not_eq_true'] at h2
      refine ⟨h2.1, ?_⟩
      intro hn; rw [hn] at h2; simp at h2
    | flush sc w =>
      simp only [Bool.and_eq_true, beq_iff_eq, decide_eq_true_eq] at h2
      refine ⟨h2.1.1, h2.1.2, ?_⟩; rw [← hR.now]; exact h2.2
    | _ => trivial

/-- Runs calls on the model, checking legality; the transcript. -/
def demo (cfg : Cfg) (fl : Bool) (s : St) (pend : List Id) (h : Id → Nat) : List Op → Option (List (Op × Rep))
  | [] => some []
  | op :: ops =>
    if legalB cfg fl s pend h op then
      match step cfg s op with
      | none => none
      | some (s', r) => (demo cfg fl s' (pendIds pend op r) (heldStep h op r) ops).map ((op, r) :: ·)
    else none

theorem heldStep_le (h : Id → Nat) (op : Op) (r : Rep) (i : Id) : heldStep h op r i ≤ h i + 1 := by
  unfold heldStep; split <;> (try simp only [upd]) <;> (try split) <;> (try subst_vars) <;> first | exact Nat.le_succ _ | exact Nat.le_refl _ | exact Nat.le_trans (Nat.sub_le _ _) (Nat.le_succ _)

/-- A checked run is a history. -/
theorem demo_path {cfg : Cfg} {fl : Bool} : ∀ (ops : List Op) (c : Cf) (pend : List Id) (n : Nat) (t : List (Op × Rep)),
    R cfg fl c.σ c.s c.h → (∀ i, i ∈ pend → (c.σ.pend i).isSome) → (∀ i, c.h i ≤ n) → n + ops.length < refBound →
    demo cfg fl c.s pend c.h ops = some t →
    ∃ l c', Path cfg fl c l c' ∧ l.map (fun e => (e.op, e.r)) = t := by
  intro ops
  induction ops with
  | nil =>
    intro c pend n t _ _ _ _ hd
    simp only [demo, Option.some.injEq] at hd; subst hd
    exact ⟨[], c, .nil c, rfl⟩
  | cons op ops ih =>
    intro c pend n t hR hp hn hlen hd
    simp only [List.length_cons] at hlen
    simp only [demo] at hd
    split at hd
    · next hl =>
      have hL := legalB_spec hR hp (fun i => Nat.lt_of_le_of_lt (hn i) (by omega)) hl
      obtain ⟨s', r, σ', k1, k2, k3, -⟩ := step_sim hR hL
      rw [k1] at hd; simp only [Option.map_eq_some_iff] at hd
      obtain ⟨t', d1, rfl⟩ := hd
      obtain ⟨l, c', p1, p2⟩ := ih ⟨σ', s', heldStep c.h op r⟩ (pendIds pend op r) (n + 1) t' k3 (pendIds_spec k2 hp)
        (fun i => Nat.le_trans (heldStep_le c.h op r i) (by have := hn i; omega)) (by omega) d1
      exact ⟨_, c', .cons hL k1 k2 k3 p1, by simp [p2]⟩
    · simp at hd

/-- A checked run from the start. -/
theorem demo_start {cfg : Cfg} {fl : Bool} {now : Nat} {ops : List Op} {t : List (Op × Rep)}
    (hd : demo cfg fl (init now) [] (fun _ => 0) ops = some t) (hl : ops.length < 100) :
    ∃ l c, Path cfg fl (Cf.start now) l c ∧ l.map (fun e => (e.op, e.r)) = t :=
  demo_path ops (Cf.start now) [] 0 t (R.init cfg fl now) (by simp) (fun _ => Nat.le_refl _)
    (by unfold refBound; omega) hd

end Verif.Item
