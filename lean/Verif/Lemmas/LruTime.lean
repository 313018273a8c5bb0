import Verif.Lemmas.LruKeep
/-! What calls that do not search do to an item, and the times of items. -/
namespace Verif.Lru
open Spec

variable {M : Type} {cfg : Cfg} {sl : Slabs M} {op : Op} {out : Out}

theorem touched_heap {s : St M} {i it} (hi : s.heap i = some it) : (touched s it i).heap = upd s.heap i (some { it with inQ := true, time := s.now }) := by
  unfold touched onQ
  simp only [offQ_heap hi, upd_upd]

theorem touched_env (s : St M) (i it) : (touched s it i).now = s.now ∧ (touched s it i).oldest = s.oldest ∧ (touched s it i).pmark = s.pmark ∧
    (touched s it i).next = s.next ∧ (touched s it i).tbl = s.tbl ∧ (touched s it i).stats = s.stats := by
  unfold touched onQ
  simp only [offQ_now, offQ_oldest, offQ_pmark, offQ_next, offQ_tbl, offQ_stats]
  exact ⟨trivial, trivial, trivial, trivial, trivial, trivial⟩

theorem linked_heap (s : St M) (i it) : (linked s it i).heap = upd s.heap i (some { it with linked := true, inQ := true, time := s.now }) := by
  unfold linked onQ
  simp only [upd_upd]

/-- After a replacement. -/
def replaced (sl : Slabs M) (s : St M) (o n : It) (old new : Id) : St M := onQ (swapped sl s o n old new) { n with linked := true, time := s.now } new

theorem replaced_heap {s : St M} {o n : It} {old new : Id} (hne : old ≠ new) :
    (replaced sl s o n old new).heap = upd (upd s.heap old (rest o)) new (some { n with linked := true, inQ := true, time := s.now }) := by
  unfold replaced onQ swapped
  simp only []
  rw [upd_comm _ hne.symm, upd_upd]

theorem replaced_env (s : St M) (o n : It) (old new : Id) : (replaced sl s o n old new).now = s.now ∧ (replaced sl s o n old new).oldest = s.oldest ∧
    (replaced sl s o n old new).pmark = s.pmark ∧ (replaced sl s o n old new).next = s.next := by
  unfold replaced onQ swapped
  simp only [offQ_now, offQ_oldest, offQ_pmark, offQ_next]
  exact ⟨trivial, trivial, trivial, trivial⟩

theorem swap_ne {s : St M} {o n : It} {old new : Id} (ho : s.heap old = some o) (hn : s.heap new = some n) (lo : o.linked = true) (ln : n.linked = false) :
    old ≠ new := by
  intro e
  rw [e, hn] at ho
  injection ho with ho
  rw [← ho, ln] at lo
  cases lo

theorem Mi.now_le {s t : St M} (a : Mi cfg sl op out s t) : s.now ≤ t.now := by
  cases a with
  | act a => rw [a.env.1]; exact Nat.le_refl _
  | remove => rw [gone_now]; exact Nat.le_refl _
  | touch => rw [(touched_env ..).1]; exact Nat.le_refl _
  | swap => exact Nat.le_of_eq (replaced_env (sl := sl) ..).1.symm
  | tick dt => exact Nat.le_add_right _ _
  | _ => exact Nat.le_refl _

theorem Mis.now_le {s t : St M} (a : Mis cfg sl op out s t) : s.now ≤ t.now := by
  induction a with
  | refl => exact Nat.le_refl _
  | step a _ ih => exact Nat.le_trans a.now_le ih

theorem Mi.now_eq {s t : St M} (a : Mi cfg sl op out s t) (ht : ∀ dt, op ≠ .tick dt) : t.now = s.now := by
  cases a with
  | act a => rw [a.env.1]
  | remove => rw [gone_now]
  | touch => rw [(touched_env ..).1]
  | swap => exact (replaced_env (sl := sl) ..).1
  | tick dt h => exact absurd h (ht dt)
  | _ => rfl

theorem Mis.now_eq {s t : St M} (a : Mis cfg sl op out s t) (ht : ∀ dt, op ≠ .tick dt) : t.now = s.now := by
  induction a with
  | refl => rfl
  | step a _ ih => exact ih.trans (a.now_eq ht)

/-- A cause for which a good item is no longer given. -/
def Cause (now : Nat) (i : Id) (pfx : Nat) (op : Op) : Prop :=
  op = .unlink i ∨ (∃ j, op = .replace i j) ∨ (∃ p w, op = .flush p w ∧ (p = none ∨ p = some pfx)) ∨ ∃ e, op = .setExp i e ∧ e ≠ 0 ∧ e ≤ now

theorem fresh_later {s t : St M} {it it' : It} (hf : Fresh s it) (h1 : t.now = s.now) (h2 : t.oldest = s.oldest) (h3 : t.pmark it.pfx = s.pmark it.pfx)
    (he : it'.exp = it.exp) (hp : it'.pfx = it.pfx) (ht : it.time ≤ it'.time) : Fresh t it' := by
  unfold Fresh at hf ⊢
  rw [h1, h2, he, hp, h3]
  refine ⟨hf.1, ?_, ?_⟩
  · rcases hf.2.1 with h | h | h
    · exact .inl h
    · exact .inr (.inl h)
    · exact .inr (.inr (Nat.lt_of_lt_of_le h ht))
  · rcases hf.2.2 with h | h | h
    · exact .inl h
    · exact .inr (.inl h)
    · exact .inr (.inr (Nat.lt_of_lt_of_le h ht))

/-- A good item stays good, unless it was asked for. -/
theorem Mi.keeps {s t : St M} (a : Mi cfg sl op out s t) (h : Inv s) (hm : ¬ AsksMemory op) (hnt : ∀ dt, op ≠ .tick dt) {i it} (hi : s.heap i = some it)
    (hl : it.linked = true) (hf : Fresh s it) :
    (∃ it', t.heap i = some it' ∧ it'.linked = true ∧ it'.key = it.key ∧ it'.pfx = it.pfx ∧ Fresh t it') ∨ Cause s.now i it.pfx op := by
  have same : ∀ t : St M, t.heap i = some it → t.now = s.now → t.oldest = s.oldest → t.pmark = s.pmark →
      (∃ it', t.heap i = some it' ∧ it'.linked = true ∧ it'.key = it.key ∧ it'.pfx = it.pfx ∧ Fresh t it') ∨ Cause s.now i it.pfx op := by
    intro t h1 h2 h3 h4
    exact .inl ⟨it, h1, hl, rfl, rfl, fresh_later hf h2 h3 (by rw [h4]) rfl rfl (Nat.le_refl _)⟩
  have time := h.wf.times i it hi hl
  cases a with
  | act a ho => exact absurd ho hm
  | @remove j jt m hj lj hc =>
    by_cases hne : i = j
    · subst hne
      rw [hi] at hj
      injection hj with hj
      subst hj
      rcases hc with hc | hc | hc
      · exact .inr (.inl hc)
      · rw [fresh_iff, hc] at hf
        cases hf
      · exact .inr (.inr (.inr (.inl hc)))
    · refine same _ ?_ (gone_now ..) (gone_oldest ..) (gone_pmark ..)
      simp only [gone]
      rw [upd_other hne]
      exact hi
  | @touch j jt hj lj ho =>
    obtain ⟨e1, e2, e3, _⟩ := touched_env s j jt
    by_cases hne : i = j
    · subst hne
      rw [hi] at hj
      injection hj with hj
      subst hj
      exact .inl ⟨{ it with inQ := true, time := s.now }, by rw [touched_heap hi, upd_same], hl, rfl, rfl, fresh_later hf e1 e2 (by rw [e3]) rfl rfl time⟩
    · exact same _ (by rw [touched_heap hj, upd_other hne]; exact hi) e1 e2 e3
  | @tweak j jt jt' hj tw _ he =>
    by_cases hne : i = j
    · subst hne
      rw [hi] at hj
      injection hj with hj
      subst hj
      by_cases hx : jt'.exp = 0 ∨ s.now < jt'.exp
      · refine .inl ⟨jt', upd_same _ _ _, tw.linked.trans hl, tw.key, tw.pfx, ?_⟩
        unfold Fresh at hf ⊢
        rw [tw.pfx, tw.time]
        exact ⟨hx, hf.2⟩
      · rcases he with he | he
        · rw [he] at hx
          exact absurd hf.1 hx
        · refine .inr (.inr (.inr (.inr ⟨_, he, fun h0 => hx (.inl h0), ?_⟩)))
          exact Nat.le_of_not_lt fun h1 => hx (.inr h1)
    · exact same _ (by simp only []; rw [upd_other hne]; exact hi) rfl rfl rfl
  | @grow j jt n hj _ _ =>
    by_cases hne : i = j
    · subst hne
      rw [hi] at hj
      injection hj with hj
      subst hj
      exact .inl ⟨_, upd_same _ _ _, hl, rfl, rfl, hf⟩
    · exact same _ (by simp only []; rw [upd_other hne]; exact hi) rfl rfl rfl
  | @shrink j jt n hj _ _ _ =>
    by_cases hne : i = j
    · subst hne
      rw [hi] at hj
      injection hj with hj
      subst hj
      exact .inl ⟨_, upd_same _ _ _, hl, rfl, rfl, hf⟩
    · exact same _ (by simp only []; rw [upd_other hne]; exact hi) rfl rfl rfl
  | @free j jt m hj lj _ =>
    have hne : i ≠ j := by
      intro e
      subst e
      rw [hi] at hj
      injection hj with hj
      rw [hj, lj] at hl
      cases hl
    exact same _ (by simp only []; rw [upd_other hne]; exact hi) rfl rfl rfl
  | new _ _ =>
    have hne : i ≠ s.next := by
      intro e
      rw [e, h.wf.fresh _ (Nat.le_refl _)] at hi
      cases hi
    exact same _ (by simp only []; rw [upd_other hne]; exact hi) rfl rfl rfl
  | @link j jt hj lj _ _ _ =>
    have hne : i ≠ j := by
      intro e
      subst e
      rw [hi] at hj
      injection hj with hj
      rw [hj, lj] at hl
      cases hl
    exact same _ (by rw [linked_heap, upd_other hne]; exact hi) rfl rfl rfl
  | @swap o n old new ho hn lo ln _ _ hop =>
    have hne := swap_ne ho hn lo ln
    obtain ⟨e1, e2, e3, _⟩ := replaced_env (sl := sl) s o n old new
    by_cases h1 : i = old
    · subst h1
      exact .inr (.inr (.inl ⟨new, hop⟩))
    · have h2 : i ≠ new := by
        intro e
        subst e
        rw [hi] at hn
        injection hn with hn
        rw [hn, ln] at hl
        cases hl
      exact same (replaced sl s o n old new) (by rw [replaced_heap hne, upd_other h2, upd_other h1]; exact hi) e1 e2 e3
  | marks => exact same _ hi rfl rfl rfl
  | tick dt ho => exact absurd ho (hnt dt)
  | mark m w ho => exact .inr (.inr (.inr (.inl ⟨none, w, ho, .inl rfl⟩)))
  | pmark p m w ho =>
    by_cases hp : p = it.pfx
    · exact .inr (.inr (.inr (.inl ⟨some p, w, ho, .inr (by rw [hp])⟩)))
    · exact .inl ⟨it, hi, hl, rfl, rfl, fresh_later hf rfl rfl (upd_other (Ne.symm hp)) rfl rfl (Nat.le_refl _)⟩
  | mem m => exact same _ hi rfl rfl rfl

theorem Mis.keeps {s t : St M} (a : Mis cfg sl op out s t) (h : Inv s) (hm : ¬ AsksMemory op) (hnt : ∀ dt, op ≠ .tick dt) {i it} (hi : s.heap i = some it)
    (hl : it.linked = true) (hf : Fresh s it) :
    (∃ it', t.heap i = some it' ∧ it'.linked = true ∧ it'.key = it.key ∧ it'.pfx = it.pfx ∧ Fresh t it') ∨ Cause s.now i it.pfx op := by
  induction a generalizing it with
  | refl => exact .inl ⟨it, hi, hl, rfl, rfl, hf⟩
  | step a _ ih =>
    rcases a.keeps h hm hnt hi hl hf with ⟨it', h1, h2, h3, h4, h5⟩ | hc
    · rcases ih (a.inv h) h1 h2 h5 with ⟨it2, g1, g2, g3, g4, g5⟩ | hc
      · exact .inl ⟨it2, g1, g2, g3.trans h3, g4.trans h4, g5⟩
      · rw [a.now_eq hnt, h4] at hc
        exact .inr hc
    · exact .inr hc

/-! ### Times -/

/-- The time of an item is at most this. -/
def Old (s : St M) (y : Id) (u : Nat) : Prop := y < s.next ∧ ∀ yt, s.heap y = some yt → yt.time ≤ u

theorem Mi.old {s t : St M} (a : Mi cfg sl op out s t) {y u} (ht : ¬ Touch op out y) (h : Old s y u) : Old t y u := by
  have back : ∀ t : St M, t.next = s.next → (∀ yt, t.heap y = some yt → ∃ jt, s.heap y = some jt ∧ yt.time = jt.time) → Old t y u := by
    intro t h1 h2
    refine ⟨by rw [h1]; exact h.1, fun yt hy => ?_⟩
    obtain ⟨jt, h3, h4⟩ := h2 yt hy
    rw [h4]
    exact h.2 jt h3
  have at_ : ∀ (t : St M) (j : Id) (jt : It) (o : Option It), s.heap j = some jt → t.heap = upd s.heap j o → (∀ x, o = some x → x.time = jt.time) →
      ∀ yt, t.heap y = some yt → ∃ kt, s.heap y = some kt ∧ yt.time = kt.time := by
    intro t j jt o hj he ho yt hy
    rw [he] at hy
    by_cases hne : y = j
    · subst hne
      rw [upd_same] at hy
      exact ⟨jt, hj, ho yt hy⟩
    · rw [upd_other hne] at hy
      exact ⟨yt, hy, rfl⟩
  have rt : ∀ {o : It} x, rest o = some x → x.time = o.time := by
    intro o x hx
    unfold rest at hx
    split at hx
    · cases hx
    · cases hx; rfl
  cases a with
  | act a =>
    refine back _ a.env.2.2.2.1 fun yt hy => ?_
    obtain ⟨b, e⟩ := a.back hy
    exact ⟨_, e, rfl⟩
  | @remove j jt m hj lj hc => exact back _ (offQ_next ..) (at_ _ j jt _ hj rfl rt)
  | @touch j jt hj lj ho =>
    have hne : y ≠ j := fun e => ht (e ▸ ho)
    refine back _ (touched_env ..).2.2.2.1 fun yt hy => ?_
    rw [touched_heap hj, upd_other hne] at hy
    exact ⟨yt, hy, rfl⟩
  | @tweak j jt jt' hj tw _ he => exact back _ rfl (at_ _ j jt _ hj rfl (by intro x hx; cases hx; exact tw.time))
  | @grow j jt n hj _ _ => exact back _ rfl (at_ _ j jt _ hj rfl (by intro x hx; cases hx; rfl))
  | @shrink j jt n hj _ _ _ => exact back _ rfl (at_ _ j jt _ hj rfl (by intro x hx; cases hx; rfl))
  | @free j jt m hj lj _ => exact back _ rfl (at_ _ j jt _ hj rfl (by intro x hx; cases hx))
  | new _ _ =>
    refine ⟨Nat.lt_succ_of_lt h.1, fun yt hy => ?_⟩
    simp only [] at hy
    rw [upd_other (Nat.ne_of_lt h.1)] at hy
    exact h.2 yt hy
  | @link j jt hj lj _ _ ho =>
    have hne : y ≠ j := fun e => ht (by rw [ho]; exact e.symm)
    refine back _ rfl fun yt hy => ?_
    rw [linked_heap, upd_other hne] at hy
    exact ⟨yt, hy, rfl⟩
  | @swap o n old new ho hn lo ln _ _ hop =>
    have hno := swap_ne ho hn lo ln
    have hne : y ≠ new := fun e => ht (by rw [hop]; exact e.symm)
    refine back (replaced sl s o n old new) (replaced_env ..).2.2.2 fun yt hy => ?_
    rw [replaced_heap hno, upd_other hne] at hy
    by_cases h1 : y = old
    · subst h1
      rw [upd_same] at hy
      exact ⟨o, ho, rt yt hy⟩
    · rw [upd_other h1] at hy
      exact ⟨yt, hy, rfl⟩
  | marks => exact h
  | tick => exact h
  | mark => exact h
  | pmark => exact h
  | mem => exact h

theorem Mis.old {s t : St M} (a : Mis cfg sl op out s t) {y u} (ht : ¬ Touch op out y) (h : Old s y u) : Old t y u := by
  induction a with
  | refl => exact h
  | step a _ ih => exact ih (a.old ht h)

/-- The time of an item is at least this, while it is stored. -/
def Warm (s : St M) (x : Id) (v : Nat) : Prop := v ≤ s.now ∧ ∀ xt, s.heap x = some xt → xt.linked = true → v ≤ xt.time

theorem Mi.warm {s t : St M} (a : Mi cfg sl op out s t) {x v} (h : Warm s x v) : Warm t x v := by
  refine ⟨Nat.le_trans h.1 a.now_le, ?_⟩
  have at_ : ∀ (t : St M) (j : Id) (o : Option It), t.heap = upd s.heap j o →
      (∀ z, o = some z → z.linked = true → z.time = s.now ∨ ∃ jt, s.heap j = some jt ∧ jt.linked = true ∧ z.time = jt.time) →
      ∀ xt, t.heap x = some xt → xt.linked = true → v ≤ xt.time := by
    intro t j o he ho xt hx hl
    rw [he] at hx
    by_cases hne : x = j
    · subst hne
      rw [upd_same] at hx
      rcases ho xt hx hl with h1 | ⟨jt, h1, h2, h3⟩
      · rw [h1]; exact h.1
      · rw [h3]; exact h.2 jt h1 h2
    · rw [upd_other hne] at hx
      exact h.2 xt hx hl
  have rt : ∀ {o : It} z, rest o = some z → z.linked = true → False := by
    intro o z hz hl
    rw [(rest_off z hz).1] at hl
    cases hl
  cases a with
  | act a =>
    intro xt hx hl
    obtain ⟨b, e⟩ := a.back hx
    exact h.2 { xt with inQ := b } e hl
  | @remove j jt m hj lj hc => exact at_ _ j (rest jt) rfl (fun z hz hl => (rt z hz hl).elim)
  | @touch j jt hj lj ho => exact at_ _ j _ (touched_heap hj) (fun z hz hl => by cases hz; exact .inl rfl)
  | @tweak j jt jt' hj tw _ he => exact at_ _ j (some jt') rfl (fun z hz hl => by cases hz; exact .inr ⟨jt, hj, tw.linked ▸ hl, tw.time⟩)
  | @grow j jt n hj _ _ => exact at_ _ j (some { jt with size := jt.size + n }) rfl (fun z hz hl => by cases hz; exact .inr ⟨jt, hj, hl, rfl⟩)
  | @shrink j jt n hj _ _ _ => exact at_ _ j (some { jt with size := jt.size - n }) rfl (fun z hz hl => by cases hz; exact .inr ⟨jt, hj, hl, rfl⟩)
  | @free j jt m hj lj _ => exact at_ _ j none rfl (fun z hz hl => by cases hz)
  | @new it hl0 _ => exact at_ _ s.next (some it) rfl (fun z hz hl => by cases hz; rw [hl0] at hl; cases hl)
  | @link j jt hj lj _ _ ho => exact at_ _ j _ (linked_heap ..) (fun z hz hl => by cases hz; exact .inl rfl)
  | @swap o n old new ho hn lo ln _ _ hop =>
    have hno := swap_ne ho hn lo ln
    intro xt hx hl
    rw [show (onQ (swapped sl s o n old new) { n with linked := true, time := s.now } new).heap = _ from replaced_heap (sl := sl) hno] at hx
    by_cases h1 : x = new
    · subst h1
      rw [upd_same] at hx
      cases hx
      exact h.1
    · rw [upd_other h1] at hx
      by_cases h2 : x = old
      · subst h2
        rw [upd_same] at hx
        exact (rt xt hx hl).elim
      · rw [upd_other h2] at hx
        exact h.2 xt hx hl
  | marks => exact h.2
  | tick => exact h.2
  | mark => exact h.2
  | pmark => exact h.2
  | mem => exact h.2

theorem Mis.warm {s t : St M} (a : Mis cfg sl op out s t) {x v} (h : Warm s x v) : Warm t x v := by
  induction a with
  | refl => exact h
  | step a _ ih => exact ih (a.warm h)

theorem update_warm {s t : St M} (h : Inv s) (hn : s.now < 4294967296) {i it} (hi : s.heap i = some it) (hs : update s i false = some t) :
    Warm t i (s.now - 60) := by
  rw [update_eq h hi] at hs
  injection hs with hs
  subst hs
  split
  · refine ⟨?_, fun xt hx _ => ?_⟩
    · show s.now - 60 ≤ (touched s it i).now
      rw [(touched_env ..).1]; omega
    · have hx : (touched s it i).heap i = some xt := hx
      rw [touched_heap hi, upd_same] at hx
      cases hx
      exact Nat.sub_le _ _
  · rename_i hc
    refine ⟨Nat.sub_le _ _, fun xt hx hl => ?_⟩
    rw [hi] at hx
    cases hx
    have : ¬ it.time < (s.now + 4294967296 - 60) % 4294967296 := fun h => hc ⟨hl, .inr h⟩
    by_cases h60 : 60 ≤ s.now
    · have e : s.now + 4294967296 - 60 = (s.now - 60) + 4294967296 := by omega
      rw [e, Nat.add_mod_right, Nat.mod_eq_of_lt (by omega)] at this
      omega
    · omega

/-- An item that was stored or got has a time of at most 60 seconds ago. -/
theorem use_warm {s t : St M} (h : Inv s) (hn : s.now < 4294967296) {x} (hs : step cfg sl s op = some (t, out)) (hu : Use op out x) : Warm t x (s.now - 60) := by
  have hc := callable_of_step h hs
  cases op with
  | link i =>
    cases hu
    obtain ⟨it, hi, h1, h2⟩ := hc
    simp only [step] at hs
    unfold link at hs
    rw [hi] at hs
    simp only [] at hs
    split at hs
    · cases hs
    · rename_i hn
      have hl : it.linked = false := by
        cases hl : it.linked with
        | false => rfl
        | true => exact absurd (.inl hl) hn
      have hq : it.inQ = false := by
        cases hl : it.inQ with
        | false => rfl
        | true => exact absurd (.inr (.inl hl)) hn
      have hf : find s it.key = none := by
        cases hf : find s it.key with
        | none => rfl
        | some j => exact absurd (.inr (.inr (by rw [hf]; rfl))) hn
      have e := (h.linked hi hl hq hf).1
      unfold link at e
      rw [hi] at e
      simp only [] at e
      rw [if_neg hn] at e
      rw [e] at hs
      cases hs
      refine ⟨Nat.sub_le _ _, fun xt hx _ => ?_⟩
      rw [linked_heap, upd_same] at hx
      cases hx
      exact Nat.sub_le _ _
  | replace i j =>
    have hu : j = x := hu
    subst hu
    obtain ⟨it, jt, hi, hj, h1, h2, hk, hp⟩ := hc
    obtain ⟨y, y1, li⟩ := (h.wf.t_mem i).1 h1
    rw [hi] at y1
    cases y1
    have lj : jt.linked = false := by
      cases hl : jt.linked with
      | false => rfl
      | true => exact absurd ((h.wf.t_mem j).2 ⟨jt, hj, hl⟩) h2
    simp only [step, (replace_eq h sl hi hj li lj hk hp).1] at hs
    cases hs
    refine ⟨?_, fun xt hx _ => ?_⟩
    · show s.now - 60 ≤ (replaced sl s it jt i j).now
      rw [(replaced_env ..).1]
      exact Nat.sub_le _ _
    · have hx : (replaced sl s it jt i j).heap j = some xt := hx
      rw [replaced_heap (swap_ne hi hj li lj), upd_same] at hx
      cases hx
      exact Nat.sub_le _ _
  | update i =>
    have hu : i = x := hu
    subst hu
    obtain ⟨it, hi⟩ := hc
    simp only [step] at hs
    cases hw : update s i false with
    | none => rw [hw] at hs; cases hs
    | some u =>
      rw [hw] at hs
      cases hs
      exact update_warm h hn hi hw
  | get k u =>
    obtain ⟨rfl, ho⟩ := hu
    subst ho
    simp only [step, get] at hs
    cases hf : find s k with
    | none => rw [hf] at hs; cases hs
    | some i =>
      obtain ⟨hm, it, hi, hk⟩ := find_some hf
      simp only [hf, hi] at hs
      split at hs
      · simp only [if_true] at hs
        cases hu : update { s with heap := upd s.heap i (some { it with refs := it.refs + 1 }) } i false with
        | none => rw [hu] at hs; cases hs
        | some v =>
          rw [hu] at hs
          simp only [Option.map_some, Option.some.injEq, Prod.mk.injEq, Out.of, Out.item.injEq] at hs
          obtain ⟨hs, hx⟩ := hs
          subst hs
          subst hx
          have h1 : Inv { s with heap := upd s.heap i (some { it with refs := it.refs + 1 }) } :=
            h.heapOn (it' := { it with refs := it.refs + 1 }) hi rfl rfl rfl rfl rfl (fun _ _ => Nat.succ_ne_zero _)
          exact update_warm h1 hn (upd_same _ _ _) hu
      · cases hu : unlink sl s i with
        | none => rw [hu] at hs; cases hs
        | some v => rw [hu] at hs; cases hs
  | tick => cases hu
  | alloc => cases hu
  | mem => cases hu
  | memFree => cases hu
  | unlink => cases hu
  | release => cases hu
  | setExp => cases hu
  | grow => cases hu
  | shrink => cases hu
  | flush => cases hu
  | background => cases hu

/-- The clock does not run out. -/
theorem step_now {s t : St M} (h : Inv s) (hn : s.now < 4294967295) (hs : step cfg sl s op = some (t, out)) : t.now < 4294967295 := by
  by_cases ht : ∃ dt, op = .tick dt
  · obtain ⟨dt, rfl⟩ := ht
    simp only [step] at hs
    split at hs
    · cases hs
      assumption
    · cases hs
  · rw [(step_mis h hs).now_eq (fun dt e => ht ⟨dt, e⟩)]
    exact hn

theorem calls_now {s t : St M} {l} (hc : Calls cfg sl s l t) (h : Inv s) (hn : s.now < 4294967295) : t.now < 4294967295 := by
  induction hc with
  | nil => exact hn
  | cons e _ ih => exact ih (step_inv h e) (step_now h hn e)

theorem reach_now {s : St M} (h : Reachable cfg sl s) : s.now < 4294967295 := by
  obtain ⟨now, m, l, hn, hc⟩ := h
  exact calls_now hc (init_inv now m) hn

theorem calls_old {s t : St M} {l y u} (hc : Calls cfg sl s l t) (h : Inv s) (ht : ∀ p ∈ l, ¬ Touch p.1 p.2 y) (ho : Old s y u) : Old t y u := by
  induction hc with
  | nil => exact ho
  | cons e _ ih => exact ih (step_inv h e) (fun p hp => ht p (List.mem_cons_of_mem _ hp)) ((step_mis h e).old (ht (_, _) List.mem_cons_self) ho)

theorem calls_warm {s t : St M} {l x v} (hc : Calls cfg sl s l t) (h : Inv s) (hw : Warm s x v) : Warm t x v := by
  induction hc with
  | nil => exact hw
  | cons e _ ih => exact ih (step_inv h e) ((step_mis h e).warm hw)

end Verif.Lru
