import Verif.Lemmas.AssocNext
/-! # Scans under changes of the table, and the simulation -/
namespace Verif.Assoc
open Spec (keys owed S Owed)

theorem Passed.rechain {cfg : Cfg} {s : St} {t b : Nat} {c' : List Entry} {sid : Nat} {sc : Scan} {k : List Nat} {n : Nat}
    (h : k ∈ frontKeys sid c' ↔ k ∈ frontKeys sid (s.table t b)) :
    Passed cfg { s with table := setChain s.table t b c', items := n } sid sc k ↔ Passed cfg s sid sc k := by
  unfold Passed
  have hkk : (k ∈ frontKeys sid (setChain s.table t b c' sc.tabidx sc.bucket)) ↔ (k ∈ frontKeys sid (s.table sc.tabidx sc.bucket)) := by
    by_cases hc : sc.tabidx = t ∧ sc.bucket = b
    · rw [setChain_eq hc, hc.1, hc.2, h]
    · rw [setChain_ne hc]
  show _ ∨ (_ ∧ _ ∧ (_ ∨ (_ ∧ _ ∧ k ∈ frontKeys sid (setChain s.table t b c' sc.tabidx sc.bucket)))) ↔ _
  rw [hkk]
  exact Iff.rfl

theorem Scns.rechain {cfg : Cfg} {items items' : List Item} {s : St} {W W' : Nat → Option (List (List Nat))} (h : Scns cfg items s W)
    {t b n : Nat} {c' : List Entry}
    (hph : ∀ i, c'.count (.ph i) = (s.table t b).count (.ph i))
    (hdom : ∀ sid, W sid = none ↔ W' sid = none)
    (howe : ∀ sid sc todo', getScan s sid = some sc → W' sid = some todo' → (∀ k ∈ todo', k ∈ keys items') ∧
      ∀ k ∈ keys items', (k ∈ todo' ↔ ¬ Passed cfg { s with table := setChain s.table t b c', items := n } sid sc k)) :
    Scns cfg items' { s with table := setChain s.table t b c', items := n } W' := by
  have hcnt : ∀ i t' b', (setChain s.table t b c' t' b').count (.ph i) = (s.table t' b').count (.ph i) := by
    intro i t' b'
    by_cases hc : t' = t ∧ b' = b
    · rw [setChain_eq hc, hc.1, hc.2, hph]
    · rw [setChain_ne hc]
  refine ⟨fun sid => (h.dom sid).trans (hdom sid), ?_, howe, ?_, ?_, h.ref, h.strict⟩
  · intro sid sc hs
    have h1 := h.ok sid sc hs
    exact ⟨h1.link, h1.act, h1.idle⟩
  · intro sid sc hs hl
    show (setChain s.table t b c' sc.tabidx sc.bucket).count (.ph sid) = 1
    rw [hcnt]; exact h.ph1 sid sc hs hl
  · intro sid t' b' ht hb hn
    have h1 := h.ph0 sid t' b' ht hb hn
    show .ph sid ∉ setChain s.table t b c' t' b'
    rw [← List.count_eq_zero, hcnt, List.count_eq_zero]; exact h1

/-- A scan that is at work holds a reference on its bucket. -/
theorem Scns.held {cfg : Cfg} {items : List Item} {s : St} {W : Nat → Option (List (List Nat))} (h : Scns cfg items s W) {sid : Nat}
    {sc : Scan} (hs : getScan s sid = some sc) (h0 : 0 < sc.tabcnt) : s.refcount sc.bucket ≠ 0 := by
  have h1 := h.ref sc.bucket
  have : 0 < s.scans.countP (holds sc.bucket) := by
    rw [List.countP_pos_iff]
    exact ⟨some sc, List.mem_of_getElem? (getScan_get hs), by simp [holds, h0]⟩
  omega

theorem Scns.free {cfg : Cfg} {items : List Item} {s : St} {W : Nat → Option (List (List Nat))} (h : Scns cfg items s W) {b : Nat}
    (hb : b < 2 ^ cfg.hp) (hr : s.refcount b = 0) : Free s b := by
  intro t sid ht
  apply h.ph0 sid t b ht hb
  rintro sc hs ⟨h1, -, rfl⟩
  exact h.held hs ((h.ok sid sc hs).link h1).1 hr

theorem Scns.redist {cfg : Cfg} {items : List Item} {s s' : St} {W : Nat → Option (List (List Nat))} (h : Scns cfg items s W)
    (hr : Redist cfg s s') (hz : s.refcount s.expBucket = 0) (hbx : s.expBucket < 2 ^ cfg.hp) : Scns cfg items s' W := by
  have hget : ∀ sid, getScan s' sid = getScan s sid := by
    intro sid; unfold getScan; rw [hr.kept.scans]
  have hne : ∀ sid sc, getScan s sid = some sc → 0 < sc.tabcnt → sc.bucket ≠ s.expBucket := by
    intro sid sc hs h0 hc
    exact h.held hs h0 (by rw [hc]; exact hz)
  refine ⟨?_, ?_, ?_, ?_, ?_, ?_, hr.strict⟩
  · intro sid; rw [hget]; exact h.dom sid
  · intro sid sc hs
    rw [hget] at hs
    have h1 := h.ok sid sc hs
    refine ⟨h1.link, ?_, h1.idle⟩
    intro h0
    obtain ⟨k1, k2, k3⟩ := h1.act h0
    refine ⟨k1, k2, ?_⟩
    rcases k3 with k3 | ⟨k3, k4, k5⟩
    · left; rw [hr.kept.rp]; exact k3
    · right
      have hlow : sc.bucket < s.expBucket := by
        rcases k5 with k5 | ⟨k5, -⟩
        · exact k5
        · exact absurd k5 (hne sid sc hs h0)
      obtain ⟨m1, m2⟩ := hr.low sc.bucket hlow
      exact ⟨m1, by rw [hr.kept.pp]; exact k4, m2⟩
  · intro sid sc todo hs hw
    rw [hget] at hs
    obtain ⟨h1, h2⟩ := h.owe sid sc todo hs hw
    refine ⟨h1, fun k hk => ?_⟩
    rw [h2 k hk]
    have : Passed cfg s' sid sc k ↔ Passed cfg s sid sc k := by
      unfold Passed
      by_cases h0 : 0 < sc.tabcnt
      · have hb := hne sid sc hs h0
        rw [hr.table _ _ hb]
        by_cases hkb : bucketOf cfg k = sc.bucket
        · rw [hr.tab k (by rw [hkb]; exact hb)]
        · simp [hkb]
      · simp [h0]
    rw [this]
  · intro sid sc hs hl
    rw [hget] at hs
    have h0 := ((h.ok sid sc hs).link hl).1
    rw [hr.table _ _ (hne sid sc hs h0)]
    exact h.ph1 sid sc hs hl
  · intro sid t b ht hb hn
    rw [hget] at hn
    by_cases hbe : b = s.expBucket
    · subst hbe; exact hr.free t sid ht
    · rw [hr.table t b hbe]
      rw [hr.kept.rp] at ht
      exact h.ph0 sid t b ht hb hn
  · intro b; rw [hr.kept.ref, hr.kept.scans]; exact h.ref b

theorem Scns.expanded {cfg : Cfg} {items : List Item} {s : St} {W : Nat → Option (List (List Nat))} (ht : Tab cfg items s)
    (h : Scns cfg items s W) (he : s.expanding = false) (sz : Nat) : Scns cfg items (expanded cfg s sz) W := by
  have hp := Nat.two_pow_pos cfg.hp
  have htable : ∀ t b, t < 2 ^ s.rootpower → (Assoc.expanded cfg s sz).table t b = s.table t b := by
    intro t b htt
    show (if 2 ^ s.rootpower ≤ t then [] else s.table t b) = _
    rw [if_neg (by omega)]
  refine ⟨h.dom, ?_, ?_, ?_, ?_, h.ref, fun _ => Nat.two_pow_pos _⟩
  · intro sid sc hs
    have h1 := h.ok sid sc hs
    refine ⟨h1.link, ?_, h1.idle⟩
    intro h0
    obtain ⟨k1, k2, k3⟩ := h1.act h0
    refine ⟨k1, k2, .inr ⟨rfl, ?_, ?_⟩⟩
    · rcases k3 with k3 | ⟨k3, -⟩
      · exact k3
      · rw [he] at k3; cases k3
    · show sc.bucket < 2 ^ cfg.hp - 1 ∨ (sc.bucket = 2 ^ cfg.hp - 1 ∧ 0 = 0)
      omega
  · intro sid sc todo hs hw
    obtain ⟨h1, h2⟩ := h.owe sid sc todo hs hw
    refine ⟨h1, fun k hk => ?_⟩
    rw [h2 k hk]
    have : Passed cfg (Assoc.expanded cfg s sz) sid sc k ↔ Passed cfg s sid sc k := by
      unfold Passed
      rw [tabOf_expanded he]
      by_cases hl : tabOf cfg s k = sc.tabidx
      · rw [htable _ _ (by rw [← hl]; exact tabOf_lt ht k)]
      · simp [hl]
    rw [this]
  · intro sid sc hs hl
    have hok := h.ok sid sc hs
    have h0 := hok.link hl
    have := tabcnt_le ht hok
    rw [htable _ _ (by omega)]
    exact h.ph1 sid sc hs hl
  · intro sid t b htt hb hn
    show .ph sid ∉ (if 2 ^ s.rootpower ≤ t then [] else s.table t b)
    by_cases hc : 2 ^ s.rootpower ≤ t
    · rw [if_pos hc]; simp
    · rw [if_neg hc]; exact h.ph0 sid t b (by omega) hb hn

/-! ## The map calls -/

/-- The number of upper hash bits every chain has in common. -/
def depth (s : St) : Nat := if s.expanding then s.prevpower else s.rootpower

theorem insert_spec {cfg : Cfg} {items : List Item} {s : St} {W W' : Nat → Option (List (List Nat))} (ht : Tab cfg items s)
    (hs : Scns cfg items s W) {it : Item} (hk : it.key ≠ []) (hn : it.key ∉ keys items)
    (hdom : ∀ sid, W sid = none ↔ W' sid = none)
    (howe : ∀ sid sc todo todo', getScan s sid = some sc → W sid = some todo → W' sid = some todo' →
      (Passed cfg (pushed cfg s it) sid sc it.key → todo' = todo) ∧
      (¬ Passed cfg (pushed cfg s it) sid sc it.key → todo' = it.key :: todo)) (mem1 mem2 : Bool) :
    ∃ s', insert cfg s it mem1 mem2 = some s' ∧ Tab cfg (it :: items) s' ∧ Scns cfg (it :: items) s' W' ∧ s'.scans = s.scans ∧
      depth s ≤ depth s' := by
  have h1 := ht.push hk hn
  have hfind : find cfg s it.key = some none := by
    rw [find_eq ht hk]
    simp only [Option.some.injEq, List.find?_eq_none, decide_eq_true_eq]
    intro x hx hxk
    exact hn (List.mem_map.mpr ⟨x, hx, hxk⟩)
  have h2 : Scns cfg (it :: items) (pushed cfg s it) W' := by
    apply hs.rechain (W' := W')
    · intro i; rw [List.count_cons]; simp; rfl
    · exact hdom
    · intro sid sc todo' hg hw'
      obtain ⟨todo, hw⟩ : ∃ todo, W sid = some todo := by
        cases hc : W sid with
        | none => rw [hdom] at hc; rw [hc] at hw'; cases hw'
        | some x => exact ⟨x, rfl⟩
      obtain ⟨o1, o2⟩ := hs.owe sid sc todo hg hw
      obtain ⟨w1, w2⟩ := howe sid sc todo todo' hg hw hw'
      have hpk : ∀ k ∈ keys items, Passed cfg (pushed cfg s it) sid sc k ↔ Passed cfg s sid sc k := by
        intro k hkk
        apply Passed.rechain
        have hkne : k ≠ it.key := fun h => hn (h ▸ hkk)
        rw [← frontKeys_filter (c := .item it :: own cfg s it.key) (fun e => decide (e ≠ .item it)) (by simp)
            (by intro x hx; simp only [ne_eq, Entry.item.injEq, decide_eq_true_eq]; rintro rfl; exact hkne hx.symm),
          ← frontKeys_filter (c := s.table (tabOf cfg s it.key) (bucketOf cfg it.key)) (fun e => decide (e ≠ .item it)) (by simp)
            (by intro x hx; simp only [ne_eq, Entry.item.injEq, decide_eq_true_eq]; rintro rfl; exact hkne hx.symm)]
        rw [List.filter_cons_of_neg (by simp)]
        exact Iff.rfl
      have hcons : ∀ k, k ∈ keys (it :: items) ↔ k = it.key ∨ k ∈ keys items := by intro k; simp [keys]
      by_cases hp : Passed cfg (pushed cfg s it) sid sc it.key
      · rw [w1 hp]
        refine ⟨fun k hkk => (hcons k).mpr (.inr (o1 k hkk)), ?_⟩
        intro k hkk
        rcases (hcons k).mp hkk with rfl | hkk
        · exact ⟨fun h => absurd (o1 _ h) hn, fun h => absurd hp h⟩
        · rw [o2 k hkk]; exact not_congr (hpk k hkk).symm
      · rw [w2 hp]
        refine ⟨?_, ?_⟩
        · intro k hkk
          rcases List.mem_cons.mp hkk with rfl | h
          · exact (hcons _).mpr (.inl rfl)
          · exact (hcons k).mpr (.inr (o1 k h))
        · intro k hkk
          rcases (hcons k).mp hkk with rfl | hkk
          · exact ⟨fun _ => hp, fun _ => List.mem_cons_self⟩
          · have hkne : k ≠ it.key := fun h => hn (h ▸ hkk)
            rw [List.mem_cons]
            constructor
            · rintro (h | h)
              · exact absurd h hkne
              · exact fun hh => (o2 k hkk).mp h ((hpk k hkk).mp hh)
            · intro h; exact .inr ((o2 k hkk).mpr fun hh => h ((hpk k hkk).mpr hh))
  have hins : insert cfg s it mem1 mem2 =
      (if (pushed cfg s it).expanding then
        if (pushed cfg s it).refcount (pushed cfg s it).expBucket = 0 then redistribute cfg (pushed cfg s it) else some (pushed cfg s it)
      else if (pushed cfg s it).limit ≠ 0 ∧ (pushed cfg s it).limit < (pushed cfg s it).items then expand (pushed cfg s it) cfg mem1 mem2
      else some (pushed cfg s it)) := by
    unfold insert
    rw [hfind, chain_own ht]
    rfl
  rw [hins]
  have hd0 : depth (pushed cfg s it) = depth s := rfl
  by_cases he : (pushed cfg s it).expanding = true
  · rw [if_pos he]
    by_cases hz : (pushed cfg s it).refcount (pushed cfg s it).expBucket = 0
    · rw [if_pos hz]
      have hbx := (h1.geo he).2.1
      obtain ⟨s', k1, k2, k3⟩ := redistribute_eq h1 he (h2.strict he) (h2.free hbx hz)
      refine ⟨s', k1, k2, h2.redist k3 hz hbx, k3.kept.scans, ?_⟩
      rw [← hd0]
      unfold depth
      rw [if_pos he, k3.kept.pp, k3.kept.rp, (h1.geo he).1]
      split <;> omega
    · rw [if_neg hz]; exact ⟨_, rfl, h1, h2, rfl, Nat.le_refl _⟩
  · rw [if_neg he]
    have he' : (pushed cfg s it).expanding = false := by simpa using he
    by_cases hl : (pushed cfg s it).limit ≠ 0 ∧ (pushed cfg s it).limit < (pushed cfg s it).items
    · rw [if_pos hl]
      obtain ⟨sz, k0, k1 | ⟨k1, k2⟩⟩ := expand_cases h1 mem1 mem2
      · refine ⟨_, k1, ⟨h1.geo, h1.pw, h1.lim, k0, h1.place, h1.uniq, h1.nd, h1.ne, h1.cnt⟩,
          ⟨h2.dom, ?_, h2.owe, h2.ph1, h2.ph0, h2.ref, h2.strict⟩, rfl, Nat.le_refl _⟩
        intro sid sc hg; have := h2.ok sid sc hg; exact ⟨this.link, this.act, this.idle⟩
      · refine ⟨_, k2, h1.expanded he' hl.1 k1, h2.expanded h1 he' sz, rfl, ?_⟩
        rw [← hd0]
        unfold depth
        rw [he', if_neg Bool.false_ne_true, if_pos (show (expanded cfg (pushed cfg s it) sz).expanding = true from rfl)]
        exact Nat.le_refl _
    · rw [if_neg hl]; exact ⟨_, rfl, h1, h2, rfl, Nat.le_refl _⟩

theorem delete_spec {cfg : Cfg} {items : List Item} {s : St} {W : Nat → Option (List (List Nat))} (ht : Tab cfg items s)
    (hs : Scns cfg items s W) {key : List Nat} (hk : key ∈ keys items) :
    ∃ s', delete cfg s key = some s' ∧ Tab cfg (items.filter fun it => decide (it.key ≠ key)) s' ∧
      Scns cfg (items.filter fun it => decide (it.key ≠ key)) s' (fun sid => (W sid).map fun l => l.filter fun k => decide (k ≠ key)) ∧
      s'.scans = s.scans ∧ depth s' = depth s := by
  obtain ⟨p, it, q, h1, h2, h3, h4⟩ := ht.delete hk
  refine ⟨_, h3, h4, ?_, rfl, rfl⟩
  have hmem : ∀ k, k ∈ keys (items.filter fun it => decide (it.key ≠ key)) ↔ k ∈ keys items ∧ k ≠ key := by
    intro k
    simp only [keys, List.mem_map, List.mem_filter, decide_eq_true_eq]
    constructor
    · rintro ⟨x, ⟨hx1, hx2⟩, rfl⟩; exact ⟨⟨x, hx1, rfl⟩, hx2⟩
    · rintro ⟨⟨x, hx1, rfl⟩, hx2⟩; exact ⟨x, ⟨hx1, hx2⟩, rfl⟩
  apply hs.rechain
  · intro i
    have : s.table (tabOf cfg s key) (bucketOf cfg key) = p ++ .item it :: q := h1
    rw [this, List.count_append, List.count_append, List.count_cons]; simp
  · intro sid; simp
  · intro sid sc todo' hg hw
    obtain ⟨todo, hw1, rfl⟩ := Option.map_eq_some_iff.mp hw
    obtain ⟨o1, o2⟩ := hs.owe sid sc todo hg hw1
    refine ⟨?_, ?_⟩
    · intro k hkk
      simp only [List.mem_filter, decide_eq_true_eq] at hkk
      exact (hmem k).mpr ⟨o1 k hkk.1, hkk.2⟩
    · intro k hkk
      obtain ⟨m1, m2⟩ := (hmem k).mp hkk
      simp only [List.mem_filter, decide_eq_true_eq]
      rw [o2 k m1]
      have hp : Passed cfg { s with table := setChain s.table (tabOf cfg s key) (bucketOf cfg key) (p ++ q), items := s.items - 1 } sid sc k ↔
          Passed cfg s sid sc k := by
        apply Passed.rechain
        have : s.table (tabOf cfg s key) (bucketOf cfg key) = p ++ .item it :: q := h1
        rw [this]
        have hf : ∀ x : Item, x.key = k → (fun e => decide (e ≠ Entry.item it)) (.item x) = true := by
          intro x hx; simp only [ne_eq, Entry.item.injEq, decide_eq_true_eq]; rintro rfl; exact m2 (hx.symm.trans h2)
        rw [← frontKeys_filter (c := p ++ q) (fun e => decide (e ≠ Entry.item it)) (by simp) hf,
          ← frontKeys_filter (c := p ++ .item it :: q) (fun e => decide (e ≠ Entry.item it)) (by simp) hf]
        rw [List.filter_append, List.filter_append, List.filter_cons_of_neg (by simp)]
      constructor
      · rintro ⟨h, -⟩; exact fun hh => h (hp.mp hh)
      · intro h; exact ⟨fun hh => h (hp.mpr hh), m2⟩

theorem front_append_item (sid : Nat) (p : List Entry) (x : Item) (q : List Entry) :
    keys (its (front sid (p ++ .item x :: q))) =
      if .ph sid ∈ p then keys (its (front sid p)) else keys (its p) ++ (x.key :: keys (its (front sid q))) := by
  by_cases hm : .ph sid ∈ p
  · rw [if_pos hm]
    unfold front
    obtain ⟨a, b, rfl, hna⟩ : ∃ a b, p = a ++ .ph sid :: b ∧ .ph sid ∉ a := by
      obtain ⟨a, b, -, h1, h2⟩ := cutPh_some hm
      exact ⟨a, b, h1, h2⟩
    have h1 : front sid (a ++ .ph sid :: (b ++ .item x :: q)) = a := front_split hna
    have h2 : front sid (a ++ .ph sid :: b) = a := front_split hna
    unfold front at h1 h2
    rw [List.append_assoc, List.cons_append, h1, h2]
  · rw [if_neg hm]
    unfold front
    rw [List.takeWhile_append_of_pos, List.takeWhile_cons_of_pos (by simp)]
    · simp [keys]
    · intro e he
      have : e ≠ .ph sid := fun h' => hm (h' ▸ he)
      simpa using this

theorem replace_spec {cfg : Cfg} {items : List Item} {s : St} {W : Nat → Option (List (List Nat))} (ht : Tab cfg items s)
    (hs : Scns cfg items s W) {key : List Nat} (hk : key ∈ keys items) {new : Item} (hnew : new.key = key) :
    ∃ s', replace cfg s key new = some s' ∧ Tab cfg (items.map fun it => if it.key = key then new else it) s' ∧
      Scns cfg (items.map fun it => if it.key = key then new else it) s' W ∧ s'.scans = s.scans ∧ depth s' = depth s := by
  obtain ⟨p, it, q, h1, h2, h3, h4⟩ := ht.replace hk hnew
  refine ⟨_, h3, h4, ?_, rfl, rfl⟩
  have hkeys : keys (items.map fun it => if it.key = key then new else it) = keys items := by
    simp only [keys, List.map_map]
    apply List.map_congr_left
    intro y _
    simp only [Function.comp]
    by_cases hy : y.key = key
    · rw [if_pos hy, hnew, hy]
    · rw [if_neg hy]
  have htb : s.table (tabOf cfg s key) (bucketOf cfg key) = p ++ .item it :: q := h1
  apply hs.rechain
  · intro i
    rw [htb, List.count_append, List.count_append, List.count_cons, List.count_cons]; simp
  · intro sid; exact Iff.rfl
  · intro sid sc todo hg hw
    obtain ⟨o1, o2⟩ := hs.owe sid sc todo hg hw
    rw [hkeys]
    refine ⟨o1, fun k hkk => ?_⟩
    rw [o2 k hkk]
    have hp : Passed cfg { s with table := setChain s.table (tabOf cfg s key) (bucketOf cfg key) (p ++ .item new :: q), items := s.items } sid sc k ↔
        Passed cfg s sid sc k := by
      apply Passed.rechain
      unfold frontKeys
      rw [htb, front_append_item, front_append_item, hnew, h2]
    rw [← hp]

/-! ## Visited items and the end of a scan -/

theorem visited_spec {cfg : Cfg} {items : List Item} {s : St} {W : Nat → Option (List (List Nat))} (ht : Tab cfg items s)
    (hs : Scns cfg items s W) {sid : Nat} {sc : Scan} {todo : List (List Nat)} (hg : getScan s sid = some sc) (hw : W sid = some todo)
    (hst : 0 < sc.tabcnt ∨ sc.bucket = 2 ^ cfg.hp) {it : Item} (hm : it ∈ items) :
    inVisited cfg s sid it = some (decide (it.key ∉ todo)) := by
  obtain ⟨-, o2⟩ := hs.owe sid sc todo hg hw
  have hkey := o2 it.key (List.mem_map_of_mem hm)
  have hiff : it.key ∉ todo ↔ Passed cfg s sid sc it.key := by rw [hkey]; exact Classical.not_not
  have hbl := bucketOf_lt cfg it.key
  unfold inVisited
  rw [hg]
  simp only
  have hT : Passed cfg s sid sc it.key → (some true = some (decide (it.key ∉ todo))) := by
    intro h; rw [decide_eq_true (hiff.mpr h)]
  have hF : ¬ Passed cfg s sid sc it.key → (some false = some (decide (it.key ∉ todo))) := by
    intro h; rw [decide_eq_false (fun h' => h (hiff.mp h'))]
  by_cases h1 : bucketOf cfg it.key < sc.bucket
  · rw [if_pos h1]; exact hT (.inl h1)
  · rw [if_neg h1]
    by_cases h2 : bucketOf cfg it.key = sc.bucket
    · rw [if_pos h2]
      have h0 : 0 < sc.tabcnt := by
        rcases hst with h | h
        · exact h
        · omega
      by_cases h3 : tabOf cfg s it.key < sc.tabidx
      · rw [if_pos h3]; exact hT (.inr ⟨h2, h0, .inl h3⟩)
      · rw [if_neg h3]
        by_cases h4 : tabOf cfg s it.key = sc.tabidx ∧ sc.linked = true
        · rw [if_pos h4]
          rw [chain_some (tabOf_lt ht _) (by rw [← h2]; exact hbl)]
          have hc1 := hs.ph1 sid sc hg h4.2
          rw [← h4.1] at hc1
          have hmem : .ph sid ∈ s.table (tabOf cfg s it.key) sc.bucket := by rw [← List.count_pos_iff]; omega
          obtain ⟨p, q, k1, k2, k3⟩ := cutPh_some hmem
          simp only [k1]
          have hpl := ht.place _ _ it (tabOf_lt ht it.key) (by rw [← h2]; exact hbl : sc.bucket < 2 ^ cfg.hp)
          have hu := ht.uniq (tabOf cfg s it.key) sc.bucket (tabOf_lt ht it.key) (by rw [← h2]; exact hbl)
          have hpass : Passed cfg s sid sc it.key ↔ .item it ∈ p := by
            have hf : Passed cfg s sid sc it.key ↔ it.key ∈ frontKeys sid (s.table sc.tabidx sc.bucket) := by
              unfold Passed
              constructor
              · rintro (h | ⟨-, -, h | ⟨-, -, h⟩⟩)
                · exact absurd h h1
                · exact absurd h h3
                · exact h
              · intro h; exact .inr ⟨h2, h0, .inr ⟨h4.1, h4.2, h⟩⟩
            rw [hf, ← h4.1, k2]
            unfold frontKeys
            rw [front_split k3, mem_keys_its]
            constructor
            · rintro ⟨x, hx, hxk⟩
              have hx' : .item x ∈ s.table (tabOf cfg s it.key) sc.bucket := by rw [k2]; exact List.mem_append_left _ hx
              have hit' : .item it ∈ s.table (tabOf cfg s it.key) sc.bucket := hpl.mpr ⟨hm, h2, rfl⟩
              have := nodup_key hu (mem_its.mpr hx') (mem_its.mpr hit') hxk
              rw [← this]; exact hx
            · intro h; exact ⟨it, h, rfl⟩
          congr 1
          apply decide_eq_decide.mpr
          rw [hiff, hpass]
        · rw [if_neg h4]
          apply hF
          rintro (h | ⟨-, -, h | ⟨h, h', -⟩⟩)
          · exact h1 h
          · exact h3 h
          · exact h4 ⟨h, h'⟩
    · rw [if_neg h2]
      apply hF
      rintro (h | ⟨h, -⟩)
      · exact h1 h
      · exact h2 h

theorem final_spec {cfg : Cfg} {items : List Item} {s : St} {W : Nat → Option (List (List Nat))} (ht : Tab cfg items s)
    (hs : Scns cfg items s W) {sid : Nat} {sc : Scan} (hg : getScan s sid = some sc) :
    ∃ s', scanFinal cfg s sid = some s' ∧ Tab cfg items s' ∧ Scns cfg items s' (upd W sid none) ∧ s'.scans = s.scans.set sid none ∧
      depth s' = depth s := by
  have hok := hs.ok sid sc hg
  have hlt := getScan_lt hg
  have hset : s.scans.set sid (some sc) = s.scans := by
    apply List.ext_getElem?
    intro i
    by_cases hi : i = sid
    · subst hi; rw [List.getElem?_set_self (getScan_lt hg), getScan_get hg]
    · rw [List.getElem?_set_ne (Ne.symm hi)]
  -- the chain without the placeholder
  obtain ⟨t, b, c', htb, hbb, hf, hno, hun⟩ : ∃ t b c', t < 2 ^ s.rootpower ∧ b < 2 ^ cfg.hp ∧
      others sid c' = others sid (s.table t b) ∧
      (∀ t' b', t' < 2 ^ s.rootpower → b' < 2 ^ cfg.hp → .ph sid ∉ setChain s.table t b c' t' b') ∧
      unlinkPh cfg s sid sc = some { s with table := setChain s.table t b c' } := by
    unfold unlinkPh
    cases hl : sc.linked with
    | false =>
      refine ⟨0, 0, s.table 0 0, Nat.two_pow_pos _, Nat.two_pow_pos _, rfl, ?_, ?_⟩
      · intro t' b' ht' hb'
        rw [setChain_self]
        apply hs.ph0 sid t' b' ht' hb'
        intro x hx hxx; rw [hg] at hx; cases hx; rw [hl] at hxx; simp at hxx
      · rw [setChain_self]; rfl
    | true =>
      obtain ⟨k0, k1⟩ := hok.link hl
      have hle := tabcnt_le ht hok
      have hb := (hok.act k0).1
      have hc1 := hs.ph1 sid sc hg hl
      have hmem : .ph sid ∈ s.table sc.tabidx sc.bucket := by rw [← List.count_pos_iff]; omega
      obtain ⟨p, q, m1, m2, m3⟩ := cutPh_some hmem
      have m4 : .ph sid ∉ q := by
        intro hq
        rw [m2, List.count_append, List.count_cons_self] at hc1
        have := List.count_pos_iff.mpr hq
        omega
      refine ⟨sc.tabidx, sc.bucket, p ++ q, by omega, hb, ?_, ?_, ?_⟩
      · rw [m2, others_append, others_append, others_ph]
      · intro t' b' ht' hb'
        by_cases hc : t' = sc.tabidx ∧ b' = sc.bucket
        · rw [setChain_eq hc, List.mem_append, not_or]; exact ⟨m3, m4⟩
        · rw [setChain_ne hc]
          apply hs.ph0 sid t' b' ht' hb'
          intro x hx hxx; rw [hg] at hx; cases hx
          exact hc ⟨hxx.2.1.symm, hxx.2.2.symm⟩
      · rw [if_pos rfl, chain_some (by omega) hb]
        simp only [m1]
  have hup : ∀ R : Nat → Nat, (∀ b', R b' + (if holds b' (some sc) = true then 1 else 0) = s.refcount b') →
      Scns cfg items { s with table := setChain s.table t b c', refcount := R, scans := s.scans.set sid none } (upd W sid none) := by
    intro R hR
    apply hs.update hg hf
    · simp
    · intro _ hx; cases hx
    · intro _ _ hx; cases hx
    · intro _ hx; cases hx
    · intro t' b' ht' hb' _; exact hno t' b' ht' hb'
    · intro b'
      have h1 := countP_put hlt (some sc) none (holds b')
      rw [hset] at h1
      have h2 := hs.ref b'
      have h3 := hR b'
      have h4 : holds b' none = false := rfl
      rw [h4] at h1
      simp only [Bool.false_eq_true, if_false] at h1
      omega
  unfold scanFinal
  rw [hg]
  simp only [hun]
  unfold release
  by_cases hh : sc.bucket < 2 ^ cfg.hp ∧ 0 < sc.tabcnt
  · rw [if_pos hh]
    unfold unref
    rw [if_neg (show ¬ s.refcount sc.bucket = 0 from hs.held hg hh.2)]
    refine ⟨_, rfl, ?_, hup _ ?_, rfl, rfl⟩
    · exact ht.others (sid := sid) htb hbb hf _ _
    · intro b'
      simp only [holds, hh.2, true_and, decide_eq_true_eq]
      have := hs.held hg hh.2
      by_cases hb' : b' = sc.bucket
      · subst hb'; rw [if_pos rfl, if_pos rfl]; omega
      · rw [if_neg hb', if_neg (fun h => hb' h.symm)]; rfl
  · rw [if_neg hh]
    refine ⟨_, rfl, ?_, hup s.refcount ?_, rfl, rfl⟩
    · exact ht.others (sid := sid) htb hbb hf _ _
    · intro b'
      have h0 : ¬ 0 < sc.tabcnt := fun h => hh ⟨(hok.act h).1, h⟩
      simp [holds, h0]

end Verif.Assoc
