import Verif.Spec.Assoc
/-! # The hash table as a map -/
namespace Verif.Assoc
open Spec (keys)

/-- The items of a chain. -/
def its (l : List Entry) : List Item := l.filterMap fun e => match e with | .item it => some it | .ph _ => none

@[simp] theorem its_nil : its [] = [] := rfl
@[simp] theorem its_item (it : Item) (l : List Entry) : its (.item it :: l) = it :: its l := by simp [its]
@[simp] theorem its_ph (i : Nat) (l : List Entry) : its (.ph i :: l) = its l := by simp [its]
@[simp] theorem its_append (a b : List Entry) : its (a ++ b) = its a ++ its b := by simp [its]

theorem mem_its {it : Item} {l : List Entry} : it ∈ its l ↔ .item it ∈ l := by
  induction l with
  | nil => simp
  | cons e l ih => cases e <;> simp [ih]

theorem mem_keys_its {k : List Nat} {l : List Entry} : k ∈ keys (its l) ↔ ∃ it, .item it ∈ l ∧ it.key = k := by
  simp [keys, mem_its]

theorem its_no_ph {l : List Entry} (h : ∀ sid, .ph sid ∉ l) : l = (its l).map .item := by
  induction l with
  | nil => rfl
  | cons e l ih =>
    cases e with
    | item it => simp only [its_item, List.map_cons]; rw [← ih (fun sid hm => h sid (List.mem_cons_of_mem _ hm))]
    | ph i => exact absurd List.mem_cons_self (h i)

/-- The table holds exactly these items, each in the chain of its key. -/
structure Tab (cfg : Cfg) (items : List Item) (s : St) : Prop where
  geo : s.expanding = true → s.rootpower = s.prevpower + 1 ∧ s.expBucket < 2 ^ cfg.hp ∧ s.expTab ≤ 2 ^ s.prevpower
  pw : s.rootpower ≤ 15
  lim : 15 ≤ s.rootpower → s.limit = 0
  sz : 2 ^ s.rootpower ≤ s.roottabsz
  place : ∀ t b it, t < 2 ^ s.rootpower → b < 2 ^ cfg.hp →
    (.item it ∈ s.table t b ↔ it ∈ items ∧ bucketOf cfg it.key = b ∧ tabOf cfg s it.key = t)
  uniq : ∀ t b, t < 2 ^ s.rootpower → b < 2 ^ cfg.hp → (keys (its (s.table t b))).Nodup
  nd : (keys items).Nodup
  ne : ∀ it ∈ items, it.key ≠ []
  cnt : s.items = items.length

theorem bucketOf_lt (cfg : Cfg) (key : List Nat) : bucketOf cfg key < 2 ^ cfg.hp := Nat.mod_lt _ (Nat.two_pow_pos _)

theorem mod_succ (x k : Nat) : x % 2 ^ k < 2 ^ k ∧ (x % 2 ^ (k + 1) = x % 2 ^ k ∨ x % 2 ^ (k + 1) = x % 2 ^ k + 2 ^ k) := by
  refine ⟨Nat.mod_lt _ (Nat.two_pow_pos _), ?_⟩
  have h := Nat.mod_pow_succ (b := 2) (x := x) (k := k)
  have : x / 2 ^ k % 2 < 2 := Nat.mod_lt _ (by decide)
  rw [h]
  rcases Nat.lt_or_ge (x / 2 ^ k % 2) 1 with h1 | h1
  · left; have : x / 2 ^ k % 2 = 0 := by omega
    rw [this]; simp
  · right; have : x / 2 ^ k % 2 = 1 := by omega
    rw [this]; simp

theorem two_pow_succ' (k : Nat) : 2 ^ (k + 1) = 2 ^ k + 2 ^ k := by rw [Nat.pow_succ]; omega

theorem curTab_lt {cfg : Cfg} {items : List Item} {s : St} (h : Tab cfg items s) (x b : Nat) : curTab s x b < 2 ^ s.rootpower := by
  have h1 : x % 2 ^ s.rootpower < 2 ^ s.rootpower := Nat.mod_lt _ (Nat.two_pow_pos _)
  have h2 : x % 2 ^ s.prevpower < 2 ^ s.prevpower := Nat.mod_lt _ (Nat.two_pow_pos _)
  unfold curTab
  by_cases he : s.expanding = true
  · obtain ⟨g, -, -⟩ := h.geo he
    have := two_pow_succ' s.prevpower
    rw [← g] at this
    rw [if_pos he]
    split
    · omega
    · split
      · omega
      · split <;> omega
  · rw [if_neg he]; exact h1

theorem tabOf_lt {cfg : Cfg} {items : List Item} {s : St} (h : Tab cfg items s) (key : List Nat) :
    tabOf cfg s key < 2 ^ s.rootpower := curTab_lt h _ _

theorem chain_some {cfg : Cfg} {s : St} {t b : Nat} (h1 : t < 2 ^ s.rootpower) (h2 : b < 2 ^ cfg.hp) :
    chain cfg s t b = some (s.table t b) := if_pos ⟨h1, h2⟩

/-- The chain of a key. -/
def own (cfg : Cfg) (s : St) (key : List Nat) : List Entry := s.table (tabOf cfg s key) (bucketOf cfg key)

theorem chain_own {cfg : Cfg} {items : List Item} {s : St} (h : Tab cfg items s) (key : List Nat) :
    chain cfg s (tabOf cfg s key) (bucketOf cfg key) = some (own cfg s key) :=
  chain_some (tabOf_lt h key) (bucketOf_lt cfg key)

theorem mem_own {cfg : Cfg} {items : List Item} {s : St} (h : Tab cfg items s) (key : List Nat) {it : Item} (hk : it.key = key) :
    .item it ∈ own cfg s key ↔ it ∈ items := by
  unfold own
  rw [h.place _ _ it (tabOf_lt h key) (bucketOf_lt cfg key), hk]
  simp

theorem nodup_key {l : List Item} (h : (keys l).Nodup) {a b : Item} (ha : a ∈ l) (hb : b ∈ l) (hk : a.key = b.key) : a = b := by
  induction l with
  | nil => simp at ha
  | cons x l ih =>
    simp only [keys, List.map_cons, List.nodup_cons, List.mem_map, not_exists, not_and] at h
    rcases List.mem_cons.mp ha with rfl | ha
    · rcases List.mem_cons.mp hb with rfl | hb
      · rfl
      · exact absurd hk.symm (h.1 b hb)
    · rcases List.mem_cons.mp hb with rfl | hb
      · exact absurd hk (h.1 a (by assumption))
      · exact ih h.2 (by assumption) hb

theorem findSome_match (key : List Nat) (l : List Entry) :
    l.findSome? (Entry.match? key) = (its l).find? fun it => decide (it.key = key) := by
  induction l with
  | nil => rfl
  | cons e l ih =>
    cases e with
    | ph i => rw [List.findSome?_cons, its_ph, ← ih]; rfl
    | item it =>
      by_cases hk : it.key = key
      · simp [Entry.match?, hk]
      · simp [Entry.match?, hk, ih]

theorem find?_some_iff {l : List Item} (h : (keys l).Nodup) (key : List Nat) (it : Item) :
    (l.find? fun it => decide (it.key = key)) = some it ↔ it ∈ l ∧ it.key = key := by
  constructor
  · intro hf
    exact ⟨List.mem_of_find?_eq_some hf, by simpa using List.find?_some hf⟩
  · rintro ⟨hm, hk⟩
    cases hf : l.find? fun it => decide (it.key = key) with
    | none => rw [List.find?_eq_none] at hf; exact absurd hk (by simpa using hf it hm)
    | some x =>
      have hx := List.find?_some hf
      rw [nodup_key h (List.mem_of_find?_eq_some hf) hm (by rw [hk]; simpa using hx)]

theorem find_eq {cfg : Cfg} {items : List Item} {s : St} (h : Tab cfg items s) {key : List Nat} (hk : key ≠ []) :
    find cfg s key = some (items.find? fun it => decide (it.key = key)) := by
  unfold find
  rw [if_neg hk, chain_own h]
  simp only [Option.some.injEq]
  rw [findSome_match]
  apply Option.ext
  intro it
  rw [find?_some_iff (l := its (own cfg s key)) (h.uniq _ _ (tabOf_lt h key) (bucketOf_lt cfg key)), find?_some_iff h.nd, mem_its]
  constructor
  · rintro ⟨h1, h2⟩; exact ⟨(mem_own h key h2).mp h1, h2⟩
  · rintro ⟨h1, h2⟩; exact ⟨(mem_own h key h2).mpr h1, h2⟩

/-! ## A new item -/

/-- The state with an item put in. -/
def pushed (cfg : Cfg) (s : St) (it : Item) : St :=
  { s with
    table := setChain s.table (tabOf cfg s it.key) (bucketOf cfg it.key) (.item it :: own cfg s it.key)
    items := s.items + 1 }

theorem setChain_eq {T : Nat → Nat → List Entry} {t b : Nat} {l : List Entry} {t' b' : Nat} (h : t' = t ∧ b' = b) :
    setChain T t b l t' b' = l := if_pos h

theorem setChain_ne {T : Nat → Nat → List Entry} {t b : Nat} {l : List Entry} {t' b' : Nat} (h : ¬ (t' = t ∧ b' = b)) :
    setChain T t b l t' b' = T t' b' := if_neg h

/-- The effect of changing one chain. -/
theorem Tab.setOne {cfg : Cfg} {items items' : List Item} {s : St} (h : Tab cfg items s) (t b : Nat) (l : List Entry) (n : Nat)
    (hother : ∀ it, ¬ (bucketOf cfg it.key = b ∧ tabOf cfg s it.key = t) → (it ∈ items' ↔ it ∈ items))
    (hl : ∀ it, .item it ∈ l ↔ it ∈ items' ∧ bucketOf cfg it.key = b ∧ tabOf cfg s it.key = t)
    (hu : (keys (its l)).Nodup) (hnd : (keys items').Nodup) (hne : ∀ it ∈ items', it.key ≠ []) (hn : n = items'.length) :
    Tab cfg items' { s with table := setChain s.table t b l, items := n } := by
  refine ⟨h.geo, h.pw, h.lim, h.sz, ?_, ?_, hnd, hne, hn⟩
  · intro t' b' it ht hb
    show .item it ∈ setChain s.table t b l t' b' ↔ _ ∧ _ ∧ tabOf cfg s it.key = t'
    by_cases hc : t' = t ∧ b' = b
    · rw [setChain_eq hc, hc.1, hc.2]; exact hl it
    · rw [setChain_ne hc, h.place t' b' it ht hb]
      constructor
      · rintro ⟨h1, h2, h3⟩
        exact ⟨(hother it (fun h => hc ⟨h3.symm.trans h.2, h2.symm.trans h.1⟩)).mpr h1, h2, h3⟩
      · rintro ⟨h1, h2, h3⟩
        exact ⟨(hother it (fun h => hc ⟨h3.symm.trans h.2, h2.symm.trans h.1⟩)).mp h1, h2, h3⟩
  · intro t' b' ht hb
    show (keys (its (setChain s.table t b l t' b'))).Nodup
    by_cases hc : t' = t ∧ b' = b
    · rw [setChain_eq hc]; exact hu
    · rw [setChain_ne hc]; exact h.uniq t' b' ht hb

theorem Tab.push {cfg : Cfg} {items : List Item} {s : St} (h : Tab cfg items s) {it : Item} (hk : it.key ≠ [])
    (hn : it.key ∉ keys items) : Tab cfg (it :: items) (pushed cfg s it) := by
  have hown : ∀ x, .item x ∈ own cfg s it.key → x ∈ items := by
    intro x hx
    exact ((h.place _ _ x (tabOf_lt h it.key) (bucketOf_lt cfg it.key)).mp hx).1
  apply h.setOne
  · intro x hx
    constructor
    · intro hm
      rcases List.mem_cons.mp hm with rfl | hm
      · exact absurd ⟨rfl, rfl⟩ hx
      · exact hm
    · exact List.mem_cons_of_mem _
  · intro x
    simp only [List.mem_cons, Entry.item.injEq]
    unfold own
    rw [h.place _ _ x (tabOf_lt h it.key) (bucketOf_lt cfg it.key)]
    constructor
    · rintro (rfl | ⟨h1, h2, h3⟩)
      · exact ⟨.inl rfl, rfl, rfl⟩
      · exact ⟨.inr h1, h2, h3⟩
    · rintro ⟨rfl | h1, h2, h3⟩
      · exact .inl rfl
      · exact .inr ⟨h1, h2, h3⟩
  · simp only [its_item, keys, List.map_cons, List.nodup_cons]
    refine ⟨fun hm => ?_, h.uniq _ _ (tabOf_lt h it.key) (bucketOf_lt cfg it.key)⟩
    obtain ⟨x, hx, hxk⟩ := List.mem_map.mp hm
    exact hn (List.mem_map.mpr ⟨x, hown x (mem_its.mp hx), hxk⟩)
  · simp only [keys, List.map_cons, List.nodup_cons]
    exact ⟨hn, h.nd⟩
  · intro x hx
    rcases List.mem_cons.mp hx with rfl | hx
    · exact hk
    · exact h.ne x hx
  · simp [h.cnt]

/-! ## Replacement and deletion -/

theorem change_some {key : List Nat} {new : Option Item} {l : List Entry} (h : ∃ it, .item it ∈ l ∧ it.key = key) :
    ∃ p it q, l = p ++ .item it :: q ∧ it.key = key ∧ (∀ x, .item x ∈ p → x.key ≠ key) ∧
      change key new l = some (p ++ (instead new ++ q)) := by
  induction l with
  | nil => obtain ⟨it, h, -⟩ := h; simp at h
  | cons e l ih =>
    have rec' : (∃ it, .item it ∈ l ∧ it.key = key) → (∀ x, e = .item x → x.key ≠ key) →
        change key new (e :: l) = (change key new l).map (e :: ·) →
        ∃ p it q, e :: l = p ++ .item it :: q ∧ it.key = key ∧ (∀ x, .item x ∈ p → x.key ≠ key) ∧
          change key new (e :: l) = some (p ++ (instead new ++ q)) := by
      intro h1 h2 h3
      obtain ⟨p, it, q, k1, k2, k3, k4⟩ := ih h1
      refine ⟨e :: p, it, q, by rw [k1]; rfl, k2, ?_, by rw [h3, k4]; rfl⟩
      intro x hx
      rcases List.mem_cons.mp hx with hx | hx
      · exact h2 x hx.symm
      · exact k3 x hx
    obtain ⟨it, hm, hk⟩ := h
    cases e with
    | ph i =>
      exact rec' ⟨it, by simpa using hm, hk⟩ (by simp) rfl
    | item x =>
      by_cases hx : x.key = key
      · exact ⟨[], x, l, rfl, hx, by simp, by simp [change, hx]⟩
      · refine rec' ⟨it, ?_, hk⟩ (by intro y hy; cases hy; exact hx) (by simp [change, hx])
        rcases List.mem_cons.mp hm with h | h
        · cases h; exact absurd hk hx
        · exact h

/-- The state with the chain of a key changed. -/
def chained (cfg : Cfg) (s : St) (key : List Nat) (l : List Entry) (n : Nat) : St :=
  { s with table := setChain s.table (tabOf cfg s key) (bucketOf cfg key) l, items := n }

theorem Tab.delete {cfg : Cfg} {items : List Item} {s : St} (h : Tab cfg items s) {key : List Nat} (hk : key ∈ keys items) :
    ∃ p it q, own cfg s key = p ++ .item it :: q ∧ it.key = key ∧
      Assoc.delete cfg s key = some (chained cfg s key (p ++ q) (s.items - 1)) ∧
      Tab cfg (items.filter fun it => decide (it.key ≠ key)) (chained cfg s key (p ++ q) (s.items - 1)) := by
  obtain ⟨x, hx, hxk⟩ := List.mem_map.mp hk
  obtain ⟨p, it, q, h1, h2, -, h3⟩ := change_some (new := none) (l := own cfg s key) ⟨x, (mem_own h key hxk).mpr hx, hxk⟩
  have hu := h.uniq _ _ (tabOf_lt h key) (bucketOf_lt cfg key)
  change (keys (its (own cfg s key))).Nodup at hu
  rw [h1] at hu
  simp only [its_append, its_item, keys, List.map_append, List.map_cons] at hu
  rw [List.nodup_append] at hu
  obtain ⟨hu1, hu2, hu3⟩ := hu
  rw [List.nodup_cons] at hu2
  have hpos : s.items ≠ 0 := by
    rw [h.cnt]; intro h0; rw [List.length_eq_zero_iff] at h0; rw [h0] at hx; simp at hx
  refine ⟨p, it, q, h1, h2, ?_, ?_⟩
  · unfold Assoc.delete
    rw [chain_own h]
    simp only [h3, if_neg hpos]
    rfl
  · have hlen : ∀ l : List Item, (keys l).Nodup → key ∈ keys l →
        (l.filter fun it => decide (it.key ≠ key)).length = l.length - 1 := by
      intro l hl hm
      induction l with
      | nil => simp [keys] at hm
      | cons y l ih =>
        simp only [keys, List.map_cons, List.nodup_cons] at hl
        by_cases hy : y.key = key
        · rw [List.filter_cons_of_neg (by simpa using hy), List.filter_eq_self.mpr, List.length_cons, Nat.add_sub_cancel]
          intro z hz
          have : z.key ≠ key := fun hzk => hl.1 (by rw [hy, ← hzk]; exact List.mem_map_of_mem hz)
          simpa using this
        · have hm' : key ∈ keys l := by
            simp only [keys, List.map_cons, List.mem_cons] at hm
            rcases hm with hm | hm
            · exact absurd hm.symm hy
            · exact hm
          rw [List.filter_cons_of_pos (by simpa using hy), List.length_cons, List.length_cons, ih hl.2 hm']
          have : 0 < l.length := by
            cases l with
            | nil => simp [keys] at hm'
            | cons => simp
          omega
    apply h.setOne
    · intro y hy
      simp only [List.mem_filter, decide_eq_true_eq]
      constructor
      · exact fun h => h.1
      · exact fun hm => ⟨hm, fun hyk => hy (by rw [hyk]; exact ⟨rfl, rfl⟩)⟩
    · intro y
      have hp := h.place _ _ y (tabOf_lt h key) (bucketOf_lt cfg key)
      change .item y ∈ own cfg s key ↔ _ at hp
      rw [h1] at hp
      simp only [List.mem_append, List.mem_cons, Entry.item.injEq] at hp
      simp only [List.mem_append, List.mem_filter, decide_eq_true_eq]
      constructor
      · intro hy
        obtain ⟨k1, k2⟩ := hp.mp (by rcases hy with h | h; exact .inl h; exact .inr (.inr h))
        refine ⟨⟨k1, fun hyk => ?_⟩, k2⟩
        rcases hy with hy | hy
        · exact hu3 y.key (List.mem_map_of_mem (mem_its.mpr hy)) it.key (List.mem_cons_self) (hyk.trans h2.symm)
        · exact hu2.1 (by rw [h2, ← hyk]; exact List.mem_map_of_mem (mem_its.mpr hy))
      · rintro ⟨⟨k1, k2⟩, k3⟩
        rcases hp.mpr ⟨k1, k3⟩ with h | h | h
        · exact .inl h
        · rw [h] at k2; exact absurd h2 k2
        · exact .inr h
    · simp only [its_append, keys, List.map_append]
      rw [List.nodup_append]
      exact ⟨hu1, hu2.2, fun a ha b hb => hu3 a ha b (List.mem_cons_of_mem _ hb)⟩
    · exact h.nd.sublist (List.filter_sublist.map _)
    · intro y hy; exact h.ne y (List.mem_filter.mp hy).1
    · rw [hlen items h.nd hk, h.cnt]

theorem Tab.replace {cfg : Cfg} {items : List Item} {s : St} (h : Tab cfg items s) {key : List Nat} (hk : key ∈ keys items)
    {new : Item} (hnew : new.key = key) :
    ∃ p it q, own cfg s key = p ++ .item it :: q ∧ it.key = key ∧
      Assoc.replace cfg s key new = some (chained cfg s key (p ++ .item new :: q) s.items) ∧
      Tab cfg (items.map fun it => if it.key = key then new else it) (chained cfg s key (p ++ .item new :: q) s.items) := by
  obtain ⟨x, hx, hxk⟩ := List.mem_map.mp hk
  obtain ⟨p, it, q, h1, h2, -, h3⟩ := change_some (new := some new) (l := own cfg s key) ⟨x, (mem_own h key hxk).mpr hx, hxk⟩
  have hu := h.uniq _ _ (tabOf_lt h key) (bucketOf_lt cfg key)
  change (keys (its (own cfg s key))).Nodup at hu
  rw [h1] at hu
  have hu0 := hu
  simp only [its_append, its_item, keys, List.map_append, List.map_cons] at hu
  rw [List.nodup_append] at hu
  obtain ⟨hu1, hu2, hu3⟩ := hu
  rw [List.nodup_cons] at hu2
  have hkeys : keys (items.map fun it => if it.key = key then new else it) = keys items := by
    simp only [keys, List.map_map]
    apply List.map_congr_left
    intro y _
    simp only [Function.comp]
    by_cases hy : y.key = key
    · rw [if_pos hy, hnew, hy]
    · rw [if_neg hy]
  have hmem : ∀ y, (y ∈ items.map fun it => if it.key = key then new else it) ↔ y = new ∨ (y ∈ items ∧ y.key ≠ key) := by
    intro y
    rw [List.mem_map]
    constructor
    · rintro ⟨z, hz, rfl⟩
      by_cases hzk : z.key = key
      · rw [if_pos hzk]; exact .inl rfl
      · rw [if_neg hzk]; exact .inr ⟨hz, hzk⟩
    · rintro (rfl | ⟨h1, h2⟩)
      · exact ⟨x, hx, by rw [if_pos hxk]⟩
      · exact ⟨y, h1, by rw [if_neg h2]⟩
  refine ⟨p, it, q, h1, h2, ?_, ?_⟩
  · unfold Assoc.replace
    rw [chain_own h]
    simp only [h3]
    rfl
  · apply h.setOne
    · intro y hy
      rw [hmem]
      have hyk : y.key ≠ key := fun hyk => hy (by rw [hyk]; exact ⟨rfl, rfl⟩)
      constructor
      · rintro (rfl | h)
        · exact absurd hnew hyk
        · exact h.1
      · exact fun h => .inr ⟨h, hyk⟩
    · intro y
      have hp := h.place _ _ y (tabOf_lt h key) (bucketOf_lt cfg key)
      change .item y ∈ own cfg s key ↔ _ at hp
      rw [h1] at hp
      simp only [List.mem_append, List.mem_cons, Entry.item.injEq] at hp
      simp only [List.mem_append, List.mem_cons, Entry.item.injEq]
      rw [hmem]
      constructor
      · rintro (hy | rfl | hy)
        · obtain ⟨k1, k2⟩ := hp.mp (.inl hy)
          refine ⟨.inr ⟨k1, fun hyk => ?_⟩, k2⟩
          exact hu3 y.key (List.mem_map_of_mem (mem_its.mpr hy)) it.key (List.mem_cons_self) (hyk.trans h2.symm)
        · exact ⟨.inl rfl, by rw [hnew], by rw [hnew]⟩
        · obtain ⟨k1, k2⟩ := hp.mp (.inr (.inr hy))
          refine ⟨.inr ⟨k1, fun hyk => ?_⟩, k2⟩
          exact hu2.1 (by rw [h2, ← hyk]; exact List.mem_map_of_mem (mem_its.mpr hy))
      · rintro ⟨rfl | ⟨k1, k2⟩, k3⟩
        · exact .inr (.inl rfl)
        · rcases hp.mpr ⟨k1, k3⟩ with h | h | h
          · exact .inl h
          · rw [h] at k2; exact absurd h2 k2
          · exact .inr (.inr h)
    · simp only [its_append, its_item, keys, List.map_append, List.map_cons] at hu0 ⊢
      rw [hnew, ← h2]; exact hu0
    · rw [hkeys]; exact h.nd
    · intro y hy
      rcases (hmem y).mp hy with rfl | h'
      · rw [hnew, ← hxk]; exact h.ne x hx
      · exact h.ne y h'.1
    · rw [List.length_map, h.cnt]

end Verif.Assoc
