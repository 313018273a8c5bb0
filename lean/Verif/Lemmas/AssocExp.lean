import Verif.Lemmas.AssocTab
/-! # The hash table grows -/
namespace Verif.Assoc
open Spec (keys)

/-! ## The start of an expansion -/

/-- The table after an expansion was begun. -/
def expanded (cfg : Cfg) (s : St) (sz : Nat) : St :=
  { s with
    table := fun t b => if 2 ^ s.rootpower ≤ t then [] else s.table t b
    roottabsz := sz
    rootpower := s.rootpower + 1
    prevpower := s.rootpower
    limit := if s.rootpower + 1 < 15 then expLimit cfg (s.rootpower + 1) else 0
    expanding := true
    expBucket := 2 ^ cfg.hp - 1
    expTab := 0 }

theorem expand_cases {cfg : Cfg} {items : List Item} {s : St} (h : Tab cfg items s) (mem1 mem2 : Bool) :
    ∃ sz, 2 ^ s.rootpower ≤ sz ∧
      (expand s cfg mem1 mem2 = some { s with roottabsz := sz } ∨
       (2 ^ s.rootpower * 2 ≤ sz ∧ expand s cfg mem1 mem2 = some (expanded cfg s sz))) := by
  have hsz := h.sz
  unfold expand
  by_cases h1 : s.roottabsz < 2 ^ s.rootpower * 2 ∧ mem1 = false
  · exact ⟨s.roottabsz, hsz, .inl (by rw [if_pos h1])⟩
  · rw [if_neg h1]
    refine ⟨if s.roottabsz < 2 ^ s.rootpower * 2 then s.roottabsz * 2 else s.roottabsz, by split <;> omega, ?_⟩
    by_cases h2 : mem2 = false
    · left; rw [if_pos h2]
    · right
      refine ⟨by split <;> omega, ?_⟩
      rw [if_neg h2, if_neg (by split <;> omega)]
      rfl

theorem tabOf_expanded {cfg : Cfg} {s : St} (he : s.expanding = false) (sz : Nat) (key : List Nat) :
    tabOf cfg (expanded cfg s sz) key = tabOf cfg s key := by
  have := bucketOf_lt cfg key
  have h1 : tabOf cfg (expanded cfg s sz) key =
      if bucketOf cfg key < 2 ^ cfg.hp - 1 then upperOf cfg key % 2 ^ s.rootpower
      else if 2 ^ cfg.hp - 1 < bucketOf cfg key then upperOf cfg key % 2 ^ (s.rootpower + 1)
      else if upperOf cfg key % 2 ^ s.rootpower < 0 then upperOf cfg key % 2 ^ (s.rootpower + 1)
      else upperOf cfg key % 2 ^ s.rootpower := by
    unfold tabOf curTab
    rw [if_pos (show (expanded cfg s sz).expanding = true from rfl)]
    rfl
  rw [h1]
  unfold tabOf curTab
  rw [if_neg (show ¬ s.expanding = true by rw [he]; exact Bool.false_ne_true)]
  by_cases h : bucketOf cfg key < 2 ^ cfg.hp - 1
  · rw [if_pos h]
  · rw [if_neg h, if_neg (by omega), if_neg (by omega)]

theorem Tab.expanded {cfg : Cfg} {items : List Item} {s : St} (h : Tab cfg items s) (he : s.expanding = false)
    (hl : s.limit ≠ 0) {sz : Nat} (hsz : 2 ^ s.rootpower * 2 ≤ sz) : Tab cfg items (expanded cfg s sz) := by
  have hrp : s.rootpower < 15 := by
    rcases Nat.lt_or_ge s.rootpower 15 with h1 | h1
    · exact h1
    · exact absurd (h.lim h1) hl
  have h2 := two_pow_succ' s.rootpower
  refine ⟨?_, ?_, ?_, ?_, ?_, ?_, h.nd, h.ne, h.cnt⟩
  · intro _
    have := Nat.two_pow_pos cfg.hp
    exact ⟨rfl, by show 2 ^ cfg.hp - 1 < 2 ^ cfg.hp; omega, Nat.zero_le _⟩
  · show s.rootpower + 1 ≤ 15; omega
  · intro hh
    change 15 ≤ s.rootpower + 1 at hh
    show (if s.rootpower + 1 < 15 then expLimit cfg (s.rootpower + 1) else 0) = 0
    rw [if_neg (by omega)]
  · show 2 ^ (s.rootpower + 1) ≤ sz; omega
  · intro t b it ht hb
    change t < 2 ^ (s.rootpower + 1) at ht
    rw [tabOf_expanded he]
    show .item it ∈ (if 2 ^ s.rootpower ≤ t then [] else s.table t b) ↔ _
    by_cases hc : 2 ^ s.rootpower ≤ t
    · rw [if_pos hc]
      constructor
      · intro hm; simp at hm
      · rintro ⟨-, -, h3⟩
        have := tabOf_lt h it.key
        omega
    · rw [if_neg hc]; exact h.place t b it (by omega) hb
  · intro t b ht hb
    show (keys (its (if 2 ^ s.rootpower ≤ t then [] else s.table t b))).Nodup
    by_cases hc : 2 ^ s.rootpower ≤ t
    · rw [if_pos hc]; simp [keys]
    · rw [if_neg hc]; exact h.uniq t b (by omega) hb

/-! ## Redistribution -/

theorem redistChain_eq (cfg : Cfg) {prev e b : Nat} (he : e < 2 ^ prev) :
    ∀ (l : List Entry) (T : Nat → Nat → List Entry) (kept : List Entry), (∀ sid, .ph sid ∉ l) →
      (∀ it, .item it ∈ l → upperOf cfg it.key % 2 ^ prev = e) →
      ∃ T', redistChain cfg (prev + 1) e b l T kept = some T' ∧
        ∃ stay moved : List Entry,
          (∀ it, .item it ∈ stay ↔ .item it ∈ l ∧ upperOf cfg it.key % 2 ^ (prev + 1) = e) ∧
          (∀ it, .item it ∈ moved ↔ .item it ∈ l ∧ upperOf cfg it.key % 2 ^ (prev + 1) ≠ e) ∧
          (∀ sid, .ph sid ∉ stay) ∧ (∀ sid, .ph sid ∉ moved) ∧
          ((keys (its l)).Nodup → (keys (its stay)).Nodup ∧ (keys (its moved)).Nodup) ∧
          T' e b = kept ++ stay ∧ T' (e + 2 ^ prev) b = moved ++ T (e + 2 ^ prev) b ∧
          ∀ t' b', ¬ (b' = b ∧ (t' = e ∨ t' = e + 2 ^ prev)) → T' t' b' = T t' b' := by
  intro l
  have hpos := Nat.two_pow_pos prev
  induction l with
  | nil =>
    intro T kept _ _
    refine ⟨_, rfl, [], [], by simp, by simp, by simp, by simp, by simp [keys], ?_, ?_, ?_⟩
    · rw [setChain_eq ⟨rfl, rfl⟩]; simp
    · rw [setChain_ne (by omega)]; rfl
    · intro t' b' hn; rw [setChain_ne (by omega)]
  | cons x l ih =>
    intro T kept hph hup
    cases x with
    | ph i => exact absurd List.mem_cons_self (hph i)
    | item it =>
      have hph' : ∀ sid, .ph sid ∉ l := fun sid hm => hph sid (List.mem_cons_of_mem _ hm)
      have hup' : ∀ it, .item it ∈ l → upperOf cfg it.key % 2 ^ prev = e := fun it hm => hup it (List.mem_cons_of_mem _ hm)
      have hit := hup it List.mem_cons_self
      obtain ⟨-, hsucc⟩ := mod_succ (upperOf cfg it.key) prev
      rw [hit] at hsucc
      simp only [redistChain]
      by_cases hst : upperOf cfg it.key % 2 ^ (prev + 1) = e
      · rw [if_pos hst]
        obtain ⟨T', k1, stay, moved, k2, k3, k4, k5, k6, k7, k8, k9⟩ := ih T (kept ++ [.item it]) hph' hup'
        refine ⟨T', k1, .item it :: stay, moved, ?_, ?_, ?_, k5, ?_, by rw [k7]; simp, k8, k9⟩
        · intro y
          simp only [List.mem_cons, Entry.item.injEq, k2]
          constructor
          · rintro (rfl | ⟨h1, h2⟩)
            · exact ⟨.inl rfl, hst⟩
            · exact ⟨.inr h1, h2⟩
          · rintro ⟨rfl | h1, h2⟩
            · exact .inl rfl
            · exact .inr ⟨h1, h2⟩
        · intro y
          rw [k3]
          simp only [List.mem_cons, Entry.item.injEq]
          constructor
          · rintro ⟨h1, h2⟩; exact ⟨.inr h1, h2⟩
          · rintro ⟨rfl | h1, h2⟩
            · exact absurd hst h2
            · exact ⟨h1, h2⟩
        · intro sid hm
          rcases List.mem_cons.mp hm with h | h
          · cases h
          · exact k4 sid h
        · intro hnd
          simp only [its_item, keys, List.map_cons, List.nodup_cons] at hnd ⊢
          obtain ⟨m1, m2⟩ := k6 hnd.2
          refine ⟨⟨fun hm => hnd.1 ?_, m1⟩, m2⟩
          obtain ⟨y, hy, hyk⟩ := List.mem_map.mp hm
          exact List.mem_map.mpr ⟨y, mem_its.mpr ((k2 y).mp (mem_its.mp hy)).1, hyk⟩
      · rw [if_neg hst]
        have hto : upperOf cfg it.key % 2 ^ (prev + 1) = e + 2 ^ prev := by omega
        rw [hto]
        obtain ⟨T', k1, stay, moved, k2, k3, k4, k5, k6, k7, k8, k9⟩ :=
          ih (setChain T (e + 2 ^ prev) b (.item it :: T (e + 2 ^ prev) b)) kept hph' hup'
        rw [setChain_eq ⟨rfl, rfl⟩] at k8
        refine ⟨T', k1, stay, moved ++ [.item it], ?_, ?_, k4, ?_, ?_, k7, by rw [k8]; simp, ?_⟩
        · intro y
          rw [k2]
          simp only [List.mem_cons, Entry.item.injEq]
          constructor
          · rintro ⟨h1, h2⟩; exact ⟨.inr h1, h2⟩
          · rintro ⟨rfl | h1, h2⟩
            · exact absurd h2 hst
            · exact ⟨h1, h2⟩
        · intro y
          simp only [List.mem_append, List.mem_cons, Entry.item.injEq, k3, List.not_mem_nil, or_false]
          constructor
          · rintro (⟨h1, h2⟩ | rfl)
            · exact ⟨.inr h1, h2⟩
            · exact ⟨.inl rfl, hst⟩
          · rintro ⟨rfl | h1, h2⟩
            · exact .inr rfl
            · exact .inl ⟨h1, h2⟩
        · intro sid hm
          rcases List.mem_append.mp hm with h | h
          · exact k5 sid h
          · simp at h
        · intro hnd
          simp only [its_item, keys, List.map_cons, List.nodup_cons] at hnd
          obtain ⟨m1, m2⟩ := k6 hnd.2
          refine ⟨m1, ?_⟩
          simp only [its_append, its_item, its_nil, keys, List.map_append, List.map_cons, List.map_nil]
          rw [List.nodup_append]
          refine ⟨m2, by simp, ?_⟩
          intro a ha c hc hac
          simp only [List.mem_cons, List.not_mem_nil, or_false] at hc
          obtain ⟨y, hy, hyk⟩ := List.mem_map.mp ha
          exact hnd.1 (List.mem_map.mpr ⟨y, mem_its.mpr ((k3 y).mp (mem_its.mp hy)).1, by rw [hyk, hac, hc]⟩)
        · intro t' b' hn
          rw [k9 t' b' hn, setChain_ne (by omega)]

/-- What redistribution leaves as it was. -/
structure Kept (s s' : St) : Prop where
  rp : s'.rootpower = s.rootpower
  pp : s'.prevpower = s.prevpower
  lim : s'.limit = s.limit
  ref : s'.refcount = s.refcount
  scans : s'.scans = s.scans
  items : s'.items = s.items

/-- No placeholder in any chain of the bucket. -/
def Free (s : St) (b : Nat) : Prop := ∀ t sid, t < 2 ^ s.rootpower → .ph sid ∉ s.table t b

theorem redist_round {cfg : Cfg} {items : List Item} {s : St} (h : Tab cfg items s) (he : s.expanding = true)
    (hlt : s.expTab < 2 ^ s.prevpower) (hfree : Free s s.expBucket) :
    ∃ T, redistChain cfg s.rootpower s.expTab s.expBucket (s.table s.expTab s.expBucket) s.table [] = some T ∧
      Tab cfg items { s with table := T, expTab := s.expTab + 1 } ∧
      (∀ t b, b ≠ s.expBucket → T t b = s.table t b) ∧
      (∀ t sid, t < 2 ^ s.rootpower → .ph sid ∉ T t s.expBucket) ∧
      ∀ key, bucketOf cfg key ≠ s.expBucket → tabOf cfg { s with table := T, expTab := s.expTab + 1 } key = tabOf cfg s key := by
  obtain ⟨hrp, hb, -⟩ := h.geo he
  have h2 := two_pow_succ' s.prevpower
  rw [← hrp] at h2
  have het : s.expTab < 2 ^ s.rootpower := by omega
  have hup : ∀ it, .item it ∈ s.table s.expTab s.expBucket → upperOf cfg it.key % 2 ^ s.prevpower = s.expTab := by
    intro it hit
    obtain ⟨-, k1, k2⟩ := (h.place _ _ it het hb).mp hit
    unfold tabOf curTab at k2
    rw [if_pos he, k1, if_neg (Nat.lt_irrefl _), if_neg (Nat.lt_irrefl _)] at k2
    obtain ⟨m1, m2⟩ := mod_succ (upperOf cfg it.key) s.prevpower
    rw [← hrp] at m2
    by_cases hc : upperOf cfg it.key % 2 ^ s.prevpower < s.expTab
    · rw [if_pos hc] at k2; omega
    · rw [if_neg hc] at k2; exact k2
  have hred := redistChain_eq cfg (b := s.expBucket) hlt (s.table s.expTab s.expBucket) s.table [] (fun sid => hfree _ sid het) hup
  rw [← hrp] at hred
  obtain ⟨T, k1, stay, moved, k2, k3, k4, k5, k6, k7, k8, k9⟩ := hred
  rw [List.nil_append] at k7
  have hkey : ∀ key, bucketOf cfg key ≠ s.expBucket →
      tabOf cfg { s with table := T, expTab := s.expTab + 1 } key = tabOf cfg s key := by
    intro key hk
    unfold tabOf curTab
    simp only [he, if_true]
    by_cases h3 : bucketOf cfg key < s.expBucket
    · rw [if_pos h3, if_pos h3]
    · rw [if_neg h3, if_neg h3, if_pos (by omega), if_pos (by omega)]
  have hbuck : ∀ key, bucketOf cfg key = s.expBucket →
      (tabOf cfg s key = if upperOf cfg key % 2 ^ s.prevpower < s.expTab then upperOf cfg key % 2 ^ s.rootpower
        else upperOf cfg key % 2 ^ s.prevpower) ∧
      (tabOf cfg { s with table := T, expTab := s.expTab + 1 } key =
        if upperOf cfg key % 2 ^ s.prevpower < s.expTab + 1 then upperOf cfg key % 2 ^ s.rootpower
        else upperOf cfg key % 2 ^ s.prevpower) := by
    intro key hk
    unfold tabOf curTab
    simp only [he, if_true]
    rw [hk]
    refine ⟨?_, ?_⟩
    · rw [if_neg (Nat.lt_irrefl _), if_neg (Nat.lt_irrefl _)]
    · rw [if_neg (Nat.lt_irrefl _), if_neg (Nat.lt_irrefl _)]
  have hm2 := h.uniq _ _ het hb
  obtain ⟨u1, u2⟩ := k6 hm2
  refine ⟨T, k1, ⟨?_, h.pw, h.lim, h.sz, ?_, ?_, h.nd, h.ne, h.cnt⟩, ?_, ?_, hkey⟩
  · intro _; exact ⟨hrp, hb, hlt⟩
  · intro t b it ht hbb
    change t < 2 ^ s.rootpower at ht
    show .item it ∈ T t b ↔ _
    by_cases hbe : b = s.expBucket
    · subst hbe
      by_cases hbu : bucketOf cfg it.key = s.expBucket
      · obtain ⟨c1, c2⟩ := hbuck it.key hbu
        obtain ⟨m1, m2⟩ := mod_succ (upperOf cfg it.key) s.prevpower
        rw [← hrp] at m2
        have hpl := h.place t _ it ht hb
        have hpe := h.place s.expTab _ it het hb
        by_cases ht1 : t = s.expTab
        · subst ht1
          rw [k7, k2, hpl, c1, c2]
          constructor
          · rintro ⟨⟨h1, -, h3⟩, h4⟩
            refine ⟨h1, hbu, ?_⟩
            split at h3 <;> split <;> omega
          · rintro ⟨h1, -, h3⟩
            refine ⟨⟨h1, hbu, ?_⟩, ?_⟩
            · split at h3 <;> split <;> omega
            · split at h3 <;> omega
        · by_cases ht2 : t = s.expTab + 2 ^ s.prevpower
          · subst ht2
            rw [k8, List.mem_append, k3, hpl, hpe, c1, c2]
            constructor
            · rintro (⟨⟨h1, -, h3⟩, h4⟩ | ⟨h1, -, h3⟩)
              · refine ⟨h1, hbu, ?_⟩
                split at h3 <;> split <;> omega
              · refine ⟨h1, hbu, ?_⟩
                split at h3 <;> split <;> omega
            · rintro ⟨h1, -, h3⟩
              by_cases hx : upperOf cfg it.key % 2 ^ s.prevpower = s.expTab
              · left
                refine ⟨⟨h1, hbu, ?_⟩, ?_⟩
                · split at h3 <;> split <;> omega
                · split at h3 <;> omega
              · right
                refine ⟨h1, hbu, ?_⟩
                split at h3 <;> split <;> omega
          · rw [k9 _ _ (by omega), hpl, c1, c2]
            constructor
            · rintro ⟨h1, -, h3⟩
              refine ⟨h1, hbu, ?_⟩
              split at h3 <;> split <;> omega
            · rintro ⟨h1, -, h3⟩
              refine ⟨h1, hbu, ?_⟩
              split at h3 <;> split <;> omega
      · have hno : .item it ∉ T t s.expBucket := by
          intro hm
          by_cases ht1 : t = s.expTab
          · subst ht1
            rw [k7, k2] at hm
            exact hbu ((h.place _ _ it het hb).mp hm.1).2.1
          · by_cases ht2 : t = s.expTab + 2 ^ s.prevpower
            · subst ht2
              rw [k8, List.mem_append, k3] at hm
              rcases hm with hm | hm
              · exact hbu ((h.place _ _ it het hb).mp hm.1).2.1
              · exact hbu ((h.place _ _ it ht hb).mp hm).2.1
            · rw [k9 _ _ (by omega)] at hm
              exact hbu ((h.place _ _ it ht hb).mp hm).2.1
        exact ⟨fun hm => absurd hm hno, fun hm => absurd hm.2.1 hbu⟩
    · rw [k9 t b (fun h => hbe h.1), h.place t b it ht hbb]
      constructor
      · rintro ⟨h1, h3, h4⟩
        exact ⟨h1, h3, by rw [hkey _ (by rw [h3]; exact hbe)]; exact h4⟩
      · rintro ⟨h1, h3, h4⟩
        rw [hkey _ (by rw [h3]; exact hbe)] at h4
        exact ⟨h1, h3, h4⟩
  · intro t b ht hbb
    change t < 2 ^ s.rootpower at ht
    show (keys (its (T t b))).Nodup
    by_cases hbe : b = s.expBucket
    · subst hbe
      by_cases ht1 : t = s.expTab
      · subst ht1; rw [k7]; exact u1
      · by_cases ht2 : t = s.expTab + 2 ^ s.prevpower
        · subst ht2
          rw [k8]
          simp only [its_append, keys, List.map_append]
          rw [List.nodup_append]
          refine ⟨u2, h.uniq _ _ ht hb, ?_⟩
          intro a ha c hc hac
          obtain ⟨y, hy, hyk⟩ := List.mem_map.mp ha
          obtain ⟨z, hz, hzk⟩ := List.mem_map.mp hc
          obtain ⟨y1, -⟩ := (k3 y).mp (mem_its.mp hy)
          obtain ⟨z1, z2, z3⟩ := (h.place _ _ z ht hb).mp (mem_its.mp hz)
          obtain ⟨w1, w2, w3⟩ := (h.place _ _ y het hb).mp y1
          have hkk : y.key = z.key := by rw [hyk, hzk, hac]
          rw [hkk] at w3
          omega
        · rw [k9 _ _ (by omega)]; exact h.uniq _ _ ht hb
    · rw [k9 t b (fun h => hbe h.1)]; exact h.uniq _ _ ht hbb
  · intro t b hbe
    exact k9 t b (fun h => hbe h.1)
  · intro t sid ht hm
    by_cases ht1 : t = s.expTab
    · subst ht1; rw [k7] at hm; exact k4 sid hm
    · by_cases ht2 : t = s.expTab + 2 ^ s.prevpower
      · subst ht2
        rw [k8, List.mem_append] at hm
        rcases hm with hm | hm
        · exact k5 sid hm
        · exact hfree _ sid ht hm
      · rw [k9 _ _ (by omega)] at hm; exact hfree _ sid ht hm

theorem redistRounds_eq {cfg : Cfg} {items : List Item} :
    ∀ (n : Nat) (s : St), Tab cfg items s → s.expanding = true → s.expTab < 2 ^ s.prevpower → Free s s.expBucket →
      ∃ s', redistRounds cfg n s = some s' ∧ Tab cfg items s' ∧ s'.expanding = true ∧ s'.expBucket = s.expBucket ∧ Kept s s' ∧
        Free s' s.expBucket ∧ (∀ t b, b ≠ s.expBucket → s'.table t b = s.table t b) ∧
        (∀ key, bucketOf cfg key ≠ s.expBucket → tabOf cfg s' key = tabOf cfg s key) := by
  intro n
  induction n with
  | zero =>
    intro s h he hlt hf
    exact ⟨s, rfl, h, he, rfl, ⟨rfl, rfl, rfl, rfl, rfl, rfl⟩, hf, fun _ _ _ => rfl, fun _ _ => rfl⟩
  | succ n ih =>
    intro s h he hlt hf
    obtain ⟨hrp, hb, -⟩ := h.geo he
    have h2 := two_pow_succ' s.prevpower
    rw [← hrp] at h2
    obtain ⟨T, k1, k2, k3, k4, k5⟩ := redist_round h he hlt hf
    simp only [redistRounds, chain_some (cfg := cfg) (show s.expTab < 2 ^ s.rootpower by omega) hb, k1]
    by_cases hd : 2 ^ s.prevpower ≤ s.expTab + 1
    · rw [if_pos hd]
      exact ⟨_, rfl, k2, he, rfl, ⟨rfl, rfl, rfl, rfl, rfl, rfl⟩, k4, k3, k5⟩
    · rw [if_neg hd]
      obtain ⟨s', m1, m2, m3, m4, m5, m6, m7, m8⟩ := ih { s with table := T, expTab := s.expTab + 1 } k2 he (by show s.expTab + 1 < 2 ^ s.prevpower; omega) k4
      refine ⟨s', m1, m2, m3, m4, ⟨m5.rp, m5.pp, m5.lim, m5.ref, m5.scans, m5.items⟩, m6, ?_, ?_⟩
      · intro t b hbb; exact (m7 t b hbb).trans (k3 t b hbb)
      · intro key hkk; exact (m8 key hkk).trans (k5 key hkk)

/-- Everything `redistribute` does to the others. -/
structure Redist (cfg : Cfg) (s s' : St) : Prop where
  kept : Kept s s'
  strict : s'.expanding = true → s'.expTab < 2 ^ s'.prevpower
  free : Free s' s.expBucket
  table : ∀ t b, b ≠ s.expBucket → s'.table t b = s.table t b
  tab : ∀ key, bucketOf cfg key ≠ s.expBucket → tabOf cfg s' key = tabOf cfg s key
  low : ∀ b, b < s.expBucket → s'.expanding = true ∧ (b < s'.expBucket ∨ (b = s'.expBucket ∧ s'.expTab = 0))

theorem redistribute_eq {cfg : Cfg} {items : List Item} {s : St} (h : Tab cfg items s) (he : s.expanding = true)
    (hlt : s.expTab < 2 ^ s.prevpower) (hf : Free s s.expBucket) :
    ∃ s', redistribute cfg s = some s' ∧ Tab cfg items s' ∧ Redist cfg s s' := by
  obtain ⟨s1, k1, k2, k3, k4, k5, k6, k7, k8⟩ := redistRounds_eq 4 s h he hlt hf
  obtain ⟨hrp, hb, hle⟩ := k2.geo k3
  simp only [redistribute, k1]
  by_cases hd : 2 ^ s1.prevpower ≤ s1.expTab
  · rw [if_pos hd]
    have hfull : ∀ x, x % 2 ^ s1.prevpower < s1.expTab := fun x => Nat.lt_of_lt_of_le (Nat.mod_lt _ (Nat.two_pow_pos _)) hd
    by_cases hp : 0 < s1.expBucket
    · rw [if_pos hp]
      have htab : ∀ key, tabOf cfg { s1 with expTab := 0, expBucket := s1.expBucket - 1 } key = tabOf cfg s1 key := by
        intro key
        unfold tabOf curTab
        simp only [k3, if_true]
        by_cases h1 : bucketOf cfg key < s1.expBucket - 1
        · rw [if_pos h1, if_pos (by omega)]
        · rw [if_neg h1]
          by_cases h2 : s1.expBucket - 1 < bucketOf cfg key
          · rw [if_pos h2, if_neg (by omega)]
            by_cases h3 : s1.expBucket < bucketOf cfg key
            · rw [if_pos h3]
            · rw [if_neg h3, if_pos (hfull _)]
          · rw [if_neg h2, if_neg (Nat.not_lt_zero _), if_pos (by omega)]
      refine ⟨_, rfl, ⟨fun _ => ⟨hrp, ?_, Nat.zero_le _⟩, k2.pw, k2.lim, k2.sz, ?_, k2.uniq, k2.nd, k2.ne, k2.cnt⟩,
        ⟨⟨k5.rp, k5.pp, k5.lim, k5.ref, k5.scans, k5.items⟩, fun _ => Nat.two_pow_pos _, k6, k7, ?_, ?_⟩⟩
      · show s1.expBucket - 1 < 2 ^ cfg.hp; omega
      · intro t b it ht hbb; rw [htab]; exact k2.place t b it ht hbb
      · intro key hk; rw [htab]; exact k8 key hk
      · intro b hbb
        refine ⟨k3, ?_⟩
        show b < s1.expBucket - 1 ∨ (b = s1.expBucket - 1 ∧ 0 = 0)
        omega
    · rw [if_neg hp]
      have htab : ∀ key, tabOf cfg { s1 with expTab := 0, expanding := false } key = tabOf cfg s1 key := by
        intro key
        unfold tabOf curTab
        simp only [k3, if_true, Bool.false_eq_true, if_false]
        rw [if_neg (by omega)]
        by_cases h3 : s1.expBucket < bucketOf cfg key
        · rw [if_pos h3]
        · rw [if_neg h3, if_pos (hfull _)]
      refine ⟨_, rfl, ⟨fun h => (by cases h), k2.pw, k2.lim, k2.sz, ?_, k2.uniq, k2.nd, k2.ne, k2.cnt⟩,
        ⟨⟨k5.rp, k5.pp, k5.lim, k5.ref, k5.scans, k5.items⟩, fun h => (by cases h), k6, k7, ?_, ?_⟩⟩
      · intro t b it ht hbb; rw [htab]; exact k2.place t b it ht hbb
      · intro key hk; rw [htab]; exact k8 key hk
      · intro b hbb; omega
  · rw [if_neg hd]
    refine ⟨s1, rfl, k2, ⟨k5, fun _ => by omega, k6, k7, k8, ?_⟩⟩
    intro b hbb
    exact ⟨k3, .inl (by omega)⟩

end Verif.Assoc
