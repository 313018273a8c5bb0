import Verif.Lemmas.AssocExp
/-! # Scans of the hash table -/
namespace Verif.Assoc
open Spec (keys)

/-- The chain before the placeholder of a scan. -/
def front (sid : Nat) (c : List Entry) : List Entry := c.takeWhile fun e => decide (e ≠ .ph sid)

/-- The keys before the placeholder. -/
def frontKeys (sid : Nat) (c : List Entry) : List (List Nat) := keys (its (front sid c))

/-- The entries that are not the placeholder of this scan. -/
def others (sid : Nat) (c : List Entry) : List Entry := c.filter fun e => decide (e ≠ .ph sid)

theorem front_filter (sid : Nat) (f : Entry → Bool) (hf : f (.ph sid) = true) (c : List Entry) :
    front sid (c.filter f) = (front sid c).filter f := by
  induction c with
  | nil => rfl
  | cons e c ih =>
    unfold front at ih ⊢
    by_cases he : e = .ph sid
    · subst he
      rw [List.filter_cons_of_pos hf, List.takeWhile_cons_of_neg (by simp), List.takeWhile_cons_of_neg (by simp)]
      rfl
    · rw [List.takeWhile_cons_of_pos (a := e) (l := c) (by simpa using he)]
      by_cases h2 : f e = true
      · rw [List.filter_cons_of_pos h2, List.filter_cons_of_pos h2, List.takeWhile_cons_of_pos (by simpa using he), ih]
      · rw [List.filter_cons_of_neg h2, List.filter_cons_of_neg h2, ih]

theorem mem_frontKeys {sid : Nat} {c : List Entry} {k : List Nat} :
    k ∈ frontKeys sid c ↔ ∃ it, .item it ∈ front sid c ∧ it.key = k := mem_keys_its

theorem frontKeys_filter {sid : Nat} {c : List Entry} {k : List Nat} (f : Entry → Bool) (hf : f (.ph sid) = true)
    (hk : ∀ it : Item, it.key = k → f (.item it) = true) : k ∈ frontKeys sid (c.filter f) ↔ k ∈ frontKeys sid c := by
  rw [mem_frontKeys, mem_frontKeys, front_filter sid f hf]
  constructor
  · rintro ⟨it, h1, h2⟩; exact ⟨it, (List.mem_filter.mp h1).1, h2⟩
  · rintro ⟨it, h1, h2⟩; exact ⟨it, List.mem_filter.mpr ⟨h1, hk it h2⟩, h2⟩

theorem front_split {sid : Nat} {p q : List Entry} (h : .ph sid ∉ p) : front sid (p ++ .ph sid :: q) = p := by
  unfold front
  rw [List.takeWhile_append_of_pos, List.takeWhile_cons_of_neg (by simp), List.append_nil]
  intro e he
  have : e ≠ .ph sid := fun h' => h (h' ▸ he)
  simpa using this

theorem cutPh_some {sid : Nat} {c : List Entry} (h : .ph sid ∈ c) :
    ∃ p q, cutPh sid c = some (p, q) ∧ c = p ++ .ph sid :: q ∧ .ph sid ∉ p := by
  induction c with
  | nil => simp at h
  | cons e c ih =>
    simp only [cutPh]
    by_cases he : e = .ph sid
    · rw [if_pos he]; exact ⟨[], c, rfl, by rw [he]; rfl, by simp⟩
    · rw [if_neg he]
      obtain ⟨p, q, h1, h2, h3⟩ := ih (by
        rcases List.mem_cons.mp h with h | h
        · exact absurd h.symm he
        · exact h)
      rw [h1]
      refine ⟨e :: p, q, rfl, by rw [h2]; rfl, ?_⟩
      intro hm
      rcases List.mem_cons.mp hm with h | h
      · exact he h.symm
      · exact h3 h

theorem others_append (sid : Nat) (a b : List Entry) : others sid (a ++ b) = others sid a ++ others sid b := by simp [others]

theorem others_ph (sid : Nat) (a : List Entry) : others sid (.ph sid :: a) = others sid a := by simp [others]

theorem others_self {sid : Nat} {a : List Entry} (h : .ph sid ∉ a) : others sid a = a := by
  unfold others
  rw [List.filter_eq_self]
  intro e he
  have : e ≠ .ph sid := fun h' => h (h' ▸ he)
  simpa using this

theorem its_others (sid : Nat) (a : List Entry) : its (others sid a) = its a := by
  unfold others
  induction a with
  | nil => rfl
  | cons e a ih =>
    by_cases he : e = .ph sid
    · subst he; rw [List.filter_cons_of_neg (by simp), its_ph, ih]
    · rw [List.filter_cons_of_pos (by simpa using he)]
      cases e with
      | item it => rw [its_item, its_item, ih]
      | ph i => rw [its_ph, its_ph, ih]

/-- The scan has gone past the place of this key. -/
def Passed (cfg : Cfg) (s : St) (sid : Nat) (sc : Scan) (k : List Nat) : Prop :=
  bucketOf cfg k < sc.bucket ∨
  (bucketOf cfg k = sc.bucket ∧ 0 < sc.tabcnt ∧
    (tabOf cfg s k < sc.tabidx ∨
     (tabOf cfg s k = sc.tabidx ∧ sc.linked = true ∧ k ∈ frontKeys sid (s.table sc.tabidx sc.bucket))))

structure ScanOk (cfg : Cfg) (s : St) (sc : Scan) : Prop where
  link : sc.linked = true → 0 < sc.tabcnt ∧ sc.tabidx < sc.tabcnt
  act : 0 < sc.tabcnt → sc.bucket < 2 ^ cfg.hp ∧ sc.tabidx ≤ sc.tabcnt ∧
    (sc.tabcnt = 2 ^ s.rootpower ∨
     (s.expanding = true ∧ sc.tabcnt = 2 ^ s.prevpower ∧ (sc.bucket < s.expBucket ∨ (sc.bucket = s.expBucket ∧ s.expTab = 0))))
  idle : sc.bucket ≤ 2 ^ cfg.hp

/-- The scan holds a reference on the bucket. -/
def holds (b : Nat) : Option Scan → Bool
  | some sc => decide (0 < sc.tabcnt ∧ sc.bucket = b)
  | none => false

/-- The scans in progress; `W` tells which keys they still have to deliver. -/
structure Scns (cfg : Cfg) (items : List Item) (s : St) (W : Nat → Option (List (List Nat))) : Prop where
  dom : ∀ sid, getScan s sid = none ↔ W sid = none
  ok : ∀ sid sc, getScan s sid = some sc → ScanOk cfg s sc
  owe : ∀ sid sc todo, getScan s sid = some sc → W sid = some todo →
    (∀ k ∈ todo, k ∈ keys items) ∧ ∀ k ∈ keys items, (k ∈ todo ↔ ¬ Passed cfg s sid sc k)
  ph1 : ∀ sid sc, getScan s sid = some sc → sc.linked = true → (s.table sc.tabidx sc.bucket).count (.ph sid) = 1
  ph0 : ∀ sid t b, t < 2 ^ s.rootpower → b < 2 ^ cfg.hp →
    (∀ sc, getScan s sid = some sc → ¬ (sc.linked = true ∧ sc.tabidx = t ∧ sc.bucket = b)) → .ph sid ∉ s.table t b
  ref : ∀ b, s.refcount b = s.scans.countP (holds b)
  strict : s.expanding = true → s.expTab < 2 ^ s.prevpower

/-- `W` with one entry changed. -/
def upd (W : Nat → Option (List (List Nat))) (sid : Nat) (v : Option (List (List Nat))) : Nat → Option (List (List Nat)) :=
  fun i => if i = sid then v else W i

theorem getScan_lt {s : St} {sid : Nat} {sc : Scan} (h : getScan s sid = some sc) : sid < s.scans.length := by
  unfold getScan at h
  rcases Nat.lt_or_ge sid s.scans.length with h1 | h1
  · exact h1
  · rw [List.getElem?_eq_none h1] at h; simp at h

theorem getScan_get {s : St} {sid : Nat} {sc : Scan} (h : getScan s sid = some sc) : s.scans[sid]? = some (some sc) := by
  unfold getScan at h
  split at h
  · rename_i sc' h'; rw [h', ← h]
  · simp at h

/-- Scan number `sid` set to something else. -/
def put (s : St) (sid : Nat) (o : Option Scan) : St := { s with scans := s.scans.set sid o }

theorem getScan_put_same {s : St} {sid : Nat} (h : sid < s.scans.length) (o : Option Scan) : getScan (put s sid o) sid = o := by
  unfold getScan put
  simp only [List.getElem?_set_self h]
  cases o <;> rfl

theorem getScan_put_ne {s : St} {sid i : Nat} (h : i ≠ sid) (o : Option Scan) : getScan (put s sid o) i = getScan s i := by
  unfold getScan put
  simp only [List.getElem?_set_ne (Ne.symm h)]

theorem tabcnt_le {cfg : Cfg} {items : List Item} {s : St} (h : Tab cfg items s) {sc : Scan} (ho : ScanOk cfg s sc) :
    sc.tabcnt ≤ 2 ^ s.rootpower := by
  rcases Nat.eq_zero_or_pos sc.tabcnt with h0 | h0
  · rw [h0]; exact Nat.zero_le _
  · rcases (ho.act h0).2.2 with h1 | ⟨h1, h2, -⟩
    · omega
    · obtain ⟨g, -, -⟩ := h.geo h1
      rw [h2, g, two_pow_succ']; omega

/-- One scan and one chain change. -/
theorem Scns.update {cfg : Cfg} {items : List Item} {s : St} {W : Nat → Option (List (List Nat))} (h : Scns cfg items s W)
    {sid : Nat} {sc : Scan} (hsc : getScan s sid = some sc) {t b : Nat} {c' : List Entry} {o : Option Scan} {R : Nat → Nat}
    {v : Option (List (List Nat))}
    (hf : others sid c' = others sid (s.table t b))
    (hdom : o = none ↔ v = none)
    (hok : ∀ sc', o = some sc' → ScanOk cfg s sc')
    (howe : ∀ sc' todo, o = some sc' → v = some todo → (∀ k ∈ todo, k ∈ keys items) ∧
      ∀ k ∈ keys items, (k ∈ todo ↔ ¬ Passed cfg { s with table := setChain s.table t b c' } sid sc' k))
    (hph1 : ∀ sc', o = some sc' → sc'.linked = true → (setChain s.table t b c' sc'.tabidx sc'.bucket).count (.ph sid) = 1)
    (hph0 : ∀ t' b', t' < 2 ^ s.rootpower → b' < 2 ^ cfg.hp →
      (∀ sc', o = some sc' → ¬ (sc'.linked = true ∧ sc'.tabidx = t' ∧ sc'.bucket = b')) → .ph sid ∉ setChain s.table t b c' t' b')
    (hR : ∀ b', R b' = (s.scans.set sid o).countP (holds b')) :
    Scns cfg items { s with table := setChain s.table t b c', refcount := R, scans := s.scans.set sid o } (upd W sid v) := by
  have hlt := getScan_lt hsc
  have hsame : getScan { s with table := setChain s.table t b c', refcount := R, scans := s.scans.set sid o } sid = o :=
    getScan_put_same hlt o
  have hne : ∀ i, i ≠ sid → getScan { s with table := setChain s.table t b c', refcount := R, scans := s.scans.set sid o } i = getScan s i :=
    fun i hi => getScan_put_ne hi o
  have hcnt : ∀ i, i ≠ sid → c'.count (.ph i) = (s.table t b).count (.ph i) := by
    intro i hi
    rw [← List.count_filter (p := fun e => decide (e ≠ Entry.ph sid)) (a := .ph i) (l := c') (by simpa using hi),
      ← List.count_filter (p := fun e => decide (e ≠ Entry.ph sid)) (a := .ph i) (l := s.table t b) (by simpa using hi)]
    have := congrArg (List.count (Entry.ph i)) hf
    exact this
  have hmem : ∀ i, i ≠ sid → (.ph i ∈ c' ↔ .ph i ∈ s.table t b) := by
    intro i hi
    rw [← List.count_pos_iff, ← List.count_pos_iff, hcnt i hi]
  have hfr : ∀ i k, i ≠ sid → (k ∈ frontKeys i c' ↔ k ∈ frontKeys i (s.table t b)) := by
    intro i k hi
    have h1 := frontKeys_filter (sid := i) (c := c') (k := k) (fun e => decide (e ≠ Entry.ph sid)) (by simpa using hi) (by simp)
    have h2 := frontKeys_filter (sid := i) (c := s.table t b) (k := k) (fun e => decide (e ≠ Entry.ph sid)) (by simpa using hi) (by simp)
    rw [← h1, ← h2]
    have := congrArg (frontKeys i) hf
    unfold others at this
    rw [this]
  refine ⟨?_, ?_, ?_, ?_, ?_, hR, h.strict⟩
  · intro i
    by_cases hi : i = sid
    · subst hi; rw [hsame]; simp only [upd, if_true]; exact hdom
    · rw [hne i hi]; simp only [upd, if_neg hi]; exact h.dom i
  · intro i sc' hs
    by_cases hi : i = sid
    · subst hi; rw [hsame] at hs; have h1 := hok sc' hs; exact ⟨h1.link, h1.act, h1.idle⟩
    · rw [hne i hi] at hs; have h1 := h.ok i sc' hs; exact ⟨h1.link, h1.act, h1.idle⟩
  · intro i sc' todo hs hw
    by_cases hi : i = sid
    · subst hi
      rw [hsame] at hs
      simp only [upd, if_true] at hw
      exact howe sc' todo hs hw
    · rw [hne i hi] at hs
      simp only [upd, if_neg hi] at hw
      obtain ⟨h1, h2⟩ := h.owe i sc' todo hs hw
      refine ⟨h1, fun k hk => ?_⟩
      rw [h2 k hk]
      have hiff : Passed cfg s i sc' k ↔
          Passed cfg { s with table := setChain s.table t b c', refcount := R, scans := s.scans.set sid o } i sc' k := by
        unfold Passed
        have hkk : (k ∈ frontKeys i (s.table sc'.tabidx sc'.bucket)) ↔
            (k ∈ frontKeys i (setChain s.table t b c' sc'.tabidx sc'.bucket)) := by
          by_cases hc : sc'.tabidx = t ∧ sc'.bucket = b
          · rw [setChain_eq hc, hc.1, hc.2, hfr i k hi]
          · rw [setChain_ne hc]
        show _ ∨ (_ ∧ _ ∧ (_ ∨ (_ ∧ _ ∧ _))) ↔ _ ∨ (_ ∧ _ ∧ (_ ∨ (_ ∧ _ ∧ k ∈ frontKeys i (setChain s.table t b c' sc'.tabidx sc'.bucket))))
        rw [hkk]
        exact Iff.rfl
      rw [hiff]
  · intro i sc' hs hl
    by_cases hi : i = sid
    · subst hi; rw [hsame] at hs; exact hph1 sc' hs hl
    · rw [hne i hi] at hs
      show (setChain s.table t b c' sc'.tabidx sc'.bucket).count (.ph i) = 1
      have := h.ph1 i sc' hs hl
      by_cases hc : sc'.tabidx = t ∧ sc'.bucket = b
      · rw [setChain_eq hc, hcnt i hi, ← hc.1, ← hc.2]; exact this
      · rw [setChain_ne hc]; exact this
  · intro i t' b' ht hb hn
    by_cases hi : i = sid
    · subst hi
      rw [hsame] at hn
      exact hph0 t' b' ht hb hn
    · rw [hne i hi] at hn
      have := h.ph0 i t' b' ht hb hn
      show .ph i ∉ setChain s.table t b c' t' b'
      by_cases hc : t' = t ∧ b' = b
      · rw [setChain_eq hc, hmem i hi, ← hc.1, ← hc.2]; exact this
      · rw [setChain_ne hc]; exact this

/-- Placeholders do not matter to the map. -/
theorem Tab.others {cfg : Cfg} {items : List Item} {s : St} (h : Tab cfg items s) {sid t b : Nat} {c' : List Entry}
    (ht : t < 2 ^ s.rootpower) (hb : b < 2 ^ cfg.hp) (hf : others sid c' = others sid (s.table t b)) (R : Nat → Nat)
    (o : List (Option Scan)) :
    Tab cfg items { s with table := setChain s.table t b c', refcount := R, scans := o } := by
  have hi : its c' = its (s.table t b) := by rw [← its_others sid c', hf, its_others]
  refine ⟨h.geo, h.pw, h.lim, h.sz, ?_, ?_, h.nd, h.ne, h.cnt⟩
  · intro t' b' it ht' hb'
    rw [← mem_its]
    show it ∈ its (setChain s.table t b c' t' b') ↔ _
    have h0 := h.place t' b' it ht' hb'
    rw [← mem_its] at h0
    by_cases hc : t' = t ∧ b' = b
    · rw [setChain_eq hc, hi, ← hc.1, ← hc.2]; exact h0
    · rw [setChain_ne hc]; exact h0
  · intro t' b' ht' hb'
    show (keys (its (setChain s.table t b c' t' b'))).Nodup
    by_cases hc : t' = t ∧ b' = b
    · rw [setChain_eq hc, hi]; exact h.uniq t b ht hb
    · rw [setChain_ne hc]; exact h.uniq t' b' ht' hb'

end Verif.Assoc
