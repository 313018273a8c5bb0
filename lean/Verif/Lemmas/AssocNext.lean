import Verif.Lemmas.AssocScan
/-! # `assoc_scan_next` -/
namespace Verif.Assoc
open Spec (keys)

theorem setChain_self (T : Nat → Nat → List Entry) (t b : Nat) : setChain T t b (T t b) = T := by
  funext t' b'
  by_cases hc : t' = t ∧ b' = b
  · rw [setChain_eq hc, hc.1, hc.2]
  · rw [setChain_ne hc]

/-- What holds in the loops of `assoc_scan_next`: `out` are the items collected so far. -/
structure Mid (cfg : Cfg) (items : List Item) (W : Nat → Option (List (List Nat))) (todo : List (List Nat)) (sid : Nat) (s : St)
    (sc : Scan) (out : List Item) : Prop where
  tab : Tab cfg items s
  scn : Scns cfg items (put s sid (some sc)) (upd W sid (some (todo.filter fun k => decide (k ∉ keys out))))
  len : sid < s.scans.length
  nd : (keys out).Nodup
  mem : ∀ it ∈ out, it ∈ items ∧ it.key ∈ todo

theorem countP_put {l : List (Option Scan)} {sid : Nat} (h : sid < l.length) (a a' : Option Scan) (p : Option Scan → Bool) :
    (l.set sid a').countP p + (if p a = true then 1 else 0) = (l.set sid a).countP p + (if p a' = true then 1 else 0) := by
  have h1 : sid < (l.set sid a).length := by rw [List.length_set]; exact h
  have h2 := List.countP_set (p := p) (l := l.set sid a) (i := sid) (a := a') h1
  rw [List.set_set] at h2
  simp only [List.getElem_set_self] at h2
  have h3 : p a = true → 0 < (l.set sid a).countP p := by
    intro hp
    rw [List.countP_pos_iff]
    exact ⟨a, List.mem_set h _, hp⟩
  rw [h2]
  by_cases hp : p a = true
  · have := h3 hp
    rw [if_pos hp]
    omega
  · rw [if_neg hp]
    omega

/-- The scan and its chain change, the keys `new` are delivered. -/
theorem Mid.move {cfg : Cfg} {items : List Item} {W : Nat → Option (List (List Nat))} {todo : List (List Nat)} {sid : Nat} {s : St}
    {sc : Scan} {out : List Item} (h : Mid cfg items W todo sid s sc out) {t b : Nat} {c' : List Entry} {sc' : Scan} {R : Nat → Nat}
    (new : List Item) (ht : t < 2 ^ s.rootpower) (hb : b < 2 ^ cfg.hp)
    (hf : others sid c' = others sid (s.table t b))
    (hok : ScanOk cfg s sc')
    (hnew : ∀ it ∈ new, it ∈ items ∧ ¬ Passed cfg s sid sc it.key) (hnd : (keys new).Nodup)
    (hpass : ∀ k ∈ keys items, Passed cfg { s with table := setChain s.table t b c' } sid sc' k ↔ Passed cfg s sid sc k ∨ k ∈ keys new)
    (hph1 : sc'.linked = true → (setChain s.table t b c' sc'.tabidx sc'.bucket).count (.ph sid) = 1)
    (hph0 : ∀ t' b', t' < 2 ^ s.rootpower → b' < 2 ^ cfg.hp →
      ¬ (sc'.linked = true ∧ sc'.tabidx = t' ∧ sc'.bucket = b') → .ph sid ∉ setChain s.table t b c' t' b')
    (hR : ∀ b', R b' + (if holds b' (some sc) = true then 1 else 0) = s.refcount b' + (if holds b' (some sc') = true then 1 else 0)) :
    Mid cfg items W todo sid { s with table := setChain s.table t b c', refcount := R } sc' (out ++ new) := by
  have hg : getScan (put s sid (some sc)) sid = some sc := getScan_put_same h.len _
  have hW : upd W sid (some (todo.filter fun k => decide (k ∉ keys out))) sid = some (todo.filter fun k => decide (k ∉ keys out)) := by
    simp [upd]
  obtain ⟨o1, o2⟩ := h.scn.owe sid sc _ hg hW
  have hkout : keys (out ++ new) = keys out ++ keys new := by simp [keys]
  have hmnew : ∀ k ∈ keys new, k ∈ keys items ∧ ¬ Passed cfg s sid sc k := by
    intro k hk
    obtain ⟨it, h1, rfl⟩ := List.mem_map.mp hk
    exact ⟨List.mem_map_of_mem (hnew it h1).1, (hnew it h1).2⟩
  have hown : ∀ k ∈ keys new, k ∈ todo ∧ k ∉ keys out := by
    intro k hk
    obtain ⟨h1, h2⟩ := hmnew k hk
    have := (o2 k h1).mpr h2
    simpa using this
  have hset : (put s sid (some sc)).scans.set sid (some sc') = s.scans.set sid (some sc') := by
    simp [put, List.set_set]
  have hup := Scns.update h.scn hg (t := t) (b := b) (c' := c') (o := some sc') (R := R)
    (v := some (todo.filter fun k => decide (k ∉ keys (out ++ new)))) hf (by simp)
    (by intro x hx; cases hx; exact ⟨hok.link, hok.act, hok.idle⟩)
    (by
      intro x w hx hw
      cases hx; cases hw
      refine ⟨?_, ?_⟩
      · intro k hk
        simp only [List.mem_filter, decide_eq_true_eq, hkout, List.mem_append, not_or] at hk
        exact o1 k (by simpa using ⟨hk.1, hk.2.1⟩)
      · intro k hk
        have h1 := o2 k hk
        have h2 := hpass k hk
        simp only [List.mem_filter, decide_eq_true_eq] at h1
        simp only [List.mem_filter, decide_eq_true_eq, hkout, List.mem_append, not_or]
        constructor
        · rintro ⟨k1, k2, k3⟩ hp
          rcases h2.mp hp with h | h
          · exact (h1.mp ⟨k1, k2⟩) h
          · exact k3 h
        · intro hp
          have hn : ¬ (Passed cfg s sid sc k ∨ k ∈ keys new) := fun h' => hp (h2.mpr h')
          rw [not_or] at hn
          exact ⟨(h1.mpr hn.1).1, (h1.mpr hn.1).2, hn.2⟩)
    (by intro x hx hl; cases hx; exact hph1 hl)
    (by intro t' b' ht' hb' hn; exact hph0 t' b' ht' hb' (hn _ rfl))
    (by
      intro b'
      have h1 := hR b'
      have h2 : s.refcount b' = (s.scans.set sid (some sc)).countP (holds b') := h.scn.ref b'
      have h3 := countP_put h.len (some sc) (some sc') (holds b')
      rw [hset]
      rw [h2] at h1
      omega)
  refine ⟨h.tab.others ht hb hf R s.scans, ?_, h.len, ?_, ?_⟩
  · have he : put { s with table := setChain s.table t b c', refcount := R } sid (some sc') =
        { put s sid (some sc) with
          table := setChain (put s sid (some sc)).table t b c', refcount := R,
          scans := (put s sid (some sc)).scans.set sid (some sc') } := by
      rw [hset]; rfl
    rw [he]
    have hu : upd W sid (some (todo.filter fun k => decide (k ∉ keys (out ++ new)))) =
        upd (upd W sid (some (todo.filter fun k => decide (k ∉ keys out)))) sid
          (some (todo.filter fun k => decide (k ∉ keys (out ++ new)))) := by
      funext i
      by_cases hi : i = sid <;> simp [upd, hi]
    rw [hu]
    exact hup
  · rw [hkout, List.nodup_append]
    refine ⟨h.nd, hnd, ?_⟩
    intro a ha c hc hac
    exact (hown c hc).2 (hac ▸ ha)
  · intro it hm
    rcases List.mem_append.mp hm with h1 | h1
    · exact h.mem it h1
    · exact ⟨(hnew it h1).1, (hown it.key (List.mem_map_of_mem h1)).1⟩

theorem Mid.ok {cfg : Cfg} {items : List Item} {W : Nat → Option (List (List Nat))} {todo : List (List Nat)} {sid : Nat} {s : St}
    {sc : Scan} {out : List Item} (h : Mid cfg items W todo sid s sc out) : ScanOk cfg s sc := by
  have h1 := h.scn.ok sid sc (getScan_put_same h.len _)
  exact ⟨h1.link, h1.act, h1.idle⟩

/-- The place where a scan goes on. -/
theorem Mid.resume {cfg : Cfg} {items : List Item} {W : Nat → Option (List (List Nat))} {todo : List (List Nat)} {sid : Nat} {s : St}
    {sc : Scan} {out : List Item} (h : Mid cfg items W todo sid s sc out) (h0 : 0 < sc.tabcnt) (hi : sc.tabidx < sc.tabcnt) :
    sc.tabidx < 2 ^ s.rootpower ∧ sc.bucket < 2 ^ cfg.hp ∧
    ∃ p q, resume sid sc.linked (s.table sc.tabidx sc.bucket) = some (p, q) ∧
      others sid (s.table sc.tabidx sc.bucket) = p ++ q ∧ .ph sid ∉ p ∧ .ph sid ∉ q ∧
      (∀ k, bucketOf cfg k = sc.bucket → tabOf cfg s k = sc.tabidx → (Passed cfg s sid sc k ↔ k ∈ keys (its p))) := by
  have hle := tabcnt_le h.tab h.ok
  obtain ⟨hb, -, -⟩ := h.ok.act h0
  refine ⟨by omega, hb, ?_⟩
  have hpass : ∀ k, bucketOf cfg k = sc.bucket → tabOf cfg s k = sc.tabidx →
      (Passed cfg s sid sc k ↔ sc.linked = true ∧ k ∈ frontKeys sid (s.table sc.tabidx sc.bucket)) := by
    intro k h1 h2
    unfold Passed
    rw [h1, h2]
    constructor
    · rintro (h | ⟨-, -, h | ⟨-, h⟩⟩)
      · omega
      · omega
      · exact h
    · intro h; exact .inr ⟨rfl, h0, .inr ⟨rfl, h⟩⟩
  cases hl : sc.linked with
  | false =>
    have hno := h.scn.ph0 sid sc.tabidx sc.bucket (by show sc.tabidx < 2 ^ s.rootpower; omega) hb (by
      intro x hx; rw [getScan_put_same h.len] at hx; cases hx; rw [hl]; simp)
    change .ph sid ∉ s.table sc.tabidx sc.bucket at hno
    refine ⟨[], s.table sc.tabidx sc.bucket, rfl, by rw [others_self hno]; rfl, by simp, hno, ?_⟩
    intro k h1 h2
    rw [hpass k h1 h2, hl]; simp [keys]
  | true =>
    have h1 := h.scn.ph1 sid sc (getScan_put_same h.len _) hl
    change (s.table sc.tabidx sc.bucket).count (.ph sid) = 1 at h1
    have hm : .ph sid ∈ s.table sc.tabidx sc.bucket := by rw [← List.count_pos_iff]; omega
    obtain ⟨p, q, k1, k2, k3⟩ := cutPh_some hm
    have k4 : .ph sid ∉ q := by
      intro hq
      rw [k2, List.count_append, List.count_cons_self] at h1
      have := List.count_pos_iff.mpr hq
      omega
    refine ⟨p, q, k1, ?_, k3, k4, ?_⟩
    · rw [k2, others_append, others_ph, others_self k3, others_self k4]
    · intro k m1 m2
      rw [hpass k m1 m2, hl]
      unfold frontKeys
      rw [k2, front_split k3]
      simp

/-- Items of the chain behind the place where a scan goes on. -/
theorem Mid.rest {cfg : Cfg} {items : List Item} {W : Nat → Option (List (List Nat))} {todo : List (List Nat)} {sid : Nat} {s : St}
    {sc : Scan} {out : List Item} (h : Mid cfg items W todo sid s sc out)
    (ht : sc.tabidx < 2 ^ s.rootpower) (hb : sc.bucket < 2 ^ cfg.hp) {p q : List Entry}
    (ho : others sid (s.table sc.tabidx sc.bucket) = p ++ q)
    (hp : ∀ k, bucketOf cfg k = sc.bucket → tabOf cfg s k = sc.tabidx → (Passed cfg s sid sc k ↔ k ∈ keys (its p))) :
    (keys (its p) ++ keys (its q)).Nodup ∧
    (∀ k ∈ keys items, bucketOf cfg k = sc.bucket ∧ tabOf cfg s k = sc.tabidx ↔ k ∈ keys (its p) ∨ k ∈ keys (its q)) ∧
    (∀ it ∈ its q, it ∈ items ∧ bucketOf cfg it.key = sc.bucket ∧ tabOf cfg s it.key = sc.tabidx ∧ ¬ Passed cfg s sid sc it.key) := by
  have hits : its (s.table sc.tabidx sc.bucket) = its p ++ its q := by rw [← its_others sid, ho, its_append]
  have hu := h.tab.uniq _ _ ht hb
  rw [hits] at hu
  simp only [keys, List.map_append] at hu
  have hpl : ∀ it, it ∈ its p ∨ it ∈ its q ↔ it ∈ items ∧ bucketOf cfg it.key = sc.bucket ∧ tabOf cfg s it.key = sc.tabidx := by
    intro it
    rw [← List.mem_append, ← hits, mem_its]
    exact h.tab.place _ _ it ht hb
  refine ⟨hu, ?_, ?_⟩
  · intro k hk
    obtain ⟨it, h1, rfl⟩ := List.mem_map.mp hk
    constructor
    · intro h2
      rcases (hpl it).mpr ⟨h1, h2⟩ with h3 | h3
      · exact .inl (List.mem_map_of_mem h3)
      · exact .inr (List.mem_map_of_mem h3)
    · rintro (h2 | h2)
      · obtain ⟨x, hx, hxk⟩ := List.mem_map.mp h2
        have hx' := (hpl x).mp (.inl hx)
        rw [show it.key = x.key from hxk.symm]; exact hx'.2
      · obtain ⟨x, hx, hxk⟩ := List.mem_map.mp h2
        have hx' := (hpl x).mp (.inr hx)
        rw [show it.key = x.key from hxk.symm]; exact hx'.2
  · intro it hm
    obtain ⟨h1, h2, h3⟩ := (hpl it).mp (.inr hm)
    refine ⟨h1, h2, h3, ?_⟩
    rw [hp it.key h2 h3]
    intro hpp
    rw [List.nodup_append] at hu
    exact hu.2.2 it.key hpp it.key (List.mem_map_of_mem hm) rfl

/-- The chain is finished. -/
theorem Mid.advance {cfg : Cfg} {items : List Item} {W : Nat → Option (List (List Nat))} {todo : List (List Nat)} {sid : Nat} {s : St}
    {sc : Scan} {out : List Item} (h : Mid cfg items W todo sid s sc out) (h0 : 0 < sc.tabcnt) (hi : sc.tabidx < sc.tabcnt)
    {p q : List Entry} (ho : others sid (s.table sc.tabidx sc.bucket) = p ++ q) (hp1 : .ph sid ∉ p) (hq1 : .ph sid ∉ q)
    (hp : ∀ k, bucketOf cfg k = sc.bucket → tabOf cfg s k = sc.tabidx → (Passed cfg s sid sc k ↔ k ∈ keys (its p))) :
    Mid cfg items W todo sid { s with table := setChain s.table sc.tabidx sc.bucket (p ++ q) }
      { sc with linked := false, tabidx := sc.tabidx + 1 } (out ++ its q) := by
  have hle := tabcnt_le h.tab h.ok
  obtain ⟨hb, hle', hact⟩ := h.ok.act h0
  have ht : sc.tabidx < 2 ^ s.rootpower := by omega
  obtain ⟨r1, r2, r3⟩ := h.rest ht hb ho hp
  have hpq : .ph sid ∉ p ++ q := by rw [List.mem_append, not_or]; exact ⟨hp1, hq1⟩
  refine h.move (its q) (R := s.refcount) ht hb (by rw [others_self hpq, ho]) ⟨?_, ?_, h.ok.idle⟩ ?_ ?_ ?_ ?_ ?_ ?_
  · intro hc; cases hc
  · intro _; exact ⟨hb, hi, hact⟩
  · intro it hm; exact ⟨(r3 it hm).1, (r3 it hm).2.2.2⟩
  · rw [List.nodup_append] at r1; exact r1.2.1
  · intro k hk
    have h2 := r2 k hk
    constructor
    · rintro (hc | ⟨hc, -, hc2 | ⟨-, hc2, -⟩⟩)
      · exact .inl (.inl hc)
      · change tabOf cfg s k < sc.tabidx + 1 at hc2
        rcases Nat.lt_or_ge (tabOf cfg s k) sc.tabidx with h3 | h3
        · exact .inl (.inr ⟨hc, h0, .inl h3⟩)
        · have h4 : tabOf cfg s k = sc.tabidx := by omega
          rcases h2.mp ⟨hc, h4⟩ with h5 | h5
          · exact .inl ((hp k hc h4).mpr h5)
          · exact .inr h5
      · cases hc2
    · rintro (hc | hc)
      · rcases hc with hc | ⟨hc, hc1, hc2⟩
        · exact .inl hc
        · refine .inr ⟨hc, h0, .inl ?_⟩
          show tabOf cfg s k < sc.tabidx + 1
          rcases hc2 with h3 | ⟨h3, -⟩ <;> omega
      · obtain ⟨h3, h4⟩ := h2.mpr (.inr hc)
        refine .inr ⟨h3, h0, .inl ?_⟩
        show tabOf cfg s k < sc.tabidx + 1
        omega
  · intro hc; cases hc
  · intro t' b' ht' hb' _
    by_cases hc : t' = sc.tabidx ∧ b' = sc.bucket
    · rw [setChain_eq hc]; exact hpq
    · rw [setChain_ne hc]
      have := h.scn.ph0 sid t' b' ht' hb' (by
        intro x hx hxx
        rw [getScan_put_same h.len] at hx; cases hx
        exact hc ⟨hxx.2.1.symm, hxx.2.2.symm⟩)
      exact this
  · intro b'; rfl

/-- The scan stops inside of a chain. -/
theorem Mid.pause {cfg : Cfg} {items : List Item} {W : Nat → Option (List (List Nat))} {todo : List (List Nat)} {sid : Nat} {s : St}
    {sc : Scan} {out : List Item} (h : Mid cfg items W todo sid s sc out) (h0 : 0 < sc.tabcnt) (hi : sc.tabidx < sc.tabcnt)
    {p q1 q2 : List Entry} (ho : others sid (s.table sc.tabidx sc.bucket) = p ++ (q1 ++ q2)) (hp1 : .ph sid ∉ p)
    (hq1 : .ph sid ∉ q1 ++ q2)
    (hp : ∀ k, bucketOf cfg k = sc.bucket → tabOf cfg s k = sc.tabidx → (Passed cfg s sid sc k ↔ k ∈ keys (its p))) :
    Mid cfg items W todo sid { s with table := setChain s.table sc.tabidx sc.bucket (p ++ q1 ++ .ph sid :: q2) }
      { sc with linked := true } (out ++ its q1) := by
  have hle := tabcnt_le h.tab h.ok
  obtain ⟨hb, hle', hact⟩ := h.ok.act h0
  have ht : sc.tabidx < 2 ^ s.rootpower := by omega
  obtain ⟨r1, r2, r3⟩ := h.rest ht hb ho hp
  rw [List.mem_append, not_or] at hq1
  have hpq : .ph sid ∉ p ++ q1 := by rw [List.mem_append, not_or]; exact ⟨hp1, hq1.1⟩
  rw [its_append] at r1 r2 r3
  refine h.move (its q1) (R := s.refcount) ht hb ?_ ⟨?_, ?_, h.ok.idle⟩ ?_ ?_ ?_ ?_ ?_ ?_
  · rw [others_append, others_ph, others_self hpq, others_self hq1.2, ho]; simp
  · intro _; exact ⟨h0, hi⟩
  · intro _; exact ⟨hb, hle', hact⟩
  · intro it hm; exact ⟨(r3 it (List.mem_append_left _ hm)).1, (r3 it (List.mem_append_left _ hm)).2.2.2⟩
  · simp only [keys, List.map_append] at r1
    rw [List.nodup_append] at r1
    exact (List.nodup_append.mp r1.2.1).1
  · intro k hk
    have h2 := r2 k hk
    have hfk : frontKeys sid (setChain s.table sc.tabidx sc.bucket (p ++ q1 ++ .ph sid :: q2) sc.tabidx sc.bucket) =
        keys (its p) ++ keys (its q1) := by
      rw [setChain_eq ⟨rfl, rfl⟩]
      unfold frontKeys
      rw [front_split hpq, its_append]
      simp [keys]
    constructor
    · rintro (hc | ⟨hc, -, hc2 | ⟨hc1, -, hc2⟩⟩)
      · exact .inl (.inl hc)
      · exact .inl (.inr ⟨hc, h0, .inl hc2⟩)
      · change k ∈ frontKeys sid (setChain s.table sc.tabidx sc.bucket (p ++ q1 ++ .ph sid :: q2) sc.tabidx sc.bucket) at hc2
        rw [hfk, List.mem_append] at hc2
        rcases hc2 with h5 | h5
        · exact .inl ((hp k hc hc1).mpr h5)
        · exact .inr h5
    · rintro (hc | hc)
      · by_cases hk2 : bucketOf cfg k = sc.bucket ∧ tabOf cfg s k = sc.tabidx
        · refine .inr ⟨hk2.1, h0, .inr ⟨hk2.2, rfl, ?_⟩⟩
          show k ∈ frontKeys sid (setChain s.table sc.tabidx sc.bucket (p ++ q1 ++ .ph sid :: q2) sc.tabidx sc.bucket)
          rw [hfk, List.mem_append]
          exact .inl ((hp k hk2.1 hk2.2).mp hc)
        · rcases hc with hc | ⟨hc, hc1, hc2 | ⟨hc2, -⟩⟩
          · exact .inl hc
          · exact .inr ⟨hc, h0, .inl hc2⟩
          · exact absurd ⟨hc, hc2⟩ hk2
      · obtain ⟨h3, h4⟩ := h2.mpr (.inr (by simp only [keys, List.map_append, List.mem_append]; exact .inl hc))
        refine .inr ⟨h3, h0, .inr ⟨h4, rfl, ?_⟩⟩
        show k ∈ frontKeys sid (setChain s.table sc.tabidx sc.bucket (p ++ q1 ++ .ph sid :: q2) sc.tabidx sc.bucket)
        rw [hfk, List.mem_append]
        exact .inr hc
  · intro _
    show (setChain s.table sc.tabidx sc.bucket (p ++ q1 ++ .ph sid :: q2) sc.tabidx sc.bucket).count (.ph sid) = 1
    rw [setChain_eq ⟨rfl, rfl⟩, List.count_append, List.count_cons_self, List.count_eq_zero_of_not_mem hpq,
      List.count_eq_zero_of_not_mem hq1.2]
  · intro t' b' ht' hb' hn
    by_cases hc : t' = sc.tabidx ∧ b' = sc.bucket
    · exact absurd ⟨rfl, hc.1.symm, hc.2.symm⟩ hn
    · rw [setChain_ne hc]
      have := h.scn.ph0 sid t' b' ht' hb' (by
        intro x hx hxx
        rw [getScan_put_same h.len] at hx; cases hx
        exact hc ⟨hxx.2.1.symm, hxx.2.2.symm⟩)
      exact this
  · intro b'; rfl

/-- A scan that changes without its chain. -/
theorem Mid.still {cfg : Cfg} {items : List Item} {W : Nat → Option (List (List Nat))} {todo : List (List Nat)} {sid : Nat} {s : St}
    {sc : Scan} {out : List Item} (h : Mid cfg items W todo sid s sc out) (hl : sc.linked = false) {sc' : Scan} {R : Nat → Nat}
    (hl' : sc'.linked = false) (hok : ScanOk cfg s sc')
    (hpass : ∀ k ∈ keys items, Passed cfg s sid sc' k ↔ Passed cfg s sid sc k)
    (hR : ∀ b', R b' + (if holds b' (some sc) = true then 1 else 0) = s.refcount b' + (if holds b' (some sc') = true then 1 else 0)) :
    Mid cfg items W todo sid { s with refcount := R } sc' out := by
  have h1 := h.move (t := 0) (b := 0) (c' := s.table 0 0) (sc' := sc') (R := R) [] (Nat.two_pow_pos _) (Nat.two_pow_pos _) rfl hok
    (by simp) (by simp [keys])
    (by intro k hk; rw [setChain_self]; rw [hpass k hk]; simp [keys])
    (by intro hc; rw [hl'] at hc; cases hc)
    (by
      intro t' b' ht' hb' _
      rw [setChain_self]
      have := h.scn.ph0 sid t' b' ht' hb' (by
        intro x hx hxx
        rw [getScan_put_same h.len] at hx; cases hx
        rw [hl] at hxx; simp at hxx)
      exact this)
    hR
  rw [setChain_self, List.append_nil] at h1
  exact h1

theorem Mid.start {cfg : Cfg} {items : List Item} {W : Nat → Option (List (List Nat))} {todo : List (List Nat)} {sid : Nat} {s : St}
    {sc : Scan} {out : List Item} (h : Mid cfg items W todo sid s sc out) (hb : sc.bucket < 2 ^ cfg.hp) :
    Mid cfg items W todo sid (startBucket s sc).1 (startBucket s sc).2 out ∧ 0 < (startBucket s sc).2.tabcnt ∧
      (startBucket s sc).2.bucket = sc.bucket := by
  unfold startBucket
  by_cases h0 : sc.tabcnt = 0
  · rw [if_pos h0]
    have hl : sc.linked = false := by
      cases hl : sc.linked with
      | false => rfl
      | true => have := (h.ok.link hl).1; omega
    refine ⟨?_, Nat.two_pow_pos _, rfl⟩
    apply h.still hl
    · exact hl
    · refine ⟨fun hc => ?_, fun _ => ⟨hb, Nat.zero_le _, .inl rfl⟩, h.ok.idle⟩
      change sc.linked = true at hc; rw [hl] at hc; cases hc
    · intro k _
      unfold Passed
      simp only [h0, Nat.lt_irrefl, Nat.not_lt_zero, false_and, and_false, or_false, hl, Bool.false_eq_true]
    · intro b'
      simp only [holds, h0, Nat.lt_irrefl, false_and, decide_false, Bool.false_eq_true, if_false]
      have h2 := Nat.two_pow_pos s.rootpower
      by_cases hbb : b' = sc.bucket
      · subst hbb; simp [h2]
      · have hbb' : ¬ sc.bucket = b' := fun h => hbb h.symm
        simp [hbb, hbb']
  · rw [if_neg h0]; exact ⟨h, by show 0 < sc.tabcnt; omega, rfl⟩

theorem Mid.finish {cfg : Cfg} {items : List Item} {W : Nat → Option (List (List Nat))} {todo : List (List Nat)} {sid : Nat} {s : St}
    {sc : Scan} {out : List Item} (h : Mid cfg items W todo sid s sc out) (h0 : 0 < sc.tabcnt) (hi : sc.tabcnt ≤ sc.tabidx) :
    ∃ s', unref s sc.bucket = some s' ∧ Mid cfg items W todo sid s' { sc with bucket := sc.bucket + 1, tabcnt := 0 } out := by
  obtain ⟨hb, hle, hact⟩ := h.ok.act h0
  have hl : sc.linked = false := by
    cases hl : sc.linked with
    | false => rfl
    | true => have := (h.ok.link hl).2; omega
  have hcnt : s.refcount sc.bucket ≠ 0 := by
    have h1 : s.refcount sc.bucket = (s.scans.set sid (some sc)).countP (holds sc.bucket) := h.scn.ref sc.bucket
    have : 0 < (s.scans.set sid (some sc)).countP (holds sc.bucket) := by
      rw [List.countP_pos_iff]
      exact ⟨some sc, List.mem_set h.len _, by simp [holds, h0]⟩
    omega
  unfold unref
  rw [if_neg hcnt]
  refine ⟨_, rfl, ?_⟩
  apply h.still hl
  · exact hl
  · refine ⟨fun hc => ?_, fun hc => (by cases hc), hb⟩
    change sc.linked = true at hc; rw [hl] at hc; cases hc
  · intro k _
    have hall : bucketOf cfg k = sc.bucket → tabOf cfg s k < sc.tabidx := by
      intro hk
      rcases hact with h1 | ⟨h1, h2, h3⟩
      · have := tabOf_lt h.tab k; omega
      · have h4 : tabOf cfg s k = upperOf cfg k % 2 ^ s.prevpower := by
          unfold tabOf curTab
          rw [if_pos h1, hk]
          rcases h3 with h3 | ⟨h3, h3'⟩
          · rw [if_pos h3]
          · rw [if_neg (by omega), if_neg (by omega), if_neg (by omega)]
        have := Nat.mod_lt (upperOf cfg k) (Nat.two_pow_pos s.prevpower)
        omega
    unfold Passed
    constructor
    · rintro (hc | ⟨-, hc, -⟩)
      · change bucketOf cfg k < sc.bucket + 1 at hc
        rcases Nat.lt_or_ge (bucketOf cfg k) sc.bucket with h1 | h1
        · exact .inl h1
        · have h2 : bucketOf cfg k = sc.bucket := by omega
          exact .inr ⟨h2, h0, .inl (hall h2)⟩
      · cases hc
    · rintro (hc | ⟨hc, -⟩)
      · left; show bucketOf cfg k < sc.bucket + 1; omega
      · left; show bucketOf cfg k < sc.bucket + 1; omega
  · intro b'
    simp only [holds, h0, true_and, Nat.lt_irrefl, false_and, decide_false, Bool.false_eq_true, if_false, decide_eq_true_eq]
    by_cases hbb : b' = sc.bucket
    · subst hbb; simp; omega
    · rw [if_neg hbb, if_neg (fun h => hbb h.symm)]

/-! ## The loops -/

theorem takeChain_spec {arr lim : Nat} : ∀ (q : List Entry) (g : Got), g.out.length < arr →
    (∃ g', takeChain arr lim q g = some (g', none) ∧ g'.out = g.out ++ its q ∧ g'.out.length < arr) ∨
    (∃ g' q1 q2, takeChain arr lim q g = some (g', some q2) ∧ q = q1 ++ q2 ∧ g'.out = g.out ++ its q1 ∧ its q1 ≠ [] ∧
      g'.out.length ≤ arr) := by
  intro q
  induction q with
  | nil => intro g hg; exact .inl ⟨g, rfl, by simp, hg⟩
  | cons e q ih =>
    intro g hg
    cases e with
    | ph i =>
      rcases ih { g with cost := g.cost + 1 } hg with ⟨g', h1, h2, h3⟩ | ⟨g', q1, q2, h1, h2, h3, h4, h5⟩
      · exact .inl ⟨g', h1, by rw [h2, its_ph], h3⟩
      · exact .inr ⟨g', .ph i :: q1, q2, h1, by rw [h2]; rfl, by rw [h3, its_ph], by rw [its_ph]; exact h4, h5⟩
    | item it =>
      have hgo : ∀ g1 : Got, g1.out = g.out ++ [it] → g1.out.length < arr →
          (∃ g', takeChain arr lim q g1 = some (g', none) ∧ g'.out = g.out ++ its (.item it :: q) ∧ g'.out.length < arr) ∨
          (∃ g' q1 q2, takeChain arr lim q g1 = some (g', some q2) ∧ (.item it :: q) = q1 ++ q2 ∧ g'.out = g.out ++ its q1 ∧
            its q1 ≠ [] ∧ g'.out.length ≤ arr) := by
        intro g1 ho hlt
        rcases ih g1 hlt with ⟨g', h1, h2, h3⟩ | ⟨g', q1, q2, h1, h2, h3, h4, h5⟩
        · exact .inl ⟨g', h1, by rw [h2, ho]; simp, h3⟩
        · exact .inr ⟨g', .item it :: q1, q2, h1, by rw [h2]; rfl, by rw [h3, ho]; simp, by simp, h5⟩
      have hstop : ∀ g1 : Got, g1.out = g.out ++ [it] →
          (∃ g', some (g1, some q) = some (g', (none : Option (List Entry))) ∧ g'.out = g.out ++ its (.item it :: q) ∧ g'.out.length < arr) ∨
          (∃ g' q1 q2, some (g1, some q) = some (g', some q2) ∧ (.item it :: q) = q1 ++ q2 ∧ g'.out = g.out ++ its q1 ∧
            its q1 ≠ [] ∧ g'.out.length ≤ arr) := by
        intro g1 ho
        exact .inr ⟨g1, [.item it], q, rfl, rfl, by rw [ho]; simp, by simp, by rw [ho]; simp; omega⟩
      simp only [takeChain]
      rw [if_neg (by omega)]
      by_cases h1 : arr ≤ g.out.length + 1
      · rw [if_pos h1]; exact hstop _ rfl
      · rw [if_neg h1]
        have hlt : (g.out ++ [it]).length < arr := by simp; omega
        cases hc : it.coll with
        | none => exact hgo _ rfl hlt
        | some n =>
          simp only
          by_cases h2 : lim = 0
          · rw [if_pos h2]; exact hgo _ rfl hlt
          · rw [if_neg h2]
            by_cases h3 : lim < g.elems + n
            · rw [if_pos h3]; exact hstop _ rfl
            · rw [if_neg h3]; exact hgo _ rfl hlt

theorem scanTabs_spec {cfg : Cfg} {items : List Item} {W : Nat → Option (List (List Nat))} {todo : List (List Nat)} {sid arr lim : Nat} :
    ∀ (n : Nat) (s : St) (sc : Scan) (g : Got), Mid cfg items W todo sid s sc g.out → 0 < sc.tabcnt → n = sc.tabcnt - sc.tabidx →
      g.out.length < arr →
      ∃ s' sc' g' d, scanTabs cfg arr lim sid n s sc g = some (s', sc', g', d) ∧ Mid cfg items W todo sid s' sc' g'.out ∧
        0 < sc'.tabcnt ∧ sc'.bucket = sc.bucket ∧ s'.scans = s.scans ∧ g'.out.length ≤ arr ∧
        (d = true → g'.out ≠ []) ∧ (d = false → sc'.tabcnt ≤ sc'.tabidx ∧ g'.out.length < arr) := by
  intro n
  induction n with
  | zero =>
    intro s sc g h h0 hn hg
    exact ⟨s, sc, g, false, rfl, h, h0, rfl, rfl, Nat.le_of_lt hg, by simp, fun _ => ⟨by omega, hg⟩⟩
  | succ n ih =>
    intro s sc g h h0 hn hg
    simp only [scanTabs]
    by_cases hcost : 2 * arr < g.cost ∧ 0 < g.out.length
    · rw [if_pos hcost]
      refine ⟨s, sc, g, true, rfl, h, h0, rfl, rfl, Nat.le_of_lt hg, ?_, by simp⟩
      intro _ hnil; rw [hnil] at hcost; simp at hcost
    · rw [if_neg hcost]
      have hi : sc.tabidx < sc.tabcnt := by omega
      obtain ⟨ht, hb, p, q, k1, k2, k3, k4, k5⟩ := h.resume h0 hi
      rw [chain_some ht hb]
      simp only [k1]
      have hadv := h.advance h0 hi k2 k3 k4 k5
      rcases takeChain_spec (arr := arr) (lim := lim) q { g with cost := g.cost + 1 } hg with
        ⟨g', h1, h2, h3⟩ | ⟨g', q1, q2, h1, h2, h3, h4, h5⟩
      · simp only [h1]
        change g'.out = g.out ++ its q at h2
        rw [← h2] at hadv
        obtain ⟨s', sc', g2, d, m1, m2, m3, m4, m5, m6, m7, m8⟩ := ih _ _ g' hadv h0 (by show n = sc.tabcnt - (sc.tabidx + 1); omega) h3
        exact ⟨s', sc', g2, d, m1, m2, m3, m4, m5, m6, m7, m8⟩
      · change g'.out = g.out ++ its q1 at h3
        have hne : g'.out ≠ [] := by rw [h3]; intro hc; exact h4 (List.append_eq_nil_iff.mp hc).2
        cases q2 with
        | nil =>
          simp only [h1]
          rw [List.append_nil] at h2
          subst h2
          rw [← h3] at hadv
          exact ⟨_, _, g', true, rfl, hadv, h0, rfl, rfl, h5, fun _ => hne, by simp⟩
        | cons e l =>
          simp only [h1]
          have htake : q.take (q.length - (l.length + 1)) = q1 := by
            rw [h2]; simp
          rw [htake]
          have hpz := h.pause h0 hi (q1 := q1) (q2 := e :: l) (by rw [k2, h2]) k3 (by rw [← h2]; exact k4) k5
          rw [← h3] at hpz
          exact ⟨_, _, g', true, rfl, hpz, h0, rfl, rfl, h5, fun _ => hne, by simp⟩

theorem scanBuckets_spec {cfg : Cfg} {items : List Item} {W : Nat → Option (List (List Nat))} {todo : List (List Nat)} {sid arr lim : Nat} :
    ∀ (n : Nat) (s : St) (sc : Scan) (g : Got), Mid cfg items W todo sid s sc g.out → n = 2 ^ cfg.hp - sc.bucket →
      g.out.length < arr →
      ∃ s' sc' g', scanBuckets cfg arr lim sid n s sc g = some (s', sc', g') ∧ Mid cfg items W todo sid s' sc' g'.out ∧
        s'.scans = s.scans ∧ g'.out.length ≤ arr ∧ ((g'.out ≠ [] ∧ 0 < sc'.tabcnt) ∨ sc'.bucket = 2 ^ cfg.hp) := by
  intro n
  induction n with
  | zero =>
    intro s sc g h hn hg
    have := h.ok.idle
    exact ⟨s, sc, g, rfl, h, rfl, Nat.le_of_lt hg, .inr (by omega)⟩
  | succ n ih =>
    intro s sc g h hn hg
    obtain ⟨h1, h2, h3⟩ := h.start (by omega)
    have hsc : (startBucket s sc).1.scans = s.scans := by unfold startBucket; split <;> rfl
    obtain ⟨s', sc', g', d, m1, m2, m3, m4, m5, m6, m7, m8⟩ :=
      scanTabs_spec (lim := lim) _ _ _ g h1 h2 rfl hg
    simp only [scanBuckets, m1]
    cases d with
    | true => exact ⟨s', sc', g', rfl, m2, m5.trans hsc, m6, .inl ⟨m7 rfl, m3⟩⟩
    | false =>
      obtain ⟨m9, m10⟩ := m8 rfl
      obtain ⟨s2, n1, n2⟩ := m2.finish m3 m9
      simp only [n1]
      have hs2 : s2.scans = s'.scans := by
        unfold unref at n1
        split at n1
        · cases n1
        · cases n1; rfl
      obtain ⟨s3, sc3, g3, o1, o2, o3, o4, o5⟩ := ih s2 _ g' n2 (by show n = 2 ^ cfg.hp - (sc'.bucket + 1); rw [m4, h3]; omega) m10
      exact ⟨s3, sc3, g3, o1, o2, by rw [o3, hs2, m5, hsc], o4, o5⟩

theorem scanTabs_geo {cfg : Cfg} {arr lim sid : Nat} : ∀ (n : Nat) (s : St) (sc : Scan) (g : Got) {r : St × Scan × Got × Bool},
    scanTabs cfg arr lim sid n s sc g = some r →
    r.1.rootpower = s.rootpower ∧ r.1.expanding = s.expanding ∧ r.1.prevpower = s.prevpower := by
  intro n
  induction n with
  | zero => intro s sc g r h; cases h; exact ⟨rfl, rfl, rfl⟩
  | succ n ih =>
    intro s sc g r h
    simp only [scanTabs] at h
    split at h
    · cases h; exact ⟨rfl, rfl, rfl⟩
    · split at h
      · cases h
      · split at h
        · cases h
        · split at h
          · cases h
          · have h1 := ih _ _ _ h
            exact h1
          · cases h; exact ⟨rfl, rfl, rfl⟩
          · cases h; exact ⟨rfl, rfl, rfl⟩

theorem scanBuckets_geo {cfg : Cfg} {arr lim sid : Nat} {n : Nat} {s : St} {sc : Scan} {g : Got} {r : St × Scan × Got}
    (h : scanBuckets cfg arr lim sid n s sc g = some r) :
    r.1.rootpower = s.rootpower ∧ r.1.expanding = s.expanding ∧ r.1.prevpower = s.prevpower := by
  induction n generalizing s sc g with
  | zero => cases h; exact ⟨rfl, rfl, rfl⟩
  | succ n ih =>
    have hst : (startBucket s sc).1.rootpower = s.rootpower ∧ (startBucket s sc).1.expanding = s.expanding ∧
        (startBucket s sc).1.prevpower = s.prevpower := by unfold startBucket; split <;> exact ⟨rfl, rfl, rfl⟩
    simp only [scanBuckets] at h
    split at h
    · cases h
    · rename_i s' sc' g' heq
      cases h
      have h1 := scanTabs_geo _ _ _ _ heq
      exact ⟨h1.1.trans hst.1, h1.2.1.trans hst.2.1, h1.2.2.trans hst.2.2⟩
    · rename_i s' sc' g' heq
      have h1 := scanTabs_geo _ _ _ _ heq
      split at h
      · cases h
      · rename_i s2 hu
        have h2 := ih h
        have h3 : s2.rootpower = s'.rootpower ∧ s2.expanding = s'.expanding ∧ s2.prevpower = s'.prevpower := by
          unfold unref at hu
          split at hu
          · cases hu
          · cases hu; exact ⟨rfl, rfl, rfl⟩
        exact ⟨h2.1.trans (h3.1.trans (h1.1.trans hst.1)), h2.2.1.trans (h3.2.1.trans (h1.2.1.trans hst.2.1)),
          h2.2.2.trans (h3.2.2.trans (h1.2.2.trans hst.2.2))⟩

theorem scanNext_spec {cfg : Cfg} {items : List Item} {s : St} {W : Nat → Option (List (List Nat))} (ht : Tab cfg items s)
    (hs : Scns cfg items s W) {sid arr lim : Nat} {todo : List (List Nat)} (hw : W sid = some todo) (harr : 0 < arr) :
    ∃ s' sc' out, getScan s' sid = some sc' ∧ s'.scans.length = s.scans.length ∧ (0 < sc'.tabcnt ∨ sc'.bucket = 2 ^ cfg.hp) ∧
      Tab cfg items s' ∧ Scns cfg items s' (upd W sid (some (todo.filter fun k => decide (k ∉ keys out)))) ∧
      (keys out).Nodup ∧ (∀ it ∈ out, it ∈ items ∧ it.key ∈ todo) ∧ out.length ≤ arr ∧
      ((scanNext cfg s sid arr lim = some (s', none) ∧ out = [] ∧ todo = []) ∨
       (scanNext cfg s sid arr lim = some (s', some out) ∧ out ≠ [])) ∧
      (∀ i, i ≠ sid → getScan s' i = getScan s i) ∧ s'.rootpower = s.rootpower ∧ s'.expanding = s.expanding ∧ s'.prevpower = s.prevpower := by
  have hg : ∃ sc, getScan s sid = some sc := by
    cases hc : getScan s sid with
    | none => rw [hs.dom, hw] at hc; cases hc
    | some sc => exact ⟨sc, rfl⟩
  obtain ⟨sc, hg⟩ := hg
  have hput : put s sid (some sc) = s := by
    have : s.scans.set sid (some sc) = s.scans := by
      apply List.ext_getElem?
      intro i
      by_cases hi : i = sid
      · subst hi; rw [List.getElem?_set_self (getScan_lt hg), getScan_get hg]
      · rw [List.getElem?_set_ne (Ne.symm hi)]
    unfold put; rw [this]
  have hm : Mid cfg items W todo sid s sc [] := by
    refine ⟨ht, ?_, getScan_lt hg, by simp [keys], by simp⟩
    have h1 : (todo.filter fun k => decide (k ∉ keys [])) = todo := by rw [List.filter_eq_self]; simp [keys]
    have h2 : upd W sid (some todo) = W := by
      funext i; by_cases hi : i = sid
      · subst hi; simp [upd, hw]
      · simp [upd, hi]
    rw [h1, h2, hput]; exact hs
  obtain ⟨s', sc', g, k1, k2, k3, k4, k5⟩ := scanBuckets_spec (lim := lim) (arr := arr) _ s sc ⟨[], 0, 0⟩ hm rfl harr
  have hgeo := scanBuckets_geo k1
  have hnext : scanNext cfg s sid arr lim = some (put s' sid (some sc'), if g.out = [] ∧ 2 ^ cfg.hp ≤ sc'.bucket then none else some g.out) := by
    unfold scanNext
    rw [hg]
    simp only
    rw [if_neg (by omega), k1]
    rfl
  refine ⟨put s' sid (some sc'), sc', g.out, getScan_put_same k2.len _, by simp [put, k3], ?_, ?_, k2.scn, k2.nd, k2.mem, k4, ?_, ?_,
    hgeo.1, hgeo.2.1, hgeo.2.2⟩
  · rcases k5 with h | h
    · exact .inl h.2
    · exact .inr h
  · exact ⟨k2.tab.geo, k2.tab.pw, k2.tab.lim, k2.tab.sz, k2.tab.place, k2.tab.uniq, k2.tab.nd, k2.tab.ne, k2.tab.cnt⟩
  · by_cases hd : g.out = [] ∧ 2 ^ cfg.hp ≤ sc'.bucket
    · left
      rw [hnext, if_pos hd]
      refine ⟨rfl, hd.1, ?_⟩
      obtain ⟨o1, o2⟩ := k2.scn.owe sid sc' _ (getScan_put_same k2.len _) (by simp [upd]; rfl)
      rw [hd.1] at o1 o2
      cases todo with
      | nil => rfl
      | cons k l =>
        exfalso
        have hk : k ∈ (k :: l).filter fun k => decide (k ∉ keys []) := by simp [keys]
        refine (o2 k (o1 k hk)).mp hk (.inl ?_)
        have := bucketOf_lt cfg k
        omega
    · right
      rw [hnext, if_neg hd]
      refine ⟨rfl, fun hn => hd ⟨hn, ?_⟩⟩
      rcases k5 with h | h
      · exact absurd hn h.1
      · omega
  · intro i hi
    rw [getScan_put_ne hi]
    unfold getScan
    rw [k3]

end Verif.Assoc
