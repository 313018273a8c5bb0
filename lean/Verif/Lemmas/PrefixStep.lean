import Verif.Lemmas.PrefixRel
/-! # Linking, unlinking and changing items -/
namespace Verif.Prefix
open Verif.Util
open Spec (Itm under owner figures S GoodName NameByte internalName place record)

/-- The name of a prefix in memory. -/
def nameAt (s : St) (i : Nat) : Option (List Nat) := (s.heap i).map (·.bytes)

theorem Shape.mem_all {cfg : Cfg} {held : Held} {s : St} (h : Shape cfg held s) (i : Nat) :
    i ∈ allIds s ↔ ∃ pt, s.heap i = some pt ∧ pt.islinked = true := by
  unfold allIds
  rw [List.mem_flatMap]
  constructor
  · rintro ⟨b, -, hb⟩
    obtain ⟨pt, h1, h2, -⟩ := (h.tab b i).mp hb
    exact ⟨pt, h1, h2⟩
  · rintro ⟨pt, h1, h2⟩
    exact ⟨_, List.mem_range.mpr (bucket_lt _), (h.tab _ i).mpr ⟨pt, h1, h2, rfl⟩⟩

theorem nodup_append' {α : Type} {a b : List α} (ha : a.Nodup) (hb : b.Nodup) (hd : ∀ x ∈ a, x ∉ b) : (a ++ b).Nodup := by
  rw [List.nodup_append]
  exact ⟨ha, hb, fun x hx y hy e => hd x hx (e ▸ hy)⟩

theorem Shape.nodup_range {cfg : Cfg} {held : Held} {s : St} (h : Shape cfg held s) (n : Nat) :
    ((List.range n).flatMap s.table).Nodup := by
  induction n with
  | zero => simp
  | succ n ih =>
    rw [List.range_succ, List.flatMap_append]
    refine nodup_append' ih (by simpa using h.nd n) ?_
    intro i hi hj
    rw [List.mem_flatMap] at hi
    obtain ⟨b, hb, hi⟩ := hi
    simp only [List.flatMap_cons, List.flatMap_nil, List.append_nil] at hj
    obtain ⟨pt, h1, -, h2⟩ := (h.tab b i).mp hi
    obtain ⟨pt', h3, -, h4⟩ := (h.tab n i).mp hj
    rw [h1] at h3; cases h3
    rw [List.mem_range] at hb
    omega

/-- Distinct linked prefixes have distinct names. -/
theorem Shape.names_nodup {cfg : Cfg} {held : Held} {s : St} (h : Shape cfg held s) : ∀ {l : List Nat}, l.Nodup →
    (∀ i ∈ l, ∃ pt, s.heap i = some pt ∧ pt.islinked = true) → (l.map (nameAt s)).Nodup := by
  intro l
  induction l with
  | nil => intro _ _; simp
  | cons i l ih =>
    intro hn ha
    rw [List.nodup_cons] at hn
    rw [List.map_cons, List.nodup_cons]
    refine ⟨?_, ih hn.2 fun j hj => ha j (by simp [hj])⟩
    intro hm
    rw [List.mem_map] at hm
    obtain ⟨j, hj, e⟩ := hm
    obtain ⟨pt, h1, h2⟩ := ha i (by simp)
    obtain ⟨pt', h3, h4⟩ := ha j (by simp [hj])
    unfold nameAt at e
    rw [h1, h3] at e
    simp only [Option.map_some, Option.some.injEq] at e
    exact hn.1 (h.uniq j i pt' pt h3 h1 h4 h2 e ▸ hj)

theorem Rel.total_le {cfg : Cfg} {σ : S} {s : St} (h : Rel cfg σ s) : s.total ≤ σ.items.length := by
  rw [h.shape.total]
  have h1 := h.shape.names_nodup (h.shape.nodup_range buckets) fun i hi => (h.shape.mem_all i).mp hi
  have h2 := h1.length_le_of_subset (l₂ := σ.items.map fun x => owner cfg.delim x.key) (by
    intro nm hm
    rw [List.mem_map] at hm
    obtain ⟨i, hi, e⟩ := hm
    obtain ⟨pt, k1, k2⟩ := (h.shape.mem_all i).mp hi
    unfold nameAt at e
    rw [k1] at e
    simp only [Option.map_some] at e
    have := h.full i pt k1 k2
    obtain ⟨x, hx⟩ := List.exists_mem_of_ne_nil _ this
    rw [mem_under] at hx
    rw [List.mem_map]
    exact ⟨x, hx.1, by rw [hx.2, e]⟩)
  rw [List.length_map, List.length_map] at h2
  exact h2

/-- A prefix with items is linked, and conversely. -/
theorem Rel.linked_iff {cfg : Cfg} {σ : S} {s : St} (h : Rel cfg σ s) (nm : List Nat) :
    under cfg.delim σ (some nm) ≠ [] ↔ ∃ i pt, s.heap i = some pt ∧ pt.islinked = true ∧ pt.bytes = nm := by
  constructor
  · intro hne
    obtain ⟨x, hx⟩ := List.exists_mem_of_ne_nil _ hne
    rw [mem_under] at hx
    obtain ⟨p, -, hp⟩ := h.itms.itm x hx.1
    rw [hx.2] at hp
    rcases hp with ⟨-, e⟩ | ⟨i, pt, -, h1, h2, h3⟩
    · cases e
    · exact ⟨i, pt, h1, h2, by simpa using h3.symm⟩
  · rintro ⟨i, pt, h1, h2, h3⟩
    rw [← h3]; exact h.full i pt h1 h2

theorem wsum_lt_items {cfg : Cfg} {σ : S} {s : St} (h : Itms cfg σ s) (q : Option (List Nat)) :
    (∀ x ∈ under cfg.delim σ q, x.size < w32) ∧ (under cfg.delim σ q).length < 2 ^ 31 := by
  refine ⟨fun x hx => (h.fit x (mem_under.mp hx).1).2.2, ?_⟩
  have : (under cfg.delim σ q).length ≤ σ.items.length := List.length_filter_le _ _
  have := h.few
  omega

theorem itSize {x : Itm} (h : x.ty = 0 → x.elems = 0) (p : Option Nat) : It.size ⟨x.key, x.ty, x.base, x.elems, p⟩ = x.size := by
  unfold It.size Itm.size
  by_cases ht : x.ty = 0
  · simp only [ht, if_true]; rw [h ht]; rfl
  · simp only [ht, if_false]

theorem Rel.link {cfg : Cfg} {σ : S} {s : St} (h : Rel cfg σ s) {id : Nat} {key : List Nat} {ty base stotal : Nat} {mem : Bool}
    (hl : Spec.Legal cfg.delim cfg.hash σ (.link id key ty base stotal mem)) :
    ∃ s' r σ', step cfg s (.link id key ty base stotal mem) = some (s', r) ∧
      Spec.Step cfg.delim cfg.hash σ (.link id key ty base stotal mem) r σ' ∧ Rel cfg σ' s' := by
  obtain ⟨l1, l2, l3, l4, l5, l6, l7⟩ := hl
  have htot : s.total + 1 < 2 ^ 31 := by have := h.total_le; omega
  have hun : ∀ nm, under cfg.delim σ (some nm) = [] ↔ ∀ i pt, s.heap i = some pt → pt.islinked = true → pt.bytes ≠ nm := by
    intro nm
    have := h.linked_iff nm
    constructor
    · intro e i pt h1 h2 h3
      exact (this.mpr ⟨i, pt, h1, h2, h3⟩) e
    · intro e
      apply Classical.byContradiction
      intro e'
      obtain ⟨i, pt, h1, h2, h3⟩ := this.mp e'
      exact e i pt h1 h2 h3
  rcases h.shape.getPrefix (mem := mem) l2 l3 htot with ⟨s1, p, g1, g2, g3, g4⟩ | ⟨nm, g1, g2, g3⟩
  · let x : Itm := ⟨id, key, ty, base, stotal⟩
    have hsz : x.size < w32 := l6
    have hitsz : (It.size ⟨key, ty, base, stotal, p⟩) = x.size := itSize (x := x) l5 p
    have hacc : Acc cfg σ s1 := by
      refine ⟨by rw [g3.null]; exact h.acc.null, ?_⟩
      intro i pt hi hlk
      rcases g3.new i pt hi with e | ⟨e1, e2, e3, e4⟩
      · exact h.acc.acct i pt e hlk
      · rw [e1, (hun pt.bytes).mpr fun j pt' a b => e4 j pt' a b, acctOf_nil]
    have hu : under cfg.delim { σ with items := x :: σ.items } (owner cfg.delim key) = x :: under cfg.delim σ (owner cfg.delim key) := by
      unfold under
      rw [List.filter_cons_of_pos (by simp [x])]
    obtain ⟨s2, b1, b2, b3, b4⟩ := book (σ' := { σ with items := x :: σ.items }) (f := (·.incr ty (It.size ⟨key, ty, base, stotal, p⟩ % w32)))
      g2 hacc g3.points rfl
      (by
        rw [hu, hitsz, Nat.mod_eq_of_lt hsz]
        exact incr_acct x _)
      (fun q hq => by
        unfold under
        rw [List.filter_cons_of_neg (by simpa [x] using Ne.symm hq)])
    refine ⟨_, .ok, { σ with items := x :: σ.items }, by simp only [step, Prefix.link, l2, if_false, g1, b1]; rfl,
      .inl ⟨rfl, rfl, fun nm hnm hemp => g4 nm hnm ((hun nm).mp hemp)⟩, ?_⟩
    refine ⟨⟨b2.pts, b2.tab, b2.nd, b2.uniq, b2.total, b2.few, b2.held⟩, ⟨b3.null, b3.acct⟩, ⟨?_, ?_, ?_, ?_, ?_, ?_⟩, ?_⟩
    · simp only [List.map_cons, List.nodup_cons]
      exact ⟨l1, h.itms.ids⟩
    · intro z hz
      rw [List.mem_cons] at hz
      rcases hz with rfl | hz
      · exact ⟨l4, l5, hsz⟩
      · exact h.itms.fit z hz
    · exact l7
    · intro z hz
      simp only
      rw [List.mem_cons] at hz
      rcases hz with rfl | hz
      · exact ⟨p, upd_same _ _ _, b4.points _ _ g3.points⟩
      · obtain ⟨q, h1, h2⟩ := h.itms.itm z hz
        refine ⟨q, ?_, ?_⟩
        · rw [upd_ne, b4.items, g3.items]
          · exact h1
          · intro e; exact l1 (e ▸ List.mem_map_of_mem hz)
        · apply b4.points
          rcases h2 with e | ⟨i, pt, e1, e2, e3, e4⟩
          · exact .inl e
          · exact .inr ⟨i, pt, e1, g3.old i pt e2, e3, e4⟩
    · simp only [b4.curI, g3.cur.1, h.itms.curI, add64_mod, List.length_cons]
      rw [Nat.add_comm]
    · simp only [b4.curB, g3.cur.2, h.itms.curB, add64_mod, wsum_cons, hitsz]
    · intro i pt hi hlk
      simp only at hi
      obtain ⟨pt', h1, a, rfl⟩ := b4.new i pt hi
      simp only
      rcases g3.new i pt' h1 with e | ⟨e1, e2, e3, e4⟩
      · have := h.full i pt' e hlk
        obtain ⟨z, hz⟩ := List.exists_mem_of_ne_nil _ this
        rw [mem_under] at hz
        exact List.ne_nil_of_mem (mem_under.mpr ⟨List.mem_cons_of_mem _ hz.1, hz.2⟩)
      · rw [← e3, hu]; simp
  · rcases g3 with ⟨g3, g4⟩ | ⟨g3, g4, g5⟩
    · refine ⟨s, .ename, σ, by simp only [step, Prefix.link, l2, if_false, g3], .inr ⟨nm, g1, (hun nm).mpr g2, rfl, .inl ⟨rfl, g4⟩⟩, h⟩
    · refine ⟨s, .nomem, σ, by simp only [step, Prefix.link, l2, if_false, g3], .inr ⟨nm, g1, (hun nm).mpr g2, rfl, .inr ⟨rfl, g4, g5⟩⟩, h⟩

theorem upd_upd {α : Type} (f : Nat → α) (i : Nat) (a b : α) : upd (upd f i a) i b = upd f i b := by
  funext j; unfold upd; split <;> rfl

theorem map_exchange {l : List Itm} (hn : (l.map Itm.id).Nodup) {x : Itm} (hx : x ∈ l) (g : Itm → Itm) :
    (l.map fun z => if z.id = x.id then g z else z) = exchange x.id (g x) l := by
  unfold exchange
  apply List.map_congr_left
  intro z hz
  split
  · rename_i e; rw [same_id hn hz hx e]
  · rfl

theorem Rel.grow {cfg : Cfg} {σ : S} {s : St} (h : Rel cfg σ s) {id n : Nat} (hl : Spec.Legal cfg.delim cfg.hash σ (.grow id n)) :
    ∃ s' r σ', step cfg s (.grow id n) = some (s', r) ∧ Spec.Step cfg.delim cfg.hash σ (.grow id n) r σ' ∧ Rel cfg σ' s' := by
  obtain ⟨x, hx, rfl, ht, hsz⟩ := hl
  have hsz' : x.size + n < w32 := hsz
  let y : Itm := { x with elems := x.elems + n }
  have hys : y.size = x.size + n := by show x.base + (x.elems + n) = x.base + x.elems + n; omega
  obtain ⟨p, s1, e1, e2, e3, e4, e5⟩ := h.exch (y := y) hx rfl rfl (fun e => absurd e ht) (by omega) (.inl rfl)
    (f := (·.more x.ty (n % w32))) (fun l => by rw [Nat.mod_eq_of_lt (by omega)]; exact more_acct l rfl hys)
  have hst : (x.elems + n) % w32 = x.elems + n := Nat.mod_eq_of_lt (by unfold Itm.size at hsz'; omega)
  refine ⟨_, .ok, { σ with items := exchange x.id y σ.items }, by simp only [step, Prefix.grow, e1, e2, hst]; rfl, ⟨rfl, ?_⟩, ?_⟩
  · rw [map_exchange h.itms.ids hx (fun x => { x with elems := x.elems + n })]
  · have := e5 (add64 s1.currBytes n) (by
      rw [e3, h.itms.curB, add64_mod, wsum_exchange _ y h.itms.ids hx, wsum_split _ h.itms.ids hx, hys]
      congr 1; omega)
    rw [upd_upd, ← e4] at this
    exact this

theorem Rel.shrink {cfg : Cfg} {σ : S} {s : St} (h : Rel cfg σ s) {id n : Nat} (hl : Spec.Legal cfg.delim cfg.hash σ (.shrink id n)) :
    ∃ s' r σ', step cfg s (.shrink id n) = some (s', r) ∧ Spec.Step cfg.delim cfg.hash σ (.shrink id n) r σ' ∧ Rel cfg σ' s' := by
  obtain ⟨x, hx, rfl, ht, hn⟩ := hl
  have hsz' : x.size < w32 := (h.itms.fit x hx).2.2
  let y : Itm := { x with elems := x.elems - n }
  have hys : x.size = y.size + n := by show x.base + x.elems = x.base + (x.elems - n) + n; omega
  have hnx : n ≤ x.size := by omega
  obtain ⟨p, s1, e1, e2, e3, e4, e5⟩ := h.exch (y := y) hx rfl rfl (fun e => absurd e ht) (by omega) (.inl rfl)
    (f := (·.less x.ty (n % w32))) (fun l => by rw [Nat.mod_eq_of_lt (by omega)]; exact less_acct l rfl hys)
  refine ⟨_, .ok, { σ with items := exchange x.id y σ.items },
    by simp only [step, Prefix.shrink, e1, e2]; rw [if_neg (by omega)], ⟨rfl, ?_⟩, ?_⟩
  · rw [map_exchange h.itms.ids hx (fun x => { x with elems := x.elems - n })]
  · have := e5 (sub64 s1.currBytes n) (by
      rw [e3, h.itms.curB, wsum_exchange _ y h.itms.ids hx, wsum_split _ h.itms.ids hx, hys]
      have e : ∀ a, y.size + n + a = n + (y.size + a) := by intro a; omega
      rw [e, sub64_mod])
    rw [upd_upd, ← e4] at this
    exact this

theorem Rel.replace {cfg : Cfg} {σ : S} {s : St} (h : Rel cfg σ s) {old new : Nat} {key : List Nat} {ty base stotal : Nat}
    (hl : Spec.Legal cfg.delim cfg.hash σ (.replace old new key ty base stotal)) :
    ∃ s' r σ', step cfg s (.replace old new key ty base stotal) = some (s', r) ∧
      Spec.Step cfg.delim cfg.hash σ (.replace old new key ty base stotal) r σ' ∧ Rel cfg σ' s' := by
  obtain ⟨⟨x, hx, rfl, rfl, rfl⟩, hnew, hel, hsz⟩ := hl
  have hf := h.itms.fit x hx
  let y : Itm := ⟨new, x.key, x.ty, base, stotal⟩
  have hys : y.size < w32 := hsz
  have hiy : ∀ p, It.size ⟨x.key, x.ty, base, stotal, p⟩ = y.size := fun p => itSize (x := y) hel p
  have hix : ∀ p, It.size ⟨x.key, x.ty, x.base, x.elems, p⟩ = x.size := fun p => itSize hf.2.1 p
  obtain ⟨p, s1, e1, e2, e3, e4, e5⟩ := h.exch (y := y) hx rfl rfl hel hys (.inr hnew)
    (f := (·.swap x.ty x.size y.size)) (fun l => swap_acct l rfl hf.2.2 hys)
  refine ⟨_, .ok, { σ with items := exchange x.id y σ.items }, by simp only [step, Prefix.replace, e1, hix, hiy, e2]; rfl, ⟨rfl, ?_⟩, ?_⟩
  · rw [map_exchange h.itms.ids hx (fun _ => ⟨new, x.key, x.ty, base, stotal⟩)]
  · have := e5 (add64 (sub64 s1.currBytes x.size) y.size) (by
      rw [e3, h.itms.curB, wsum_exchange _ y h.itms.ids hx, wsum_split _ h.itms.ids hx, sub64_mod, add64_mod])
    rw [← e4] at this
    exact this

/-! ## Unlinking -/

theorem cutChain_spec {heap : Nat → Option Pt} {name : List Nat} {n : Nat} {i : Nat} {pt : Pt} (hi : heap i = some pt)
    (hn : named pt name n = true) : ∀ {l : List Nat}, i ∈ l → (∀ j ∈ l, ∃ pt', heap j = some pt' ∧ (named pt' name n = true → j = i)) →
    cutChain heap name n l = some (l.erase i, some i) := by
  intro l
  induction l with
  | nil => intro h; simp at h
  | cons j l ih =>
    intro hm ha
    obtain ⟨pt', h1, h2⟩ := ha j (by simp)
    simp only [cutChain, h1]
    by_cases hj : named pt' name n = true
    · rw [if_pos hj]
      have := h2 hj
      subst this
      simp
    · have hne : i ≠ j := by intro e; subst e; rw [hi] at h1; cases h1; exact hj hn
      rw [if_neg hj, ih (by simpa [hne] using hm) fun k hk => ha k (by simp [hk])]
      rw [List.erase_cons_tail (by simpa using Ne.symm hne)]

/-- A prefix is taken out of the table. -/
theorem Shape.delete {cfg : Cfg} {held : Held} {s : St} (h : Shape cfg held s) {i : Nat} {pt : Pt} (hi : s.heap i = some pt)
    (hl : pt.islinked = true) :
    ∃ s', delete s pt.bytes pt.nprefix (cfg.hash (pt.bytes.take pt.nprefix)) = some s' ∧ Shape cfg held s' ∧ s'.null = s.null ∧
      s'.items = s.items ∧ s'.currItems = s.currItems ∧ s'.currBytes = s.currBytes ∧
      (∀ j, j ≠ i → s'.heap j = s.heap j) ∧ (∀ pt', s'.heap i = some pt' → pt'.islinked = false) := by
  have w := h.pts i pt hi
  have htake : pt.bytes.take pt.nprefix = pt.bytes := by rw [w.len, List.take_length]
  rw [htake]
  let b := bucket (cfg.hash pt.bytes)
  have hm : i ∈ s.table b := (h.tab b i).mpr ⟨pt, hi, hl, rfl⟩
  have hnm : named pt pt.bytes pt.nprefix = true := (named_iff w.len (by rw [w.len]; omega)).mpr htake.symm
  have hcut : cutChain s.heap pt.bytes pt.nprefix (s.table b) = some ((s.table b).erase i, some i) := by
    apply cutChain_spec hi hnm hm
    intro j hj
    obtain ⟨pt', h1, h2, -⟩ := (h.tab b j).mp hj
    refine ⟨pt', h1, ?_⟩
    intro hn
    have := (named_iff (h.pts j pt' h1).len (by rw [w.len]; omega)).mp hn
    rw [htake] at this
    exact h.uniq j i pt' pt h1 hi h2 hl this
  have htot : 0 < s.total := by
    rw [h.total]
    have : i ∈ allIds s := (h.mem_all i).mpr ⟨pt, hi, hl⟩
    exact List.length_pos_of_mem this
  have hw : (2 : Nat) ^ 31 < w32 := by decide
  have hf := h.few
  have ht1 : (s.total + (w32 - 1)) % w32 = s.total - 1 := by
    have : s.total + (w32 - 1) = s.total - 1 + w32 := by omega
    rw [this, Nat.add_mod_right, Nat.mod_eq_of_lt (by omega)]
  let hp := upd s.heap i (if pt.refcount = 0 then none else some { pt with islinked := false })
  let s' : St := { s with total := s.total - 1, table := upd s.table b ((s.table b).erase i), heap := hp }
  have hother : ∀ j, j ≠ i → s'.heap j = s.heap j := fun j hj => upd_ne _ _ hj
  have hself : ∀ pt', s'.heap i = some pt' → pt'.islinked = false ∧ pt' = { pt with islinked := false } ∧ 0 < pt.refcount := by
    intro pt' he
    simp only [s', hp, upd_same] at he
    split at he
    · cases he
    · cases he; exact ⟨rfl, rfl, by omega⟩
  refine ⟨s', ?_, ?_, rfl, rfl, rfl, rfl, hother, fun pt' e => (hself pt' e).1⟩
  · have e : Prefix.delete s pt.bytes pt.nprefix (cfg.hash pt.bytes) = match cutChain s.heap pt.bytes pt.nprefix (s.table b) with
      | none => none
      | some (_, none) => some s
      | some (l', some i) =>
        match s.heap i with
        | none => none
        | some pt =>
          some { s with
            total := (s.total + (w32 - 1)) % w32
            table := upd s.table b l'
            heap := upd s.heap i (if pt.refcount = 0 then none else some { pt with islinked := false }) } := rfl
    rw [e, hcut]
    simp only [hi, ht1, s', hp]
  · refine ⟨?_, ?_, ?_, ?_, ?_, ?_, ?_⟩
    · intro j pt' hj
      by_cases hji : j = i
      · subst hji
        obtain ⟨-, e, e'⟩ := hself pt' hj
        subst e
        exact ⟨w.lt, w.len, w.ne, w.short, w.good, w.int, w.ref, .inr e'⟩
      · rw [hother j hji] at hj; exact h.pts j pt' hj
    · intro c j
      by_cases hji : j = i
      · subst hji
        constructor
        · intro hm
          simp only [s'] at hm
          by_cases hc : c = b
          · subst hc; rw [upd_same] at hm
            exact absurd hm (h.nd _).not_mem_erase
          · rw [upd_ne _ _ hc] at hm
            obtain ⟨pt', k1, -, k2⟩ := (h.tab c j).mp hm
            rw [hi] at k1; cases k1
            exact absurd k2.symm hc
        · rintro ⟨pt', k1, k2, -⟩
          rw [(hself pt' k1).1] at k2; cases k2
      · rw [hother j hji, ← h.tab]
        simp only [s']
        by_cases hc : c = b
        · subst hc; rw [upd_same, List.mem_erase_of_ne hji]
        · rw [upd_ne _ _ hc]
    · intro c
      simp only [s']
      by_cases hc : c = b
      · subst hc; rw [upd_same]; exact (h.nd _).erase i
      · rw [upd_ne _ _ hc]; exact h.nd c
    · intro j k pt1 pt2 hj hk hl1 hl2 he
      by_cases hji : j = i
      · subst hji; rw [(hself pt1 hj).1] at hl1; cases hl1
      · by_cases hki : k = i
        · subst hki; rw [(hself pt2 hk).1] at hl2; cases hl2
        · rw [hother j hji] at hj; rw [hother k hki] at hk
          exact h.uniq j k pt1 pt2 hj hk hl1 hl2 he
    · have := allIds_upd s s' b (bucket_lt _) _ rfl
      rw [List.length_erase_of_mem hm] at this
      have hpos : 0 < (s.table b).length := List.length_pos_of_mem hm
      have := h.total
      simp only [s'] at *
      omega
    · simp only [s']; omega
    · intro p nm hmem
      rcases h.held p nm hmem with e | ⟨j, pt', e1, e2, e3⟩
      · exact .inl e
      · by_cases hji : j = i
        · subst hji
          rw [hi] at e2; cases e2
          have hpos : 0 < refs held j := by
            unfold refs
            apply List.length_pos_of_mem (a := (p, nm))
            rw [List.mem_filter]
            exact ⟨hmem, by simp [e1]⟩
          refine .inr ⟨j, { pt with islinked := false }, e1, ?_, e3⟩
          simp only [s', hp, upd_same]
          rw [if_neg (by rw [w.ref]; omega)]
        · exact .inr ⟨j, pt', e1, by rw [hother j hji]; exact e2, e3⟩

theorem Rel.unlink {cfg : Cfg} {σ : S} {s : St} (h : Rel cfg σ s) {id : Nat} (hl : Spec.Legal cfg.delim cfg.hash σ (.unlink id)) :
    ∃ s' r σ', step cfg s (.unlink id) = some (s', r) ∧ Spec.Step cfg.delim cfg.hash σ (.unlink id) r σ' ∧ Rel cfg σ' s' := by
  simp only [Spec.Legal, List.mem_map] at hl
  obtain ⟨x, hx, rfl⟩ := hl
  obtain ⟨p, hp, hpt⟩ := h.itms.itm x hx
  have hf := h.itms.fit x hx
  have hsz := itSize hf.2.1 p
  let σ' : S := { σ with items := σ.items.filter fun z => decide (z.id ≠ x.id) }
  have hxu : x ∈ under cfg.delim σ (owner cfg.delim x.key) := mem_under.mpr ⟨hx, rfl⟩
  have huf := fun q => under_filter cfg.delim σ x.id q
  obtain ⟨s1, b1, b2, b3, b4⟩ := book (σ' := σ') (f := (·.decr x.ty (x.size % w32))) h.shape h.acc hpt rfl
    (by
      rw [huf, Nat.mod_eq_of_lt hf.2.2]
      have e1 : acctOf (under cfg.delim σ (owner cfg.delim x.key)) =
          acctOf (x :: (under cfg.delim σ (owner cfg.delim x.key)).filter fun z => decide (z.id ≠ x.id)) :=
        acctOf_congr fun g => by rw [wsum_split g (under_ids h.itms.ids _) hxu, wsum_cons]
      rw [e1]
      exact decr_acct x _)
    (fun q hq => by rw [huf]; exact under_other h.itms.ids hx hq)
  -- the state after the counters, for any later state with the same items
  have hlen : σ'.items.length + 1 = σ.items.length := by
    have := wsum_split (fun _ => 1) h.itms.ids hx
    rw [wsum_one, wsum_one] at this
    simp only [σ']; omega
  have hstep : ∀ s2, dropEmpty cfg s1 p = some s2 → step cfg s (.unlink x.id) = some ({ s2 with
          items := upd s2.items x.id none
          currItems := sub64 s2.currItems 1
          currBytes := sub64 s2.currBytes x.size }, .ok) := by
    intro s2 e
    simp only [step, Prefix.unlink, hp, hsz, b1, e]
  have finish : ∀ s2, dropEmpty cfg s1 p = some s2 → Shape cfg σ.held s2 → Acc cfg σ' s2 → s2.items = s1.items → s2.currItems = s1.currItems →
      s2.currBytes = s1.currBytes → (∀ z ∈ σ'.items, ∀ q, Points s1 q (owner cfg.delim z.key) → Points s2 q (owner cfg.delim z.key)) → Full cfg σ' s2 →
      ∃ s' r σ', step cfg s (.unlink x.id) = some (s', r) ∧ Spec.Step cfg.delim cfg.hash σ (.unlink x.id) r σ' ∧ Rel cfg σ' s' := by
    intro s2 e0 e1 e2 e3 e4 e5 e6 e7
    refine ⟨_, .ok, σ', hstep s2 e0, ⟨rfl, rfl⟩, ⟨⟨e1.pts, e1.tab, e1.nd, e1.uniq, e1.total, e1.few, e1.held⟩, ⟨e2.null, e2.acct⟩, ⟨?_, ?_, ?_, ?_, ?_, ?_⟩, e7⟩⟩
    · exact h.itms.ids.sublist (List.filter_sublist.map _)
    · intro z hz; exact h.itms.fit z (List.mem_filter.mp hz).1
    · have := h.itms.few; omega
    · intro z hz
      obtain ⟨q, k1, k2⟩ := h.itms.itm z (List.mem_filter.mp hz).1
      refine ⟨q, ?_, e6 z hz q (b4.points _ _ k2)⟩
      simp only
      have hne : z.id ≠ x.id := by
        have := (List.mem_filter.mp hz).2
        simpa using this
      rw [upd_ne _ _ hne, e3, b4.items]; exact k1
    · simp only [e4, b4.curI, h.itms.curI]
      rw [← hlen, Nat.add_comm, sub64_mod]
    · simp only [e5, b4.curB, h.itms.curB]
      rw [wsum_split _ h.itms.ids hx, sub64_mod]
  have hfull1 : ∀ i pt, s1.heap i = some pt → pt.islinked = true → some pt.bytes ≠ owner cfg.delim x.key →
      under cfg.delim σ' (some pt.bytes) ≠ [] := by
    intro i pt hi hlk hne
    obtain ⟨pt', k1, a, rfl⟩ := b4.new i pt hi
    have := h.full i pt' k1 hlk
    simp only
    rw [huf, under_other h.itms.ids hx hne]
    exact this
  rcases hpt with ⟨rfl, ho⟩ | ⟨i, pt, rfl, hi, hlk, ho⟩
  · apply finish s1 rfl b2 b3 rfl rfl rfl (fun _ _ _ e => e)
    intro j pt hj hlk
    exact hfull1 j pt hj hlk (by rw [ho]; simp)
  · obtain ⟨a, hi1⟩ := b4.old i pt hi
    have hacct : a = acctOf (under cfg.delim σ' (some pt.bytes)) := b3.acct i _ hi1 hlk
    have hlt : (under cfg.delim σ' (some pt.bytes)).length < 2 ^ 31 := by
      have e1 : (under cfg.delim σ' (some pt.bytes)).length ≤ σ'.items.length := List.length_filter_le _ _
      have := h.itms.few
      omega
    by_cases hemp : under cfg.delim σ' (some pt.bytes) = []
    · have ha0 : a = .zero := by rw [hacct, hemp, acctOf_nil]
      obtain ⟨s2, d1, d2, d3, d4, d5, d6, d7, d8⟩ := b2.delete hi1 hlk
      have hd : dropEmpty cfg s1 (some i) = some s2 := by
        simp only [dropEmpty, hi1]
        rw [if_neg (by rw [ha0]; simp [Acct.zero]), if_neg (by rw [ha0]; simp [Acct.zero])]
        exact d1
      have hpass : ∀ j pt', s2.heap j = some pt' → pt'.islinked = true → j ≠ i ∧ s1.heap j = some pt' := by
        intro j pt' hj hl'
        have hji : j ≠ i := by
          intro e; subst e
          rw [d8 pt' hj] at hl'; cases hl'
        exact ⟨hji, by rw [← d7 j hji]; exact hj⟩
      apply finish s2 hd d2 ⟨by rw [d3]; exact b3.null, fun j pt' hj hl' => b3.acct j pt' (hpass j pt' hj hl').2 hl'⟩ d4 d5 d6
      · rintro z hz q (e | ⟨j, pt', e1, e2, e3, e4⟩)
        · exact .inl e
        · have hji : j ≠ i := by
            intro e; subst e
            rw [hi1] at e2; cases e2
            have hz' : z ∈ under cfg.delim σ' (some pt.bytes) := mem_under.mpr ⟨hz, e4⟩
            rw [hemp] at hz'; simp at hz'
          exact .inr ⟨j, pt', e1, by rw [d7 j hji]; exact e2, e3, e4⟩
      · intro j pt' hj hl'
        obtain ⟨hji, hj1⟩ := hpass j pt' hj hl'
        apply hfull1 j pt' hj1 hl'
        rw [ho]
        intro e
        simp only [Option.some.injEq] at e
        exact hji (b2.uniq j i pt' _ hj1 hi1 hl' hlk e)
    · have hd : dropEmpty cfg s1 (some i) = some s1 := by
        simp only [dropEmpty, hi1]
        rw [if_pos]
        have : ¬ (acctOf (under cfg.delim σ' (some pt.bytes))).tcnt = 0 := fun e => hemp ((acct_empty hlt).mp e)
        rw [hacct]; omega
      apply finish s1 hd b2 b3 rfl rfl rfl (fun _ _ _ e => e)
      intro j pt' hj hl'
      by_cases hji : pt'.bytes = pt.bytes
      · rw [hji]; exact hemp
      · apply hfull1 j pt' hj hl'
        rw [ho]; simpa using hji

end Verif.Prefix
