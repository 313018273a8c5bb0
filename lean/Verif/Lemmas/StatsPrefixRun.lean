/-
Lemmas about the statistics by prefix: events and dumps.
-/
import Verif.Lemmas.StatsPrefixTab
import Mathlib.Data.Nat.Digits.Defs

namespace Verif.StatsPrefix

open Spec (pre valid nameChar known count Good adds OkEvent)

/-- The test that decides whether a new prefix is taken in. -/
def okName (key p : Text) : Bool := key.head? != some 45 && p.all nameChar

theorem isValid_eq {key : Text} (hk : key ≠ []) {n : Nat} :
    Verif.Util.isValidName key n = some (okName key (key.take n)) := by
  cases key with
  | nil => exact absurd rfl hk
  | cons c cs =>
    unfold Verif.Util.isValidName okName
    by_cases hc : c = 45
    · subst hc; simp
    · have h1 : (c == 45) = false := by simpa using hc
      have h2 : ((c :: cs).head? != some 45) = true := by simp [hc]
      simp only [h1, h2, Bool.true_and, Bool.false_eq_true, if_false]
      rfl

theorem pre_head {d : Nat} {key : Text} (h : pre d key ≠ []) : (pre d key).head? = key.head? := by
  cases key with
  | nil => rfl
  | cons c cs =>
    simp only [pre] at h ⊢
    split at h
    · rename_i hm; rw [if_pos hm]; rfl
    · exact absurd rfl h

theorem okName_valid {d : Nat} {key : Text} (h : okName key (pre d key) = true) : valid (pre d key) = true := by
  unfold okName at h
  rw [Bool.and_eq_true] at h
  unfold valid
  rw [Bool.and_eq_true]
  refine ⟨h.2, ?_⟩
  by_cases hp : pre d key = []
  · rw [hp]; rfl
  · rw [pre_head hp]; exact h.1

theorem valid_okName {d : Nat} {key : Text} (h : valid (pre d key) = true)
    (hh : pre d key = [] → key.head? ≠ some 45) : okName key (pre d key) = true := by
  unfold valid at h
  rw [Bool.and_eq_true] at h
  unfold okName
  rw [Bool.and_eq_true]
  refine ⟨?_, h.1⟩
  by_cases hp : pre d key = []
  · simpa using hh hp
  · rw [← pre_head hp]; exact h.2

/-- A new entry. -/
def fresh (p : Text) : Entry := { name := p, num := fun _ => 0 }

theorem addTo_absent {p : Text} {o : Op} {hit : Bool} {F : List Entry} (h : p ∉ F.map Entry.name) :
    F.map (addTo p o hit) = F := by
  rw [List.map_congr_left (g := id), List.map_id]
  intro e he
  unfold addTo
  rw [if_neg]
  · rfl
  · intro hx; exact h (by rw [← hx]; exact List.mem_map_of_mem he)

theorem insert_eq {g : Cfg} {s : St} {key : Text} (hk : key ≠ [])
    (htake : key.take (pre g.delim key).length = pre g.delim key) :
    insert g s key (pre g.delim key).length =
      if s.num ≥ 10000 then some ({ s with on := false }, none)
      else if (bucket s (slot g key (pre g.delim key).length)).any
          (fun e => matches_ e key (pre g.delim key).length) then some (s, some (pre g.delim key).length)
      else
        match Verif.Util.isValidName key (pre g.delim key).length with
        | none => none
        | some false => some (s, none)
        | some true =>
          let e : Entry := { name := key.take (pre g.delim key).length, num := fun _ => 0 }
          let s : St := { s with
            tab := s.tab.set (slot g key (pre g.delim key).length)
              (e :: bucket s (slot g key (pre g.delim key).length)), num := s.num + 1,
            total := s.total + (if (pre g.delim key).length > 0 then (pre g.delim key).length else 6) }
          if s.num ≥ 10000 then some ({ s with on := false }, none)
          else some (s, some (pre g.delim key).length) := by
  have hnone : ((key.take (pre g.delim key).length).drop 1).findIdx? (· == g.delim) = none := by
    rw [htake]; exact pre_nodelim g.delim key
  unfold insert
  generalize (pre g.delim key).length = n at *
  by_cases hz : n > 0
  · simp only [hnone, hz, if_true]
    rfl
  · have h0 : n = 0 := by omega
    subst h0
    rfl

/-- The outcomes of one counted operation. -/
theorem record_cases {g : Cfg} {s : St} (h : Inv g s) {key : Text} (hk : key ≠ []) (o : Op) (hit : Bool) :
    ∃ s', record g s o key hit = some s' ∧ Inv g s' ∧
      ((pre g.delim key ∈ s.tab.flatten.map Entry.name ∧ s'.on = s.on ∧
          s'.tab.flatten = s.tab.flatten.map (addTo (pre g.delim key) o hit)) ∨
       (pre g.delim key ∉ s.tab.flatten.map Entry.name ∧ s.num = 10000 ∧ s'.on = false ∧
          s'.tab.flatten = s.tab.flatten) ∨
       (pre g.delim key ∉ s.tab.flatten.map Entry.name ∧ s.num < 10000 ∧ okName key (pre g.delim key) = false ∧ s'.on = s.on ∧
          s'.tab.flatten = s.tab.flatten) ∨
       (pre g.delim key ∉ s.tab.flatten.map Entry.name ∧ okName key (pre g.delim key) = true ∧ s.num = 9999 ∧
          s'.on = false ∧ s'.tab.flatten.Perm (fresh (pre g.delim key) :: s.tab.flatten)) ∨
       (pre g.delim key ∉ s.tab.flatten.map Entry.name ∧ okName key (pre g.delim key) = true ∧ s.num < 9999 ∧
          s'.on = s.on ∧ s'.tab.flatten.Perm ((fresh (pre g.delim key)).add o hit :: s.tab.flatten))) := by
  obtain ⟨hlen, htake⟩ := find_len g.delim hk
  have hn : (pre g.delim key).length ≤ key.length := by
    have := congrArg List.length htake
    rw [List.length_take] at this
    omega
  have hany := any_iff h hn
  rw [htake] at hany
  have hslot : slot g key (pre g.delim key).length = g.hash (pre g.delim key) % 1024 := by
    unfold slot; rw [htake]
  have hfind : find g s key = if (bucket s (slot g key (pre g.delim key).length)).any
      (fun e => matches_ e key (pre g.delim key).length) then some (s, some (pre g.delim key).length)
      else insert g s key (pre g.delim key).length := by
    unfold find
    rw [if_neg hk, ← hlen]
    cases (key.drop 1).findIdx? (· == g.delim) <;> rfl
  unfold record
  rw [hfind]
  by_cases hp : pre g.delim key ∈ s.tab.flatten.map Entry.name
  · simp only [hany.mpr hp, if_true]
    obtain ⟨hi, hf⟩ := inv_bump h hn o hit
    rw [htake] at hf
    exact ⟨_, rfl, hi, Or.inl ⟨hp, rfl, hf⟩⟩
  · have hfalse : (bucket s (slot g key (pre g.delim key).length)).any
        (fun e => matches_ e key (pre g.delim key).length) = false := by
      rw [← Bool.not_eq_true]
      intro hh; exact hp (hany.mp hh)
    simp only [hfalse, Bool.false_eq_true, if_false]
    rw [insert_eq hk htake]
    simp only [hfalse, Bool.false_eq_true, if_false, isValid_eq hk, htake]
    by_cases h1 : s.num ≥ 10000
    · rw [if_pos h1]
      refine ⟨_, rfl, ⟨h.len, h.slots, h.ents, h.le⟩, Or.inr (Or.inl ⟨hp, ?_, rfl, rfl⟩)⟩
      have := h.le; omega
    · rw [if_neg h1]
      cases hok : okName key (pre g.delim key) with
      | false =>
        simp only
        exact ⟨s, rfl, h, Or.inr (Or.inr (Or.inl ⟨hp, by omega, by first | trivial | exact hok, rfl, rfl⟩))⟩
      | true =>
        simp only [hslot]
        obtain ⟨hi, hperm⟩ := inv_cons h (okName_valid hok) hp (by omega)
        by_cases h2 : s.num + 1 ≥ 10000
        · simp only [h2, if_true]
          refine ⟨_, rfl, ⟨hi.len, hi.slots, hi.ents, hi.le⟩,
            Or.inr (Or.inr (Or.inr (Or.inl ⟨hp, by first | trivial | exact hok, ?_, rfl, hperm⟩)))⟩
          omega
        · simp only [h2, if_false, hslot]
          obtain ⟨hi2, hf2⟩ := inv_bump hi hn o hit
          rw [htake] at hf2
          simp only [hslot] at hi2 hf2
          refine ⟨_, rfl, hi2, Or.inr (Or.inr (Or.inr (Or.inr ⟨hp, by first | trivial | exact hok, ?_, rfl, ?_⟩)))⟩
          · omega
          · rw [hf2]
            refine (hperm.map _).trans ?_
            rw [List.map_cons, addTo_absent hp]
            unfold addTo
            rw [if_pos rfl]
            exact List.Perm.refl _

/-! ### All events -/

theorem step_inv {g : Cfg} {s : St} (h : Inv g s) {e : Event} (he : OkEvent e) :
    ∃ s', step g s e = some s' ∧ Inv g s' := by
  cases e with
  | on => exact ⟨_, rfl, ⟨h.len, h.slots, h.ents, h.le⟩⟩
  | off => exact ⟨_, rfl, ⟨h.len, h.slots, h.ents, h.le⟩⟩
  | reset => exact ⟨_, rfl, (clear_ok h).1⟩
  | flush p =>
    refine ⟨_, rfl, ?_⟩
    split
    · exact (delete_ok h p).1
    · exact h
  | op o key hit =>
    simp only [step]
    split
    · obtain ⟨s', h1, h2, _⟩ := record_cases h he o hit
      exact ⟨s', h1, h2⟩
    · exact ⟨s, rfl, h⟩

theorem run_inv {g : Cfg} {es : List Event} : ∀ {s : St}, Inv g s → (∀ e ∈ es, OkEvent e) →
    ∃ s', run g s es = some s' ∧ Inv g s' := by
  induction es with
  | nil => intro s h _; exact ⟨s, rfl, h⟩
  | cons e es ih =>
    intro s h he
    obtain ⟨s1, h1, hi⟩ := step_inv h (he e (List.mem_cons_self ..))
    obtain ⟨s2, h2, hi2⟩ := ih hi (fun x hx => he x (List.mem_cons_of_mem _ hx))
    exact ⟨s2, by simp only [run, h1, h2], hi2⟩

/-! ### The history -/

/-- The entries are what the history says. -/
structure Ref (d : Nat) (h : List Event) (s : St) : Prop where
  on : s.on = Spec.on h
  names : (s.tab.flatten.map Entry.name).Perm (known d h)
  count : ∀ e ∈ s.tab.flatten, ∀ f, e.num f = count d e.name (wordOf f) h

theorem adds_le (o : Op) (hit : Bool) (w : String) : adds o hit w ≤ 2 := by
  unfold adds
  split <;> split <;> omega

theorem count_le (d : Nat) (p : Text) (w : String) (h : List Event) : count d p w h ≤ 2 * h.length := by
  induction h with
  | nil => simp [count]
  | cons e h ih =>
    rw [List.length_cons]
    cases e with
    | on => simp only [count]; omega
    | off => simp only [count]; omega
    | reset => simp only [count]; omega
    | flush q => simp only [count]; split <;> omega
    | op o k b =>
      have := adds_le o b w
      simp only [count]; split <;> omega

theorem main_ne_hit (o : Op) : o.hit ≠ some o.main := by cases o <;> decide

theorem add_num {e : Entry} (o : Op) (hit : Bool) (f : Fld)
    (hb : e.num f + adds o hit (wordOf f) < 18446744073709551616) :
    (e.add o hit).num f = e.num f + adds o hit (wordOf f) := by
  have hm : (Spec.word o = wordOf f) ↔ f = o.main := by
    rw [← main_word]
    constructor
    · intro h; exact (wordOf_inj h).symm
    · rintro rfl; rfl
  have hh : (Spec.hitWord o = some (wordOf f)) ↔ o.hit = some f := by
    rw [← hit_word]
    cases ho : o.hit with
    | none => simp
    | some f' =>
      simp only [Option.map_some, Option.some.injEq]
      constructor
      · exact fun h => wordOf_inj h
      · rintro rfl; rfl
  unfold adds at hb ⊢
  simp only [hm, hh] at hb ⊢
  simp only [Entry.add]
  by_cases h1 : f = o.main
  · have h2 : ¬ (hit = true ∧ o.hit = some f) := by
      rintro ⟨_, h⟩
      rw [h1] at h
      exact main_ne_hit o h
    simp only [if_neg h2, if_pos h1] at hb ⊢
    omega
  · simp only [if_neg h1] at hb ⊢
    split
    · rename_i h2; rw [if_pos h2] at hb; omega
    · omega

theorem count_zero {d : Nat} {p : Text} (w : String) (hv : valid p = true) (h : List Event)
    (hp : p ∉ known d h) : count d p w h = 0 := by
  induction h with
  | nil => rfl
  | cons e h ih =>
    cases e with
    | on => exact ih hp
    | off => exact ih hp
    | reset => rfl
    | flush q =>
      simp only [count, known] at hp ⊢
      by_cases ho : Spec.on h = true
      · rw [if_pos ho] at hp
        by_cases hq : q = p
        · rw [if_pos ⟨ho, hq⟩]
        · rw [if_neg (fun hh => hq hh.2)]
          apply ih
          intro hm
          exact hp (List.mem_filter.mpr ⟨hm, by simpa using fun e => hq e.symm⟩)
      · rw [if_neg ho] at hp
        rw [if_neg (fun hh => ho hh.1)]
        exact ih hp
    | op o k b =>
      simp only [count, known] at hp ⊢
      by_cases hc : Spec.on h = true ∧ pre d k = p
      · obtain ⟨ho, hk⟩ := hc
        exfalso
        split at hp
        · rw [hk] at hp; exact hp (List.mem_cons_self ..)
        · rename_i hn
          apply hn
          rw [hk]
          exact ⟨ho, hv, hp⟩
      · rw [if_neg hc, ih]
        intro hm
        split at hp
        · exact hp (List.mem_cons_of_mem _ hm)
        · exact hp hm

theorem ref_init (d : Nat) (g : Cfg) : Ref d [] init where
  on := rfl
  names := by rw [(inv_init g).2]; exact List.Perm.refl _
  count := (fun e he => by rw [(inv_init g).2] at he; cases he)

theorem known_len {g : Cfg} {d : Nat} {h : List Event} {s : St} (hi : Inv g s) (hr : Ref d h s) :
    s.num = (known d h).length := by
  rw [hi.ents.num, ← hr.names.length_eq, List.length_map]

theorem step_ref {g : Cfg} {h : List Event} {s : St} {e : Event} (hi : Inv g s) (hr : Ref g.delim h s)
    (hg : Good g.delim (e :: h)) (hl : h.length + 1 < 9223372036854775808) :
    ∃ s', step g s e = some s' ∧ Inv g s' ∧ Ref g.delim (e :: h) s' := by
  obtain ⟨hg0, hfew, hop⟩ := hg
  have hnum := known_len hi hr
  cases e with
  | on => exact ⟨_, rfl, ⟨hi.len, hi.slots, hi.ents, hi.le⟩, ⟨rfl, hr.names, hr.count⟩⟩
  | off => exact ⟨_, rfl, ⟨hi.len, hi.slots, hi.ents, hi.le⟩, ⟨rfl, hr.names, hr.count⟩⟩
  | reset =>
    obtain ⟨h1, h2⟩ := clear_ok hi
    refine ⟨_, rfl, h1, ⟨hr.on, ?_, ?_⟩⟩
    · rw [h2]; exact List.Perm.refl _
    · intro e he; rw [h2] at he; cases he
  | flush p =>
    refine ⟨_, rfl, ?_⟩
    by_cases ho : s.on = true
    · rw [if_pos ho]
      have ho2 : Spec.on h = true := by rw [← hr.on]; exact ho
      obtain ⟨h1, h2, h3⟩ := delete_ok hi p
      refine ⟨h1, ⟨by rw [h2]; exact hr.on, ?_, ?_⟩⟩
      · rw [h3]
        simp only [known, ho2, if_true]
        have := hr.names.filter (fun q => q != p)
        rw [List.filter_map] at this
        exact this
      · intro e he f
        rw [h3] at he
        obtain ⟨he1, he2⟩ := List.mem_filter.mp he
        simp only [Spec.count]
        rw [if_neg]
        · exact hr.count e he1 f
        · rintro ⟨_, hh⟩
          rw [hh] at he2
          simp at he2
    · rw [if_neg ho]
      have ho2 : ¬ Spec.on h = true := by rw [← hr.on]; exact ho
      refine ⟨hi, ⟨hr.on, ?_, ?_⟩⟩
      · simp only [known, ho2]; exact hr.names
      · intro e he f
        simp only [Spec.count]
        rw [if_neg (fun hh => ho2 hh.1)]
        exact hr.count e he f
  | op o key hit =>
    obtain ⟨hk, hhy⟩ := hop o key hit rfl
    simp only [step]
    by_cases ho : s.on = true
    · rw [if_pos ho]
      have ho2 : Spec.on h = true := by rw [← hr.on]; exact ho
      have hcl : ∀ p f, count g.delim p (wordOf f) h + adds o hit (wordOf f) < 18446744073709551616 := by
        intro p f
        have h1 := count_le g.delim p (wordOf f) h
        have h2 := adds_le o hit (wordOf f)
        omega
      obtain ⟨s', hs, hi', hc⟩ := record_cases hi hk o hit
      refine ⟨s', hs, hi', ?_⟩
      have hmem : pre g.delim key ∈ s.tab.flatten.map Entry.name ↔ pre g.delim key ∈ known g.delim h :=
        hr.names.mem_iff
      rcases hc with ⟨hp, hon, hf⟩ | ⟨hp, hn, _, _⟩ | ⟨hp, _, hv, hon, hf⟩ | ⟨hp, hv, hn, _, _⟩ | ⟨hp, hv, hn, hon, hf⟩
      · have hkn : known g.delim (.op o key hit :: h) = known g.delim h := by
          simp only [known]
          rw [if_neg (fun hh => hh.2.2 (hmem.mp hp))]
        refine ⟨by rw [hon]; exact hr.on, ?_, ?_⟩
        · rw [hkn, hf, List.map_map]
          rw [show (Entry.name ∘ addTo (pre g.delim key) o hit) = Entry.name from
            funext (fun e => addTo_name _ _ _ e)]
          exact hr.names
        · intro e he f
          rw [hf] at he
          obtain ⟨e0, he0, rfl⟩ := List.mem_map.mp he
          rw [addTo_name]
          simp only [Spec.count]
          have hc0 := hr.count e0 he0 f
          by_cases hx : e0.name = pre g.delim key
          · rw [if_pos ⟨ho2, hx.symm⟩]
            unfold addTo
            rw [if_pos hx, add_num o hit f (by rw [hc0]; exact hcl _ f), hc0]
          · rw [if_neg (fun hh => hx hh.2.symm)]
            unfold addTo
            rw [if_neg hx, hc0, Nat.add_zero]
      · exfalso
        have : known g.delim (.op o key hit :: h) = known g.delim h ∨
            (known g.delim (.op o key hit :: h)).length = (known g.delim h).length + 1 := by
          simp only [known]; split
          · right; rfl
          · left; rfl
        rcases this with hh | hh
        · rw [hh] at hfew; omega
        · omega
      · have hnv : ¬ valid (pre g.delim key) = true := by
          intro hv2
          rw [valid_okName hv2 hhy] at hv; cases hv
        have hkn : known g.delim (.op o key hit :: h) = known g.delim h := by
          simp only [known]
          rw [if_neg (fun hh => hnv hh.2.1)]
        refine ⟨by rw [hon]; exact hr.on, by rw [hkn, hf]; exact hr.names, ?_⟩
        intro e he f
        rw [hf] at he
        simp only [Spec.count]
        rw [if_neg]
        · exact hr.count e he f
        · rintro ⟨_, hh⟩
          exact hnv (by rw [hh]; exact hi.ents.valid e he)
      · exfalso
        have hkn : known g.delim (.op o key hit :: h) = pre g.delim key :: known g.delim h := by
          simp only [known]
          rw [if_pos ⟨ho2, okName_valid hv, fun hh => hp (hmem.mpr hh)⟩]
        rw [hkn, List.length_cons] at hfew
        omega
      · have hpk : pre g.delim key ∉ known g.delim h := fun hh => hp (hmem.mpr hh)
        have hval := okName_valid hv
        have hkn : known g.delim (.op o key hit :: h) = pre g.delim key :: known g.delim h := by
          simp only [known]
          rw [if_pos ⟨ho2, hval, hpk⟩]
        refine ⟨by rw [hon]; exact hr.on, ?_, ?_⟩
        · rw [hkn]
          refine (hf.map _).trans ?_
          rw [List.map_cons]
          exact List.Perm.cons _ hr.names
        · intro e he f
          simp only [Spec.count]
          rcases List.mem_cons.mp (hf.mem_iff.mp he) with rfl | he
          · rw [show ((fresh (pre g.delim key)).add o hit).name = pre g.delim key from rfl,
              if_pos ⟨ho2, rfl⟩, count_zero _ hval h hpk, Nat.zero_add, add_num]
            · show 0 + _ = _; omega
            · have := adds_le o hit (wordOf f)
              show 0 + _ < _; omega
          · rw [if_neg]
            · exact hr.count e he f
            · rintro ⟨_, hh⟩
              exact hp (by rw [hh]; exact List.mem_map_of_mem he)
    · rw [if_neg ho]
      have ho2 : ¬ Spec.on h = true := by rw [← hr.on]; exact ho
      refine ⟨s, rfl, hi, ⟨hr.on, ?_, ?_⟩⟩
      · simp only [known]
        rw [if_neg (fun hh => ho2 hh.1)]
        exact hr.names
      · intro e he f
        simp only [Spec.count]
        rw [if_neg (fun hh => ho2 hh.1)]
        exact hr.count e he f

theorem good_suffix {d : Nat} : ∀ {a h : List Event}, Good d (a ++ h) → Good d h
  | [], _, hg => hg
  | _ :: _, _, hg => good_suffix hg.1

theorem run_ref {g : Cfg} {es : List Event} : ∀ {h : List Event} {s : St}, Inv g s → Ref g.delim h s →
    Good g.delim (es.reverse ++ h) → h.length + es.length < 9223372036854775808 →
    ∃ s', run g s es = some s' ∧ Inv g s' ∧ Ref g.delim (es.reverse ++ h) s' := by
  induction es with
  | nil => intro h s hi hr _ _; exact ⟨s, rfl, hi, hr⟩
  | cons e es ih =>
    intro h s hi hr hg hl
    rw [List.reverse_cons, List.append_assoc] at hg ⊢
    rw [List.length_cons] at hl
    obtain ⟨s1, h1, hi1, hr1⟩ := step_ref hi hr (good_suffix (a := es.reverse) hg) (by omega)
    obtain ⟨s2, h2, hi2, hr2⟩ := ih hi1 hr1 hg (by rw [List.length_cons]; omega)
    exact ⟨s2, by simp only [run, h1, h2], hi2, hr2⟩

/-! ### Dumps -/

theorem dec_len {n : Nat} (h : n < 18446744073709551616) : (dec n).length ≤ 20 := by
  unfold dec
  rw [List.length_map]
  exact Nat.toDigits_length 10 n 20 (by omega) (by omega)

theorem zip_map {α β γ : Type} (f : α → β) (g : α → γ) (l : List α) :
    List.zip (l.map f) (l.map g) = l.map (fun x => (f x, g x)) := by
  induction l with
  | nil => rfl
  | cons a l ih => simp only [List.map_cons, List.zip_cons_cons, ih]

/-- The line is the one of the specification. -/
theorem line_eq (e : Entry) (f : String → Nat) (hf : ∀ x, e.num x = f (wordOf x)) :
    lineText e = Spec.line e.name f := by
  unfold lineText Spec.line Spec.title
  rw [spec_words, fmt_words, zip_map]
  simp only [List.flatMap_map, hf]
  have : (if e.name.length = 0 then str "<null>" else e.name) = (if e.name = [] then str "<null>" else e.name) := by
    by_cases h : e.name = []
    · rw [if_pos h, if_pos (by rw [h]; rfl)]
    · rw [if_neg h, if_neg (fun hh => h (List.eq_nil_of_length_eq_zero hh))]
  rw [this]
  rfl

theorem flatMap_len {α : Type} (f : α → Text) (k : Nat) (l : List α) (h : ∀ x ∈ l, (f x).length ≤ k) :
    (l.flatMap f).length ≤ k * l.length := by
  induction l with
  | nil => simp
  | cons a l ih =>
    have h1 := h a (List.mem_cons_self ..)
    have h2 := ih (fun x hx => h x (List.mem_cons_of_mem _ hx))
    rw [List.flatMap_cons, List.length_append, List.length_cons, Nat.mul_succ]
    omega

theorem line_len {e : Entry} (hb : ∀ f, e.num f < 18446744073709551616) :
    (lineText e).length ≤ titleLen e.name + 1359 := by
  unfold lineText
  rw [fmt_words, zip_map]
  have h1 : ((writeOrder.map (fun x => (wordOf x, e.num x))).flatMap
      (fun x => str " " ++ str x.1 ++ str " " ++ dec x.2)).length ≤ 25 * 54 := by
    have := flatMap_len (fun x : String × Nat => str " " ++ str x.1 ++ str " " ++ dec x.2) 25
      (writeOrder.map (fun x => (wordOf x, e.num x))) (by
        intro x hx
        obtain ⟨y, _, rfl⟩ := List.mem_map.mp hx
        have hd := dec_len (hb y)
        have hw : (str (wordOf y)).length = 3 := by cases y <;> rfl
        simp only [List.length_append, hw]
        rw [show (str " ").length = 1 from rfl]
        omega)
    rw [List.length_map, show writeOrder.length = 54 from rfl] at this
    exact this
  have h2 : (if e.name.length = 0 then str "<null>" else e.name).length = titleLen e.name := by
    unfold titleLen
    by_cases h : e.name.length = 0
    · rw [if_pos h, if_neg (by omega)]; rfl
    · rw [if_neg h, if_pos (by omega)]
  rw [List.length_append, List.length_append, List.length_append, h2,
    show (str "PREFIX ").length = 7 from rfl, show (str "\r\n").length = 2 from rfl]
  omega

theorem writeAll_ok {size : Nat} {F : List Entry} : ∀ {out : Text},
    (∀ e ∈ F, ∀ f, e.num f < 18446744073709551616) →
    out.length + (F.map (fun e => titleLen e.name)).sum + 1359 * F.length < size →
    writeAll size F out = some (out ++ F.flatMap lineText) ∧
      (out ++ F.flatMap lineText).length ≤
        out.length + (F.map (fun e => titleLen e.name)).sum + 1359 * F.length := by
  induction F with
  | nil => intro out _ _; simp [writeAll]
  | cons e F ih =>
    intro out hb hs
    simp only [List.map_cons, List.sum_cons, List.length_cons] at hs
    have hl := line_len (hb e (List.mem_cons_self ..))
    have hlen : (out ++ lineText e).length ≤ out.length + (titleLen e.name + 1359) := by
      rw [List.length_append]; omega
    obtain ⟨h1, h2⟩ := ih (out := out ++ lineText e) (fun x hx => hb x (List.mem_cons_of_mem _ hx)) (by omega)
    simp only [writeAll]
    rw [if_pos (by omega), h1, List.flatMap_cons, ← List.append_assoc]
    refine ⟨rfl, ?_⟩
    simp only [List.map_cons, List.sum_cons, List.length_cons]
    omega

theorem finish_ok {size : Nat} {t : Text} (h : t.length + 5 < size) :
    finish size (some t) = some (t ++ str "END\r\n") := by
  unfold finish
  have h5 : (str "END\r\n").length = 5 := rfl
  simp only [List.length_append, h5]
  rw [if_pos h]

theorem dump_ok {F : List Entry} {names n : Nat} (hb : ∀ e ∈ F, ∀ f, e.num f < 18446744073709551616)
    (hn : (F.map (fun e => titleLen e.name)).sum ≤ names) (hl : F.length ≤ n) :
    finish (dumpSize names n) (writeAll (dumpSize names n) F []) = some (F.flatMap lineText ++ str "END\r\n") := by
  have hsz : dumpSize names n = 497 + names + n * 1359 + 6 := rfl
  have hm : 1359 * F.length ≤ n * 1359 := by rw [Nat.mul_comm]; exact Nat.mul_le_mul_right _ hl
  obtain ⟨h1, h2⟩ := writeAll_ok (size := dumpSize names n) (F := F) (out := []) hb
    (by rw [hsz, List.length_nil]; omega)
  rw [h1]
  rw [List.nil_append, List.length_nil] at h2
  rw [List.nil_append, finish_ok (by rw [hsz]; omega)]

/-- The entry of a token. -/
def ofToken (t : Text) : Text := if t = str "<null>" then [] else t

theorem lookup_mem {g : Cfg} {s : St} (h : Inv g s) {t : Text} {e : Entry} (he : lookup g s t = some e) :
    e ∈ s.tab.flatten ∧ e.name = ofToken t := by
  unfold lookup at he
  simp only at he
  have h1 := List.mem_of_find?_eq_some he
  have h2 := List.find?_some he
  have hf := mem_flatten_bucket.mpr ⟨_, h1⟩
  refine ⟨hf, ?_⟩
  have := (matches_iff (valid_nozero (h.ents.valid e hf)) (Nat.le_refl _)).mp h2
  rw [List.take_length] at this
  exact this

theorem lookup_none {g : Cfg} {s : St} (h : Inv g s) {t : Text} (he : lookup g s t = none) :
    ofToken t ∉ s.tab.flatten.map Entry.name := by
  intro hm
  have ha := (any_iff h (key := ofToken t) (n := (ofToken t).length) (Nat.le_refl _))
  rw [List.take_length] at ha
  have := ha.mpr hm
  rw [List.any_eq_true] at this
  obtain ⟨e, he1, he2⟩ := this
  unfold lookup at he
  simp only at he
  have := List.find?_eq_none.mp he e he1
  exact this he2

theorem tokens_sum {g : Cfg} {s : St} (h : Inv g s) {ts : List Text} (ht : ∀ t ∈ ts, t ≠ []) :
    ((ts.filterMap (lookup g s)).map (fun e => titleLen e.name)).sum ≤ (ts.map List.length).sum := by
  induction ts with
  | nil => simp
  | cons t ts ih =>
    have hi := ih (fun x hx => ht x (List.mem_cons_of_mem _ hx))
    have ht0 := ht t (List.mem_cons_self ..)
    rw [List.filterMap_cons, List.map_cons, List.sum_cons]
    cases hl : lookup g s t with
    | none => simp only; omega
    | some e =>
      simp only [List.map_cons, List.sum_cons]
      have hn := (lookup_mem h hl).2
      have : titleLen e.name ≤ t.length := by
        rw [hn]
        unfold ofToken titleLen
        by_cases hx : t = str "<null>"
        · rw [if_pos hx, hx]; decide
        · rw [if_neg hx]
          have : 0 < t.length := List.length_pos_of_ne_nil ht0
          rw [if_pos this]
      omega

theorem dumpAll_eq {g : Cfg} {s : St} (h : Inv g s) :
    dumpAll s = some (s.tab.flatten.flatMap lineText ++ str "END\r\n") := by
  unfold dumpAll
  exact dump_ok h.ents.bound (by rw [h.ents.total]) (by rw [h.ents.num])

theorem dumpSome_eq {g : Cfg} {s : St} (h : Inv g s) {ts : List Text} (ht : ∀ t ∈ ts, t ≠ []) :
    dumpSome g s ts = some ((ts.filterMap (lookup g s)).flatMap lineText ++ str "END\r\n") := by
  unfold dumpSome
  refine dump_ok ?_ (tokens_sum h ht) (List.length_filterMap_le ..)
  intro e he
  obtain ⟨t, _, hl⟩ := List.mem_filterMap.mp he
  exact h.ents.bound e (lookup_mem h hl).1

theorem dumpAll_ref {g : Cfg} {h : List Event} {s : St} (hi : Inv g s) (hr : Ref g.delim h s) :
    dumpAll s = some (Spec.listed g.delim (s.tab.flatten.map Entry.name) h) := by
  rw [dumpAll_eq hi]
  unfold Spec.listed Spec.dump
  rw [List.map_map, List.flatMap_map]
  congr 2
  apply List.flatMap_congr
  intro e he
  exact line_eq e (fun w => Spec.count g.delim e.name w h) (hr.count e he)

theorem dumpSome_ref {g : Cfg} {h : List Event} {s : St} (hi : Inv g s) (hr : Ref g.delim h s)
    {ts : List Text} (ht : ∀ t ∈ ts, t ≠ []) :
    dumpSome g s ts = some (Spec.listed g.delim
      ((ts.map Spec.token).filter (fun p => decide (p ∈ known g.delim h))) h) := by
  rw [dumpSome_eq hi ht]
  unfold Spec.listed Spec.dump
  congr 2
  clear ht
  induction ts with
  | nil => rfl
  | cons t ts ih =>
    rw [List.filterMap_cons, List.map_cons, List.filter_cons]
    cases hl : lookup g s t with
    | none =>
      have hn : Spec.token t ∉ known g.delim h := fun hh =>
        lookup_none hi hl (hr.names.mem_iff.mpr hh)
      simp only [hn, decide_false, Bool.false_eq_true, if_false]
      exact ih
    | some e =>
      obtain ⟨he, hn⟩ := lookup_mem hi hl
      have hn : e.name = Spec.token t := hn
      have hk : Spec.token t ∈ known g.delim h := by
        rw [← hn]; exact hr.names.mem_iff.mp (List.mem_map_of_mem he)
      simp only [hk, decide_true, if_true, List.flatMap_cons, List.map_cons]
      rw [ih, line_eq e (fun w => Spec.count g.delim e.name w h) (hr.count e he), hn]

/-- Counters by word. -/
def byWord (e : Entry) (w : String) : Nat := ((writeOrder.find? (fun f => wordOf f == w)).map e.num).getD 0

theorem byWord_ok (e : Entry) (x : Fld) : e.num x = byWord e (wordOf x) := by
  unfold byWord
  have : writeOrder.find? (fun f => wordOf f == wordOf x) = some x := by
    cases hf : writeOrder.find? (fun f => wordOf f == wordOf x) with
    | none =>
      have hx : x ∈ writeOrder := by cases x <;> decide
      have := List.find?_eq_none.mp hf x hx
      simp at this
    | some y =>
      have h2 := List.find?_some hf
      rw [beq_iff_eq] at h2
      rw [wordOf_inj h2]
  rw [this]
  rfl

end Verif.StatsPrefix
