import Verif.Lemmas.AttrText
/-!
# Properties C119 (setattr: all or nothing), C120 (setattr: what is granted), C121 (getattr), C122 (binary setattr)
-/
namespace Verif.Attr.Props
open Verif.BT Verif.BT.Spec Verif.Util.Spec Verif.Attr Verif.Attr.Spec

/-- The default configuration without forced overflow action, some time after the start. -/
def cfg0 : Cfg := ⟨50000, 50000, 50000, 50000, none, 1700000000, 100⟩

/-- A b+tree with 3 elements from 10 to 30. -/
def tree0 : It := ⟨.btree, 7, 0, 3, 4000, 4, true, true, none, some .u64, .num 10, .num 30⟩

/-- A list with 2 elements. -/
def list0 : It := ⟨.list, 7, 0, 2, 4000, 3, true, false, none, none, .num 0, .num 0⟩

/-- A simple item. -/
def kv0 : It := ⟨.kv, 7, 0, 0, 0, 0, false, false, none, none, .num 0, .num 0⟩

theorem cfg0_ok : CfgOk cfg0 := by unfold CfgOk; decide

theorem tree0_ok : ItOk cfg0 tree0 := by
  refine ⟨fun _ _ => ⟨?_, ?_, trivial, rfl, Or.inl ?_⟩, fun _ f h => (by cases h), fun _ h => (by cases h)⟩
  · show 10 < 2 ^ 64; decide
  · show 30 < 2 ^ 64; decide
  · show 10 < 30; decide

theorem list0_ok : ItOk cfg0 list0 := ⟨fun h => (by cases h), fun h => (by cases h), fun h => (by cases h)⟩

theorem after_ok {cfg : Cfg} {it : It} {rs : List Req} (h : ItOk cfg it) : ItOk cfg (after cfg it rs) := by
  refine ⟨?_, ?_, ?_⟩
  · intro hk hc
    have hk' : it.kind = .btree := hk
    have hc' : 0 < it.ccnt := hc
    obtain ⟨a, b, c, d, e⟩ := h.keys hk' hc'
    refine ⟨a, b, c, ?_, e⟩
    show (after cfg it rs).bktype = some it.first.type
    simp only [after]
    rw [if_neg (by omega)]
    exact d
  · intro hk f hf
    have hk' : it.kind = .btree := hk
    simp only [after, hk', hf]
    cases Spec.ovflOf rs with
    | none => simpa using h.forced hk' f hf
    | some o => simp
  · exact h.one

/-! ## C119 -/

/-- **C119.**  Whatever the arguments (at most the 5 a command line may have): `setattr` works without fault; with any answer but `OK` the item is as
before, and with `OK` it has the attributes that the requests describe, one for each argument and for the attribute it names, and all others as before. -/
theorem C119 (cfg : Cfg) (hc : CfgOk cfg) (s : Option It) (hs : ∀ it, s = some it → ItOk cfg it) (toks : List (List Nat)) (hl : toks.length ≤ 5) :
    ∃ s' r, setattrCmd cfg s toks = some (s', r) ∧ (r ≠ .ok → s' = s) ∧
      (r = .ok → ∃ it rs, s = some it ∧ ForAll toks rs ∧ Allowed cfg it rs ∧ s' = some (after cfg it rs) ∧ ItOk cfg (after cfg it rs)) := by
  obtain ⟨p, hp, hr⟩ := parse_loop_any cfg toks [] Data.start (by simp only [List.length_nil]; omega)
  unfold setattrCmd
  rw [hp]
  cases p with
  | format => exact ⟨s, _, rfl, fun _ => rfl, by simp⟩
  | badValue => exact ⟨s, _, rfl, fun _ => rfl, by simp⟩
  | badAttr => exact ⟨s, _, rfl, fun _ => rfl, by simp⟩
  | ok ids d =>
    obtain ⟨rs, r1, r2, r3, r4⟩ := hr ids d rfl
    simp only [List.nil_append] at r2
    subst r2 r3
    cases s with
    | none => exact ⟨none, _, rfl, fun _ => rfl, by simp⟩
    | some it =>
      have hsp := set_spec hc (hs it rfl) r1 (fold_data cfg rs)
      by_cases ha : Allowed cfg it rs
      · simp only [itemSetattr, hsp.1 ha]
        exact ⟨_, _, rfl, fun h => absurd rfl h, fun _ => ⟨it, rs, rfl, r4, ha, rfl, after_ok (hs it rfl)⟩⟩
      · simp only [itemSetattr, hsp.2 ha]
        exact ⟨_, _, rfl, fun _ => rfl, fun h => (by cases h)⟩

/-- Five arguments, of which the last is refused: nothing is changed. -/
example : setattrCmd cfg0 (some tree0) [str "maxcount=100", str "readable=on", str "expiretime=60", str "maxbkeyrange=100", str "overflowaction=head_trim"] =
    some (some tree0, .badValue) := by decide +kernel

/-- An unknown name behind good ones: nothing is changed. -/
example : setattrCmd cfg0 (some list0) [str "maxcount=100", str "size=3"] = some (some list0, .badAttr) := by decide +kernel

/-! ## C120 -/

/-- **C120** (in part; see `C120_false`).  The requests of a well-formed command are granted together if the elements there are fit the new limits and
stickiness stays, with the last value for each attribute; else the answer is `ATTR_ERROR bad value`.  Missing: requests for attributes the type of the
item does not have are granted too. -/
theorem C120_partial (cfg : Cfg) (hc : CfgOk cfg) (it : It) (hit : ItOk cfg it) (toks : List (List Nat)) (rs : List Req) (hl : toks.length ≤ 5)
    (ha : AsksAll toks rs) :
    (Allowed cfg it rs → setattrCmd cfg (some it) toks = some (some (after cfg it rs), .ok)) ∧
    (¬ Allowed cfg it rs → setattrCmd cfg (some it) toks = some (some it, .badValue)) ∧
    setattrCmd cfg none toks = some (none, .notFound) := by
  have hlen : rs.length = toks.length := by
    clear hl
    induction ha with
    | nil => rfl
    | cons _ _ ih => simp only [List.length_cons, ih]
  have hp := parse_loop cfg ha [] Data.start (by simp only [List.length_nil]; omega)
  have hsp := set_spec hc hit (asksAll_ok ha) (fold_data cfg rs)
  simp only [setattrCmd, hp, List.nil_append, itemSetattr]
  refine ⟨fun h => ?_, fun h => ?_, trivial⟩
  · rw [hsp.1 h]
  · rw [hsp.2 h]

/-- The digits of a number form a number. -/
theorem number_ex {ds : List Nat} {n : Nat} (h : ds ≠ []) (hd : ∀ d ∈ ds, Digit d) (hv : decVal ds = n) : Number ds false n :=
  ⟨[], ds, [], by simp, Or.inl ⟨rfl, Or.inl rfl⟩, h, hd, hv, Or.inl rfl⟩

/-- A command that is granted, with an attribute given twice; the attributes read back. -/
example : AsksAll [str "maxcount=" ++ [53], str "overflowaction=" ++ str "error", str "maxcount=" ++ [54], str "maxbkeyrange=" ++ [50, 48]]
      [.maxcount 5, .ovfl 1, .maxcount 6, .range (some (.num 20))] ∧
    setattrCmd cfg0 (some tree0) [str "maxcount=" ++ [53], str "overflowaction=" ++ str "error", str "maxcount=" ++ [54], str "maxbkeyrange=" ++ [50, 48]] =
      some (some (after cfg0 tree0 [.maxcount 5, .ovfl 1, .maxcount 6, .range (some (.num 20))]), .ok) ∧
    getattrCmd cfg0 (some (after cfg0 tree0 [.maxcount 5, .ovfl 1, .maxcount 6, .range (some (.num 20))]))
        [str "maxcount", str "overflowaction", str "maxbkeyrange", str "trimmed", str "minbkey"] =
      some (.attrs [(.maxcount, .num 6), (.ovfl, .ovfl 1), (.maxrange, .bkey (some (.num 20))), (.trimmed, .flag false), (.minbkey, .bkey (some (.num 10)))]) := by
  refine ⟨?_, by decide +kernel, by decide +kernel⟩
  refine .cons (.maxcount (neg := false) (n := 5) (by decide) (number_ex (by simp) (by simp [Digit]) (by decide)) (by decide) (by decide)) ?_
  refine .cons (.ovfl (by decide)) ?_
  refine .cons (.maxcount (neg := false) (n := 6) (by decide) (number_ex (by simp) (by simp [Digit]) (by decide)) (by decide) (by decide)) ?_
  refine .cons (.number (by decide) (by decide) (number_ex (by simp) (by simp [Digit]) (by decide)) (by decide) (by decide)) .nil

/-- A range smaller than that of the elements is refused. -/
example : setattrCmd cfg0 (some tree0) [str "maxbkeyrange=19"] = some (some tree0, .badValue) := by decide +kernel

/-- Full claim: an `OK` means that the item has the attributes asked for. -/
def C120_full : Prop := ∀ cfg it toks rs s', CfgOk cfg → ItOk cfg it → toks.length ≤ 5 → AsksAll toks rs →
  setattrCmd cfg (some it) toks = some (s', .ok) → ∀ r ∈ rs, Has it.kind (idOf r)

/-- The full claim does not hold: a maximum bkey range for a list is answered with `OK`, though no list has one: `getattr` does not find it. -/
theorem C120_false : ¬ C120_full ∧
    setattrCmd cfg0 (some list0) [str "maxbkeyrange=5"] = some (some list0, .ok) ∧
    getattrCmd cfg0 (some list0) [str "maxbkeyrange"] = some .badAttr ∧
    setattrCmd cfg0 (some kv0) [str "maxcount=5"] = some (some kv0, .ok) ∧ getattrCmd cfg0 (some kv0) [str "maxcount"] = some .badAttr := by
  have h1 : setattrCmd cfg0 (some list0) [str "maxbkeyrange=5"] = some (some list0, .ok) := by decide +kernel
  refine ⟨?_, h1, by decide +kernel, by decide +kernel, by decide +kernel⟩
  intro h
  have he : str "maxbkeyrange=5" = str "maxbkeyrange=" ++ [53] := by decide +kernel
  have ha : AsksAll [str "maxbkeyrange=5"] [.range (some (.num 5))] := by
    rw [he]
    exact .cons (.number (by decide) (by decide) (number_ex (by simp) (by simp [Digit]) (by decide)) (by decide) (by decide)) .nil
  have := h cfg0 list0 _ _ _ cfg0_ok list0_ok (by decide) ha h1 _ (List.mem_cons_self)
  simp [Has, idOf, list0] at this

/-! ## C121 -/

/-- **C121** (in part; see `C121_false`).  `getattr` with up to 11 names (more do not fit a command line), or with none for all attributes of the type, answers with
the values of the item, or with `ATTR_ERROR not found` if the item lacks one of them.  Missing: `minbkey` and `maxbkey` of items that are no b+trees. -/
theorem C121_partial (cfg : Cfg) (it : It) (names : List AttrId) (hl : names.length ≤ 11)
    (hm : it.kind = .btree ∨ (.minbkey ∉ names ∧ .maxbkey ∉ names)) :
    ((∀ i ∈ names, Has it.kind i) → getattrCmd cfg (some it) (names.map nameText) =
      some (.attrs ((if names = [] then allAttrs it.kind else names).map fun i => (i, valueOf cfg it i)))) ∧
    ((¬ ∀ i ∈ names, Has it.kind i) → getattrCmd cfg (some it) (names.map nameText) = some .badAttr) ∧
    (∀ i, i ∈ allAttrs it.kind ↔ Has it.kind i) ∧
    getattrCmd cfg none (names.map nameText) = some .notFound := by
  have hn := names_loop names [] (by simp only [List.length_nil]; omega)
  simp only [List.nil_append] at hn
  have hr : ∀ i ∈ names, (refused it.kind i = true ↔ ¬ Has it.kind i) := by
    intro i hi
    refine refused_iff _ _ ?_
    rcases hm with h | ⟨h1, h2⟩
    · exact Or.inl h
    · exact Or.inr ⟨fun e => h1 (e ▸ hi), fun e => h2 (e ▸ hi)⟩
  have hany : names.any (refused it.kind) = true ↔ ¬ ∀ i ∈ names, Has it.kind i := by
    rw [List.any_eq_true]
    constructor
    · rintro ⟨i, hi, h⟩ x
      exact (hr i hi).mp h (x i hi)
    · intro h
      refine Classical.byContradiction fun hx => h fun i hi => Classical.byContradiction fun hy => hx ⟨i, hi, (hr i hi).mpr hy⟩
  simp only [getattrCmd, hn]
  refine ⟨fun h => ?_, fun h => ?_, ?_, trivial⟩
  · have ho : ∃ o, doGetattr cfg it names = some o := by
      unfold doGetattr
      rw [if_neg (fun x => hany.mp x h)]
      simp only
      split
      · exact ⟨_, rfl⟩
      · split <;> exact ⟨_, rfl⟩
    obtain ⟨o, ho⟩ := ho
    simp only [ho]
    cases names with
    | nil => simp only [List.length_nil, Nat.lt_irrefl, if_false, if_true, get_kind ho, lines_eq ho _ (all_has it.kind)]
    | cons i l => simp only [List.length_cons, Nat.zero_lt_succ, if_true, reduceCtorEq, if_false, lines_eq ho _ h]
  · have ho : doGetattr cfg it names = none := by
      unfold doGetattr
      rw [if_pos (hany.mpr h)]
    simp only [ho]
  · intro i
    cases it.kind <;> cases i <;> simp [allAttrs, Has]

/-- All attributes of a b+tree; two of a list in another order; one a list does not have. -/
example : (∃ l, getattrCmd cfg0 (some tree0) [] = some (.attrs l) ∧ l.length = 11) ∧
    getattrCmd cfg0 (some list0) [str "maxcount", str "type"] = some (.attrs [(.maxcount, .num 4000), (.type, .type .list)]) ∧
    getattrCmd cfg0 (some list0) [str "maxcount", str "trimmed"] = some .badAttr := by
  refine ⟨⟨(allAttrs .btree).map fun i => (i, valueOf cfg0 tree0 i), by decide +kernel, by decide +kernel⟩, by decide +kernel, by decide +kernel⟩

/-- Full claim: for all names, the answer shows attributes of the item or an error. -/
def C121_full : Prop := ∀ cfg it (names : List AttrId), names.length ≤ 11 → ∃ r, getattrCmd cfg (some it) (names.map nameText) = some r ∧
  ∀ l, r = .attrs l → ∀ x ∈ l, Has it.kind x.1 ∧ x.2 = valueOf cfg it x.1

/-- The full claim does not hold: `getattr` with `minbkey` uses a count that was never written for a simple item, and prints a bkey that was never written
for a list with elements (so for sets and maps). -/
theorem C121_false : ¬ C121_full ∧ getattrCmd cfg0 (some kv0) [str "minbkey"] = none ∧ getattrCmd cfg0 (some list0) [str "maxbkey"] = none := by
  have h1 : getattrCmd cfg0 (some kv0) [str "minbkey"] = none := by decide +kernel
  refine ⟨?_, h1, by decide +kernel⟩
  intro h
  obtain ⟨r, hr, -⟩ := h cfg0 kv0 [.minbkey] (by decide)
  rw [show [Resp.AttrId.minbkey].map nameText = [str "minbkey"] from rfl, h1] at hr
  cases hr

/-! ## C122 -/

/-- **C122** (in part; see `C122_false`).  A binary `setattr` request is granted under the same conditions and with the same effect as the text command.  Missing:
requests with a bkey length of 32 to 254. -/
theorem C122_partial (cfg : Cfg) (hc : CfgOk cfg) (it : It) (hit : ItOk cfg it) (q : BinReq) (hq : BinOk q) (hl : q.rlen ≤ 31 ∨ q.rlen = 255) :
    (Allowed cfg it (binReqs q) → binSetattr cfg (some it) q = some (some (after cfg it (binReqs q)), .ok)) ∧
    (¬ Allowed cfg it (binReqs q) → binSetattr cfg (some it) q = some (some it, .badValue)) ∧
    binSetattr cfg none q = some (none, .notFound) := by
  have hsp := set_spec hc hit (binReqs_ok hq hl) (fold_data cfg (binReqs q))
  simp only [bin_call cfg _ hl, itemSetattr]
  refine ⟨fun h => ?_, fun h => ?_, trivial⟩
  · rw [hsp.1 h]
  · rw [hsp.2 h]

/-- A request for a maximum count and a range of 20; and one for a range of 2 bytes, which does not fit keys that are numbers. -/
example : BinOk ⟨0, 0, 1, 5, 0, [0, 0, 0, 0, 0, 0, 0, 20] ++ List.replicate 23 0, 0, 0⟩ ∧
    binSetattr cfg0 (some tree0) ⟨0, 0, 1, 5, 0, [0, 0, 0, 0, 0, 0, 0, 20] ++ List.replicate 23 0, 0, 0⟩ =
      some (some { tree0 with mcnt := 5, maxRange := some (.num 20) }, .ok) ∧
    binSetattr cfg0 (some tree0) ⟨0, 0, 0, 0, 2, [1, 2] ++ List.replicate 29 0, 0, 0⟩ = some (some tree0, .badValue) := by
  refine ⟨⟨by decide, by decide, by decide⟩, by decide +kernel, by decide +kernel⟩

/-- Full claim: every request whose bytes have arrived is answered. -/
def C122_full : Prop := ∀ cfg it q, CfgOk cfg → ItOk cfg it → BinOk q → ∃ r, binSetattr cfg (some it) q = some r

/-- The full claim does not hold: with a length byte of 32 to 254 that many bytes are copied into an array of 31 on the stack. -/
theorem C122_false : ¬ C122_full ∧ ∀ cfg s q, 31 < q.rlen → q.rlen ≠ 255 → binSetattr cfg s q = none := by
  have h2 : ∀ cfg s q, 31 < q.rlen → q.rlen ≠ 255 → binSetattr cfg s q = none := by
    intro cfg s q h1 h2
    unfold binSetattr binRange
    rw [if_neg h2, if_neg (by omega), if_pos h1]
  refine ⟨?_, h2⟩
  intro h
  obtain ⟨r, hr⟩ := h cfg0 tree0 ⟨0, 0, 0, 0, 200, List.replicate 31 65, 0, 0⟩ cfg0_ok tree0_ok ⟨by decide, by decide, by decide⟩
  rw [h2 _ _ _ (by decide) (by decide)] at hr
  cases hr

end Verif.Attr.Props
