import Verif.Lemmas.KeyConcat

/-!
# The pass over the blocks
-/
namespace Verif.Keys
open Spec

/-- The blocks hold a string. -/
def Holds (bl : Nat) (m : Mem) (str : List Nat) : Prop :=
  ∀ k off len, 0 < len → off + len ≤ bl → k * bl + off + len ≤ str.length → rd m k off len = some ((str.drop (k * bl + off)).take len)

theorem holds_mono {bl : Nat} {m m' : Mem} {str : List Nat} (h : Holds bl m str) (hm : ∀ b o l, b < m.length → rd m' b o l = rd m b o l) :
    Holds bl m' str := by
  intro k off len h0 h1 h2
  have := h k off len h0 h1 h2
  rw [hm _ _ _ (rd_lt this), this]

theorem pieces_last_nil {d : Nat} {a : List Nat} {q : List (List Nat)} (h : pieces d a = q ++ [[]]) : a = [] ∨ a.getLast? = some d := by
  rcases List.eq_nil_or_concat a with ha | ⟨b, z, ha⟩
  · exact Or.inl ha
  · right
    subst ha
    by_cases hz : z = d
    · simp [hz]
    · exfalso
      have hne := pieces_ne d b
      have hs : pieces d b = (pieces d b).dropLast ++ [(pieces d b).getLast hne] := (List.dropLast_concat_getLast hne).symm
      rw [List.concat_eq_append, pieces_suffix [z] hs] at h
      have hno : d ∉ (pieces d b).getLast hne ++ [z] := by
        intro hd
        rcases List.mem_append.mp hd with hd | hd
        · exact pieces_no _ (List.getLast_mem hne) hd
        · simp at hd; exact hz hd.symm
      rw [pieces_self hno] at h
      have := (List.append_inj' h rfl).2
      simp at this

/-- A part that is not a list of keys spoils the whole. -/
theorem part_none {d keycnt maxk : Nat} {str pend v xs w : List Nat} {vs : List (List Nat)} (hw : pieces d str = vs ++ pieces d (pend ++ v))
    (hv : v = xs ++ w) (hd : d ∉ pend) (hh : pend ≠ [] → xs.head? ≠ some d) (hx : xs ≠ [])
    (hend : w = [] ∨ (∃ w', w = d :: w') ∨ xs.getLast? ≠ some d) (hs : scan d (keycnt - vs.length) 0 0 xs = none) :
    ¬ Valid d str keycnt maxk := by
  intro hval
  obtain ⟨p, ps, hp⟩ := pieces_cons d xs
  have hpp := pieces_prefix xs hd hp
  have hvv : pend ++ v = (pend ++ xs) ++ w := by rw [hv]; simp
  rcases scan_none hs with hc | ⟨q, hq, hwr⟩
  · have h1 := pieces_len (d := d) (pend ++ xs) w
    have h2 := hval.count
    rw [hw, hvv, List.length_append] at h2
    rw [hpp, List.length_cons] at h1
    rw [hp, List.length_cons] at hc
    omega
  · -- a wrong piece of the part and what precedes it
    have hq' : ∃ q' ∈ pieces d (pend ++ xs), Wrong q' := by
      rw [hp] at hq
      rw [hpp]
      rcases List.mem_cons.mp hq with hq | hq
      · subst hq
        refine ⟨pend ++ q, by simp, ?_⟩
        rcases hwr with h0 | h32
        · by_cases hpe : pend = []
          · left; simp [hpe, h0]
          · exfalso
            apply hh hpe
            cases xs with
            | nil => exact absurd rfl hx
            | cons c cs =>
              simp only [pieces] at hp
              by_cases hc : c = d
              · simp [hc]
              · rw [if_neg hc] at hp
                obtain ⟨y, ys, hy⟩ := pieces_cons d cs
                rw [hy] at hp
                simp at hp
                rw [h0] at hp
                simp at hp
        · right; simp [h32]
      · exact ⟨q, by simp [hq], hwr⟩
    obtain ⟨q', hq1, hq2⟩ := hq'
    rcases hq2 with h0 | h32
    · -- an empty key
      have : ([] : List Nat) ∈ pieces d (pend ++ v) := by
        rw [hvv]
        subst h0
        rcases hend with h | ⟨w', h⟩ | h
        · rw [h, List.append_nil]; exact hq1
        · rw [h, pieces_delim]; exact List.mem_append_left _ hq1
        · have hne := pieces_ne d (pend ++ xs)
          have hs2 : pieces d (pend ++ xs) = (pieces d (pend ++ xs)).dropLast ++ [(pieces d (pend ++ xs)).getLast hne] :=
            (List.dropLast_concat_getLast hne).symm
          rw [pieces_suffix w hs2]
          rw [hs2] at hq1
          rcases List.mem_append.mp hq1 with hq1 | hq1
          · exact List.mem_append_left _ hq1
          · exfalso
            rw [← List.mem_singleton.mp hq1] at hs2
            rcases pieces_last_nil hs2 with h5 | h5
            · simp at h5; exact hx h5.2
            · cases hg : xs.getLast? with
              | none => exact hx (List.getLast?_eq_none_iff.mp hg)
              | some z =>
                rw [List.getLast?_append, hg] at h5
                exact h (hg.trans h5)
      exact (hval.each [] (by rw [hw]; exact List.mem_append_right _ this)).1 rfl
    · obtain ⟨z, hz1, hz2⟩ := pieces_sub (d := d) (pend ++ xs) w q' hq1
      exact (hval.each z (by rw [hw, hvv]; exact List.mem_append_right _ hz1)).2.2 (hz2.subset h32)

/-- A part with a long piece spoils the whole. -/
theorem part_long {d keycnt maxk : Nat} {str pend v xs w q : List Nat} {vs : List (List Nat)} (hw : pieces d str = vs ++ pieces d (pend ++ v))
    (hv : v = xs ++ w) (hd : d ∉ pend) (hq : q ∈ pieces d xs) (hl : maxk < q.length) : ¬ Valid d str keycnt maxk := by
  intro hval
  obtain ⟨p, ps, hp⟩ := pieces_cons d xs
  have hpp := pieces_prefix xs hd hp
  have hvv : pend ++ v = (pend ++ xs) ++ w := by rw [hv]; simp
  have : ∃ q' ∈ pieces d (pend ++ xs), maxk < q'.length := by
    rw [hp] at hq
    rw [hpp]
    rcases List.mem_cons.mp hq with hq | hq
    · subst hq; exact ⟨pend ++ q, by simp, by simp; omega⟩
    · exact ⟨q, by simp [hq], hl⟩
  obtain ⟨q', hq1, hq2⟩ := this
  obtain ⟨z, hz1, hz2⟩ := pieces_sub (d := d) (pend ++ xs) w q' hq1
  have := (hval.each z (by rw [hw, hvv]; exact List.mem_append_right _ hz1)).2.1
  have := hz2.length_le
  omega

/-- How the part read so far is cut. -/
def Cut (d : Nat) (u : List Nat) (vs : List (List Nat)) (pend : List Nat) : Prop :=
  (u = [] ∧ vs = [] ∧ pend = []) ∨ (∃ a, u = a ++ [d] ∧ pieces d a = vs ∧ pend = []) ∨ (pend ≠ [] ∧ pieces d u = vs ++ [pend])

theorem cut_ext {d : Nat} {u : List Nat} {vs : List (List Nat)} {pend : List Nat} (h : Cut d u vs pend) (y : List Nat) :
    pieces d (u ++ y) = vs ++ pieces d (pend ++ y) := by
  rcases h with ⟨h1, h2, h3⟩ | ⟨a, h1, h2, h3⟩ | ⟨_, h2⟩
  · simp [h1, h2, h3]
  · rw [h1, h3, ← h2]
    simp only [List.append_assoc, List.singleton_append, List.nil_append]
    exact pieces_delim _ _ _
  · exact pieces_suffix y h2

theorem cut_no {d : Nat} {u : List Nat} {vs : List (List Nat)} {pend : List Nat} (h : Cut d u vs pend) : d ∉ pend := by
  rcases h with ⟨_, _, h3⟩ | ⟨a, _, _, h3⟩ | ⟨_, h2⟩
  · simp [h3]
  · simp [h3]
  · exact pieces_no pend (by rw [h2]; simp)

/-- The keys found in a block, the first one possibly begun before. -/
def att (o : Option Tok) : List Tok → List Ent
  | [] => []
  | t :: ts => (o, t) :: ts.map fun t => (none, t)

theorem att_snd (o : Option Tok) (ts : List Tok) : (att o ts).map Prod.snd = ts := by
  cases ts with
  | nil => rfl
  | cons t ts => simp [att, Function.comp_def]

theorem att_segs (o : Option Tok) (ts : List Tok) (h : ts ≠ []) (k : Nat) :
    segsOf k (att o ts) = match o with | none => [] | some t => [⟨t, k⟩] := by
  cases ts with
  | nil => exact absurd rfl h
  | cons t ts =>
    cases o with
    | none => simp only [att, segsOf, segsOf_none]
    | some s => simp only [att, segsOf, segsOf_none]

/-- What the first part of a key holds. -/
def OVal (m : Mem) (pend : List Nat) : Option Tok → Prop
  | none => pend = []
  | some t => pend ≠ [] ∧ rt m t = some pend

theorem att_comb {d : Nat} {m : Mem} {pend xs : List Nat} {o : Option Tok} (ho : OVal m pend o) (hd : d ∉ pend) {ts : List Tok}
    (h : ts.map (rt m) = (pieces d xs).map some) : (att o ts).map (comb m) = (pieces d (pend ++ xs)).map some := by
  obtain ⟨p, ps, hp⟩ := pieces_cons d xs
  rw [pieces_prefix xs hd hp]
  rw [hp] at h
  cases ts with
  | nil => simp at h
  | cons t ts =>
    simp only [List.map_cons, List.cons.injEq] at h
    simp only [att, List.map_cons, List.map_map, List.cons.injEq]
    constructor
    · cases o with
      | none =>
        have : pend = [] := ho
        simp [comb, h.1, this]
      | some s => simp [comb, h.1, ho.2]
    · rw [← h.2]; rfl

/-- The shape of the blocks. -/
structure Shape (x : Cx) (str : List Nat) : Prop where
  len : str.length = (x.numblks - 1) * x.bl + x.lastlen
  last0 : 0 < x.lastlen
  last : x.lastlen ≤ x.bl
  nb : 1 ≤ x.numblks
  bl : x.maxk + 2 < x.bl
  cnt : 0 < x.keycnt

theorem Shape.inner {x : Cx} {str : List Nat} (h : Shape x str) {k : Nat} (hk : k + 1 < x.numblks) : (k + 1) * x.bl < str.length := by
  have h1 : (k + 1) * x.bl ≤ (x.numblks - 1) * x.bl := Nat.mul_le_mul_right _ (by omega)
  have := h.len
  have := h.last0
  omega

/-- The state of a pass between two blocks. -/
structure Inv (x : Cx) (str : List Nat) (spare : Nat) (l : L) (es : List Ent) (vs : List (List Nat)) (pend : List Nat) (o : Option Tok) : Prop where
  uni : Uniform x.bl l.m
  funi : Uniform x.bl l.fresh
  holds : Holds x.bl l.m str
  toks : l.toks = es.map Prod.snd
  vals : es.map (comb l.m) = vs.map some
  segs : l.segs = segsOf 0 es ++ (match o with | none => [] | some t => [⟨t, es.length⟩])
  oval : OVal l.m pend o
  pnd : pend ≠ [] → l.off = 0 ∧ es.length < x.keycnt ∧ (str.drop (l.blk * x.bl)).head? ≠ some x.delim ∧ 32 ∉ pend ∧ 1 ≤ l.blk
  right : ∀ v ∈ vs, ¬ Wrong v
  short : ∀ t, (none, t) ∈ es → t.len ≤ x.maxk
  blk : l.blk < x.numblks
  len : l.off + l.len = if l.blk + 1 < x.numblks then x.bl else x.lastlen
  off : l.off ≤ 1
  off0 : l.blk = 0 → l.off = 0
  cut : Cut x.delim (str.take (l.blk * x.bl + l.off)) vs pend
  cnt : es.length ≤ x.keycnt
  deep : l.blk = 0 ∨ x.delim ∈ str
  room : spare + l.segs.length ≤ l.fresh.length + l.blk

/-- How a pass may end. -/
def Ends (x : Cx) (str : List Nat) (spare : Nat) : Option Ret → Prop
  | none => Lone x.bl x.delim str
  | some (.bad m fresh) => ¬ Valid x.delim str x.keycnt x.maxk ∧ Uniform x.bl m ∧ Uniform x.bl fresh ∧ Holds x.bl m str ∧
      spare + 1 ≤ fresh.length + x.numblks
  | some (.nomem _ _) => 1 < x.numblks ∧ spare + 1 < x.numblks
  | some (.ok l) => ∃ es vs, Uniform x.bl l.m ∧ Uniform x.bl l.fresh ∧ l.toks = es.map Prod.snd ∧ es.map (comb l.m) = vs.map some ∧
      l.segs = segsOf 0 es ∧ (∀ v ∈ vs, ¬ Wrong v) ∧ (∀ t, (none, t) ∈ es → t.len ≤ x.maxk) ∧ es.length = x.keycnt ∧
      (pieces x.delim str = vs ∨ (Border x.bl x.delim str x.keycnt ∧ ∃ w, pieces x.delim str = vs ++ w)) ∧
      (l.segs ≠ [] → x.delim ∈ str ∧ 1 < x.numblks) ∧ spare + l.segs.length + 1 ≤ l.fresh.length + x.numblks

theorem vals_length {m : Mem} {es : List Ent} {vs : List (List Nat)} (h : es.map (comb m) = vs.map some) : es.length = vs.length := by
  have := congrArg List.length h
  simpa using this

/-- The loop ends when the tokens are all found. -/
theorem exit_ends {x : Cx} {str : List Nat} {spare : Nat} {l : L} {es : List Ent} {vs : List (List Nat)} {pend : List Nat} {o : Option Tok}
    (hsh : Shape x str) (h : Inv x str spare l es vs pend o) (hc : ¬ l.toks.length < x.keycnt) : Ends x str spare (some (.ok l)) := by
  have hlen : l.toks.length = es.length := by rw [h.toks]; simp
  have hes : es.length = x.keycnt := by have := h.cnt; omega
  have hpe : pend = [] := by
    apply Classical.byContradiction
    intro hne
    have := (h.pnd hne).2.1
    omega
  have ho : o = none := by
    cases o with
    | none => rfl
    | some t => exact absurd hpe h.oval.1
  have hvs := vals_length h.vals
  have hcut := h.cut
  have hbl := hsh.bl
  refine ⟨es, vs, h.uni, h.funi, h.toks, h.vals, by have := h.segs; rw [ho] at this; simpa using this, h.right, h.short, hes, ?_, ?_, by have := h.room; have := h.blk; omega⟩
  · right
    have hw := cut_ext hcut (str.drop (l.blk * x.bl + l.off))
    rw [List.take_append_drop] at hw
    refine ⟨?_, ⟨_, hw⟩⟩
    rcases hcut with ⟨h1, h2, _⟩ | ⟨a, h1, h2, _⟩ | ⟨h1, _⟩
    · rw [h2] at hvs
      have := hsh.cnt
      simp at hvs
      rw [hvs] at hes
      simp at hes; omega
    · have hal : a.length + 1 ≤ l.blk * x.bl + l.off := by
        have := congrArg List.length h1
        simp at this; omega
      have hlast : l.blk * x.bl + l.off ≤ str.length := by
        have h5 := h.len
        have h6 := h.blk
        have h7 := hsh.len
        by_cases hb : l.blk + 1 < x.numblks
        · have := hsh.inner hb
          rw [Nat.add_mul] at this
          have := h.off
          omega
        · have h8 : l.blk = x.numblks - 1 := by omega
          rw [if_neg hb] at h5
          rw [h8]; omega
      have hae : a.length + 1 = l.blk * x.bl + l.off := by
        have := congrArg List.length h1
        simp at this; omega
      refine ⟨a, str.drop (l.blk * x.bl + l.off), ?_, by rw [h2]; omega, ?_⟩
      · have : str = str.take (l.blk * x.bl + l.off) ++ str.drop (l.blk * x.bl + l.off) := (List.take_append_drop _ _).symm
        rw [h1] at this
        simpa using this
      · have hoff := h.off
        have hoff0 := h.off0
        rcases Nat.eq_zero_or_pos l.off with hz | hz
        · left
          have hb1 : l.blk ≠ 0 := by
            intro h0; rw [h0, hz] at hae; simp at hae
          obtain ⟨k, hk⟩ : ∃ k, l.blk = k + 1 := ⟨l.blk - 1, by omega⟩
          rw [hk, Nat.add_mul] at hae
          have : a.length = (x.bl - 1) + k * x.bl := by omega
          rw [this, Nat.add_mul_mod_self_right]
          exact Nat.mod_eq_of_lt (by omega)
        · right
          have hb1 : l.blk ≠ 0 := fun h0 => by have := hoff0 h0; omega
          have : a.length = l.blk * x.bl := by omega
          constructor
          · rw [this]; exact Nat.mul_mod_left _ _
          · intro h0
            rw [h0, List.length_nil] at this
            have h9 : 1 * x.bl ≤ l.blk * x.bl := Nat.mul_le_mul_right _ (by omega)
            omega
    · exact absurd hpe h1
  · intro hsg
    have hb1 : l.blk ≠ 0 := by
      intro h0
      have h00 := h.off0 h0
      rw [h0, h00] at hcut
      rcases hcut with ⟨_, h2, _⟩ | ⟨a, h1, _, _⟩ | ⟨h1, _⟩
      · rw [h2] at hvs
        have := hsh.cnt
        simp at hvs
        rw [hvs] at hes
        simp at hes; omega
      · simp at h1
      · exact absurd hpe h1
    refine ⟨?_, by have := h.blk; omega⟩
    rcases h.deep with h | h
    · exact absurd h hb1
    · exact h

theorem rd_sub {m : Mem} {b o l : Nat} {xs : List Nat} (h : rd m b o l = some xs) {i j : Nat} (hij : i + j ≤ xs.length) :
    rd m b (o + i) j = some ((xs.drop i).take j) := by
  have hl := rd_len h
  unfold rd at h ⊢
  split at h
  · cases h
  · rename_i body hb
    split at h
    · cases h
      rw [if_pos (by omega)]
      congr 1
      rw [List.drop_take, List.take_take, List.drop_drop]
      congr 1; omega
    · cases h

theorem byte_holds {bl : Nat} {m : Mem} {str : List Nat} (h : Holds bl m str) {k off : Nat} (h1 : off < bl) (h2 : k * bl + off < str.length) :
    byte m k off = some (str[k * bl + off]'h2) := by
  unfold byte
  rw [h k off 1 (by omega) (by omega) (by omega)]
  simp only [Option.bind_some, List.getElem?_take, List.getElem?_drop]
  simp [List.getElem?_eq_getElem h2]

theorem att_last (o : Option Tok) {ts : List Tok} (h : 2 ≤ ts.length) : ∃ e0 t, att o ts = e0 ++ [(none, t)] := by
  match ts, h with
  | t0 :: t1 :: ts, _ =>
    have hne : (t1 :: ts) ≠ [] := by simp
    refine ⟨(o, t0) :: (t1 :: ts).dropLast.map (fun t => (none, t)), (t1 :: ts).getLast hne, ?_⟩
    have := List.dropLast_concat_getLast hne
    simp only [att]
    conv => lhs; rw [← this]
    simp

/-- The keys known after one more part. -/
theorem grown {x : Cx} {str : List Nat} {spare : Nat} {l : L} {es : List Ent} {vs : List (List Nat)} {pend : List Nat} {o : Option Tok}
    (h : Inv x str spare l es vs pend o) {xs : List Nat} (hrd : rd l.m l.blk l.off xs.length = some xs) {ps : List (Nat × Nat)}
    (hs : scan x.delim (x.keycnt - l.toks.length) 0 0 xs = some ps) (hl : ps.any (fun p => decide (x.maxk < p.2)) = false) :
    let ts : List Tok := ps.map fun p => ⟨l.blk, l.off + p.1, p.2⟩
    let es' := es ++ att o ts
    let vs' := vs ++ pieces x.delim (pend ++ xs)
    es'.map (comb l.m) = vs'.map some ∧ segsOf 0 es' = l.segs ∧ l.toks ++ ts = es'.map Prod.snd ∧ (∀ v ∈ vs', ¬ Wrong v) ∧
      (∀ t, (none, t) ∈ es' → t.len ≤ x.maxk) ∧ es'.length ≤ x.keycnt ∧
      pieces x.delim (str.take (l.blk * x.bl + l.off) ++ xs) = vs' ∧ ts.length = (pieces x.delim xs).length ∧
      (∀ p ∈ pieces x.delim xs, p.length ≤ x.maxk) := by
  intro ts es' vs'
  obtain ⟨s1, s2, s3, s4⟩ := scan_some hs
  have hd := cut_no h.cut
  have hplen : ps.length = (pieces x.delim xs).length := by
    have := congrArg List.length s1
    simpa using this
  have htl : ts.length = (pieces x.delim xs).length := by simp [ts, hplen]
  have htne : ts ≠ [] := by
    intro h0
    have h1 : 0 < (pieces x.delim xs).length := List.length_pos_iff.mpr (pieces_ne _ _)
    rw [← htl, h0] at h1
    simp at h1
  have hrt : ts.map (rt l.m) = (pieces x.delim xs).map some := by
    rw [← s1]
    simp only [ts, List.map_map]
    apply List.map_congr_left
    intro q hq
    exact rd_sub hrd (s2 q hq)
  have hshort : ∀ t ∈ ts, t.len ≤ x.maxk := by
    intro t ht
    obtain ⟨p, hp, rfl⟩ := List.mem_map.mp ht
    have := List.any_eq_false.mp hl p hp
    simp at this
    exact this
  have hattlen : (att o ts).length = ts.length := by
    have := congrArg List.length (att_snd o ts)
    simpa using this
  have hlen : l.toks.length = es.length := by rw [h.toks]; simp
  have hcnt := h.cnt
  refine ⟨?_, ?_, ?_, ?_, ?_, ?_, cut_ext h.cut xs, htl, ?_⟩
  · simp only [es', vs', List.map_append, h.vals, att_comb h.oval hd hrt]
  · simp only [es']
    rw [segsOf_append, att_segs o ts htne, h.segs]
    cases o <;> simp
  · simp only [es', List.map_append, att_snd, h.toks]
  · intro v hv
    rcases List.mem_append.mp hv with hv | hv
    · exact h.right v hv
    · obtain ⟨p, q, hp⟩ := pieces_cons x.delim xs
      rw [pieces_prefix xs hd hp] at hv
      rw [hp] at s3
      rcases List.mem_cons.mp hv with hv | hv
      · subst hv
        have h1 := s3 p (by simp)
        intro hw
        apply h1
        rcases hw with hw | hw
        · left; exact (List.append_eq_nil_iff.mp hw).2
        · rcases List.mem_append.mp hw with hw | hw
          · exfalso
            have hne : pend ≠ [] := by intro h0; rw [h0] at hw; simp at hw
            exact (h.pnd hne).2.2.2.1 hw
          · right; exact hw
      · exact s3 v (by simp [hv])
  · intro t ht
    rcases List.mem_append.mp ht with ht | ht
    · exact h.short t ht
    · apply hshort
      have : Prod.snd ((none, t) : Ent) ∈ (att o ts).map Prod.snd := List.mem_map_of_mem ht
      rw [att_snd] at this
      exact this
  · simp only [es', List.length_append, hattlen, htl, ← hplen]
    omega
  · intro p hp
    have h1 : some p ∈ ts.map (rt l.m) := by rw [hrt]; exact List.mem_map_of_mem hp
    obtain ⟨t, ht, ht'⟩ := List.mem_map.mp h1
    rw [rd_len ht']
    exact hshort t ht

/-- A part longer than a key has a delimiter in it. -/
theorem two_pieces {d maxk : Nat} {xs : List Nat} (h : ∀ p ∈ pieces d xs, p.length ≤ maxk) (hl : maxk < xs.length) :
    2 ≤ (pieces d xs).length ∧ d ∈ xs := by
  have h1 : 2 ≤ (pieces d xs).length := by
    apply Classical.byContradiction
    intro hn
    obtain ⟨p, ps, hp⟩ := pieces_cons d xs
    have : ps = [] := by
      rw [hp, List.length_cons] at hn
      exact List.length_eq_zero_iff.mp (by omega)
    rw [this] at hp
    obtain ⟨h2, _⟩ := pieces_single hp
    have := h p (by rw [hp]; simp)
    rw [h2] at hl
    omega
  refine ⟨h1, ?_⟩
  apply Classical.byContradiction
  intro hd
  rw [pieces_self hd] at h1
  simp at h1

theorem loop_ends {x : Cx} {str : List Nat} {spare : Nat} (hsh : Shape x str) : ∀ (fuel : Nat) (l : L) (es : List Ent) (vs : List (List Nat))
    (pend : List Nat) (o : Option Tok), Inv x str spare l es vs pend o → x.numblks - l.blk < fuel → Ends x str spare (loop x fuel l) := by
  intro fuel
  induction fuel with
  | zero => intro l es vs pend o _ hf; omega
  | succ fuel ih =>
    intro l es vs pend o h hf
    unfold loop
    by_cases hc : l.toks.length < x.keycnt
    case neg => rw [if_neg hc]; exact exit_ends hsh h hc
    rw [if_pos hc]
    have hlen : l.toks.length = es.length := by rw [h.toks]; simp
    have hvs := vals_length h.vals
    have hbl := hsh.bl
    have hblk := h.blk
    have hd := cut_no h.cut
    have hwhole : pieces x.delim str = vs ++ pieces x.delim (pend ++ str.drop (l.blk * x.bl + l.off)) := by
      have := cut_ext h.cut (str.drop (l.blk * x.bl + l.off))
      rwa [List.take_append_drop] at this
    have hhead : ∀ xs w, str.drop (l.blk * x.bl + l.off) = xs ++ w → xs ≠ [] → pend ≠ [] → xs.head? ≠ some x.delim := by
      intro xs w hx hne hp
      obtain ⟨h1, _, h2, _⟩ := h.pnd hp
      rw [h1, Nat.add_zero] at hx
      rw [hx] at h2
      cases xs with
      | nil => exact absurd rfl hne
      | cons a as => simpa using h2
    by_cases hlast : l.blk + 1 < x.numblks
    · -- not the last block
      have hin := hsh.inner hlast
      rw [Nat.add_mul] at hin
      have hll : l.off + l.len = x.bl := by have := h.len; rw [if_pos hlast] at this; exact this
      have hoff := h.off
      rw [if_pos hlast]
      have hbpos : l.blk * x.bl + (x.bl - 1) < str.length := by omega
      rw [hll, byte_holds h.holds (by omega) hbpos]
      simp only [Option.map_some]
      have hnl : ¬ x.numblks ≤ l.blk + 1 := by omega
      -- the parts of the string
      have hwhole_blk : ∀ n, 0 < n → n ≤ l.len → rd l.m l.blk l.off n = some ((str.drop (l.blk * x.bl + l.off)).take n) ∧
          ((str.drop (l.blk * x.bl + l.off)).take n).length = n := by
        intro n hn0 hn
        have h1 := h.holds l.blk l.off n hn0 (by omega) (by omega)
        exact ⟨h1, rd_len h1⟩
      have hnext : x.numblks - (l.blk + 1) < fuel := by omega
      have hnextlen : ∀ o', o' ≤ 1 → o' + ((if l.blk + 2 < x.numblks then x.bl else x.lastlen) - o') =
          if l.blk + 1 + 1 < x.numblks then x.bl else x.lastlen := by
        intro o' ho'
        have := hsh.last0
        have e : l.blk + 1 + 1 = l.blk + 2 := by omega
        rw [e]
        split <;> omega
      by_cases hcut : str[l.blk * x.bl + (x.bl - 1)] = x.delim
      · -- the block ends with a delimiter
        simp only [hcut, decide_true, if_true]
        have hn0 : ¬ l.len - 1 = 0 := by omega
        rw [if_neg hn0]
        obtain ⟨hr, hrl⟩ := hwhole_blk (l.len - 1) (by omega) (by omega)
        rw [hr]
        simp only []
        have hsplit : str.drop (l.blk * x.bl + l.off) =
            (str.drop (l.blk * x.bl + l.off)).take (l.len - 1) ++ x.delim :: str.drop ((l.blk + 1) * x.bl) := by
          conv => lhs; rw [← List.take_append_drop (l.len - 1) (str.drop (l.blk * x.bl + l.off))]
          rw [List.drop_drop]
          have e : l.blk * x.bl + l.off + (l.len - 1) = l.blk * x.bl + (x.bl - 1) := by omega
          rw [e, List.drop_eq_getElem_cons hbpos, hcut]
          congr 3
          rw [Nat.add_mul]; omega
        generalize hxs : (str.drop (l.blk * x.bl + l.off)).take (l.len - 1) = xs at *
        have hxne : xs ≠ [] := by intro h0; rw [h0] at hrl; simp at hrl; omega
        rw [← hrl] at hr
        cases hsc : scan x.delim (x.keycnt - l.toks.length) 0 0 xs with
        | none =>
          exact ⟨part_none hwhole hsplit hd (hhead _ _ hsplit hxne) hxne (Or.inr (Or.inl ⟨_, rfl⟩))
            (by rw [← hvs, ← hlen]; exact hsc), h.uni, h.funi, h.holds, by have := h.room; omega⟩
        | some ps =>
          simp only []
          by_cases hany : ps.any (fun p => decide (x.maxk < p.2)) = true
          · rw [if_pos hany]
            obtain ⟨p, hp, hp'⟩ := List.any_eq_true.mp hany
            obtain ⟨s1, s2, _, _⟩ := scan_some hsc
            have hm : (xs.drop p.1).take p.2 ∈ pieces x.delim xs := by
              rw [← s1]; exact List.mem_map_of_mem (f := fun q : Nat × Nat => (xs.drop q.1).take q.2) hp
            have hp2 := s2 p hp
            refine ⟨part_long hwhole hsplit hd hm ?_, h.uni, h.funi, h.holds, by have := h.room; omega⟩
            simp at hp' ⊢
            omega
          · rw [if_neg hany, if_neg hnl]
            obtain ⟨g1, g2, g3, g4, g5, g6, g7, g8, g9⟩ := grown h hr hsc (by simpa using hany)
            refine ih _ _ _ [] none ⟨h.uni, h.funi, h.holds, g3, g1, ?_, rfl, fun h0 => absurd rfl h0, g4, g5, hlast, ?_, Nat.zero_le _,
              fun _ => rfl, ?_, g6, ?_, by have := h.room; simp only []; omega⟩ hnext
            · simp only [List.append_nil]; exact g2.symm
            · exact hnextlen 0 (by omega)
            · right; left
              refine ⟨_, ?_, g7, rfl⟩
              have e1 : str = str.take (l.blk * x.bl + l.off) ++ (xs ++ x.delim :: str.drop ((l.blk + 1) * x.bl)) := by
                rw [← hsplit]; exact (List.take_append_drop _ _).symm
              have e2 : str = ((str.take (l.blk * x.bl + l.off) ++ xs) ++ [x.delim]) ++ str.drop ((l.blk + 1) * x.bl) := by
                simpa using e1
              have e3 : ((str.take (l.blk * x.bl + l.off) ++ xs) ++ [x.delim]).length = (l.blk + 1) * x.bl := by
                simp only [List.length_append, List.length_take, hrl, List.length_singleton]
                rw [Nat.add_mul]; omega
              simp only [Nat.add_zero]
              conv => lhs; rw [e2]
              exact List.take_left' e3
            · right
              rw [← hcut]; exact List.getElem_mem _
      · -- the block does not end with a delimiter
        simp only [hcut, decide_false, Bool.false_eq_true, if_false]
        have hn0 : ¬ l.len = 0 := by omega
        rw [if_neg hn0]
        obtain ⟨hr, hrl⟩ := hwhole_blk l.len (by omega) (Nat.le_refl _)
        rw [hr]
        simp only []
        have hnpos : (l.blk + 1) * x.bl < str.length := by rw [Nat.add_mul]; omega
        have hsplit : str.drop (l.blk * x.bl + l.off) =
            (str.drop (l.blk * x.bl + l.off)).take l.len ++ str.drop ((l.blk + 1) * x.bl) := by
          conv => lhs; rw [← List.take_append_drop l.len (str.drop (l.blk * x.bl + l.off))]
          rw [List.drop_drop]
          congr 2
          rw [Nat.add_mul]; omega
        have hxlast : ((str.drop (l.blk * x.bl + l.off)).take l.len).getLast? ≠ some x.delim := by
          rw [List.getLast?_eq_getElem?, hrl, List.getElem?_take, List.getElem?_drop]
          have e : l.blk * x.bl + l.off + (l.len - 1) = l.blk * x.bl + (x.bl - 1) := by omega
          rw [if_pos (by omega), e, List.getElem?_eq_getElem hbpos]
          simpa using hcut
        generalize hxs : (str.drop (l.blk * x.bl + l.off)).take l.len = xs at *
        have hxne : xs ≠ [] := by intro h0; rw [h0] at hrl; simp at hrl; omega
        rw [← hrl] at hr
        cases hsc : scan x.delim (x.keycnt - l.toks.length) 0 0 xs with
        | none =>
          exact ⟨part_none hwhole hsplit hd (hhead _ _ hsplit hxne) hxne (Or.inr (Or.inr hxlast))
            (by rw [← hvs, ← hlen]; exact hsc), h.uni, h.funi, h.holds, by have := h.room; omega⟩
        | some ps =>
          simp only []
          by_cases hany : ps.any (fun p => decide (x.maxk < p.2)) = true
          · rw [if_pos hany]
            obtain ⟨p, hp, hp'⟩ := List.any_eq_true.mp hany
            obtain ⟨s1, s2, _, _⟩ := scan_some hsc
            have hm : (xs.drop p.1).take p.2 ∈ pieces x.delim xs := by
              rw [← s1]; exact List.mem_map_of_mem (f := fun q : Nat × Nat => (xs.drop q.1).take q.2) hp
            have hp2 := s2 p hp
            refine ⟨part_long hwhole hsplit hd hm ?_, h.uni, h.funi, h.holds, by have := h.room; omega⟩
            simp at hp' ⊢
            omega
          · rw [if_neg hany, if_neg hnl]
            obtain ⟨g1, g2, g3, g4, g5, g6, g7, g8, g9⟩ := grown h hr hsc (by simpa using hany)
            obtain ⟨t1, t2⟩ := two_pieces g9 (by omega)
            have hdeep : x.delim ∈ str := by
              have : x.delim ∈ str.drop (l.blk * x.bl + l.off) := by rw [hsplit]; exact List.mem_append_left _ t2
              exact List.mem_of_mem_drop this
            have hby := byte_holds h.holds (k := l.blk + 1) (off := 0) (by omega) (by omega)
            rw [hby]
            simp only [Nat.add_zero]
            have e1 : str = (str.take (l.blk * x.bl + l.off) ++ xs) ++ str.drop ((l.blk + 1) * x.bl) := by
              rw [List.append_assoc, ← hsplit]; exact (List.take_append_drop _ _).symm
            have e3 : (str.take (l.blk * x.bl + l.off) ++ xs).length = (l.blk + 1) * x.bl := by
              simp only [List.length_append, List.length_take, hrl]
              rw [Nat.add_mul]; omega
            by_cases hnd : str[(l.blk + 1) * x.bl] = x.delim
            · -- the next block begins with a delimiter
              rw [if_pos hnd]
              refine ih _ _ _ [] none ⟨h.uni, h.funi, h.holds, g3, g1, ?_, rfl, fun h0 => absurd rfl h0, g4, g5, hlast, ?_, Nat.le_refl _,
                fun h0 => absurd h0 (by simp), ?_, g6, Or.inr hdeep, by have := h.room; simp only []; omega⟩ hnext
              · simp only [List.append_nil]; exact g2.symm
              · exact hnextlen 1 (Nat.le_refl _)
              · right; left
                refine ⟨_, ?_, g7, rfl⟩
                simp only []
                rw [List.take_add_one, List.getElem?_eq_getElem hnpos, hnd]
                congr 1
                conv => lhs; rw [e1]
                exact List.take_left' e3
            · -- the key goes on in the next block
              rw [if_neg hnd]
              generalize hts : (ps.map fun p => (⟨l.blk, l.off + p.1, p.2⟩ : Tok)) = ts at *
              obtain ⟨e0, t0, hatt⟩ := att_last o (ts := ts) (by omega)
              -- after making room among the segments
              have hroom : (∃ m2 fresh2 toks2 e2 t, (if 128 ≤ l.segs.length then concat x.bl x.maxk l.m l.fresh (l.toks ++ ts) l.segs
                    else some (.ok l.m l.fresh (l.toks ++ ts))) = some (.ok m2 fresh2 toks2) ∧ Uniform x.bl m2 ∧ Uniform x.bl fresh2 ∧
                  Holds x.bl m2 str ∧ toks2 = (e2 ++ [(none, t)]).map Prod.snd ∧
                  (e2 ++ [(none, t)]).map (comb m2) = (vs ++ pieces x.delim (pend ++ xs)).map some ∧
                  (if 128 ≤ l.segs.length then [] else l.segs) = segsOf 0 e2 ∧
                  spare + (segsOf 0 e2).length ≤ fresh2.length + l.blk ∧ (∀ t', (none, t') ∈ e2 ++ [(none, t)] → t'.len ≤ x.maxk)) ∨
                  ((if 128 ≤ l.segs.length then concat x.bl x.maxk l.m l.fresh (l.toks ++ ts) l.segs
                    else some (.ok l.m l.fresh (l.toks ++ ts))) = some .nomem ∧ spare < l.blk) ∨
                  ((if 128 ≤ l.segs.length then concat x.bl x.maxk l.m l.fresh (l.toks ++ ts) l.segs
                    else some (.ok l.m l.fresh (l.toks ++ ts))) = some .bad ∧ ¬ Valid x.delim str x.keycnt x.maxk) := by
                by_cases hfull : 128 ≤ l.segs.length
                · simp only [if_pos hfull]
                  have hroom := h.room
                  rw [g3, ← g2]
                  rw [← g2] at hroom hfull
                  rcases concat_spec (by omega : x.maxk < x.bl) h.uni h.funi g1 (by intro h0; rw [h0] at hfull; simp at hfull)
                    with ⟨c1, s, t, c2, c3⟩ | ⟨c1, c2⟩ |
                    ⟨m', fresh', ts', c1, c2, c3, c4, c5, c6, c7⟩
                  · right; right
                    refine ⟨c1, ?_⟩
                    intro hval
                    -- the long key is whole
                    have hmem : (some s, t) ∈ es ++ e0 := by
                      rw [hatt, ← List.append_assoc] at c2
                      rcases List.mem_append.mp c2 with c2 | c2
                      · exact c2
                      · simp at c2
                    have hvl : ∃ v, comb l.m (some s, t) = some v ∧ v ∈ pieces x.delim str := by
                      have hq : vs ++ pieces x.delim (pend ++ xs) ≠ [] := by
                        intro h0
                        exact pieces_ne _ _ (List.append_eq_nil_iff.mp h0).2
                      rcases List.eq_nil_or_concat (vs ++ pieces x.delim (pend ++ xs)) with h0 | ⟨w0, q, hw0⟩
                      · exact absurd h0 hq
                      · rw [List.concat_eq_append] at hw0
                        rw [hw0, hatt, ← List.append_assoc] at g1
                        simp only [List.map_append] at g1
                        have g1' := (List.append_inj' g1 (by simp)).1
                        have hx1 : comb l.m (some s, t) ∈ (es ++ e0).map (comb l.m) := List.mem_map_of_mem hmem
                        rw [List.map_append, g1'] at hx1
                        obtain ⟨v, hv1, hv2⟩ := List.mem_map.mp hx1
                        refine ⟨v, hv2.symm, ?_⟩
                        have hps := pieces_suffix (d := x.delim) (a := str.take (l.blk * x.bl + l.off) ++ xs)
                          (str.drop ((l.blk + 1) * x.bl)) (g7.trans hw0)
                        rw [← e1] at hps
                        rw [hps]
                        exact List.mem_append_left _ hv1
                    obtain ⟨v, hv1, hv2⟩ := hvl
                    obtain ⟨_, _, _, _, _, hv3⟩ := comb_some hv1
                    have := (hval.each v hv2).2.1
                    omega
                  · right; left; exact ⟨c1, by omega⟩
                  · left
                    have hne : ts' ≠ [] := by
                      intro h0
                      rw [h0] at c5
                      have : (vs ++ pieces x.delim (pend ++ xs)) = [] := by
                        apply List.length_eq_zero_iff.mp
                        have := congrArg List.length c5
                        simpa using this.symm
                      exact pieces_ne _ _ (List.append_eq_nil_iff.mp this).2
                    rcases List.eq_nil_or_concat ts' with h0 | ⟨tq, t, htq⟩
                    · exact absurd h0 hne
                    · rw [List.concat_eq_append] at htq
                      refine ⟨m', fresh', ts', tq.map (fun t => (none, t)), t, c1, c2, c3, holds_mono h.holds c4, ?_, ?_, ?_, ?_, ?_⟩
                      · rw [htq]; simp [Function.comp_def]
                      · rw [← c5, htq]
                        simp [Function.comp_def, comb]
                      · rw [segsOf_none]
                      · rw [segsOf_none, List.length_nil]; omega
                      · -- lengths
                        intro t' ht'
                        have hm' : t' ∈ ts' := by
                          rw [htq]
                          rcases List.mem_append.mp ht' with h' | h'
                          · obtain ⟨t'', h1, h2⟩ := List.mem_map.mp h'
                            cases h2
                            exact List.mem_append_left _ h1
                          · simp at h'; simp [h']
                        have hx1 : rt m' t' ∈ ts'.map (rt m') := List.mem_map_of_mem hm'
                        rw [c5, ← g1] at hx1
                        obtain ⟨e, he1, he2⟩ := List.mem_map.mp hx1
                        obtain ⟨s, te⟩ := e
                        cases s with
                        | none =>
                          have he3 : rt l.m te = rt m' t' := he2
                          have hsome : ∃ v, rt m' t' = some v := by
                            have : rt m' t' ∈ ts'.map (rt m') := List.mem_map_of_mem hm'
                            rw [c5] at this
                            obtain ⟨v, _, hv⟩ := List.mem_map.mp this
                            exact ⟨v, hv.symm⟩
                          obtain ⟨v, hv⟩ := hsome
                          rw [← rd_len hv, rd_len (he3.trans hv)]
                          exact g5 te he1
                        | some s =>
                          have hsome : ∃ v, rt m' t' = some v := by
                            have : rt m' t' ∈ ts'.map (rt m') := List.mem_map_of_mem hm'
                            rw [c5] at this
                            obtain ⟨v, _, hv⟩ := List.mem_map.mp this
                            exact ⟨v, hv.symm⟩
                          obtain ⟨v, hv⟩ := hsome
                          obtain ⟨_, _, _, _, _, hv3⟩ := comb_some (he2.trans hv)
                          rw [← rd_len hv, hv3]
                          exact c6 s te he1
                · left
                  simp only [if_neg hfull]
                  refine ⟨l.m, l.fresh, l.toks ++ ts, es ++ e0, t0, rfl, h.uni, h.funi, h.holds, ?_, ?_, ?_, ?_, ?_⟩
                  · rw [g3, hatt, List.append_assoc]
                  · rw [← g1, hatt, List.append_assoc]
                  · rw [← g2, hatt, ← List.append_assoc, segsOf_append]
                    simp [segsOf]
                  · have hroom := h.room
                    rw [← g2, hatt, ← List.append_assoc, segsOf_append] at hroom
                    simpa [segsOf] using hroom
                  · intro t' ht'
                    apply g5
                    rw [hatt, ← List.append_assoc]; exact ht'
              rcases hroom with ⟨m2, fresh2, toks2, e2, t, r1, r2, r3, r4, r5, r6, r7, r7', r8⟩ | ⟨hnm, hsp⟩ | ⟨hbd, hnv⟩
              · rw [r1]
                simp only []
                have hgl : toks2.getLast? = some t := by rw [r5]; simp
                rw [hgl]
                simp only []
                rcases List.eq_nil_or_concat (vs ++ pieces x.delim (pend ++ xs)) with h0 | ⟨w0, q, hw0⟩
                · exact absurd (List.append_eq_nil_iff.mp h0).2 (pieces_ne _ _)
                · rw [List.concat_eq_append] at hw0
                  have hq := g4 q (by rw [hw0]; simp)
                  have hqne : q ≠ [] := fun h0 => hq (Or.inl h0)
                  rw [hw0, List.map_append, List.map_append] at r6
                  obtain ⟨r6a, r6b⟩ := List.append_inj' r6 (by simp)
                  have hqt : rt m2 t = some q := by simpa [comb] using r6b
                  have hlen2 : e2.length + 1 = (es ++ att o ts).length := by
                    have h1 := vals_length r6a
                    have h2 := congrArg List.length g1
                    have h3 := congrArg List.length hw0
                    simp only [List.length_map] at h2
                    rw [h2, h3, h1]; simp
                  refine ih _ e2 w0 q (some t) ⟨r2, r3, r4, ?_, r6a, ?_, ⟨hqne, hqt⟩, ?_, ?_, ?_, hlast, ?_, Nat.zero_le _, fun _ => rfl, ?_, ?_,
                    Or.inr hdeep, ?_⟩ hnext
                  · simp only []
                    rw [r5]; simp
                  · simp only []
                    rw [r7, r5]; simp
                  · intro _
                    refine ⟨rfl, by omega, ?_, fun h0 => hq (Or.inr h0), by simp⟩
                    simp only []
                    rw [List.drop_eq_getElem_cons hnpos]
                    exact fun h0 => hnd (Option.some.inj h0)
                  · intro v hv
                    exact g4 v (by rw [hw0]; exact List.mem_append_left _ hv)
                  · intro t' ht'
                    exact r8 t' (List.mem_append_left _ ht')
                  · exact hnextlen 0 (by omega)
                  · right; right
                    refine ⟨hqne, ?_⟩
                    simp only [Nat.add_zero]
                    have : str.take ((l.blk + 1) * x.bl) = str.take (l.blk * x.bl + l.off) ++ xs := by
                      conv => lhs; rw [e1]
                      exact List.take_left' e3
                    rw [this, g7, hw0]
                  · omega
                  · simp only [List.length_append, List.length_singleton]
                    rw [r7]; omega
              · rw [hnm]
                exact (⟨by omega, by omega⟩ : 1 < x.numblks ∧ spare + 1 < x.numblks)
              · rw [hbd]
                exact ⟨hnv, h.uni, h.funi, h.holds, by have := h.room; omega⟩
    · -- the last block
      rw [if_neg hlast]
      simp only [Bool.false_eq_true, if_false]
      have hb : l.blk = x.numblks - 1 := by omega
      have hll : l.off + l.len = x.lastlen := by have := h.len; rw [if_neg hlast] at this; exact this
      have hstr := hsh.len
      have hlo := hsh.last
      rw [← hb] at hstr
      by_cases hz : l.len = 0
      · rw [if_pos hz]
        -- nothing but a delimiter
        have hoff := h.off
        have hl0 := hsh.last0
        have ho1 : l.off = 1 := by omega
        have hpe : pend = [] := by
          apply Classical.byContradiction
          intro hne
          have := (h.pnd hne).1
          omega
        have hall : str.take (l.blk * x.bl + l.off) = str := List.take_of_length_le (by omega)
        have hcut := h.cut
        rw [hall] at hcut
        have hb1 : l.blk ≠ 0 := fun h0 => by have := h.off0 h0; omega
        have h9 : 1 * x.bl ≤ l.blk * x.bl := Nat.mul_le_mul_right _ (by omega)
        rcases hcut with ⟨h1, _, _⟩ | ⟨a, h1, _, _⟩ | ⟨h1, _⟩
        · rw [h1, List.length_nil] at hstr; omega
        · have hal : a.length = l.blk * x.bl := by
            have := congrArg List.length h1
            simp at this; omega
          refine ⟨a, h1, ?_, ?_⟩
          · intro h0; rw [h0, List.length_nil] at hal; omega
          · rw [hal]; exact Nat.mul_mod_left _ _
        · exact absurd hpe h1
      · rw [if_neg hz]
        have hr := h.holds l.blk l.off l.len (by omega) (by omega) (by omega)
        have hall : (str.drop (l.blk * x.bl + l.off)).take l.len = str.drop (l.blk * x.bl + l.off) :=
          List.take_of_length_le (by simp; omega)
        rw [hr]
        simp only []
        have hrl := rd_len hr
        rw [hall] at hr hrl ⊢
        have hsplit : str.drop (l.blk * x.bl + l.off) = str.drop (l.blk * x.bl + l.off) ++ [] := by simp
        have e1 : str = str.take (l.blk * x.bl + l.off) ++ str.drop (l.blk * x.bl + l.off) := (List.take_append_drop _ _).symm
        generalize hxs : str.drop (l.blk * x.bl + l.off) = xs at *
        have hxne : xs ≠ [] := by intro h0; rw [h0] at hrl; simp at hrl; omega
        rw [← hrl] at hr
        cases hsc : scan x.delim (x.keycnt - l.toks.length) 0 0 xs with
        | none =>
          exact ⟨part_none hwhole hsplit hd (hhead _ _ hsplit hxne) hxne (Or.inl rfl)
            (by rw [← hvs, ← hlen]; exact hsc), h.uni, h.funi, h.holds, by have := h.room; omega⟩
        | some ps =>
          simp only []
          by_cases hany : ps.any (fun p => decide (x.maxk < p.2)) = true
          · rw [if_pos hany]
            obtain ⟨p, hp, hp'⟩ := List.any_eq_true.mp hany
            obtain ⟨s1, s2, _, _⟩ := scan_some hsc
            have hm : (xs.drop p.1).take p.2 ∈ pieces x.delim xs := by
              rw [← s1]; exact List.mem_map_of_mem (f := fun q : Nat × Nat => (xs.drop q.1).take q.2) hp
            have hp2 := s2 p hp
            refine ⟨part_long hwhole hsplit hd hm ?_, h.uni, h.funi, h.holds, by have := h.room; omega⟩
            simp at hp' ⊢
            omega
          · rw [if_neg hany, if_pos (by omega : x.numblks ≤ l.blk + 1)]
            obtain ⟨g1, g2, g3, g4, g5, g6, g7, g8, g9⟩ := grown h hr hsc (by simpa using hany)
            generalize hts : (ps.map fun p => (⟨l.blk, l.off + p.1, p.2⟩ : Tok)) = ts at *
            rw [← e1] at g7
            have hl1 : (l.toks ++ ts).length = (pieces x.delim str).length := by
              rw [g3, g7]
              have := congrArg List.length g1
              simpa using this
            by_cases hk : (l.toks ++ ts).length = x.keycnt
            · rw [if_pos hk]
              refine ⟨es ++ att o ts, vs ++ pieces x.delim (pend ++ xs), h.uni, h.funi, g3, g1, g2.symm, g4, g5, ?_, Or.inl g7, ?_, by have := h.room; simp only []; omega⟩
              · rw [← hk, g3]; simp
              · intro hsg
                have hb1 : l.blk ≠ 0 := by
                  intro h0
                  have hcut := h.cut
                  rw [h0, h.off0 h0] at hcut
                  apply hsg
                  show l.segs = []
                  rw [h.segs]
                  have hpe : pend = [] := by
                    apply Classical.byContradiction
                    intro hne
                    have := (h.pnd hne).2.2.2.2
                    omega
                  have ho : o = none := by
                    cases o with
                    | none => rfl
                    | some t => exact absurd hpe h.oval.1
                  rcases hcut with ⟨_, h2, _⟩ | ⟨a, h1, _, _⟩ | ⟨h1, _⟩
                  · rw [h2] at hvs
                    simp at hvs
                    rw [hvs, ho]
                    rfl
                  · simp at h1
                  · exact absurd hpe h1
                refine ⟨?_, by omega⟩
                rcases h.deep with hh | hh
                · exact absurd hh hb1
                · exact hh
            · rw [if_neg hk]
              refine ⟨fun hval => hk (hl1.trans hval.count), h.uni, h.funi, h.holds, by have := h.room; omega⟩

end Verif.Keys
