import Verif.Lemmas.KeyLoop

/-!
# From packets to tokens
-/
namespace Verif.Keys
open Spec

theorem holds_left {bl : Nat} {m : Mem} {a b : List Nat} (h : Holds bl m (a ++ b)) : Holds bl m a := by
  intro k off len h0 h1 h2
  rw [h k off len h0 h1 (by simp; omega)]
  congr 1
  rw [List.drop_append_of_le_length (by omega), List.take_append_of_le_length (by simp; omega)]

/-- Writing on behind what is there. -/
theorem holds_wr {bl : Nat} {m m' : Mem} {got xs : List Nat} {blk off : Nat} (h : Holds bl m got) (hg : got.length = blk * bl + off)
    (hx : off + xs.length ≤ bl) (hw : wr m blk off xs = some m') : Holds bl m' (got ++ xs) := by
  obtain ⟨_, _, w3, w4, w5⟩ := wr_spec hw
  intro k o l h0 h1 h2
  simp only [List.length_append, hg] at h2
  by_cases hk : k < blk
  · have h3 : (k + 1) * bl ≤ blk * bl := Nat.mul_le_mul_right _ hk
    rw [Nat.add_mul] at h3
    rw [w3 _ _ _ (by omega), h k o l h0 h1 (by omega)]
    congr 1
    rw [List.drop_append_of_le_length (by omega), List.take_append_of_le_length (by simp; omega)]
  · by_cases hk2 : k = blk
    · subst hk2
      have hall : rd m' k 0 (off + xs.length) = some ((got ++ xs).drop (k * bl)) := by
        have hd : (got ++ xs).drop (k * bl) = got.drop (k * bl) ++ xs := List.drop_append_of_le_length (by omega)
        rw [hd]
        by_cases ho : off = 0
        · have : got.drop (k * bl) = [] := List.drop_eq_nil_of_le (by omega)
          rw [this, ho]
          rw [ho] at w5
          simpa using w5
        · apply rd_split
          · rw [w4 _ _ (by omega), h k 0 off (by omega) (by omega) (by omega)]
            congr 1
            exact List.take_of_length_le (by simp; omega)
          · simpa using w5
      have hl := rd_len hall
      have := rd_sub hall (i := o) (j := l) (by rw [hl]; omega)
      rw [Nat.zero_add] at this
      rw [this, List.drop_drop]
    · exfalso
      have h3 : (blk + 1) * bl ≤ k * bl := Nat.mul_le_mul_right _ (by omega)
      rw [Nat.add_mul] at h3
      omega

/-- The state of reading. -/
structure RInv (bl vlen : Nat) (m : Mem) (r : Rd) (got : List Nat) : Prop where
  uni : Uniform bl m
  len : m.length = (vlen - 1) / bl + 1
  holds : Holds bl m got
  pos : got.length = r.blk * bl + r.off
  total : r.total + got.length = vlen
  rl : r.off + r.rl = if vlen - r.blk * bl < bl then vlen - r.blk * bl else bl
  blk : r.blk * bl < vlen
  done : r.rl = 0 → r.total = 0

theorem feed_spec {bl vlen : Nat} (hbl : 0 < bl) : ∀ (fuel : Nat) (m : Mem) (r : Rd) (data got : List Nat), RInv bl vlen m r got →
    data.length < fuel → ∃ m' r', feed bl fuel m r data = some (m', r', data.drop (vlen - got.length)) ∧
      RInv bl vlen m' r' (got ++ data.take (vlen - got.length)) := by
  intro fuel
  induction fuel with
  | zero => intro m r data got _ h; omega
  | succ fuel ih =>
    intro m r data got h hf
    unfold feed
    have htot := h.total
    by_cases hc : r.rl = 0 ∨ data = []
    · rw [if_pos hc]
      rcases hc with hc | hc
      · have h0 := h.done hc
        have e : vlen - got.length = 0 := by omega
        exact ⟨m, r, by simp [e], by simpa [e] using h⟩
      · exact ⟨m, r, by simp [hc], by simpa [hc] using h⟩
    · rw [if_neg hc]
      have hrl : r.rl ≠ 0 := fun h0 => hc (Or.inl h0)
      have hdata : data ≠ [] := fun h0 => hc (Or.inr h0)
      have hdl : 0 < data.length := List.length_pos_iff.mpr hdata
      simp only []
      have hpos := h.pos
      have hr := h.rl
      have hblk := h.blk
      -- the room in this block and the bytes still missing
      have hle : r.off + r.rl ≤ bl := by rw [hr]; split <;> omega
      have hle2 : r.rl ≤ r.total := by
        have : r.off + r.rl ≤ vlen - r.blk * bl := by rw [hr]; split <;> omega
        omega
      obtain ⟨n, hn⟩ : ∃ n, n = min data.length r.rl := ⟨_, rfl⟩
      rw [← hn]
      have hn0 : 0 < n := by omega
      have hnd : n ≤ data.length := by omega
      have hnr : n ≤ r.rl := by omega
      have htl : (data.take n).length = n := by simp; omega
      have hlt : r.blk < m.length := by
        rw [h.len]
        have : r.blk ≤ (vlen - 1) / bl := (Nat.le_div_iff_mul_le hbl).mpr (by omega)
        omega
      obtain ⟨m', hw⟩ := wr_some (xs := data.take n) (o := r.off) h.uni hlt (by omega)
      rw [hw]
      simp only []
      obtain ⟨w1, w2, _⟩ := wr_spec hw
      have hh := holds_wr h.holds hpos (by omega) hw
      have hdrop : (data.drop n).length < fuel := by simp; omega
      have e1 : (got ++ data.take n).length = got.length + n := by simp; omega
      have e2 : (data.drop n).drop (vlen - (got ++ data.take n).length) = data.drop (vlen - got.length) := by
        rw [List.drop_drop, e1]; congr 1; omega
      have e3 : (got ++ data.take n) ++ (data.drop n).take (vlen - (got ++ data.take n).length) = got ++ data.take (vlen - got.length) := by
        rw [List.append_assoc, e1]
        congr 1
        have : vlen - got.length = n + (vlen - (got.length + n)) := by omega
        rw [this, List.take_add]
      by_cases hnx : r.rl - n = 0 ∧ 0 < r.total - n
      · rw [if_pos hnx]
        -- the block is full
        have hfull : r.off + r.rl = bl := by
          rw [hr]
          split
          · rename_i hlt2
            exfalso
            rw [if_pos hlt2] at hr
            omega
          · rfl
        have hinv : RInv bl vlen m' ⟨r.blk + 1, 0, if r.total - n < bl then r.total - n else bl, r.total - n⟩ (got ++ data.take n) := by
          have hm : (r.blk + 1) * bl = r.blk * bl + bl := by rw [Nat.add_mul]; omega
          refine ⟨w2 bl h.uni, by rw [w1, h.len], hh, ?_, ?_, ?_, ?_, ?_⟩
          · rw [e1]; simp only []; omega
          · rw [e1]; simp only []; omega
          · simp only []
            have : vlen - (r.blk + 1) * bl = r.total - n := by omega
            rw [this]; simp
          · simp only []; omega
          · simp only []
            intro h0
            split at h0 <;> omega
        obtain ⟨m2, r2, i1, i2⟩ := ih m' _ (data.drop n) (got ++ data.take n) hinv hdrop
        rw [e2] at i1
        rw [e3] at i2
        exact ⟨m2, r2, i1, i2⟩
      · rw [if_neg hnx]
        have hinv : RInv bl vlen m' ⟨r.blk, r.off + n, r.rl - n, r.total - n⟩ (got ++ data.take n) := by
          refine ⟨w2 bl h.uni, by rw [w1, h.len], hh, ?_, ?_, ?_, hblk, ?_⟩
          · rw [e1]; simp only []; omega
          · rw [e1]; simp only []; omega
          · simp only []
            rw [← hr]; omega
          · simp only []
            intro h0
            omega
        obtain ⟨m2, r2, i1, i2⟩ := ih m' _ (data.drop n) (got ++ data.take n) hinv hdrop
        rw [e2] at i1
        rw [e3] at i2
        exact ⟨m2, r2, i1, i2⟩

theorem feedAll_spec {bl vlen : Nat} (hbl : 0 < bl) : ∀ (packets : List (List Nat)) (m : Mem) (r : Rd) (got : List Nat),
    RInv bl vlen m r got → ∃ m' r', feedAll bl m r packets = some (m', r') ∧ RInv bl vlen m' r' ((got ++ packets.flatten).take vlen) := by
  intro packets
  induction packets with
  | nil =>
    intro m r got h
    have hl := h.total
    refine ⟨m, r, rfl, ?_⟩
    rw [List.flatten_nil, List.append_nil, List.take_of_length_le (by omega)]
    exact h
  | cons d ds ih =>
    intro m r got h
    obtain ⟨m1, r1, h1, h2⟩ := feed_spec hbl (d.length + 1) m r d got h (by omega)
    unfold feedAll
    rw [h1]
    simp only []
    obtain ⟨m2, r2, h3, h4⟩ := ih m1 r1 _ h2
    refine ⟨m2, r2, h3, ?_⟩
    have hl := h.total
    have e : ((got ++ d.take (vlen - got.length)) ++ ds.flatten).take vlen = (got ++ (d :: ds).flatten).take vlen := by
      rw [List.flatten_cons]
      by_cases hc : d.length ≤ vlen - got.length
      · rw [List.take_of_length_le hc, List.append_assoc]
      · have hx : (got ++ d.take (vlen - got.length)).length = vlen := by
          rw [List.length_append, List.length_take]; omega
        rw [List.take_left' hx, List.take_append, List.take_of_length_le (l := got) (by omega), List.take_append_of_le_length (by omega)]
    rw [← e]
    exact h4

/-- The numbers of blocks and of bytes in the last block. -/
theorem shape_len {bl n : Nat} (hbl : 0 < bl) (hn : 0 < n) :
    n = ((n - 1) / bl + 1 - 1) * bl + (if 0 < n % bl then n % bl else bl) ∧ 0 < (if 0 < n % bl then n % bl else bl) ∧
      (if 0 < n % bl then n % bl else bl) ≤ bl := by
  have h1 := Nat.div_add_mod (n - 1) bl
  have h2 := Nat.mod_lt (n - 1) hbl
  generalize (n - 1) / bl = q at *
  generalize (n - 1) % bl = r at *
  have h3 : n = (r + 1) + q * bl := by rw [Nat.mul_comm q bl]; omega
  have h4 : n % bl = (r + 1) % bl := by rw [h3, Nat.add_mul_mod_self_right]
  rw [h4]
  by_cases hr : r + 1 = bl
  · rw [hr, Nat.mod_self]
    simp; omega
  · rw [Nat.mod_eq_of_lt (by omega), if_pos (by omega)]
    simp; omega

/-- One pass over a string. -/
theorem pass_ends {bl keycnt maxk : Nat} (hbl : maxk + 2 < bl) (hk : 0 < keycnt) {str : List Nat} (hs : 0 < str.length) (d : Nat) {m fresh : Mem}
    (hu : Uniform bl m) (hf : Uniform bl fresh) (hh : Holds bl m str) :
    Ends ⟨bl, (str.length - 1) / bl + 1, if 0 < str.length % bl then str.length % bl else bl, keycnt, maxk, d⟩ str fresh.length
      (pass bl str.length keycnt maxk d m fresh) := by
  obtain ⟨s1, s2, s3⟩ := shape_len (bl := bl) (by omega) hs
  unfold pass
  simp only []
  refine loop_ends ⟨s1, s2, s3, by simp, hbl, hk⟩ _ _ [] [] [] none
    ⟨hu, hf, hh, rfl, rfl, rfl, rfl, fun h => absurd rfl h, by simp, by simp, by simp, ?_, Nat.zero_le _, fun _ => rfl, ?_, Nat.zero_le _,
      Or.inl rfl, by simp⟩ (Nat.lt_succ_of_le (Nat.sub_le _ _))
  · simp only [Nat.zero_add]
  · left; simp

/-- How `tokenize_mblocks` may end after a pass. -/
def Fin (bl : Nat) (d : Nat) (str : List Nat) (keycnt maxk : Nat) (room : Nat) : Option (Mem × Out (List Tok)) → Prop
  | none => Lone bl d str
  | some (_, .bad) => ¬ Valid d str keycnt maxk
  | some (_, .nomem) => bl < str.length ∧ room < (str.length - 1) / bl
  | some (m, .ok toks) => ∃ vs, toks.map (rt m) = vs.map some ∧
      ((Valid d str keycnt maxk ∧ vs = pieces d str) ∨ (Border bl d str keycnt ∧ vs = (pieces d str).take keycnt))

theorem many_blocks {bl n : Nat} (hbl : 0 < bl) (h : 1 < (n - 1) / bl + 1) : bl < n := by
  have h1 : 1 ≤ (n - 1) / bl := by omega
  have := (Nat.le_div_iff_mul_le hbl).mp h1
  omega

theorem finish_ok {bl keycnt maxk : Nat} (hbl : maxk + 2 < bl) {str : List Nat} (d : Nat) {room : Nat} {l : L}
    (h : Ends ⟨bl, (str.length - 1) / bl + 1, if 0 < str.length % bl then str.length % bl else bl, keycnt, maxk, d⟩ str room (some (.ok l))) :
    Fin bl d str keycnt maxk room (finish bl maxk (.ok l)) ∧ ∀ m', finish bl maxk (.ok l) = some (m', .bad) → d ∈ str := by
  obtain ⟨es, vs, h1, h2, h3, h4, h5, h6, h7, h8, h9, h10, h11⟩ := h
  have hvs := vals_length h4
  simp only [] at *
  -- the keys, if none is too long
  have hres : (∀ v ∈ vs, v.length ≤ maxk) →
      (Valid d str keycnt maxk ∧ vs = pieces d str) ∨ (Border bl d str keycnt ∧ vs = (pieces d str).take keycnt) := by
    intro hall
    rcases h9 with h9 | ⟨hb, w, hw⟩
    · left
      refine ⟨⟨by rw [h9]; omega, ?_⟩, h9.symm⟩
      intro p hp
      rw [h9] at hp
      have := h6 p hp
      exact ⟨fun h0 => this (Or.inl h0), hall p hp, fun h0 => this (Or.inr h0)⟩
    · right
      refine ⟨hb, ?_⟩
      rw [hw, List.take_left' (by omega)]
  have hin : ∀ v ∈ vs, v ∈ pieces d str := by
    intro v hv
    rcases h9 with h9 | ⟨_, w, hw⟩
    · rw [h9]; exact hv
    · rw [hw]; exact List.mem_append_left _ hv
  simp only [finish]
  by_cases hsg : l.segs.length = 0
  · rw [if_pos hsg]
    have hs0 : segsOf 0 es = [] := by rw [← h5]; exact List.length_eq_zero_iff.mp hsg
    -- no key has two parts
    have hnone : ∀ (es : List Ent) (k : Nat), segsOf k es = [] → ∀ e ∈ es, e.1 = none := by
      intro es
      induction es with
      | nil => intro k _ e he; simp at he
      | cons e es ih =>
        intro k hk e' he'
        obtain ⟨s, t⟩ := e
        cases s with
        | none =>
          rcases List.mem_cons.mp he' with he' | he'
          · rw [he']
          · exact ih (k + 1) hk e' he'
        | some s => simp [segsOf] at hk
    have hn := hnone es 0 hs0
    have htk : l.toks.map (rt l.m) = vs.map some := by
      rw [h3, ← h4, List.map_map]
      apply List.map_congr_left
      intro e he
      obtain ⟨s, t⟩ := e
      have : s = none := hn _ he
      subst this
      rfl
    refine ⟨⟨vs, htk, hres ?_⟩, fun m' h => (by cases h)⟩
    intro v hv
    have : some v ∈ es.map (comb l.m) := by rw [h4]; exact List.mem_map_of_mem hv
    obtain ⟨e, he, hev⟩ := List.mem_map.mp this
    obtain ⟨s, t⟩ := e
    have hs : s = none := hn _ he
    subst hs
    have hev' : rt l.m t = some v := hev
    rw [rd_len hev']
    exact h7 t he
  · rw [if_neg hsg]
    have hsne : segsOf 0 es ≠ [] := by rw [← h5]; intro h0; rw [h0] at hsg; exact hsg rfl
    obtain ⟨hd, hnb⟩ := h10 (by rw [h5]; exact hsne)
    rw [h3, h5]
    rcases concat_spec (by omega : maxk < bl) h1 h2 h4 hsne with ⟨c1, s, t, c2, c3⟩ | ⟨c1, c2⟩ | ⟨m', fresh', ts, c1, c2, c3, c4, c5, c6, c7⟩
    · rw [c1]
      refine ⟨?_, fun _ _ => hd⟩
      intro hval
      have hx : comb l.m (some s, t) ∈ es.map (comb l.m) := List.mem_map_of_mem c2
      rw [h4] at hx
      obtain ⟨v, hv1, hv2⟩ := List.mem_map.mp hx
      obtain ⟨_, _, _, _, _, hl⟩ := comb_some hv2.symm
      have := (hval.each v (hin v hv1)).2.1
      omega
    · rw [c1]
      refine ⟨⟨many_blocks (by omega) hnb, ?_⟩, fun m' h => (by cases h)⟩
      rw [h5] at h11
      omega
    · rw [c1]
      refine ⟨⟨vs, c5, hres ?_⟩, fun m' h => (by cases h)⟩
      intro v hv
      have : some v ∈ es.map (comb l.m) := by rw [h4]; exact List.mem_map_of_mem hv
      obtain ⟨e, he, hev⟩ := List.mem_map.mp this
      obtain ⟨s, t⟩ := e
      cases s with
      | none =>
        have hev' : rt l.m t = some v := hev
        rw [rd_len hev']
        exact h7 t he
      | some s =>
        obtain ⟨_, _, _, _, _, hl⟩ := comb_some hev
        rw [hl]
        exact c6 s t he

/-- How `tokenize_mblocks` may end. -/
def Whole (bl : Nat) (compat : Bool) (str : List Nat) (keycnt maxk room : Nat) : Option (Mem × Out (List Tok)) → Prop
  | none => Lone bl 32 str ∨ (compat = true ∧ ¬ Valid 32 str keycnt maxk ∧ Lone bl 44 str)
  | some (_, .bad) => ¬ Valid 32 str keycnt maxk ∧ (compat = true → ¬ Valid 44 str keycnt maxk)
  | some (_, .nomem) => bl < str.length ∧ room < 2 * ((str.length - 1) / bl)
  | some (m, .ok toks) => ∃ vs, toks.map (rt m) = vs.map some ∧
      ((Valid 32 str keycnt maxk ∧ vs = pieces 32 str) ∨ (Border bl 32 str keycnt ∧ vs = (pieces 32 str).take keycnt) ∨
       (compat = true ∧ ¬ Valid 32 str keycnt maxk ∧
        ((Valid 44 str keycnt maxk ∧ vs = pieces 44 str) ∨ (Border bl 44 str keycnt ∧ vs = (pieces 44 str).take keycnt))))

theorem no_space {str : List Nat} {keycnt maxk : Nat} (h : Valid 44 str keycnt maxk) : 32 ∉ str := by
  intro h32
  obtain ⟨p, hp, hp'⟩ := pieces_mem (d := 44) h32 (by decide)
  exact (h.each p hp).2.2 hp'

theorem whole {bl keycnt maxk : Nat} (hbl : maxk + 2 < bl) (hk : 0 < keycnt) {str : List Nat} (hs : 0 < str.length) (compat : Bool)
    {m fresh : Mem} (hu : Uniform bl m) (hf : Uniform bl fresh) (hh : Holds bl m str) :
    Whole bl compat str keycnt maxk fresh.length (tokenizeMblocks bl str.length keycnt maxk compat m fresh) := by
  unfold tokenizeMblocks
  rw [if_pos ⟨hs, hk, hbl⟩]
  have hp := pass_ends hbl hk hs 32 hu hf hh
  cases h1 : pass bl str.length keycnt maxk 32 m fresh with
  | none =>
    rw [h1] at hp
    exact Or.inl hp
  | some r =>
    rw [h1] at hp
    cases r with
    | ok l =>
      simp only []
      obtain ⟨f1, f2⟩ := finish_ok hbl 32 hp
      cases h2 : finish bl maxk (.ok l) with
      | none => rw [h2] at f1; exact Or.inl f1
      | some q =>
        rw [h2] at f1
        obtain ⟨m', out⟩ := q
        cases out with
        | bad => exact ⟨f1, fun _ hv => no_space hv (f2 m' h2)⟩
        | nomem => exact ⟨f1.1, by have := f1.2; omega⟩
        | ok toks =>
          obtain ⟨vs, g1, g2⟩ := f1
          refine ⟨vs, g1, ?_⟩
          rcases g2 with g2 | g2
          · exact Or.inl g2
          · exact Or.inr (Or.inl g2)
    | nomem m' fresh' =>
      simp only [finish]
      refine ⟨many_blocks (by omega) hp.1, ?_⟩
      have := hp.2
      simp only [] at this
      omega
    | bad m' fresh' =>
      simp only []
      obtain ⟨b1, b2, b3, b4, b5⟩ := hp
      simp only [] at b1 b5
      cases compat with
      | false =>
        rw [if_neg (by simp)]
        exact ⟨b1, fun h => (by cases h)⟩
      | true =>
        rw [if_pos rfl]
        have hp2 := pass_ends hbl hk hs 44 b2 b3 b4
        cases h3 : pass bl str.length keycnt maxk 44 m' fresh' with
        | none =>
          rw [h3] at hp2
          exact Or.inr ⟨rfl, b1, hp2⟩
        | some r =>
          rw [h3] at hp2
          simp only []
          cases r with
          | bad m2 fresh2 => exact ⟨b1, fun _ => hp2.1⟩
          | nomem m2 fresh2 =>
            simp only [finish]
            refine ⟨many_blocks (by omega) hp2.1, ?_⟩
            have := hp2.2
            simp only [] at this
            omega
          | ok l =>
            obtain ⟨f1, f2⟩ := finish_ok hbl 44 hp2
            cases h2 : finish bl maxk (.ok l) with
            | none => rw [h2] at f1; exact Or.inr ⟨rfl, b1, f1⟩
            | some q =>
              rw [h2] at f1
              obtain ⟨m2, out⟩ := q
              cases out with
              | bad => exact ⟨b1, fun _ => f1⟩
              | nomem => exact ⟨f1.1, by have := f1.2; omega⟩
              | ok toks =>
                obtain ⟨vs, g1, g2⟩ := f1
                exact ⟨vs, g1, Or.inr (Or.inr ⟨rfl, b1, g2⟩)⟩

theorem checkTail_spec {bl : Nat} (hbl : 2 < bl) {m : Mem} {body : List Nat} (hl : 2 < body.length)
    (hm : m.length = (body.length - 1) / bl + 1) (hh : Holds bl m body) :
    checkTail bl body.length m = some (decide (body[body.length - 1]'(by omega) = 10 ∧ body[body.length - 2]'(by omega) = 13)) := by
  obtain ⟨s1, s2, s3⟩ := shape_len (bl := bl) (n := body.length) (by omega) (by omega)
  unfold checkTail
  simp only []
  rw [← hm] at s1
  generalize (if 0 < body.length % bl then body.length % bl else bl) = ll at *
  have p1 : (m.length - 1) * bl + (ll - 1) = body.length - 1 := by omega
  have hb1 := byte_holds hh (k := m.length - 1) (off := ll - 1) (by omega) (by omega)
  rw [hb1]
  simp only [p1]
  by_cases hc : body[body.length - 1] = 10
  · rw [if_neg (by simp [hc])]
    simp only [hc, true_and]
    by_cases h1 : ll - 1 = 0
    · simp only [h1, if_true]
      have hml : 2 ≤ m.length := by
        apply Classical.byContradiction
        intro h
        have : m.length - 1 = 0 := by omega
        rw [this] at s1
        omega
      have p2 : (m.length - 2) * bl + (bl - 1) = body.length - 2 := by
        obtain ⟨k, hk⟩ : ∃ k, m.length = k + 2 := ⟨m.length - 2, by omega⟩
        rw [hk] at s1 ⊢
        have e1 : k + 2 - 1 = k + 1 := by omega
        have e2 : k + 2 - 2 = k := by omega
        rw [e1, Nat.add_mul] at s1
        rw [e2]; omega
      have hb2 := byte_holds hh (k := m.length - 2) (off := bl - 1) (by omega) (by omega)
      rw [hb2]
      simp only [p2, Option.map_some]
    · simp only [h1, if_false]
      have p2 : (m.length - 1) * bl + (ll - 1 - 1) = body.length - 2 := by omega
      have hb2 := byte_holds hh (k := m.length - 1) (off := ll - 1 - 1) (by omega) (by omega)
      rw [hb2]
      simp only [p2, Option.map_some]
  · rw [if_pos hc]
    simp [hc]

theorem bytesOf_spec {m : Mem} : ∀ {toks : List Tok} {vs : List (List Nat)}, toks.map (rt m) = vs.map some → bytesOf m toks = some vs := by
  intro toks
  induction toks with
  | nil =>
    intro vs h
    cases vs with
    | nil => rfl
    | cons v vs => simp at h
  | cons t ts ih =>
    intro vs h
    cases vs with
    | nil => simp at h
    | cons v vs =>
      simp only [List.map_cons, List.cons.injEq] at h
      have h1 : rd m t.b t.off t.len = some v := h.1
      simp only [bytesOf, h1, ih h.2]

/-- How a request may end. -/
def Done (bl : Nat) (compat : Bool) (body : List Nat) (keycnt maxk room : Nat) : Option (Out (List (List Nat))) → Prop
  | none => ∃ str, Spec.Ends body str ∧ (Lone bl 32 str ∨ (compat = true ∧ ¬ Valid 32 str keycnt maxk ∧ Lone bl 44 str))
  | some .bad => ∀ str, Spec.Ends body str → ¬ Valid 32 str keycnt maxk ∧ (compat = true → ¬ Valid 44 str keycnt maxk)
  | some .nomem => bl + 2 < body.length ∧ room < 2 * ((body.length - 3) / bl)
  | some (.ok vs) => ∃ str, Spec.Ends body str ∧
      ((Valid 32 str keycnt maxk ∧ vs = pieces 32 str) ∨ (Border bl 32 str keycnt ∧ vs = (pieces 32 str).take keycnt) ∨
       (compat = true ∧ ¬ Valid 32 str keycnt maxk ∧
        ((Valid 44 str keycnt maxk ∧ vs = pieces 44 str) ∨ (Border bl 44 str keycnt ∧ vs = (pieces 44 str).take keycnt))))

theorem ends_iff {body : List Nat} (h : 2 < body.length) :
    (body[body.length - 1]'(by omega) = 10 ∧ body[body.length - 2]'(by omega) = 13) ↔ Spec.Ends body (body.take (body.length - 2)) := by
  unfold Spec.Ends
  have h1 : body.drop (body.length - 2) = [body[body.length - 2]'(by omega), body[body.length - 1]'(by omega)] := by
    rw [List.drop_eq_getElem_cons (by omega : body.length - 2 < body.length)]
    have e : body.length - 2 + 1 = body.length - 1 := by omega
    rw [e, List.drop_eq_getElem_cons (by omega : body.length - 1 < body.length)]
    have e2 : body.length - 1 + 1 = body.length := by omega
    rw [e2, List.drop_length]
  have h2 : body = body.take (body.length - 2) ++ body.drop (body.length - 2) := (List.take_append_drop _ _).symm
  constructor
  · intro ⟨a, b⟩
    conv => lhs; rw [h2, h1, a, b]
  · intro he
    have h3 : body.take (body.length - 2) ++ body.drop (body.length - 2) = body.take (body.length - 2) ++ [13, 10] := h2.symm.trans he
    have h4 := List.append_cancel_left h3
    rw [h1] at h4
    simp at h4
    exact ⟨h4.2, h4.1⟩

theorem done {bl keycnt maxk length : Nat} (hbl : maxk + 2 < bl) (hk : 0 < keycnt) (compat : Bool) {junk fresh : Mem}
    (hj : Uniform bl junk) (hf : Uniform bl fresh) (hjl : (length - 1) / bl + 1 ≤ junk.length) {packets : List (List Nat)} {body : List Nat}
    (hl : 2 < length) (hb : body.length = length) (hpk : packets.flatten.take length = body) :
    Done bl compat body keycnt maxk fresh.length (request bl length keycnt maxk compat junk fresh packets) := by
  unfold request
  have hinit : RInv bl length (junk.take ((length - 1) / bl + 1)) (first bl length) [] := by
    refine ⟨fun x hx => hj x (List.mem_of_mem_take hx), by simp; omega, ?_, by simp [first], by simp [first], ?_, by simp [first]; omega, ?_⟩
    · intro k off len h0 h1 h2
      simp at h2; omega
    · simp only [first]
      simp
    · simp only [first]
      intro h0
      split at h0 <;> omega
  obtain ⟨m, r, h1, h2⟩ := feedAll_spec (by omega) packets _ _ _ hinit
  rw [List.nil_append, hpk] at h2
  rw [h1]
  simp only []
  unfold tokenizeSblocks
  rw [if_pos hl]
  subst hb
  rw [checkTail_spec (by omega) hl h2.len h2.holds]
  have hei := ends_iff hl
  by_cases he : Spec.Ends body (body.take (body.length - 2))
  · rw [decide_eq_true (hei.mpr he)]
    simp only []
    have hst : (body.take (body.length - 2)).length = body.length - 2 := by simp
    have hh : Holds bl m (body.take (body.length - 2)) := by
      apply holds_left (b := [13, 10])
      rw [← he]; exact h2.holds
    have hw := whole hbl hk (str := body.take (body.length - 2)) (by omega) compat h2.uni hf hh
    rw [hst] at hw
    generalize hstr : body.take (body.length - 2) = str at *
    cases ht : tokenizeMblocks bl (body.length - 2) keycnt maxk compat m fresh with
    | none =>
      rw [ht] at hw
      exact ⟨str, he, hw⟩
    | some q =>
      rw [ht] at hw
      obtain ⟨m', out⟩ := q
      cases out with
      | bad =>
        intro str' he'
        have : str' = str := by
          unfold Spec.Ends at he he'
          rw [he] at he'
          exact (List.append_cancel_right he').symm
        rw [this]
        exact hw
      | nomem =>
        simp only [Whole, hst] at hw
        have e : body.length - 2 - 1 = body.length - 3 := by omega
        rw [e] at hw
        exact ⟨by omega, hw.2⟩
      | ok toks =>
        obtain ⟨vs, g1, g2⟩ := hw
        simp only [bytesOf_spec g1, Option.map_some]
        exact ⟨str, he, g2⟩
  · rw [decide_eq_false (fun h => he (hei.mp h))]
    simp only []
    intro str he'
    exfalso
    apply he
    have : body.take (body.length - 2) = str := by
      unfold Spec.Ends at he'
      rw [he']; simp
    rw [this]; exact he'

end Verif.Keys
