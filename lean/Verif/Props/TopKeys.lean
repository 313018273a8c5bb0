/-
Properties of the top keys statistics (C99-C102).
-/
import Verif.Lemmas.TopKeysText

namespace Verif.TopKeys.Props

open Verif.TopKeys Verif.TopKeys.Spec

/-- An allocator that always finds memory: the address after the highest in use. -/
def bumpAlloc (_ : Nat) (m : Mem) : Option Nat := some ((m.map (·.1)).foldr max 0 + 1)

theorem bumpAlloc_malloc : Malloc bumpAlloc := by
  intro i m a h
  simp only [bumpAlloc, Option.some.injEq] at h
  refine ⟨by omega, ?_⟩
  cases hg : TopKeys.get m a with
  | none => rfl
  | some n =>
    have hm := get_mem hg
    have : ∀ l : List Nat, ∀ x ∈ l, x ≤ l.foldr max 0 := by
      intro l
      induction l with
      | nil => simp
      | cons y l ih =>
        intro x hx
        simp only [List.foldr_cons]
        rcases List.mem_cons.mp hx with e | hx
        · omega
        · have := ih x hx; omega
    have := this _ a hm
    omega

theorem bumpAlloc_enough : Enough bumpAlloc := by
  intro i m; simp [bumpAlloc]

/-- Some operations on keys A, B, C, D. -/
def sample : List Use :=
  [⟨[65], 0, 5⟩, ⟨[66], 2, 6⟩, ⟨[65], 0, 7⟩, ⟨[67], 1, 8⟩, ⟨[68], 13, 9⟩, ⟨[66], 2, 9⟩]

/-- C99: after any sequence of counted operations the list consists of exactly the `n` most
    recently used keys, the most recent first, each with the number of times each of the 78
    operations was counted for it since it last entered, and with the time at which it
    entered. -/
theorem C99 (n magn : Nat) (al : Nat → Mem → Option Nat) (us : List Use) (hn : 0 < n)
    (hmagn : magn < 30) (hm : Malloc al) (he : Enough al) (hu : ∀ u ∈ us, Ok u)
    (hlen : us.length < 2147483648) :
    ∃ t0 t ns, init n magn = some t0 ∧ run t0 al 0 us = some t ∧ items t = some ns ∧
      ns.map (·.key) = top n us.reverse ∧
      (∀ x ∈ ns, x.ctime = entered n x.key us.reverse ∧ x.cnt.length = 78 ∧
        ∀ op < 78, x.cnt[op]? = some (uses n x.key op us.reverse)) := by
  obtain ⟨t0, e0, hi0, hmax0⟩ := init_ok hn hmagn
  obtain ⟨t, as, e1, hi1, _, hL⟩ := run_ok (h := []) (us := us) 0 hi0 (by simp [contents, want, top, recent]) hm he hu
    (by simpa using hlen)
  obtain ⟨ns, e2, hns⟩ := items_ok hi1
  rw [hL, hmax0] at hns
  simp only [List.append_nil] at hns
  have hd : ns.map data = want n us.reverse := by
    have : (ns.map data).map some = (want n us.reverse).map some := by
      rw [← hns]; simp
    exact (List.map_injective_iff.mpr (Option.some_injective _)) this
  refine ⟨t0, t, ns, e0, e1, e2, ?_, ?_⟩
  · have := congrArg (List.map Prod.fst) hd
    simpa [data, want, entry, Function.comp_def] using this
  · intro x hx
    have hxm : data x ∈ want n us.reverse := by rw [← hd]; exact List.mem_map_of_mem hx
    obtain ⟨k, _, hk⟩ := List.mem_map.mp hxm
    simp only [data, entry, Prod.mk.injEq] at hk
    obtain ⟨hk, hct, _, hcnt⟩ := hk
    subst hk
    refine ⟨hct.symm, by rw [← hcnt]; simp, ?_⟩
    intro op hop
    rw [← hcnt]
    simp [hop]

example : (∀ u ∈ sample, Ok u) ∧ top 3 sample.reverse = [[66], [68], [67]] ∧
    uses 3 [66] 2 sample.reverse = 1 ∧ entered 3 [66] sample.reverse = 9 ∧
    uses 4 [66] 2 sample.reverse = 2 ∧ entered 4 [66] sample.reverse = 6 := by
  refine ⟨?_, by decide +kernel, by decide +kernel, by decide +kernel, by decide +kernel,
    by decide +kernel⟩
  intro u hu
  have : ∀ u ∈ sample, u.key ≠ [] ∧ u.op < 78 := by decide
  exact this u hu

example : ((init 3 0).bind (fun t => run t bumpAlloc 0 sample)).bind
    (fun t => (items t).map (List.map (fun x => (x.key, x.ctime, x.cnt[2]?)))) =
    some [([66], 9, some 1), ([68], 9, some 0), ([67], 8, some 0)] := by decide +kernel

/-- C100, if memory can be allocated: counting operations trips no assertion, follows no
    dangling pointer, and keeps at most `n` keys in memory (and the head of the list). -/
theorem C100_partial (n magn : Nat) (al : Nat → Mem → Option Nat) (us : List Use) (hn : 0 < n)
    (hmagn : magn < 30) (hm : Malloc al) (he : Enough al) (hu : ∀ u ∈ us, Ok u)
    (hlen : us.length < 2147483648) :
    ∃ t0 t, init n magn = some t0 ∧ run t0 al 0 us = some t ∧
      ∀ l : List Nat, l.Nodup → (∀ a ∈ l, get t.mem a ≠ none) → l.length ≤ n + 1 := by
  obtain ⟨t0, e0, hi0, hmax0⟩ := init_ok hn hmagn
  obtain ⟨t, as, e1, hi1, hmax1, _⟩ := run_ok (h := []) (us := us) 0 hi0 (by simp [contents, want, top, recent]) hm he hu
    (by simpa using hlen)
  refine ⟨t0, t, e0, e1, ?_⟩
  intro l hl hlive
  have hsub : l ⊆ 0 :: as := by
    intro a ha
    have := (hi1.exact_ a).mp (hlive a ha)
    simpa using this
  have h1 := (List.subperm_of_subset hl hsub).length_le
  have h2 := hi1.room
  rw [hmax1, hmax0] at h2
  simp at h1
  omega

example : ∃ t, (init 2 0).bind (fun t => run t bumpAlloc 0 sample) = some t ∧ t.mem.length = 3 :=
  ⟨_, rfl, by decide +kernel⟩

/-- C100 is false: if the item cannot be allocated, the server aborts. -/
theorem C100_false : ¬ ∀ (n magn : Nat) (al : Nat → Mem → Option Nat) (us : List Use), 0 < n →
    magn < 30 → Malloc al → (∀ u ∈ us, Ok u) → us.length < 2147483648 →
    ∃ t0 t, init n magn = some t0 ∧ run t0 al 0 us = some t := by
  intro h
  obtain ⟨t0, t, e0, e1⟩ := h 1 0 (fun _ _ => none) [⟨[65], 0, 0⟩] (by decide) (by decide)
    (by intro i m a h; cases h) (by intro u hu; simp at hu; subst hu; exact ⟨by decide, by decide⟩)
    (by decide)
  have : (init 1 0).bind (fun t => (run t (fun _ _ => none) 0 [⟨[65], 0, 0⟩]).map (·.nkeys)) = none := by
    decide +kernel
  rw [e0] at this
  simp [e1] at this

/-- C101, as long as no printed counter has more than five digits and the server has run for
    less than 10^9 seconds: `stats topkeys` shows for each listed key the counts since it
    entered, as `name=value` separated by commas, followed by the time since it entered. -/
theorem C101_partial (n magn now : Nat) (al : Nat → Mem → Option Nat) (us : List Use) (hn : 0 < n)
    (hmagn : magn < 30) (hm : Malloc al) (he : Enough al) (hu : ∀ u ∈ us, Ok u)
    (hlen : us.length < 2147483648) (ht : ∀ u ∈ us, u.now ≤ now) (hnow : now < 1000000000)
    (hc : ∀ k ∈ top n us.reverse, ∀ op < 13, uses n k op us.reverse < 100000) :
    ∃ t0 t, init n magn = some t0 ∧ run t0 al 0 us = some t ∧
      stats t now = some ((top n us.reverse).map
        (fun k => (k, line n us.reverse now (entered n k us.reverse) k))) := by
  obtain ⟨t0, e0, hi0, hmax0⟩ := init_ok hn hmagn
  obtain ⟨t, as, e1, hi1, _, hL⟩ := run_ok (h := []) (us := us) 0 hi0 (by simp [contents, want, top, recent]) hm he hu
    (by simpa using hlen)
  obtain ⟨ns, e2, hns⟩ := items_ok hi1
  rw [hL, hmax0] at hns
  simp only [List.append_nil] at hns
  have hd : ns.map data = want n us.reverse := by
    have : (ns.map data).map some = (want n us.reverse).map some := by
      rw [← hns]; simp
    exact (List.map_injective_iff.mpr (Option.some_injective _)) this
  refine ⟨t0, t, e0, e1, ?_⟩
  simp only [stats, e2, Option.bind_eq_bind, Option.bind_some]
  exact statLines_ok hd hnow (fun u hu => ht u (by simpa using hu)) hc

example : line 3 sample.reverse 20 9 [66] =
    ("get_hits=0,get_misses=0,cmd_set=1,incr_hits=0,incr_misses=0,decr_hits=0,decr_misses=0," ++
     "delete_hits=0,delete_misses=0,evictions=0,cas_hits=0,cas_misses=0,cas_badval=0," ++
     "ctime=11,atime=11").toList := by decide +kernel

example : (∀ k ∈ top 3 sample.reverse, ∀ op < 13, uses 3 k op sample.reverse < 100000) ∧
    ∀ u ∈ sample, u.now ≤ 20 := by decide +kernel

/-- A million times each of the thirteen printed operations on key A. -/
def many (r : Nat) : List Use :=
  (List.range 13).flatMap (fun op => List.replicate r ⟨[65], op, 0⟩)

theorem many_key (r : Nat) : ∀ u ∈ many r, u.key = [65] ∧ u.op < 13 ∧ u.now = 0 := by
  intro u hu
  simp only [many, List.mem_flatMap, List.mem_range] at hu
  obtain ⟨op, hop, hm⟩ := hu
  rw [List.eq_of_mem_replicate hm]
  exact ⟨rfl, hop, rfl⟩

theorem many_count (r op : Nat) (hop : op < 13) :
    (many r).countP (fun u => u.op == op) = r := by
  have e : List.range 13 = [0, 1, 2, 3, 4, 5, 6, 7, 8, 9, 10, 11, 12] := rfl
  unfold many
  rw [e]
  simp only [List.flatMap_cons, List.flatMap_nil, List.append_nil, List.countP_append,
    List.countP_replicate]
  match op, hop with
  | 0, _ | 1, _ | 2, _ | 3, _ | 4, _ | 5, _ | 6, _ | 7, _ | 8, _ | 9, _ | 10, _ | 11, _ | 12, _ => simp

theorem many_length (r : Nat) : (many r).length = 13 * r := by
  simp [many, List.length_flatMap]
  omega

/-- The statistics cannot be shown once each printed operation has been counted `r ≥ 10^6`
    times for a key: bytes beyond the buffer are read. -/
theorem many_overread (r : Nat) (hr : 1000000 ≤ r) (hlen : 13 * r < 2147483648) :
    ∃ t0 t, init 1 0 = some t0 ∧ run t0 bumpAlloc 0 (many r) = some t ∧ stats t 0 = none := by
  obtain ⟨t0, e0, hi0, hmax0⟩ := init_ok (n := 1) (magn := 0) (by omega) (by omega)
  obtain ⟨t, as, e1, hi1, _, hL⟩ := run_ok (h := []) (us := many r) 0 hi0
    (by simp [contents, want, top, recent]) bumpAlloc_malloc bumpAlloc_enough
    (fun u hu => by
      obtain ⟨h1, h2, _⟩ := many_key r u hu
      exact ⟨by rw [h1]; decide, by omega⟩)
    (by rw [many_length]; simpa using hlen)
  obtain ⟨ns, e2, hns⟩ := items_ok hi1
  rw [hL, hmax0] at hns
  simp only [List.append_nil] at hns
  have hkey : ∀ u ∈ (many r).reverse, u.key = [65] := fun u hu => (many_key r u (by simpa using hu)).1
  have hne : (many r).reverse ≠ [] := by
    intro h
    have := congrArg List.length h
    rw [List.length_reverse, many_length] at this
    simp only [List.length_nil] at this
    omega
  have htop := top_one (n := 1) (by omega) hkey hne
  have huse : ∀ op, op < 13 → 1000000 ≤ uses 1 [65] op (many r).reverse := by
    intro op hop
    rw [uses_one (by omega) hkey, List.countP_reverse, many_count r op hop]
    exact hr
  have hent : entered 1 [65] (many r).reverse ≤ 0 :=
    entered_le (fun u hu => by rw [(many_key r u (by simpa using hu)).2.2])
  unfold want at hns
  rw [htop] at hns
  cases ns with
  | nil => simp at hns
  | cons x ns =>
    simp only [List.map_cons, List.cons.injEq, Option.some.injEq] at hns
    have hf := fmtLine_entry hns.1 hent (by omega)
    have hl := line_long (now := 0) (last := entered 1 [65] (many r).reverse) huse
    refine ⟨t0, t, e0, e1, ?_⟩
    have h1 : ¬ (line 1 (many r).reverse 0 (entered 1 [65] (many r).reverse) [65]).length ≤ 248 := by omega
    have h2 : ¬ (line 1 (many r).reverse 0 (entered 1 [65] (many r).reverse) [65]).length = 249 := by omega
    simp only [stats, e2, Option.bind_eq_bind, Option.bind_some, statLines, statValue, hf, if_neg h1,
      if_neg h2, Option.bind_none]

/-- C101 is false without the bound: after a million of each of the thirteen operations on
    one key, `stats topkeys` reads past its buffer. -/
theorem C101_false : ¬ ∀ (n magn now : Nat) (al : Nat → Mem → Option Nat) (us : List Use), 0 < n →
    magn < 30 → Malloc al → Enough al → (∀ u ∈ us, Ok u) → us.length < 2147483648 →
    (∀ u ∈ us, u.now ≤ now) → now < 1000000000 →
    ∀ t0 t, init n magn = some t0 → run t0 al 0 us = some t →
      stats t now = some ((top n us.reverse).map
        (fun k => (k, line n us.reverse now (entered n k us.reverse) k))) := by
  intro h
  obtain ⟨t0, t, e0, e1, e2⟩ := many_overread 1000000 (by omega) (by omega)
  have := h 1 0 0 bumpAlloc (many 1000000) (by omega) (by omega) bumpAlloc_malloc bumpAlloc_enough
    (fun u hu => by
      obtain ⟨h1, h2, _⟩ := many_key 1000000 u hu
      exact ⟨by rw [h1]; decide, by omega⟩)
    (by rw [many_length]; omega)
    (fun u hu => by rw [(many_key 1000000 u hu).2.2]) (by omega) t0 t e0 e1
  rw [e2] at this
  cases this

/-- C102, for keys not used again at a later time than that of their entering: `atime` shows
    the time since the last use. -/
theorem C102_partial (n magn now : Nat) (al : Nat → Mem → Option Nat) (us : List Use) (hn : 0 < n)
    (hmagn : magn < 30) (hm : Malloc al) (he : Enough al) (hu : ∀ u ∈ us, Ok u)
    (hlen : us.length < 2147483648) (ht : ∀ u ∈ us, u.now ≤ now) (hnow : now < 1000000000)
    (hc : ∀ k ∈ top n us.reverse, ∀ op < 13, uses n k op us.reverse < 100000)
    (hlast : ∀ k ∈ top n us.reverse, entered n k us.reverse = lastUse k us.reverse) :
    ∃ t0 t, init n magn = some t0 ∧ run t0 al 0 us = some t ∧
      stats t now = some ((top n us.reverse).map
        (fun k => (k, line n us.reverse now (lastUse k us.reverse) k))) := by
  obtain ⟨t0, t, e0, e1, e2⟩ := C101_partial n magn now al us hn hmagn hm he hu hlen ht hnow hc
  refine ⟨t0, t, e0, e1, ?_⟩
  rw [e2]
  congr 1
  apply List.map_congr_left
  intro k hk
  rw [hlast k hk]

example : ∀ k ∈ top 3 sample.reverse, entered 3 k sample.reverse = lastUse k sample.reverse := by
  decide +kernel

/-- C102 is false: a key used at times 0 and 50 is said at time 60 to have been used 60
    seconds ago. -/
theorem C102_false : ¬ ∀ (n magn now : Nat) (al : Nat → Mem → Option Nat) (us : List Use), 0 < n →
    magn < 30 → Malloc al → Enough al → (∀ u ∈ us, Ok u) → us.length < 2147483648 →
    (∀ u ∈ us, u.now ≤ now) → now < 1000000000 →
    (∀ k ∈ top n us.reverse, ∀ op < 13, uses n k op us.reverse < 100000) →
    ∀ t0 t, init n magn = some t0 → run t0 al 0 us = some t →
      stats t now = some ((top n us.reverse).map
        (fun k => (k, line n us.reverse now (lastUse k us.reverse) k))) := by
  intro h
  have hok : ∀ u ∈ ([⟨[65], 0, 0⟩, ⟨[65], 0, 50⟩] : List Use), Ok u := by
    have : ∀ u ∈ ([⟨[65], 0, 0⟩, ⟨[65], 0, 50⟩] : List Use), u.key ≠ [] ∧ u.op < 78 := by decide
    exact this
  obtain ⟨t0, t, e0, e1, e2⟩ := C101_partial 1 0 60 bumpAlloc [⟨[65], 0, 0⟩, ⟨[65], 0, 50⟩]
    (by decide) (by decide) bumpAlloc_malloc bumpAlloc_enough hok (by decide) (by decide) (by decide)
    (by decide +kernel)
  have := h 1 0 60 bumpAlloc [⟨[65], 0, 0⟩, ⟨[65], 0, 50⟩] (by decide) (by decide) bumpAlloc_malloc
    bumpAlloc_enough hok (by decide) (by decide) (by decide) (by decide +kernel) t0 t e0 e1
  rw [e2] at this
  revert this
  decide +kernel

end Verif.TopKeys.Props
