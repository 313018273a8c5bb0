/-
The statistics by prefix: what `stats detail dump` says (C108-C110).
-/
import Verif.Lemmas.StatsPrefixRun

namespace Verif.StatsPrefix.Props

open Verif.StatsPrefix Verif.StatsPrefix.Spec

/-- **C108**, for histories in which there were never 10000 prefixes and no key without a prefix
    began with a hyphen.  A dump lists each prefix that occurred since the last reset and was not
    flushed once, with the number of operations and of hits of each kind; a dump of chosen prefixes
    lists those of them.  What is missing are the histories that were left out, for which it is
    false. -/
theorem C108_partial (g : Cfg) (es : List Event) (hg : Good g.delim es.reverse)
    (hl : es.length < 9223372036854775808) :
    ∃ s ps, run g init es = some s ∧ ps.Perm (known g.delim es.reverse) ∧ ps.Nodup ∧
      dumpAll s = some (listed g.delim ps es.reverse) ∧
      ∀ ts, (∀ t ∈ ts, t ≠ []) → dumpSome g s ts = some (listed g.delim
        ((ts.map token).filter (fun p => decide (p ∈ known g.delim es.reverse))) es.reverse) := by
  obtain ⟨s, hr, hi, hrf⟩ := run_ref (g := g) (es := es) (h := []) (inv_init g).1 (ref_init g.delim g)
    (by rw [List.append_nil]; exact hg) (by rw [List.length_nil]; omega)
  rw [List.append_nil] at hrf
  exact ⟨s, _, hr, hrf.names, hi.ents.nodup, dumpAll_ref hi hrf, fun ts ht => dumpSome_ref hi hrf ht⟩

/-- Two prefixes, in the buckets that a sum of bytes gives. -/
def demo : Cfg := { hash := List.sum, delim := 58 }

def demoRun : List Event :=
  [.op .get (str "x:0") false, .on, .op .get (str "a:1") true, .op .set (str "b:1") false, .op .get (str "a:2") false,
   .op .lopInsert (str "nopre") true]

example : Good demo.delim demoRun.reverse := by
  have hpre : ∀ k : Text, (k = str "x:0" ∨ k = str "a:1" ∨ k = str "b:1" ∨ k = str "a:2" ∨ k = str "nopre") →
      k ≠ [] ∧ (pre 58 k = [] → k.head? ≠ some 45) := by
    rintro k (rfl | rfl | rfl | rfl | rfl) <;> decide
  refine ⟨⟨⟨⟨⟨⟨trivial, ?_, ?_⟩, ?_, ?_⟩, ?_, ?_⟩, ?_, ?_⟩, ?_, ?_⟩, ?_, ?_⟩
  all_goals first
    | decide +kernel
    | (intro o k b h; cases h; done)
    | (intro o k b h; cases h; apply hpre; simp)

example : (run demo init demoRun).map (fun s => s.tab.flatten.map Entry.name) =
    some [[], str "a", str "b"] := by decide +kernel

example : count 58 (str "a") "get" demoRun.reverse = 2 ∧ count 58 (str "a") "hit" demoRun.reverse = 1 ∧
    count 58 (str "b") "set" demoRun.reverse = 1 ∧ count 58 [] "lih" demoRun.reverse = 1 ∧
    known 58 demoRun.reverse = [[], str "b", str "a"] := by decide +kernel

/-! ### What is not counted -/

/-- A key with a prefix of `n + 1` letters. -/
def manyKey (n : Nat) : Text := List.replicate (n + 1) 97 ++ [58]

/-- Details are enabled, and `n` keys with different prefixes are read. -/
def many : Nat → List Event
  | 0 => [.on]
  | n + 1 => .op .get (manyKey n) false :: many n

theorem many_pre (n : Nat) : pre 58 (manyKey n) = List.replicate (n + 1) 97 := by
  unfold manyKey
  rw [List.replicate_succ, List.cons_append]
  simp only [pre]
  rw [if_pos (by simp), List.takeWhile_append_of_pos]
  · simp
  · intro x hx
    rw [List.eq_of_mem_replicate hx]; rfl

theorem many_on : ∀ n, Spec.on (many n) = true
  | 0 => rfl
  | n + 1 => many_on n

theorem many_valid (n : Nat) : valid (List.replicate (n + 1) 97) = true := by
  unfold valid
  rw [Bool.and_eq_true]
  refine ⟨?_, rfl⟩
  rw [List.all_eq_true]
  intro x hx
  rw [List.eq_of_mem_replicate hx]; rfl

theorem many_known : ∀ n, (known 58 (many n)).length = n ∧ ∀ p ∈ known 58 (many n), p.length ≤ n
  | 0 => ⟨rfl, (fun p hp => by cases hp)⟩
  | n + 1 => by
    obtain ⟨h1, h2⟩ := many_known n
    have hk : known 58 (many (n + 1)) = List.replicate (n + 1) 97 :: known 58 (many n) := by
      simp only [many, known, many_pre]
      rw [if_pos]
      refine ⟨many_on n, many_valid n, fun hh => ?_⟩
      have := h2 _ hh
      rw [List.length_replicate] at this
      omega
    rw [hk]
    refine ⟨by rw [List.length_cons, h1], ?_⟩
    intro p hp
    rcases List.mem_cons.mp hp with rfl | hp
    · rw [List.length_replicate]
    · have := h2 p hp; omega

theorem many_good : ∀ n, n < 10000 → Good 58 (many n)
  | 0, _ => ⟨trivial, by decide, (fun o k b h => by cases h)⟩
  | n + 1, h => by
    refine ⟨many_good n (by omega), ?_, ?_⟩
    · have := (many_known (n + 1)).1
      show (known 58 (many (n + 1))).length < 10000
      omega
    · intro o k b hh
      cases hh
      refine ⟨by unfold manyKey; simp, fun hp => ?_⟩
      rw [many_pre] at hp
      simp at hp

theorem many_len : ∀ n, (many n).length = n + 1
  | 0 => rfl
  | n + 1 => by rw [many, List.length_cons, many_len n]

theorem many_ok : ∀ n, ∀ e ∈ many n, OkEvent e
  | 0 => by intro e he; simp only [many, List.mem_singleton] at he; subst he; trivial
  | n + 1 => by
    intro e he
    rcases List.mem_cons.mp he with rfl | he
    · show manyKey n ≠ []
      unfold manyKey; simp
    · exact many_ok n e he

theorem run_append {g : Cfg} {a b : List Event} : ∀ {s : St},
    run g s (a ++ b) = (run g s a).bind (fun s => run g s b) := by
  induction a with
  | nil => intro s; rfl
  | cons e a ih =>
    intro s
    simp only [List.cons_append, run]
    cases step g s e with
    | none => rfl
    | some s' => exact ih

/-- What happens when the ten thousandth prefix comes. -/
theorem many_last (g : Cfg) (hd : g.delim = 58) (n : Nat) (hn10 : n + 1 = 10000) :
    ∃ s, run g init (many (n + 1)).reverse = some s ∧ s.on = false ∧ Spec.on (many (n + 1)) = true ∧
      dumpSome g s [List.replicate (n + 1) 97] = some (dump [(List.replicate (n + 1) 97, fun _ => 0)]) ∧
      count 58 (List.replicate (n + 1) 97) "get" (many (n + 1)) = 1 := by
  obtain ⟨s, hr, hi, hrf⟩ := run_ref (g := g) (es := (many n).reverse) (h := []) (inv_init g).1
    (ref_init g.delim g)
    (by rw [List.append_nil, List.reverse_reverse, hd]; exact many_good n (by omega))
    (by rw [List.length_reverse, many_len, List.length_nil]; omega)
  rw [List.append_nil, List.reverse_reverse, hd] at hrf
  have hnum : s.num = n := by rw [known_len hi hrf, (many_known n).1]
  have hson : s.on = true := by rw [hrf.on]; exact many_on n
  have hpk : pre g.delim (manyKey n) ∉ s.tab.flatten.map Entry.name := by
    intro hh
    rw [hd, many_pre] at hh
    have := (many_known n).2 _ (hrf.names.mem_iff.mp hh)
    rw [List.length_replicate] at this
    omega
  have hok : okName (manyKey n) (pre g.delim (manyKey n)) = true := by
    apply valid_okName
    · rw [hd, many_pre]; exact many_valid n
    · intro hh; rw [hd, many_pre] at hh; simp at hh
  have hne : manyKey n ≠ [] := by unfold manyKey; simp
  obtain ⟨s', hs', hi', hc⟩ := record_cases hi hne .get false
  have hfin : s'.on = false ∧ s'.tab.flatten.Perm (fresh (pre g.delim (manyKey n)) :: s.tab.flatten) := by
    rcases hc with ⟨h, _⟩ | ⟨_, h, _⟩ | ⟨_, _, h, _⟩ | ⟨_, _, _, h1, h2⟩ | ⟨_, _, h, _⟩
    · exact absurd h hpk
    · omega
    · rw [hok] at h; cases h
    · exact ⟨h1, h2⟩
    · omega
  rw [hd, many_pre] at hfin
  refine ⟨s', ?_, hfin.1, many_on (n + 1), ?_, ?_⟩
  · rw [show many (n + 1) = .op .get (manyKey n) false :: many n from rfl, List.reverse_cons, run_append, hr]
    simp only [Option.bind_some, run, step, hson, if_true, hs']
  · have ht : ∀ t ∈ [List.replicate (n + 1) 97], t ≠ [] := by
      intro t ht
      rw [List.mem_singleton] at ht
      rw [ht]; simp
    rw [dumpSome_eq hi' ht]
    have htok : ofToken (List.replicate (n + 1) 97) = List.replicate (n + 1) 97 := by
      unfold ofToken
      rw [if_neg]
      intro hh
      have := congrArg List.length hh
      rw [List.length_replicate] at this
      rw [show (str "<null>").length = 6 from rfl] at this; omega
    have hmem : fresh (List.replicate (n + 1) 97) ∈ s'.tab.flatten :=
      hfin.2.mem_iff.mpr (List.mem_cons_self ..)
    cases hl : lookup g s' (List.replicate (n + 1) 97) with
    | none =>
      have := lookup_none hi' hl
      rw [htok] at this
      exact absurd (List.mem_map_of_mem (f := Entry.name) hmem) this
    | some e =>
      obtain ⟨he, hn⟩ := lookup_mem hi' hl
      rw [htok] at hn
      have : e = fresh (List.replicate (n + 1) 97) := by
        apply List.inj_on_of_nodup_map hi'.ents.nodup he hmem
        exact hn
      rw [List.filterMap_cons, hl]
      simp only [List.filterMap_nil, List.flatMap_cons, List.flatMap_nil, List.append_nil]
      unfold dump
      rw [this, line_eq (fresh (List.replicate (n + 1) 97)) (fun _ => 0) (fun _ => rfl)]
      simp only [List.flatMap_cons, List.flatMap_nil, List.append_nil]
      rfl
  · rw [show many (n + 1) = .op .get (manyKey n) false :: many n from rfl]
    simp only [count, many_pre]
    rw [if_pos ⟨many_on n, trivial⟩, count_zero _ (many_valid n)]
    · rfl
    · intro hh
      have := (many_known n).2 _ hh
      rw [List.length_replicate] at this
      omega

/-- **C108 is false.**  First, the first operation on a key that begins with a hyphen and has no
    prefix is not counted, and "<null>" is not listed, although later operations on such keys are
    counted if other keys without a prefix occurred before.  Second, the operation that brings the
    ten thousandth prefix is not counted although its prefix is listed, and details are disabled
    without a request. -/
theorem C108_false :
    (∃ g s, run g init [.on, .op .get (str "-x") true] = some s ∧
      known g.delim [.op .get (str "-x") true, .on] = [[]] ∧
      count g.delim [] "get" [.op .get (str "-x") true, .on] = 1 ∧
      dumpAll s = some (dump []) ∧
      (run g init [.on, .op .set (str "x") true, .op .get (str "-x") true]).bind dumpAll =
        some (listed g.delim [[]] [.op .get (str "-x") true, .op .set (str "x") true, .on])) ∧
    (∀ g : Cfg, g.delim = 58 →
      ∃ s, run g init (many 10000).reverse = some s ∧ s.on = false ∧ Spec.on (many 10000) = true ∧
        dumpSome g s [List.replicate 10000 97] = some (dump [(List.replicate 10000 97, fun _ => 0)]) ∧
        count 58 (List.replicate 10000 97) "get" (many 10000) = 1) := by
  constructor
  · refine ⟨demo, (run demo init [.on, .op .get (str "-x") true]).getD init, ?_, ?_, ?_, ?_, ?_⟩
    · have : (run demo init [.on, .op .get (str "-x") true]).isSome = true := by decide +kernel
      obtain ⟨s, hs⟩ := Option.isSome_iff_exists.mp this
      rw [hs]; rfl
    · decide +kernel
    · decide +kernel
    · decide +kernel
    · decide +kernel
  · intro g hd
    exact many_last g hd 9999 rfl

/-- **C109.**  Whatever happened, a dump of all prefixes and a dump of any chosen ones ends without a
    failed assertion, the buffer holds it, and it consists of lines of the documented form. -/
theorem C109 (g : Cfg) (es : List Event) (he : ∀ e ∈ es, OkEvent e) :
    ∃ s L, run g init es = some s ∧ dumpAll s = some (dump L) ∧
      (dump L).length < dumpSize s.total s.num ∧
      ∀ ts, (∀ t ∈ ts, t ≠ []) → ∃ M, dumpSome g s ts = some (dump M) ∧
        (dump M).length < dumpSize (ts.map List.length).sum ts.length ∧
        ∀ x ∈ M, x.1 ∈ ts.map token := by
  obtain ⟨s, hr, hi⟩ := run_inv (g := g) (es := es) (inv_init g).1 he
  have key : ∀ F : List Entry, F.flatMap lineText ++ str "END\r\n" =
      dump (F.map (fun e => (e.name, byWord e))) := by
    intro F
    unfold dump
    rw [List.flatMap_map]
    congr 1
    apply List.flatMap_congr
    intro e _
    exact line_eq e _ (byWord_ok e)
  have fin : ∀ {n o t}, finish n o = some t → t.length < n := by
    intro n o t h
    unfold finish at h
    cases o with
    | none => cases h
    | some u =>
      simp only at h
      split at h
      · rename_i hlt; cases h; exact hlt
      · cases h
  have h1 := dumpAll_eq hi
  rw [key] at h1
  refine ⟨s, _, hr, h1, fin h1, ?_⟩
  intro ts ht
  have h2 := dumpSome_eq hi ht
  rw [key] at h2
  refine ⟨_, h2, fin h2, ?_⟩
  intro x hx
  obtain ⟨e, hx1, rfl⟩ := List.mem_map.mp hx
  obtain ⟨t, ht1, hl⟩ := List.mem_filterMap.mp hx1
  exact List.mem_map.mpr ⟨t, ht1, (lookup_mem hi hl).2.symm⟩

example : (∀ e ∈ demoRun, OkEvent e) ∧ ((run demo init demoRun).bind (fun s => dumpSome demo s [str "<null>", str "zz", str "a"])).isSome := by
  constructor
  · intro e he
    simp only [demoRun, List.mem_cons, List.not_mem_nil, or_false] at he
    rcases he with rfl | rfl | rfl | rfl | rfl | rfl <;> first | trivial | (show _ ≠ []; decide)
  · decide +kernel

/-- **C110.**  Whatever happened, at most 10000 prefixes are kept, none of them twice; when the ten
    thousandth comes details are disabled, and when there are 10000 an operation with a prefix that is
    not among them disables details and changes nothing else. -/
theorem C110 (g : Cfg) (es : List Event) (he : ∀ e ∈ es, OkEvent e) :
    ∃ s, run g init es = some s ∧ s.tab.flatten.length ≤ 10000 ∧ (s.tab.flatten.map Entry.name).Nodup ∧
      ∀ o key hit, key ≠ [] → s.on = true →
        ∃ s', run g init (es ++ [.op o key hit]) = some s' ∧
          (s.tab.flatten.length < 10000 → s'.tab.flatten.length = 10000 → s'.on = false) ∧
          (s.tab.flatten.length = 10000 → pre g.delim key ∉ s.tab.flatten.map Entry.name →
            s'.on = false ∧ s'.tab.flatten = s.tab.flatten) := by
  obtain ⟨s, hr, hi⟩ := run_inv (g := g) (es := es) (inv_init g).1 he
  refine ⟨s, hr, by rw [← hi.ents.num]; exact hi.le, hi.ents.nodup, ?_⟩
  intro o key hit hk hon
  obtain ⟨s', hs', hi', hc⟩ := record_cases hi hk o hit
  refine ⟨s', by rw [run_append, hr]; simp only [Option.bind_some, run, step, hon, if_true, hs'], ?_⟩
  have hn := hi.ents.num
  rcases hc with ⟨hp, _, hf⟩ | ⟨hp, hn1, ho, hf⟩ | ⟨hp, hn1, hv, ho, hf⟩ | ⟨hp, hv, hn1, ho, hf⟩ | ⟨hp, hv, hn1, ho, hf⟩
  · rw [hf, List.length_map]
    exact ⟨fun h1 h2 => by omega, fun _ h => absurd hp h⟩
  · exact ⟨fun _ _ => ho, fun _ _ => ⟨ho, hf⟩⟩
  · rw [hf]
    exact ⟨fun h1 h2 => by omega, fun h => by omega⟩
  · exact ⟨fun _ _ => ho, fun h => by omega⟩
  · rw [hf.length_eq, List.length_cons]
    exact ⟨fun h1 h2 => by omega, fun h => by omega⟩

example : ((run demo init demoRun).map (fun s => (s.on, s.tab.flatten.length))) = some (true, 3) := by decide +kernel

end Verif.StatsPrefix.Props
