import Verif.Lemmas.Recover
/-! # C34, C35, C41, C47: recovery of the command log -/
namespace Verif.Log.Props
open Verif.Log Verif.Log.Spec

variable {σ : Type}

/-- C34 (partial: records of at most 2 MB, logs of at most INT_MAX bytes, no flush of a prefix of 255
or more bytes, and memory suffices or the state counts as failed).  The log cut at any byte is
recovered to the state after exactly the entries that are completely in the file; the redo of each
update is the call it was logged for; the updates of a range are redone all or none. -/
theorem C34_recovery_partial (e : Env) (app : σ → Call → Option σ) (log : List (Entry × Bytes))
    (hl : ∀ x ∈ log, EntryImage x.1 x.2) (hi : (bytes log).length ≤ intMax) (cut : Nat) (st : σ) :
    (∃ s off, afterLog app e.clock st (whole log cut) = some s ∧
      fileApply e app ((bytes log).take cut) st = .val (s, off)) ∨
    (afterLog app e.clock st (whole log cut) = none ∧
      fileApply e app ((bytes log).take cut) st = .fail) := by
  obtain ⟨off, h, _⟩ := fileApply_eq e app rfl log hl cut st hi
  cases ha : afterLog app e.clock st (whole log cut) with
  | none => right; exact ⟨rfl, by rw [h, ha]; rfl⟩
  | some s => left; exact ⟨s, off, rfl, by rw [h, ha]; rfl⟩

/-- The entries of `whole` are the longest prefix of the log that fits into the file. -/
theorem C34_whole (log : List (Entry × Bytes)) (cut : Nat) :
    ∃ m, m ≤ log.length ∧ whole log cut = log.take m ∧ (bytes (log.take m)).length ≤ cut ∧
      ∀ m', m < m' → m' ≤ log.length → cut < (bytes (log.take m')).length := by
  induction log generalizing cut with
  | nil => exact ⟨0, by simp, rfl, by simp [bytes], fun m' h1 h2 => by simp at h2; omega⟩
  | cons x log ih =>
    simp only [whole]
    by_cases h : x.2.length ≤ cut
    · rw [if_pos h]
      obtain ⟨m, h1, h2, h3, h4⟩ := ih (cut - x.2.length)
      refine ⟨m + 1, by simp only [List.length_cons]; omega, by rw [h2]; rfl, ?_, ?_⟩
      · have : bytes ((x :: log).take (m + 1)) = x.2 ++ bytes (log.take m) := rfl
        rw [this, List.length_append]; omega
      · intro m' h5 h6
        obtain ⟨m', rfl⟩ : ∃ k, m' = k + 1 := ⟨m' - 1, by omega⟩
        have := h4 m' (by omega) (by simp only [List.length_cons] at h6; omega)
        have h7 : bytes ((x :: log).take (m' + 1)) = x.2 ++ bytes (log.take m') := rfl
        rw [h7, List.length_append]; omega
    · rw [if_neg h]
      refine ⟨0, by simp, rfl, by simp [bytes], fun m' h5 h6 => ?_⟩
      obtain ⟨m', rfl⟩ : ∃ k, m' = k + 1 := ⟨m' - 1, by omega⟩
      have h7 : bytes ((x :: log).take (m' + 1)) = x.2 ++ bytes (log.take m') := rfl
      rw [h7, List.length_append]; omega

/-- C34 and C40, C41, C47 at a key (partial: as above, and `Calm`).  Whatever a run of the server did
with key-value items, and wherever the log was cut: there is a moment of the run, the one after the
last change that is completely in the file, such that from the time of recovery on the recovered
server serves for the key exactly what the old server would have served from its state at that
moment. -/
theorem C34_served_partial (sc : Scope) (start start' : Nat) (e : Env) (evs : List (Clock × Ev))
    (log : List (Entry × Bytes)) (cut : Nat) (k : Bytes)
    (hlog : log.map (·.1) = (liveLog sc (fun _ => none) evs).map .one)
    (hl : ∀ x ∈ log, EntryImage x.1 x.2) (hi : (bytes log).length ≤ intMax)
    (hs : InStep start' e.clock) (h1 : 1 ≤ e.clock.cur) (hw : e.clock.wall < 4294967295)
    (hc : Calm sc start e.clock.wall k (fun _ => none) evs) :
    ∃ j s' off, j ≤ evs.length ∧
      (liveLog sc (fun _ => none) (evs.take j)).map .one = (whole log cut).map (·.1) ∧
      fileApply e (kvApply sc e.clock.cur) ((bytes log).take cut) (fun _ => none) = .val (s', off) ∧
      ∀ t, e.clock.wall ≤ t →
        served start' s' t k = served start (liveStore sc (fun _ => none) (evs.take j)) t k := by
  obtain ⟨m, _, hm⟩ := whole_take log cut
  obtain ⟨j, hj, hlj⟩ := liveLog_take (sc := sc) evs (fun _ => none) m
  obtain ⟨s1, ha, hrel⟩ := run_rel (sc := sc) hs hw h1 (evs.take j) _ _
    (rel_empty start start' e.clock k) (Calm.take hc j)
  have hmap : (liveLog sc (fun _ => none) (evs.take j)).map .one = (whole log cut).map (·.1) := by
    rw [hm, List.map_take, hlog, ← List.map_take, hlj]
  have hcalls : (whole log cut).flatMap (fun x => calls e.clock x.1) =
      (liveLog sc (fun _ => none) (evs.take j)).map (callOf e.clock) := by
    have h2 : (whole log cut).flatMap (fun x => calls e.clock x.1) =
        ((whole log cut).map (·.1)).flatMap (calls e.clock) := by
      rw [List.flatMap_map]
    rw [h2, ← hmap]
    generalize liveLog sc (fun _ => none) (evs.take j) = l
    induction l with
    | nil => rfl
    | cons x l ih =>
      rw [List.map_cons, List.flatMap_cons, ih]; rfl
  obtain ⟨off, h3, _⟩ := fileApply_eq e (kvApply sc e.clock.cur) rfl log hl cut (fun _ => none) hi
  refine ⟨j, s1, off, hj, hmap, ?_, fun t ht => rel_served hrel hs hw t ht⟩
  rw [h3]
  unfold afterLog
  rw [hcalls, ha]
  rfl

/-- A key-value item. -/
def kvItem (k v : Bytes) (e cas : Nat) : Item := KV.item k ⟨0, e, v, cas⟩

theorem kvItem_good {k v : Bytes} {e cas : Nat} (hk : k.length ≤ 16000) (hv : v.length ≤ 134217728)
    (he : e < 4294967296) (hc : cas < 18446744073709551616) : GoodItem (kvItem k v e cas) := by
  constructor <;> simp only [kvItem, KV.item] <;> try omega
  exact Or.inr rfl

/-- No flush concerns a key: used in the witnesses, which have no flush. -/
def noScope : Scope := ⟨fun _ _ => false, fun _ => false⟩

/-- The record of a store of "1" under "k" without expiry. -/
def recK : Bytes :=
  [0, 0, 0, 0, 32, 0, 0, 0, 0, 0, 1, 0, 3, 0, 0, 0, 0, 0, 0, 0, 0, 0, 0, 0, 1, 0, 0, 0, 0, 0, 0, 0,
    107, 49, 13, 10, 0, 0, 0, 0]

def opK : Op := .link (kvItem [107] [49, 13, 10] 0 1)

theorem recK_update (c : Clock) : Update ⟨c, opK⟩ recK where
  plain := trivial
  good := kvItem_good (by decide) (by decide) (by decide) (by decide)
  short := fun p n h => by simp [opK] at h
  image := by
    refine ⟨fun _ => 0, List.replicate 40 0, ?_, ?_⟩ <;>
      simp only [show construct c (fun _ => 0) opK = construct ⟨0, 0⟩ (fun _ => 0) opK from rfl] <;>
      decide +kernel
  size := by decide

/-- The records of the delete of the element "1" of the set "k", and of a range. -/
def recD : Bytes := [7, 12, 0, 0, 16, 0, 0, 0, 1, 0, 0, 0, 3, 0, 0, 0, 107, 49, 13, 10, 0, 0, 0, 0]

def opD : Op := .setDel (kvItem [107] [] 0 1) [49, 13, 10] false

theorem recD_update (c : Clock) : Update ⟨c, opD⟩ recD where
  plain := trivial
  good := ⟨kvItem_good (by decide) (by decide) (by decide) (by decide), by unfold GoodElem; decide⟩
  short := fun p n h => by simp [opD] at h
  image := by
    refine ⟨fun _ => 0, List.replicate 24 0, ?_, ?_⟩ <;>
      simp only [show construct c (fun _ => 0) opD = construct ⟨0, 0⟩ (fun _ => 0) opD from rfl] <;>
      decide +kernel
  size := by decide

def recB : Bytes := [13, 22, 0, 0, 0, 0, 0, 0]

def recE : Bytes := [14, 22, 0, 0, 0, 0, 0, 0]

theorem recB_image (c : Clock) : Image ⟨c, .opRange true⟩ recB :=
  ⟨fun _ => 0, List.replicate 8 0, rfl, by
    simp only [show construct c (fun _ => 0) (.opRange true) =
      construct ⟨0, 0⟩ (fun _ => 0) (.opRange true) from rfl]; decide +kernel⟩

theorem recE_image (c : Clock) : Image ⟨c, .opRange false⟩ recE :=
  ⟨fun _ => 0, List.replicate 8 0, rfl, by
    simp only [show construct c (fun _ => 0) (.opRange false) =
      construct ⟨0, 0⟩ (fun _ => 0) (.opRange false) from rfl]; decide +kernel⟩

/-- The delete of two elements by one operation. -/
def entryR (c : Clock) : Entry := .range [⟨c, opD⟩, ⟨c, opD⟩]

def recR : Bytes := recB ++ [recD, recD].flatten ++ recE

theorem recR_image (c : Clock) : EntryImage (entryR c) recR :=
  ⟨c, c, recB, recE, [(⟨c, opD⟩, recD), (⟨c, opD⟩, recD)], recB_image c, recE_image c, rfl,
    fun m hm => by simp at hm; rw [hm]; exact recD_update c, rfl⟩

/-- A log of a store and a range, cut inside of the second element of the range, meets the hypotheses
of `C34_recovery_partial`: the store is complete, the range is not. -/
example : (∀ x ∈ [(Entry.one ⟨⟨5, 1000⟩, opK⟩, recK), (entryR ⟨5, 1000⟩, recR)], EntryImage x.1 x.2) ∧
    (bytes [(Entry.one ⟨⟨5, 1000⟩, opK⟩, recK), (entryR ⟨5, 1000⟩, recR)]).length ≤ intMax ∧
    (whole [(Entry.one ⟨⟨5, 1000⟩, opK⟩, recK), (entryR ⟨5, 1000⟩, recR)] 75).length = 1 ∧
    (whole [(Entry.one ⟨⟨5, 1000⟩, opK⟩, recK), (entryR ⟨5, 1000⟩, recR)] 104).length = 2 := by
  refine ⟨fun x hx => ?_, by decide, by decide, by decide⟩
  simp only [List.mem_cons, List.not_mem_nil, or_false] at hx
  rcases hx with rfl | rfl
  · exact recK_update _
  · exact recR_image _

/-- The hypotheses of `C34_served_partial` for a run with a store and the delete of another key. -/
example : ([(Entry.one ⟨⟨5, 1000⟩, opK⟩, recK)].map (·.1) =
      (liveLog noScope (fun _ => none)
        [(⟨5, 1000⟩, .store (kvItem [107] [49, 13, 10] 0 1)), (⟨6, 1001⟩, .delete [98])]).map .one) ∧
    InStep 2000 ⟨2, 2002⟩ ∧
    Calm noScope 995 2002 [107] (fun _ => none)
      [(⟨5, 1000⟩, .store (kvItem [107] [49, 13, 10] 0 1)), (⟨6, 1001⟩, .delete [98])] := by
  refine ⟨rfl, rfl, ⟨⟨rfl, by decide, fun _ => ⟨rfl, Or.inl rfl, fun h => ?_⟩⟩,
    ⟨rfl, by decide, trivial⟩, trivial⟩⟩
  simp [deadline, passed, kvItem, KV.item] at h

/-- C34 is false for records of more than 2 MB (values may have up to 128 MB, by configuration): the
log that begins with a store of such a value cannot be recovered, although nothing is torn. -/
theorem C34_big_false (e : Env) (app : σ → Call → Option σ) (st : σ) (post : Bytes) (c : Clock)
    (it : Item) (hg : GoodItem it) (hk : 2097152 ≤ it.value.length) :
    ∃ b, Image ⟨c, .link it⟩ b ∧ fileApply e app (b ++ post) st = .fail := by
  have hr := all_round c e.clock (.link it) hg (fun p n h => by simp at h) (fun _ => 0)
    (List.replicate (8 + (construct c (fun _ => 0) (.link it)).bodyLen) 0) [] (by simp)
  obtain ⟨b, hw, hlen, _⟩ := hr
  have hi : Image ⟨c, .link it⟩ b := ⟨fun _ => 0, _, by simp, hw⟩
  refine ⟨b, hi, apply_big e app ⟨c, .link it⟩ b trivial hg (fun p n h => by simp at h) hi ?_ post st⟩
  have : 2097152 ≤ (construct c (fun _ => 0) (.link it)).bodyLen := by
    have hal : ∀ n, n ≤ align8 n := by intro n; unfold align8; split <;> omega
    simp only [construct, conLink]
    split <;> (try split) <;> (refine Nat.le_trans ?_ (hal _)) <;> omega
  rw [List.length_replicate] at hlen; omega

example : GoodItem (kvItem [107] (List.replicate 2097152 120) 0 1) ∧
    2097152 ≤ (kvItem [107] (List.replicate 2097152 120) 0 1).value.length := by
  refine ⟨kvItem_good (by decide) (by rw [List.length_replicate]; decide) (by decide) (by decide), ?_⟩
  simp only [kvItem, KV.item]
  rw [List.length_replicate]; exact Nat.le_refl _

/-- Recovery of a log of single updates that grows beyond INT_MAX bytes: what is logged behind the
record that crosses the limit is not redone, and recovery reports success. -/
theorem C34_long (e : Env) (app : σ → Call → Option σ) (st s : σ) (ls : List (Logged × Bytes))
    (hl : ∀ x ∈ ls, Update x.1 x.2) (h1 : (ls.dropLast.map (·.2)).flatten.length ≤ intMax)
    (h2 : intMax < (ls.map (·.2)).flatten.length) (post : Bytes)
    (hs : after app st (ls.map fun x => callOf e.clock x.1) = some s) :
    fileApply e app ((ls.map (·.2)).flatten ++ post) st =
      .val (s, (ls.map (·.2)).flatten.length) := by
  have hlen : ls.length ≤ (ls.map (·.2)).flatten.length := by
    clear h1 h2 hs
    induction ls with
    | nil => simp
    | cons x ls ih =>
      have h8 := record_pos (update_record e.clock x.1 x.2 (hl x (by simp)))
      have := ih (fun y hy => hl y (List.mem_cons_of_mem _ hy))
      simp only [List.length_cons, List.map_cons, List.flatten_cons, List.length_append]
      omega
  have hne : ls ≠ [] := by
    intro h; subst h; simp at h2
  have hlp := loop_long e app rfl post ls hl [] (((ls.map (·.2)).flatten ++ post).length + 1) st hne
    (by rw [List.length_append]; omega) (by simpa using h1) (by simpa using h2)
  rw [hs] at hlp
  unfold fileApply
  rw [if_neg (by rw [List.length_append]; omega)]
  simpa [toRes] using hlp

/-- The record of flush_all. -/
def recF : Bytes := [3, 5, 0, 0, 8, 0, 0, 0, 255, 0, 0, 0, 0, 0, 0, 0]

def opF : Op := .flush [] (-1)

theorem recF_update (c : Clock) : Update ⟨c, opF⟩ recF where
  plain := trivial
  good := Or.inl (by decide)
  short := fun p n h => by simp only [opF, Op.flush.injEq] at h; omega
  image := by
    refine ⟨fun _ => 0, List.replicate 16 0, ?_, ?_⟩ <;>
      simp only [show construct c (fun _ => 0) opF = construct ⟨0, 0⟩ (fun _ => 0) opF from rfl] <;>
      decide +kernel
  size := by decide

theorem flush_many (cur : Nat) (c : Clock) (n : Nat) : ∀ (s : Store), s [107] = none →
    ∃ s1, after (kvApply noScope cur) s
        ((List.replicate n ((⟨c, opF⟩ : Logged), recF)).map fun x => callOf c x.1) = some s1 ∧
      s1 [107] = none := by
  induction n with
  | zero => intro s h; exact ⟨s, rfl, h⟩
  | succ n ih =>
    intro s h
    rw [List.replicate_succ, List.map_cons, after]
    have hc : kvApply noScope cur s (callOf c ⟨c, opF⟩) = some (s.flush fun _ => true) := rfl
    rw [hc]
    exact ih _ (by simp [Store.flush])

/-- C34 is false for logs longer than INT_MAX bytes: after 2^27 flushes (16 bytes each) the store of a
key is in the log completely, recovery succeeds, and the key is absent. -/
theorem C34_long_false (e : Env) :
    ∃ (log : List (Entry × Bytes)) (s s2 : Store) (off : Nat),
      (∀ x ∈ log, EntryImage x.1 x.2) ∧
      fileApply e (kvApply noScope e.clock.cur) (bytes log) (fun _ => none) = .val (s, off) ∧
      s [107] = none ∧
      afterLog (kvApply noScope e.clock.cur) e.clock (fun _ => none) log = some s2 ∧
      s2 [107] = some ⟨0, 0, [49, 13, 10], 1⟩ := by
  obtain ⟨s, hs, hk⟩ := flush_many e.clock.cur e.clock 134217728 (fun _ => none) rfl
  have hfl : ∀ n, ((List.replicate n ((⟨e.clock, opF⟩ : Logged), recF)).map (·.2)).flatten.length =
      n * 16 := by
    intro n
    rw [List.map_replicate, List.length_flatten, List.map_replicate, List.sum_replicate_nat]
    rfl
  have happ := C34_long e (kvApply noScope e.clock.cur) (fun _ => none) s
    (List.replicate 134217728 (⟨e.clock, opF⟩, recF))
    (fun x hx => by rw [List.eq_of_mem_replicate hx]; exact recF_update _)
    (by rw [List.dropLast_replicate, hfl]; decide) (by rw [hfl]; decide) recK hs
  rw [hfl] at happ
  refine ⟨(List.replicate 134217728 (Entry.one ⟨e.clock, opF⟩, recF)) ++ [(.one ⟨e.clock, opK⟩, recK)],
    s, s.put [107] (some ⟨0, 0, [49, 13, 10], 1⟩), 134217728 * 16, ?_, ?_, hk, ?_, put_self _ _ _⟩
  · intro x hx
    rcases List.mem_append.1 hx with hx | hx
    · rw [List.eq_of_mem_replicate hx]; exact recF_update _
    · simp only [List.mem_cons, List.not_mem_nil, or_false] at hx
      rw [hx]; exact recK_update _
  · have : bytes ((List.replicate 134217728 (Entry.one ⟨e.clock, opF⟩, recF)) ++
        [(.one ⟨e.clock, opK⟩, recK)]) =
        ((List.replicate 134217728 ((⟨e.clock, opF⟩ : Logged), recF)).map (·.2)).flatten ++ recK := by
      rw [bytes_append]
      unfold bytes
      rw [List.map_replicate, List.map_replicate]
      rfl
    rw [this]
    exact happ
  · unfold afterLog
    rw [List.flatMap_append, after_append]
    have : (List.replicate 134217728 (Entry.one ⟨e.clock, opF⟩, recF)).flatMap
        (fun x => calls e.clock x.1) = (List.replicate 134217728 ((⟨e.clock, opF⟩ : Logged), recF)).map
          fun x => callOf e.clock x.1 := by
      rw [List.map_replicate, List.flatMap_replicate]
      generalize 134217728 = n
      induction n with
      | zero => rfl
      | succ n ih => rw [List.replicate_succ, List.flatten_cons, ih, List.replicate_succ]; rfl
    rw [this, hs]
    rfl

/-- C35 (partial: crashes that leave no partial range, and runs that overwrite the partial record they
found).  After any number of crashes, recoveries and continuations of the log, recovery restores
exactly the entries written completely in all the runs. -/
theorem C35_restarts_partial (app : Nat → σ → Call → Option σ) (st : σ) (file : Bytes)
    (done : List (Entry × Bytes)) (t : Option Entry) (h : Restarts app st file done t) (e : Env) :
    (∃ s off, afterLog (app e.clock.cur) e.clock st done = some s ∧
      fileApply e (app e.clock.cur) file st = .val (s, off)) ∨
    (afterLog (app e.clock.cur) e.clock st done = none ∧
      fileApply e (app e.clock.cur) file st = .fail) := by
  obtain ⟨log, cut, h1, h2, rfl, rfl, rfl⟩ := restarts_shape app st h
  exact C34_recovery_partial e (app e.clock.cur) log h1 h2 cut st

/-- A run that stores "k" and is cut inside of a second store, and a run that stores "k" again. -/
example (e : Env) : Restarts (kvApply noScope) (fun _ => none)
    (fileWrite ((bytes [(Entry.one ⟨⟨5, 1000⟩, opK⟩, recK), (.one ⟨⟨5, 1000⟩, opK⟩, recK)]).take 70) 40
      ((bytes [(Entry.one ⟨⟨9, 2000⟩, opK⟩, recK)]).take 40))
    (whole [(Entry.one ⟨⟨5, 1000⟩, opK⟩, recK), (.one ⟨⟨5, 1000⟩, opK⟩, recK)] 70 ++
      whole [(Entry.one ⟨⟨9, 2000⟩, opK⟩, recK)] 40)
    (torn [(Entry.one ⟨⟨9, 2000⟩, opK⟩, recK)] 40) := by
  have hl : ∀ x ∈ [(Entry.one ⟨⟨5, 1000⟩, opK⟩, recK), (.one ⟨⟨5, 1000⟩, opK⟩, recK)],
      EntryImage x.1 x.2 := by
    intro x hx
    simp only [List.mem_cons, List.not_mem_nil, or_false, or_self] at hx
    rw [hx]; exact recK_update _
  obtain ⟨off, h1, h2⟩ := fileApply_eq e (kvApply noScope e.clock.cur) rfl _ hl 70 (fun _ => none)
    (by decide)
  have ht : ∀ ls, torn [(Entry.one ⟨⟨5, 1000⟩, opK⟩, recK), (.one ⟨⟨5, 1000⟩, opK⟩, recK)] 70 ≠
      some (.range ls) := by
    intro ls h
    have : torn [(Entry.one ⟨⟨5, 1000⟩, opK⟩, recK), (.one ⟨⟨5, 1000⟩, opK⟩, recK)] 70 =
      some (.one ⟨⟨5, 1000⟩, opK⟩) := rfl
    rw [this] at h
    simp at h
  have hoff : off = 40 := (h2 ht).trans (by decide)
  subst hoff
  exact .again _ _ _ _ _ 40 e _ (.first _ _ hl (by decide)) ht h1
    (fun x hx => by
      simp only [List.mem_cons, List.not_mem_nil, or_false] at hx
      rw [hx]; exact recK_update _) (by decide) (by decide)

/-- What recovery has for a key (for the witnesses). -/
def recovered (e : Env) (file k : Bytes) : Option (Option KV) :=
  match fileApply e (kvApply noScope e.clock.cur) file (fun _ => none) with
  | .val (s, _) => some (s k)
  | _ => none

/-- An environment: recovery at wall-clock time 2000. -/
def env0 : Env := ⟨⟨2, 2000⟩, fun _ => []⟩

/-- The offset at which recovery leaves the descriptor. -/
def leftAt (e : Env) (file : Bytes) : Option Nat :=
  match fileApply e (kvApply noScope e.clock.cur) file (fun _ => none) with
  | .val (_, off) => some off
  | _ => none

/-- C35 is false: a crash inside of a range leaves its beginning in the file.  The next run stores "k";
the record is complete in the file; the next recovery succeeds without the key. -/
theorem C35_range_false :
    (∀ c, EntryImage (entryR c) recR) ∧ (∀ c, Update ⟨c, opK⟩ recK) ∧
    leftAt env0 (recR.take 50) = some 32 ∧
    recovered env0 (fileWrite (recR.take 50) 32 recK) [107] = some none :=
  ⟨recR_image, recK_update, by decide +kernel, by decide +kernel⟩

/-- If the next run writes another range, the server cannot be recovered at all. -/
theorem C35_range_fail_false :
    leftAt env0 (recR.take 50) = some 32 ∧
    recovered env0 (fileWrite (recR.take 50) 32 (recK ++ recR)) [107] = none :=
  ⟨by decide +kernel, by decide +kernel⟩

/-- A store of the 49 byte value "xxxxxxx" followed by the bytes of a store of "z" under "y". -/
def opV : Op := .link (kvItem [107] ([120, 120, 120, 120, 120, 120, 120] ++
  [0, 0, 0, 0, 32, 0, 0, 0, 0, 0, 1, 0, 3, 0, 0, 0, 0, 0, 0, 0, 0, 0, 0, 0, 9, 0, 0, 0, 0, 0, 0, 0,
    121, 122, 13, 10, 0, 0, 0, 0] ++ [13, 10]) 0 1)

def recV : Bytes :=
  [0, 0, 0, 0, 80, 0, 0, 0, 0, 0, 1, 0, 49, 0, 0, 0, 0, 0, 0, 0, 0, 0, 0, 0, 1, 0, 0, 0, 0, 0, 0, 0,
    107, 120, 120, 120, 120, 120, 120, 120] ++
  [0, 0, 0, 0, 32, 0, 0, 0, 0, 0, 1, 0, 3, 0, 0, 0, 0, 0, 0, 0, 0, 0, 0, 0, 9, 0, 0, 0, 0, 0, 0, 0,
    121, 122, 13, 10, 0, 0, 0, 0] ++ [13, 10, 0, 0, 0, 0, 0, 0]

theorem recV_update (c : Clock) : Update ⟨c, opV⟩ recV where
  plain := trivial
  good := kvItem_good (by decide) (by decide) (by decide) (by decide)
  short := fun p n h => by simp [opV] at h
  image := by
    refine ⟨fun _ => 0, List.replicate 88 0, ?_, ?_⟩ <;>
      simp only [show construct c (fun _ => 0) opV = construct ⟨0, 0⟩ (fun _ => 0) opV from rfl] <;>
      decide +kernel
  size := by decide

/-- C35 is false for another reason: a partial record is not cut off.  A crash one byte before the end
of the record of a value, then a shorter store of "k": what is left of the partial record is redone,
and the server serves "y", a key that nobody ever stored. -/
theorem C35_tail_false :
    (∀ c, Update ⟨c, opV⟩ recV) ∧ (∀ c, Update ⟨c, opK⟩ recK) ∧
    leftAt env0 (recV.take 87) = some 0 ∧
    recovered env0 (fileWrite (recV.take 87) 0 recK) [107] = some (some ⟨0, 0, [49, 13, 10], 1⟩) ∧
    recovered env0 (fileWrite (recV.take 87) 0 recK) [121] = some (some ⟨0, 0, [122, 13, 10], 9⟩) :=
  ⟨recV_update, recK_update, by decide +kernel, by decide +kernel, by decide +kernel⟩

/-- C41 (partial: `Calm`, i.e. no value whose lifetime runs out before recovery superseded one whose
lifetime does not).  A key of which the last state has expired by recovery is absent. -/
theorem C41_absent_partial (sc : Scope) (start start' : Nat) (e : Env) (evs : List (Clock × Ev))
    (log : List (Entry × Bytes)) (k : Bytes)
    (hlog : log.map (·.1) = (liveLog sc (fun _ => none) evs).map .one)
    (hl : ∀ x ∈ log, EntryImage x.1 x.2) (hi : (bytes log).length ≤ intMax)
    (hs : InStep start' e.clock) (h1 : 1 ≤ e.clock.cur) (hw : e.clock.wall < 4294967295)
    (hc : Calm sc start e.clock.wall k (fun _ => none) evs)
    (hx : served start (liveStore sc (fun _ => none) evs) e.clock.wall k = none) :
    ∃ s' off, fileApply e (kvApply sc e.clock.cur) (bytes log) (fun _ => none) = .val (s', off) ∧
      ∀ t, e.clock.wall ≤ t → served start' s' t k = none := by
  obtain ⟨s1, ha, hrel⟩ := run_rel (sc := sc) hs hw h1 evs _ _ (rel_empty start start' e.clock k) hc
  have hcalls : log.flatMap (fun x => calls e.clock x.1) =
      (liveLog sc (fun _ => none) evs).map (callOf e.clock) := by
    have h2 : log.flatMap (fun x => calls e.clock x.1) = (log.map (·.1)).flatMap (calls e.clock) := by
      rw [List.flatMap_map]
    rw [h2, hlog]
    generalize liveLog sc (fun _ => none) evs = l
    induction l with
    | nil => rfl
    | cons x l ih => rw [List.map_cons, List.flatMap_cons, ih]; rfl
  obtain ⟨off, h3, _⟩ := fileApply_eq e (kvApply sc e.clock.cur) rfl log hl (bytes log).length
    (fun _ => none) hi
  rw [List.take_length] at h3
  have hwhole : whole log (bytes log).length = log := by
    have := (whole_append log [] 0).1
    simpa [whole] using this
  rw [hwhole] at h3
  refine ⟨s1, off, ?_, fun t ht => ?_⟩
  · rw [h3]; unfold afterLog; rw [hcalls, ha]; rfl
  · rw [rel_served hrel hs hw t ht]
    revert hx
    unfold served
    split
    · intro _; rfl
    · rename_i v hv
      split
      · rename_i hp
        intro _
        rw [if_pos]
        revert hp
        cases deadline start v.exp with
        | none => exact id
        | some d => simp only [passed]; omega
      · intro h; simp at h

/-- The record of a store of "2" under "k" at time 1000 with ten seconds of lifetime. -/
def opK2 : Op := .link (kvItem [107] [50, 13, 10] 15 2)

def recK2 : Bytes :=
  [0, 0, 0, 0, 32, 0, 0, 0, 0, 0, 1, 0, 3, 0, 0, 0, 0, 0, 0, 0, 242, 3, 0, 0, 2, 0, 0, 0, 0, 0, 0, 0,
    107, 50, 13, 10, 0, 0, 0, 0]

theorem recK2_update : Update ⟨⟨5, 1000⟩, opK2⟩ recK2 where
  plain := trivial
  good := kvItem_good (by decide) (by decide) (by decide) (by decide)
  short := fun p n h => by simp [opK2] at h
  image := ⟨fun _ => 0, List.replicate 40 0, by decide +kernel, by decide +kernel⟩
  size := by decide

/-- C41 is false: "k" is stored without expiry, then again with ten seconds of lifetime.  In the
running server it is gone at time 2000; recovery at that time brings the first value back, for
ever. -/
theorem C41_false :
    (bytes [(Entry.one ⟨⟨4, 999⟩, opK⟩, recK), (.one ⟨⟨5, 1000⟩, opK2⟩, recK2)] = recK ++ recK2) ∧
    Update ⟨⟨4, 999⟩, opK⟩ recK ∧ Update ⟨⟨5, 1000⟩, opK2⟩ recK2 ∧
    (liveLog noScope (fun _ => none) [(⟨4, 999⟩, .store (kvItem [107] [49, 13, 10] 0 1)),
      (⟨5, 1000⟩, .store (kvItem [107] [50, 13, 10] 15 2))] = [⟨⟨4, 999⟩, opK⟩, ⟨⟨5, 1000⟩, opK2⟩]) ∧
    served 995 (liveStore noScope (fun _ => none) [(⟨4, 999⟩, .store (kvItem [107] [49, 13, 10] 0 1)),
      (⟨5, 1000⟩, .store (kvItem [107] [50, 13, 10] 15 2))]) 2000 [107] = none ∧
    recovered env0 (recK ++ recK2) [107] = some (some ⟨0, 0, [49, 13, 10], 1⟩) :=
  ⟨rfl, recK_update _, recK2_update, rfl, by decide +kernel, by decide +kernel⟩

/-- A run that meets the hypotheses of `C41_absent_partial`: only the store with a lifetime. -/
example : Calm noScope 995 2000 [107] (fun _ => none)
      [(⟨5, 1000⟩, .store (kvItem [107] [50, 13, 10] 15 2))] ∧
    served 995 (liveStore noScope (fun _ => none)
      [(⟨5, 1000⟩, .store (kvItem [107] [50, 13, 10] 15 2))]) 2000 [107] = none ∧
    [(Entry.one ⟨⟨5, 1000⟩, opK2⟩, recK2)].map (·.1) = (liveLog noScope (fun _ => none)
      [(⟨5, 1000⟩, .store (kvItem [107] [50, 13, 10] 15 2))]).map .one :=
  ⟨⟨⟨rfl, by decide, fun _ => ⟨rfl, Or.inr (Or.inr (by decide)), fun _ => rfl⟩⟩, trivial⟩,
    by decide +kernel, rfl⟩

/-- C47 (partial: `Calm`).  An item whose lifetime was extended before the old one ran out, and whose
old lifetime has not run out by recovery either, is served after recovery until its new end. -/
theorem C47_extended_partial (sc : Scope) (start start' : Nat) (e : Env) (evs : List (Clock × Ev))
    (log : List (Entry × Bytes)) (k : Bytes) (v : KV)
    (hlog : log.map (·.1) = (liveLog sc (fun _ => none) evs).map .one)
    (hl : ∀ x ∈ log, EntryImage x.1 x.2) (hi : (bytes log).length ≤ intMax)
    (hs : InStep start' e.clock) (h1 : 1 ≤ e.clock.cur) (hw : e.clock.wall < 4294967295)
    (hc : Calm sc start e.clock.wall k (fun _ => none) evs)
    (hv : liveStore sc (fun _ => none) evs k = some v) :
    ∃ s' off, fileApply e (kvApply sc e.clock.cur) (bytes log) (fun _ => none) = .val (s', off) ∧
      ∀ t, e.clock.wall ≤ t → served start' s' t k =
        if passed t (deadline start v.exp) then none else some ⟨v.flags, v.value, v.cas⟩ := by
  obtain ⟨s1, ha, hrel⟩ := run_rel (sc := sc) hs hw h1 evs _ _ (rel_empty start start' e.clock k) hc
  have hcalls : log.flatMap (fun x => calls e.clock x.1) =
      (liveLog sc (fun _ => none) evs).map (callOf e.clock) := by
    have h2 : log.flatMap (fun x => calls e.clock x.1) = (log.map (·.1)).flatMap (calls e.clock) := by
      rw [List.flatMap_map]
    rw [h2, hlog]
    generalize liveLog sc (fun _ => none) evs = l
    induction l with
    | nil => rfl
    | cons x l ih => rw [List.map_cons, List.flatMap_cons, ih]; rfl
  obtain ⟨off, h3, _⟩ := fileApply_eq e (kvApply sc e.clock.cur) rfl log hl (bytes log).length
    (fun _ => none) hi
  rw [List.take_length] at h3
  have hwhole : whole log (bytes log).length = log := by
    have := (whole_append log [] 0).1
    simpa [whole] using this
  rw [hwhole] at h3
  refine ⟨s1, off, ?_, fun t ht => ?_⟩
  · rw [h3]; unfold afterLog; rw [hcalls, ha]; rfl
  · rw [rel_served hrel hs hw t ht]
    unfold served
    rw [hv]

/-- The record of a change of the lifetime of "k" to 2000 seconds. -/
def opT : Op := .setattr (kvItem [107] [50, 13, 10] 2005 2) 2

def recT : Bytes :=
  [2, 2, 0, 0, 24, 0, 0, 0, 1, 0, 0, 0, 184, 11, 0, 0, 0, 0, 255, 0, 0, 0, 0, 0,
    107, 0, 0, 0, 0, 0, 0, 0]

theorem recT_update : Update ⟨⟨5, 1000⟩, opT⟩ recT where
  plain := trivial
  good := ⟨kvItem_good (by decide) (by decide) (by decide) (by decide), Or.inl rfl⟩
  short := fun p n h => by simp [opT] at h
  image := ⟨fun _ => 0, List.replicate 32 0, by decide +kernel, by decide +kernel⟩
  size := by decide

/-- C47 is false: "k" is stored with ten seconds of lifetime and its lifetime is set to 2000 seconds.
At time 2000 the running server still serves it (until 3000); recovery at that time loses it. -/
theorem C47_false :
    Update ⟨⟨5, 1000⟩, opK2⟩ recK2 ∧ Update ⟨⟨5, 1000⟩, opT⟩ recT ∧
    (liveLog noScope (fun _ => none) [(⟨5, 1000⟩, .store (kvItem [107] [50, 13, 10] 15 2)),
      (⟨5, 1000⟩, .touch [107] 2005)] = [⟨⟨5, 1000⟩, opK2⟩, ⟨⟨5, 1000⟩, opT⟩]) ∧
    served 995 (liveStore noScope (fun _ => none)
      [(⟨5, 1000⟩, .store (kvItem [107] [50, 13, 10] 15 2)), (⟨5, 1000⟩, .touch [107] 2005)]) 2000
      [107] = some ⟨0, [50, 13, 10], 2⟩ ∧
    recovered env0 (recK2 ++ recT) [107] = some none :=
  ⟨recK2_update, recT_update, rfl, by decide +kernel, by decide +kernel⟩

/-- A run that meets the hypotheses of `C47_extended_partial`: recovery at 1005. -/
example : Calm noScope 995 1005 [107] (fun _ => none)
      [(⟨5, 1000⟩, .store (kvItem [107] [50, 13, 10] 15 2)), (⟨5, 1000⟩, .touch [107] 2005)] ∧
    liveStore noScope (fun _ => none)
      [(⟨5, 1000⟩, .store (kvItem [107] [50, 13, 10] 15 2)), (⟨5, 1000⟩, .touch [107] 2005)] [107] =
      some ⟨0, 2005, [50, 13, 10], 2⟩ := by
  refine ⟨⟨⟨rfl, by decide, fun _ => ⟨rfl, Or.inr (Or.inr (by decide)), fun _ => rfl⟩⟩,
    ⟨rfl, by decide, fun _ => ⟨Or.inr (Or.inr (by decide)), fun v hv => ?_⟩⟩, trivial⟩, by decide +kernel⟩
  have : ((liveStep noScope ⟨5, 1000⟩ (fun _ => none)
    (.store (kvItem [107] [50, 13, 10] 15 2))).1).find 5 [107] = some ⟨0, 15, [50, 13, 10], 2⟩ := by
    decide +kernel
  rw [this] at hv
  cases Option.some.inj hv
  decide

end Verif.Log.Props
