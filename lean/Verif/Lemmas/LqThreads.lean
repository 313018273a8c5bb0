/-
Lemmas about long query detection: any interleaving of threads.
-/
import Verif.Lemmas.LqRun

namespace Verif.LqDetect

open Spec (args cost shown line same whole OkQuery OkCall OkRange samples OkAct Calm)

/-- A buffer holds whole lines of calls with a property. -/
def BufT (cmd : Cmd) (P : Call → Prop) (b : Buf) : Prop :=
  ∃ L : List Call, (∀ c ∈ L, c.query.cmd = cmd ∧ OkCall c ∧ P c) ∧ b.nsaved = L.length ∧ L.length ≤ 20 ∧
    b.offset = (L.flatMap line).length ∧ (0 < b.nsaved → b.data = L.flatMap line) ∧
    (b.nsaved = 0 → b.ntotal = 0 ∧ b.args = []) ∧ b.ntotal < 4294967296

theorem bufT_zero {cmd : Cmd} {P : Call → Prop} {b : Buf} (h1 : b.nsaved = 0) (h2 : b.ntotal = 0)
    (h3 : b.args = []) (h4 : b.offset = 0) : BufT cmd P b :=
  ⟨[], (fun c hc => by cases hc), h1, by simp, h4, (fun h => by omega), (fun _ => ⟨h2, h3⟩), by omega⟩

theorem bufT_empty {cmd : Cmd} {P Q : Call → Prop} {b : Buf} (h : BufT cmd P b) (h1 : b.nsaved = 0) :
    BufT cmd Q b := by
  obtain ⟨L, _, hn, _, ho, _, hz, _⟩ := h
  have hL : L = [] := List.eq_nil_of_length_eq_zero (by omega)
  subst hL
  exact bufT_zero h1 (hz h1).1 (hz h1).2 ho

theorem bufT_mono {cmd : Cmd} {P Q : Call → Prop} {b : Buf} (h : BufT cmd P b) (hpq : ∀ c, P c → Q c) :
    BufT cmd Q b := by
  obtain ⟨L, hL, hr⟩ := h
  exact ⟨L, fun c hc => ⟨(hL c hc).1, (hL c hc).2.1, hpq c (hL c hc).2.2⟩, hr⟩

theorem write_T {c : Call} {P : Call → Prop} {b : Buf} {a : Arg} (hb : BufT c.query.cmd P b)
    (hc : OkCall c) (hp : P c) (hq : a.query = args c.query) (ho : a.overhead = cost c.query)
    (hl : b.nsaved < 20) :
    ∃ b', write { b with ntotal := (b.ntotal + 1) % 4294967296 } c.query.cmd c a = some b' ∧
      BufT c.query.cmd P b' := by
  obtain ⟨L, hL, hn, h20, hof, hd, hz, hnt⟩ := hb
  have hmod : (b.ntotal + 1) % 4294967296 < 4294967296 := Nat.mod_lt _ (by omega)
  unfold write
  by_cases hdup : duplicated { b with ntotal := (b.ntotal + 1) % 4294967296 } c.query.cmd (keyPtr c.key) a = true
  · simp only [hdup, if_true]
    refine ⟨_, rfl, L, hL, hn, h20, hof, hd, ?_, hmod⟩
    intro h0
    exfalso
    have hae := (hz h0).2
    simp only [duplicated, hae, List.any_nil] at hdup
    cases hdup
  · simp only [hdup]
    have hlen := lines_len (fun o ho' => (hL o ho').2.1)
    have hng : ¬ (b.nsaved ≥ 20 ∨ (b.nsaved + 1) * 500 > 10000 ∨ (b.nsaved + 1) * 500 ≤ b.offset) := by
      omega
    have hline := line_ok hc a hq ho
    have hcut : cut ((b.nsaved + 1) * 500 - b.offset) (lineText c.query.cmd c a (keyPtr c.key)) = line c := by
      rw [hline.1]
      apply cut_id
      have := hline.2
      omega
    simp only [hng, if_false, hcut]
    have hdat : b.data.take b.offset = L.flatMap line := by
      by_cases h0 : 0 < b.nsaved
      · rw [hd h0, hof, List.take_length]
      · have he : L = [] := List.eq_nil_of_length_eq_zero (by omega)
        rw [hof, he]; rfl
    refine ⟨_, rfl, L ++ [c], ?_, ?_, ?_, ?_, ?_, ?_, hmod⟩
    · intro o ho'
      rcases List.mem_append.mp ho' with h | h
      · exact hL o h
      · rw [List.mem_singleton.mp h]; exact ⟨rfl, hc, hp⟩
    · rw [List.length_append, List.length_singleton, ← hn]
    · rw [List.length_append, List.length_singleton]; omega
    · rw [List.flatMap_append, List.length_append, ← hof]; simp
    · intro _; rw [List.flatMap_append, ← hdat]; simp
    · intro h0; exact absurd h0 (Nat.succ_ne_zero _)

theorem save_T {s : LQ} {c : Call} {a : Arg} {P : Call → Prop} (hb : ∀ x, BufT x P (s.buf x))
    (hc : OkCall c) (hp : P c) (hq : a.query = args c.query) (ho : a.overhead = cost c.query) :
    ∃ s', save s c a = some s' ∧ (∀ x, BufT x P (s'.buf x)) ∧ s'.threshold = s.threshold := by
  unfold save
  by_cases hu : s.inUse = true
  · rw [if_pos hu]
    by_cases hl : (s.buf c.query.cmd).nsaved < 20
    · simp only [hl, if_true]
      obtain ⟨b', hw, hb'⟩ := write_T (hb c.query.cmd) hc hp hq ho hl
      rw [hw]
      simp only [Option.bind_eq_bind, Option.bind_some]
      have hbuf : ∀ x, BufT x P (if x = c.query.cmd then b' else s.buf x) := by
        intro x
        by_cases hx : x = c.query.cmd
        · rw [if_pos hx]; subst hx; exact hb'
        · rw [if_neg hx]; exact hb x
      by_cases h20 : b'.nsaved ≥ 20
      · rw [if_pos h20]
        refine ⟨_, rfl, ?_⟩
        split <;> exact ⟨hbuf, rfl⟩
      · rw [if_neg h20]
        exact ⟨_, rfl, hbuf, rfl⟩
    · simp only [hl, if_false]
      refine ⟨_, rfl, ?_, rfl⟩
      intro x
      by_cases hx : x = c.query.cmd
      · simp only [if_pos hx]
        subst hx
        obtain ⟨L, hL, hn, h20, hof, hd, hz, hnt⟩ := hb c.query.cmd
        exact ⟨L, hL, hn, h20, hof, hd, (fun h => by have h' : (s.buf c.query.cmd).nsaved = 0 := h; omega),
          Nat.mod_lt _ (by omega)⟩
      · simp only [if_neg hx]; exact hb x
  · rw [if_neg hu]
    exact ⟨s, rfl, hb, rfl⟩

theorem save_unused {s : LQ} {c : Call} {a : Arg} (h : s.inUse = false) : save s c a = some s := by
  unfold save
  rw [if_neg (by rw [h]; simp)]

/-- What holds between the steps of the threads. -/
structure Inv (calm : Prop) (seen : List Act) (s : Sys) : Prop where
  buf : ∀ cmd, BufT cmd (fun c => (∃ w, Act.check w c ∈ seen) ∧ (calm → s.lq.threshold ≤ cost c.query))
    (s.lq.buf cmd)
  pc : ∀ w c, s.pc w = .checked c ∨ s.pc w = .long c → OkCall c ∧ ∃ w, Act.check w c ∈ seen
  long : calm → ∀ w c, s.pc w = .long c → s.lq.threshold ≤ cost c.query
  starting : s.starting ≠ none → s.lq.inUse = false ∧ (calm → ∀ w, s.pc w = .idle) ∧
    ∀ cmd, (s.lq.buf cmd).nsaved = 0

theorem inv_init (calm : Prop) : Inv calm [] Sys.init where
  buf := fun _ => bufT_zero rfl rfl rfl rfl
  pc := (fun w c h => by rcases h with h | h <;> cases h)
  long := (fun _ w c h => by cases h)
  starting := fun h => absurd rfl h

theorem inv_more {calm : Prop} {seen : List Act} {s : Sys} (a : Act) (h : Inv calm seen s) :
    Inv calm (a :: seen) s where
  buf := fun cmd => bufT_mono (h.buf cmd)
    (fun _ hc => ⟨hc.1.imp (fun _ hw => List.mem_cons_of_mem _ hw), hc.2⟩)
  pc := fun w c hc => ⟨(h.pc w c hc).1, (h.pc w c hc).2.imp (fun _ hw => List.mem_cons_of_mem _ hw)⟩
  long := h.long
  starting := h.starting

theorem inv_step {calm : Prop} {seen : List Act} {s : Sys} {a : Act} (h0 : Inv calm seen s) (ha : OkAct a)
    (hcalm : calm → ∀ t, a = .clear t → s.lq.inUse = false → ∀ w, s.pc w = .idle) :
    ∃ s', s.step a = some s' ∧ Inv calm (a :: seen) s' := by
  have h := inv_more a h0
  cases a with
  | check w c =>
    simp only [Sys.step]
    split
    · by_cases hu : s.lq.inUse = true
      · rw [if_pos hu]
        refine ⟨_, rfl, ⟨h.buf, ?_, ?_, ?_⟩⟩
        · intro x d hd
          by_cases hx : x = w
          · simp only [if_pos hx] at hd
            rcases hd with hd | hd
            · injection hd with hd; subst hd; exact ⟨ha, w, List.mem_cons_self ..⟩
            · cases hd
          · simp only [if_neg hx] at hd; exact h.pc x d hd
        · intro hc x d hd
          by_cases hx : x = w
          · simp only [if_pos hx] at hd; cases hd
          · simp only [if_neg hx] at hd; exact h.long hc x d hd
        · intro hs
          have := (h.starting hs).1
          rw [hu] at this; cases this
      · rw [if_neg hu]; exact ⟨s, rfl, h⟩
    · exact ⟨s, rfl, h⟩
  | compare w =>
    simp only [Sys.step]
    split
    · rename_i c hpc
      have hok := (h.pc w c (Or.inl hpc))
      have ho := (overhead_ok hok.1.2.2.2.2.2).1
      rw [ho]
      refine ⟨_, rfl, ⟨h.buf, ?_, ?_, ?_⟩⟩
      · intro x d hd
        by_cases hx : x = w
        · simp only [if_pos hx] at hd
          split at hd
          · rcases hd with hd | hd
            · cases hd
            · injection hd with hd; subst hd; exact hok
          · rcases hd with hd | hd <;> cases hd
        · simp only [if_neg hx] at hd; exact h.pc x d hd
      · intro hc x d hd
        by_cases hx : x = w
        · simp only [if_pos hx] at hd
          split at hd
          · rename_i hth
            injection hd with hd; subst hd; exact hth
          · cases hd
        · simp only [if_neg hx] at hd; exact h.long hc x d hd
      · intro hs
        obtain ⟨h1, h2, h3⟩ := h.starting hs
        refine ⟨h1, ?_, h3⟩
        intro hc x
        have := h2 hc w
        rw [hpc] at this; cases this
    · exact ⟨s, rfl, h⟩
  | save w =>
    simp only [Sys.step]
    split
    · rename_i c hpc hst
      have hok := (h.pc w c (Or.inr hpc))
      have ho := (overhead_ok hok.1.2.2.2.2.2).1
      have ht := (text_ok hok.1.2.2.2.2.2).1
      rw [ho, ht]
      simp only [Option.bind_eq_bind, Option.bind_some]
      obtain ⟨l, hl, hb, hthr⟩ := save_T (s := s.lq) (c := c)
        (a := { query := args c.query, key := [], count := c.query.count, overhead := cost c.query })
        h.buf hok.1 ⟨hok.2, fun hc => h.long hc w c hpc⟩ rfl rfl
      rw [hl]
      refine ⟨_, rfl, ⟨?_, ?_, ?_, ?_⟩⟩
      · simp only [hthr]; exact hb
      · intro x d hd
        by_cases hx : x = w
        · simp only [if_pos hx] at hd; rcases hd with hd | hd <;> cases hd
        · simp only [if_neg hx] at hd; exact h.pc x d hd
      · intro hc x d hd
        simp only [hthr]
        by_cases hx : x = w
        · simp only [if_pos hx] at hd; cases hd
        · simp only [if_neg hx] at hd; exact h.long hc x d hd
      · intro hs; exact absurd hst hs
    · exact ⟨s, rfl, h⟩
  | clear t =>
    simp only [Sys.step]
    split
    · by_cases hu : s.lq.inUse = true
      · rw [if_pos hu]; exact ⟨s, rfl, h⟩
      · rw [if_neg hu]
        refine ⟨_, rfl, ⟨fun _ => bufT_zero rfl rfl rfl rfl, h.pc, fun _ _ _ _ => Nat.zero_le _, ?_⟩⟩
        intro _
        have hu' : s.lq.inUse = false := by simpa using hu
        exact ⟨hu', fun hc => hcalm hc t rfl hu', fun _ => rfl⟩
    · exact ⟨s, rfl, h⟩
  | begin_ =>
    simp only [Sys.step]
    split
    · rename_i t hst
      obtain ⟨h1, h2, h3⟩ := h.starting (by rw [hst]; simp)
      refine ⟨_, rfl, ⟨fun cmd => bufT_empty (h.buf cmd) (h3 cmd), h.pc, ?_, fun hs => absurd rfl hs⟩⟩
      intro hc w c hw
      rw [show s.pc w = .idle from h2 hc w] at hw
      cases hw
    · exact ⟨s, rfl, h⟩
  | stop =>
    simp only [Sys.step]
    split
    · rename_i hst
      have hthr : (LqDetect.stop s.lq).threshold = s.lq.threshold := by
        unfold LqDetect.stop doStop; split <;> rfl
      have hbuf : (LqDetect.stop s.lq).buf = s.lq.buf := by
        unfold LqDetect.stop doStop; split <;> rfl
      refine ⟨_, rfl, ⟨?_, h.pc, ?_, fun hs => absurd hst hs⟩⟩
      · simp only [hthr, hbuf]; exact h.buf
      · simp only [hthr]; exact h.long
    · exact ⟨s, rfl, h⟩

theorem inv_run {calm : Prop} : ∀ (as : List Act) {seen : List Act} {s : Sys}, Inv calm seen s →
    (∀ a ∈ as, OkAct a) → (calm → Calm s as) →
    ∃ s', Sys.run s as = some s' ∧ Inv calm (as.reverse ++ seen) s' := by
  intro as
  induction as with
  | nil => intro seen s h _ _; exact ⟨s, rfl, h⟩
  | cons a as ih =>
    intro seen s h ha hcalm
    obtain ⟨s1, h1, hi⟩ := inv_step h (ha a (List.mem_cons_self ..)) (fun hc => (hcalm hc).1)
    obtain ⟨s2, h2, hi2⟩ := ih hi (fun x hx => ha x (List.mem_cons_of_mem _ hx)) (fun hc => (hcalm hc).2 s1 h1)
    refine ⟨s2, ?_, ?_⟩
    · simp only [Sys.run, h1, Option.bind_eq_bind, Option.bind_some, h2]
    · rw [List.reverse_cons, List.append_assoc]; exact hi2

/-! ### The report -/

theorem show_T {s : LQ} {n : Cmd → Nat} {L : Cmd → List Call} (hn : ∀ c, n c < 4294967296)
    (hs : ∀ c, (s.buf c).ntotal = n c) (hd : ∀ c, 0 < n c → (s.buf c).data = (L c).flatMap line)
    (hz : ∀ c, n c = 0 → L c = []) (hof : ∀ c, 0 < n c → (s.buf c).offset = ((L c).flatMap line).length)
    (length : Nat) : ∀ (cs : List Cmd) (out : Text),
    out.length + (cs.map (fun c => 24 + (s.buf c).offset)).sum < length →
    showLoop s length cs out = some (out ++ cs.flatMap (fun cmd =>
      (Spec.name cmd).toList ++ " : ".toList ++ Spec.num (n cmd) ++ ['\n'] ++ (L cmd).flatMap line)) := by
  intro cs
  induction cs with
  | nil => intro out _; simp [showLoop]
  | cons c cs ih =>
    intro out hlen
    rw [List.map_cons, List.sum_cons] at hlen
    have hdig := dec32 (hn c)
    have hcs := cmdStr_len c
    have hdat : (if (s.buf c).ntotal > 0
        then out ++ (cmdStr c ++ " : ".toList ++ dec (s.buf c).ntotal ++ ['\n']) ++ (s.buf c).data
        else out ++ (cmdStr c ++ " : ".toList ++ dec (s.buf c).ntotal ++ ['\n'])) =
        out ++ (cmdStr c ++ " : ".toList ++ dec (n c) ++ ['\n'] ++ (L c).flatMap line) := by
      rw [hs c]
      by_cases h0 : n c > 0
      · rw [if_pos h0, hd c h0]
        simp only [List.append_assoc]
      · rw [if_neg h0, hz c (by omega)]
        simp
    have hoff : ((L c).flatMap line).length ≤ (s.buf c).offset := by
      by_cases h0 : n c > 0
      · rw [hof c h0]
      · rw [hz c (by omega)]; simp
    have hlen2 : (out ++ (cmdStr c ++ " : ".toList ++ dec (n c) ++ ['\n'] ++ (L c).flatMap line)).length
        ≤ out.length + (24 + (s.buf c).offset) := by
      simp only [List.length_append, List.length_cons, List.length_nil]
      rw [show " : ".toList.length = 3 from rfl]
      omega
    simp only [showLoop]
    rw [hdat, if_neg (by omega), ih _ (by omega), List.flatMap_cons, cmdStr_eq]
    simp only [List.append_assoc]
    rfl

/-- The report at any time. -/
theorem inv_show {calm : Prop} {seen : List Act} {s : Sys} (h : Inv calm seen s) :
    ∃ (n : Cmd → Nat) (L : Cmd → List Call),
      (∀ cmd, (L cmd).length ≤ 20 ∧ ∀ c ∈ L cmd, c.query.cmd = cmd ∧ (∃ w, Act.check w c ∈ seen) ∧
        (calm → s.lq.threshold ≤ cost c.query)) ∧
      showText s.lq = some (Spec.text n L) := by
  have hch := fun cmd => h.buf cmd
  unfold BufT at hch
  obtain ⟨L, hL⟩ := Classical.axiomOfChoice hch
  refine ⟨fun c => (s.lq.buf c).ntotal, fun c => if (s.lq.buf c).ntotal = 0 then [] else L c, ?_, ?_⟩
  · intro cmd
    by_cases h0 : (s.lq.buf cmd).ntotal = 0
    · simp only [if_pos h0]
      exact ⟨by simp, fun c hc => by cases hc⟩
    · simp only [if_neg h0]
      exact ⟨(hL cmd).2.2.1, fun c hc => ⟨((hL cmd).1 c hc).1, ((hL cmd).1 c hc).2.2⟩⟩
  · unfold showText
    rw [show_T (n := fun c => (s.lq.buf c).ntotal)
      (L := fun c => if (s.lq.buf c).ntotal = 0 then [] else L c)]
    · rfl
    · intro c; exact (hL c).2.2.2.2.2.2
    · intro c; rfl
    · intro c hc
      obtain ⟨_, _, _, _, hd, hz, _⟩ := hL c
      have : ¬ (s.lq.buf c).ntotal = 0 := by have hc' : 0 < (s.lq.buf c).ntotal := hc; omega
      simp only [if_neg this]
      apply hd
      by_contra hh
      exact this (hz (by omega)).1
    · intro c hc
      exact if_pos hc
    · intro c hc
      have : ¬ (s.lq.buf c).ntotal = 0 := by have hc' : 0 < (s.lq.buf c).ntotal := hc; omega
      simp only [if_neg this]
      exact (hL c).2.2.2.1
    · rw [sum_add24]
      have : cmds.length = 10 := rfl
      rw [this]
      simp only [List.length_nil]
      omega

/-! ### What the list commands visit -/

theorem find_le {ccnt i : Int} (h0 : 0 ≤ i) (h1 : i < ccnt) :
    findSteps ccnt i ≤ i.toNat ∧ findSteps ccnt i ≤ (ccnt - i).toNat := by
  unfold findSteps
  split <;> omega

end Verif.LqDetect
