import Verif.Lemmas.Bin

/-! Helper lemmas about the binary protocol: how many answers a request gets, and which. -/

namespace Verif.Bin

open Spec

theorem cmdOf_quiet (b : Bool) (op : Nat) : (cmdOf b op).2 = quiet op := by
  unfold cmdOf
  split <;> (try split) <;> (try rfl)
  cases hq : quiet op with
  | false => rfl
  | true =>
    exfalso
    simp only [quiet, Bool.or_eq_true, Bool.and_eq_true, beq_iff_eq, decide_eq_true_eq] at hq
    simp only [imp_false] at *
    omega

theorem cmdOf_get (b : Bool) (op : Nat) : ((cmdOf b op).1 = .get ∨ (cmdOf b op).1 = .getk) ∧ (cmdOf b op).2 = true ↔ quietGet op = true := by
  constructor
  · rintro ⟨h, h2⟩
    revert h h2
    unfold cmdOf
    split <;> (try split) <;> simp [quietGet]
  · intro h
    simp only [quietGet, Bool.or_eq_true, beq_iff_eq] at h
    rcases h with h | h <;> subst h <;> simp [cmdOf]

theorem cmdOf_other {b : Bool} {op : Nat} (h : (cmdOf b op).1 = .other) : (cmdOf b op).2 = false := by
  revert h
  unfold cmdOf
  split <;> (try split) <;> simp

theorem cmdOf_stat' {b : Bool} {op : Nat} (h : (cmdOf b op).1 = .stat) : (cmdOf b op).2 = false := by
  rw [cmdOf_stat h]; rfl

/-- `Answered`, by the command. -/
def Ans {σ : Type} (h : Hdr) (c : Cmd) (q : Bool) : Res σ → Prop
  | .done o => (∀ r ∈ o.resps, Belongs h r) ∧
    ((o.next = .closing ∧ o.resps.length ≤ 1) ∨
     (c ≠ .stat ∧ q = false ∧ o.resps.length = 1) ∨
     (q = true ∧ ¬(c = .get ∨ c = .getk) ∧ o.resps.length ≤ 1 ∧ ∀ r ∈ o.resps, r.status ≠ 0) ∨
     (q = true ∧ (c = .get ∨ c = .getk) ∧ o.resps.length ≤ 1 ∧ ∀ r ∈ o.resps, r.status ≠ 1) ∨
     (c = .stat ∧ o.resps.length = 1 ∧ ∀ r ∈ o.resps, r.status ≠ 0) ∨
     (c = .stat ∧ ∃ l t, o.resps = l ++ [t] ∧ t.body = [] ∧ t.keylen = 0 ∧ ∀ r ∈ o.resps, r.status = 0))
  | _ => True

theorem belongs_mk (h : Hdr) (st k x cas : Nat) (b : Bytes) : Belongs h (mkResp h st k x cas b) :=
  ⟨rfl, rfl, fun hl => Nat.mod_eq_of_lt hl⟩

theorem belongs_packet (g : Cfg) (h : Hdr) (st cas : Nat) : Belongs h (packet g h st cas) := belongs_mk ..

/-- An error that is no miss of a quiet get. -/
theorem ans_err {σ : Type} (g : Cfg) (h : Hdr) (c : Cmd) (q : Bool) (s : σ) (u st cas : Nat) (nx : Next) (h0 : st ≠ 0)
    (h1 : q = true → (c = .get ∨ c = .getk) → st ≠ 1) :
    Ans h c q (.done { eng := s, used := u, resps := [packet g h st cas], next := nx } : Res σ) := by
  refine ⟨by simpa using belongs_packet .., ?_⟩
  by_cases hs : c = .stat
  · right; right; right; right; left; exact ⟨hs, rfl, by simpa [packet, mkResp] using h0⟩
  · cases q with
    | false => right; left; exact ⟨hs, rfl, rfl⟩
    | true =>
      by_cases hg : c = .get ∨ c = .getk
      · right; right; right; left
        exact ⟨rfl, hg, by simp, by simpa [packet, mkResp] using h1 rfl hg⟩
      · right; right; left
        exact ⟨rfl, hg, by simp, by simpa [packet, mkResp] using h0⟩

theorem ans_response {σ : Type} (h : Hdr) (c : Cmd) (q : Bool) (s : σ) (u cas : Nat) (b : Bytes) (nx : Next) (hs : c ≠ .stat) :
    Ans h c q (.done { eng := s, used := u, resps := response h c q cas b, next := nx } : Res σ) := by
  unfold response
  cases q with
  | false =>
    refine ⟨by simpa using belongs_mk .., ?_⟩
    right; left; exact ⟨hs, rfl, by simp⟩
  | true =>
    by_cases hg : c = .get ∨ c = .getk
    · refine ⟨by simpa [hg] using belongs_mk .., ?_⟩
      right; right; right; left
      exact ⟨rfl, hg, by simp [hg], by simp [hg, mkResp]⟩
    · have hg' : ¬(c = .get) ∧ ¬(c = .getk) := by simpa using hg
      refine ⟨by simp [hg'.1, hg'.2], ?_⟩
      right; right; left
      exact ⟨rfl, hg, by simp [hg'.1, hg'.2], by simp [hg'.1, hg'.2]⟩

theorem ans_protoError {σ : Type} (g : Cfg) (h : Hdr) (c : Cmd) (q : Bool) (s : σ) (u : Nat) : Ans h c q (protoError g h s u) :=
  ⟨by simpa using belongs_packet .., Or.inl ⟨rfl, by simp⟩⟩

theorem ans_closing {σ : Type} (h : Hdr) (c : Cmd) (q : Bool) (s : σ) (u : Nat) :
    Ans h c q (.done { eng := s, used := u, resps := [], next := .closing } : Res σ) := ⟨by simp, Or.inl ⟨rfl, by simp⟩⟩

theorem ans_conclude {σ : Type} (g : Cfg) (h : Hdr) (c : Cmd) (q : Bool) (s : σ) (u cas : Nat) (good : List Resp) (a : Act)
    (hgood : a = .ok → Ans h c q (.done { eng := s, used := u, resps := good, next := .newCmd } : Res σ))
    (h0 : ∀ st, a = .err st → st ≠ 0) (h1 : ∀ st, a = .err st → q = true → (c = .get ∨ c = .getk) → st ≠ 1) :
    Ans h c q (conclude g h s u cas good a) := by
  cases a with
  | ok => exact hgood rfl
  | err st => exact ans_err _ _ _ _ _ _ _ _ _ (h0 st rfl) (h1 st rfl)
  | disc => exact ans_closing ..
  | abort => trivial

theorem ans_refuse {σ : Type} (g : Cfg) (h : Hdr) (c : Cmd) (q : Bool) (s : σ) (u v : Nat) (code : Code)
    (hg : ¬(c = .get ∨ c = .getk)) : Ans h c q (refuse g h s u v code) := by
  cases code <;> simp only [refuse] <;> first
    | exact ans_closing ..
    | exact ans_err _ _ _ _ _ _ _ _ _ (by decide) (fun _ hh => absurd hh hg)

theorem unexpected_ne {c : Code} {st : Nat} (h : unexpected c = .err st) : st ≠ 0 := by
  cases c <;> simp [unexpected] at h <;> omega

theorem storeAct_ne {op : StoreOp} {c : Code} {st : Nat} (h : storeAct op c = .err st) : st ≠ 0 := by
  cases c <;> cases op <;> simp [storeAct, unexpected] at h <;> omega

theorem incrAct_ne {c : Code} {st : Nat} (h : incrAct c = .err st) : st ≠ 0 := by
  cases c <;> simp [incrAct] at h <;> omega

theorem getAct_ne {c : Code} {st : Nat} (h : getAct c = .err st) : st ≠ 0 := by
  cases c <;> simp [getAct] at h <;> omega

theorem deleteAct_ne {c : Code} {st : Nat} (h : deleteAct c = .err st) : st ≠ 0 := by
  cases c <;> simp [deleteAct] at h <;> omega

theorem statAct_ne {c : Code} {st : Nat} (h : statAct c = .err st) : st ≠ 0 := by
  cases c <;> simp [statAct, unexpected] at h <;> omega

theorem collAct_ne {cm : Cmd} {c : Code} {st : Nat} (h : collAct cm c = .err st) : st ≠ 0 := by
  revert h
  unfold collAct
  split <;> intro h <;> first
    | exact unexpected_ne h
    | (simp at h; try omega)

theorem ans_update {σ : Type} (e : Engine σ) (g : Cfg) (s : σ) (h : Hdr) (c : Cmd) (q : Bool) (ext key inp : Bytes)
    (hs : c ≠ .stat) (hg : ¬(c = .get ∨ c = .getk)) : Ans h c q (doUpdate e g s h c q ext key inp) := by
  unfold doUpdate
  simp only []
  split
  · exact ans_protoError ..
  · split
    · exact ans_protoError ..
    · split
      · split
        · trivial
        · exact ans_conclude _ _ _ _ _ _ _ _ _ (fun _ => ans_response _ _ _ _ _ _ _ _ hs) (fun _ => storeAct_ne)
            (fun _ _ _ hh => absurd hh hg)
      · split
        · exact ans_refuse _ _ _ _ _ _ _ _ hg
        · exact ans_refuse _ _ _ _ _ _ _ _ hg

theorem ans_get {σ : Type} (e : Engine σ) (g : Cfg) (s : σ) (h : Hdr) (c : Cmd) (q : Bool) (key : Bytes)
    (hg : c = .get ∨ c = .getk) : Ans h c q (doGet e g s h c q key) := by
  have hs : c ≠ .stat := by rcases hg with h | h <;> simp [h]
  unfold doGet
  simp only []
  split
  · refine ⟨by simpa using belongs_mk .., ?_⟩
    cases q with
    | false => right; left; exact ⟨hs, rfl, rfl⟩
    | true => right; right; right; left; exact ⟨rfl, hg, by simp, by simp [mkResp]⟩
  · rename_i ha
    cases q with
    | true =>
      simp only [if_true]
      exact ⟨by simp, by right; right; right; left; exact ⟨rfl, hg, by simp, by simp⟩⟩
    | false =>
      simp only [Bool.false_eq_true, if_false]
      split
      · split
        · trivial
        · refine ⟨by simpa using belongs_mk .., ?_⟩
          right; left; exact ⟨hs, rfl, rfl⟩
      · exact ans_err _ _ _ _ _ _ _ _ _ (by decide) (by simp)
  · rename_i hno1 hno2
    refine ans_conclude _ _ _ _ _ _ _ _ _ (fun hh => absurd hh ?_) (fun _ hh => getAct_ne hh) (fun st hh _ _ h1 => ?_)
    · intro hh; exact hno1 hh
    · subst h1; exact hno2 hh

theorem ans_unknown {σ : Type} (e : Engine σ) (g : Cfg) (s : σ) (h : Hdr) (body : Bytes) : Ans h .other false (doUnknown e g s h body) := by
  unfold doUnknown
  simp only []
  split
  · refine ⟨by simpa using belongs_mk .., ?_⟩
    right; left; exact ⟨by simp, rfl, rfl⟩
  · exact ans_err _ _ _ _ _ _ _ _ _ (by decide) (by simp)
  · exact ans_closing ..

theorem ans_sasl {σ : Type} (e : Engine σ) (g : Cfg) (s : σ) (h : Hdr) (c : Cmd) (q : Bool) (key inp : Bytes)
    (hs : c ≠ .stat) (hg : ¬(c = .get ∨ c = .getk)) : Ans h c q (doSasl e g s h c q key inp) := by
  unfold doSasl
  simp only []
  split
  · exact ans_protoError ..
  · split
    · exact ans_protoError ..
    · split
      · exact ans_err _ _ _ _ _ _ _ _ _ (by decide) (fun _ hh => absurd hh hg)
      · split
        · trivial
        · split
          · exact ans_response _ _ _ _ _ _ _ _ hs
          · refine ⟨by simpa using belongs_mk .., ?_⟩
            cases q with
            | false => right; left; exact ⟨hs, rfl, rfl⟩
            | true => right; right; left; exact ⟨rfl, hg, by simp, by simp [mkResp]⟩
          · exact ans_err _ _ _ _ _ _ _ _ _ (by decide) (fun _ hh => absurd hh hg)

theorem ans_collGood {σ : Type} (h : Hdr) (c : Cmd) (q : Bool) (s : σ) (u : Nat) (r : Ret) (hs : c ≠ .stat)
    (hq : c = .lopGet ∨ c = .sopGet → q = false) :
    Ans h c q (.done { eng := s, used := u, resps := collGood h c q r, next := .newCmd } : Res σ) := by
  unfold collGood
  split
  · have := hq (Or.inl rfl); subst this
    exact ⟨by simpa using belongs_mk .., by right; left; exact ⟨hs, rfl, rfl⟩⟩
  · have := hq (Or.inr rfl); subst this
    exact ⟨by simpa using belongs_mk .., by right; left; exact ⟨hs, rfl, rfl⟩⟩
  · exact ans_response _ _ _ _ _ _ _ _ hs

theorem ans_coll {σ : Type} (e : Engine σ) (g : Cfg) (s : σ) (h : Hdr) (c : Cmd) (q : Bool) (ext key : Bytes)
    (hs : c ≠ .stat) (hg : ¬(c = .get ∨ c = .getk)) (hq : c = .lopGet ∨ c = .sopGet → q = false) :
    Ans h c q (doColl e g s h c q ext key) := by
  unfold doColl
  simp only []
  split
  · trivial
  · exact ans_conclude _ _ _ _ _ _ _ _ _ (fun _ => ans_collGood _ _ _ _ _ _ hs hq) (fun _ => collAct_ne)
      (fun _ _ _ hh => absurd hh hg)

theorem ans_collValue {σ : Type} (e : Engine σ) (g : Cfg) (s : σ) (h : Hdr) (c : Cmd) (q : Bool) (ext key inp : Bytes)
    (hs : c ≠ .stat) (hg : ¬(c = .get ∨ c = .getk)) : Ans h c q (doCollValue e g s h c q ext key inp) := by
  have hok : ∀ (s' : σ) (u : Nat) (b : Bytes) (code : Code), Ans h c q (conclude g h s' u 0 (response h c q 0 b) (collAct c code)) :=
    fun s' u b code => ans_conclude _ _ _ _ _ _ _ _ _ (fun _ => ans_response _ _ _ _ _ _ _ _ hs) (fun _ => collAct_ne)
      (fun _ _ _ hh => absurd hh hg)
  unfold doCollValue
  simp only []
  split
  · exact ans_protoError ..
  · split
    · exact ans_protoError ..
    · split
      · trivial
      · split
        · exact hok ..
        · split
          · exact ans_refuse _ _ _ _ _ _ _ _ hg
          · split
            · split
              · trivial
              · split
                · trivial
                · exact hok ..
            · exact ans_refuse _ _ _ _ _ _ _ _ hg

theorem ans_stat {σ : Type} (e : Engine σ) (g : Cfg) (s : σ) (h : Hdr) (q : Bool) (key : Bytes) (ho : h.opcode = 0x10) :
    Ans h .stat q (doStat e g s h key) := by
  have hb : ∀ kv, ∀ r ∈ statResp h kv, Belongs h r ∧ r.status = 0 := by
    intro kv r hr
    unfold statResp at hr
    split at hr
    · simp at hr
    · simp only [List.mem_singleton] at hr
      subst hr
      refine ⟨⟨ho.symm, rfl, fun hl => ?_⟩, rfl⟩
      simp only [List.length_append] at hl ⊢
      exact Nat.mod_eq_of_lt hl
  unfold doStat
  refine ans_conclude _ _ _ _ _ _ _ _ _ (fun _ => ?_) (fun _ => statAct_ne) (fun _ _ _ hh => by simp at hh)
  have hall : ∀ r ∈ ((e.call s (.stats key)).2.pairs.flatMap (statResp h) ++ statResp h ([], [])), Belongs h r ∧ r.status = 0 := by
    intro r hr
    rcases List.mem_append.1 hr with h1 | h1
    · obtain ⟨kv, _, h2⟩ := List.mem_flatMap.1 h1
      exact hb kv r h2
    · exact hb _ r h1
  refine ⟨fun r hr => (hall r hr).1, ?_⟩
  right; right; right; right; right
  refine ⟨rfl, (e.call s (.stats key)).2.pairs.flatMap (statResp h), _, rfl, rfl, rfl, fun r hr => (hall r hr).2⟩

theorem cmdOf_elemGet {b : Bool} {op : Nat} (h : (cmdOf b op).1 = .lopGet ∨ (cmdOf b op).1 = .sopGet) : (cmdOf b op).2 = false := by
  revert h
  unfold cmdOf
  split <;> (try split) <;> simp

theorem ans_handle {σ : Type} (e : Engine σ) (g : Cfg) (deny : Bool) (s : σ) (inp : Bytes) :
    Ans (hdrOf inp) (cmdOf g.sasl (hdrOf inp).opcode).1 (cmdOf g.sasl (hdrOf inp).opcode).2 (handle e g deny s inp) := by
  unfold handle
  simp only []
  split
  · exact ⟨by simpa using belongs_packet .., Or.inl ⟨rfl, by simp⟩⟩
  · split
    · exact ans_protoError ..
    · split
      · exact ans_protoError ..
      · split
        · trivial
        · have hst : (cmdOf g.sasl (hdrOf inp).opcode).1 = .stat → (hdrOf inp).opcode = 0x10 := cmdOf_stat
          have hot : (cmdOf g.sasl (hdrOf inp).opcode).1 = .other → (cmdOf g.sasl (hdrOf inp).opcode).2 = false := cmdOf_other
          have heg : (cmdOf g.sasl (hdrOf inp).opcode).1 = .lopGet ∨ (cmdOf g.sasl (hdrOf inp).opcode).1 = .sopGet →
            (cmdOf g.sasl (hdrOf inp).opcode).2 = false := cmdOf_elemGet
          generalize (cmdOf g.sasl (hdrOf inp).opcode).1 = c at *
          generalize (cmdOf g.sasl (hdrOf inp).opcode).2 = q at *
          generalize hdrOf inp = h at *
          have hup := fun h1 h2 => ans_update e g s h c q (slice inp hdrLen h.extlen) (slice inp (hdrLen + h.extlen) h.keylen) inp h1 h2
          have hsa := fun h1 h2 => ans_sasl e g s h c q (slice inp (hdrLen + h.extlen) h.keylen) inp h1 h2
          have hco := fun h1 h2 => ans_coll e g s h c q (slice inp hdrLen h.extlen) (slice inp (hdrLen + h.extlen) h.keylen) h1 h2 heg
          have hcv := fun h1 h2 => ans_collValue e g s h c q (slice inp hdrLen h.extlen) (slice inp (hdrLen + h.extlen) h.keylen) inp h1 h2
          have hge := fun h1 => ans_get e g s h c q (slice inp (hdrLen + h.extlen) h.keylen) h1
          cases c <;> simp only [reduceCtorEq, false_implies, forall_const, or_self, not_false_eq_true, ne_eq] at hst hot heg hup hsa hco hcv ⊢
          all_goals first
            | exact hge (by simp)
            | exact hup
            | exact hsa
            | exact hco
            | exact hcv
            | exact ans_stat _ _ _ _ _ _ hst
            | (subst hot; exact ans_unknown ..)
            | exact ans_response _ _ _ _ _ _ _ _ (by simp)
            | (split
               · exact ans_response _ _ _ _ _ _ _ _ (by simp)
               · exact ans_err _ _ _ _ _ _ _ _ _ (by decide) (by simp))
            | (unfold doDelete
               exact ans_conclude _ _ _ _ _ _ _ _ _ (fun _ => ans_response _ _ _ _ _ _ _ _ (by simp)) (fun _ => deleteAct_ne) (by simp))
            | (unfold doIncr
               exact ans_conclude _ _ _ _ _ _ _ _ _ (fun _ => ans_response _ _ _ _ _ _ _ _ (by simp)) (fun _ => incrAct_ne) (by simp))
            | (unfold doFlush
               exact ans_conclude _ _ _ _ _ _ _ _ _ (fun _ => ans_response _ _ _ _ _ _ _ _ (by simp)) (fun _ => collAct_ne) (by simp))

theorem answered_handle {σ : Type} {e : Engine σ} {g : Cfg} {deny : Bool} {s : σ} {inp : Bytes} {o : Out σ}
    (h : handle e g deny s inp = .done o) : Answered (hdrOf inp) o.resps o.next := by
  have ha := ans_handle e g deny s inp
  rw [h] at ha
  refine ⟨ha.1, ?_⟩
  have hq := cmdOf_quiet g.sasl (hdrOf inp).opcode
  have hg := cmdOf_get g.sasl (hdrOf inp).opcode
  have hs : (cmdOf g.sasl (hdrOf inp).opcode).1 = .stat ↔ (hdrOf inp).opcode = 0x10 :=
    ⟨cmdOf_stat, fun hh => by rw [hh]; rfl⟩
  rcases ha.2 with h1 | ⟨h1, h2, h3⟩ | ⟨h1, h2, h3, h4⟩ | ⟨h1, h2, h3, h4⟩ | ⟨h1, h2⟩ | ⟨h1, h2⟩
  · exact Or.inl h1
  · right; left; exact ⟨fun hh => h1 (hs.2 hh), hq ▸ h2, h3⟩
  · right; right; left
    refine ⟨hq ▸ h1, ?_, h3, h4⟩
    cases hqg : quietGet (hdrOf inp).opcode with
    | false => rfl
    | true => exact absurd (hg.2 hqg).1 h2
  · right; right; right; left; exact ⟨hg.1 ⟨h2, h1⟩, h3, h4⟩
  · right; right; right; right; left; exact ⟨hs.1 h1, h2⟩
  · right; right; right; right; right; exact ⟨hs.1 h1, h2⟩

/-- Every request of a run is answered as it should be. -/
theorem answered_run {σ : Type} {e : Engine σ} {g : Cfg} {inp : Bytes} {s0 : σ} {c : Conn σ} {p : Nat} {tr : List (Nat × Ev)}
    (hr : Run e g inp s0 c p tr) : ∀ q h rs nx, (q, Ev.req h rs nx) ∈ tr → h = hdrOf (inp.drop q) ∧ Answered h rs nx := by
  induction hr with
  | start => simp
  | @step c c' p used n tr deny ev _ hs ih =>
    intro q h rs nx hmem
    rcases List.mem_append.1 hmem with hm | hm
    · exact ih q h rs nx hm
    · simp only [List.mem_singleton, Prod.mk.injEq] at hm
      obtain ⟨h1, h2⟩ := hm
      subst h1; subst h2
      unfold Bin.step at hs
      split at hs
      · simp at hs
      · split at hs
        · split at hs <;> simp at hs
        · split at hs
          · simp at hs
          · rename_i hlen
            split at hs
            · simp at hs
            · cases hd : handle e g deny c.eng ((inp.take n).drop q) with
              | wait => rw [hd] at hs; simp at hs
              | fault => rw [hd] at hs; simp at hs
              | done o =>
                rw [hd] at hs
                simp only [CRes.next.injEq, Ev.req.injEq] at hs
                obtain ⟨_, _, h3, h4, h5⟩ := hs
                subst h3; subst h4; subst h5
                exact ⟨hdrOf_arrived inp n q (by omega), answered_handle hd⟩

end Verif.Bin
