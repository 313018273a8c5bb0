import Verif.Spec.Bin

/-! Helper lemmas about the binary protocol: how far a handler reads, what it answers. -/

namespace Verif.Bin

open Spec

theorem cmdOf_stat {b : Bool} {op : Nat} (h : (cmdOf b op).1 = .stat) : op = 0x10 := by
  revert h; unfold cmdOf; split <;> (try split) <;> simp

theorem cmdOf_bopUpdate {b : Bool} {op : Nat} (h : (cmdOf b op).1 = .bopUpdate) : op = 0x73 ∨ op = 0x7e := by
  revert h; unfold cmdOf; split <;> (try split) <;> simp

theorem cmdOf_getk {b : Bool} {op : Nat} (h : (cmdOf b op).1 = .getk) : op = 0x0c ∨ op = 0x0d := by
  revert h; unfold cmdOf; split <;> (try split) <;> simp

theorem cmdOf_setattr {b : Bool} {op : Nat} (h : (cmdOf b op).1 = .setattr) : op = 0x4f := by
  revert h; unfold cmdOf; split <;> (try split) <;> simp

/-- The end of a request: closed, or all its bytes are taken or will be swallowed. -/
def Whole {σ : Type} (h : Hdr) : Res σ → Prop
  | .done o => o.next = .closing ∨ o.used + o.next.sw = hdrLen + h.bodylen
  | _ => True

theorem whole_protoError {σ : Type} (g : Cfg) (h : Hdr) (s : σ) (u : Nat) : Whole h (protoError g h s u) := Or.inl rfl

theorem whole_conclude {σ : Type} (g : Cfg) (h : Hdr) (s : σ) (u cas : Nat) (good : List Resp) (a : Act)
    (hu : u = hdrLen + h.bodylen) : Whole h (conclude g h s u cas good a) := by
  cases a <;> simp [conclude, Whole, Next.sw, hu]

theorem swallowOr_sw (n : Nat) : (swallowOr n).sw = n := by
  unfold swallowOr; split
  · rfl
  · simp only [Next.sw]; omega

theorem whole_refuse {σ : Type} (g : Cfg) (h : Hdr) (s : σ) (u v : Nat) (code : Code)
    (hu : u + v = hdrLen + h.bodylen) (hc : code ≠ .enotsup) : Whole h (refuse g h s u v code) := by
  cases code <;> simp [refuse, Whole, swallowOr_sw, hu] at hc ⊢

theorem whole_update {σ : Type} {e : Engine σ} (g : Cfg) (s : σ) (h : Hdr) (c : Cmd) (q : Bool) (ext key inp : Bytes)
    (he : NoEnotsup e) : Whole h (doUpdate e g s h c q ext key inp) := by
  unfold doUpdate
  simp only []
  split
  · exact whole_protoError ..
  · rename_i hb
    split
    · exact whole_protoError ..
    · split
      · split
        · trivial
        · exact whole_conclude _ _ _ _ _ _ _ (by omega)
      · split
        · exact whole_refuse _ _ _ _ _ _ (by omega) (he.1 _ _ _ _ _ _)
        · exact whole_refuse _ _ _ _ _ _ (by omega) (he.1 _ _ _ _ _ _)

theorem whole_get {σ : Type} (e : Engine σ) (g : Cfg) (s : σ) (h : Hdr) (c : Cmd) (q : Bool) (key : Bytes)
    (hb : h.bodylen = h.keylen + h.extlen) : Whole h (doGet e g s h c q key) := by
  unfold doGet
  simp only []
  have hu : hdrLen + h.keylen + h.extlen = hdrLen + h.bodylen := by omega
  split
  · right; simp [Next.sw, hu]
  · split
    · right; simp [Next.sw, hu]
    · split
      · split
        · trivial
        · right; simp [Next.sw, hu]
      · right; simp [Next.sw, hu]
  · exact whole_conclude _ _ _ _ _ _ _ hu

theorem whole_unknown {σ : Type} (e : Engine σ) (g : Cfg) (s : σ) (h : Hdr) (body : Bytes) : Whole h (doUnknown e g s h body) := by
  unfold doUnknown
  simp only []
  split
  · right; simp [Next.sw]
  · right; simp [Next.sw]
  · left; rfl

theorem whole_sasl {σ : Type} (e : Engine σ) (g : Cfg) (s : σ) (h : Hdr) (c : Cmd) (q : Bool) (key inp : Bytes)
    (hx : h.extlen = 0) : Whole h (doSasl e g s h c q key inp) := by
  unfold doSasl
  simp only []
  split
  · exact whole_protoError ..
  · split
    · exact whole_protoError ..
    · split
      · right; simp only [swallowOr_sw]; omega
      · split
        · trivial
        · split <;> (right; simp only [Next.sw]; omega)

theorem whole_coll {σ : Type} (e : Engine σ) (g : Cfg) (s : σ) (h : Hdr) (c : Cmd) (q : Bool) (ext key : Bytes)
    (hb : h.bodylen = h.keylen + h.extlen) : Whole h (doColl e g s h c q ext key) := by
  unfold doColl
  simp only []
  split
  · trivial
  · exact whole_conclude _ _ _ _ _ _ _ (by omega)

theorem whole_collValue {σ : Type} {e : Engine σ} (g : Cfg) (s : σ) (h : Hdr) (c : Cmd) (q : Bool) (ext key inp : Bytes)
    (he : NoEnotsup e) (hv : c = .bopUpdate → byteAt ext 66 = 0) : Whole h (doCollValue e g s h c q ext key inp) := by
  unfold doCollValue
  simp only []
  split
  · exact whole_protoError ..
  · split
    · exact whole_protoError ..
    · split
      · trivial
      · split
        · rename_i hh; exact absurd (hv hh.1) hh.2
        · split
          · exact whole_refuse _ _ _ _ _ _ (by omega) (by simp)
          · split
            · split
              · trivial
              · split
                · trivial
                · exact whole_conclude _ _ _ _ _ _ _ (by omega)
            · exact whole_refuse _ _ _ _ _ _ (by omega) (he.2 _ _ _ _ _)

theorem accepts_body {c : Cmd} {h : Hdr} (ha : accepts c h = true) :
    (match c with
     | .version | .noop | .quit | .saslList => h.bodylen = 0 ∧ h.keylen = 0 ∧ h.extlen = 0
     | .flush | .get | .getk | .delete | .incr | .decr | .getattr | .setattr | .lopCreate | .lopDelete | .lopGet | .sopCreate | .sopGet
     | .bopCreate | .bopDelete | .bopGet | .bopCount => h.bodylen = h.keylen + h.extlen
     | .flushPrefix => h.bodylen = h.extlen ∧ 0 < h.keylen
     | .saslAuth | .saslStep => h.extlen = 0
     | _ => True) := by
  cases c <;> simp [accepts] at ha ⊢ <;> omega

/-- A request that holds its key and extras, is no `STAT` with a value and no `BOP_UPDATE` without one, is taken as a whole. -/
theorem whole_handle {σ : Type} {e : Engine σ} {g : Cfg} {deny : Bool} {s : σ} {inp : Bytes} (he : NoEnotsup e)
    (h1 : (hdrOf inp).keylen + (hdrOf inp).extlen ≤ (hdrOf inp).bodylen)
    (h2 : (hdrOf inp).opcode = 0x10 → (hdrOf inp).bodylen = (hdrOf inp).keylen + (hdrOf inp).extlen)
    (h3 : (hdrOf inp).opcode = 0x73 ∨ (hdrOf inp).opcode = 0x7e → byteAt (slice inp hdrLen (hdrOf inp).extlen) 66 = 0) :
    Whole (hdrOf inp) (handle e g deny s inp) := by
  unfold handle
  simp only []
  split
  · left; rfl
  · split
    · exact whole_protoError ..
    · split
      · exact whole_protoError ..
      · rename_i ha
        split
        · trivial
        · generalize hc : (cmdOf g.sasl (hdrOf inp).opcode).1 = c at ha ⊢
          generalize (cmdOf g.sasl (hdrOf inp).opcode).2 = q
          have hb := accepts_body (by simpa using ha)
          have h4 : c = .bopUpdate → byteAt (slice inp hdrLen (hdrOf inp).extlen) 66 = 0 :=
            fun hcc => h3 (cmdOf_bopUpdate (hc.trans hcc))
          have h5 : c = .stat → (hdrOf inp).bodylen = (hdrOf inp).keylen + (hdrOf inp).extlen :=
            fun hcc => h2 (cmdOf_stat (hc.trans hcc))
          have h4' := h4
          generalize hdrOf inp = h at *
          cases c <;> simp only [reduceCtorEq, false_implies, forall_const] at hb h4 h5 ⊢
          all_goals first
            | exact whole_update _ _ _ _ _ _ _ _ he
            | exact whole_get _ _ _ _ _ _ _ hb
            | exact whole_coll _ _ _ _ _ _ _ _ hb
            | exact whole_sasl _ _ _ _ _ _ _ _ hb
            | exact whole_unknown ..
            | exact whole_collValue _ _ _ _ _ _ _ _ he h4'
            | (unfold doDelete; exact whole_conclude _ _ _ _ _ _ _ (by omega))
            | (unfold doIncr; exact whole_conclude _ _ _ _ _ _ _ (by omega))
            | (unfold doFlush; exact whole_conclude _ _ _ _ _ _ _ (by omega))
            | (unfold doStat; exact whole_conclude _ _ _ _ _ _ _ (by omega))
            | (left; rfl)
            | (right; simp only [Next.sw]; omega)
            | (split <;> (right; simp only [Next.sw]; omega))

/-! ### Positions in the stream -/

theorem slice_arrived (inp : Bytes) (n p i m : Nat) (h : i + m ≤ ((inp.take n).drop p).length) :
    slice ((inp.take n).drop p) i m = slice inp (p + i) m := by
  unfold slice
  simp only [List.length_drop, List.length_take] at h
  rw [List.drop_drop, List.drop_take, List.take_take]
  congr 1
  omega

theorem slice_drop (inp : Bytes) (p i m : Nat) : slice (inp.drop p) i m = slice inp (p + i) m := by
  unfold slice; rw [List.drop_drop]

theorem hdrOf_arrived (inp : Bytes) (n p : Nat) (h : hdrLen ≤ ((inp.take n).drop p).length) :
    hdrOf ((inp.take n).drop p) = hdrOf (inp.drop p) := by
  simp only [hdrLen] at h
  have hs := fun i m hm => (slice_arrived inp n p i m hm).trans (slice_drop inp p i m).symm
  unfold hdrOf
  rw [hs 0 1 (by omega), hs 1 1 (by omega), hs 2 2 (by omega), hs 4 1 (by omega), hs 6 2 (by omega), hs 8 4 (by omega),
    hs 12 4 (by omega), hs 16 8 (by omega)]

theorem bodyAt_eq (inp : Bytes) (p : Nat) : bodyAt inp p = (hdrOf (inp.drop p)).bodylen := by
  unfold bodyAt hdrOf; simp only [slice_drop]

/-- The boundaries form a chain: one that is not the first follows from one before it. -/
theorem boundary_chain {inp : Bytes} {a b : Nat} (ha : Boundary inp a) (hb : Boundary inp b) (hl : a + 24 ≤ inp.length) (h : a < b) :
    a + 24 + bodyAt inp a ≤ b := by
  induction hb generalizing a with
  | start => omega
  | @next p hp hpl ih =>
    by_cases h1 : a < p
    · have := ih ha hl h1; omega
    · by_cases h2 : a = p
      · subst h2; exact Nat.le_refl _
      · exfalso
        -- `p < a` and `a` is a boundary, so `a` is at or behind the end of the request at `p`
        have key : ∀ {x : Nat}, Boundary inp x → p < x → p + 24 + bodyAt inp p ≤ x := by
          intro x hx
          induction hx with
          | start => intro hlt; omega
          | @next y hy hyl ihy =>
            intro hlt
            by_cases h3 : p < y
            · have := ihy h3; omega
            · by_cases h4 : p = y
              · subst h4; exact Nat.le_refl _
              · have := ih hy hyl (by omega); omega
        have := key ha (by omega)
        omega

end Verif.Bin
