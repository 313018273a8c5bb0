import Verif.Lemmas.ConnSafe
/-
What the server makes of a client's bytes does not depend on how they are cut into packets (C63), and the server stays within its input
buffer (C67).
-/

namespace Verif.Conn.Props
open Spec

variable {W : Type}

/-- The full claim of C63: two runs in which the client sends the same bytes and the server has read them all leave the server in the same
state, whatever the packets and the results of the `read` calls were.  It does not hold, see `C63_false`. -/
def C63_Full : Prop :=
  ∀ (W : Type) (h : Handler W) (w : W) (junk junk' : Nat → Nat) (es es' : List Ev) (s s' : St W),
    Sound h w (sent es) → sent es = sent es' → run h junk (St.open w junk) es = some s → run h junk' (St.open w junk') es' = some s' →
    Idle s → Idle s' → s.world = s'.world

/-- C63 (partial: no line of the stream is excessive).  However the bytes of the client arrive, and whatever the single `read` calls return,
the server has read them after at most `5 n + 3` more rounds (each of them with something to read, if the client sent anything), and it has
done what the stream of bytes asks for: line by line, data block by data block, no byte twice and none left out. -/
theorem C63_partial (h : Handler W) (w : W) (junk : Nat → Nat) (es : List Ev) (rs : List (List Nat)) (hs : Sound h w (sent es))
    (hm : Modest h w (sent es)) (hr : ∀ r ∈ rs, 0 < r.headD 0) (hn : 5 * (sent es).length + 3 ≤ rs.length) :
    ∃ s, run h junk (St.open w junk) (es ++ rs.map .round) = some s ∧ Idle s ∧ Serves h w (sent es) s.world := by
  have hi := open_inv h w junk
  have hz : 0 < (St.open w junk).rsize := by simp [St.open, St.rsize, dataBufferSize]
  obtain ⟨s1, e1⟩ := run_some (junk := junk) es hi (by simpa using hm) (by simpa using hs)
  have i1 := run_inv es hi (by simpa using hm) (by simpa using hs) e1
  have hz1 := run_rsize es hz e1
  have hu := run_unread es hi (by simpa using hm) (by simpa using hs) e1
  have htodo : s1.todo ≤ rs.length := by
    have : s1.mode.rank ≤ 3 := by cases s1.mode <;> simp [Mode.rank]
    simp [St.open] at hu
    unfold St.todo
    omega
  rw [List.nil_append] at i1
  obtain ⟨s2, e2⟩ := run_some (junk := junk) (rs.map .round) i1 (by simpa [sent_rounds] using hm) (by simpa [sent_rounds] using hs)
  have i2 := run_inv (rs.map .round) i1 (by simpa [sent_rounds] using hm) (by simpa [sent_rounds] using hs) e2
  have hidle : Idle s2 := by
    rcases run_rounds rs i1 hm hs hz1 hr htodo e2 with h1 | h1
    · exact h1
    · exact todo_zero h1
  refine ⟨s2, ?_, hidle, ?_⟩
  · rw [run_append, e1, Option.bind_some, e2]
  · rw [sent_rounds, List.append_nil] at i2
    exact idle_spent i2 hidle

/-- C63, as a statement about two runs (partial in the same way). -/
theorem C63_packets_partial (h : Handler W) (w : W) (junk junk' : Nat → Nat) (es es' : List Ev) (s s' : St W) (hs : Sound h w (sent es))
    (hm : Modest h w (sent es)) (he : sent es = sent es') (e : run h junk (St.open w junk) es = some s)
    (e' : run h junk' (St.open w junk') es' = some s') (hi : Idle s) (hi' : Idle s') : s.world = s'.world := by
  have h1 := run_inv es (open_inv h w junk) (by simpa using hm) (by simpa using hs) e
  have h2 := run_inv es' (open_inv h w junk') (by simpa [← he] using hm) (by simpa [← he] using hs) e'
  rw [List.nil_append] at h1 h2
  rw [← he] at h2
  exact serves_unique (idle_spent h1 hi) (idle_spent h2 hi')

/-- A server that only keeps a list of the command lines, and takes 3 bytes of data after every line that begins with `s`. -/
def recorder : Handler (List (List Nat)) where
  line w l := some (w ++ [l], if l.head? = some 115 then .nread 3 else .cmd)
  data w d := some (w ++ [d])

theorem recorder_at {st : List Nat} {w0 : List (List Nat)} {x} (hr : Reads recorder (w0, .cmd, st) x) : x.2.1 = .cmd ∨ x.2.1 = .want 3 := by
  induction hr with
  | refl => exact .inl rfl
  | tail h1 h2 ih =>
    cases h2 with
    | line w w' raw t rest nx hn ht hh hp =>
      simp only [recorder, Option.some.injEq, Prod.mk.injEq] at hh
      obtain ⟨_, rfl⟩ := hh
      split
      · exact .inr rfl
      · exact .inl rfl
    | data => exact .inl rfl
    | skip => simp at ih
    | skipped => exact .inl rfl

theorem recorder_sound (w : List (List Nat)) (st : List Nat) : Sound recorder w st := by
  intro w' a rest hr
  rcases recorder_at hr with h | h
  · simp only at h
    subst h
    cases hc : cutLine rest with
    | none => exact .inl (cutLine_none.1 hc)
    | some p =>
      obtain ⟨l, r⟩ := p
      obtain ⟨rfl, hn⟩ := cutLine_some.1 hc
      refine .inr ⟨_, .line _ _ l (chomp l) r _ hn (chomp_text l) rfl ?_⟩
      split <;> trivial
  · simp only at h
    subst h
    by_cases hl : rest.length < 3
    · exact .inl hl
    · refine .inr ⟨(w' ++ [rest.take 3], .cmd, rest.drop 3), ?_⟩
      · have h3 : (rest.take 3).length = 3 := by rw [List.length_take]; omega
        have := Takes.data (h := recorder) w' (w' ++ [rest.take 3]) (rest.take 3) (rest.drop 3) rfl
        rw [h3, List.take_append_drop] at this
        exact this

/-- 101 blanks, 1000 letters, the end of the line. -/
def longLine : List Nat := List.replicate 101 32 ++ List.replicate 1000 97 ++ [10]

/-- The full claim of C63 is false: a line with more than 100 blanks in front and more than 1024 bytes is carried out when it arrives
together with its end, and closes the connection when the end arrives a little later. -/
theorem C63_false : ¬ C63_Full := by
  intro h
  have e1 : (run recorder (fun _ => 0) (St.open [] fun _ => 0) ([.sends longLine, .round [], .round [4096], .round [], .round [], .round []])).map
      (fun s => (s.mode, s.net, s.world)) = some (.waiting, [], [longLine.dropLast]) := by decide +kernel
  have e2 : (run recorder (fun _ => 0) (St.open [] fun _ => 0) ([.sends longLine.dropLast, .round [], .round [4096], .round [], .sends [10],
      .round []])).map (fun s => (s.mode, s.net, s.world)) = some (.closed, [10], []) := by decide +kernel
  cases h1 : run recorder (fun _ => 0) (St.open [] fun _ => 0) ([.sends longLine, .round [], .round [4096], .round [], .round [], .round []]) with
  | none => rw [h1] at e1; cases e1
  | some s =>
    cases h2 : run recorder (fun _ => 0) (St.open [] fun _ => 0) ([.sends longLine.dropLast, .round [], .round [4096], .round [], .sends [10],
        .round []]) with
    | none => rw [h2] at e2; cases e2
    | some s' =>
      rw [h1] at e1
      rw [h2] at e2
      simp only [Option.map_some, Option.some.injEq, Prod.mk.injEq] at e1 e2
      have := h _ recorder [] _ _ _ _ s s' (recorder_sound _ _) (by decide +kernel) h1 h2 (by unfold Idle; rw [e1.1]; exact e1.2.1)
        (by unfold Idle; rw [e2.1]; trivial)
      rw [e1.2.2, e2.2.2] at this
      cases this

/-- A concrete case of C63: the line `get a`, the line `s` with three bytes of data that look like a command, and an empty line; whole, and
cut in the middle of lines, in the middle of data, and between `\r` and `\n`. -/
example :
    (run recorder (fun i => i) (St.open [] fun i => i) (.sends [103, 101, 116, 32, 97, 13, 10, 115, 13, 10, 81, 10, 10, 13, 10] ::
      List.replicate 14 (.round [4096]))).map (fun s => (s.mode, s.net, s.world)) = some (.waiting, [], [[103, 101, 116, 32, 97], [115], [81, 10, 10], [13]]) ∧
    (run recorder (fun i => i) (St.open [] fun i => i) ([.sends [103, 101], .round [1], .round [1], .sends [116, 32, 97, 13], .round [2], .round [3], .round [1],
      .round [], .sends [10, 115, 13, 10, 81, 10], .round [5], .round [5], .round [2], .round [2], .round [2], .round [2], .round [2], .sends [10, 13],
      .round [1], .sends [10]] ++ List.replicate 20 (.round [1]))).map (fun s => (s.mode, s.net, s.world)) =
        some (.waiting, [], [[103, 101, 116, 32, 97], [115], [81, 10, 10], [13]]) := by decide +kernel

theorem short_modest {h : Handler W} {w : W} {st : List Nat} (hs : st.length ≤ 1024) : Modest h w st := by
  intro w' rest hr p hp _ hx
  have h1 : rest.length ≤ st.length := by
    have : ∀ x y : W × At × List Nat, Reads h x y → y.2.2.length ≤ x.2.2.length := by
      intro x y hr
      induction hr with
      | refl => exact Nat.le_refl _
      | tail h1 h2 ih =>
        refine Nat.le_trans ?_ ih
        cases h2 <;> simp only [List.length_append, List.length_cons] <;> omega
    exact this _ _ hr
  have := hp.length_le
  have := hx.1
  omega

/-- The hypotheses of `C63_partial` are met by this stream, and its conclusion follows for every way to cut it. -/
example (es : List Ev) (he : sent es = [103, 101, 116, 32, 97, 13, 10, 115, 13, 10, 81, 10, 10, 13, 10]) :
    ∃ s, run recorder (fun i => i) (St.open [] fun i => i) (es ++ (List.replicate 78 [1]).map .round) = some s ∧ Idle s ∧
      Serves recorder [] (sent es) s.world := by
  refine C63_partial recorder [] (fun i => i) es (List.replicate 78 [1]) (recorder_sound _ _) (short_modest (by rw [he]; decide)) ?_ (by rw [he]; decide)
  intro r hr
  rw [List.eq_of_mem_replicate hr]
  decide

/-! ### The input buffer -/

/-- The full claim of C67: whatever a client sends, the connection's code touches nothing outside the input buffer. -/
def C67_Full : Prop :=
  ∀ (W : Type) (h : Handler W) (w : W) (junk : Nat → Nat) (es : List Ev), Sound h w (sent es) →
    ∃ s, run h junk (St.open w junk) es = some s

/-- C67 (partial: no command line begins with 1025 blanks).  Lines of any length, cut in any way, may close the connection, but the server
stays within its input buffer. -/
theorem C67_partial (h : Handler W) (w : W) (junk : Nat → Nat) (es : List Ev) (hs : Sound h w (sent es)) (hf : FewBlanks h w (sent es)) :
    ∃ s, run h junk (St.open w junk) es = some s :=
  run_safe es (open_inv h w junk) (by simpa using hf) (by simpa using hs)

/-- 64 KB of blanks: whatever was in the buffer before, the search for the first byte that is no blank runs over its end. -/
theorem blanks_overrun (h : Handler W) (w : W) (junk : Nat → Nat) (k : Nat) (hk : k = 65536) :
    run h junk (St.open w junk) [.sends (List.replicate k 32), .round [], .round (List.replicate 6 k), .round []] = none := by
  simp only [run, event, Option.bind_some]
  have s1 : step h junk [] { St.open w junk with net := (St.open w junk).net ++ List.replicate k 32 } =
      some { St.open w junk with net := List.replicate k 32, mode := .waiting } := by
    simp only [step, St.open, stepFresh, St.rsize, List.length_nil, List.length_map, List.length_range, readBufferHighwat, dataBufferSize]
    simp
  rw [s1, Option.bind_some]
  have he : (0 + 2048) * 2 ^ 5 = k := by omega
  have hfill := readLoop_fill (W := W) junk k 5 (toFront { St.open w junk with net := List.replicate k 32, mode := .waiting }) false 0 2048 rfl rfl
    (by simp [toFront, St.open, dataBufferSize]) (by omega) (by rw [he]; rfl) (by omega)
  rw [he] at hfill
  obtain ⟨f1, f2, f3⟩ := hfill
  simp only [step, stepRead]
  rw [f3]
  simp only [if_true, Option.bind_some]
  unfold stepParse
  simp only [f1, f2]
  have hne : List.replicate k 32 ≠ [] := by
    intro e
    have := congrArg List.length e
    rw [List.length_replicate, List.length_nil] at this
    omega
  rw [if_neg hne]
  have hcut : cutLine (List.replicate k 32) = none := by
    rw [cutLine_none]
    intro hm
    exact absurd (List.eq_of_mem_replicate hm) (by omega)
  rw [hcut]
  have htl : tooLong (List.replicate k 32) [] = none := by
    unfold tooLong
    rw [List.append_nil, blanks_replicate, if_neg (by rw [List.length_replicate]; omega)]
  simp only [htl, Option.bind_none]

/-- The full claim of C67 is false: 64 KB of blanks make the server read behind its input buffer, whatever the command handlers do. -/
theorem C67_false : ¬ C67_Full := by
  intro hf
  obtain ⟨k, hk⟩ : ∃ k, k = 65536 := ⟨_, rfl⟩
  obtain ⟨s, e⟩ := hf _ recorder [] (fun _ => 0) _ (recorder_sound _ _)
  rw [blanks_overrun recorder [] (fun _ => 0) k hk] at e
  cases e

/-- The hypotheses of C67 are met by a line of 30000 letters (the connection is closed), one of 300 blanks, and short ones. -/
example : FewBlanks recorder [] (List.replicate 300 32 ++ [97, 10, 115, 10, 32, 32, 10] ++ List.replicate 30000 98) := by
  intro w' rest hr hp
  have hmem : ∀ x y : List (List Nat) × At × List Nat, Reads recorder x y → y.2.2 <:+ x.2.2 := by
    intro x y hr
    induction hr with
    | refl => exact List.suffix_refl _
    | tail h1 h2 ih =>
      refine List.IsSuffix.trans ?_ ih
      cases h2 with
      | line w w' raw t rest nx => exact ⟨raw ++ [10], by simp⟩
      | data w w' d rest => exact ⟨d, rfl⟩
      | skip w n b rest => exact ⟨[b], rfl⟩
      | skipped => exact List.suffix_refl _
  have h1 := hmem _ _ hr
  have h2 : (List.replicate 1025 32).Sublist (List.replicate 300 32 ++ [97, 10, 115, 10, 32, 32, 10] ++ List.replicate 30000 98) :=
    hp.sublist.trans h1.sublist
  have h3 := h2.count_le 32
  rw [List.count_append, List.count_append, List.count_replicate_self, List.count_replicate_self, List.count_replicate] at h3
  simp at h3

end Verif.Conn.Props
