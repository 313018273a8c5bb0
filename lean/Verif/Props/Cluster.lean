import Verif.Lemmas.ClusterRun
import Verif.Spec.Run
/-!
# C53, C54, C55: which server owns a key
-/
namespace Verif.Cluster.Props
open Verif.Cluster.Spec Verif.Run

/-! ## What ownership means -/

/-- A least element. -/
theorem least {P : Nat → Prop} (h : ∃ p, P p) : ∃ p, P p ∧ ∀ q, P q → p ≤ q := by
  classical
  obtain ⟨p, hp⟩ := h
  induction p using Nat.strongRecOn with
  | _ p ih =>
    by_cases hq : ∃ q, q < p ∧ P q
    · obtain ⟨q, h1, h2⟩ := hq
      exact ih q h1 h2
    · refine ⟨p, hp, fun q hq' => ?_⟩
      rcases Nat.lt_or_ge q p with h | h
      · exact absurd ⟨q, h, hq'⟩ hq
      · exact h

/-- A smallest name. -/
theorem least_name : ∀ (l : List (List Nat)), l ≠ [] → ∃ x ∈ l, ∀ y ∈ l, ¬ Smaller y x
  | [], h => absurd rfl h
  | [x], _ => ⟨x, List.mem_cons_self .., fun y hy => by
      rw [List.mem_singleton] at hy; subst hy; exact smaller_irrefl _⟩
  | x :: y :: l, _ => by
    obtain ⟨z, hz1, hz2⟩ := least_name (y :: l) (by simp)
    rcases smaller_total x z with h | h | h
    · refine ⟨x, List.mem_cons_self .., fun w hw => ?_⟩
      rcases List.mem_cons.mp hw with rfl | hw
      · exact smaller_irrefl _
      · exact not_smaller_trans (smaller_asymm h) (hz2 w hw)
    · subst h
      refine ⟨x, List.mem_cons_self .., fun w hw => ?_⟩
      rcases List.mem_cons.mp hw with rfl | hw
      · exact smaller_irrefl _
      · exact hz2 w hw
    · refine ⟨z, List.mem_cons_of_mem _ hz1, fun w hw => ?_⟩
      rcases List.mem_cons.mp hw with rfl | hw
      · exact smaller_asymm h
      · exact hz2 w hw

theorem next_unique {points : List Nat → List Nat} {names : List (List Nat)} {h p q : Nat} (hp : Next points names h p)
    (hq : Next points names h q) : p = q := by
  obtain ⟨p1, p2⟩ := hp
  obtain ⟨q1, q2⟩ := hq
  rcases p2 with ⟨a, b⟩ | ⟨a, b⟩ <;> rcases q2 with ⟨c, d⟩ | ⟨c, d⟩
  · exact Nat.le_antisymm (b q q1 c) (d p p1 a)
  · have := c p p1; omega
  · have := a q q1; omega
  · exact Nat.le_antisymm (b q q1) (d p p1)

/-- **C53** Every hash value has one owner, and only one, as soon as there is a node. -/
theorem C53_exactly_one {cfg : Cfg} (hc : Sized cfg) {names : List (List Nat)} (hne : names ≠ []) (h : Nat) :
    ∃ x, Owner cfg.points names h x ∧ ∀ y, Owner cfg.points names h y → y = x := by
  classical
  have hat : ∃ p, At cfg.points names p := by
    obtain ⟨x, hx⟩ := List.exists_mem_of_ne_nil _ hne
    have : cfg.points x ≠ [] := by
      intro h0
      have h1 := hc.2 x
      rw [h0] at h1
      have := hc.1
      simp only [List.length_nil] at h1
      omega
    obtain ⟨p, hp⟩ := List.exists_mem_of_ne_nil _ this
    exact ⟨p, x, hx, hp⟩
  have hnext : ∃ p, Next cfg.points names h p := by
    by_cases hb : ∃ p, At cfg.points names p ∧ h ≤ p
    · obtain ⟨p, ⟨h1, h2⟩, h3⟩ := least hb
      exact ⟨p, h1, .inl ⟨h2, fun q a b => h3 q ⟨a, b⟩⟩⟩
    · obtain ⟨p, h1, h2⟩ := least hat
      refine ⟨p, h1, .inr ⟨fun q hq => ?_, h2⟩⟩
      rcases Nat.lt_or_ge q h with h' | h'
      · exact h'
      · exact absurd ⟨q, hq, h'⟩ hb
  obtain ⟨p, hp⟩ := hnext
  obtain ⟨x0, hx0, hx0'⟩ := hp.1
  obtain ⟨x, hx, hmin⟩ := least_name (names.filter fun y => decide (p ∈ cfg.points y))
    (List.ne_nil_of_mem (List.mem_filter.mpr ⟨hx0, by simpa using hx0'⟩))
  simp only [List.mem_filter, decide_eq_true_eq, and_imp] at hx hmin
  refine ⟨x, ⟨hx.1, p, hp, hx.2, hmin⟩, ?_⟩
  rintro y ⟨y1, q, y2, y3, y4⟩
  have := next_unique hp y2
  subst this
  rcases smaller_total x y with h' | h' | h'
  · exact absurd h' (y4 x hx.1 hx.2)
  · exact h'.symm
  · exact absurd h' (hmin y y1 y3)

/-- Two nodes at points 10 and 20, keys below, between and above them. -/
def exCfg : Cfg := ⟨1, fun x => match x with | [97] => [10] | [98] => [20] | [99] => [30] | _ => [40], fun k => k.headD 0⟩

theorem exSized : Sized exCfg := by
  refine ⟨by decide, fun x => ?_⟩
  simp only [exCfg]
  split <;> rfl

example : ∃ x, Owner exCfg.points [[97], [98]] 15 x ∧ ∀ y, Owner exCfg.points [[97], [98]] 15 y → y = x :=
  C53_exactly_one exSized (by decide) 15

/-- **C53** The order in which the list names the nodes does not matter: all servers that see the same nodes agree on the owner. -/
theorem C53_agree {points : List Nat → List Nat} {names other : List (List Nat)} (hm : ∀ x, x ∈ names ↔ x ∈ other) {h : Nat}
    {x y : List Nat} (hx : Owner points names h x) (hy : Owner points other h y) : x = y := by
  have hat : ∀ p, At points names p ↔ At points other p := fun p => by simp only [At, hm]
  have hnx : ∀ p, Next points names h p ↔ Next points other h p := fun p => by simp only [Next, hat]
  obtain ⟨x1, p, x2, x3, x4⟩ := hx
  obtain ⟨y1, q, y2, y3, y4⟩ := hy
  have := next_unique ((hnx p).mp x2) y2
  subst this
  rcases smaller_total x y with h' | h' | h'
  · exact absurd h' (y4 x ((hm x).mp x1) x3)
  · exact h'
  · exact absurd h' (x4 y ((hm y).mpr y1) y3)

/-- **C53** Nodes that come take keys, but no key moves between nodes that were there before; nodes that go (read it from the larger to
the smaller list) give up their keys, all others stay where they are. -/
theorem C53_moves {points : List Nat → List Nat} {names more : List (List Nat)} (hs : ∀ x ∈ names, x ∈ more) {h : Nat} {x : List Nat}
    (hx : Owner points more h x) (hin : x ∈ names) : Owner points names h x := by
  obtain ⟨-, p, ⟨p1, p2⟩, p3, p4⟩ := hx
  have hat : ∀ q, At points names q → At points more q := fun q ⟨y, h1, h2⟩ => ⟨y, hs y h1, h2⟩
  refine ⟨hin, p, ⟨⟨x, hin, p3⟩, ?_⟩, p3, fun y hy => p4 y (hs y hy)⟩
  rcases p2 with ⟨a, b⟩ | ⟨a, b⟩
  · exact .inl ⟨a, fun q hq => b q (hat q hq)⟩
  · exact .inr ⟨fun q hq => a q (hat q hq), fun q hq => b q (hat q hq)⟩

/-! ## The server -/

/-- **C53** (partial) For every history of reconfigurations (with any memory failures), single writes of the continuum, and look-ups: the
server answers as specified; when no reconfiguration is in progress, `mine` is exactly whether the server is the owner of the key, and
the numbers are those of the owner and of the server in the order of names.  Missing: an empty list of nodes, equal names and longer
names (see `C53_empty_false`, `C53_twin_false`, `C53_long_false`), and the stop described by `Stop` (see `C55_false`). -/
theorem C53_partial {cfg : Cfg} (hc : Sized cfg) {self : List Nat} (hself : self.length ≤ 127) :
    ImplementsUntil (step cfg) (init cfg self) (Step cfg self) Legal Spec.start (Stop self) :=
  of_simulation_until (Inv cfg self) (init_inv hself) (fun σ s ev => step_inv hc σ s ev)

/-- Reconfigurations, writes and look-ups: the server is `b`; first `a-x` and `b-y`, then `c` comes. -/
def exRun : List Ev :=
  [.start [[97, 45, 120], [98, 45, 121]] 0 true, .install, .lookup [15], .lookup [25], .start [[99], [98], [97]] 0 true, .write, .lookup [25],
    .write, .write, .install, .lookup [25], .start [[98], [97], [99]] 0 true, .start [[45]] 0 true,
    .start [[97], [100]] 5 false, .lookup [15]]

example : answers (step exCfg) (init exCfg [98]) exRun = some [.begun 2 0, .ok, .owner true 1 (some 1), .owner false 0 (some 1), .begun 1 0,
    .ok, .owner false 0 (some 1), .ok, .ok, .ok, .owner false 2 (some 1), .same, .failed, .failed, .unknown] := by
  decide +kernel

example : ImplementsUntil (step exCfg) (init exCfg [98]) (Step exCfg [98]) Legal Spec.start (Stop [98]) := C53_partial exSized (by decide)

/-- **C53** What two servers say about a key while neither is in a reconfiguration: they name the same number, and if both say the key is
theirs they are the same server. -/
theorem C53_two_servers {cfg : Cfg} {a b : List Nat} {σ τ σ' τ' : S} {key : List Nat} {m1 m2 : Bool} {i1 i2 : Nat} {s1 s2 : Option Nat}
    (h1 : Step cfg a σ (.lookup key) (.owner m1 i1 s1) σ') (h2 : Step cfg b τ (.lookup key) (.owner m2 i2 s2) τ')
    (n1 : σ.next = none) (n2 : τ.next = none) (hm : σ.names.Perm τ.names) :
    i1 = i2 ∧ (m1 = true → m2 = true → a = b) := by
  have key : ∀ {own : List Nat} {σ σ' : S} {m : Bool} {i : Nat} {s : Option Nat}, Step cfg own σ (.lookup key) (.owner m i s) σ' →
      σ.next = none → ∃ x, Owner cfg.points σ.names (cfg.khash key) x ∧ i = rank σ.names x ∧ (m = true ↔ x = own) := by
    intro own σ σ' m i s h hn
    obtain ⟨-, h⟩ := h
    split at h
    · cases h
    · obtain ⟨x, j, mine, a1, a2, a3, a4, a5⟩ := h
      simp only [Out.owner.injEq] at a5
      obtain ⟨rfl, rfl, -⟩ := a5
      refine ⟨x, a1, ?_, a4 fun new h => by rw [hn] at h; cases h⟩
      rcases a2 with h | ⟨new, h, -⟩
      · exact h
      · rw [hn] at h; cases h
  obtain ⟨x, x1, x2, x3⟩ := key h1 n1
  obtain ⟨y, y1, y2, y3⟩ := key h2 n2
  have hxy := C53_agree (fun z => hm.mem_iff) x1 y1
  subst hxy
  refine ⟨by rw [x2, y2, rank_perm hm], fun e1 e2 => ?_⟩
  rw [← x3.mp e1, ← y3.mp e2]

/-- **C53** is false for a list without nodes: the look-up reads the first pointer of a continuum that has none. -/
theorem C53_empty_false (cfg : Cfg) (self key : List Nat) :
    answers (step cfg) (init cfg self) [.start [] 0 true, .lookup key] = none := rfl

/-- **C53** is false for equal names, `a-x` and `a-y` here: the server `a` says of all its keys that they are not its own (it finds the
first of the two, the continuum has the number of the second). -/
theorem C53_twin_false : answers (step exCfg) (init exCfg [97])
    [.start [[97, 45, 120], [97, 45, 121], [98], [99], [100]] 0 true, .install, .lookup [5]] =
    some [.begun 5 0, .ok, .owner false 1 (some 0)] := by
  decide +kernel

/-- **C53** is false for names of more than 127 bytes: the same list again is taken for a new one, and so is a list with another name that
begins with the same 127 bytes: the server has then two nodes of one name. -/
theorem C53_long_false : answers (step exCfg) (init exCfg [98])
    [.start [[98], List.replicate 128 97] 0 true, .install, .start [[98], List.replicate 128 97] 0 true] =
    some [.begun 2 0, .ok, .begun 1 1] := by
  decide +kernel

/-- **C53** After a reconfiguration failed for lack of memory, the same list as before does not make the server answer again. -/
theorem C53_sticky_false : answers (step exCfg) (init exCfg [98])
    [.start [[97], [98]] 0 true, .install, .start [[97], [98], [99]] 0 false, .start [[97], [98]] 0 true, .lookup [15]] =
    some [.begun 2 0, .ok, .failed, .same, .unknown] := by
  decide +kernel

/-! ## Look-ups during a reconfiguration -/

/-- **C54** is false: a server denies its own key.  The server is `b`; `a` joins `b` and `c`.  Key 15 belongs to `b` before and
after; between the writes of `do_continuum_build` and the exchange, `b` says it is not its own. -/
theorem C54_denied_false :
    Owner exCfg.points [[98], [99]] 15 [98] ∧ Owner exCfg.points [[97], [98], [99]] 15 [98] ∧
    answers (step exCfg) (init exCfg [98]) [.start [[98], [99]] 0 true, .install, .lookup [15], .start [[97], [98], [99]] 0 true, .write,
      .write, .lookup [15], .install, .lookup [15]] =
    some [.begun 2 0, .ok, .owner true 0 (some 0), .begun 1 0, .ok, .ok, .owner false 1 (some 0), .ok, .owner true 1 (some 1)] := by
  refine ⟨⟨by decide, 20, ⟨⟨[98], by decide, by decide⟩, .inl ⟨by decide, ?_⟩⟩, by decide, ?_⟩,
    ⟨by decide, 20, ⟨⟨[98], by decide, by decide⟩, .inl ⟨by decide, ?_⟩⟩, by decide, ?_⟩, by decide +kernel⟩
  · rintro q ⟨x, hx, hq⟩ -
    simp only [List.mem_cons, List.not_mem_nil, or_false] at hx
    rcases hx with rfl | rfl <;> simp [exCfg] at hq <;> omega
  · intro y hy h20
    simp only [List.mem_cons, List.not_mem_nil, or_false] at hy
    rcases hy with rfl | rfl
    · exact smaller_irrefl _
    · simp [exCfg] at h20
  · rintro q ⟨x, hx, hq⟩ h15
    simp only [List.mem_cons, List.not_mem_nil, or_false] at hx
    rcases hx with rfl | rfl | rfl <;> simp [exCfg] at hq <;> omega
  · intro y hy h20
    simp only [List.mem_cons, List.not_mem_nil, or_false] at hy
    rcases hy with rfl | rfl | rfl
    · simp [exCfg] at h20
    · exact smaller_irrefl _
    · simp [exCfg] at h20

/-- **C54** is false: a server claims a key that belongs to another one before and after (key 25 to `c`; `a` leaves `a`, `b`, `c`). -/
theorem C54_claimed_false :
    answers (step exCfg) (init exCfg [98]) [.start [[97], [98], [99]] 0 true, .install, .lookup [25], .start [[98], [99]] 0 true, .write,
      .write, .lookup [25], .install, .lookup [25]] =
    some [.begun 3 0, .ok, .owner false 2 (some 1), .begun 0 1, .ok, .ok, .owner true 1 (some 1), .ok, .owner false 1 (some 0)] := by
  decide +kernel

/-- **C54** (partial) Every look-up in every history, also between the writes of a reconfiguration: the number that is compared is that of
the owner in the present list, by the present or by the new numbering; when the new list keeps the numbers of the nodes that stay,
`mine` is exactly whether the server is the owner.  Missing: the other reconfigurations, for which it is false. -/
theorem C54_partial {cfg : Cfg} (hc : Sized cfg) {self : List Nat} (hself : self.length ≤ 127) (c : Client Ev Out)
    (hl : LegalClient (Step cfg self) Legal Spec.start c) (n : Nat) :
    ∃ k s t, k ≤ n ∧ play (step cfg) (init cfg self) c k = some (s, t) ∧ (k < n → Stop self s (c t)) ∧
      ∀ key mine i sid, (Ev.lookup key, Out.owner mine i sid) ∈ t →
        ∃ t' σ x, SpecRun (Step cfg self) Spec.start c t' σ ∧ Owner cfg.points σ.names (cfg.khash key) x ∧
          (i = rank σ.names x ∨ ∃ new, σ.next = some new ∧ x ∈ new ∧ i = rank new x) ∧ sid = selfId σ.names self ∧
          (Quiet σ → (mine = true ↔ x = self)) := by
  obtain ⟨k, s, t, h1, h2, -, ⟨σ, h3⟩, h4⟩ := C53_partial hc hself c hl n
  refine ⟨k, s, t, h1, h2, fun h => (h4 h).2, ?_⟩
  intro key mine i sid hm
  obtain ⟨t1, σ1, σ2, r1, r2⟩ := h3.mem hm
  obtain ⟨-, r2⟩ := r2
  split at r2
  · cases r2
  · obtain ⟨x, j, m, a1, a2, a3, a4, a5⟩ := r2
    simp only [Out.owner.injEq] at a5
    obtain ⟨rfl, rfl, rfl⟩ := a5
    exact ⟨t1, σ1, x, r1, a1, a2, rfl, a4⟩

/-- A list that grows at its end keeps all numbers: `c` joins `a` and `b`. -/
example : Quiet ⟨some [[97], [98]], true, some [[97], [98], [99]]⟩ := by
  intro new hn x hx _
  cases hn
  simp only [S.names, Option.getD_some, List.mem_cons, List.not_mem_nil, or_false] at hx
  have hab : Smaller [97] [98] := .rel (by decide)
  have hac : Smaller [97] [99] := .rel (by decide)
  have hbc : Smaller [98] [99] := .rel (by decide)
  have hs2 : [[97], [98]].Pairwise Smaller := by simp [hab]
  have hs3 : [[97], [98], [99]].Pairwise Smaller := by simp [hab, hac, hbc]
  have e2 : rank [[97], [98]] [97] = 0 := rank_sorted (i := 0) hs2 rfl
  have e3 : rank [[97], [98], [99]] [97] = 0 := rank_sorted (i := 0) hs3 rfl
  have e4 : rank [[97], [98]] [98] = 1 := rank_sorted (i := 1) hs2 rfl
  have e5 : rank [[97], [98], [99]] [98] = 1 := rank_sorted (i := 1) hs3 rfl
  rcases hx with rfl | rfl
  · rw [e3]; exact e2.symm
  · rw [e5]; exact e4.symm

/-! ## Reconfigurations do not stop the server -/

/-- **C55** is false: ten nodes, the server among them, use nine of the ten node items made at the start; then two nodes are replaced by
others.  `do_node_free_list_prepare` counts the ten nodes in use as available, and the assertion in line 423 fails. -/
theorem C55_false : answers (step exCfg) (init exCfg [98])
    [.start ((List.range 10).map fun i => [97 + i]) 100 true, .install] = some [.begun 10 0, .ok] ∧
    answers (step exCfg) (init exCfg [98])
    [.start ((List.range 10).map fun i => [97 + i]) 100 true, .install,
      .start ((List.range 8).map (fun i => [97 + i]) ++ [[120], [121]]) 100 true] = none := by
  decide +kernel

/-- **C55** is false, also when only one node is replaced: in a cluster that grew node by node to eleven nodes no node item is free. -/
theorem C55_one_false : answers (step exCfg) (init exCfg [98])
    ([.start [[98]] 100 true, .install] ++ (List.range 10).flatMap (fun n => [.start ((List.range (n + 2)).map fun i => [97 + i]) 100 true, .install]) ++
      [.start ((List.range 11).map fun i => [97 + i]) 100 true]) =
      some ([.begun 1 0, .ok] ++ (List.range 10).flatMap (fun _ => [.begun 1 0, .ok]) ++ [.same]) ∧
    answers (step exCfg) (init exCfg [98])
    ([.start [[98]] 100 true, .install] ++ (List.range 10).flatMap (fun n => [.start ((List.range (n + 2)).map fun i => [97 + i]) 100 true, .install]) ++
      [.start ((List.range 10).map (fun i => [97 + i]) ++ [[120]]) 100 true]) = none := by
  decide +kernel

/-- **C55** (partial) A server whose reconfigurations never both remove nodes and add others never stops, whatever the history.  Missing:
changes that do both; for them `C53_partial` shows that the only stop is the one described by `Stop`: more nodes come than there are
free node items. -/
theorem C55_partial {cfg : Cfg} (hc : Sized cfg) {self : List Nat} (hself : self.length ≤ 127) :
    Implements (step cfg) (init cfg self) (Step cfg self) (Calm self) Spec.start := by
  refine of_simulation (Inv cfg self) (init_inv hself) ?_
  intro σ s ev I hl
  have hl' : Legal σ ev := by
    cases ev with
    | start strs mem ring => exact hl.1
    | write => exact hl
    | install => exact hl
    | lookup key => exact hl
  rcases step_inv hc σ s ev I hl' with ⟨-, h⟩ | h
  · exfalso
    cases ev with
    | start strs mem ring =>
      obtain ⟨⟨id, h1, h2⟩, h3⟩ := h
      rcases hl.2 with h' | h'
      · exact h2 (h' _ (I.good.perm.mem_iff.mp (List.mem_map.mpr ⟨id, h1, rfl⟩)))
      · have : needs self (s.nodes.map (nameOf s.heap)) (strs.map nodeOf) = 0 := by
          classical
          unfold needs
          rw [List.length_eq_zero_iff, List.filter_eq_nil_iff]
          intro x hx
          have := h' x hx
          rw [← I.good.perm.mem_iff] at this
          simp only [decide_eq_true_eq, not_and, Classical.not_not]
          intro hn
          rcases this with h | h
          · exact absurd h hn
          · exact h
        omega
    | write => exact h
    | install => exact h
    | lookup key => exact h
  · exact h

example : Implements (step exCfg) (init exCfg [98]) (Step exCfg [98]) (Calm [98]) Spec.start := C55_partial exSized (by decide)

/-- Such a history: sixteen nodes come one after the other list, then five leave, then come again. -/
example : answers (step exCfg) (init exCfg [98])
    [.start ((List.range 11).map fun i => [97 + i]) 100 true, .install, .start ((List.range 16).map fun i => [97 + i]) 100 true, .install,
      .start ((List.range 11).map fun i => [97 + i]) 0 true, .install, .start ((List.range 16).map fun i => [97 + i]) 0 true, .install] =
    some [.begun 11 0, .ok, .begun 5 0, .ok, .begun 0 5, .ok, .begun 5 0, .ok] := by
  decide +kernel

end Verif.Cluster.Props
