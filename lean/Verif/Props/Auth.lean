import Verif.Lemmas.AuthLine
/-
The rights of users (C70), the text protocol (C71), the binary protocol (C72), and commands that stop the server (C75).
-/

namespace Verif.Auth.Props
open Spec Verif.Token.Spec

/-! ### C70 -/

/-- The flag of the table is set if and only if one of its words is listed. -/
def Exact (data : List Nat) (a : Nat) : Prop :=
  (a &&& KV = KV ↔ Listed data (w ['k', 'v'])) ∧ (a &&& LIST = LIST ↔ Listed data (w ['l', 'i', 's', 't'])) ∧
  (a &&& SET = SET ↔ Listed data (w ['s', 'e', 't'])) ∧ (a &&& MAP = MAP ↔ Listed data (w ['m', 'a', 'p'])) ∧
  (a &&& BTREE = BTREE ↔ Listed data (w ['b', 't', 'r', 'e', 'e'])) ∧ (a &&& SCAN = SCAN ↔ Listed data (w ['s', 'c', 'a', 'n'])) ∧
  (a &&& FLUSH = FLUSH ↔ Listed data (w ['f', 'l', 'u', 's', 'h'])) ∧ (a &&& ATTR = ATTR ↔ Listed data (w ['a', 't', 't', 'r'])) ∧
  (a &&& ADMIN = ADMIN ↔ Listed data (w ['a', 'd', 'm', 'i', 'n'])) ∧ (a &&& DELETE = DELETE ↔ ∃ t ∈ types, Listed data t)

/-- The full claim of C70: whatever the memory held before.  It does not hold, see `C70_false`. -/
def C70_Full : Prop :=
  ∀ (acl : Acl) (user stack data : List Nat), acl.lookup user = some data → 0 ∉ data → data.length ≤ 1024 → stack.length = 1024 →
    ∃ a, authz true acl user stack = some a ∧ Exact data a

/-- C70 (partial: the byte behind the copied data happens to be 0).  A user has the rights that the access list names for them, and no others; a user
who is not listed has none. -/
theorem C70_partial (acl : Acl) (user stack : List Nat) :
    (acl.lookup user = none → authz true acl user stack = some FAIL ∧ ∀ i < 10, FAIL &&& 2 ^ i ≠ 2 ^ i) ∧
    ∀ data, acl.lookup user = some data → 0 ∉ data → data.length < 1024 → stack[data.length]? = some 0 →
      ∃ a, authz true acl user stack = some a ∧ Exact data a := by
  refine ⟨fun h => ⟨by simp [authz, h], by decide⟩, fun data hl h0 hlen hs => ⟨_, authz_listed acl user stack data hl h0 hlen hs, ?_⟩⟩
  have hb := holds_bit (r := .listed data) (a := (strtok [] data).foldl (fun r t => r ||| tokenFlags t) NONE) rfl
  have one : ∀ (i : Nat) (x : List Nat), i < 10 → words i = [x] →
      ((strtok [] data).foldl (fun r t => r ||| tokenFlags t) NONE &&& 2 ^ i = 2 ^ i ↔ Listed data x) := by
    intro i x hi hx
    rw [hb i hi, hx]
    simp [Right.Has]
  exact ⟨one 1 _ (by decide) rfl, one 2 _ (by decide) rfl, one 3 _ (by decide) rfl, one 4 _ (by decide) rfl, one 5 _ (by decide) rfl,
    one 6 _ (by decide) rfl, one 7 _ (by decide) rfl, one 8 _ (by decide) rfl, one 9 _ (by decide) rfl, hb 0 (by decide)⟩

/-- `alice` may use items with simple values and lists. -/
def alice : List Nat := w ['a', 'l', 'i', 'c', 'e']

/-- The access list: `kv,list` for `alice`. -/
def acl : Acl := [(alice, w ['k', 'v', ',', 'l', 'i', 's', 't'])]

-- the hypotheses of `C70_partial` are met
example : acl.lookup alice = some (w ['k', 'v', ',', 'l', 'i', 's', 't']) ∧ (List.replicate 1024 0)[7]? = some 0 := by decide +kernel
example : authz true acl alice (List.replicate 1024 0) = some (KV ||| LIST ||| DELETE) := by decide +kernel

/-- What the memory of `value` may hold: `#######,admin` and zeros. -/
def stale : List Nat := [1, 1, 1, 1, 1, 1, 1] ++ w [',', 'a', 'd', 'm', 'i', 'n'] ++ List.replicate 1011 0

/-- C70 does not hold as such: the data are copied without an end mark, and what stood in the memory before is read as part of the list. -/
theorem C70_false : ¬ C70_Full := by
  intro h
  obtain ⟨a, e, he⟩ := h acl alice stale (w ['k', 'v', ',', 'l', 'i', 's', 't']) (by decide +kernel) (by decide) (by decide) (by decide +kernel)
  have : authz true acl alice stale = some (KV ||| LIST ||| DELETE ||| ADMIN) := by decide +kernel
  rw [this] at e
  cases e
  have := he.2.2.2.2.2.2.2.2.1.1 (by decide)
  rw [← strtok_listed] at this
  revert this
  decide

/-- A list of exactly 1024 bytes has no end at all. -/
theorem C70_false_end : ∃ (t : Acl) (user stack data : List Nat), t.lookup user = some data ∧ 0 ∉ data ∧ data.length = 1024 ∧ stack.length = 1024 ∧
    authz true t user stack = none :=
  ⟨[(alice, List.replicate 1024 97)], alice, List.replicate 1024 0, List.replicate 1024 97, by decide +kernel, by decide +kernel, List.length_replicate,
    List.length_replicate, by decide +kernel⟩

/-! ### C71 -/

/-- A new connection: nobody is known. -/
def fresh (t : Acl) : Hist := ⟨t, false, .nothing⟩

theorem fresh_agrees (t : Acl) : Agrees (fresh t) t Conn.new := ⟨rfl, rfl, .inl rfl, fun h => by cases h⟩

/-- The full claim of C71, for connections whose rights were read as listed.  It does not hold, see `C71_false`. -/
def C71_Full : Prop :=
  ∀ (useAcl ext : Bool) (t : Acl) (es : List Ev) (l : List Nat), Short t → Tidy t es → 0 ∉ l → ¬ Words l [w ['s', 'c', 'r', 'u', 'b']] →
    ∃ t' c, steps useAcl (t, Conn.new) es = some (t', c) ∧ Same ((fresh t).afterAll useAcl es).right (line false ext c l) (line true ext c l)

/-- C71 (partial: no `get` whose first key begins with `arcus:` and a later one does not; `scrub` alone is C75; access lists are read as listed, see
C70).  Whatever happened on a connection, a command line is carried out as without rights if the last confirmed user may do it, and refused
otherwise: they need a word of the access list for it, unless it has keys in its line and all of them begin with `arcus:`. -/
theorem C71_partial (useAcl ext : Bool) (t : Acl) (es : List Ev) (l : List Nat) (ht : Short t) (he : Tidy t es) (h0 : 0 ∉ l)
    (hs : ¬ Words l [w ['s', 'c', 'r', 'u', 'b']]) (hm : NotMixed l) :
    ∃ t' c, steps useAcl (t, Conn.new) es = some (t', c) ∧ Same ((fresh t).afterAll useAcl es).right (line false ext c l) (line true ext c l) := by
  obtain ⟨t', c, e, ha⟩ := steps_ok useAcl es (fresh t) t Conn.new (fresh_agrees t) ht he
  exact ⟨t', c, e, line_same ext ha.right l h0 hm (fun _ => hs)⟩

/-- What happened: `alice` was confirmed in two steps, then someone failed, then the list changed. -/
def story : List Ev :=
  [.auth true .continue_ [] (List.replicate 1024 0), .auth false .ok alice (List.replicate 1024 0), .auth true .fail [98] (List.replicate 1024 0), .mechs, .acl []]

/-- The connection after that. -/
def after : Conn := ⟨[98], false, false, KV ||| LIST ||| DELETE⟩

theorem story_run : steps true (acl, Conn.new) story = some ([], after) := by decide +kernel

theorem acl_lookup {user data : List Nat} (h : acl.lookup user = some data) : data = w ['k', 'v', ',', 'l', 'i', 's', 't'] := by
  simp only [acl, List.lookup] at h
  split at h
  · simpa using h.symm
  · cases h

theorem acl_short : Short acl := by
  intro user data h
  rw [acl_lookup h]
  decide

theorem story_tidy : Tidy acl story := by
  refine ⟨?_, ?_, ?_, fun user data h => (by cases h), trivial⟩
  all_goals
    intro data h
    rw [acl_lookup h]
    decide +kernel

/-- `set k 0 0 1` -/
def setLine : List Nat := w ['s', 'e', 't', ' ', 'k', ' ', '0', ' ', '0', ' ', '1']
/-- `flush_all` -/
def flushLine : List Nat := w ['f', 'l', 'u', 's', 'h', '_', 'a', 'l', 'l']
/-- `get arcus:x secret` -/
def mixedLine : List Nat := w ['g', 'e', 't', ' ', 'a', 'r', 'c', 'u', 's', ':', 'x', ' ', 's', 'e', 'c', 'r', 'e', 't']

-- `alice` may still store, and may not flush
example : line true true after setLine = some (.run ⟨.update, [[107]]⟩) := by decide +kernel
example : line true true after flushLine = some .refused ∧ line false true after flushLine = some (.run ⟨.flush, []⟩) := by decide +kernel
example : line true true Conn.new setLine = some .refused := by decide +kernel
-- the hypotheses of `C71_partial` are met
example : NotMixed setLine := by
  intro name k ks hw hn
  have := Verif.Token.words_unique hw
  rw [show Verif.Token.wordsFrom [] setLine = [w ['s', 'e', 't'], w ['k'], w ['0'], w ['0'], w ['1']] from by decide +kernel] at this
  simp only [List.cons.injEq] at this
  rw [this.1] at hn
  exact absurd hn (by decide)
example : ¬ Words setLine [w ['s', 'c', 'r', 'u', 'b']] := by
  intro hw
  have := Verif.Token.words_unique hw
  revert this
  decide +kernel

/-- C71 does not hold as such: only the first key of `get` is checked.  A client without any rights reads all keys. -/
theorem C71_false : ¬ C71_Full := by
  intro h
  obtain ⟨t', c, e, p, q, e1, e2, _, hr, _⟩ := h true true acl [] mixedLine acl_short trivial (by decide) (by
    intro hw
    have := Verif.Token.words_unique hw
    revert this
    decide +kernel)
  cases e
  have e3 : line false true Conn.new mixedLine = some (.run ⟨.get, [w ['a', 'r', 'c', 'u', 's', ':', 'x'], w ['s', 'e', 'c', 'r', 'e', 't']]⟩) := by decide +kernel
  have e4 : line true true Conn.new mixedLine = some (.run ⟨.get, [w ['a', 'r', 'c', 'u', 's', ':', 'x'], w ['s', 'e', 'c', 'r', 'e', 't']]⟩) := by decide +kernel
  rw [e3] at e1
  rw [e4] at e2
  cases e1
  cases e2
  have := (hr _ rfl).2 (by
    rintro (⟨x, hx, hh⟩ | ⟨_, hp⟩)
    · exact hh
    · have := (public_take _).2 (hp (w ['s', 'e', 'c', 'r', 'e', 't']) (by simp))
      revert this
      decide)
  cases this

/-! ### C72 -/

/-- The full claim of C72.  It does not hold, see `C72_false`. -/
def C72_Full : Prop :=
  ∀ (useAcl : Bool) (t : Acl) (es : List Ev) (op : Op), Short t → Tidy t es →
    ∃ t' c, steps useAcl (t, Conn.new) es = some (t', c) ∧ (bin true c op = .run op → Permitted ((fresh t).afterAll useAcl es).right op)

/-- C72 (partial).  By the binary protocol nothing is carried out but authentication and `version`, unless a user was confirmed who is listed (or
no access list is used); and without an access list nothing is carried out that is not permitted. -/
theorem C72_partial (useAcl : Bool) (t : Acl) (es : List Ev) (op : Op) (ht : Short t) (he : Tidy t es) :
    ∃ t' c, steps useAcl (t, Conn.new) es = some (t', c) ∧ (bin true c op = .run op → op.cmd = .sasl ∨ op.cmd = .version ∨
      (∃ data, ((fresh t).afterAll useAcl es).right = .listed data) ∨ (((fresh t).afterAll useAcl es).right = .all ∧ Permitted .all op)) := by
  obtain ⟨t', c, e, ha⟩ := steps_ok useAcl es (fresh t) t Conn.new (fresh_agrees t) ht he
  refine ⟨t', c, e, fun hb => ?_⟩
  unfold bin at hb
  split at hb
  · cases hb
  · rename_i hn
    by_cases h1 : op.cmd = .sasl
    · exact .inl h1
    by_cases h2 : op.cmd = .version
    · exact .inr (.inl h2)
    have h3 : c.authenticated = true := by
      cases h : c.authenticated
      · exact absurd ⟨rfl, fun x => x.elim h1 h2, h⟩ hn
      · rfl
    have hk := (ha.known h3).2
    refine .inr (.inr ?_)
    cases hr : ((fresh t).afterAll useAcl es).right with
    | nothing => rw [hr] at hk; exact absurd trivial hk
    | listed d => exact .inl ⟨d, rfl⟩
    | all =>
      refine .inr ⟨rfl, ?_⟩
      unfold Permitted
      cases hc : op.cmd <;> simp [needs, Right.Has, types]

-- `alice` is known; nobody is
example : bin true Conn.new ⟨.update, [[107]]⟩ = .refused := by decide
example : steps true (acl, Conn.new) (story.take 2) = some (acl, ⟨alice, true, true, KV ||| LIST ||| DELETE⟩) := by decide +kernel

/-- C72 does not hold as such: the binary protocol does not look at the rights.  `alice` may flush the server. -/
theorem C72_false : ¬ C72_Full := by
  intro h
  have ht : Tidy acl (story.take 2) := by
    refine ⟨?_, ?_, trivial⟩
    all_goals
      intro data h
      rw [acl_lookup h]
      decide +kernel
  obtain ⟨t', c, e, hp⟩ := h true acl (story.take 2) ⟨.flush, []⟩ acl_short ht
  have e' : steps true (acl, Conn.new) (story.take 2) = some (acl, ⟨alice, true, true, KV ||| LIST ||| DELETE⟩) := by decide +kernel
  rw [e'] at e
  cases e
  have := hp rfl
  rcases this with ⟨x, hx, hh⟩ | ⟨hk, _⟩
  · simp only [List.mem_singleton] at hx
    subst hx
    have hh : Listed (w ['k', 'v', ',', 'l', 'i', 's', 't']) (w ['f', 'l', 'u', 's', 'h']) := hh
    rw [← strtok_listed] at hh
    revert hh
    decide
  · exact hk rfl

/-! ### C75 -/

/-- The full claim of C75: no command line stops the server.  It does not hold, see `C75_false`. -/
def C75_Full : Prop := ∀ (require ext : Bool) (c : Conn) (l : List Nat), 0 ∉ l → line require ext c l ≠ none

/-- C75 (partial: the line is not the single word `scrub`, or that extension is not loaded, or rights are not checked, or the user has the right `admin`
and no name that begins with `*`).  No command line stops the server, whoever sends it. -/
theorem C75_partial (require ext : Bool) (c : Conn) (l : List Nat) (h0 : 0 ∉ l)
    (hs : ¬ Words l [w ['s', 'c', 'r', 'u', 'b']] ∨ ext = false ∨ require = false ∨ (c.authorized &&& ADMIN = ADMIN ∧ c.user.head? ≠ some 42)) :
    line require ext c l ≠ none :=
  line_total require ext c l h0 hs

/-- `scrub` -/
def scrubLine : List Nat := w ['s', 'c', 'r', 'u', 'b']

-- with another word
example : line true true Conn.new (w ['s', 'c', 'r', 'u', 'b', ' ', 's', 't', 'a', 'l', 'e']) = some .refused := by decide +kernel
-- an administrator
example : line true true ⟨[97], true, true, ALL⟩ scrubLine = some (.run ⟨.scrub, []⟩) := by decide +kernel

/-- C75 does not hold as such: `scrub` from a client without rights makes an assertion fail, and the server process ends. -/
theorem C75_false : ¬ C75_Full := by
  intro h
  exact h true true Conn.new scrubLine (by decide) (by decide +kernel)

end Verif.Auth.Props
