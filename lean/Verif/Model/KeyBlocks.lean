/-!
# Key strings in memory blocks

Model of the block part of mc_util.c (the token functions, 346-624) and of the way key strings are read into memory blocks (memcached.c
1010-1072, 14288-14348).  A memory is the list of the bodies of the blocks of the connection's list; a pointer is a block and an offset.
`none` is a failed assertion or an access out of the blocks.  32-bit arithmetic does not wrap: lengths are below 2^28 (memcached.c
8716-8718, `MAX_MGET_KEY_COUNT` times `KEY_MAX_LENGTH`).
-/
namespace Verif.Keys

/-- The bodies of the blocks of a list, `mblck_node_t`, mc_util.h 35-38. -/
abbrev Mem := List (List Nat)

/-- Bytes read from a block. -/
def rd (m : Mem) (b off len : Nat) : Option (List Nat) :=
  match m[b]? with
  | none => none
  | some body => if off + len ≤ body.length then some ((body.drop off).take len) else none

/-- Bytes written to a block (`memcpy`, `memmove`, `read`). -/
def wr (m : Mem) (b off : Nat) (xs : List Nat) : Option Mem :=
  match m[b]? with
  | none => none
  | some body => if off + xs.length ≤ body.length then some (m.set b (body.take off ++ xs ++ body.drop (off + xs.length))) else none

/-- One byte. -/
def byte (m : Mem) (b off : Nat) : Option Nat := (rd m b off 1).bind fun xs => xs[0]?

/-- `token_t`: pointer and length. -/
structure Tok where
  b : Nat
  off : Nat
  len : Nat

/-- `segtok_t`, mc_util.c 417-422. -/
structure Seg where
  tok : Tok
  idx : Nat

/-! ## Reading -/

/-- The state of reading, `membk`, `ritem`, `rlbytes`, `rltotal` (memcached.c 1010-1019). -/
structure Rd where
  blk : Nat
  off : Nat
  rl : Nat
  total : Nat

/-- `ritem_set_first`, memcached.c 1010-1020. -/
def first (bl vlen : Nat) : Rd := ⟨0, 0, if vlen < bl then vlen else bl, vlen⟩

/-- The copying of received bytes, memcached.c 14311-14330 (and 14333-14347 for one `read`), with `ritem_set_next` (1063-1072); the bytes not
taken are returned. -/
def feed (bl : Nat) : Nat → Mem → Rd → List Nat → Option (Mem × Rd × List Nat)
  | 0, _, _, _ => none
  | fuel + 1, m, r, data =>
    if r.rl = 0 ∨ data = [] then some (m, r, data)
    else
      let tocopy := min data.length r.rl
      match wr m r.blk r.off (data.take tocopy) with
      | none => none
      | some m' =>
        let total := r.total - tocopy
        if r.rl - tocopy = 0 ∧ 0 < total then
          feed bl fuel m' ⟨r.blk + 1, 0, if total < bl then total else bl, total⟩ (data.drop tocopy)
        else feed bl fuel m' ⟨r.blk, r.off + tocopy, r.rl - tocopy, total⟩ (data.drop tocopy)

/-- The bytes of several packets. -/
def feedAll (bl : Nat) : Mem → Rd → List (List Nat) → Option (Mem × Rd)
  | m, r, [] => some (m, r)
  | m, r, d :: ds =>
    match feed bl (d.length + 1) m r d with
    | none => none
    | some (m', r', _) => feedAll bl m' r' ds

/-! ## Tokens -/

/-- The loop of `tokenize_mblck`, mc_util.c 390-414, over the bytes of the block part; `s` and `e` are offsets; the tokens are given by
offset and length, `none` is the result -1. -/
def scan (delim : Nat) : Nat → Nat → Nat → List Nat → Option (List (Nat × Nat))
  | 0, _, _, _ => none
  | _ + 1, s, e, [] => if s = e then none else some [(s, e - s)]
  | cnt + 1, s, e, c :: rest =>
    if c = delim then
      if s = e then none else (scan delim cnt (e + 1) (e + 1) rest).map ((s, e - s) :: ·)
    else if c = 32 then none
    else scan delim (cnt + 1) s (e + 1) rest

/-- The number of blocks `concat_segmented_tokens` needs, mc_util.c 438-453; `some none`: a key is too long. -/
def count (bl maxk : Nat) (toks : List Tok) : List Seg → Nat → Nat → Option (Option Nat)
  | [], n, _ => some (some n)
  | g :: gs, n, dl =>
    match toks[g.idx]? with
    | none => none
    | some t =>
      if maxk < g.tok.len + t.len then some none
      else if bl < dl + (g.tok.len + t.len) then count bl maxk toks gs (n + 1) (g.tok.len + t.len)
      else count bl maxk toks gs n (dl + (g.tok.len + t.len))

/-- The copying of `concat_segmented_tokens`, mc_util.c 460-484. -/
def place (bl : Nat) : List Seg → Mem → List Tok → Nat → Nat → Option (Mem × List Tok)
  | [], m, toks, _, _ => some (m, toks)
  | g :: gs, m, toks, blk0, dl0 =>
    match toks[g.idx]? with
    | none => none
    | some t =>
      let blk := if bl < dl0 + (g.tok.len + t.len) then blk0 + 1 else blk0
      let dl := if bl < dl0 + (g.tok.len + t.len) then 0 else dl0
      match rd m g.tok.b g.tok.off g.tok.len with
      | none => none
      | some xs =>
        match wr m blk dl xs with
        | none => none
        | some m1 =>
          match rd m1 t.b t.off t.len with
          | none => none
          | some ys =>
            match wr m1 blk (dl + g.tok.len) ys with
            | none => none
            | some m2 =>
              place bl gs m2 (toks.set g.idx ⟨blk, dl, g.tok.len + t.len⟩) blk (dl + (g.tok.len + t.len))

/-- Results of `concat_segmented_tokens`. -/
inductive Cat where
  | ok (m : Mem) (fresh : Mem) (toks : List Tok)
  | bad
  | nomem

/-- `concat_segmented_tokens`, mc_util.c 424-489; `fresh` are the blocks the pool can still give, with what was in them before.  The new
blocks become the end of the list. -/
def concat (bl maxk : Nat) (m fresh : Mem) (toks : List Tok) (segs : List Seg) : Option Cat :=
  match count bl maxk toks segs 1 0 with
  | none => none
  | some none => some .bad
  | some (some n) =>
    if fresh.length < n then some .nomem
    else (place bl segs (m ++ fresh.take n) toks m.length 0).map fun r => .ok r.1 (fresh.drop n) r.2

/-- What stays the same during one pass of `tokenize_mblocks`, mc_util.c 502-514. -/
structure Cx where
  bl : Nat
  numblks : Nat
  lastlen : Nat
  keycnt : Nat
  maxk : Nat
  delim : Nat

/-- What changes, mc_util.c 506-526: `toks` are the first `ntokens` entries of the array, `segs` the first `nsegtok`; `blk`, `off`, `len` are
`chkblks` - 1, `dataptr` and `datalen`. -/
structure L where
  m : Mem
  fresh : Mem
  toks : List Tok
  segs : List Seg
  blk : Nat
  off : Nat
  len : Nat

/-- How a pass ends. -/
inductive Ret where
  | ok (l : L)
  | bad (m fresh : Mem)
  | nomem (m fresh : Mem)

/-- The loop of `tokenize_mblocks`, mc_util.c 528-592. -/
def loop (x : Cx) : Nat → L → Option Ret
  | 0, _ => none
  | fuel + 1, l =>
    if l.toks.length < x.keycnt then
      match (if l.blk + 1 < x.numblks then (byte l.m l.blk (l.off + l.len - 1)).map fun c => decide (c = x.delim) else some false) with
      | none => none
      | some cut =>
        let len := if cut then l.len - 1 else l.len
        if len = 0 then none
        else
          match rd l.m l.blk l.off len with
          | none => none
          | some xs =>
            match scan x.delim (x.keycnt - l.toks.length) 0 0 xs with
            | none => some (.bad l.m l.fresh)
            | some ps =>
              if ps.any (fun p => decide (x.maxk < p.2)) then some (.bad l.m l.fresh)
              else
                let toks := l.toks ++ ps.map fun p => ⟨l.blk, l.off + p.1, p.2⟩
                if x.numblks ≤ l.blk + 1 then
                  if toks.length = x.keycnt then some (.ok { l with toks := toks }) else some (.bad l.m l.fresh)
                else
                  let next := if l.blk + 2 < x.numblks then x.bl else x.lastlen
                  if cut then loop x fuel { l with toks := toks, blk := l.blk + 1, off := 0, len := next }
                  else
                    match byte l.m (l.blk + 1) 0 with
                    | none => none
                    | some c =>
                      if c = x.delim then loop x fuel { l with toks := toks, blk := l.blk + 1, off := 1, len := next - 1 }
                      else
                        match (if 128 ≤ l.segs.length then concat x.bl x.maxk l.m l.fresh toks l.segs
                          else some (.ok l.m l.fresh toks)) with
                        | none => none
                        | some .bad => some (.bad l.m l.fresh)
                        | some .nomem => some (.nomem l.m l.fresh)
                        | some (.ok m fresh toks) =>
                          match toks.getLast? with
                          | none => none
                          | some t =>
                            loop x fuel
                              { m := m, fresh := fresh, toks := toks.dropLast
                                segs := (if 128 ≤ l.segs.length then [] else l.segs) ++ [⟨t, toks.length - 1⟩]
                                blk := l.blk + 1, off := 0, len := next }
    else some (.ok l)

/-- Results. -/
inductive Out (α : Type) where
  | ok (keys : α)
  | bad
  | nomem
deriving DecidableEq

/-- One pass with a delimiter, mc_util.c 516-592. -/
def pass (bl keylen keycnt maxk delim : Nat) (m fresh : Mem) : Option Ret :=
  let numblks := (keylen - 1) / bl + 1
  let lastlen := if 0 < keylen % bl then keylen % bl else bl
  loop ⟨bl, numblks, lastlen, keycnt, maxk, delim⟩ (numblks + 1) ⟨m, fresh, [], [], 0, 0, if 1 < numblks then bl else lastlen⟩

/-- The end of `tokenize_mblocks`, mc_util.c 594-606. -/
def finish (bl maxk : Nat) : Ret → Option (Mem × Out (List Tok))
  | .bad m _ => some (m, .bad)
  | .nomem m _ => some (m, .nomem)
  | .ok l =>
    if l.segs.length = 0 then some (l.m, .ok l.toks)
    else
      match concat bl maxk l.m l.fresh l.toks l.segs with
      | none => none
      | some .bad => some (l.m, .bad)
      | some .nomem => some (l.m, .nomem)
      | some (.ok m _ toks) => some (m, .ok toks)

/-- `tokenize_mblocks`, mc_util.c 495-607. -/
def tokenizeMblocks (bl keylen keycnt maxk : Nat) (compat : Bool) (m fresh : Mem) : Option (Mem × Out (List Tok)) :=
  if 0 < keylen ∧ 0 < keycnt ∧ maxk + 2 < bl then
    match pass bl keylen keycnt maxk 32 m fresh with
    | none => none
    | some (.bad m' fresh') =>
      if compat then
        match pass bl keylen keycnt maxk 44 m' fresh' with
        | none => none
        | some r => finish bl maxk r
      else some (m', .bad)
    | some r => finish bl maxk r
  else none

/-- `check_sblock_tail_string`, mc_util.c 349-379. -/
def checkTail (bl length : Nat) (m : Mem) : Option Bool :=
  let lastlen := if 0 < length % bl then length % bl else bl
  match byte m (m.length - 1) (lastlen - 1) with
  | none => none
  | some c =>
    if c ≠ 10 then some false
    else
      (byte m (if lastlen - 1 = 0 then m.length - 2 else m.length - 1) ((if lastlen - 1 = 0 then bl else lastlen - 1) - 1)).map
        fun c => decide (c = 13)

/-- `tokenize_sblocks`, mc_util.c 612-624. -/
def tokenizeSblocks (bl length keycnt maxk : Nat) (compat : Bool) (m fresh : Mem) : Option (Mem × Out (List Tok)) :=
  if 2 < length then
    match checkTail bl length m with
    | none => none
    | some false => some (m, .bad)
    | some true => tokenizeMblocks bl (length - 2) keycnt maxk compat m fresh
  else none

/-- The bytes of all tokens. -/
def bytesOf (m : Mem) : List Tok → Option (List (List Nat))
  | [] => some []
  | t :: ts =>
    match rd m t.b t.off t.len, bytesOf m ts with
    | some x, some xs => some (x :: xs)
    | _, _ => none

/-- A whole request: blocks for `length` bytes (`mblck_list_alloc` with items of one byte, mc_util.c 96-131; memcached.c 8677-8688) filled from
packets, then the keys (memcached.c 3101-3113).  `junk` and `fresh` are blocks with arbitrary content. -/
def request (bl length keycnt maxk : Nat) (compat : Bool) (junk fresh : Mem) (packets : List (List Nat)) :
    Option (Out (List (List Nat))) :=
  match feedAll bl (junk.take ((length - 1) / bl + 1)) (first bl length) packets with
  | none => none
  | some (m, _) =>
    match tokenizeSblocks bl length keycnt maxk compat m fresh with
    | none => none
    | some (_, .bad) => some .bad
    | some (_, .nomem) => some .nomem
    | some (m', .ok toks) => (bytesOf m' toks).map .ok

end Verif.Keys
