/-
How a command line is split into words, and how `get` works through its keys (mc_util.c, memcached.c).
-/

namespace Verif.Token

/-- The loop of `tokenize_command` with the check after it (mc_util.c 245-283), byte by byte instead of `memchr`: `k` more tokens fit, `cur` is what
has been read since the last blank.  The second component: `none` if the terminal token has the value NULL, else the unprocessed rest.
The byte behind the line is 0 (memcached.c 13820). -/
def tokLoop : Nat → List Nat → List Nat → List (List Nat) × Option (List Nat)
  | _, cur, [] => (if cur = [] then [] else [cur], none)
  | k, cur, b :: r =>
    if b = 32 then
      if cur = [] then tokLoop k [] r
      else if k = 1 then ([cur], match r with
          | [] => none
          | c :: r' => if c = 0 then none else some (c :: r'))
      else
        let (ts, rest) := tokLoop (k - 1) [] r
        (cur :: ts, rest)
    else tokLoop k (cur ++ [b]) r

/-- `MAX_TOKENS` (memcached.c 7855). -/
def maxTokens : Nat := 30

/-- `tokenize_command(command, cmdlen, tokens, MAX_TOKENS)` (mc_util.c 238-285): the tokens without the terminal one, and the rest. -/
def tokenize (l : List Nat) : List (List Nat) × Option (List Nat) := tokLoop (maxTokens - 1) [] l

/-- `KEY_MAX_LENGTH` (memcached.h 48). -/
def keyMax : Nat := 16000

/-- The inner loop of `process_get_command` (memcached.c 8622-8633): the keys that are looked up, and whether a key was too long.
Simplified: there is memory for the answers. -/
def lookUp : List (List Nat) → List (List Nat) × Bool
  | [] => ([], true)
  | t :: ts =>
    if keyMax < t.length then ([], false)
    else
      let (ks, ok) := lookUp ts
      (t :: ks, ok)

/-- The outer loop of `process_get_command` (memcached.c 8621-8644); the first argument bounds the rounds (`none`: the bound is reached). -/
def getLoop : Nat → List (List Nat) → Option (List Nat) → Option (List (List Nat) × Bool)
  | 0, _, _ => none
  | f + 1, ts, rest =>
    let (ks, ok) := lookUp ts
    if ok = false then some (ks, false)
    else
      match rest with
      | none => some (ks, true)
      | some r =>
        let (ts', rest') := tokenize r
        if ts' = [] ∧ rest' = none then some (ks, true)
        else (getLoop f ts' rest').map fun (ks', ok) => (ks ++ ks', ok)

/-- The C string that begins with these bytes, as `strcmp` reads it (memcached.c 13597, 13601): the byte behind a token is 0 (mc_util.c 253). -/
def cstr (w : List Nat) : List Nat := w.takeWhile (fun b => b != 0)

/-- `process_command_ascii` on a line that begins with `get` or `gets` (memcached.c 13595-13605): the keys that are looked up, and whether all keys
were.  `none` if the line is not such a command. -/
def get (l : List Nat) : Option (List (List Nat) × Bool) :=
  let (ts, rest) := tokenize l
  match ts with
  | name :: k :: ks =>
    if cstr name = [103, 101, 116] ∨ cstr name = [103, 101, 116, 115] then getLoop (l.length + 1) (k :: ks) rest else none
  | _ => none

end Verif.Token
