/-!
# Model of util.c: number parsing, glob matching, hexadecimal conversion

Bytes are natural numbers (callers supply values below 256).  A C string pointer is modelled by
the list of bytes of the memory starting at that address; running off the end of that list is
the explicit outcome `none` ("out-of-bounds read").
-/
namespace Verif.Util

/-- `isspace` in the C locale (used by util.c 37, 59, 82, 104): space, \t \n \v \f \r. -/
def isspace (c : Nat) : Bool := c == 32 || (9 ≤ c && c ≤ 13)

/-- `isdigit` as used inside libc's `strtoull` family. -/
def isdigit (c : Nat) : Bool := 48 ≤ c && c ≤ 57

/-- Positional value of a digit string (libc `strtoull`, base 10, no overflow yet). -/
def digitsVal (ds : List Nat) : Nat := ds.foldl (fun a d => a * 10 + (d - 48)) 0

/-- Outcome of scanning a number by the libc `strto*` functions called in util.c 35, 57, 77, 102:
`neg`: a minus sign was seen, `digits`: the digits consumed, `endp`: memory at `endptr`.
No digits: `digits = []` and `endp` is the start of the string (C11 7.22.1.4). -/
structure Scan where
  neg    : Bool
  digits : List Nat
  endp   : List Nat
deriving Repr, DecidableEq

/-- The text after leading white space and an optional sign, with the sign flag; C11 7.22.1.4 p.2-4
(called in util.c 35, 57, 77, 102).  `none` when the scan runs off the memory. -/
def signPart (m : List Nat) : Option (Bool × List Nat) :=
  match m.dropWhile isspace with
  | [] => none
  | c :: r =>
    if c == 45 then some (true, r)
    else if c == 43 then some (false, r)
    else some (false, c :: r)

/-- libc number scan, base 10 (C11 7.22.1.4), called from util.c 35, 57, 77, 102.
`none`: the scan reads past the modelled memory. -/
def scanNum (m : List Nat) : Option Scan :=
  match signPart m with
  | none => none
  | some (neg, r) =>
    let ds := r.takeWhile isdigit
    let e  := r.dropWhile isdigit
    match e with
    | [] => none
    | _ :: _ =>
      if ds.isEmpty then some ⟨neg, [], m⟩ else some ⟨neg, ds, e⟩

/-- `strchr(str, '-') != NULL` (util.c 42, 87): scan up to the first NUL; `none` when neither the
character nor a NUL is found inside the memory (out-of-bounds read). -/
def strchrMinus : List Nat → Option Bool
  | [] => none
  | c :: r => if c == 45 then some true else if c == 0 then some false else strchrMinus r

/-- The common acceptance test `isspace(*endptr) || (*endptr == '\0' && endptr != str)`
(util.c 37, 59, 82, 104).  `endptr != str` holds exactly when digits were consumed. -/
def endOk (s : Scan) : Bool :=
  match s.endp with
  | [] => false
  | c :: _ => isspace c || (c == 0 && !s.digits.isEmpty)

/-- Result of a parser: `none` = out-of-bounds read, `some none` = returned false,
`some (some v)` = returned true with `*out = v`. -/
abbrev Parse (α : Type) := Option (Option α)

/-- `safe_strtoull`, util.c 30-51.  `strtoull` negates modulo 2^64 after a minus sign and sets
ERANGE when the digits exceed 2^64-1. -/
def safeStrtoull (m : List Nat) : Parse Nat :=
  match scanNum m with
  | none => none
  | some s =>
    let v := digitsVal s.digits
    if 2 ^ 64 ≤ v then some none                       -- errno == ERANGE
    else
      let ull := if s.neg then (2 ^ 64 - v) % 2 ^ 64 else v
      if endOk s then
        if 2 ^ 63 ≤ ull then                            -- (long long) ull < 0
          match strchrMinus m with
          | none => none
          | some true => some none
          | some false => some (some ull)
        else some (some ull)
      else some none

/-- `safe_strtoll`, util.c 53-67. -/
def safeStrtoll (m : List Nat) : Parse Int :=
  match scanNum m with
  | none => none
  | some s =>
    let v := digitsVal s.digits
    let ll : Int := if s.neg then -(v : Int) else v
    if ll < -(2 ^ 63) ∨ 2 ^ 63 ≤ ll then some none      -- errno == ERANGE
    else if endOk s then some (some ll) else some none

/-- `safe_strtoul`, util.c 69-96 (LP64: `unsigned long` has 64 bits). -/
def safeStrtoul (m : List Nat) : Parse Nat :=
  match scanNum m with
  | none => none
  | some s =>
    let v := digitsVal s.digits
    if 2 ^ 64 ≤ v then some none
    else
      let l := if s.neg then (2 ^ 64 - v) % 2 ^ 64 else v
      if 2 ^ 32 ≤ l then some none                       -- l > UINT32_MAX
      else if endOk s then some (some l) else some none  -- (long) l < 0 cannot hold any more

/-- `safe_strtol`, util.c 98-111. -/
def safeStrtol (m : List Nat) : Parse Int :=
  match scanNum m with
  | none => none
  | some s =>
    let v := digitsVal s.digits
    let l : Int := if s.neg then -(v : Int) else v
    if l < -(2 ^ 63) ∨ 2 ^ 63 ≤ l then some none         -- errno == ERANGE
    else if l < -(2 ^ 31) ∨ 2 ^ 31 ≤ l then some none    -- INT32 range
    else if endOk s then some (some l) else some none

/-- `snprintf("%" PRIu64)`: decimal digits of a number, no leading zeros (items.c 261, 378). -/
def showNat (n : Nat) : List Nat :=
  if n < 10 then [48 + n] else showNat (n / 10) ++ [48 + n % 10]

/-! ## Hexadecimal strings -/

/-- One hexadecimal digit, util.c 136-138 / 140-142. -/
def hexVal (c : Nat) : Option Nat :=
  if 48 ≤ c ∧ c ≤ 57 then some (c - 48)
  else if 65 ≤ c ∧ c ≤ 70 then some (c - 65 + 10)
  else if 97 ≤ c ∧ c ≤ 102 then some (c - 97 + 10)
  else none

/-- The conversion loop of `safe_strtohexa`, util.c 134-145: two digits per byte. -/
def hexLoop : List Nat → Option (List Nat)
  | [] => some []
  | [_] => none       -- not reached: the length is even (util.c 131)
  | a :: b :: r =>
    match hexVal a, hexVal b, hexLoop r with
    | some x, some y, some bs => some ((x * 16 + y) :: bs)
    | _, _, _ => none

/-- `safe_strtohexa(str, bin, size)`, util.c 127-147; `str` without its terminating NUL.
The length test is `slen <= 0 || slen > 2*size || slen % 2 != 0`.  On failure the contents of
`bin` are unspecified and not modelled. -/
def safeStrtohexa (str : List Nat) (size : Nat) : Option (List Nat) :=
  if str.length = 0 ∨ 2 * size < str.length ∨ str.length % 2 ≠ 0 then none
  else hexLoop str

/-- One output digit of `safe_hexatostr`, util.c 153-158. -/
def hexDigit (n : Nat) : Nat := if n < 10 then n + 48 else n + 65 - 10

/-- `safe_hexatostr`, util.c 149-161, without the terminating NUL. -/
def safeHexatostr (bin : List Nat) : List Nat :=
  bin.flatMap fun b => [hexDigit (b / 16), hexDigit (b % 16)]

/-! ## Prefix names -/

/-- `mc_isnamechar`, util.c 164-168. -/
def isNameChar (c : Nat) : Bool :=
  (97 ≤ c && c ≤ 122) || (65 ≤ c && c ≤ 90) || (48 ≤ c && c ≤ 57) ||
  c == 95 || c == 45 || c == 43 || c == 46

/-- `mc_isvalidname(str, len)`, util.c 174-187, on the first `len` bytes `name`;
`str[0]` is read even when `len` is 0 (util.c 177), hence the separate first byte. -/
def isValidName (str : List Nat) (len : Nat) : Option Bool :=
  match str with
  | [] => none
  | c :: _ => if c == 45 then some false else some ((str.take len).all isNameChar)

/-! ## Glob matching -/

/-- The main loop of `string_pattern_match`, util.c 290-323.
`t`: remaining text, `p`: remaining pattern memory including its NUL terminator,
`bk`: the backup pointers (text, pattern) or none.  `none` result: read past the pattern.
The proof argument only serves termination: pattern and text never grow past their backups. -/
def globLoop (t p : List Nat) (bk : Option (List Nat × List Nat))
    (h : ∀ x, bk = some x → p.length ≤ x.2.length ∧ t.length ≤ x.1.length) : Option Bool :=
  match t, p with
  | [], p =>
    -- util.c 324-330: ignore trailing stars; success when only the terminator is left
    some (p.dropWhile (· == 42) == [0])
  | _ :: _, [] => none
  | c :: t', a :: p' =>
    if _ha : a = 92 ∧ p' = [] then none               -- *(pattern+1) outside the pattern
    else if _hb : a = 92 ∧ p'.head? = some c then
      globLoop t' p'.tail bk (by
        intro x hx; have := h x hx; simp at this ⊢; omega)
    else if a = 42 then
      globLoop (c :: t') p' (some (c :: t', p')) (by
        intro x hx; injection hx with hx; subst hx; simp)
    else if a = 63 ∨ a = c then
      globLoop t' p' bk (by intro x hx; have := h x hx; simp at this ⊢; omega)
    else
      match bk, h with
      | none, _ => some false
      | some ([], _), _ => none                        -- excluded by `h`
      | some (_ :: tb', pb), _ =>
        globLoop tb' pb (some (tb', pb)) (by
          intro x hx; injection hx with hx; subst hx; simp)
termination_by (match bk with | none => p.length + 1 | some x => x.2.length,
                match bk with | none => 0 | some x => x.1.length, t.length + p.length)
decreasing_by
  all_goals first
    | (cases bk with
       | none => simp [Prod.lex_def] <;> omega
       | some x => have := h x rfl; simp [Prod.lex_def] at this ⊢ <;> omega)

/-- `string_pattern_match(text, text_len, pattern, pattern_len)`, util.c 282-331, with a
NUL-terminated pattern as all callers pass (default_engine.c 1277, 1336: `strlen`). -/
def globMatch (text pattern : List Nat) : Option Bool :=
  globLoop text (pattern ++ [0]) none (by intro x hx; cases hx)

end Verif.Util
