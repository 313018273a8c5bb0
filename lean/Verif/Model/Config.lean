/-
Model of config_parser.c: the options of an engine (`-e`, and files named by `config_file`).

A C string is the list of its bytes without the NUL.  `none` stands for an access outside of a
string or a buffer, and for a nesting of files that does not end.
-/
import Verif.Model.Util

namespace Verif.Config

open Verif.Util (isspace safeStrtoull safeStrtoul)

/-- Bytes. -/
abbrev Text := List Nat

/-- The bytes of a literal. -/
def str (s : String) : Text := s.toList.map Char.toNat

/-- The number of characters up to `lastchar`, which is one more if that is a backslash
    (config_parser.c 53-62); for a text that does not begin with white space. -/
def limit (src : Text) : Nat :=
  let t := src.reverse.dropWhile isspace
  if t.head? = some 92 then t.length + 1 else t.length

/-- The copying (config_parser.c 65-76): `i` is `n` before a step, `dest` is what was copied.  The
    result is `n`, what was copied, and the text at `*end`.  The first step is taken without a
    test. -/
def copyLoop (size lim stop : Nat) : Text → Nat → Text → Nat × Text × Text
  | [], i, dest => (i, dest, [])
  | c :: rest, i, dest =>
    let escape := c == 92
    let dest := if escape then dest else dest ++ [c]
    let n := i + 1
    if n = size ∨ n ≥ lim ∨ (rest.head? = some stop ∧ escape = false) ∨ rest = [] then (n, dest, rest)
    else copyLoop size lim stop rest n dest

/-- `trim_copy` (config_parser.c 43-85): whether it succeeded, the copy, and `*end`.  If the buffer
    is full one character is taken back; `none` if there is none, as then a NUL is written before
    the buffer. -/
def trimCopy (size : Nat) (src : Text) (stop : Nat) : Option (Bool × Text × Text) :=
  let src := src.dropWhile isspace
  if src = [] then some (false, [], [])
  else
    let r := copyLoop size (limit src) stop src 0 []
    if r.1 = size then
      if r.2.1 = [] then none else some (false, r.2.1.dropLast, r.2.2)
    else some (true, r.2.1, r.2.2)

/-- `enum config_datatype` (config_parser.h 30-38). -/
inductive DT where
  | size | u32 | float | bool | string | file | char
deriving DecidableEq

/-- What is stored. -/
inductive Val where
  | size (n : Nat)
  | u32 (n : Nat)
  | float (x : Nat)
  | bool (b : Bool)
  | string (t : Text)
  | char (c : Nat)
deriving DecidableEq

/-- The suffixes with their factors (config_parser.c 132-146).  `m` is an int: the fourth factor
    does not fit, which is undefined in C; here it is what is left in 32 bits. -/
def suffixes : List (Nat × Nat × Nat) :=
  [(107, 75, 1024), (109, 77, 1048576), (103, 71, 1073741824), (116, 84, 0)]

/-- The value is cut at a suffix (config_parser.c 135-146). -/
def cutSuffix : List (Nat × Nat × Nat) → Text → Text × Nat
  | [], v => (v, 1)
  | (lo, up, m) :: r, v =>
    if lo ∈ v then (v.takeWhile (fun c => c != lo), m)
    else if up ∈ v then (v.takeWhile (fun c => c != up), m)
    else cutSuffix r v

/-- `tolower` as far as strcasecmp needs it. -/
def lower (c : Nat) : Nat := if 65 ≤ c ∧ c ≤ 90 then c + 32 else c

/-- The value of one option (config_parser.c 128-195) but for files; `none` if it is refused.
    `strtof` is any function.  The numbers are read from strings that end in NUL, so that the
    scan stays within them. -/
def value (strtof : Text → Option Nat) (dt : DT) (v : Text) : Option Val :=
  match dt with
  | .size =>
    let r := cutSuffix suffixes v
    match safeStrtoull (r.1 ++ [0]) with
    | some (some n) => some (.size (n * r.2 % 18446744073709551616))
    | _ => none
  | .u32 =>
    let r := cutSuffix suffixes v
    match safeStrtoul (r.1 ++ [0]) with
    | some (some n) => some (.u32 (n * r.2 % 4294967296))
    | _ => none
  | .float => (strtof v).map .float
  | .string => some (.string v)
  | .char => some (.char (v.headD 0))
  | .bool =>
    if v.map lower = str "true" ∨ v.map lower = str "on" then some (.bool true)
    else if v.map lower = str "false" ∨ v.map lower = str "off" then some (.bool false)
    else none
  | .file => none

/-- What was stored, in order. -/
abbrev Stored := List (Text × Val)

/-- The fixed part: the items (config_parser.h 57-66) and `safe_strtof`. -/
structure Cfg where
  items : List (Text × DT)
  strtof : Text → Option Nat

/-- The type of the first item with a key (config_parser.c 120-122). -/
def find (items : List (Text × DT)) (key : Text) : Option DT :=
  (items.find? (fun x => x.1 == key)).map Prod.snd

/-- The loop of `parse_config` (config_parser.c 92-223).  `file` reads a file; the first argument
    bounds the number of rounds. -/
def parseLoop (g : Cfg) (file : Text → Stored → Option (Int × Stored)) :
    Nat → Text → Int → Stored → Option (Int × Stored)
  | 0, _, _, _ => none
  | fuel + 1, ptr, ret, st =>
    if ptr = [] then some (ret, st)
    else
      let ptr := ptr.dropWhile isspace
      if ptr = [] then some (0, st)
      else
        match trimCopy 80 ptr 61 with
        | none => none
        | some (false, _, _) => some (-1, st)
        | some (true, key, end_) =>
          match end_ with
          | [] => none
          | _ :: ptr =>
            match trimCopy 1024 ptr 59 with
            | none => none
            | some (false, _, _) => some (-1, st)
            | some (true, v, end_) =>
              let ptr := if end_.head? = some 59 then end_.drop 1 else end_
              match find g.items key with
              | none => parseLoop g file fuel ptr 1 st
              | some .file =>
                match file v st with
                | none => none
                | some (r, st) =>
                  let ret := if r ≠ 0 then r else ret
                  if ret = -1 then some (-1, st) else parseLoop g file fuel ptr ret st
              | some dt =>
                match value g.strtof dt v with
                | none => some (-1, st)
                | some x => parseLoop g file fuel ptr ret (st ++ [(key, x)])

/-- The next line as `fgets(line, 1024, fp)` reads it (config_parser.c 236-237). -/
def fgets (content : Text) : Text × Text :=
  let t := content.take 1023
  let n := match t.findIdx? (· == 10) with
    | some i => i + 1
    | none => t.length
  (content.take n, content.drop n)

/-- The loop of `read_config_file` (config_parser.c 236-247) with `parse` for a line; the first
    argument bounds the number of lines. -/
def fileLoop (parse : Text → Stored → Option (Int × Stored)) :
    Nat → Text → Int → Stored → Option (Int × Stored)
  | 0, _, _, _ => none
  | fuel + 1, content, ret, st =>
    if content = [] ∨ ret = -1 then some (ret, st)
    else
      let l := fgets content
      if l.1.head? = some 35 then fileLoop parse fuel l.2 ret st
      else
        match parse l.1 st with
        | none => none
        | some (r, st) => fileLoop parse fuel l.2 (if r ≠ 0 then r else ret) st

/-- `parse_config` (config_parser.c 88-225) and `read_config_file` (227-252), with files nested at
    most `depth` deep; `fs` is the content of files without NUL. -/
def parse (g : Cfg) (fs : Text → Option Text) : Nat → Text → Stored → Option (Int × Stored)
  | 0, s, st => parseLoop g (fun _ _ => none) (s.length + 1) s 0 st
  | depth + 1, s, st =>
    parseLoop g (fun name st =>
      match fs name with
      | none => some (-1, st)
      | some content => fileLoop (parse g fs depth) (content.length + 1) content 0 st)
      (s.length + 1) s 0 st

end Verif.Config
