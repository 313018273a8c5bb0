/-
What `lqdetect show` and `lqdetect stats` should say, in terms of the history of events alone
(newest first).
-/
import Verif.Model.LqDetect

namespace Verif.LqDetect.Spec

open Verif.LqDetect (Text Cmd Range Query Call Event State Sys Act)

/-- Name of a command. -/
def name : Cmd → String
  | .sopGet => "sop get"
  | .mopDelete => "mop delete"
  | .mopGet => "mop get"
  | .lopInsert => "lop insert"
  | .lopDelete => "lop delete"
  | .lopGet => "lop get"
  | .bopDelete => "bop delete"
  | .bopGet => "bop get"
  | .bopCount => "bop count"
  | .bopGbp => "bop gbp"

/-- The order in which the commands are listed. -/
def order : List Cmd :=
  [.sopGet, .mopDelete, .mopGet, .lopInsert, .lopDelete, .lopGet, .bopDelete, .bopGet, .bopCount,
   .bopGbp]

/-- A natural number in decimal. -/
def num (n : Nat) : Text := Nat.toDigits 10 n

/-- An integer in decimal. -/
def int (i : Int) : Text := if i < 0 then '-' :: num i.natAbs else num i.natAbs

/-- With leading zeros. -/
def zeros (w n : Nat) : Text := List.replicate (w - (num n).length) '0' ++ num n

/-- Bytes in hexadecimal, capital letters. -/
def hexa (bs : List UInt8) : Text :=
  bs.flatMap (fun b => ["0123456789ABCDEF".toList.getD (b.toNat / 16) ' ',
    "0123456789ABCDEF".toList.getD (b.toNat % 16) ' '])

/-- A bkey or a range of bkeys. -/
def range : Range → Text
  | .num f none => num f
  | .num f (some t) => num f ++ "..".toList ++ num t
  | .hex f none => "0x".toList ++ hexa f
  | .hex f (some t) => "0x".toList ++ hexa f ++ "..".toList ++ "0x".toList ++ hexa t

/-- An optional word after a blank. -/
def opt (b : Bool) (s : String) : Text := if b then ' ' :: s.toList else []

/-- `delete` or `drop`; drop implies delete. -/
def rem (delete drop : Bool) : Text := if drop then opt true "drop" else opt delete "delete"

/-- The arguments of a query as they are shown. -/
def args : Query → Text
  | .lopInsert i => int i
  | .lopDelete _ f t drop => int f ++ "..".toList ++ int t ++ opt drop "drop"
  | .lopGet _ f t del drop => int f ++ "..".toList ++ int t ++ rem del drop
  | .sopGet _ c del drop => num c ++ rem del drop
  | .mopGet _ c del drop => num c ++ rem del drop
  | .mopDelete _ c drop => num c ++ opt drop "drop"
  | .bopGbp _ f t asc => num f ++ "..".toList ++ num t ++ ' ' :: (if asc then "asc" else "desc").toList
  | .bopGet _ r ef o c del drop =>
    range r ++ opt ef "efilter" ++ ' ' :: num o ++ ' ' :: num c ++ rem del drop
  | .bopCount _ r ef => range r ++ opt ef "efilter"
  | .bopDelete _ r ef c drop => range r ++ opt ef "efilter" ++ ' ' :: num c ++ opt drop "drop"

/-- Elements up to a position of a list, from the nearer side as its sign says. -/
def reach (i : Int) : Nat := if i ≥ 0 then i.natAbs + 1 else i.natAbs

/-- What a query is taken to cost. -/
def cost : Query → Nat
  | .lopInsert i => reach i
  | .lopDelete n f _ _ => n + reach f
  | .lopGet n f _ _ _ => n + reach f
  | .sopGet n _ _ _ => n
  | .mopGet n _ _ _ => n
  | .mopDelete n _ _ => n
  | .bopGbp n _ _ _ => n
  | .bopGet n _ _ _ _ _ _ => n
  | .bopCount n _ _ => n
  | .bopDelete n _ _ _ _ => n

/-- Keys of more than 250 characters are shown without their middle. -/
def shown (k : Text) : Text :=
  if k.length ≤ 250 then k else k.take 124 ++ "...".toList ++ k.drop (k.length - 123)

/-- One line of the report. -/
def line (c : Call) : Text :=
  zeros 2 c.hour ++ [':'] ++ zeros 2 c.min ++ [':'] ++ zeros 2 c.sec ++ ['.'] ++ zeros 6 c.usec ++ [' '] ++
  c.ip ++ " <".toList ++ num (cost c.query) ++ "> ".toList ++ (name c.query.cmd).toList ++ [' '] ++
  shown c.key ++ [' '] ++ args c.query ++ ['\n']

/-- Queries that ask for a whole set or map. -/
def whole : Query → Bool
  | .sopGet _ c _ _ => c == 0
  | .mopGet _ c _ _ => c == 0
  | .mopDelete _ c _ => c == 0
  | _ => false

/-- Calls of a command that count as the same: the same arguments, and, if a whole set or map
    is asked for, the same key. -/
def same (c o : Call) : Bool :=
  args c.query == args o.query && (!whole c.query || shown c.key == shown o.key)

/-- The samples of a command: calls while there are fewer than 20 and none is the same. -/
def samples (cmd : Cmd) : List Call → List Call
  | [] => []
  | c :: h =>
    let s := samples cmd h
    if c.query.cmd = cmd ∧ s.length < 20 ∧ ¬ s.any (same c) then s ++ [c] else s

/-- All commands have 20 samples. -/
def full (h : List Call) : Bool := order.all (fun c => 20 ≤ (samples c h).length)

/-- What there is to be said: state, threshold, and the long queries of the last run, newest
    first. -/
structure View where
  state : State
  thr : Nat
  long : List Call

/-- The view after a history. -/
def view : List Event → View
  | [] => ⟨.explicitStop, 0, []⟩
  | e :: h =>
    let v := view h
    match e with
    | .start t => if v.state = .running then v else ⟨.running, if t = 0 then 4000 else t, []⟩
    | .stop => if v.state = .running then { v with state := .explicitStop } else v
    | .call c =>
      if v.state = .running ∧ cost c.query ≥ v.thr then
        ⟨if full (c :: v.long) then .overflowStop else .running, v.thr, c :: v.long⟩
      else v

/-- A report: for each command its name, a number, and lines. -/
def text (n : Cmd → Nat) (lines : Cmd → List Call) : Text :=
  order.flatMap (fun cmd =>
    (name cmd).toList ++ " : ".toList ++ num (n cmd) ++ ['\n'] ++ (lines cmd).flatMap line)

/-- The report on long queries: their number and the samples. -/
def report (h : List Call) : Text :=
  text (fun cmd => h.countP (fun c => c.query.cmd == cmd)) (fun cmd => samples cmd h)

/-- An index other than the least and the greatest `int`. -/
def Idx (i : Int) : Prop := -2147483648 < i ∧ i < 2147483647

/-- An `int`. -/
def Num32 (i : Int) : Prop := -2147483648 ≤ i ∧ i < 2147483648

/-- Numbers below 2^64, or up to 31 bytes. -/
def OkRange : Range → Prop
  | .num f t => f < 18446744073709551616 ∧ ∀ x, t = some x → x < 18446744073709551616
  | .hex f t => f.length ≤ 31 ∧ ∀ x, t = some x → x.length ≤ 31

/-- Arguments that the protocol lets through, except indexes that are extreme; at most 2^30
    elements are touched. -/
def OkQuery : Query → Prop
  | .lopInsert i => Idx i
  | .lopDelete n f t _ => n < 1073741824 ∧ Idx f ∧ Num32 t
  | .lopGet n f t _ _ => n < 1073741824 ∧ Idx f ∧ Num32 t
  | .sopGet n c _ _ => n < 1073741824 ∧ c < 4294967296
  | .mopGet n c _ _ => n < 1073741824 ∧ c < 4294967296
  | .mopDelete n c _ => n < 1073741824 ∧ c < 4294967296
  | .bopGbp n f t _ => n < 1073741824 ∧ f < 4294967296 ∧ t < 4294967296
  | .bopGet n r _ o c _ _ => n < 1073741824 ∧ OkRange r ∧ o < 4294967296 ∧ c < 4294967296
  | .bopCount n r _ => n < 1073741824 ∧ OkRange r
  | .bopDelete n r _ c _ => n < 1073741824 ∧ OkRange r ∧ c < 4294967296

/-- A call with an IPv4 address and a time of day. -/
def OkCall (c : Call) : Prop :=
  c.ip.length ≤ 15 ∧ c.hour < 100 ∧ c.min < 100 ∧ c.sec < 100 ∧ c.usec < 1000000 ∧ OkQuery c.query

/-- Events with such calls. -/
def OkEvent : Event → Prop
  | .call c => OkCall c
  | _ => True

/-- Steps of threads with such calls. -/
def OkAct : Act → Prop
  | .check _ c => OkCall c
  | _ => True

/-- Whenever a detection begins, no thread is within a call. -/
def Calm : Sys → List Act → Prop
  | _, [] => True
  | s, a :: as =>
    (∀ t, a = .clear t → s.lq.inUse = false → ∀ w, s.pc w = .idle) ∧ ∀ s', s.step a = some s' → Calm s' as

/-- The range of a list runs forwards. -/
def Forwards (ccnt f t : Int) : Prop := (if f < 0 then f + ccnt else f) ≤ (if t < 0 then t + ccnt else t)

end Verif.LqDetect.Spec
