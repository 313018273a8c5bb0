import Verif.Model.ConnOut
/-
What a client receives: the bytes of the responses in order, or (UDP) packets with numbers that put together give the response.
-/

namespace Verif.ConnOut.Spec

/-- The packets of a response of `k` packets: each one begins with the number of the request, its own number and the number of all packets
(two bytes each) and two zero bytes, and none has more than 1400 bytes; the rest of the packets is the response. -/
def Packets (id : Nat) (response : List Nat) (packets : List (List Nat)) : Prop :=
  ∃ parts : List (List Nat), parts.length = packets.length ∧ parts.flatten = response ∧
    ∀ i p q, packets[i]? = some p → parts[i]? = some q → p.length ≤ 1400 ∧
      p = [id / 256 % 256, id % 256, i / 256 % 256, i % 256, packets.length / 256 % 256, packets.length % 256, 0, 0] ++ q

/-- The bytes of the responses. -/
def bytesOf (l : List (List (List Nat) × List Res)) : List Nat := l.flatMap fun x => x.1.flatten

/-- How often something is written. -/
def writes : List Res → Nat
  | [] => 0
  | .wrote n :: rs => (if 0 < n then 1 else 0) + writes rs
  | _ :: rs => writes rs

/-- Writing never fails, and happens often enough. -/
def Willing (bs : List (List Nat)) (rs : List Res) : Prop :=
  (∀ r ∈ rs, r ≠ .fails ∧ r ≠ .wrote 0) ∧ bs.flatten.length < writes rs

end Verif.ConnOut.Spec
