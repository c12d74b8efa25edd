import Verif.Spec.Udp
import Verif.Model.Search
/-
What a client has to search for.
-/
namespace Pvxs.Spec.Search
open Wire Packet Udp Pvxs.Search

/-- in use, and no server is known -/
def Unresolved (c : Ctx) (n : Nat) : Prop := ∃ ch, c.chans n = some ch ∧ ch.alive = true ∧ ch.st = .searching

/-- its name and identifier -/
def Item (c : Ctx) (n : Nat) (x : Str × Nat) : Prop := ∃ ch, c.chans n = some ch ∧ x = (ch.name, ch.cid)

/-- to be searched for the first time, or again -/
def Scheduled (c : Ctx) (n : Nat) : Prop := n ∈ c.initial ∨ ∃ b < 30, n ∈ c.buckets b

/-- a search for exactly these, with answers to this port at the address of the sender -/
def SearchFor (pkt : List Byte) (ucast : Bool) (port : Nat) (items : List (Str × Nat)) : Prop :=
  IsQuery pkt { version := 2, id := 0x66696e64, flags := if ucast then 0x80 else 0, addr := .v6 (List.replicate 16 0), port := port,
                protos := [tcpName], names := items }

/-- a search for nothing, which all servers answer -/
def SearchAny (pkt : List Byte) (ucast : Bool) (port : Nat) : Prop :=
  IsQuery pkt { version := 2, id := 0x66696e64, flags := if ucast then 0x81 else 1, addr := .v6 (List.replicate 16 0), port := port,
                protos := [], names := [] }

/-- names of channels are not too long -/
def Short (ops : List Op) : Prop := ∀ n cid name forced, .build n cid name forced ∈ ops → name.length ≤ 32738 ∧ cid < 2 ^ 32

end Pvxs.Spec.Search
