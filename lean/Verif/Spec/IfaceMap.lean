import Verif.Model.IfaceMap
/-
What is true of the network interfaces of a host at one moment, said in terms of what the operating system tells of it.
-/
namespace Pvxs.Spec.Ifm

open Pvxs.Cfg (SockAddr)
open Pvxs.Ifm (Entry Host)

/-- the same IP address; ports do not matter -/
def SameIp : SockAddr → SockAddr → Prop
  | .v4 a _, .v4 b _ => a = b
  | .v6 a _, .v6 b _ => a = b
  | _, _ => False

/-- the host has this entry, with an IP address, of an interface which has a name and a number and is up -/
def UpOn (h : Host) (e : Entry) : Prop :=
  (∃ l, h.entries = some l ∧ e ∈ l) ∧ e.addr ≠ .unspec ∧ e.name ≠ [] ∧ h.index e.name ≠ 0 ∧ e.up = true

/-- the interface of this number has this address -/
def HasAddrOn (h : Host) (idx : Nat) (a : SockAddr) : Prop :=
  ∃ e, UpOn h e ∧ h.index e.name = idx ∧ SameIp e.addr a

/-- some interface has this address -/
def HasAddr (h : Host) (a : SockAddr) : Prop := ∃ e, UpOn h e ∧ SameIp e.addr a

/-- `b` is the IPv4 broadcast address which belongs to the address of the entry -/
def BroadcastOf (e : Entry) (b : SockAddr) : Prop :=
  (∃ ip p, e.addr = .v4 ip p) ∧ e.bcast = true ∧ e.baddr = some b ∧ ∃ ip p, b = .v4 ip p

/-- this is the broadcast address of some interface -/
def HasBroadcast (h : Host) (a : SockAddr) : Prop := ∃ e b, UpOn h e ∧ BroadcastOf e b ∧ SameIp b a

/-- the host has no interface twice with the same address -/
def NoTwice (h : Host) : Prop :=
  ∀ e e', UpOn h e → UpOn h e' → h.index e.name = h.index e'.name → SameIp e.addr e'.addr → e = e'

/-- no two names for one interface -/
def NoAlias (h : Host) : Prop :=
  ∀ e e', UpOn h e → UpOn h e' → h.index e.name = h.index e'.name → e.name = e'.name

/-- an interface of this name and number is up -/
def Named (h : Host) (n : Str) (idx : Nat) : Prop := ∃ e, UpOn h e ∧ e.name = n ∧ h.index n = idx

end Pvxs.Spec.Ifm
