import Verif.Model.ClientAddr
import Verif.Spec.Config
/-
Specification vocabulary for the addresses of a client (C104).
-/
namespace Pvxs.Spec.CliAddr
open Pvxs Cfg Spec.Cfg

/-- one of the broadcast addresses of the interfaces of this host -/
def Broadcast (net : Net) : SockAddr → Prop
  | .v4 ip _ => ∃ p, SockAddr.v4 ip p ∈ net.broadcasts none
  | _ => False

/-- a packet to this address is received by one host only, as far as the client can know: no multicast group and none of its broadcast addresses -/
def OneHost (net : Net) (a : SockAddr) : Prop := ¬ Multicast a ∧ ¬ Broadcast net a

/-- `r` and `l` have as many members, and those at the same place are related -/
def Paired {α β : Type} (R : α → β → Prop) : List α → List β → Prop
  | [], [] => True
  | a :: l, b :: r => R a b ∧ Paired R l r
  | _, _ => False

/-- the address list of the configuration as it is to be used: those entries which can be read, and, with the automatic list, broadcast addresses of this host,
each once -/
def Wanted (net : Net) (c : Cfg.Client) (r : List Endpoint) : Prop :=
  ∃ extra, (c.auto = false → extra = []) ∧ (∀ e ∈ extra, ∃ m, ∃ b ∈ net.broadcasts m, e.addr = atPort 0 b) ∧
    Merged (c.addressList.filterMap (parseEndpoint net · 0) ++ extra) r

/-- an endpoint which keeps its meaning as text (C64) -/
def Kept (net : Net) (e : Endpoint) : Prop :=
  Valid e.addr ∧ (Multicast e.addr → -2 ^ 31 ≤ e.ttl ∧ e.ttl < 2 ^ 31 ∧ e.ttl ≠ 0 ∧ (0x2c : Wire.Byte) ∉ e.iface ∧ net.pton4 e.iface = none)

/-- all which is read from the texts -/
def AllKept (net : Net) (l : List Str) : Prop := ∀ s ∈ l, ∀ e, parseEndpoint net s 0 = some e → Kept net e

/-- the broadcast addresses of the interfaces are addresses -/
def Ordinary (net : Net) : Prop := ∀ m, ∀ b ∈ net.broadcasts m, Valid b ∧ ¬ Multicast b

/-- `b` is the packet `p`, but for the unicast bit of its flags, the byte 12 -/
def Marked (u : Bool) (p b : List Wire.Byte) : Prop :=
  b.length = p.length ∧ (∀ i, i ≠ 12 → b[i]? = p[i]?) ∧ ∀ f, b[12]? = some f → (f.toNat ≥ 128 ↔ u = true) ∧ ∀ g, p[12]? = some g → f.toNat % 128 = g.toNat % 128

end Pvxs.Spec.CliAddr
