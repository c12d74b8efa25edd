import Verif.Model.ServAddr
/-
Specification vocabulary for the addresses of a server (C101).
-/
namespace Pvxs.Spec.SrvAddr
open Pvxs Cfg Pvxs.SrvAddr

/-- A socket bound to `b` accepts connections made to the address `a`: it is the same, or `b` is a wildcard.  The IPv6 wildcard also accepts IPv4. -/
def Covers : SockAddr → SockAddr → Prop
  | .v4 x _, .v4 y _ => x = y ∨ x = 0
  | .v6 x _, .v6 y _ => x = y ∨ x = 0
  | .v6 x _, .v4 _ _ => x = 0
  | _, _ => False

/-- the addresses of this host which an entry of the interface list stands for -/
def StandsFor : SockAddr → SockAddr → Prop
  | .v4 x _, .v4 y _ => x = y ∨ x = 0
  | .v6 x _, .v6 y _ => x = y ∨ x = 0
  | _, _ => False

/-- the server accepts connections to address `a`, port `p` -/
def Accepts (s : Srv) (a : SockAddr) (p : Nat) : Prop := ∃ b ∈ s.tcp, b.port = p ∧ Covers b a

/-- the entries of the interface list of the configuration in effect, `Server::config()`, which are not multicast groups -/
def Listed (net : Net) (s : Srv) (e : Endpoint) : Prop := ∃ x ∈ s.effective.interfaces, parseEndpoint net x 0 = some e ∧ e.addr.isMCast = false

/-- a free port is one which can be used -/
def HostOK (h : Host) : Prop := (∀ u a, 0 < h.free u a ∧ h.free u a < 2 ^ 16) ∧ 0 < h.freeUdp ∧ h.freeUdp < 2 ^ 16 ∧ ∀ a b p, h.local? a = true → a.setPort p = some b → h.local? b = true

/-- no program listens so that `a` can not be bound -/
def Free (h : Host) (a : SockAddr) : Prop := ∀ u ∈ h.used, u.port = a.port → h.clash u a = false

end Pvxs.Spec.SrvAddr
