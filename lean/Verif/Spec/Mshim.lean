import Verif.Spec.Udp
import Verif.Model.Mshim
/-
What a shim between two networks is for.
-/
namespace Pvxs.Spec.Mshim
open Wire Pvxs.Udp Spec.Udp

/-- the same search: identifier, whether to reply, where to reply to, protocols, names.  Only the version is the one of the shim. -/
structure SameSearch (a b : Search) : Prop where
  id : a.searchID = b.searchID
  mustReply : a.mustReply = b.mustReply
  server : a.server = b.server
  tcp : a.tcp = b.tcp
  otherproto : a.otherproto = b.otherproto
  names : a.names = b.names

/-- the same beacon, other than the sender and the version -/
structure SameBeacon (a b : Beacon) : Prop where
  guid : a.guid = b.guid
  server : a.server = b.server
  proto : a.proto = b.proto

/-- an address a server can be at -/
def V4Host (a : Addr) : Prop := ∃ p q r s, a = .v4 p q r s ∧ (p, q, r, s) ≠ (0, 0, 0, 0)

end Pvxs.Spec.Mshim
