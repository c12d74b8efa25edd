import Verif.Spec.Packet
import Verif.Model.Udp
/-
What a UDP packet says.
-/
namespace Pvxs.Spec.Udp
open Wire Packet Pvxs.Udp

/-- "tcp" -/
def tcpName : List Byte := [0x74, 0x63, 0x70]

/-- the content of a search -/
structure Query where
  version : Byte
  id : Nat
  flags : Byte
  /-- where to reply to; "any" for the sender -/
  addr : Addr
  port : Nat
  protos : List (List Byte)
  names : List (List Byte × Nat)

def Query.unicast (q : Query) : Prop := q.flags &&& 0x80 ≠ 0
def Query.mustReply (q : Query) : Prop := q.flags &&& 1 ≠ 0

/-- the header of a message which is not a control message and not a segment, and the rest of the packet, which holds at least the message -/
structure IsMessage (pkt : List Byte) (be : Bool) (cmd version : Byte) (len : Nat) (body : List Byte) : Prop where
  bytes : ∃ flags h, IsHeader be cmd flags version len h ∧ flags &&& 0x31 = 0 ∧ pkt = h ++ body
  complete : len ≤ body.length

/-- up to and including the port -/
def BeginsQuery (pkt : List Byte) (version : Byte) (id : Nat) (flags : Byte) (addr : Addr) (port : Nat) (be : Bool) (rest : List Byte) : Prop :=
  ∃ len h, IsMessage pkt be 3 version len (h ++ rest) ∧ IsSearchHead be id flags addr port h

/-- the packet is a search; bytes after the last name are ignored -/
def IsQuery (pkt : List Byte) (q : Query) : Prop :=
  ∃ be b rest, BeginsQuery pkt q.version q.id q.flags q.addr q.port be (b ++ rest) ∧ IsSearchBody be q.protos q.names b

/-- an IPv4 address, other than of the local group -/
def Outside (dest : Ep) : Prop := ∃ a b c d, dest.addr = .v4 a b c d ∧ (a, b, c, d) ≠ (224, 0, 0, 128)

/-- 0.0.0.0 or :: -/
def IsAnyAddr (a : Addr) : Prop := a = .v4 0 0 0 0 ∨ a = .v6 (List.replicate 16 0)

/-- a listener for `l` is to get what was sent to `d` -/
def ListensTo (l d : Ep) : Prop := IsAnyAddr l.addr ∨ (l = d ∧ l.addr ≠ .unspec)

/-- 224.0.0.0/4 or ff00::/8 -/
def IsGroup (a : Addr) : Prop := (∃ p q r s, a = .v4 p q r s ∧ 224 ≤ p ∧ p < 240) ∨ ∃ bs, a = .v6 (255 :: bs)

/-- what the listeners get to see -/
structure Shows (src : Ep) (q : Query) (s : Search) : Prop where
  id : s.searchID = q.id
  version : s.peerVersion = q.version
  mustReply : s.mustReply = true ↔ q.mustReply
  port : s.server.port = q.port
  toSender : IsAnyAddr q.addr → s.server.addr = src.addr
  toOther : ¬IsAnyAddr q.addr → s.server.addr = q.addr
  otherproto : s.otherproto = q.protos.filter fun p => p ≠ [] ∧ p ≠ tcpName

/-- the names, up to NUL, with their identifiers, in order -/
def shownNames (q : Query) : List (List Byte × Nat) := q.names.map fun x => (x.1.takeWhile (· ≠ 0), x.2)

/-- "tcp" is among the protocols -/
def Query.viaTcp (q : Query) : Prop := tcpName ∈ q.protos

/-- the names are shown if "tcp" is among the protocols; `before`: or was so in an earlier search -/
structure ShowsNames (before : Bool) (q : Query) (s : Search) : Prop where
  tcp : s.tcp = true ↔ before = true ∨ q.viaTcp
  shown : s.tcp = true → s.names = shownNames q
  hidden : s.tcp = false → s.names = []

/-- the packet starts with an original destination `a`; `inner` follows the message -/
def IsTagged (pkt : List Byte) (a : Addr) (inner : List Byte) : Prop :=
  ∃ be version len b more, IsMessage pkt be 22 version len (b ++ (more ++ inner)) ∧ IsAddr a b ∧ len = 16 + more.length

/-- the content of a beacon -/
structure Announce where
  version : Byte
  guid : List Byte
  /-- "any" for the sender -/
  addr : Addr
  port : Nat
  proto : List Byte

/-- the packet is a beacon; four bytes are ignored, and those after the protocol -/
def IsAnnounce (pkt : List Byte) (x : Announce) : Prop :=
  ∃ be len f a p s rest, IsMessage pkt be 0 x.version len (x.guid ++ (f ++ (a ++ (p ++ (s ++ rest))))) ∧
    x.guid.length = 12 ∧ f.length = 4 ∧ IsAddr x.addr a ∧ IsNum be 2 x.port p ∧ IsStr be x.proto s

structure ShowsBeacon (src : Ep) (x : Announce) (b : Beacon) : Prop where
  sender : b.src = src
  guid : b.guid = x.guid
  port : b.server.port = x.port
  proto : b.proto = x.proto
  version : b.peerVersion = x.version
  toSender : IsAnyAddr x.addr → b.server.addr = src.addr
  toOther : ¬IsAnyAddr x.addr → b.server.addr = x.addr

/-- a search which is passed on: preceded by its destination, without the "unicast" flag, with the address `reply` -/
def IsForward (dest reply : Addr) (pkt bytes : List Byte) : Prop :=
  ∃ h i flags r a t tag d a', h.length = 8 ∧ i.length = 4 ∧ r.length = 3 ∧ a.length = 16 ∧ pkt = h ++ (i ++ (flags :: (r ++ (a ++ t)))) ∧
    IsHeader true 22 0x80 2 16 tag ∧ IsAddr dest d ∧ IsAddr reply a' ∧
    bytes = tag ++ (d ++ (h ++ (i ++ ((flags &&& 0x7f) :: (r ++ (a' ++ t))))))

end Pvxs.Spec.Udp
