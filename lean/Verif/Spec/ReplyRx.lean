import Verif.Spec.Udp
import Verif.Model.ReplyRx
/-
What a reply to a search says.
-/
namespace Pvxs.Spec.ReplyRx
open Wire Packet Spec.Udp Pvxs.Udp Pvxs.ReplyRx

/-- the content of a reply -/
structure Reply where
  guid : List Byte
  seq : Nat
  /-- "any" for the sender -/
  addr : Addr
  port : Nat
  proto : List Byte
  found : Byte
  /-- how many identifiers are announced -/
  count : Nat
  /-- those which are there -/
  ids : List Nat

/-- the bytes are such a reply, of which `rest` may be cut off: as many identifiers as announced, or as many as there are -/
def Says (be : Bool) (body : List Byte) (r : Reply) : Prop :=
  ∃ q a p t n x rest, body = r.guid ++ (q ++ (a ++ (p ++ (t ++ ([r.found] ++ (n ++ (x ++ rest))))))) ∧ r.guid.length = 12 ∧ IsNum be 4 r.seq q ∧
    IsAddr r.addr a ∧ IsNum be 2 r.port p ∧ IsStr be r.proto t ∧ IsNum be 2 r.count n ∧ IsSeq (IsNum be 4) r.ids x ∧
    (r.ids.length = r.count ∨ (r.ids.length < r.count ∧ rest.length < 4))

/-- none is missing -/
def Reply.Complete (r : Reply) : Prop := r.ids.length = r.count

/-- a datagram with a reply -/
def IsReply (pkt : List Byte) (version : Byte) (r : Reply) : Prop := ∃ be len body, IsMessage pkt be 4 version len body ∧ Says be body r

/-- it names a server which has the channels, reached by TCP, and is not one to ignore -/
def Reply.Usable (ignored : List (List Byte)) (r : Reply) : Prop := r.guid ∉ ignored ∧ r.found ≠ 0 ∧ r.proto = tcpName

/-- the address and port of the server; over TCP the port may be left out -/
structure At (src : Ep) (istcp : Bool) (r : Reply) (e : Ep) : Prop where
  sender : IsAnyAddr r.addr → e.addr = src.addr
  other : ¬IsAnyAddr r.addr → e.addr = r.addr
  port : ¬(istcp = true ∧ r.port = 0) → e.port = r.port
  noPort : istcp = true → r.port = 0 → e.port = src.port

/-- the channels before and after a reply: those which search and are named go to this server, the others stay as they are -/
def Follows (ignored : List (List Byte)) (r : Reply) (e : Ep) (s s' : Chans) : Prop :=
  ∀ id, ((∃ c, s id = some c ∧ c.searching = true) ∧ r.Usable ignored ∧ id ∈ r.ids → s' id = some ⟨false, r.guid, e⟩) ∧
    (¬((∃ c, s id = some c ∧ c.searching = true) ∧ r.Usable ignored ∧ id ∈ r.ids) → s' id = s id)

/-- the reply is in this step, sent from `src` -/
def Carries (src : Ep) (istcp : Bool) (r : Reply) : Step → Prop
  | .datagram src' pkt => src' = src ∧ istcp = false ∧ ∃ version, IsReply pkt version r
  | .message peer _ be body => peer = src ∧ istcp = true ∧ Says be body r
  | _ => False

end Pvxs.Spec.ReplyRx
