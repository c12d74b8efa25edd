import Verif.Model.Udp
/-
Replies to searches, at the client: src/client.cpp:824-990.

Simplifications: a channel which is not searching has the GUID and address of the server it was told of; connecting, and going back to searching, are steps of
`Step`.  Channels for which the application gave the server are left out (they do not search).  Log messages are left out, other than the one about duplicates.
-/
namespace Pvxs.ReplyRx
open Wire Udp

structure Chan where
  /-- src/clientimpl.h `state==Searching` -/
  searching : Bool
  guid : List Byte := []
  server : Ep := ⟨.unspec, 0⟩
deriving DecidableEq, Repr

/-- `chanByCID`, without those which expired -/
abbrev Chans := Nat → Option Chan

inductive Out where
  /-- the channel is to be created on the connection to this server -/
  | connect (cid : Nat) (server : Ep)
  /-- "Duplicate PV name" -/
  | duplicate (cid : Nat)
  /-- handled like a beacon -/
  | discovered (b : Beacon)
deriving DecidableEq, Repr

/-- what stands before the identifiers -/
structure Head where
  guid : List Byte
  seq : Nat
  addr : Addr
  port : Nat
  proto : List Byte
  found : Byte
  count : Nat

/-- src/client.cpp:832-850 -/
def getHead : Dec Head :=
  (fun i => fromWireMem i 12 false) >>= fun guid => getInt 4 >>= fun seq => getAddr >>= fun addr => getInt 2 >>= fun port =>
  getStr >>= fun proto => getU8 >>= fun found => getInt 2 >>= fun count =>
  pure ⟨guid.getD [], seq, addr, port, proto, found, count⟩

/-- src/client.cpp:838-844: where the server is -/
def serverOf (src : Ep) (istcp : Bool) (h : Head) : Ep :=
  ⟨if isAny h.addr then src.addr else h.addr, if istcp && h.port == 0 then src.port else h.port⟩

/-- src/client.cpp:888-914, for one identifier -/
def answer (guid : List Byte) (serv : Ep) (id : Nat) (s : Chans) : Chans × List Out :=
  match s id with
  | none => (s, [])
  | some c =>
    if c.searching then (fun x => if x = id then some ⟨false, guid, serv⟩ else s x, [.connect id serv])
    else if c.guid ≠ guid then (s, [.duplicate id])
    else (s, [])

/-- src/client.cpp:880-915: the loop -/
def answers (guid : List Byte) (serv : Ep) : Nat → In → Chans → (Chans × List Out) × In
  | 0, i, s => ((s, []), i)
  | n+1, i, s =>
    let id := getInt 4 i
    if id.2.err then ((s, []), id.2)
    else
      let a := answer guid serv id.1 s
      let r := answers guid serv n id.2 a.1
      ((r.1.1, a.2 ++ r.1.2), r.2)

/-- src/client.cpp:863: a reply to a discovery ping -/
def isPong (istcp discovering : Bool) (h : Head) : Bool :=
  !istcp && h.seq == 0x66696e64 && h.count == 0 && h.found == 0 && discovering

/-- src/client.cpp:824-917 `procSearchReply`.  When the fields before the identifiers can not be read then `found` or `nSearch` is still zero (:830, :849), so that
nothing is done.  `discovering`: there are discoverers. -/
def procSearchReply (ignored : List (List Byte)) (discovering : Bool) (src : Ep) (version : Byte) (istcp : Bool) (i : In) (s : Chans) :
    (Chans × List Out) × In :=
  let h := getHead i
  if h.2.err then ((s, []), h.2)
  else if ignored.contains h.1.guid then ((s, []), h.2)
  else
    let pong := if isPong istcp discovering h.1 then [Out.discovered ⟨src, h.1.guid, serverOf src istcp h.1, h.1.proto, version⟩] else []
    if h.1.found == 0 || h.1.proto != [0x74, 0x63, 0x70] then ((s, pong), h.2)
    else
      let r := answers h.1.guid (serverOf src istcp h.1) h.1.count h.2 s
      ((r.1.1, pong ++ r.1.2), r.2)

/-- src/client.cpp:919-978 `ContextImpl::onSearch`, a datagram which was received -/
def onDatagram (ignored : List (List Byte)) (discovering : Bool) (src : Ep) (pkt : List Byte) (s : Chans) : Chans × List Out :=
  let h := getHeader { be := true, rest := pkt }
  if h.2.err || h.1.flags &&& (flagControl ||| flagSegMask) != 0 then (s, [])
  else if h.1.len > h.2.rest.length then (s, [])
  else if h.1.cmd = 4 then (procSearchReply ignored discovering src h.1.version false h.2 s).1
  else (s, [])

/-- src/client.cpp:980-991 `handle_SEARCH_RESPONSE`; the last result: the connection is closed -/
def onMessage (ignored : List (List Byte)) (discovering : Bool) (peer : Ep) (version : Byte) (be : Bool) (body : List Byte) (s : Chans) :
    (Chans × List Out) × Bool :=
  let r := procSearchReply ignored discovering peer version true { be := be, rest := body } s
  (r.1, r.2.err)

/-- what happens to the channels of a context -/
inductive Step where
  | datagram (src : Ep) (pkt : List Byte)
  | message (peer : Ep) (version : Byte) (be : Bool) (body : List Byte)
  /-- src/clientimpl.h:182-186: a channel is made, and searches -/
  | made (cid : Nat)
  /-- src/client.cpp:186, src/clientconn.cpp:379: the connection is lost, or the server refuses: it searches again -/
  | lost (cid : Nat)
  | gone (cid : Nat)

/-- src/client.cpp:186-187: a channel which is disconnected keeps its GUID and address -/
def step (ignored : List (List Byte)) (discovering : Bool) (s : Chans) : Step → Chans
  | .datagram src pkt => (onDatagram ignored discovering src pkt s).1
  | .message peer version be body => (onMessage ignored discovering peer version be body s).1.1
  | .made cid => fun x => if x = cid then some { searching := true } else s x
  | .lost cid => fun x => if x = cid then (s x).map fun c => { c with searching := true } else s x
  | .gone cid => fun x => if x = cid then none else s x

def run (ignored : List (List Byte)) (discovering : Bool) (l : List Step) : Chans := l.foldl (step ignored discovering) fun _ => none

end Pvxs.ReplyRx
