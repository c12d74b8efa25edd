import Verif.Model.Wire
/-
Reception of UDP packets: src/udp_collector.cpp:36-500.

Simplifications: a socket address is an IP address and a port; one socket ("collector"); exceptions and log messages are left out; what the
fields of Search hold after a packet which is dropped is not kept, other than `protoTCP`.
-/
namespace Pvxs.Udp
open Wire

/-- SockAddr, src/osiSockExt.h:40-103 -/
structure Ep where
  addr : Addr
  port : Nat
deriving DecidableEq, Repr

/-- src/util.cpp:550-559 `isAny` -/
def isAny : Addr → Bool
  | .unspec => false
  | .v4 a b c d => [a, b, c, d] == [0, 0, 0, 0]
  | .v6 bs => bs == List.replicate 16 0

/-- src/util.cpp:572-581 `isMCast` -/
def isMCast : Addr → Bool
  | .unspec => false
  | .v4 a _ _ _ => a &&& 0xf0 == 0xe0
  | .v6 bs => bs.take 1 == [0xff]

/-- `family()==AF_INET` -/
def isV4 : Addr → Bool
  | .v4 .. => true
  | _ => false

/-- src/osiSockExt.h:90 `compare(o, false)==0`, evutil_sockaddr_cmp() of libevent: AF_UNSPEC is different from everything -/
def sameAddr (a b : Addr) : Bool := a == b && a != .unspec

/-- src/osiSockExt.h:97 `operator==` -/
def sameEp (a b : Ep) : Bool := sameAddr a.addr b.addr && a.port == b.port

/-- src/udp_collector.cpp:150: the group on the loopback interface through which searches are passed on -/
def lo : Addr := .v4 224 0 0 128

/-- src/udp_collector.h:57-85 `UDPManager::Search`, as a callback sees it; `src` equals `server` (src/udp_collector.cpp:381) -/
structure Search where
  server : Ep
  searchID : Nat
  mustReply : Bool
  peerVersion : Byte
  tcp : Bool
  otherproto : List (List Byte)
  names : List (List Byte × Nat)
deriving DecidableEq, Repr

/-- src/udp_collector.h:35-43 `UDPManager::Beacon` -/
structure Beacon where
  src : Ep
  guid : List Byte
  server : Ep
  proto : List Byte
  peerVersion : Byte
deriving DecidableEq, Repr

/-- src/udp_collector.cpp:62-66 -/
inductive Origin where
  | remote | local_ | tag
deriving DecidableEq, Repr

inductive Act where
  /-- given to the listeners for this destination -/
  | search (dest : Ep) (s : Search)
  | beacon (dest : Ep) (b : Beacon)
  /-- src/udp_collector.cpp:459-480 `forwardM`: sent to the local group -/
  | forward (bytes : List Byte)
  /-- an assert() fails -/
  | abort
deriving DecidableEq, Repr

/-- src/udp_collector.cpp:349-359: the protocols; whether "tcp" is, or was, among them -/
def getProtos : Nat → Bool → Dec (Bool × List (List Byte))
  | 0, tcp => fun i => ((tcp, []), i)
  | n+1, tcp => fun i =>
    if i.err then ((tcp, []), i)
    else
      let p := getStr i
      if p.1 = [0x74, 0x63, 0x70] then getProtos n true p.2
      else
        let r := getProtos n tcp p.2
        ((r.1.1, if p.1 = [] then r.1.2 else p.1 :: r.1.2), r.2)

/-- src/udp_collector.cpp:365-379: the names, which are NUL terminated in place (also :384) -/
def getNames (tcp : Bool) : Nat → Dec (List (List Byte × Nat))
  | 0 => fun i => ([], i)
  | n+1 => fun i =>
    if i.err then ([], i)
    else
      let id := getInt 4 i
      let len := getSize false id.2
      let ok := tcp && decide (len.1 ≤ len.2.rest.length) && !len.2.err
      let r := getNames tcp n (len.2.skip len.1)
      (if ok then (cstr (len.2.rest.take len.1), id.1) :: r.1 else r.1, r.2)

/-- src/udp_collector.cpp:459-480 `forwardM`, :325-334: the packet with the "unicast" flag cleared and the address to reply to filled in, after
a message which gives the original destination -/
def forwarded (be : Bool) (dest : Ep) (server : Addr) (pkt : List Byte) : List Byte :=
  let flags := (pkt.drop 12).take 1
  let pkt := pkt.take 12 ++ flags.map (· &&& 0x7f) ++ (pkt.drop 13).take 3
    ++ (putAddr [] { be := be } server).data ++ pkt.drop 32
  (putAddr [] (putHeader { be := true } ⟨22, 0, 0, 16⟩) dest.addr).data ++ pkt

/-- src/udp_collector.cpp:292-303: identifier, flags, address and port to reply to -/
def getHead : Dec (Nat × Byte × Addr × Nat) := fun i =>
  let id := getInt 4 i
  let flags := getU8 id.2
  let server := getAddr (flags.2.skip 3)
  let port := getInt 2 server.2
  ((id.1, flags.1, server.1, port.1), port.2)

/-- src/udp_collector.cpp:345-379: protocols and names -/
def getBody (tcp : Bool) : Dec ((Bool × List (List Byte)) × List (List Byte × Nat)) := fun i =>
  let np := getSize false i
  let ps := getProtos np.1 tcp np.2
  let nc := getInt 2 ps.2
  let ns := getNames ps.1.1 nc.1 nc.2
  ((ps.1, ns.1), ns.2)

/-- src/udp_collector.cpp:285-400, CMD_SEARCH; `i` is what follows the header.  The first result is `protoTCP`. -/
def onSearch (origin : Origin) (src dest : Ep) (pkt : List Byte) (version : Byte) (i : In) (tcp : Bool) : Bool × List Act :=
  let h := getHead i
  let (id, flags, addr, port) := h.1
  if isAny addr && origin == .tag then (tcp, [])
  else
    let server : Ep := ⟨if isAny addr then src.addr else addr, port⟩
    if !h.2.err && flags &&& 0x80 != 0 && isV4 dest.addr && !sameAddr dest.addr lo then
      if origin == .tag then (tcp, [.abort])
      else (tcp, [.forward (forwarded h.2.be dest server.addr pkt)])
    else
      let b := getBody tcp h.2
      (b.1.1.1,
        if b.2.err then []
        else [.search dest { server := server, searchID := id, mustReply := flags &&& 1 != 0, peerVersion := version,
                             tcp := b.1.1.1, otherproto := b.1.1.2, names := b.1.2 }])

/-- src/udp_collector.cpp:402-428, CMD_BEACON -/
def onBeacon (src dest : Ep) (version : Byte) (i : In) : List Act :=
  let guid := fromWireMem i 12 false
  let server := getAddr (guid.2.skip 4)
  let port := getInt 2 server.2
  let proto := getStr port.2
  if proto.2.err then []
  else [.beacon dest { src := src, guid := guid.1.getD [], server := ⟨if isAny server.1 then src.addr else server.1, port.1⟩,
                       proto := proto.1, peerVersion := version }]

/-- src/udp_collector.cpp:266-457 `process_one`, `nested` is the recursive call.  `bindPort`: of the socket. -/
def processWith (nested : Ep → List Byte → Bool → Bool × List Act) (bindPort : Nat) (origin : Origin) (src dest : Ep) (pkt : List Byte)
    (tcp : Bool) : Bool × List Act :=
  let h := getHeader { be := true, rest := pkt }
  if h.2.err || h.1.flags &&& (flagControl ||| flagSegMask) != 0 then (tcp, [])
  else if h.1.len > h.2.rest.length then (tcp, [])
  else if h.1.cmd = 3 then onSearch origin src dest pkt h.1.version h.2 tcp
  else if h.1.cmd = 0 then (tcp, onBeacon src dest h.1.version h.2)
  else if h.1.cmd = 22 then
    let a := getAddr h.2
    let m := a.2.skip ((h.1.len + 2 ^ 32 - 16) % 2 ^ 32)
    if !m.err && origin == .local_ && sameAddr dest.addr lo then nested ⟨a.1, bindPort⟩ m.rest tcp
    else (tcp, [])
  else (tcp, [])

/-- the payload of a CMD_ORIGIN_TAG: another one is ignored, because the origin is not `local_` -/
def processTag (bindPort : Nat) (src dest : Ep) (pkt : List Byte) (tcp : Bool) : Bool × List Act :=
  processWith (fun _ _ tcp => (tcp, [])) bindPort .tag src dest pkt tcp

/-- a packet which was received -/
def process (bindPort : Nat) (origin : Origin) (src dest : Ep) (pkt : List Byte) (tcp : Bool) : Bool × List Act :=
  processWith (processTag bindPort src) bindPort origin src dest pkt tcp

/-- src/udp_collector.cpp:220-264 `handle_one`; `isLocal`: whether an address is of this host; `dest` is AF_UNSPEC if unknown -/
def receive (isLocal : Addr → Bool) (bindPort : Nat) (src dest : Ep) (pkt : List Byte) (tcp : Bool) : Bool × List Act :=
  if isMCast src.addr then (tcp, [])
  else process bindPort (if isLocal src.addr then .local_ else .remote) src ⟨dest.addr, bindPort⟩ pkt tcp

/-- src/udp_collector.h:45-55, 88-105 `UDPListener`: what it is called for; `onSearch()`, `onBeacon()` create one with one callback each -/
structure Listener where
  dest : Ep
  searchCB : Bool := false
  beaconCB : Bool := false
deriving DecidableEq, Repr

/-- src/udp_collector.cpp:391,424 -/
def wants (l dest : Ep) : Bool := isAny l.addr || sameEp l dest

/-- src/udp_collector.cpp:390-394, 423-427: the listeners, of those of the collector, which are called, with what; one call for each.
The collector keeps them in a std::set by address: the order is not specified. -/
def called (ls : List Listener) : Act → List (Listener × Act)
  | .search dest s => (ls.filter fun l => l.searchCB && wants l.dest dest).map fun l => (l, .search dest s)
  | .beacon dest b => (ls.filter fun l => l.beaconCB && wants l.dest dest).map fun l => (l, .beacon dest b)
  | _ => []

/-- src/udp_collector.cpp:220-264: a packet is received; the calls -/
def deliver (ls : List Listener) (isLocal : Addr → Bool) (bindPort : Nat) (src dest : Ep) (pkt : List Byte) (tcp : Bool) : List (Listener × Act) :=
  (receive isLocal bindPort src dest pkt tcp).2.flatMap (called ls)

end Pvxs.Udp
