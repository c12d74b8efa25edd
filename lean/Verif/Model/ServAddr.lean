import Verif.Model.Config
import Verif.Model.Res
/-
The addresses on which a server listens: the constructor of a server (src/server.cpp) and of its TCP listeners (src/serverconn.cpp).

The operating system is a parameter (`Host`).  Not modelled: that a UDP port may be refused by the operating system, the interfaces of multicast groups, the GUID, beacon destinations
(C45, C46 have their list).
-/
namespace Pvxs.SrvAddr
open Pvxs Cfg

/-- What is asked of the operating system when a TCP socket is bound. -/
structure Host where
  /-- the addresses, with ports, on which some program listens -/
  used : List SockAddr := []
  /-- two addresses on which no two sockets can listen with the same port -/
  clash : SockAddr → SockAddr → Bool
  /-- the address is one of this host, or a wildcard -/
  local? : SockAddr → Bool
  /-- the port which is chosen when a socket is bound to port zero -/
  free : List SockAddr → SockAddr → Nat
  /-- a UDP socket bound to port zero -/
  freeUdp : Nat

/-- bind(): the address and port -/
inductive Bound where
  | at (a : SockAddr)
  | inUse
  | error

/-- src/evhelper.cpp:465-479 `evsocket::bind`: bind() followed by getsockname() -/
def Host.bind (h : Host) (a : SockAddr) : Bound :=
  if !h.local? a then .error
  else if a.port = 0 then match a.setPort (h.free h.used a) with
    | some b => .at b
    | none => .error
  else if h.used.any fun u => u.port == a.port && h.clash u a then .inUse
  else .at a

/-- the socket listens -/
def Host.listen (h : Host) (a : SockAddr) : Host := { h with used := a :: h.used }

/-- src/serverconn.cpp:404-436 the constructor of `ServIface`: the address which was bound -/
def servIface (h : Host) (addr : SockAddr) (fallback : Bool) : Res SockAddr :=
  match h.bind addr with
  | .at a => .ok a
  | .error => .throws "system_error"
  | .inUse =>
    if fallback then match addr.setPort 0 with
      | none => .throws "logic_error"
      | some addr => match h.bind addr with
        | .at a => .ok a
        | _ => .throws "system_error"
    else .throws "system_error"

/-- src/server.cpp:403-415 and :459-479 the TCP addresses.  `dual`: evsocket::canIPv6; `one`: the stack is that of Linux -/
def tcpIfaces (dual one : Bool) (eps : List Endpoint) : List SockAddr :=
  (eps.map (·.addr)).filter (fun a => !a.isAny && !a.isMCast) ++
    (if eps.any (·.addr.isAny) then
      (if dual then (if one then [.v6 0 0] else [.v4 0 0, .v6 0 0]) else [.v4 0 0])
     else [])

/-- src/server.cpp:497-498 `if(addr.port()==0) addr.setPort(port)` -/
def orPort (p : Nat) (a : SockAddr) : Option SockAddr := if a.port = 0 then a.setPort p else some a

/-- src/server.cpp:492-505 -/
def bindAll (h : Host) (tcpPort : Nat) (first : Bool) : List SockAddr → Res (List SockAddr × Nat)
  | [] => .ok ([], tcpPort)
  | a :: more => match orPort tcpPort a with
    | none => .throws "logic_error"
    | some a => servIface h a first >>= fun b =>
        bindAll (h.listen b) (if first || tcpPort == 0 then b.port else tcpPort) false more >>= fun r => .ok (b :: r.1, r.2)

/-- src/server.cpp:417-457 the UDP addresses on which searches are received, and the port.  The broadcast addresses of an interface are added. -/
def udpAll (net : Net) (h : Host) (udpPort : Nat) : List Endpoint → List SockAddr × Nat
  | [] => ([], udpPort)
  | e :: more =>
    let p := if udpPort = 0 then h.freeUdp else udpPort
    let own := (e.addr.setPort p).toList
    let bcast := match e.addr with
      | .v4 ip _ => if e.addr.isAny || e.addr.isMCast then [] else (net.broadcasts (some (.v4 ip p))).filterMap (SockAddr.setPort p)
      | _ => []
    let r := udpAll net h p more
    (own ++ bcast ++ r.1, r.2)

/-- the texts of the interface list are parsed again, src/server.cpp:407-408 -/
def parseAll (net : Net) : List Str → Res (List Endpoint)
  | [] => .ok []
  | s :: more => match parseEndpoint net s 0 with
    | none => .throws "runtime_error"
    | some e => parseAll net more >>= fun r => .ok (e :: r)

/-- a server -/
structure Srv where
  effective : Cfg.Server
  /-- addresses on which connections are accepted -/
  tcp : List SockAddr
  /-- addresses on which searches are received -/
  udp : List SockAddr

/-- src/server.cpp:382-513 the constructor of a server -/
def setup (net : Net) (h : Host) (dual one : Bool) (conf : Cfg.Server) : Res Srv :=
  let eff := conf.expand net
  parseAll net eff.interfaces >>= fun eps =>
  bindAll h eff.tcpPort true (tcpIfaces dual one eps) >>= fun r =>
    .ok { effective := { eff with tcpPort := r.2, udpPort := (udpAll net h eff.udpPort eps).2 }, tcp := r.1, udp := (udpAll net h eff.udpPort eps).1 }

/-- src/server.cpp:158-171 `Server::clientConfig` -/
def clientConfig (s : Srv) : Cfg.Client :=
  { udpPort := s.effective.udpPort, tcpPort := s.effective.tcpPort, interfaces := s.effective.interfaces, addressList := s.effective.interfaces, auto := false }

end Pvxs.SrvAddr
