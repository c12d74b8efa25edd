import Verif.Model.Config
import Verif.Model.Res
import Verif.Model.Search
/-
Where a client sends its searches and where it listens for beacons: the constructor of a context, `startNS()`, and the sending part of `tickSearch()` (src/client.cpp).

Not modelled: errors of bind() and sendto(), the choice of the multicast interface, reconnecting to name servers (src/client.cpp:1283-1293).
-/
namespace Pvxs.CliAddr
open Pvxs Cfg

/-- a client context -/
structure Ctx where
  effective : Cfg.Client
  /-- `searchDest`: the destination, and whether it is marked as unicast -/
  dests : List (Endpoint × Bool)
  nameServers : List SockAddr
  /-- the listeners for beacons -/
  beaconRx : List Endpoint
deriving DecidableEq

/-- comparison by `SockAddrOnlyLess`, src/osiSockExt.h:105-110: the port is left out -/
def sameAddr : SockAddr → SockAddr → Bool
  | .v4 a _, .v4 b _ => a == b
  | .v6 a _, .v6 b _ => a == b
  | .unspec, .unspec => true
  | _, _ => false

/-- src/client.cpp:588-592 -/
def isUcast (net : Net) (e : Endpoint) : Bool := match e.addr with
  | .v4 ip p => !e.addr.isMCast && !(net.broadcasts none).any (sameAddr (.v4 ip p))
  | _ => !e.addr.isMCast

/-- src/client.cpp:577-596: an address which can not be read is skipped -/
def searchDest (net : Net) (port : Nat) (addrs : List Str) : List (Endpoint × Bool) :=
  addrs.filterMap fun a => (parseEndpoint net a port).map fun e => (e, isUcast net e)

/-- src/client.cpp:598-608: a name server which can not be read is reported as ignored -/
def nsList (net : Net) (port : Nat) (l : List Str) : List SockAddr := l.map fun a => (setAddress net a port).getD .unspec

/-- src/client.cpp:619-628 -/
def rxOf (e : Endpoint) : List Endpoint := match e.addr with
  | .v4 ip _ => if ip = 0 then [e, { e with addr := .v6 0 0 }] else [e]
  | _ => [e]

/-- src/client.cpp:614-629 -/
def beaconRx (net : Net) (port : Nat) : List Str → Res (List Endpoint)
  | [] => .ok []
  | i :: more => match parseEndpoint net i port with
    | none => .throws "runtime_error"
    | some e => beaconRx net port more >>= fun r => .ok (rxOf e ++ r)

/-- src/client.cpp:518-644 the constructor -/
def construct (net : Net) (conf : Cfg.Client) : Res Ctx := match conf.expand net with
  | none => .throws "runtime_error"
  | some eff => beaconRx net eff.udpPort eff.interfaces >>= fun rx =>
      .ok { effective := eff, dests := searchDest net eff.udpPort eff.addressList, nameServers := nsList net eff.tcpPort eff.nameServers, beaconRx := rx }

/-- src/client.cpp:648-665 `startNS`, and src/clientconn.cpp:49-81: `can` is whether bufferevent_socket_connect() can begin to connect -/
def startNS (can : SockAddr → Bool) (c : Ctx) : Res Ctx := if c.nameServers.all can then .ok c else .throws "runtime_error"

/-- src/client.cpp:400-409 `Context::Context` -/
def newContext (net : Net) (can : SockAddr → Bool) (conf : Cfg.Client) : Res Ctx := construct net conf >>= startNS can

/-- a connection to a name server: src/client.cpp:1188-1196 -/
structure Ns where
  addr : SockAddr
  /-- validated, and there is a bufferevent -/
  ready : Bool
  /-- evbuffer_get_length() -/
  queued : Nat

/-- src/client.cpp:1147-1202: one packet, to every destination and every name server -/
def send (c : Ctx) (ns : List Ns) (pkt : List Wire.Byte) : List (Endpoint × List Wire.Byte) × List (SockAddr × List Wire.Byte) :=
  (c.dests.map fun d => (d.1, Search.udpBytes d.2 pkt),
   (ns.filter fun n => n.ready && !decide (n.queued > 64 * 1024)).map fun n => (n.addr, Search.tcpBytes pkt))

end Pvxs.CliAddr
