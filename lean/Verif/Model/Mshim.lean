import Verif.Model.Udp
/-
The multicast shim: tools/mshim.cpp, which receives searches and beacons and sends them on to other addresses.

Simplifications: a destination is an address and a port, its interface and time to live are left out; the outcome of each sendto() is given;
the parsing of addresses (parseEP, :57-75) is left out.
-/
namespace Pvxs.Mshim
open Wire Pvxs.Udp

/-- src/pvaproto.h:379-383: `name.name` is a C string; tools/mshim.cpp:124-127 -/
def putNames (o : Out) : List (List Byte × Nat) → Out
  | [] => o
  | x :: l => putNames (putStr (putInt o 4 x.2) (cstr x.1)) l

/-- tools/mshim.cpp:113-115 "tcp" -/
def putTcp (tcp : Bool) (o : Out) : Out := if tcp then putStr o [0x74, 0x63, 0x70] else o

/-- tools/mshim.cpp:84-87,97-99: the buffer, where the header will be filled in -/
def start : Out := { be := true, room := some (0x10000 - 8), data := List.replicate 8 0 }

/-- tools/mshim.cpp:97-127: the body of a search -/
def searchBuf (s : Search) : Out :=
  let o := putInt start 4 s.searchID
  let o := o.write [if s.mustReply then 1 else 0, 0, 0, 0]
  let o := putAddr [] o s.server.addr
  let o := putInt o 2 s.server.port
  let o := putSize o (if s.tcp then s.otherproto.length + 1 else s.otherproto.length)
  let o := putTcp s.tcp o
  let o := putStrs o s.otherproto
  let o := putInt o 2 (s.names.length % 0x10000)
  putNames o s.names

/-- tools/mshim.cpp:178-188: the body of a beacon; an empty status -/
def beaconBuf (b : Beacon) : Out :=
  let o := start.write b.guid
  let o := putInt o 4 0
  let o := putAddr [] o b.server.addr
  let o := putInt o 2 b.server.port
  let o := putStr o b.proto
  putU8 o 0xff

/-- tools/mshim.cpp:135-139,196-200: the header is filled in.  Both use CMD_SEARCH. -/
def packet (o : Out) : List Byte := (putHeader { be := true } ⟨3, 0, 0, o.data.length - 8⟩).data ++ o.data.drop 8

/-- the outcome of sendto(): tools/mshim.cpp:152-171,205-224 -/
inductive Sent where
  | ok
  /-- would block, or was interrupted -/
  | again
  | failed
deriving DecidableEq, Repr

/-- tools/mshim.cpp:142-147: the flag, at `save_flags` -/
def setUnicast (unicast : Bool) (pkt : List Byte) : List Byte :=
  pkt.take 12 ++ ((pkt.drop 12).take 1).map (fun f => if unicast then f ||| 0x80 else f &&& 0x7f) ++ pkt.drop 13

/-- tools/mshim.cpp:140-173: to each destination in turn, in the same buffer.  `bcast`: `ifmap.is_broadcast()` -/
def sendSearch (bcast : Addr → Bool) (net : Ep → Sent) : List Ep → List Byte → List (Ep × List Byte)
  | [], _ => []
  | d :: ds, pkt =>
    let pkt := setUnicast (!(isMCast d.addr || bcast d.addr)) pkt
    match net d with
    | .again => []
    | .failed => sendSearch bcast net ds pkt
    | .ok => (d, pkt) :: sendSearch bcast net ds pkt

/-- tools/mshim.cpp:202-233 -/
def sendBeacon (net : Ep → Sent) : List Ep → List Byte → List (Ep × List Byte)
  | [], _ => []
  | d :: ds, pkt =>
    match net d with
    | .again => []
    | .failed => sendBeacon net ds pkt
    | .ok => (d, pkt) :: sendBeacon net ds pkt

inductive Result where
  /-- an assert() fails: the process ends -/
  | abort
  | sent (packets : List (Ep × List Byte))
deriving DecidableEq, Repr

/-- tools/mshim.cpp:106,183 -/
def usable (server : Ep) : Bool := !isAny server.addr && isV4 server.addr

/-- tools/mshim.cpp:95-174 `App::onSearch` -/
def onSearch (bcast : Addr → Bool) (net : Ep → Sent) (dests : List Ep) (s : Search) : Result :=
  if usable s.server then
    if (searchBuf s).err then .sent [] else .sent (sendSearch bcast net dests (packet (searchBuf s)))
  else .abort

/-- tools/mshim.cpp:176-234 `App::onBeacon` -/
def onBeacon (net : Ep → Sent) (dests : List Ep) (b : Beacon) : Result :=
  if usable b.server then
    if (beaconBuf b).err then .sent [] else .sent (sendBeacon net dests (packet (beaconBuf b)))
  else .abort

/-! ### the command line -/

/-- one word of the command line as getopt() reads it -/
inductive Opt where
  | listen (ep : Ep)
  | forward (ep : Ep)
  | port
deriving DecidableEq, Repr

/-- tools/mshim.cpp:250-277: "L:F:phV", with no ':' after the p: `optarg` is NULL, and a std::string can't be made of this.  `none`: ends with
an error. -/
def options : List Opt → Option (List Ep × List Ep)
  | [] => some ([], [])
  | .listen e :: l => (options l).map fun r => (e :: r.1, r.2)
  | .forward e :: l => (options l).map fun r => (r.1, e :: r.2)
  | .port :: _ => none

end Pvxs.Mshim
