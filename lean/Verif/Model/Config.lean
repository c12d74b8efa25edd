import Verif.Model.Scalar
/-
Addresses and configuration: src/config.cpp, src/util.cpp:387-540 and :651-690.

Simplifications: texts have no NUL; the scope id which name resolution may give an IPv6 address is not kept; log messages are not modelled.
The operating system is a parameter (`Net`): conversion of one IP address to and from text, name resolution, the list of network interfaces.
-/
namespace Pvxs.Cfg

/-- `SockAddr`: src/osiSockExt.h:40-102 -/
inductive SockAddr where
  | unspec
  | v4 (ip port : Nat)
  | v6 (ip port : Nat)
deriving DecidableEq, Repr

/-- what is asked of the operating system -/
structure Net where
  /-- inet_pton() -/
  pton4 : Str → Option Nat
  pton6 : Str → Option Nat
  /-- inet_ntop() -/
  ntop4 : Nat → Str
  ntop6 : Nat → Str
  /-- getaddrinfo(); `none` is an error -/
  resolve : Str → Option (List SockAddr)
  /-- IfaceMap::name_of(), for an IPv4 address -/
  nameOf : Nat → Str
  /-- IfaceMap::address_of() -/
  addressOf : Str → SockAddr
  /-- IfaceMap::all_external() -/
  externals : List Str
  /-- evsocket::broadcasts(), of all interfaces for `none` -/
  broadcasts : Option SockAddr → List SockAddr

/-- src/util.cpp:419-428 `port` -/
def SockAddr.port : SockAddr → Nat
  | .unspec => 0
  | .v4 _ p => p
  | .v6 _ p => p

/-- src/util.cpp:430-440 `setPort`; `none` is a thrown exception -/
def SockAddr.setPort (p : Nat) : SockAddr → Option SockAddr
  | .unspec => none
  | .v4 ip _ => some (.v4 ip p)
  | .v6 ip _ => some (.v6 ip p)

/-- src/util.cpp:572-581 `isMCast`: 224.0.0.0/4, ff00::/8 -/
def SockAddr.isMCast : SockAddr → Bool
  | .unspec => false
  | .v4 ip _ => ip / 2 ^ 28 == 0xe
  | .v6 ip _ => ip / 2 ^ 120 == 0xff

/-- src/util.cpp:550-559 `isAny` -/
def SockAddr.isAny : SockAddr → Bool
  | .unspec => false
  | .v4 ip _ => ip == 0
  | .v6 ip _ => ip == 0

/-- strchr(): before and after the first `c` -/
def splitFirst (c : Wire.Byte) : Str → Option (Str × Str)
  | [] => none
  | x :: s => if x = c then some ([], s) else (splitFirst c s).map fun r => (x :: r.1, r.2)

/-- strrchr(): before and after the last `c` -/
def splitLast (c : Wire.Byte) : Str → Option (Str × Str)
  | [] => none
  | x :: s =>
    match splitLast c s with
    | some r => some (x :: r.1, r.2)
    | none => if x = c then some ([], s) else none

/-- sizeof(scratch), src/util.cpp:472 -/
def scratch : Nat := 47

/-- src/util.cpp:526-533: which of the addresses a name resolves to is taken; `temp` so far -/
def pick (temp : SockAddr) : List SockAddr → SockAddr
  | [] => temp
  | .v4 ip p :: _ => .v4 ip p
  | .v6 ip p :: rest => if temp = .unspec then pick (.v6 ip p) rest else pick temp rest
  | .unspec :: rest => pick temp rest

/-- src/util.cpp:519-540: the address, without the port.  `temp` has the family which the form of the text suggests -/
def lookupAddr (net : Net) (six : Bool) (addr : Str) : Option SockAddr :=
  match (if six then (net.pton6 addr).map (SockAddr.v6 · 0) else (net.pton4 addr).map (SockAddr.v4 · 0)) with
  | some a => some a
  | none =>
    match net.resolve addr with
    | none => none
    | some info =>
      let temp := pick (if six then .v6 0 0 else .v4 0 0) info
      if temp = .unspec then none else some temp

/-- src/util.cpp:542-545 -/
def withPort (a : SockAddr) (port : Option Str) (defport : Nat) : Option SockAddr :=
  match port with
  | none => a.setPort defport
  | some p => (parseU64 p).bind fun n => a.setPort (n % 2 ^ 16)

/-- src/util.cpp:442-548 `setAddress`; `none` is a thrown exception -/
def setAddress (net : Net) (name : Str) (defport : Nat) : Option SockAddr :=
  match splitFirst 0x5b name with
  | some (_, inner) =>
    -- :497-512 brackets; a last `]` before the first `[` makes a length which is too long
    match splitLast 0x5d inner with
    | none => none
    | some (addr, rest) =>
      if scratch ≤ addr.length then none
      else (lookupAddr net true addr).bind fun a => withPort a ((splitLast 0x3a rest).map (·.2)) defport
  | none =>
    -- :464-467
    if name.contains 0x5d then none
    else match splitFirst 0x3a name with
      | none => (lookupAddr net false name).bind fun a => withPort a none defport
      | some (addr, port) =>
        if port.contains 0x3a then (lookupAddr net true name).bind fun a => withPort a none defport
        else if scratch ≤ addr.length then none
        else (lookupAddr net false addr).bind fun a => withPort a (some port) defport

/-- `SockEndpoint`: src/osiSockExt.h:140-153 -/
structure Endpoint where
  addr : SockAddr
  ttl : Int := -1
  iface : Str := []
deriving DecidableEq, Repr

/-- conversion of int64_t to int -/
def toInt32 (v : Int) : Int := intOf 4 (intBits 4 v)

/-- src/config.cpp:64-80: an interface given by its address -/
def fixIface (net : Net) (e : Endpoint) : Endpoint :=
  match e.addr with
  | .v4 _ _ =>
    if e.addr.isMCast ∧ e.iface ≠ [] then
      match net.pton4 e.iface with
      | some a => { e with iface := net.nameOf a }
      | none => e
    else e
  | _ => e

/-- src/config.cpp:32-85 the constructor of `SockEndpoint` from text; `none` is a thrown exception -/
def parseEndpoint (net : Net) (ep : Str) (defport : Nat) : Option Endpoint :=
  let (head, at?) := match splitFirst 0x40 ep with
    | some (h, i) => (h, some i)
    | none => (ep, none)
  match splitFirst 0x2c head with
  | none =>
    -- :42-44
    if (at?.getD []).contains 0x2c then none
    else (setAddress net head defport).map fun a => fixIface net { addr := a, iface := at?.getD [] }
  | some (a, t) =>
    (setAddress net a defport).bind fun a => (parseI64 t).map fun v =>
      fixIface net { addr := a, ttl := toInt32 v, iface := at?.getD [] }

/-- src/util.cpp:651-690 `operator<<` -/
def showAddr (net : Net) : SockAddr → Str
  | .unspec => [0x3c, 0x3e]
  | .v4 ip p => net.ntop4 ip ++ (if p ≠ 0 then 0x3a :: showNat p else [])
  | .v6 ip p => [0x5b] ++ net.ntop6 ip ++ [0x5d] ++ (if p ≠ 0 then 0x3a :: showNat p else [])

/-- src/config.cpp:125-135 `operator<<` -/
def showEndpoint (net : Net) (e : Endpoint) : Str :=
  showAddr net e.addr ++
    (if e.addr.isMCast then
      (if e.ttl ≠ 0 then 0x2c :: showInt e.ttl else []) ++ (if e.iface ≠ [] then 0x40 :: e.iface else [])
     else [])

/-! lists of addresses -/

/-- the key of the map `seen` -/
abbrev Key := SockAddr × Str

def Endpoint.key (e : Endpoint) : Key := (e.addr, e.iface)

/-- src/config.cpp:348-370: the loop.  `done` are the entries before `i`, `seen` the positions in it. -/
def dedupLoop (seen : List (Key × Nat)) (done : List Endpoint) : List Endpoint → List Endpoint
  | [] => done
  | ep :: rest =>
    match seen.find? (·.1 = ep.key) with
    | none => dedupLoop ((ep.key, done.length) :: seen) (done ++ [ep]) rest
    | some (_, j) => dedupLoop seen (done.modify j fun orig => if ep.ttl > orig.ttl then { orig with ttl := ep.ttl } else orig) rest

/-- src/config.cpp:348-370 `removeDups(std::vector<SockEndpoint>&)` -/
def removeDups (l : List Endpoint) : List Endpoint := dedupLoop [] [] l

/-- into a sorted list without duplicates -/
def insertU (a : Str) : List Str → List Str
  | [] => [a]
  | b :: l => if a = b then b :: l else if strLt a b then a :: b :: l else b :: insertU a l

/-- std::sort() and std::unique(): src/config.cpp:179-182 and :335-341 -/
def sortU (l : List Str) : List Str := l.foldr insertU []

/-- " \t\r\n" -/
def isSep (c : Wire.Byte) : Bool := c == 0x20 || c == 9 || c == 13 || c == 10

/-- nothing more, or a blank -/
def atSep : Str → Bool
  | [] => true
  | d :: _ => isSep d

/-- a character before the pieces `ws`; a new piece if a blank follows -/
def addChar (c : Wire.Byte) (sep : Bool) (ws : List Str) : List Str :=
  match sep, ws with
  | false, w :: ws => (c :: w) :: ws
  | _, ws => [c] :: ws

/-- src/config.cpp:158-163: the pieces between blanks -/
def words : Str → List Str
  | [] => []
  | c :: s => if isSep c then words s else addChar c (atSep s) (words s)

/-- src/config.cpp:164-169: one piece -/
def normalize (net : Net) (defaultPort : Nat) (w : Str) : Option Str :=
  (parseEndpoint net w 0).bind fun ep =>
    if ep.addr.port = 0 then (ep.addr.setPort defaultPort).map fun a => showEndpoint net { ep with addr := a }
    else some (showEndpoint net ep)

/-- src/config.cpp:151-183 `split_addr_into`, `required`: an invalid piece is an error -/
def splitAddrInto (net : Net) (out : List Str) (inp : Str) (defaultPort : Nat) (required : Bool) : Option (List Str) :=
  let ps := (words inp).map (normalize net defaultPort)
  if required && ps.contains none then none
  else some (sortU (out ++ ps.filterMap id))

/-- src/config.cpp:185-197 `join_addr` -/
def joinAddr : List Str → Str
  | [] => []
  | [a] => a
  | a :: l => a ++ [0x20] ++ joinAddr l

/-- src/config.cpp:257-269 `parseAddresses`, invalid entries are left out -/
def parseAddresses (net : Net) (addrs : List Str) : List Endpoint := addrs.filterMap (parseEndpoint net · 0)

/-- src/config.cpp:284-306: the interfaces whose broadcast addresses are added (ipstack is Linsock) -/
def bcastOf (net : Net) (e : Endpoint) : List SockAddr :=
  match e.addr with
  | .v4 ip p => net.broadcasts (some (.v4 ip p))
  | .v6 ip _ => if ip = 0 then net.broadcasts none else []
  | .unspec => []

/-- src/config.cpp:284-306 `expandAddrList` -/
def expandAddrList (net : Net) (ifaces addrs : List Endpoint) : List Endpoint :=
  addrs ++ (ifaces.flatMap (bcastOf net)).map fun a => { addr := (a.setPort 0).getD a }

/-- src/config.cpp:309-335 `addGroups` -/
def addGroups (net : Net) (ifaces addrs : List Endpoint) : List Endpoint :=
  ifaces ++ addrs.flatMap fun a =>
    if !a.addr.isMCast then []
    else if a.iface ≠ [] then [a]
    else net.externals.map fun i => { a with iface := i }

/-! the timeout -/

/-- a double -/
inductive Dbl where
  | nan
  | inf (neg : Bool)
  | fin (q : Rat)
deriving DecidableEq

/-- double(std::numeric_limits<time_t>::max()) -/
def maxTime : Rat := 2 ^ 63

/-- src/config.cpp:372-392 `enforceTimeout` -/
def enforceTimeout : Dbl → Dbl
  | .nan => .fin 40
  | .inf _ => .fin 40
  | .fin q => if q ≤ 0 ∨ maxTime ≤ q then .fin 40 else if q < 2 then .fin 2 else .fin q

/-- conversion of doubles to and from text, and multiplication and division by tmoScale: with unknown rounding -/
structure Flt where
  read : Str → Option Dbl
  print : Dbl → Str
  scale : Rat → Dbl
  unscale : Dbl → Dbl

/-- src/config.cpp:211-227 `parse_timeout` -/
def parseTimeout (flt : Flt) (dest : Dbl) (val : Str) : Dbl :=
  match flt.read val with
  | some (.fin q) => if q < 0 ∨ maxTime < q then dest else flt.scale q
  | _ => dest

/-! the configuration -/

/-- names of settings -/
inductive Name where
  | pvasServerPort | pvaServerPort | pvasBroadcastPort | pvaBroadcastPort
  | pvasIntf | pvaIntf | pvasIgnore | pvasBeacon | pvaAddrList | pvasAuto | pvaAuto | pvaConnTmo | pvaNameServers
deriving DecidableEq, Repr

/-- the environment, or the argument of applyDefs() -/
abbrev Defs := Name → Option Str

/-- src/config.cpp:229-255 `PickOne` -/
def pickOne (defs : Defs) : List Name → Option Str
  | [] => none
  | n :: ns => match defs n with
    | some v => some v
    | none => pickOne defs ns

/-- src/config.cpp:401-407 and others: a port setting; one which is not a number is ignored.  Stored as unsigned short. -/
def applyPort (dest : Nat) (val : Option Str) : Nat :=
  match val with
  | none => dest
  | some v => match parseU64 v with
    | none => dest
    | some n => n % 2 ^ 16

def lower (c : Wire.Byte) : Wire.Byte := if 0x41 ≤ c ∧ c ≤ 0x5a then c + 0x20 else c

/-- src/config.cpp:199-209 `parse_bool` -/
def applyBool (dest : Bool) (val : Option Str) : Bool :=
  match val with
  | none => dest
  | some v =>
    if v.map lower = [0x79, 0x65, 0x73] ∨ v = [0x31] then true
    else if v.map lower = [0x6e, 0x6f] ∨ v = [0x30] then false
    else dest

def applyTimeout (flt : Flt) (dest : Dbl) (val : Option Str) : Dbl :=
  match val with
  | none => dest
  | some v => parseTimeout flt dest v

def applyAddrs (net : Net) (dest : List Str) (val : Option Str) (port : Nat) (required : Bool) : Option (List Str) :=
  match val with
  | none => some dest
  | some v => splitAddrInto net dest v port required

/-- src/pvxs/server.h `server::Config` -/
structure Server where
  interfaces : List Str := []
  ignoreAddrs : List Str := []
  beaconDestinations : List Str := []
  tcpPort : Nat := 5075
  udpPort : Nat := 5076
  auto : Bool := true
  tcpTimeout : Dbl := .fin 40
deriving DecidableEq

/-- src/config.cpp:396-436 `_fromDefs` of a server; `none` is a thrown exception -/
def Server.fromDefs (net : Net) (flt : Flt) (self : Server) (defs : Defs) : Option Server :=
  let tcp := applyPort self.tcpPort (pickOne defs [.pvasServerPort, .pvaServerPort])
  let udp := applyPort self.udpPort (pickOne defs [.pvasBroadcastPort, .pvaBroadcastPort])
  (applyAddrs net self.interfaces (pickOne defs [.pvasIntf]) tcp true).bind fun interfaces =>
  (applyAddrs net self.ignoreAddrs (pickOne defs [.pvasIgnore]) 0 true).bind fun ignore =>
  (applyAddrs net self.beaconDestinations (pickOne defs [.pvasBeacon, .pvaAddrList]) udp false).map fun beacon =>
    { interfaces := interfaces, ignoreAddrs := ignore, beaconDestinations := beacon, tcpPort := tcp, udpPort := udp
      auto := applyBool self.auto (pickOne defs [.pvasAuto, .pvaAuto])
      tcpTimeout := applyTimeout flt self.tcpTimeout (pickOne defs [.pvaConnTmo]) }

def yesNo (b : Bool) : Str := if b then [0x59, 0x45, 0x53] else [0x4e, 0x4f]

/-- src/config.cpp:473-482 `updateDefs` of a server -/
def Server.updateDefs (flt : Flt) (c : Server) (defs : Defs) : Defs := fun n =>
  match n with
  | .pvaBroadcastPort | .pvasBroadcastPort => some (showNat c.udpPort)
  | .pvaServerPort | .pvasServerPort => some (showNat c.tcpPort)
  | .pvaAuto | .pvasAuto => some (yesNo c.auto)
  | .pvaAddrList | .pvasBeacon => some (joinAddr c.beaconDestinations)
  | .pvaIntf | .pvasIntf => some (joinAddr c.interfaces)
  | .pvasIgnore => some (joinAddr c.ignoreAddrs)
  | .pvaConnTmo => some (flt.print (flt.unscale c.tcpTimeout))
  | .pvaNameServers => defs .pvaNameServers

/-- src/config.cpp:495-508: for each multicast group the address to listen on is added -/
def groupIfaces (net : Net) (ifaces : List Endpoint) : List Endpoint :=
  ifaces ++ ifaces.filterMap fun ep =>
    if !ep.addr.isMCast then none
    else if ep.iface ≠ [] then some { addr := net.addressOf ep.iface }
    else some { addr := match ep.addr with | .v6 _ _ => .v6 0 0 | _ => .v4 0 0 }

/-- src/config.cpp:484-528 `expand` of a server.  The loop (:497) also visits what it appends: taken not to be multicast. -/
def Server.expand (net : Net) (c : Server) : Server :=
  let ifaces := parseAddresses net c.interfaces
  let bdest := parseAddresses net c.beaconDestinations
  let ifaces := if ifaces = [] then [{ addr := .v4 0 0 }] else ifaces
  let ifaces := groupIfaces net ifaces
  let (ifaces, bdest) :=
    if c.auto then
      let bdest := expandAddrList net ifaces bdest
      (addGroups net ifaces bdest, bdest)
    else (ifaces, bdest)
  { c with
    auto := false
    interfaces := (removeDups ifaces).map (showEndpoint net)
    beaconDestinations := (removeDups bdest).map (showEndpoint net)
    ignoreAddrs := sortU c.ignoreAddrs
    tcpTimeout := enforceTimeout c.tcpTimeout }

/-- src/pvxs/client.h `client::Config` -/
structure Client where
  addressList : List Str := []
  interfaces : List Str := []
  nameServers : List Str := []
  tcpPort : Nat := 5075
  udpPort : Nat := 5076
  auto : Bool := true
  tcpTimeout : Dbl := .fin 40
deriving DecidableEq

/-- src/config.cpp:550-598 `_fromDefs` of a client.  Nothing throws: no list is `required`. -/
def Client.fromDefs (net : Net) (flt : Flt) (self : Client) (defs : Defs) : Client :=
  let udp := applyPort self.udpPort (pickOne defs [.pvaBroadcastPort])
  let udp := if udp = 0 then 5076 else udp
  let tcp := applyPort self.tcpPort (pickOne defs [.pvaServerPort, .pvasServerPort])
  let tcp := if tcp = 0 ∧ self.nameServers ≠ [] then 5075 else tcp
  { addressList := (applyAddrs net self.addressList (pickOne defs [.pvaAddrList]) udp false).getD []
    nameServers := (applyAddrs net self.nameServers (pickOne defs [.pvaNameServers]) tcp false).getD []
    auto := applyBool self.auto (pickOne defs [.pvaAuto])
    interfaces := (applyAddrs net self.interfaces (pickOne defs [.pvaIntf]) 0 false).getD []
    tcpTimeout := applyTimeout flt self.tcpTimeout (pickOne defs [.pvaConnTmo])
    tcpPort := tcp
    udpPort := udp }

/-- src/config.cpp:612-621 `updateDefs` of a client -/
def Client.updateDefs (flt : Flt) (c : Client) (defs : Defs) : Defs := fun n =>
  match n with
  | .pvaBroadcastPort => some (showNat c.udpPort)
  | .pvaServerPort => some (showNat c.tcpPort)
  | .pvaAuto => some (yesNo c.auto)
  | .pvaAddrList => some (joinAddr c.addressList)
  | .pvaIntf => some (joinAddr c.interfaces)
  | .pvaConnTmo => some (flt.print (flt.unscale c.tcpTimeout))
  | .pvaNameServers => some (joinAddr c.nameServers)
  | n => defs n

/-- src/config.cpp:623-648 `expand` of a client; `none` is a thrown exception -/
def Client.expand (net : Net) (c : Client) : Option Client :=
  if c.udpPort = 0 then none
  else
    let ifaces := parseAddresses net c.interfaces
    let addrs := parseAddresses net c.addressList
    let ifaces := if ifaces = [] then [{ addr := .v4 0 0 }] else ifaces
    let (ifaces, addrs) :=
      if c.auto then
        let addrs := expandAddrList net ifaces addrs
        (addGroups net ifaces addrs, addrs)
      else (ifaces, addrs)
    some { c with
      tcpPort := if c.tcpPort = 0 then 5075 else c.tcpPort
      auto := false
      interfaces := ifaces.map (showEndpoint net)
      addressList := (removeDups addrs).map (showEndpoint net)
      tcpTimeout := enforceTimeout c.tcpTimeout }

end Pvxs.Cfg
