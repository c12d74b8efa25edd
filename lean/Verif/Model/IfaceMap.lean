import Verif.Model.Config
/-
What the library knows of the network interfaces of its host: src/evhelper.cpp:700-875, src/evhelper.h:303-343, src/os/default/osdSockExt.cpp:202-258.

Simplifications: time is a whole number of nanoseconds of a monotonic clock; the lock (every call holds it from begin to end) makes a run a sequence of calls; `find` in a multimap gives the entry
added first (the language leaves open which of several equal entries it gives); IPv6 addresses have no scope; the decimal number which name_of(index) gives instead of a name is left as "nothing".
-/
namespace Pvxs.Ifm

open Pvxs.Cfg (SockAddr)

/-- one `ifaddrs` as getifaddrs() gives it; an address which is neither IPv4 nor IPv6 is `unspec` -/
structure Entry where
  name : Str
  addr : SockAddr
  /-- IFF_UP, IFF_LOOPBACK, IFF_BROADCAST -/
  up : Bool
  lo : Bool
  bcast : Bool
  /-- `ifa_broadaddr`, when there is one -/
  baddr : Option SockAddr
deriving DecidableEq, Repr

/-- the host at one moment: what getifaddrs() gives (`none`: it fails), if_nametoindex() -/
structure Host where
  entries : Option (List Entry)
  index : Str → Nat

/-- `IfaceMap::Iface`: src/evhelper.h:331-338; `unspec` as second part is "no broadcast address" -/
structure Iface where
  name : Str
  index : Nat
  lo : Bool
  addrs : List (SockAddr × SockAddr)
deriving DecidableEq, Repr

/-- `byIndex`, in the order of the indices -/
abbrev Known := List Iface

/-- `SockAddr::compare(o, false)`, as far as it matters here: which addresses are equal when the ports are ignored, and that IPv4 goes before IPv6: src/osiSockExt.h:105-110 -/
def key : SockAddr → Nat × Nat
  | .unspec => (0, 0)
  | .v4 ip _ => (1, ip)
  | .v6 ip _ => (2, ip)

/-- `SockAddrOnlyLess`: src/osiSockExt.h:105-110 -/
def less (a b : SockAddr) : Bool :=
  (key a).1 < (key b).1 || ((key a).1 == (key b).1 && (key a).2 < (key b).2)

/-- neither address is less -/
def same (a b : SockAddr) : Bool := key a == key b

/-- `addrs.emplace(a, b)`: nothing happens when the address is there already; src/os/default/osdSockExt.cpp:239-241 -/
def addAddr (a b : SockAddr) : List (SockAddr × SockAddr) → List (SockAddr × SockAddr)
  | [] => [(a, b)]
  | x :: l => if same a x.1 then x :: l else if less a x.1 then (a, b) :: x :: l else x :: addAddr a b l

/-- the broadcast address which is kept with an address: src/os/default/osdSockExt.cpp:236-241 -/
def broadOf (e : Entry) : SockAddr :=
  match e.addr with
  | .v4 .. => if e.bcast then e.baddr.getD .unspec else .unspec
  | _ => .unspec

/-- find the interface of this index or make it, and add the address: src/os/default/osdSockExt.cpp:225-241 -/
def put (idx : Nat) (e : Entry) : Known → Known
  | [] => [⟨e.name, idx, e.lo, [(e.addr, broadOf e)]⟩]
  | i :: m =>
    if i.index = idx then { i with addrs := addAddr e.addr (broadOf e) i.addrs } :: m
    else if idx < i.index then ⟨e.name, idx, e.lo, [(e.addr, broadOf e)]⟩ :: i :: m
    else i :: put idx e m

/-- may this entry be used: src/os/default/osdSockExt.cpp:208-223 -/
def usable (h : Host) (e : Entry) : Bool :=
  e.addr != .unspec && e.name != [] && h.index e.name != 0 && e.up

/-- one turn of the loop: src/os/default/osdSockExt.cpp:207-247 -/
def addEntry (h : Host) (m : Known) (e : Entry) : Known :=
  if usable h e then put (h.index e.name) e m else m

/-- `_refresh()`: src/os/default/osdSockExt.cpp:202-258 -/
def readHost (h : Host) : Known :=
  match h.entries with
  | none => []
  | some l => l.foldl (addEntry h) []

/-- one line of `byAddr`: the address, the interface, is it a broadcast address -/
abbrev AddrLine := SockAddr × Iface × Bool

/-- what one address of an interface adds to `byAddr`: src/evhelper.cpp:741-745 -/
def addrLines (i : Iface) (p : SockAddr × SockAddr) : List AddrLine :=
  (p.1, i, false) :: (match p.2 with
    | .v4 .. => [(p.2, i, true)]
    | _ => [])

/-- `byAddr`, in the order of the insertions: src/evhelper.cpp:737-746 -/
def byAddr (m : Known) : List AddrLine := m.flatMap fun i => i.addrs.flatMap (addrLines i)

/-- `byAddr.find(a)` -/
def findAddr (m : Known) (a : SockAddr) : Option AddrLine := (byAddr m).find? fun x => same x.1 a

/-- `byName.find(n)`: the last interface of this name: src/evhelper.cpp:740 -/
def findName (m : Known) (n : Str) : Option Iface := (m.filter fun i => i.name == n).getLast?

/-- `byIndex.find(n)` -/
def findIndex (m : Known) (n : Nat) : Option Iface := m.find? fun i => i.index == n

/-- a second -/
def sec : Nat := 1000000000

/-- `IfaceMap`; `reads` is not in the program: when the host was asked, the last time first -/
structure State where
  updated : Nat
  known : Known
  reads : List Nat

/-- the host as time goes by -/
abbrev World := Nat → Host

/-- src/evhelper.cpp:730 -/
def threshold (force : Bool) : Nat := if force then 10 * sec else 600 * sec

/-- `refresh(force)`: src/evhelper.cpp:726-751 -/
def refresh (w : World) (now : Nat) (force : Bool) (s : State) : State :=
  if now - s.updated < threshold force ∧ s.known ≠ [] then s
  else { updated := now, known := readHost (w now), reads := now :: s.reads }

/-- `try_cache()`: src/evhelper.cpp:755-768; the clock is read twice, `t1` and `t2` -/
def tryCache (w : World) (t1 t2 : Nat) (fn : Known → Option α) (s : State) : State × Option α :=
  let s1 := refresh w t1 false s
  match fn s1.known with
  | some x => (s1, some x)
  | none =>
    let s2 := refresh w t2 true s1
    (s2, fn s2.known)

/-- the lambda of has_address(): src/evhelper.cpp:779-786 -/
def hasAddress (idx : Nat) (a : SockAddr) (m : Known) : Option Unit :=
  match findIndex m idx with
  | some i => if i.addrs.any (fun p => same p.1 a) then some () else none
  | none => none

/-- the lambda of name_of(index): src/evhelper.cpp:795-802 -/
def nameOfIndex (idx : Nat) (m : Known) : Option Str := (findIndex m idx).map (·.name)

/-- the lambda of name_of(address): src/evhelper.cpp:815-822 -/
def nameOfAddr (a : SockAddr) (m : Known) : Option Str := (findAddr m a).map (·.2.1.name)

/-- the lambda of index_of(): src/evhelper.cpp:831-837 -/
def indexOf (n : Str) (m : Known) : Option Nat := (findName m n).map (·.index)

/-- the lambda of is_iface(): src/evhelper.cpp:845-848 -/
def isIface (a : SockAddr) (m : Known) : Option Unit :=
  match findAddr m a with
  | some (_, _, false) => some ()
  | _ => none

/-- the lambda of is_broadcast(): src/evhelper.cpp:855-858 -/
def isBroadcast (a : SockAddr) (m : Known) : Option Unit :=
  match findAddr m a with
  | some (_, _, true) => some ()
  | _ => none

/-- what the lambda of address_of() assigns to `ret`, if anything: src/evhelper.cpp:867-870 -/
def addressIn (n : Str) (m : Known) : Option SockAddr :=
  match findName m n with
  | some i => i.addrs.head?.map (·.1)
  | none => none

/-- a question -/
inductive Ask where
  | hasAddress (idx : Nat) (a : SockAddr)
  | nameOfIndex (idx : Nat)
  | nameOfAddr (a : SockAddr)
  | indexOf (n : Str)
  | isIface (a : SockAddr)
  | isBroadcast (a : SockAddr)
  | addressOf (n : Str)
  | allExternal
deriving DecidableEq, Repr

/-- an answer -/
inductive Ans where
  | yes (b : Bool)
  | name (n : Option Str)
  | index (n : Nat)
  | address (a : SockAddr)
  | names (l : List Str)
deriving DecidableEq, Repr

/-- address_of(): the lambda always says "not found", so that it is always called twice: src/evhelper.cpp:861-874 -/
def addressOf (w : World) (t1 t2 : Nat) (n : Str) (s : State) : State × SockAddr :=
  let s1 := refresh w t1 false s
  let s2 := refresh w t2 true s1
  (s2, ((addressIn n s2.known).orElse fun _ => addressIn n s1.known).getD .unspec)

/-- the names of the interfaces, each once: src/evhelper.cpp:881-883 -/
def names (m : Known) : List Str := (m.map (·.name)).eraseDups

/-- is the answer `yes` -/
def toYes (r : State × Option Unit) : State × Ans := (r.1, .yes r.2.isSome)

/-- one call: src/evhelper.cpp:772-886 -/
def ask (w : World) (t1 t2 : Nat) (q : Ask) (s : State) : State × Ans :=
  match q with
  | .hasAddress idx a => if a.isAny then (s, .yes true) else toYes (tryCache w t1 t2 (hasAddress idx a) s)
  | .nameOfIndex idx => ((tryCache w t1 t2 (nameOfIndex idx) s).1, .name (tryCache w t1 t2 (nameOfIndex idx) s).2)
  | .nameOfAddr a => ((tryCache w t1 t2 (nameOfAddr a) s).1, .name (tryCache w t1 t2 (nameOfAddr a) s).2)
  | .indexOf n => ((tryCache w t1 t2 (indexOf n) s).1, .index ((tryCache w t1 t2 (indexOf n) s).2.getD 0))
  | .isIface a => toYes (tryCache w t1 t2 (isIface a) s)
  | .isBroadcast a => toYes (tryCache w t1 t2 (isBroadcast a) s)
  | .addressOf n => ((addressOf w t1 t2 n s).1, .address (addressOf w t1 t2 n s).2)
  | .allExternal => (refresh w t1 false s, .names (names (refresh w t1 false s).known))

/-- the constructor: src/evhelper.cpp:721-724 -/
def start (w : World) (t : Nat) : State := refresh w t false ⟨0, [], []⟩

/-- a call, and when it reads the clock -/
structure Call where
  t1 : Nat
  t2 : Nat
  q : Ask

/-- the state after some calls -/
def after (w : World) (s : State) (l : List Call) : State := l.foldl (fun s c => (ask w c.t1 c.t2 c.q s).1) s

/-- the times of the calls are in order, from `t` on -/
def InOrder (t : Nat) : List Call → Prop
  | [] => True
  | c :: l => t ≤ c.t1 ∧ c.t1 ≤ c.t2 ∧ InOrder c.t2 l

/-- when the last of the calls read the clock -/
def lastTime (t : Nat) : List Call → Nat
  | [] => t
  | c :: l => lastTime c.t2 l

end Pvxs.Ifm
