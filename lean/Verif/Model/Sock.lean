/-
Ownership of sockets, and options of multicast datagrams: evsocket, src/evhelper.cpp:381-455 and src/evhelper.cpp:539-576, src/evhelper.h:229-254; sending of
searches (src/client.cpp:1147-1160), of beacons (src/server.cpp:780-784) and of forwarded searches (src/udp_collector.cpp:479-481).

Sockets and the evsocket objects are natural numbers.  A number of a socket is not given out again, so that closing one twice can be seen.

Simplifications: the system calls are parameters of the steps which say whether they succeed.  Of the options of a socket only the time to live and the interface of
multicast datagrams are kept.
-/
namespace Pvxs.Sock

/-- what is seen by the operating system -/
inductive Ev where
  | opened (f : Nat)
  | closed (f : Nat)
deriving DecidableEq, Repr

structure St where
  /-- objects within their lifetime -/
  alive : Nat → Bool := fun _ => false
  /-- `sock`; `none` is -1 -/
  sock : Nat → Option Nat := fun _ => none
  next : Nat := 0
  log : List Ev := []

def set {α : Type} (f : Nat → α) (h : Nat) (v : α) : Nat → α := fun h' => if h' = h then v else f h'

/-- close a socket, unless it is -1: src/evhelper.cpp:440-441, src/evhelper.cpp:453-454 -/
def shut (log : List Ev) : Option Nat → List Ev
  | some f => log ++ [.closed f]
  | none => log

/-- evsocket::evsocket() of a new socket.  `sys`: socket() succeeds; `af`: the family is known; `nb`: it is to block, or can be made not to.  On failure an exception
is thrown, and there is no object: src/evhelper.cpp:381-413 -/
def make (s : St) (h : Nat) (sys af nb : Bool) : St :=
  if s.alive h then s
  else if sys = false then s
  else if af = false ∨ nb = false then { s with next := s.next + 1, log := s.log ++ [.opened s.next, .closed s.next] }
  else { s with alive := set s.alive h true, sock := set s.sock h (some s.next), next := s.next + 1, log := s.log ++ [.opened s.next] }

/-- the default constructor: src/evhelper.h:234-235 -/
def empty (s : St) (h : Nat) : St :=
  if s.alive h then s else { s with alive := set s.alive h true, sock := set s.sock h none }

/-- the move constructor: src/evhelper.cpp:429-435 -/
def moveNew (s : St) (h o : Nat) : St :=
  if s.alive h = true ∨ s.alive o = false then s
  else { s with alive := set s.alive h true, sock := set (set s.sock h (s.sock o)) o none }

/-- the move assignment: src/evhelper.cpp:437-448 -/
def moveTo (s : St) (h o : Nat) : St :=
  if s.alive h = false ∨ s.alive o = false then s
  else if h = o then s
  else { s with sock := set (set s.sock h (s.sock o)) o none, log := shut s.log (s.sock h) }

/-- the destructor: src/evhelper.cpp:450-455 -/
def destroy (s : St) (h : Nat) : St :=
  if s.alive h then { s with alive := set s.alive h false, sock := set s.sock h none, log := shut s.log (s.sock h) } else s

inductive Op where
  | make (h : Nat) (sys af nb : Bool)
  | empty (h : Nat)
  | moveNew (h o : Nat)
  | moveTo (h o : Nat)
  | destroy (h : Nat)
deriving DecidableEq, Repr

def step (s : St) : Op → St
  | .make h a b c => make s h a b c
  | .empty h => empty s h
  | .moveNew h o => moveNew s h o
  | .moveTo h o => moveTo s h o
  | .destroy h => destroy s h

def run (s : St) (ops : List Op) : St := ops.foldl step s

/-! ### Options of multicast datagrams -/

/-- the options of a socket -/
structure Opt where
  ttl : Int := 1
  iface : Nat := 0
deriving DecidableEq, Repr

/-- a destination: SockEndpoint, src/osiSockExt.h:140-153 -/
structure Dest where
  v6 : Bool
  /-- which address of that family -/
  addr : Nat
  mcast : Bool
  ttl : Int
  /-- the name of an interface; empty is `none` -/
  iface : Option Nat
deriving DecidableEq, Repr

/-- mcast_prep_sendto(): `none` is std::logic_error.  `num` is what IfaceMap has for the name, 0 for an unknown one; `okT` and `okI` say whether setsockopt() succeeds,
which only is logged otherwise: src/evhelper.cpp:539-576 -/
def prep (num : Nat → Nat) (v6 : Bool) (o : Opt) (d : Dest) (okT okI : Bool) : Option Opt :=
  if d.v6 ≠ v6 then none
  else if d.mcast = false then some o
  else some { ttl := if okT then d.ttl else o.ttl, iface := if okI then (match d.iface with | some i => num i | none => 0) else o.iface }

/-- a datagram with the options which its socket had -/
structure Sent where
  dest : Dest
  opt : Opt
deriving DecidableEq, Repr

/-- the two sockets of a sender, and what it sent -/
structure Tx where
  o4 : Opt := {}
  o6 : Opt := {}
  sent : List Sent := []
  /-- an exception left the loop -/
  thrown : Bool := false
deriving DecidableEq, Repr

/-- one turn of the loops: choice of the socket, mcast_prep_sendto(), sendto().  src/client.cpp:1147-1160, src/server.cpp:780-784 -/
def sendOne (num : Nat → Nat) (t : Tx) (d : Dest) (okT okI : Bool) : Tx :=
  if t.thrown then t
  else if d.v6 then
    match prep num true t.o6 d okT okI with
    | some o => { t with o6 := o, sent := t.sent ++ [⟨d, o⟩] }
    | none => { t with thrown := true }
  else
    match prep num false t.o4 d okT okI with
    | some o => { t with o4 := o, sent := t.sent ++ [⟨d, o⟩] }
    | none => { t with thrown := true }

def sendAll (num : Nat → Nat) (t : Tx) (l : List (Dest × Bool × Bool)) : Tx := l.foldl (fun t x => sendOne num t x.1 x.2.1 x.2.2) t

end Pvxs.Sock
