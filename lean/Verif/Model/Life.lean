/-
Model of starting and stopping a server.

Each step is one of the functions which are handed to an event loop (acceptor loop or the UDP loop): these run to their end
before another one on the same loop does.  `n` is the number of UDP listeners.

Simplifications: errors of libevent calls are only logged by the code, here they do not happen.  A connection is a number, of its state only
whether it is open is modelled (see Model/ServerConn.lean for the rest).
-/
namespace Pvxs.Life

/-- src/serverimpl.h (`Server::Pvt::state_t`) -/
inductive State where
  | stopped | starting | running | stopping
deriving DecidableEq, Repr

/-- where a thread is -/
inductive Pc where
  | idle
  /-- src/server.cpp:598-601, so many listeners have been started -/
  | starting (k : Nat)
  /-- src/server.cpp:612, about to return -/
  | started (acted : Bool)
  /-- src/server.cpp:638-641, so many listeners have been stopped -/
  | stopping (k : Nat)
  /-- src/server.cpp:661, acceptor_loop.sync() and return -/
  | stopped (acted : Bool)
deriving DecidableEq, Repr

inductive Ev where
  /-- start() which acts has begun -/
  | began (t : Nat)
  /-- start() which acts has done its work -/
  | up (t : Nat)
  /-- start() has returned, and whether it acted -/
  | startRet (t : Nat) (acted : Bool)
  /-- stop() which acts has begun -/
  | halting (t : Nat)
  /-- stop() which acts has done its work -/
  | halted (t : Nat)
  /-- stop() has returned, and whether it acted -/
  | stopRet (t : Nat) (acted : Bool)
  /-- a client has connected -/
  | opened (c : Nat)
  /-- a connection has been closed, by either side -/
  | closed (c : Nat)
  /-- a beacon is sent -/
  | beacon
  /-- a search which came to this listener is looked at -/
  | searched (i : Nat)
deriving DecidableEq, Repr

/-- src/serverimpl.h (`Server::Pvt`) -/
structure St where
  state : State := .stopped
  /-- `interfaces[*].listener` is enabled -/
  accepting : Bool := false
  /-- `listeners[i]->active` -/
  listening : Nat → Bool := fun _ => false
  /-- `beaconTimer` is pending -/
  beaconing : Bool := false
  /-- `connections` -/
  conns : List Nat := []
  pc : Nat → Pc := fun _ => .idle

inductive Op where
  /-- start() is called -/
  | start (t : Nat)
  /-- stop() is called -/
  | stop (t : Nat)
  /-- a thread inside of either goes on -/
  | go (t : Nat)
  /-- a client connects -/
  | connect (c : Nat)
  /-- a client disconnects -/
  | disconnect (c : Nat)
  /-- the beacon timer expires -/
  | timer
  /-- a search arrives for this listener -/
  | search (i : Nat)
deriving DecidableEq, Repr

def St.setPc (s : St) (t : Nat) (p : Pc) : St := { s with pc := fun i => if i = t then p else s.pc i }

/-- src/udp_collector.cpp:646-658 `UDPListener::start` -/
def St.listen (s : St) (i : Nat) (on : Bool) : St := { s with listening := fun j => if j = i then on else s.listening j }

/-- src/server.cpp:571-596 -/
def start (s : St) (t : Nat) : List Ev × St :=
  if s.pc t ≠ .idle then ([], s)
  else if s.state ≠ .stopped then ([], s.setPc t (.started false))
  else ([.began t], St.setPc { s with state := .starting, accepting := true } t (.starting 0))

/-- src/server.cpp:617-636 -/
def stop (s : St) (t : Nat) : List Ev × St :=
  if s.pc t ≠ .idle then ([], s)
  else if s.state ≠ .running then ([], s.setPc t (.stopped false))
  else ([.halting t], St.setPc { s with state := .stopping, beaconing := false } t (.stopping 0))

/-- src/server.cpp:604-612: first beacon at once -/
def startEnd (s : St) (t : Nat) : List Ev × St :=
  ([.up t], St.setPc { s with beaconing := true, state := .running } t (.started true))

/-- src/server.cpp:643-661: no more connections, and close those which are -/
def stopEnd (s : St) (t : Nat) : List Ev × St :=
  (s.conns.map .closed ++ [.halted t], St.setPc { s with accepting := false, conns := [], state := .stopped } t (.stopped true))

/-- a thread goes on -/
def go (n : Nat) (s : St) (t : Nat) : List Ev × St :=
  match s.pc t with
  | .idle => ([], s)
  | .starting k => if k < n then ([], St.setPc (s.listen k true) t (.starting (k + 1))) else startEnd s t
  | .started acted => ([.startRet t acted], s.setPc t .idle)
  | .stopping k => if k < n then ([], St.setPc (s.listen k false) t (.stopping (k + 1))) else stopEnd s t
  | .stopped acted => ([.stopRet t acted], s.setPc t .idle)

def step (n : Nat) (s : St) : Op → List Ev × St
  | .start t => start s t
  | .stop t => stop s t
  | .go t => go n s t
  /- src/serverconn.cpp:519-529 `ServIface::onConnS` -/
  | .connect c => if s.accepting = true ∧ c ∉ s.conns then ([.opened c], { s with conns := s.conns ++ [c] }) else ([], s)
  /- src/serverconn.cpp:346-362 `ServerConn::cleanup` -/
  | .disconnect c => if c ∈ s.conns then ([.closed c], { s with conns := s.conns.filter fun x => x ≠ c }) else ([], s)
  /- src/server.cpp:754-812 `Server::Pvt::doBeacons`, which starts the timer again -/
  | .timer => if s.beaconing = true then ([.beacon], s) else ([], s)
  /- src/server.cpp:666 `Server::Pvt::onSearch` -/
  | .search i => if s.listening i = true then ([.searched i], s) else ([], s)

def run (n : Nat) : List Op → St → List Ev × St
  | [], s => ([], s)
  | o :: l, s =>
    let r := step n s o
    let r' := run n l r.2
    (r.1 ++ r'.1, r'.2)

end Pvxs.Life
