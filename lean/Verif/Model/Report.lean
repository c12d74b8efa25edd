/-
Byte counters of a connection and its channels: Server::report() and Context::report().

One TCP connection of a server, or of a client, where it may be replaced by another one for the same channels.  Messages are known by their size.

Not modelled: the messages themselves, counters beyond the range of size_t, what else is in a report.
-/
namespace Pvxs.Report

/-- src/serverconn.h:93 and src/clientimpl.h:210 -/
structure Chan where
  id : Nat
  /-- in `chanBySID` of the connection.  A server puts it there at once (src/serverchan.cpp:329), a client when it is told (src/clientconn.cpp:389). -/
  listed : Bool
  tx : Nat := 0
  rx : Nat := 0
deriving DecidableEq, Repr

/-- src/conn.h:43 -/
structure Conn where
  tx : Nat := 0
  rx : Nat := 0
  /-- the length of `segBuf` -/
  seg : Nat := 0
  chans : List Chan := []
deriving DecidableEq, Repr

/-- change the channel `c` -/
def bump (c : Nat) (f : Chan → Chan) : List Chan → List Chan
  | [] => []
  | x :: l => if x.id = c then f x :: l else x :: bump c f l

/-- as a part of a report: src/pvxs/netcommon.h:43-68 -/
structure Told where
  tx : Nat
  rx : Nat
  chans : List (Nat × Nat × Nat)
deriving DecidableEq, Repr

/-- src/server.cpp:244-268 and src/client.cpp:468-495 -/
def told (s : Conn) : Told :=
  { tx := s.tx, rx := s.rx, chans := (s.chans.filter (·.listed)).map fun x => (x.id, x.tx, x.rx) }

/-- src/server.cpp:255-271 and src/client.cpp:479-498 -/
def zero (s : Conn) : Conn :=
  { s with tx := 0, rx := 0, chans := s.chans.map fun x => if x.listed then { x with tx := 0, rx := 0 } else x }

inductive Ev where
  /-- a message with a body of `n` bytes is sent, for a channel or for none: src/conn.cpp:89-101, and where its result is added to the channel -/
  | send (n : Nat) (c : Option Nat)
  /-- a control message is received: src/conn.cpp:189-193 -/
  | control
  /-- A segment with `n` bytes is received; `last`: the message is complete, and then it is one for `c`.  Messages which are not segmented are a last segment.
  src/conn.cpp:214-284, and e.g. src/servermon.cpp:456, 491 -/
  | recv (n : Nat) (last : Bool) (c : Option Nat)
  /-- a channel of a server is created -/
  | opened (c : Nat)
  /-- a channel of a client is asked for -/
  | asked (c : Nat)
  /-- and created -/
  | created (c : Nat)
  /-- a channel is closed: src/serverchan.cpp:156, 396 -/
  | closed (c : Nat)
  /-- The connection of a client is lost, there is a new one: src/client.cpp:150-226.  The channels keep their counters. -/
  | again
  | report (reset : Bool)
deriving DecidableEq, Repr

/-- src/conn.cpp:222: the sum is one of 32 bit numbers -/
def rxSize (n : Nat) : Nat := (8 + n) % 2 ^ 32

/-- a complete message is handled: `rxlen` -/
def handled (s : Conn) (c : Option Nat) : Conn := match c with
  | none => { s with seg := 0 }
  | some c => { s with seg := 0, chans := bump c (fun x => { x with rx := x.rx + (8 + s.seg) }) s.chans }

def step (s : Conn) : Ev → Conn
  | .send n none => { s with tx := s.tx + (8 + n) }
  | .send n (some c) => { s with tx := s.tx + (8 + n), chans := bump c (fun x => { x with tx := x.tx + (8 + n) }) s.chans }
  | .control => { s with rx := s.rx + 8 }
  | .recv n last c =>
    if last then handled { s with rx := s.rx + rxSize n, seg := s.seg + n } c else { s with rx := s.rx + rxSize n, seg := s.seg + n }
  | .opened c => { s with chans := s.chans ++ [{ id := c, listed := true }] }
  | .asked c => { s with chans := s.chans ++ [{ id := c, listed := false }] }
  | .created c => { s with chans := bump c (fun x => { x with listed := true }) s.chans }
  | .closed c => { s with chans := s.chans.filter (·.id ≠ c) }
  | .again => { tx := 0, rx := 0, seg := 0, chans := s.chans.map fun x => { x with listed := false } }
  | .report reset => if reset then zero s else s

def run (s : Conn) (es : List Ev) : Conn := es.foldl step s

end Pvxs.Report
