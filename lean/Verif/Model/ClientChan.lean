import Verif.Model.Res
/-
The channels of a client and its connections to servers: src/clientconn.cpp, src/client.cpp:114-227,345-394,648-704,822-917,1283-1293 and src/conn.cpp:55-160,225-230.

Everything below runs on the client's one worker thread, one event at a time.  A channel is referred to by its client ID, a connection by a number, the next one each
time; an address is a number.  Simplifications: the content of messages other than the identifiers is left out (C14, C15), as are the search itself (C42), the cache
of channels (C44), credentials (src/clientconn.cpp:207-296) and the callbacks of the application (C33..C38); an operation which ends when the connection is lost is as one which is
cancelled; the order in which the channels of one connection are disconnected is that of their IDs, that in which they are created is another than that of their IDs; a search reply names one channel, several in one message
are as several replies; that an error during a reply from a name server also closes the connection to that name server is left out; an evbuffer never fails.
-/
namespace Pvxs.ClientChan

/-- src/clientimpl.h:189-194 `Channel::state` -/
inductive St where
  | searching | connecting | creating | active
deriving DecidableEq, Repr

/-- src/conn.h:46-51 `ConnBase::state` -/
inductive Phase where
  | holdoff | connecting | connected | disconnected
deriving DecidableEq, Repr

/-- src/clientimpl.h:181-226 `Channel` -/
structure Chan where
  /-- the object exists -/
  alive : Bool := false
  st : St := .searching
  conn : Option Nat := none
  sid : Nat := 0
  /-- forcedServer -/
  forced : Option Nat := none
  /-- operations to be started when the channel is active -/
  waiting : List Nat := []
  /-- opByIOID, operation and ID -/
  ops : List (Nat × Nat) := []
deriving DecidableEq, Repr

/-- src/clientimpl.h:84-108 `Connection`, with src/conn.h:16-66 -/
structure Conn where
  /-- the object exists -/
  alive : Bool := false
  addr : Nat := 0
  ph : Phase := .holdoff
  /-- there is a socket -/
  bev : Bool := false
  /-- the timer of the hold-off runs -/
  timer : Bool := false
  ready : Bool := false
  pending : List Nat := []
  creating : List Nat := []
  /-- chanBySID -/
  active : List (Nat × Nat) := []
  /-- opByIOID, ID and operation -/
  ops : List (Nat × Nat) := []
  nextIoid : Nat := 0
deriving DecidableEq, Repr

/-- what is sent -/
inductive Msg where
  /-- CREATE_CHANNEL for a client channel ID -/
  | create (conn cid : Nat)
  /-- DESTROY_CHANNEL -/
  | destroy (conn sid cid : Nat)
  /-- INIT of an operation, on the server's channel ID -/
  | init (conn sid ioid op : Nat)
deriving DecidableEq, Repr

structure Ctx where
  running : Bool := true
  chans : Nat → Chan := fun _ => {}
  nchan : Nat := 0
  conns : Nat → Conn := fun _ => {}
  nconn : Nat := 0
  /-- connByAddr -/
  byAddr : List (Nat × Nat) := []
  /-- in a bucket of the search ring, or in the initial one -/
  ring : List Nat := []
  /-- nameServers -/
  ns : List (Nat × Option Nat) := []
  /-- an assert() failed, or a null pointer was used -/
  crashed : Bool := false
  sent : List Msg := []

def Ctx.setChan (s : Ctx) (c : Nat) (f : Chan → Chan) : Ctx := { s with chans := fun i => if i = c then f (s.chans c) else s.chans i }

def Ctx.setConn (s : Ctx) (k : Nat) (f : Conn → Conn) : Ctx := { s with conns := fun i => if i = k then f (s.conns k) else s.conns i }

def Ctx.send (s : Ctx) (m : Msg) : Ctx := { s with sent := s.sent ++ [m] }

def eraseKey (x : Nat) (l : List (Nat × Nat)) : List (Nat × Nat) := l.filter fun p => p.1 ≠ x

/-- `std::map::operator[]` with assignment -/
def insertKey (x y : Nat) (l : List (Nat × Nat)) : List (Nat × Nat) := (x, y) :: eraseKey x l

def eraseCid (c : Nat) (l : List Nat) : List Nat := l.filter fun i => i ≠ c

/-- the entry of `connByAddr`, when the object still exists -/
def Ctx.known (s : Ctx) (a : Nat) : Option Nat := (s.byAddr.find? fun p => p.1 = a ∧ (s.conns p.2).alive).map (·.2)

/-- src/clientconn.cpp:19-39,61-80: a new connection.  `reconn` begins with a hold-off of two seconds. -/
def newConn (a : Nat) (reconn : Bool) : Conn :=
  if reconn then { alive := true, addr := a, ph := .holdoff, timer := true }
  else { alive := true, addr := a, ph := .connecting, bev := true }

/-- src/clientconn.cpp:47-59 `Connection::build`, when the client is not closed.  `fails`: bufferevent_socket_connect() returns an error at once; the constructor throws. -/
def build (a : Nat) (reconn fails : Bool) (s : Ctx) : Option Nat × Ctx := match s.known a with
  | some k => (some k, s)
  | none =>
    if reconn = false ∧ fails then (none, s)
    else (some s.nconn, { s with conns := fun i => if i = s.nconn then newConn a reconn else s.conns i,
                                 nconn := s.nconn + 1, byAddr := insertKey a s.nconn s.byAddr })

/-- src/clientconn.cpp:91-112, one channel of the loop -/
def createOne (k : Nat) (s : Ctx) (c : Nat) : Ctx :=
  if (s.chans c).alive ∧ (s.chans c).st = .connecting then
    ((s.send (.create k c)).setConn k fun x => { x with creating := c :: eraseCid c x.creating }).setChan c fun x => { x with st := .creating }
  else s

/-- src/clientconn.cpp:82-113 `createChannels` -/
def createChannels (k : Nat) (s : Ctx) : Ctx :=
  if (s.conns k).ready = false then s
  else (s.conns k).pending.foldl (createOne k) (s.setConn k fun x => { x with pending := [] })

/-- a channel waits for a connection: src/client.cpp:221-224,385-388,905-909 -/
def attach (c k : Nat) (s : Ctx) : Ctx :=
  createChannels k ((s.setChan c fun x => { x with conn := some k, st := .connecting }).setConn k fun x => { x with pending := c :: eraseCid c x.pending })

/-- src/client.cpp:153,187-188,197-203: the channel, and its operations, wait again -/
def loose (x : Chan) : Chan := { x with conn := none, st := .searching, sid := 0xdeadbeef, ops := [], waiting := x.waiting ++ x.ops.map (·.1) }

/-- src/client.cpp:156-173,197-203: a connection forgets a channel in this state, and its operations -/
def forget (c : Nat) (ch : Chan) (x : Conn) : Conn :=
  { x with pending := if ch.st = .connecting then eraseCid c x.pending else x.pending,
           creating := if ch.st = .creating then eraseCid c x.creating else x.creating,
           active := if ch.st = .active then eraseKey ch.sid x.active else x.active,
           ops := x.ops.filter fun p => p.1 ∉ ch.ops.map (·.2) }

/-- src/client.cpp:175-185: the server is told, while there is a socket -/
def tellGone (k c : Nat) (ch : Chan) (s : Ctx) : Ctx :=
  if (ch.st = .creating ∨ ch.st = .active) ∧ (s.conns k).bev then s.send (.destroy k ch.sid c) else s

/-- src/client.cpp:150-203: a channel leaves its connection, operations wait again.  A state other than `Searching` without a connection would use a null pointer. -/
def detach (c : Nat) (s : Ctx) : Ctx := match (s.chans c).conn with
  | none => if (s.chans c).st = .searching ∧ (s.chans c).ops = [] then s.setChan c loose else { s.setChan c loose with crashed := true }
  | some k => ((tellGone k c (s.chans c) s).setChan c loose).setConn k (forget c (s.chans c))

/-- src/client.cpp:150-227 `Channel::disconnect`, of a channel which remains -/
def disconnect (s : Ctx) (c : Nat) : Ctx :=
  let s' := detach c s
  match (s'.chans c).forced with
  | none => { s' with ring := s'.ring ++ [c] }
  | some a =>
    if s'.running then match build a true false s' with
      | (some k, s'') => attach c k s''
      | (none, s'') => s''
    else s'

/-- the channels of a connection, src/clientconn.cpp:181-194 -/
def ofConn (k : Nat) (s : Ctx) : List Nat := (List.range s.nchan).filter fun c => (s.chans c).alive ∧
  (c ∈ (s.conns k).pending ∨ c ∈ (s.conns k).creating ∨ (s.conns k).active.any fun p => p.2 = c)

/-- src/clientconn.cpp:199-204 -/
def cleared (k : Nat) (s : Ctx) : Ctx :=
  let s := if (s.conns k).ops = [] then s else { s with crashed := true }
  s.setConn k fun x => { x with pending := [], active := [] }

/-- src/clientconn.cpp:168-179 -/
def shut (k : Nat) (s : Ctx) : Ctx :=
  { s.setConn k (fun x => { x with ready := false, bev := false, timer := false }) with byAddr := eraseKey (s.conns k).addr s.byAddr }

/-- src/clientconn.cpp:168-205 `Connection::cleanup` -/
def cleanup (k : Nat) (s : Ctx) : Ctx := cleared k ((ofConn k (shut k s)).foldl disconnect (shut k s))

/-- something refers to the connection -/
def used (s : Ctx) (k : Nat) : Bool :=
  (List.range s.nchan).any (fun c => (s.chans c).alive && (s.chans c).conn == some k) || s.ns.any (fun p => p.2 == some k)

/-- src/clientconn.cpp:41-45 `~Connection`, when nothing refers to it any more -/
def reapOne (s : Ctx) (k : Nat) : Ctx :=
  if (s.conns k).alive ∧ used s k = false then (cleanup k s).setConn k fun x => { x with alive := false } else s

/-- the objects nothing refers to any more, at the end of an event -/
def reap (s : Ctx) : Ctx := (List.range s.nconn).foldl reapOne s

inductive Ev where
  /-- `Channel::build` for a new name, with the address given by server(), if any.  `fails`: see `build`. -/
  | newChan (forced : Option Nat) (fails : Bool)
  /-- a reply to a search for this channel, with the address of a server -/
  | reply (c a : Nat) (fails : Bool)
  /-- the socket is connected -/
  | connected (k : Nat)
  /-- CONNECTION_VALIDATED -/
  | validated (k : Nat)
  /-- reply to CREATE_CHANNEL -/
  | created (k c sid : Nat) (ok : Bool)
  /-- DESTROY_CHANNEL by the server -/
  | destroyed (k sid : Nat)
  /-- end of the connection: closed by the server, an error, or after a timeout -/
  | lost (k : Nat)
  /-- the client closes the connection: a message could not be decoded, or is not allowed -/
  | violation (k : Nat)
  /-- the timer of the hold-off expires -/
  | retry (k : Nat) (fails : Bool)
  /-- an operation begins on a channel -/
  | start (c op : Nat)
  /-- an operation on a channel is complete, or cancelled -/
  | finish (c op : Nat)
  /-- `Context::cacheClear` with `Disconnect`: src/client.cpp:1327-1329 -/
  | kick (c : Nat)
  /-- the last reference to a channel is dropped: src/client.cpp:114-117 `~Channel` -/
  | drop (c : Nat)
  /-- a search: the entries of channels which no longer search are removed, src/client.cpp:1079-1082; the others stay, C42 -/
  | tick
  /-- connections to name servers are started, or checked each 10 seconds -/
  | nsCheck (fails : Bool)
  /-- `Context::close` -/
  | close
deriving DecidableEq, Repr

/-- a connection which may receive events of its socket -/
def open_ (s : Ctx) (k : Nat) : Bool := (s.conns k).alive && (s.conns k).bev

/-- src/client.cpp:345-394 `Channel::build` for a name, and server, not in the cache -/
def newChan (forced : Option Nat) (fails : Bool) (s : Ctx) : Ctx :=
  if s.running = false then s
  else
    let c := s.nchan
    let s := { (s.setChan c fun _ => { alive := true, forced := forced }) with nchan := c + 1 }
    match forced with
    | none => { s with ring := s.ring ++ [c] }
    | some a => match build a false fails s with
      | (some k, s) => attach c k s
      | (none, s) => s

/-- src/client.cpp:882-917, one channel of a reply -/
def reply (c a : Nat) (fails : Bool) (s : Ctx) : Ctx :=
  if s.running ∧ (s.chans c).alive ∧ (s.chans c).st = .searching then match build a false fails s with
    | (some k, s) => attach c k s
    | (none, s) => s
  else s

/-- src/client.cpp:126-145 `createOperations`, one operation.  The next ID which is not in use. -/
def startOne (c k : Nat) (s : Ctx) (op : Nat) : Ctx :=
  let ioid := (s.conns k).nextIoid
  ((s.send (.init k (s.chans c).sid ioid op)).setConn k fun x => { x with ops := x.ops ++ [(ioid, op)], nextIoid := ioid + 1 }).setChan c fun x =>
    { x with ops := x.ops ++ [(op, ioid)] }

/-- src/client.cpp:119-146 `createOperations` -/
def createOperations (c : Nat) (s : Ctx) : Ctx :=
  if (s.chans c).st ≠ .active then s
  else match (s.chans c).conn with
    | none => { s with crashed := true }
    | some k => (s.chans c).waiting.foldl (startOne c k) (s.setChan c fun x => { x with waiting := [] })

/-- src/clientconn.cpp:329-403 `handle_CREATE_CHANNEL` -/
def created (k c sid : Nat) (ok : Bool) (s : Ctx) : Ctx :=
  if open_ s k = false then s
  else if c ∉ (s.conns k).creating ∨ (s.chans c).alive = false then
    let s := s.setConn k fun x => { x with creating := eraseCid c x.creating }
    if ok then s.send (.destroy k sid c) else s
  else
    let s := s.setConn k fun x => { x with creating := eraseCid c x.creating }
    if ok then
      createOperations c ((s.setChan c fun x => { x with st := .active, sid := sid }).setConn k fun x => { x with active := insertKey sid c x.active })
    else { (s.setChan c fun x => { x with st := .searching }) with ring := s.ring ++ [c] }

/-- src/clientconn.cpp:405-441 `handle_DESTROY_CHANNEL` -/
def destroyed (k sid : Nat) (s : Ctx) : Ctx :=
  if open_ s k = false then s
  else match (s.conns k).active.find? fun p => p.1 = sid with
    | some (_, c) =>
      if (s.chans c).alive then disconnect (s.setConn k fun x => { x with active := eraseKey sid x.active }) c else s
    | none => s

/-- src/clientconn.cpp:472-482 `tickEcho` during the hold-off -/
def retry (k : Nat) (fails : Bool) (s : Ctx) : Ctx :=
  if (s.conns k).alive ∧ (s.conns k).ph = .holdoff ∧ (s.conns k).timer then
    s.setConn k fun x => if fails then { x with timer := false } else { x with timer := false, ph := .connecting, bev := true }
  else s

/-- src/client.cpp:1286: hold-off, connecting or connected -/
def nsKept (s : Ctx) : Option Nat → Bool
  | some k => (s.conns k).ph ≠ .disconnected
  | none => false

/-- src/client.cpp:1283-1293 `onNSCheck`, the first time also src/client.cpp:648-666 `startNS`.  One which cannot be built ends the loop. -/
def nsLoop (fails : Bool) : List (Nat × Option Nat) → Ctx → List (Nat × Option Nat) × Ctx
  | [], s => ([], s)
  | (a, o) :: l, s =>
    if nsKept s o then
      let r := nsLoop fails l s
      ((a, o) :: r.1, r.2)
    else match build a false fails s with
      | (some k, s) =>
        let r := nsLoop fails l s
        ((a, some k) :: r.1, r.2)
      | (none, s) => ((a, o) :: l, s)

/-- src/client.cpp:668-704 `ContextImpl::close` -/
def close (s : Ctx) : Ctx :=
  if s.running = false then s
  else
    let ks := (s.byAddr.map (·.2)).filter fun k => (s.conns k).alive
    let s := ks.foldl (fun s k => cleanup k s) { s with running := false, byAddr := [] }
    { s with ns := [] }

def stepRaw (s : Ctx) : Ev → Ctx
  | .newChan f e => newChan f e s
  | .reply c a e => reply c a e s
  | .connected k => if open_ s k then s.setConn k fun x => { x with ph := .connected } else s
  | .validated k => if open_ s k then createChannels k (s.setConn k fun x => { x with ready := true }) else s
  | .created k c sid ok => created k c sid ok s
  | .destroyed k sid => destroyed k sid s
  | .lost k => if open_ s k then cleanup k (s.setConn k fun x => { x with ph := .disconnected }) else s
  | .violation k => if open_ s k then cleanup k s else s
  | .retry k e => retry k e s
  | .start c op => if (s.chans c).alive then createOperations c (s.setChan c fun x => { x with waiting := x.waiting ++ [op] }) else s
  | .finish c op =>
    if (s.chans c).alive then
      let s' := s.setChan c fun x => { x with waiting := x.waiting.filter fun o => o ≠ op, ops := x.ops.filter fun p => p.1 ≠ op }
      match (s.chans c).conn with
      | some k => s'.setConn k fun x => { x with ops := x.ops.filter fun p => (op, p.1) ∉ (s.chans c).ops }
      | none => s'
    else s
  | .kick c => if (s.chans c).alive then disconnect s c else s
  | .drop c => if (s.chans c).alive then (detach c s).setChan c fun x => { x with alive := false, waiting := [] } else s
  | .tick => { s with ring := s.ring.filter fun c => (s.chans c).alive ∧ (s.chans c).st = .searching }
  | .nsCheck e => if s.running then let r := nsLoop e s.ns s; { r.2 with ns := r.1 } else s
  | .close => close s

/-- one event -/
def step (s : Ctx) (e : Ev) : Ctx := reap (stepRaw s e)

def run (es : List Ev) (s : Ctx) : Ctx := es.foldl step s

end Pvxs.ClientChan
