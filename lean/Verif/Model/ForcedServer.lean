/-
Channels for which the application gives the server, with server() of a builder, next to others: Channel::build() and Channel::disconnect(), src/client.cpp:147-226
and src/client.cpp:345-395, Connection::createChannels(), src/clientconn.cpp:82-113, handle_CREATE_CHANNEL(), src/clientconn.cpp:365-395.

Channels, names and servers are natural numbers.

Simplifications: the text given to server() is the server.  Channels are not removed.  The connections are not modelled: when one is ready, and when it is lost, are
steps for each of its channels.  What makes a reply to a search usable is in Verif.Model.ReplyRx.
-/
namespace Pvxs.ForcedServer

/-- src/clientimpl.h:181-186 -/
inductive Phase where
  | searching
  | connecting (server : Nat)
  | creating (server : Nat)
  | active (server : Nat)
deriving DecidableEq, Repr

structure Chan where
  name : Nat
  /-- src/clientimpl.h:194 `forcedServer` -/
  forced : Option Nat
  phase : Phase
  /-- in one of the buckets of searches -/
  bucket : Bool
deriving DecidableEq, Repr

structure St where
  chans : Nat → Option Chan := fun _ => none
  next : Nat := 0
  running : Bool := true
  /-- the CREATE_CHANNEL messages sent: channel and server -/
  created : List (Nat × Nat) := []
  /-- the channels which were searched for -/
  searched : List Nat := []

inductive Op where
  | build (name : Nat) (server : Option Nat)
  /-- a usable reply of a server names the channel -/
  | reply (cid server : Nat)
  /-- the connection on which the channel waits is ready -/
  | ready (cid : Nat)
  /-- the server replies to CREATE_CHANNEL -/
  | accepted (cid : Nat)
  | refused (cid : Nat)
  /-- the connection is lost, or the server sends CMD_DESTROY_CHANNEL -/
  | lost (cid : Nat)
  /-- searches are sent -/
  | tick
  | close
deriving DecidableEq, Repr

def put (s : St) (cid : Nat) (c : Chan) : St := { s with chans := fun x => if x = cid then some c else s.chans x }

/-- src/client.cpp:359-363: `chanByName` has this name and server -/
def has (s : St) (name : Nat) (server : Option Nat) : Bool :=
  (List.range s.next).any fun i => (s.chans i).any fun c => c.name == name && c.forced == server

/-- src/client.cpp:345-395 -/
def build (s : St) (name : Nat) (server : Option Nat) : St :=
  if !s.running || has s name server then s
  else
    { put s s.next (match server with
        | none => ⟨name, none, .searching, true⟩
        | some f => ⟨name, some f, .connecting f, false⟩) with next := s.next + 1 }

/-- src/client.cpp:900-908 -/
def reply (s : St) (cid server : Nat) : St :=
  match s.chans cid with
  | none => s
  | some c => if s.running && c.phase == .searching then put s cid { c with phase := .connecting server } else s

/-- src/clientconn.cpp:91-112 -/
def ready (s : St) (cid : Nat) : St :=
  match s.chans cid with
  | none => s
  | some c =>
    match c.phase with
    | .connecting e => { put s cid { c with phase := .creating e } with created := s.created ++ [(cid, e)] }
    | _ => s

/-- src/clientconn.cpp:386-388 -/
def accepted (s : St) (cid : Nat) : St :=
  match s.chans cid with
  | none => s
  | some c =>
    match c.phase with
    | .creating e => put s cid { c with phase := .active e }
    | _ => s

/-- src/clientconn.cpp:376-383: also when the server was given by the application -/
def refused (s : St) (cid : Nat) : St :=
  match s.chans cid with
  | none => s
  | some c =>
    match c.phase with
    | .creating _ => put s cid { c with phase := .searching, bucket := true }
    | _ => s

/-- src/client.cpp:149-226 `Channel::disconnect` -/
def lost (s : St) (cid : Nat) : St :=
  match s.chans cid with
  | none => s
  | some c =>
    if c.phase == .searching then s
    else
      match c.forced with
      | none => put s cid { c with phase := .searching, bucket := true }
      | some f => put s cid { c with phase := if s.running then .connecting f else .searching }

/-- src/client.cpp:1075-1115: those in the bucket which still search, the others are taken out -/
def tick (s : St) : St :=
  if s.running then
    { s with
      searched := s.searched ++ (List.range s.next).filter fun i => (s.chans i).any fun c => c.bucket && c.phase == .searching
      chans := fun x => (s.chans x).map fun c => { c with bucket := c.bucket && c.phase == .searching } }
  else s

def step (s : St) : Op → St
  | .build name server => build s name server
  | .reply cid server => reply s cid server
  | .ready cid => ready s cid
  | .accepted cid => accepted s cid
  | .refused cid => refused s cid
  | .lost cid => lost s cid
  | .tick => tick s
  | .close => { s with running := false }

def run (l : List Op) : St := l.foldl step {}

end Pvxs.ForcedServer
