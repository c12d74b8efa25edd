import Verif.Model.Config
/-
How long a connection lasts: the inactivity timeout of both sides and the echo messages of the client.
src/clientconn.cpp:19-39, :62-79, :132-160, :472-498, src/serverconn.cpp:83-85, :143-158, src/conn.cpp:126-147, src/config.cpp:372-392.

Times are whole microseconds (src/utilpvt.h:255-262 cuts them to these).  What libevent does is a part of the model: a timer runs when it is
due, at most `late` afterwards; a timer with EV_PERSIST is due again one period after it was due, or after now if that is over; the read
timeout of a bufferevent which is enabled is due when nothing was received for that long, and the timeout of a connection attempt when there
was no answer for that long.  The network keeps the order of the messages of a connection.

Simplifications: a message is what one read finds; the server has accepted the connection before the client is told; both sides always read
(see C93 for a server which does not) and can always write, so that the write timeout is not modelled; nobody closes the connection for
another reason.
-/
namespace Pvxs.Alive
open Pvxs

/-- one second -/
def sec : Nat := 1000000

/-- src/config.cpp:372-392 `enforceTimeout()`, for what is not negative and finite (C46 is about the others); `inf` is where time_t ends -/
def enforce (inf t : Nat) : Nat := if t = 0 ∨ inf ≤ t then 40 * sec else if t < 2 * sec then 2 * sec else t

/-- src/clientconn.cpp:152-156: between two echo messages -/
def period (t : Nat) : Nat := max (1 * sec) (min (15 * sec) (t * 3 / 8))

/-- src/clientconn.cpp:32 -/
def holdoff : Nat := 2 * sec

/-- the timeouts in use on both sides, and how late timers may run -/
structure Conf where
  tc : Nat
  ts : Nat
  late : Nat

/-- a message on its way: when it was sent, and whether it is an echo message -/
structure Msg where
  sent : Nat
  echo : Bool

/-- the client's side: src/conn.h:50-56 -/
inductive Phase where
  | holdoff (due : Nat)
  | connecting (since : Nat)
  | connected
  | closed (at_ : Nat)

/-- the server's side -/
inductive Srv where
  | absent
  | open_
  | closed (at_ : Nat)

/-- both sides and the network between them; `rxC` and `rxS`: when the two last received something, or began to wait for it -/
structure State where
  now : Nat
  phase : Phase
  rxC : Nat
  nextEcho : Nat
  srv : Srv
  rxS : Nat
  toServer : List Msg
  toClient : List Msg

inductive Ev where
  | pass (t : Nat)
  | tick
  | accept
  | established
  | clientSends
  | serverSends
  | atServer
  | atClient
  | eofServer
  | eofClient
  | clientTimeout
  | serverTimeout
  deriving DecidableEq

/-- src/clientconn.cpp:30-39: a connection to a server to which there was one before waits first -/
def init (t : Nat) (reconn : Bool) : State :=
  ⟨t, if reconn then .holdoff (t + holdoff) else .connecting t, t, 0, .absent, t, [], []⟩

/-- no timer of the client is overdue at `t` -/
def clientDue (c : Conf) (s : State) (t : Nat) : Bool :=
  match s.phase with
  | .holdoff due => t ≤ due + c.late
  | .connecting since => t ≤ since + c.tc + c.late
  | .connected => t ≤ s.nextEcho + c.late && t ≤ s.rxC + c.tc + c.late
  | .closed _ => true

/-- nor one of the server: src/serverconn.cpp:84-85 -/
def serverDue (c : Conf) (s : State) (t : Nat) : Bool :=
  match s.srv with
  | .open_ => t ≤ s.rxS + c.ts + c.late
  | _ => true

/-- src/clientconn.cpp:472-498 `tickEcho()` -/
def tickEcho (c : Conf) (s : State) : Option State :=
  match s.phase with
  | .holdoff due => if due ≤ s.now then some { s with phase := .connecting s.now } else none
  | .connected =>
    if s.nextEcho ≤ s.now then
      some { s with
        toServer := s.toServer ++ [⟨s.now, true⟩]
        nextEcho := if s.nextEcho + period c.tc < s.now then s.now + period c.tc else s.nextEcho + period c.tc }
    else none
  | _ => none

/-- a message reaches the server, which answers an echo message by one: src/serverconn.cpp:143-158 `handle_ECHO()` -/
def serverReads (s : State) : Option State :=
  match s.srv, s.toServer with
  | .open_, m :: ms =>
    some { s with rxS := s.now, toServer := ms, toClient := if m.echo then s.toClient ++ [⟨s.now, true⟩] else s.toClient }
  | _, _ => none

/-- a message reaches the client; for an echo message nothing is to be done: src/conn.cpp:103-104 -/
def clientReads (s : State) : Option State :=
  match s.phase, s.toClient with
  | .connected, _ :: ms => some { s with rxC := s.now, toClient := ms }
  | _, _ => none

/-- src/clientconn.cpp:132-160 `bevEvent()`: the connection is made, the echo timer begins with its first period -/
def connected (c : Conf) (s : State) : Option State :=
  match s.phase, s.srv with
  | .connecting _, .open_ => some { s with phase := .connected, rxC := s.now, nextEcho := s.now + period c.tc }
  | _, _ => none

/-- the timeout of the client, of an attempt to connect or of a connection: src/clientconn.cpp:71-72, src/conn.cpp:126-147 -/
def clientGivesUp (c : Conf) (s : State) : Option State :=
  match s.phase with
  | .connecting since => if since + c.tc ≤ s.now then some { s with phase := .closed s.now } else none
  | .connected => if s.rxC + c.tc ≤ s.now then some { s with phase := .closed s.now } else none
  | _ => none

/-- and of the server -/
def serverGivesUp (c : Conf) (s : State) : Option State :=
  match s.srv with
  | .open_ => if s.rxS + c.ts ≤ s.now then some { s with srv := .closed s.now } else none
  | _ => none

/-- the end of what the client has sent: src/conn.cpp:127, :140-141 -/
def serverEof (s : State) : Option State :=
  match s.srv, s.phase, s.toServer with
  | .open_, .closed _, [] => some { s with srv := .closed s.now }
  | _, _, _ => none

/-- the end of what the server has sent -/
def clientEof (s : State) : Option State :=
  match s.phase, s.srv, s.toClient with
  | .connected, .closed _, [] => some { s with phase := .closed s.now }
  | _, _, _ => none

/-- one event; `none` if it can not happen -/
def step (c : Conf) (s : State) : Ev → Option State
  | .pass t => if s.now ≤ t ∧ clientDue c s t ∧ serverDue c s t then some { s with now := t } else none
  | .tick => tickEcho c s
  | .accept =>
    match s.phase, s.srv with
    | .connecting _, .absent => some { s with srv := .open_, rxS := s.now, toClient := s.toClient ++ [⟨s.now, false⟩] }
    | _, _ => none
  | .established => connected c s
  | .clientSends =>
    match s.phase with
    | .connected => some { s with toServer := s.toServer ++ [⟨s.now, false⟩] }
    | _ => none
  | .serverSends =>
    match s.srv with
    | .open_ => some { s with toClient := s.toClient ++ [⟨s.now, false⟩] }
    | _ => none
  | .atServer => serverReads s
  | .atClient => clientReads s
  | .eofServer => serverEof s
  | .eofClient => clientEof s
  | .clientTimeout => clientGivesUp c s
  | .serverTimeout => serverGivesUp c s

/-- a sequence of events -/
def run (c : Conf) (s : State) : List Ev → Option State
  | [] => some s
  | e :: es => match step c s e with
    | some s' => run c s' es
    | none => none

end Pvxs.Alive
