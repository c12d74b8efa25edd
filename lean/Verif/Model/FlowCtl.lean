import Verif.Model.Wire
/-
A client which reads slowly: what waits to be sent on one connection of a server.
src/serverconn.cpp:57-80,363-405 (`bevRead`, `bevWrite`), src/servermon.cpp:74-107,111-215,246-290 (`maybeReply`, `doReply`, `doPost`), src/conn.cpp:139-300.

All but the posting of updates runs on one thread.  libevent: `wrote k` is a write of k octets to the socket; if no more than the low-water mark is left
then the write callback is scheduled (`wcb`, callbacks are deferred); while EV_READ is not enabled nothing is read.

Simplifications: subscriptions are numbered, started, not pipelined and not finished (Model/ServerMon.lean has these); an update is a number and
`size` says how many octets its message has; two updates which are merged are shown as the newer one; a batch of requests is the sizes of the
replies which are made at once; the connection is not closed.
-/
namespace Pvxs.FlowCtl

structure Cfg where
  /-- `tcp_tx_limit` -/
  limit : Nat
  /-- `MonitorOp::limit` of each subscription -/
  room : Nat → Nat
  /-- length of the message of an update -/
  size : Nat → Nat

/-- what is dispatched to the loop -/
inductive Job where
  /-- src/servermon.cpp:83-97 -/
  | fresh (i : Nat)
  /-- src/servermon.cpp:207-209 -/
  | again (i : Nat)
deriving DecidableEq, Repr

structure St where
  /-- octets in the output buffer -/
  tx : Nat := 0
  /-- EV_READ is enabled -/
  reading : Bool := true
  /-- low-water mark of EV_WRITE -/
  low : Nat := 0
  wcb : Bool := false
  backlog : List Nat := []
  jobs : List Job := []
  queue : Nat → List Nat := fun _ => []
  scheduled : Nat → Bool := fun _ => false
  /-- messages of subscriptions put in the output buffer -/
  sent : List (Nat × Nat) := []

def upd {α : Type} (f : Nat → α) (i : Nat) (v : α) : Nat → α := fun j => if j = i then v else f j

/-- src/servermon.cpp:111-215 `doReply` -/
def doReply (c : Cfg) (i : Nat) (s : St) : St :=
  match s.queue i with
  | [] => { s with scheduled := upd s.scheduled i false }
  | u :: q =>
    let s1 := { s with scheduled := upd s.scheduled i false, queue := upd s.queue i q, tx := s.tx + c.size u, sent := s.sent ++ [(i, u)] }
    if q.isEmpty then s1
    else { s1 with jobs := s1.jobs ++ [.again i], scheduled := upd s1.scheduled i true }

/-- src/servermon.cpp:246-290 `doPost` of a change of a selected field, not forced, and :74-107 `maybeReply` -/
def doPost (c : Cfg) (i u : Nat) (s : St) : St :=
  let q := if (s.queue i).length < c.room i then s.queue i ++ [u] else (s.queue i).dropLast ++ [u]
  let s1 := { s with queue := upd s.queue i q }
  if s1.scheduled i then s1
  else { s1 with jobs := s1.jobs ++ [.fresh i], scheduled := upd s1.scheduled i true }

/-- the loop runs what was dispatched first -/
def doJob (c : Cfg) (s : St) : St :=
  match s.jobs with
  | [] => s
  | .again i :: js => doReply c i { s with jobs := js }
  | .fresh i :: js =>
    if s.reading then doReply c i { s with jobs := js }             -- servermon.cpp:91-92
    else { s with jobs := js, backlog := s.backlog ++ [i] }         -- :95

/-- src/serverconn.cpp:363-378 `bevRead` of requests which are answered by messages of these sizes -/
def bevRead (c : Cfg) (replies : List Nat) (s : St) : St :=
  if s.reading then
    let s1 := { s with tx := s.tx + replies.sum }
    if s1.tx ≥ c.limit then { s1 with reading := false, low := c.limit / 2 } else s1
  else s

/-- src/serverconn.cpp:388-393: entries of the backlog, in order, until the buffer is full -/
def backlogLoop (c : Cfg) : List Nat → St → St
  | [], s => { s with backlog := [] }
  | i :: is, s => if s.tx < c.limit then backlogLoop c is (doReply c i s) else { s with backlog := i :: is }

/-- src/serverconn.cpp:380-402 `bevWrite` -/
def bevWrite (c : Cfg) (s : St) : St :=
  if s.wcb then
    let s1 := backlogLoop c s.backlog { s with wcb := false }
    if s1.tx < c.limit then { s1 with reading := true, low := 0 } else s1
  else s

/-- libevent bufferevent_sock.c `bufferevent_writecb` -/
def wrote (k : Nat) (s : St) : St :=
  if 1 ≤ k ∧ k ≤ s.tx then
    let s1 := { s with tx := s.tx - k }
    if s1.tx ≤ s1.low then { s1 with wcb := true } else s1
  else s

inductive Op where
  | recv (replies : List Nat)
  | post (i u : Nat)
  | job
  | wrote (k : Nat)
  | callback
deriving DecidableEq, Repr

def step (c : Cfg) (s : St) : Op → St
  | .recv r => bevRead c r s
  | .post i u => doPost c i u s
  | .job => doJob c s
  | .wrote k => wrote k s
  | .callback => bevWrite c s

def run (c : Cfg) (s : St) (os : List Op) : St := os.foldl (step c) s

end Pvxs.FlowCtl
