import Verif.Model.ServerConn
/-
Subscriptions on the server: src/servermon.cpp

A Value which is passed to post() is a handle.  The storage behind it is shared by the application, by every queue into which
the same Value was posted, and is modified by the squashing of updates.  Therefore the storage is explicit here (`heap`), and
a queue is a list of references to it.  The content of an update is, for each leaf field, the new value if it is marked.
Value::assign() of the same type overwrites the marked fields and marks them (C15, C17).
-/
namespace Pvxs.Mon
open Pvxs.Server (OpState)

/-- an update, one entry per field, `none`: not marked -/
abbrev Upd := List (Option Nat)

/-- src/data.cpp:518-774 `Value::copyIn`, called by `Value::assign`, same type, here `a.assign(b)` -/
def merge : Upd → Upd → Upd
  | [], b => b
  | a, [] => a
  | x :: a, y :: b => y.or x :: merge a b

/-- src/dataencode.cpp:414-438 `to_wire_valid` with a mask: only the fields selected are sent.  Simplification: fields are the leaves;
a sub-structure which is itself marked is sent whole (C32) -/
def restrict : List Bool → Upd → Upd
  | true :: m, x :: u => x :: restrict m u
  | false :: m, _ :: u => none :: restrict m u
  | _, _ => []

/-- src/pvrequest.cpp:74-95 `testmask` -/
def testmask (mask : List Bool) (u : Upd) : Bool := (restrict mask u).any (·.isSome)

/-- a MONITOR message to the client -/
inductive Msg where
  | init (ok : Bool)
  | data (u : Upd)
  | final
  | junk                       -- has the header of an update, but a Status, or nothing, follows
deriving DecidableEq

/-- src/servermon.cpp:27-70 `MonitorOp`.
`queue`: references to the heap, `none` is the empty Value pushed by finish().
`jobs`: how many calls of doReply() wait in the event loop, or in the backlog of the connection.
`closing`: a call of cleanup() waits in the event loop.
`sent` and `starts` record the messages sent, and the calls of onStart().
The watermark callbacks and the statistics: Model/MonStat. -/
structure Mon where
  state : OpState := .creating
  scheduled : Bool := false
  pipeline : Bool := false
  finished : Bool := false
  window : Nat := 0
  limit : Nat := 4
  mask : List Bool := []
  queue : List (Option Nat) := []
  jobs : Nat := 0
  closing : Bool := false
  sent : List Msg := []
  starts : List Bool := []
deriving DecidableEq

structure Sys where
  heap : List Upd := []
  mons : List Mon := []
deriving DecidableEq

def Sys.modMon (s : Sys) (i : Nat) (f : Mon → Mon) : Sys := { s with mons := s.mons.modify i f }

/-- src/servermon.cpp:78 -/
def Mon.canReply (m : Mon) : Bool :=
  !m.scheduled && m.state == .executing && !m.queue.isEmpty && (!m.pipeline || m.window != 0)

/-- src/servermon.cpp:74-107 `maybeReply` -/
def Mon.maybeReply (m : Mon) : Mon := if m.canReply then { m with jobs := m.jobs + 1, scheduled := true } else m

/-- src/servermon.cpp:185-200: an update was sent -/
def Mon.consume (m : Mon) : Mon :=
  if m.state = .executing ∧ m.pipeline ∧ m.window ≠ 0 then { m with window := m.window - 1 } else m

/-- src/servermon.cpp:202-212 -/
def Mon.again (m : Mon) : Mon :=
  if m.state = .executing ∧ m.queue ≠ [] ∧ (!m.pipeline ∨ m.window ≠ 0 ∨ m.finished)
  then { m with jobs := m.jobs + 1, scheduled := true } else m

def content (heap : List Upd) (c : Nat) : Upd := heap[c]?.getD []

/-- src/servermon.cpp:126-214 `doReply` after the initial reply.  Only when Executing is the window checked, and the end
recognized (:133-146); in state Idle the front of the queue is sent anyhow (:151-181). -/
def Mon.send (heap : List Upd) (m : Mon) : Mon :=
  match m.queue with
  | [] => if m.state = .executing then m else { m with sent := m.sent ++ [.junk] }
  | ent :: q =>
    if m.state = .executing ∧ m.pipeline ∧ m.window = 0 ∧ !m.finished then m
    else match ent with
      | some c => (({ m with sent := m.sent ++ [Msg.data (restrict m.mask (content heap c))], queue := q }).consume).again
      | none =>
        if m.state = .executing then { m with state := .dead, sent := m.sent ++ [.final], queue := q }
        else (({ m with sent := m.sent ++ [Msg.junk], queue := q }).consume).again

/-- src/servermon.cpp:111-215 `doReply`, called from the event loop -/
def Mon.doReply (heap : List Upd) (m : Mon) : Mon :=
  let m := { m with scheduled := false }
  if m.state = .dead ∨ m.state = .creating then m else m.send heap

/-- src/servermon.cpp:362-382 `connect` and :384-400 `error`, both call doReply() in state Creating: :129-131, :155-162 -/
def Mon.setup (m : Mon) (ok : Bool) : Mon :=
  if m.state = .creating then { m with scheduled := false, state := if ok then .idle else .dead, sent := m.sent ++ [.init ok] }
  else m

/-- src/servermon.cpp:33-39 (onCancel, which is called by ServerOp::cleanup) and src/serverconn.cpp:481-513 -/
def Mon.cleanup (m : Mon) : Mon :=
  if m.state = .dead then m
  else { m with state := .dead, starts := if m.state = .executing then m.starts ++ [false] else m.starts }

/-- src/serverconn.cpp:265-270: the state is changed before onCancel() is called, which then (src/servermon.cpp:34) does nothing -/
def Mon.cancel (m : Mon) : Mon := if m.state = .executing then { m with state := .idle } else m

/-- src/servermon.cpp:596-616, acknowledgement -/
def Mon.ack (m : Mon) (n : Option Nat) : Mon :=
  match n with
  | some n => if m.pipeline then { m with window := m.window + n } else m
  | none => m

/-- src/servermon.cpp:618-641, start and stop -/
def Mon.startStop (m : Mon) (start : Option Bool) : Mon :=
  match start with
  | some b => ({ m with state := if b then .executing else .idle, starts := m.starts ++ [b] }).maybeReply
  | none => m

/-- src/servermon.cpp:552-662.  A message for an operation which is Dead is ignored.  One which is still being created:
the connection is closed, and with it this operation.  `destroy`: cleanup() is dispatched. -/
def Mon.ctl (m : Mon) (ack : Option Nat) (start : Option Bool) (destroy : Bool) : Mon :=
  if m.state = .dead ∨ m.closing then m
  else if m.state = .creating then m.cleanup
  else
    let m := (m.ack ack).startStop start
    if destroy then { m with closing := true } else m

/-- src/servermon.cpp:494-505: queue limit from the initial window and record._options.queueSize -/
def limitFor (window : Nat) (queueSize : Option Nat) : Nat :=
  let l := queueSize.getD 4
  let l := if l < window then window else l
  if l = 0 then 1 else l

/-- src/servermon.cpp:491-535, INIT -/
def newMon (pipeline : Bool) (nack : Nat) (queueSize : Option Nat) (mask : List Bool) : Mon :=
  { pipeline := pipeline, window := nack, limit := limitFor nack queueSize, mask := mask }

/-- src/servermon.cpp:262-296 `doPost` with a Value.  Its type is the right one: otherwise an exception is thrown (:268) and nothing
happens. -/
def postValue (s : Sys) (i cell : Nat) (maybe force : Bool) : Sys :=
  match s.mons[i]? with
  | none => s
  | some m =>
    if m.state = .creating ∨ m.finished ∨ !testmask m.mask (content s.heap cell) then s
    else if m.queue.length < m.limit ∨ force then
      s.modMon i fun m => ({ m with queue := m.queue ++ [some cell] }).maybeReply
    else if !maybe then
      match m.queue.getLast? with
      | some (some b) => { s with heap := s.heap.modify b fun u => merge u (content s.heap cell) }.modMon i Mon.maybeReply
      | _ => s.modMon i Mon.maybeReply        -- not reached
    else s.modMon i Mon.maybeReply

/-- src/servermon.cpp:262-296 `doPost` without a Value -/
def Mon.finish (m : Mon) : Mon :=
  if m.state = .creating ∨ m.finished then m
  else ({ m with finished := true, queue := m.queue ++ [none] }).maybeReply

def Mon.runJob (heap : List Upd) (m : Mon) : Mon :=
  if m.jobs = 0 then m else ({ m with jobs := m.jobs - 1 }).doReply heap

inductive Ev where
  | value (u : Upd)                                    -- the application makes a new Value
  | subscribe (pipeline : Bool) (nack : Nat) (queueSize : Option Nat) (mask : List Bool)
  | setup (i : Nat) (ok : Bool)                        -- connect(), error()
  | post (i cell : Nat) (maybe force : Bool)           -- post(), tryPost(), forcePost()
  | finish (i : Nat)
  | ctl (i : Nat) (ack : Option Nat) (start : Option Bool) (destroy : Bool)      -- message MONITOR
  | cancel (i : Nat)                                   -- message CANCEL_REQUEST
  | close (i : Nat)                                    -- DESTROY_REQUEST, destruction of the channel, disconnect, and the dispatched cleanup()
  | work (i : Nat)                                     -- the event loop runs doReply()
deriving DecidableEq

def step (s : Sys) : Ev → Sys
  | .value u => { s with heap := s.heap ++ [u] }
  | .subscribe p n q mask => { s with mons := s.mons ++ [newMon p n q mask] }
  | .setup i ok => s.modMon i fun m => m.setup ok
  | .post i c maybe force => postValue s i c maybe force
  | .finish i => s.modMon i Mon.finish
  | .ctl i a b d => s.modMon i fun m => m.ctl a b d
  | .cancel i => s.modMon i Mon.cancel
  | .close i => s.modMon i Mon.cleanup
  | .work i => s.modMon i fun m => m.runJob s.heap

def run (s : Sys) (es : List Ev) : Sys := es.foldl step s

end Pvxs.Mon
