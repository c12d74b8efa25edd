/-
Client subscriptions: src/clientmon.cpp.

One subscription, its channel and its connection.  All events on the worker are sequential; pop() runs on any thread, under the lock.
The event callback is called by the worker after it released the lock (`owed`), so that pops may come in between.

Not modelled: the bytes of the messages (C01-C16), replacing the callback with onEvent(), log output, statistics other than the
number of merged updates, the free list of Values, callbacks which throw (the exception is logged), counters beyond 2^32.
-/
namespace Pvxs.ClientMon

/-- An update held by the client.  A Value is seen as its leaf fields; src/data.cpp: FieldStorage -/
structure Upd where
  /-- what the application reads -/
  content : Nat → Nat
  /-- marked as changed -/
  marked : Nat → Bool

/-- src/pvxs/client.h:33-61 and what else is thrown by pop() -/
inductive Exc where
  | connected | disconnect | finished | remote | setup
deriving DecidableEq, Repr

/-- src/clientmon.cpp:25-31 `Entry` -/
inductive Entry where
  | data (u : Upd)
  | exc (x : Exc)

/-- src/clientmon.cpp:54-60 -/
inductive St where
  | connecting | creating | idle | running | done
deriving DecidableEq, Repr

/-- messages to the server -/
inductive Msg where
  | init | start | stop | destroy
  | ack (n : Nat)
deriving DecidableEq, Repr

/-- what the application and the server see -/
inductive Out where
  /-- the event callback is called -/
  | called
  | sent (m : Msg)
  /-- pop() yields an update, or throws -/
  | popped (e : Entry)
  /-- pop() finds the queue empty -/
  | empty
  /-- return of the pop() of several updates: there may be more -/
  | ret (more : Bool)
  /-- the client closes the connection -/
  | closed

/-- what onInit() does -/
inductive InitAct where
  | ok | throws | cancels
deriving DecidableEq, Repr

/-- src/clientmon.cpp:34-76 `SubscriptionImpl` -/
structure Sub where
  pipeline : Bool
  autostart : Bool
  maskConn : Bool
  maskDiscon : Bool
  hasInit : Bool
  queueSize : Nat
  ackAt : Nat
  /-- there is an event callback -/
  hasEvent : Bool
  state : St := .connecting
  queue : List Entry := []
  window : Nat := 0
  unack : Nat := 0
  nCliSquash : Nat := 0
  needNotify : Bool := true
  ackPending : Bool := false
  /-- ackTick is scheduled -/
  timer : Bool := false
  /-- the worker is about to call the callback -/
  owed : Bool := false
  /-- RequestInfo::prototype, the last content of each field received on this connection -/
  cache : Nat → Nat := fun _ => 0
  /-- RequestInfo::fl is set -/
  fl : Bool := false
  /-- the channel is Active -/
  conn : Bool := false
  /-- in Channel::pending -/
  pending : Bool := false
  /-- in the opByIOID of the connection and the channel -/
  reg : Bool := false
  /-- the application holds the Subscription -/
  alive : Bool := true
  /-- a RequestInfo was used after it was erased -/
  freed : Bool := false
  /-- a null RequestInfo::fl was followed -/
  crashed : Bool := false

/-- src/clientmon.cpp:91-100 `wantToNotify`: `needNotify` is cleared, the callback will be called if it was set -/
def wantToNotify (o : Sub) : Sub := { o with needNotify := false, owed := o.owed || o.needNotify }

/-- src/clientmon.cpp:104-114 `doNotify` -/
def doNotify (o : Sub) : Sub × List Out :=
  if o.owed then ({ o with owed := false }, if o.hasEvent then [.called] else []) else (o, [])

/-- `notify = queue.empty() && wantToNotify(); queue.emplace_back(e)`: src/clientmon.cpp:360-362 and 396-398 -/
def push (o : Sub) (e : Entry) : Sub :=
  let o := if o.queue.isEmpty then wantToNotify o else o
  { o with queue := o.queue ++ [e] }

/-- src/clientmon.cpp:116-143 `pause` -/
def pause (o : Sub) (p : Bool) : Sub × List Out :=
  if (o.state = .idle ∧ !p) ∨ (o.state = .running ∧ p) then
    ({ o with state := if p then .idle else .running }, [.sent (if p then .stop else .start)])
  else (o, [])

/-- src/clientmon.cpp:157-199 `_pop` of an entry: acknowledgement bookkeeping -/
def popHead (o : Sub) (rest : List Entry) : Sub :=
  if o.pipeline then
    let arm := decide (o.ackAt ≤ o.unack + 1) && !o.ackPending
    { o with queue := rest, unack := o.unack + 1, ackPending := o.ackPending || arm, timer := o.timer || arm }
  else { o with queue := rest }

/-- src/clientmon.cpp:201-209 `pop` -/
def pop (o : Sub) : Sub × List Out :=
  match o.queue with
  | [] => ({ o with needNotify := true }, [.empty])
  | e :: rest => (popHead o rest, [.popped e])

/-- src/clientmon.cpp:224-232: the loop of `doPop`; `first`: nothing popped yet.  An exception which is thrown, and returning, both end
the loop. -/
def popLoop : Nat → Bool → Sub → Sub × List Out
  | 0, _, o => (o, [])
  | n + 1, first, o =>
    match o.queue with
    | [] => ({ o with needNotify := true }, [.empty])
    | .exc x :: rest => if first then (popHead o rest, [.popped (.exc x)]) else (o, [])
    | .data u :: rest =>
      let (o, outs) := popLoop n false (popHead o rest)
      (o, .popped (.data u) :: outs)

/-- src/clientmon.cpp:211-236 `doPop`, `limit` = 0 means queueSize.  When it throws there is no result; `ret` is then of no use. -/
def popN (o : Sub) (limit : Nat) : Sub × List Out :=
  let (o, outs) := popLoop (if limit = 0 then o.queueSize else limit) true o
  (o, outs ++ [.ret (!o.needNotify)])

/-- src/clientmon.cpp:286-312 `_cancel`.  The timer is deleted (only started for `pipeline`), its flag `ackPending` stays. -/
def cancelImpl (o : Sub) : Sub × List Out :=
  if o.state = .idle ∨ o.state = .running then
    ({ o with state := .done, reg := false, timer := false }, [.sent .destroy])
  else ({ o with state := .done }, [])

/-- src/clientmon.cpp:275-284 `cancel` -/
def cancel (o : Sub) : Sub × List Out :=
  let (o, outs) := cancelImpl o
  ({ o with hasEvent := false }, outs)

/-- src/clientmon.cpp:319-379 `createOp` -/
def createOp (o : Sub) : Sub × List Out :=
  if o.state ≠ .connecting then (o, [])
  else
    let o := { o with state := .creating }
    let o := if !o.maskConn then push o (.exc .connected) else o
    let o := if o.pipeline then { o with window := o.queueSize } else o
    (o, [.sent .init])

/-- src/client.cpp:119-145 `createOperations` -/
def createOperations (o : Sub) : Sub × List Out :=
  if !o.conn then (o, [])
  else if !o.pending then (o, [])
  else if !o.alive then ({ o with pending := false }, [])
  else createOp { o with pending := false, reg := true, fl := false }

/-- src/clientmon.cpp:381-418 `disconnected` -/
def disconnected (o : Sub) : Sub :=
  if o.state = .connecting ∨ o.state = .done then o
  else
    let o := if !o.maskDiscon then push o (.exc .disconnect) else o
    { o with pending := true, state := .connecting }

/-- src/client.cpp:150-226 `Channel::disconnect` -/
def chanDown (o : Sub) : Sub :=
  let o := { o with conn := false }
  if o.reg then
    let o := { o with reg := false }
    if o.alive then disconnected o else o
  else o

/-- src/clientmon.cpp:420-450 `tickAck`, when the timer was started -/
def tickAck (o : Sub) : Sub × List Out :=
  if !o.timer then (o, [])
  else
    let o := { o with timer := false, ackPending := false }
    if (o.state = .idle ∨ o.state = .running) ∧ o.pipeline ∧ o.unack ≠ 0 then
      ({ o with window := o.window + o.unack, unack := 0 }, [.sent (.ack o.unack)])
    else (o, [])

/-- a MONITOR message -/
structure Reply where
  init : Bool
  final : Bool
  ok : Bool
  /-- a Value follows; always for a plain update -/
  hasData : Bool
  /-- the fields sent, and their values -/
  marked : Nat → Bool
  val : Nat → Nat

/-- src/clientmon.cpp:479-480: the status is sent with INIT and with the last message only -/
def Reply.success (r : Reply) : Bool := r.ok || !(r.init || r.final)

/-- src/clientmon.cpp:512: the message carries an update -/
def Reply.carries (r : Reply) : Bool := r.success && !r.init && (!r.final || r.hasData)

/-- src/clientmon.cpp:584-600: is the message expected? -/
def fits (o : Sub) (r : Reply) : Bool :=
  (o.state == .creating && r.init) || ((o.state == .idle || o.state == .running) && !r.init)

/-- src/data.cpp:1200-1235 `cache_sync`: fields not sent keep the last content received -/
def sync (cache : Nat → Nat) (r : Reply) : Upd :=
  { content := fun i => if r.marked i then r.val i else cache i, marked := r.marked }

/-- src/data.cpp: `Value::assign` with the same type: the marked fields are copied and become marked -/
def assign (old new : Upd) : Upd :=
  { content := fun i => if new.marked i then new.content i else old.content i, marked := fun i => old.marked i || new.marked i }

/-- src/clientmon.cpp:625-645, 662-667: reply to INIT.  An exception of onInit() is stored in `update`, which is then dropped;
`info->fl = …` is done even if onInit() cancelled, which erased `*info`. -/
def onInitReply (o : Sub) (i : InitAct) : Sub × List Out :=
  let o := { o with state := .idle, cache := fun _ => 0, fl := true }
  let (o, outs) : Sub × List Out :=
    if o.hasInit then
      match i with
      | .ok => (o, [])
      | .throws => ({ o with state := .done }, [])
      | .cancels => let (o, outs) := cancel o; ({ o with freed := true }, outs)
    else (o, [])
  if o.autostart ∧ o.state = .idle then
    let (o, outs') := pause o false
    (o, outs ++ outs')
  else (o, outs)

/-- the last entry is data: merge -/
def mergeBack : List Entry → Upd → Option (List Entry)
  | [], _ => none
  | [.data w], u => some [.data (assign w u)]
  | [.exc _], _ => none
  | e :: e' :: q, u => (mergeBack (e' :: q) u).map (e :: ·)

/-- src/clientmon.cpp:687-705: merge into the newest entry, or append.  `full`: the queue has reached its limit, and is not that of
a pipeline.  Second: the number of merged updates. -/
def enqueue (full : Bool) (q : List Entry) (e : Option Entry) : List Entry × Nat :=
  match e with
  | some (.data u) =>
    match if full then mergeBack q u else none with
    | some q => (q, 1)
    | none => (q ++ [.data u], 0)
  | some (.exc x) => (q ++ [.exc x], 0)
  | none => (q, 0)

/-- src/clientmon.cpp:687-714: the queue after a message; `e`: what is put in before Finished -/
def queueAfter (o : Sub) (r : Reply) (e : Option Entry) : List Entry :=
  (enqueue (decide (o.queueSize ≤ o.queue.length) && !o.pipeline) o.queue e).1 ++ (if r.final then [.exc .finished] else [])

/-- src/clientmon.cpp:669-733: an update, or the last message -/
def onUpdate (o : Sub) (r : Reply) (e : Option Entry) : Sub :=
  let o' := { o with
    window := if o.pipeline then o.window - 1 else o.window
    queue := queueAfter o r e
    nCliSquash := o.nCliSquash + (enqueue (decide (o.queueSize ≤ o.queue.length) && !o.pipeline) o.queue e).2 }
  if o.queue.isEmpty ∧ !(queueAfter o r e).isEmpty then wantToNotify o' else o'

/-- src/clientmon.cpp:738-751: the subscription is over -/
def finishUp (o : Sub) (r : Reply) : Sub × List Out :=
  if o.state = .done ∨ r.final then
    ({ o with state := .done, reg := false, timer := false }, if r.final then [] else [.sent .destroy])
  else (o, [])

/-- src/clientmon.cpp:464-755 `handle_MONITOR`, a message with the ioid of the subscription.  An update is decoded (512-563) before
the state is looked at; the free list it is taken from is set when the INIT reply was handled. -/
def msg (o : Sub) (r : Reply) (i : InitAct) : Sub × List Out :=
  if !o.reg then (o, [])
  else if r.carries ∧ !o.fl then ({ o with crashed := true }, [])
  else if !o.alive then (o, [])
  else if !fits o r then (chanDown o, [.closed])
  else if r.init then
    if r.success then
      let (o, outs) := onInitReply o i
      let (o, outs') := finishUp o r
      (o, outs ++ outs')
    else
      finishUp (wantToNotify { o with state := .done, queue := o.queue ++ [.exc .remote] }) r
  else if !r.success then
    finishUp (onUpdate { o with state := .done } r (some (.exc .remote))) r
  else if r.carries then
    let u := sync o.cache r
    finishUp (onUpdate { o with cache := u.content } r (some (.data u))) r
  else finishUp (onUpdate o r none) r

/-- what can happen -/
inductive Ev where
  /-- the channel becomes Active -/
  | up
  /-- the channel is lost -/
  | down
  | msg (r : Reply) (i : InitAct)
  | pause (p : Bool)
  | pop
  | popN (limit : Nat)
  | cancel
  | drop
  /-- the timer of acknowledgements -/
  | tick
  /-- the worker calls the event callback -/
  | deliver

/-- Worker: what it was doing is completed first -/
def settled (o : Sub) (f : Sub → Sub × List Out) : Sub × List Out :=
  let (o, outs) := doNotify o
  let (o, outs') := f o
  (o, outs ++ outs')

/-- one event -/
def step (o : Sub) : Ev → Sub × List Out
  | .up => settled o fun o => createOperations { o with conn := true }
  | .down => settled o fun o => (chanDown o, [])
  | .msg r i => settled o fun o => msg o r i
  | .pause p => settled o fun o => pause o p
  | .pop => pop o
  | .popN n => popN o n
  | .cancel => settled o cancel
  -- src/clientmon.cpp:811-826
  | .drop => settled o fun o => let (o, outs) := cancelImpl o; ({ o with alive := false }, outs)
  | .tick => settled o tickAck
  | .deliver => doNotify o

/-- src/clientmon.cpp:828-845: added to its channel; or there is none, and the reason is queued -/
def begin (o : Sub) (fail up : Bool) : Sub × List Out :=
  if fail then ({ o with queue := [.exc .setup] }, if o.hasEvent then [.called] else [])
  else createOperations { o with conn := up, pending := true }

/-- a history, with everything observed -/
def run (o : Sub) : List Ev → Sub × List Out
  | [] => (o, [])
  | e :: es =>
    let (o, outs) := step o e
    let (o, outs') := run o es
    (o, outs ++ outs')

end Pvxs.ClientMon
