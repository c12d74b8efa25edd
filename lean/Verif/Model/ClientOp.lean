import Verif.Model.Res
/-
Client GET/PUT/RPC operations: src/clientget.cpp, with the parts of src/client.cpp and src/conn.cpp which start, stop and answer them.

Everything below runs on the client's one worker thread, one event at a time.  Not modelled: the content of messages (a number
stands for a value), the codec (C01..C16), result and init callbacks which call back into the operation other than to cancel from
onInit() and the put builder, the destruction of functors, a stopped loop.
-/
namespace Pvxs.ClientOp

/-- src/pvxs/client.h Operation::operation_t, the three kinds handled here -/
inductive Kind where
  | get | put | rpc
deriving DecidableEq, Repr

/-- src/clientget.cpp:124-132 `state_t` -/
inductive St where
  | connecting | creating | idle | getOPut | buildPut | exec | done
deriving DecidableEq, Repr

/-- what a result callback is given -/
inductive Outcome where
  /-- data of a reply -/
  | value (d : Nat)
  /-- RemoteError -/
  | remote
  /-- exception of the put builder -/
  | builder
  /-- exception of onInit() -/
  | init
  /-- Disconnect -/
  | disconnect
  /-- exception while the channel was set up -/
  | setup
  /-- std::invalid_argument: reExec of an autoExec operation -/
  | invalid
  /-- std::logic_error: unexpected state -/
  | logic
deriving DecidableEq, Repr

/-- requests sent to the server -/
inductive Msg where
  | init
  /-- current value, subcmd 0x40 -/
  | get
  /-- execute; the value of a put or the argument of an RPC -/
  | exec (a : Option Nat)
  | destroy
deriving DecidableEq, Repr

/-- what can be observed -/
inductive Out where
  /-- result callback `cb` is called -/
  | called (cb : Nat) (o : Outcome)
  /-- a message is sent to the server -/
  | sent (m : Msg)
  /-- the client closes the connection -/
  | closed
deriving DecidableEq, Repr

/-- what the application's onInit() does -/
inductive InitAct where
  | ok | throws | cancels
deriving DecidableEq, Repr

/-- what the application's put builder does; with `c` it calls cancel() before -/
inductive BuildAct where
  | value (a : Nat) (c : Bool)
  | throws (c : Bool)
deriving DecidableEq, Repr

/-- src/clientget.cpp:107-132 `GPROp`, and src/client.cpp `Channel`/`Connection` as far as they concern it -/
structure Op where
  kind : Kind
  autoExec : Bool
  getOput : Bool
  /-- onInit set -/
  hasInit : Bool
  state : St := .connecting
  /-- the result callback -/
  done : Option Nat
  /-- the builder which reExecPut() sets -/
  fixed : Option Nat := none
  /-- the argument of an RPC -/
  arg : Option Nat := none
  result : Option Outcome := none
  /-- the channel is Active: chan->conn is set -/
  conn : Bool := false
  /-- in chan->pending -/
  pending : Bool := false
  /-- in conn->opByIOID and chan->opByIOID, under the operation's current ioid -/
  reg : Bool := false
  /-- the application holds the Operation -/
  alive : Bool := true
  /-- a null chan->conn was followed -/
  crashed : Bool := false
deriving DecidableEq, Repr

/-- src/clientget.cpp:158-172 `notify` -/
def notify (o : Op) (r : Outcome) : List Out :=
  match o.done with
  | some cb => [.called cb r]
  | none => []

/-- src/clientget.cpp:190-207 `_cancel` -/
def cancelImpl (o : Op) : Op × List Out :=
  let outs : List Out := if o.state = .idle ∨ o.state = .getOPut ∨ o.state = .exec then [.sent .destroy] else []
  let touch := o.state = .creating ∨ o.state = .idle ∨ o.state = .getOPut ∨ o.state = .exec
  ({ o with state := .done
            reg := if touch then false else o.reg
            crashed := o.crashed || (decide touch && !o.conn) }, outs)

/-- src/clientget.cpp:174-187 `cancel`, on the worker -/
def cancel (o : Op) : Op × List Out :=
  let (o, outs) := cancelImpl o
  ({ o with done := none, hasInit := false }, outs)

/-- src/clientget.cpp:276-293: the builder is called.  Second: the value built. -/
def runBuilder (o : Op) (b : BuildAct) : Op × Option Nat × List Out :=
  match o.fixed with
  | some a => ({ o with state := .exec }, some a, [])
  | none =>
    match b with
    | .value a c =>
      let (o, outs) := if c then cancel o else (o, [])
      ({ o with state := .exec }, some a, outs)
    | .throws c =>
      let (o, outs) := if c then cancel o else (o, [])
      ({ o with state := .done, result := some .builder }, none, outs)

/-- src/clientget.cpp:295-343, the rest of `sendReply`; third: std::logic_error is thrown -/
def sendState (o : Op) (temp : Option Nat) : Op × List Out × Bool :=
  let o := { o with crashed := o.crashed || !o.conn }
  match o.state with
  | .getOPut => (o, [.sent .get], false)
  | .exec => (o, [.sent (.exec (match o.kind with
      | .put => temp
      | .rpc => o.arg
      | .get => none))], false)
  | .done => ({ o with reg := false }, .sent .destroy :: (notify o (o.result.getD .logic)), false)
  | _ => (o, [], true)

/-- src/clientget.cpp:271-344 `sendReply` -/
def sendReply (o : Op) (b : BuildAct) : Op × List Out × Bool :=
  if o.state = .buildPut then
    let (o, temp, outs) := runBuilder o b
    let (o, outs', t) := sendState o temp
    (o, outs ++ outs', t)
  else sendState o none

/-- src/clientget.cpp:256-269 `_reExec` -/
def reExecSend (o : Op) (put : Bool) (b : BuildAct) : Op × List Out × Bool :=
  sendReply { o with state := if o.kind = .put ∧ !put then .getOPut else if o.kind = .put ∧ put then .buildPut else .exec } b

/-- src/clientget.cpp:209-236 `_reExecImpl`, on the worker.  reExecGet() of an RPC and reExecPut() of others throw before (238-254);
there is no reExec for RPC in the API. -/
def reExec (o : Op) (put : Bool) (a : Nat) (cb : Nat) : Op × List Out :=
  if o.autoExec then (o, [.called cb .invalid])
  else if o.state ≠ .idle then (o, [])
  else
    let o := if o.kind = .rpc then { o with arg := some a }
      else if put ∧ o.kind = .put then { o with fixed := some a } else o
    let (o, outs, _) := reExecSend { o with done := some cb } put (.value a false)
    (o, outs)

/-- src/clientget.cpp:346-371 `createOp` -/
def createOp (o : Op) : Op × List Out :=
  if o.state ≠ .connecting then (o, [])
  else ({ o with state := .creating, crashed := o.crashed || !o.conn }, [.sent .init])

/-- src/client.cpp:119-145 `createOperations`, called when the channel becomes Active (src/clientconn.cpp handle_CREATE_CHANNEL) and
when the operation is added -/
def createOperations (o : Op) : Op × List Out :=
  if !o.conn then (o, [])
  else if !o.pending then (o, [])
  else if !o.alive then ({ o with pending := false }, [])
  else createOp { o with pending := false, reg := true }

/-- src/clientget.cpp:373-396 `disconnected` -/
def disconnected (o : Op) : Op × List Out :=
  if o.state = .connecting ∨ o.state = .done then (o, [])
  else if o.state = .exec ∧ o.kind ≠ .get ∧ !o.autoExec then
    ({ o with state := .done, result := some .disconnect }, notify o .disconnect)
  else if o.state = .creating ∨ o.state = .idle ∨ o.state = .getOPut ∨ o.state = .exec then
    ({ o with pending := true, state := .connecting }, [])
  else ({ o with state := .done, result := some .logic }, notify o .logic)

/-- src/client.cpp:150-226 `Channel::disconnect` -/
def chanDown (o : Op) : Op × List Out :=
  let o := { o with conn := false }
  if o.reg then
    let o := { o with reg := false }
    if o.alive then disconnected o else (o, [])
  else (o, [])

/-- src/conn.cpp:277-282 and 289-297: a handler failed, or reset the connection -/
def closeConn (o : Op) : Op × List Out :=
  let (o, outs) := chanDown o
  (o, .closed :: outs)

/-- a reply: command, subcmd bits, success, data -/
structure Reply where
  /-- the command is that of the operation -/
  cmd : Bool := true
  init : Bool
  get : Bool
  ok : Bool
  data : Nat
deriving DecidableEq, Repr

/-- src/clientget.cpp:459-472: does the reply fit the state? -/
def fits (o : Op) (r : Reply) : Bool :=
  r.cmd && ((o.state == .creating && r.init) || (o.state == .getOPut && !r.init && r.get) ||
    (o.state == .exec && !r.init && !r.get))

/-- src/clientget.cpp:497-519: reply to INIT -/
def onInitReply (o : Op) (r : Reply) (i : InitAct) (b : BuildAct) : Op × List Out :=
  let o := { o with state := .idle }
  let (o, outs) : Op × List Out :=
    if o.hasInit then
      match i with
      | .ok => (o, [])
      | .throws => ({ o with result := some .init, state := .done }, notify o .init)
      | .cancels => cancel o
    else (o, [])
  if o.state = .idle ∧ o.autoExec then
    let (o, outs', _) := reExecSend o (!o.getOput) b
    (o, outs ++ outs')
  else (o, outs)

/-- src/clientget.cpp:556: an exception of sendReply() ends the connection -/
def sendOrClose (p : Op × List Out × Bool) : Op × List Out :=
  if p.2.2 then
    let (o, outs) := closeConn p.1
    (o, p.2.1 ++ outs)
  else (p.1, p.2.1)

/-- src/clientget.cpp:400-557 `handle_GPR`, a reply with the operation's ioid on its connection -/
def reply (o : Op) (r : Reply) (i : InitAct) (b : BuildAct) : Op × List Out :=
  if !o.reg then (o, [])
  else if !o.alive then (o, [])
  else if !fits o r then closeConn o
  else if !r.ok then
    sendOrClose (sendReply { o with result := some .remote
                                    state := if o.state = .creating ∨ o.autoExec then .done else .idle } b)
  else if o.state = .creating then onInitReply o r i b
  else if o.state = .getOPut then
    if o.autoExec then sendOrClose (sendReply { o with state := .buildPut } b)
    else
      let o := { o with state := .idle, result := some (.value r.data) }
      (o, notify o (.value r.data))
  else
    if !o.autoExec then
      let o := { o with state := .idle, result := some (.value r.data) }
      (o, notify o (.value r.data))
    else sendOrClose (sendReply { o with state := .done, result := some (.value r.data) } b)

/-- what can happen -/
inductive Ev where
  /-- the channel becomes Active -/
  | up
  /-- the channel is lost -/
  | down
  | reply (r : Reply) (i : InitAct) (b : BuildAct)
  /-- the application calls cancel() -/
  | cancel
  /-- the application drops the Operation -/
  | drop
  /-- the application calls reExecGet() or reExecPut() -/
  | reExec (put : Bool) (a : Nat) (cb : Nat)
deriving DecidableEq, Repr

/-- one event -/
def step (o : Op) : Ev → Op × List Out
  | .up => createOperations { o with conn := true }
  | .down => chanDown o
  | .reply r i b => reply o r i b
  | .cancel => cancel o
  -- src/clientget.cpp:573-586 and 140-143
  | .drop => let (o, outs) := cancelImpl o; ({ o with alive := false }, outs)
  | .reExec put a cb => reExec o put a cb

/-- src/clientget.cpp:588-601: the operation is added to its channel, which may be Active already; or there is no channel -/
def begin (o : Op) (fail up : Bool) : Op × List Out :=
  if fail then ({ o with result := some .setup }, notify o .setup)
  else createOperations { o with conn := up, pending := true }

/-- a history, with everything observed -/
def run (o : Op) : List Ev → Op × List Out
  | [] => (o, [])
  | e :: es =>
    let (o, outs) := step o e
    let (o, outs') := run o es
    (o, outs ++ outs')

end Pvxs.ClientOp
