import Verif.Model.Value
/-
Client info() operations: src/clientintrospect.cpp, with the parts of src/client.cpp and src/conn.cpp which start, stop and answer them, and the reply
of the server, src/serverintrospect.cpp:24-51.

Everything below runs on the client's one worker thread, one event at a time.  Messages are given as their bodies (assembled from segments by the
connection, C19, C20).  Not modelled: statistics, logging, a stopped loop, result callbacks which call back into the operation.
-/
namespace Pvxs.ClientInfo
open Pvxs Wire

/-- src/serverintrospect.cpp:36-43: the body of the reply -/
def serverReply (be : Bool) (ioid : Nat) (type : Option (List FieldDesc)) (sts : Status) : List Byte :=
  let o := putStatus (putInt { be := be } 4 ioid) sts
  (match type with
    | some t => putType t o
    | none => o).data

/-- what the result callback is given -/
inductive Result where
  /-- a Value of the type sent -/
  | type (v : Val)
  /-- RemoteError -/
  | remote (msg : Str)
  /-- exception while the channel was set up -/
  | setup

/-- what can be observed -/
inductive Out where
  | called (r : Result)
  /-- GET_FIELD is sent -/
  | asked (ioid : Nat)
  /-- DESTROY_REQUEST is sent -/
  | destroyed (ioid : Nat)
  /-- the client closes the connection -/
  | closed
  /-- the channel is lost -/
  | lost

/-- src/clientintrospect.cpp:25-29 -/
inductive St where
  | connecting | waiting | done
deriving DecidableEq, Repr

/-- src/clientintrospect.cpp:20-243 `InfoOp`, and `Channel`, `Connection` as far as they concern it -/
structure Op where
  state : St := .connecting
  /-- the result callback is set -/
  hasDone : Bool := true
  ioid : Nat := 0
  /-- the type cache of the connection, `rxRegistry` -/
  cache : TypeStore := []
  /-- the channel is Active: chan->conn is set -/
  conn : Bool := false
  /-- in chan->pending -/
  pending : Bool := false
  /-- in conn->opByIOID and chan->opByIOID, under `ioid` -/
  reg : Bool := false
  /-- the application holds the Operation -/
  alive : Bool := true
  /-- a null chan->conn was followed -/
  crashed : Bool := false

/-- src/clientintrospect.cpp:54-69 `_cancel`; third: what it returns -/
def cancelImpl (o : Op) : Op × List Out × Bool :=
  let w := decide (o.state = .waiting)
  ({ o with state := .done, reg := if w then false else o.reg, crashed := o.crashed || (w && !o.conn) },
   if w then [.destroyed o.ioid] else [], decide (o.state ≠ .done))

/-- src/clientintrospect.cpp:43-52 `cancel`, on the worker -/
def cancel (o : Op) : Op × List Out × Bool :=
  let r := cancelImpl o
  ({ r.1 with hasDone := false }, r.2)

/-- src/clientintrospect.cpp:75-98 `createOp` -/
def createOp (o : Op) : Op × List Out :=
  if o.state ≠ .connecting then (o, [])
  else ({ o with state := .waiting, crashed := o.crashed || !o.conn }, [.asked o.ioid])

/-- src/client.cpp:119-145 `createOperations`; `ioid` is the number it takes -/
def createOperations (o : Op) (ioid : Nat) : Op × List Out :=
  if !o.conn then (o, [])
  else if !o.pending then (o, [])
  else if !o.alive then ({ o with pending := false }, [])
  else createOp { o with pending := false, reg := true, ioid := ioid }

/-- src/clientintrospect.cpp:100-109 `disconnected` -/
def disconnected (o : Op) : Op := if o.state = .waiting then { o with pending := true, state := .connecting } else o

/-- src/client.cpp:150-226 `Channel::disconnect`.  A new connection has an empty type cache. -/
def chanDown (o : Op) : Op :=
  let o := { o with conn := false, cache := [] }
  if o.reg then
    let o := { o with reg := false }
    if o.alive then disconnected o else o
  else o

/-- src/clientintrospect.cpp:115-134: the number of the operation, and what its callback is to be given -/
def getReply (c : TypeStore) : Dec (Nat × Result × TypeStore) := do
  let ioid ← getInt 4
  let sts ← getStatus
  if sts.isSuccess then do
    let r ← getTypeValue c
    pure (ioid, .type r.1, r.2)
  else pure (ioid, .remote sts.msg, c)

/-- src/clientintrospect.cpp:136-178: the operation is looked up and finished -/
def deliver (o : Op) (ioid : Nat) (r : Result) : Op × List Out :=
  if !(o.reg && decide (ioid = o.ioid)) then (o, [])
  else if !o.alive then (o, [])
  else if o.state ≠ .waiting then ({ o with reg := false }, [])
  else ({ o with reg := false, state := .done, hasDone := false }, if o.hasDone then [.called r] else [])

/-- src/clientintrospect.cpp:115-178 `handle_GET_FIELD`.  A message which can not be decoded, or whose type can not be constructed, ends the connection
(:129-134, src/conn.cpp:277-282). -/
def reply (o : Op) (be : Bool) (body : List Byte) : Op × List Out :=
  let r := getReply o.cache { be := be, err := false, rest := body }
  if r.2.err then (chanDown o, [.closed]) else deliver { o with cache := r.1.2.2 } r.1.1 r.1.2.1

/-- what can happen -/
inductive Ev where
  /-- the channel becomes Active; `ioid`: the number the operation is given if it is created -/
  | up (ioid : Nat)
  /-- the channel is lost -/
  | down
  /-- a GET_FIELD message of the server -/
  | reply (be : Bool) (body : List Byte)
  /-- the application calls cancel() -/
  | cancel
  /-- the application drops the Operation -/
  | drop

/-- one event -/
def step (o : Op) : Ev → Op × List Out
  | .up ioid => if o.conn then (o, []) else createOperations { o with conn := true } ioid
  | .down => (chanDown o, [.lost])
  | .reply be body => if o.conn then reply o be body else (o, [])
  | .cancel => let r := cancel o; (r.1, r.2.1)
  -- src/clientintrospect.cpp:199-213 and 36-40
  | .drop => let r := cancelImpl o; ({ r.1 with alive := false }, r.2.1)

/-- src/clientintrospect.cpp:217-238: the operation is added to its channel, which may be Active already; or there is no channel -/
def begin (fail : Bool) (up : Option Nat) : Op × List Out :=
  if fail then ({}, [.called .setup])
  else match up with
    | some ioid => createOperations { conn := true, pending := true } ioid
    | none => ({ pending := true }, [])

/-- a history, with everything observed -/
def run (o : Op) : List Ev → Op × List Out
  | [] => (o, [])
  | e :: es =>
    let r := step o e
    let r' := run r.1 es
    (r'.1, r.2 ++ r'.2)

end Pvxs.ClientInfo
