/-
Context::connect(): the Connect handles of one channel, their callbacks, and the
queue of the client worker.

Modelled: /repo/src/client.cpp:150-226 (the Connect part of Channel::disconnect),
:229-285 (ConnectImpl, ConnectBuilder::exec), :320-323 (OperationBase::name),
/repo/src/clientconn.cpp:386-402 (the Connect part of handle_CREATE_CHANNEL),
:168-205 (cleanup), /repo/src/conn.cpp:277-282, :307-327 (exceptions of handlers),
/repo/src/evhelper.cpp:219-241 (doWork), :297-349 (_dispatch, _call).

Simplified: one channel of one connection; Connects are numbered and a number is
not used twice (the code uses addresses); a callback is what it does to the Connects
of the channel (`Act`); what a callback does with other parts of the client is not
modelled.  A callback which drops its own Connect (not its first one) is taken to be
harmless, although the std::function it runs from is destroyed under it.
-/
namespace Pvxs.ClientConnect

/-- What a user callback does. `drops js`: it releases the last reference to the
Connects `js`; on the worker thread this takes effect at once
(evhelper.cpp:318-323, `_call` on the worker runs the function directly). -/
inductive Act where
  | ok
  | throws
  | drops (js : List Nat)
deriving DecidableEq

/-- A ConnectImpl (clientimpl.h:154-172). `good` : Channel::build succeeds for it, i.e.
the server address is empty or valid and the Context is not closed
(client.cpp:349-357). `built` : `op->chan` is set. -/
structure Obj where
  onC : Bool
  onD : Bool
  good : Bool
  built : Bool
  connected : Bool
deriving DecidableEq

/-- An entry of the queue of the worker (evhelper.cpp `actions`): what
ConnectBuilder::exec dispatches (client.cpp:270-282), or what releasing the Connect on
another thread queues (client.cpp:254-267). -/
inductive Work where
  | setup (i : Nat)
  | remove (i : Nat)
deriving DecidableEq

/-- The channel and its Connects. `reg` is Channel::connectors; `objs` the ConnectImpl
which exist; `ops` the number of operations registered in `opByIOID`; `lost` : the
channel is in no search list and on no connection. -/
structure St where
  active : Bool := false
  lost : Bool := false
  ops : Nat := 0
  reg : List Nat := []
  objs : Nat → Option Obj := fun _ => none
  queue : List Work := []

/-- How a step ends: normally, by an exception, by a failed assert(), or with an access
to a ConnectImpl which was freed. -/
inductive Fate where
  | ok
  | thrown
  | abort
  | freed
deriving DecidableEq

/-- `told i true`: onConnect of Connect i was called; `told i false`: onDisconnect. -/
structure Told where
  i : Nat
  up : Bool
deriving DecidableEq

structure Ret where
  fate : Fate
  st : St
  outs : List Told

def setObj (s : St) (i : Nat) (o : Option Obj) : St :=
  { s with objs := fun j => if j = i then o else s.objs j }

/-- Is there a callback for this change? (the `&& _onConn`, `&& _onDis`) -/
def Obj.wants (o : Obj) (up : Bool) : Bool := if up then o.onC else o.onD

/-- The function run on the worker when a Connect is released (client.cpp:260-266):
`assert(op->chan)`, take it out of the list; the ConnectImpl is then freed. -/
def drop (s : St) (i : Nat) : Fate × St :=
  match s.objs i with
  | none => (.freed, s)
  | some o =>
    if o.built then
      (.ok, setObj { s with reg := s.reg.filter (· != i) } i none)
    else
      (.abort, s)

/-- a callback releases several Connects -/
def dropAll (s : St) : List Nat → Fate × St
  | [] => (.ok, s)
  | j :: js =>
    match drop s j with
    | (.ok, s1) => dropAll s1 js
    | r => r

/-- What the callback of a Connect does to the state. -/
def act (s : St) : Act → Fate × St
  | .ok => (.ok, s)
  | .throws => (.thrown, s)
  | .drops js => dropAll s js

/-- The loops over a copy of `connectors` (client.cpp:190-195, clientconn.cpp:396-401):
`if(_connected.exchange(up) != up && callback) callback()`, through raw pointers. -/
def loop (up : Bool) (beh : Nat → Act) (s : St) : List Nat → Ret
  | [] => { fate := .ok, st := s, outs := [] }
  | i :: is =>
    match s.objs i with
    | none => { fate := .freed, st := s, outs := [] }
    | some o =>
      let s1 := setObj s i (some { o with connected := up })
      if o.connected != up && o.wants up then
        match act s1 (beh i) with
        | (.ok, s2) =>
          let r := loop up beh s2 is
          { r with outs := { i := i, up := up } :: r.outs }
        | (f, s2) => { fate := f, st := s2, outs := [{ i := i, up := up }] }
      else
        loop up beh s1 is

/-- Channel::disconnect (client.cpp:150-226) called from Connection::cleanup
(clientconn.cpp:168-205). A callback which throws ends both. The handler of
bevEventS/bevReadS (conn.cpp:312-315, :323-326) calls cleanup() again; the channel
is no longer on the connection, so it is not visited again, its operations are
still in `opByIOID` and `assert(opByIOID.empty())` (clientconn.cpp:200) fails if there
are any. If there are none the channel stays as it is: state Searching, in no search
bucket. -/
def disconnect (s : St) (beh : Nat → Act) : Ret :=
  let r := loop false beh { s with active := false } s.reg
  match r.fate with
  | .thrown =>
    if r.st.ops = 0 then { r with fate := .ok, st := { r.st with lost := true } }
    else { r with fate := .abort }
  | _ => r

/-- A CREATE_CHANNEL reply which says success (clientconn.cpp:385-402). An exception
of a callback closes the connection (conn.cpp:277-302, `bev.reset()` then cleanup());
`beh2` is what the callbacks do then. A lost channel asks no server, so gets no reply. -/
def connected (s : St) (beh beh2 : Nat → Act) : Ret :=
  if s.lost then { fate := .ok, st := s, outs := [] } else
  let r := loop true beh { s with active := true } s.reg
  match r.fate with
  | .thrown =>
    let r2 := disconnect r.st beh2
    { r2 with outs := r.outs ++ r2.outs }
  | _ => r

/-- ConnectBuilder::exec on the worker (client.cpp:270-282). An exception (of
Channel::build or of the callback) is logged by doWork (evhelper.cpp:230-238). After the
callback the raw pointer is put in the list, whether or not the callback released
the Connect (the queued function holds a reference until it ends). -/
def setup (s : St) (i : Nat) (beh : Nat → Act) : Ret :=
  match s.objs i with
  | none => { fate := .freed, st := s, outs := [] }
  | some o =>
    if o.good then
      let s1 := setObj s i (some { o with built := true, connected := s.active })
      if o.wants s.active then
        let told : List Told := [{ i := i, up := s.active }]
        match act s1 (beh i) with
        | (.ok, s2) => { fate := .ok, st := { s2 with reg := s2.reg ++ [i] }, outs := told }
        | (.thrown, s2) => { fate := .ok, st := s2, outs := told }
        | (f, s2) => { fate := f, st := s2, outs := told }
      else
        { fate := .ok, st := { s1 with reg := s1.reg ++ [i] }, outs := [] }
    else
      { fate := .ok, st := s, outs := [] }

/-- one entry of the queue of the worker -/
def doWork (s : St) (beh : Nat → Act) : Ret :=
  match s.queue with
  | [] => { fate := .ok, st := s, outs := [] }
  | .setup i :: q => setup { s with queue := q } i beh
  | .remove i :: q =>
    let r := drop { s with queue := q } i
    { fate := r.1, st := r.2, outs := [] }

/-- What can happen. -/
inductive Ev where
  /-- connect(name).onConnect(..).onDisconnect(..).exec() -/
  | exec (i : Nat) (onC onD good : Bool)
  /-- a thread other than the worker releases the Connect -/
  | drop (i : Nat)
  /-- the worker takes the next entry of its queue -/
  | work (beh : Nat → Act)
  /-- the server accepts the channel -/
  | up (beh beh2 : Nat → Act)
  /-- the connection is lost, or the server ends the channel -/
  | down (beh : Nat → Act)
  /-- an operation is started on the channel -/
  | op

def step (s : St) : Ev → Ret
  | .exec i onC onD good =>
    { fate := .ok, outs := [],
      st := setObj { s with queue := s.queue ++ [.setup i] } i
        (some { onC := onC, onD := onD, good := good, built := false, connected := false }) }
  | .drop i => { fate := .ok, st := { s with queue := s.queue ++ [.remove i] }, outs := [] }
  | .work beh => doWork s beh
  | .up beh beh2 => connected s beh beh2
  | .down beh => disconnect s beh
  | .op => { fate := .ok, st := { s with ops := s.ops + 1 }, outs := [] }

def run (s : St) : List Ev → Ret
  | [] => { fate := .ok, st := s, outs := [] }
  | e :: es =>
    let r := step s e
    if r.fate = .ok then
      let r2 := run r.st es
      { r2 with outs := r.outs ++ r2.outs }
    else r

/-- Connect::connected() (client.cpp:237-240) of a Connect which the user holds -/
def poll (s : St) (i : Nat) : Option Bool := (s.objs i).map (·.connected)

/-- Operation::name() (client.cpp:320-323): reads through `chan`, which exec() leaves
null until the worker has built the channel; `none`: a null pointer is dereferenced.
Connect::name() (client.cpp:233-236) reads a copy kept in the Connect. -/
def operationName (chan : Option String) : Option String := chan
def connectName (given : String) (_chan : Option String) : Option String := some given

/-- `chan` of an operation: null until the worker has run the function dispatched by
exec() (clientget.cpp:595-607, clientintrospect.cpp:218-230), and for good when Channel::build throws there. -/
def operationChan (given : String) (workerRan good : Bool) : Option String :=
  if workerRan && good then some given else none

end Pvxs.ClientConnect
