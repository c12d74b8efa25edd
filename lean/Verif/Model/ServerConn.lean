import Verif.Model.Wire
/-
Model of the operations of one client of a server: /repo/src/serverconn.cpp, serverchan.cpp, serverget.cpp,
serverintrospect.cpp, and of servermon.cpp as far as the life of an operation is concerned (its queue is the subject of
Model/ServerMon.lean).

Everything here runs on the one thread of `acceptor_loop`.  What the application does from its own threads takes effect when
a function handed to `acceptor_loop.dispatch()` or `call()` runs there; an event of the model is either a message of the peer
or the running of such a function, so arbitrary lists of events cover all interleavings.
-/
namespace Pvxs.Server
open Wire (Byte)

/-- src/serverconn.h:42-47 -/
inductive OpState where
  | creating | idle | executing | dead
deriving DecidableEq, Repr

/-- which class of operation, and for ServerGPR its `cmd` -/
inductive Kind where
  | get | put | rpc | mon | info
deriving DecidableEq, Repr

/-- `dynamic_pointer_cast<ServerGPR>` -/
def Kind.isGPR : Kind → Bool
  | .get | .put | .rpc => true
  | _ => false

/-- src/serverconn.h:34-56 `ServerOp`, src/serverget.cpp:140-150 `ServerGPR`.  `typ` stands for the address of the type
given to connect(); callbacks are represented by whether they are set. -/
structure SOp where
  chan : Nat
  ioid : Nat
  kind : Kind
  state : OpState := .creating
  subcmd : Byte := 0
  last : Bool := false
  typ : Option Nat := none
  onClose : Bool := false
  onCancel : Bool := false
deriving DecidableEq, Repr

/-- src/serverconn.h:79-115 `ServerChan`; `ops` is `opByIOID` -/
structure SChan where
  sid : Nat
  cid : Nat
  destroyed : Bool := false
  ops : List (Nat × Nat) := []
  onOp : Bool := true
  onRPC : Bool := true
  onSubscribe : Bool := true
  onClose : Bool := false
deriving DecidableEq, Repr

/-- who caused a reply: `ConnectOp`, or the `ExecOp` with this number -/
inductive Src where
  | setup
  | handle (k : Nat)
deriving DecidableEq, Repr

/-- why an operation is over -/
inductive End where
  | reply          -- doReply() has set the state to Dead
  | teardown       -- ServerOp::cleanup()
deriving DecidableEq, Repr

/-- what an execution leads to, src/serverget.cpp:471-492 -/
inductive Call where
  | onGet | onPut | onRPC | nothing
deriving DecidableEq, Repr

/-- what can be observed, by the peer or by the application; operations and channels are numbered in order of creation -/
inductive Obs where
  | created (op chan : Nat)                      -- a new operation: the application is asked
  | exec (op handle : Nat) (c : Call)            -- an execution is accepted: the application is called with a new ExecOp
  | replied (op : Nat) (src : Src) (ok : Bool)   -- a reply message is sent
  | cancelled (op : Nat)                         -- a CANCEL_REQUEST has been handled which found a request executing
  | onCancel (op : Nat)                          -- the application's callbacks
  | onClose (op : Nat)
  | setClose (op : Nat)                          -- the application has set the onClose callback
  | ended (op : Nat) (why : End)
  | chanCreated (chan : Nat)
  | chanGone (chan : Nat)                        -- ServerChan::cleanup()
  | chanClosed (chan : Nat)                      -- the application's ChannelControl::onClose callback
deriving DecidableEq, Repr

/-- src/serverconn.h:117-130 `ServerConn`; `ops`, `chans`: all ever created.  `handles`: the operation each ExecOp refers to.
`pending`: operations whose cleanup() has been dispatched (src/servermon.cpp:655).  `aborted`: an assert() failed. -/
structure SConn where
  isOpen : Bool := true
  nextSID : Nat := 0x07050301
  chans : List SChan := []
  ops : List SOp := []
  chanBySID : List (Nat × Nat) := []
  opByIOID : List (Nat × Nat) := []
  handles : List Nat := []
  pending : List Nat := []
  aborted : Bool := false
  log : List Obs := []

abbrev Map := List (Nat × Nat)
def Map.find? (m : Map) (k : Nat) : Option Nat := List.lookup k m
def Map.erase (m : Map) (k : Nat) : Map := m.filter fun p => p.1 != k
def Map.insert (m : Map) (k v : Nat) : Map := (k, v) :: Map.erase m k

def SConn.emit (s : SConn) (o : Obs) : SConn := { s with log := s.log ++ [o] }
def SConn.modOp (s : SConn) (i : Nat) (f : SOp → SOp) : SConn := { s with ops := s.ops.modify i f }
def SConn.modChan (s : SConn) (c : Nat) (f : SChan → SChan) : SConn := { s with chans := s.chans.modify c f }
def SConn.emitIf (s : SConn) (b : Bool) (o : Obs) : SConn := if b then s.emit o else s

/-- the last reference to an operation `j`, other than `i`, which is still alive goes away when its entry is erased -/
def losesLive (s : SConn) (i : Nat) (op : SOp) : Bool :=
  match Map.find? s.opByIOID op.ioid with
  | none => false
  | some j => j != i && (match s.ops[j]? with | none => false | some o => o.state != .dead && o.chan == op.chan)

/-- src/serverconn.cpp:497-501: `erase(ioid)` from both maps, whatever operation is found there.  If that is the last
reference to another operation, ~ServerOp() (:467-472) asserts that it is Dead. -/
def forget (s : SConn) (i : Nat) (op : SOp) : SConn :=
  { s with
    aborted := s.aborted || losesLive s i op
    chans := s.chans.modify op.chan fun c => { c with ops := Map.erase c.ops op.ioid }
    opByIOID := Map.erase s.opByIOID op.ioid }

/-- src/serverconn.cpp:481-513 `ServerOp::cleanup`.  Simplification: onClose() is called at once, in the C++ it is
dispatched; nothing else can happen to the operation in between since it is Dead. -/
def cleanup (s : SConn) (i : Nat) : SConn :=
  match s.ops[i]? with
  | none => s
  | some op =>
    if op.state = .dead then s
    else
      let s := s.emitIf (op.state == .executing && op.onCancel) (.onCancel i)
      let s := s.modOp i fun op => { op with state := .dead, onCancel := false, onClose := false }
      let s := s.emit (.ended i .teardown)
      let s := forget s i op
      s.emitIf op.onClose (.onClose i)

def cleanupAll (s : SConn) (is : List Nat) : SConn := is.foldl cleanup s

/-- src/serverchan.cpp:43-60 `ServerChan::cleanup` -/
def chanCleanup (s : SConn) (c : Nat) : SConn :=
  match s.chans[c]? with
  | none => s
  | some ch =>
    if ch.destroyed then s
    else
      let s := s.modChan c fun ch => { ch with destroyed := true, ops := [], onClose := false }
      let s := s.emit (.chanGone c)
      let s := cleanupAll s (ch.ops.map (·.2))
      s.emitIf ch.onClose (.chanClosed c)

def chanCleanupAll (s : SConn) (cs : List Nat) : SConn := cs.foldl chanCleanup s

/-- src/serverconn.cpp:346-362 `ServerConn::cleanup`, when the connection is closed for any reason -/
def disconnect (s : SConn) : SConn :=
  if s.isOpen then
    let ops := s.opByIOID.map (·.2)
    let chans := s.chanBySID.map (·.2)
    chanCleanupAll (cleanupAll { s with isOpen := false, opByIOID := [], chanBySID := [] } ops) chans
  else s

/-! ### ServerGPR -/

/-- src/serverget.cpp:59-70: may this reply be sent?  `value`: type of the value passed, if any -/
def replyOK (op : SOp) (value : Option Nat) : Bool :=
  if op.kind = .get ∨ (op.kind = .put ∧ op.subcmd &&& 0x40 ≠ 0) then value.isSome && value == op.typ
  else if op.kind = .put then value.isNone
  else true

/-- the state after a reply, src/serverget.cpp:86-110 -/
def replyState (op : SOp) (ok : Bool) : OpState :=
  if !ok then (if op.state = .executing then .idle else .dead)
  else if op.state = .creating then .idle
  else if op.last then .dead else .idle

/-- src/serverget.cpp:37-121 `ServerGPR::doReply`; `ok`: no error message.  The call of cleanup() at :118 has no effect on a
Dead operation (src/serverconn.cpp:483). -/
def doReply (s : SConn) (i : Nat) (value : Option Nat) (ok : Bool) (src : Src) : SConn :=
  match s.ops[i]? with
  | none => s
  | some op =>
    if !s.isOpen ∨ op.state = .dead ∨ op.state = .idle then s
    else if op.state = .executing ∧ ok ∧ !replyOK op value then s           -- throws, in the caller or in the loop
    else
      let st := replyState op ok
      let s := s.modOp i fun op => { op with state := st }
      let s := s.emit (.replied i src ok)
      s.emitIf (st == .dead) (.ended i .reply)

/-- src/serverget.cpp:183-208 `ServerGPRConnect::connect`; `maskOK`: request2mask() does not throw -/
def gprConnect (s : SConn) (i : Nat) (proto : Option Nat) (maskOK : Bool) : SConn :=
  match s.ops[i]? with
  | none => s
  | some op =>
    if !op.kind.isGPR ∨ op.state ≠ .creating ∨ (proto = none ∧ op.kind ≠ .rpc) ∨ op.typ ≠ none then s
    else
      let s := s.modOp i fun op => { op with typ := proto }
      if maskOK then doReply s i none true .setup else s

/-- src/serverget.cpp:209-222 `ServerGPRConnect::error`, also called by its destructor -/
def gprSetupError (s : SConn) (i : Nat) : SConn :=
  match s.ops[i]? with
  | none => s
  | some op => if op.kind.isGPR ∧ op.state = .creating then doReply s i none false .setup else s

/-- src/serverget.cpp:353 -/
def isPut (kind : Kind) (subcmd : Byte) : Bool := kind != .get && subcmd &&& 0x40 == 0

/-- src/serverget.cpp:471-492 -/
def callFor (kind : Kind) (subcmd : Byte) : Call :=
  if kind = .rpc ∧ isPut kind subcmd then .onRPC
  else if kind = .put ∧ isPut kind subcmd then .onPut
  else if kind ≠ .rpc ∧ !isPut kind subcmd then .onGet
  else .nothing

/-- common to INIT of any operation: src/serverget.cpp:377-386, src/servermon.cpp:532-540,
src/serverintrospect.cpp:148-155 -/
def newOp (s : SConn) (c ioid : Nat) (kind : Kind) (subcmd : Byte) (st : OpState) : SConn :=
  let i := s.ops.length
  let s : SConn := { s with
    ops := s.ops ++ [{ chan := c, ioid := ioid, kind := kind, subcmd := subcmd, state := st }]
    opByIOID := Map.insert s.opByIOID ioid i
    chans := s.chans.modify c fun ch => { ch with ops := Map.insert ch.ops ioid i } }
  s.emit (.created i c)

/-- src/serverget.cpp:355-406, INIT of GET, PUT or RPC.  An RPC is connected at once. -/
def gprInit (s : SConn) (kind : Kind) (sid ioid : Nat) (subcmd : Byte) : SConn :=
  match Map.find? s.chanBySID sid, Map.find? s.opByIOID ioid with
  | some c, none =>
    let i := s.ops.length
    let s := newOp s c ioid kind subcmd .creating
    if kind = .rpc then gprConnect s i none true else s
  | _, _ => disconnect s

/-- src/serverget.cpp:408-505, executing GET, PUT or RPC.  `ok`: the message could be decoded.
The application may keep the ExecOp, use it at once (which takes effect later, by way of dispatch), drop it, or throw. -/
def gprExec (s : SConn) (kind : Kind) (ioid : Nat) (subcmd : Byte) (ok : Bool) : SConn :=
  match Map.find? s.opByIOID ioid with
  | none => s
  | some i =>
    match s.ops[i]? with
    | none => s
    | some op =>
      if op.state = .dead then s
      else if !op.kind.isGPR ∨ op.state = .creating then disconnect s
      else if kind ≠ .rpc ∧ op.typ = none then disconnect s
      else if !ok then disconnect s
      else if op.state = .idle then
        let k := s.handles.length
        let s := { s with handles := s.handles ++ [i] }
        let s := s.modOp i fun op => { op with last := op.last || subcmd &&& 0x10 != 0, subcmd := subcmd, state := .executing }
        s.emit (.exec i k (callFor kind subcmd))
      else s

/-- src/serverconn.cpp:242-275 `handle_CANCEL_REQUEST` -/
def cancelRequest (s : SConn) (sid ioid : Nat) : SConn :=
  match Map.find? s.opByIOID ioid with
  | none => s
  | some i =>
    match s.ops[i]? with
    | none => s
    | some op =>
      if (s.chans[op.chan]?).map (·.sid) ≠ some sid then s
      else if op.state = .executing then
        let s := s.modOp i fun op => { op with state := .idle }
        let s := s.emitIf op.onCancel (.onCancel i)
        s.emitIf (op.kind != .mon) (.cancelled i)
      else s

/-- src/serverconn.cpp:277-301 `handle_DESTROY_REQUEST`.  First the entry of the channel named by the message is erased, then
the operation found by its ioid alone is cleaned up. -/
def destroyRequest (s : SConn) (sid ioid : Nat) : SConn :=
  match Map.find? s.opByIOID ioid with
  | none => s
  | some i =>
    let s := match Map.find? s.chanBySID sid with
      | none => s
      | some c => s.modChan c fun ch => { ch with ops := Map.erase ch.ops ioid }
    cleanup { s with opByIOID := Map.erase s.opByIOID ioid } i

/-! ### channels -/

/-- src/serverchan.cpp:291-293: the next number which is not in use.  The C++ loop has no bound but the number of channels. -/
def freshSID (m : Map) : Nat → Nat → Nat
  | 0, n => n
  | f+1, n => if (Map.find? m n).isSome then freshSID m f ((n + 1) % 2 ^ 32) else n

/-- src/serverchan.cpp:275-366, one channel of a CREATE_CHANNEL which a Source accepts.  A refused one leaves no trace. -/
def createChan (s : SConn) (cid : Nat) (onOp onRPC onSubscribe onClose : Bool) : SConn :=
  let sid := freshSID s.chanBySID (s.chanBySID.length + 1) s.nextSID
  let c := s.chans.length
  let s : SConn := { s with
    nextSID := (sid + 1) % 2 ^ 32
    chans := s.chans ++ [{ sid := sid, cid := cid, onOp := onOp, onRPC := onRPC, onSubscribe := onSubscribe, onClose := onClose }]
    chanBySID := Map.insert s.chanBySID sid c }
  s.emit (.chanCreated c)

/-- src/serverchan.cpp:371-420 `handle_DESTROY_CHANNEL`: the entry in chanBySID stays -/
def destroyChan (s : SConn) (sid : Nat) : SConn :=
  match Map.find? s.chanBySID sid with
  | none => s
  | some c => chanCleanup s c

/-! ### MONITOR and GET_FIELD, as far as the life of the operation is concerned -/

/-- src/servermon.cpp:467-550 -/
def monInit (s : SConn) (sid ioid : Nat) : SConn :=
  match Map.find? s.chanBySID sid, Map.find? s.opByIOID ioid with
  | some c, none => newOp s c ioid .mon 0 .creating
  | _, _ => disconnect s

/-- src/servermon.cpp:626-634 -/
def monSet (s : SConn) (i : Nat) : Option Bool → SConn
  | none => s
  | some b => s.modOp i fun op => { op with state := if b then .executing else .idle }

/-- src/servermon.cpp:552-664: start, stop, destroy.  `start`: subcmd&4 and subcmd&0x40; `destroy`: subcmd&0x10 -/
def monCtl (s : SConn) (sid ioid : Nat) (start : Option Bool) (destroy : Bool) : SConn :=
  match Map.find? s.opByIOID ioid with
  | none => s
  | some i =>
    match s.ops[i]? with
    | none => s
    | some op =>
      if op.state = .dead then s
      else if op.kind ≠ .mon ∨ op.state = .creating then disconnect s
      else if (s.chans[op.chan]?).map (·.sid) ≠ some sid then disconnect s
      else
        let s := monSet s i start
        if destroy then
          { s with
            chans := s.chans.modify op.chan fun c => { c with ops := Map.erase c.ops ioid }
            opByIOID := Map.erase s.opByIOID ioid
            pending := s.pending ++ [i] }
        else s

/-- src/servermon.cpp:129-131 and :151-168, the reply to INIT of a monitor -/
def monReply (s : SConn) (i : Nat) (ok : Bool) : SConn :=
  match s.ops[i]? with
  | none => s
  | some op =>
    if op.kind ≠ .mon ∨ op.state ≠ .creating ∨ !s.isOpen then s
    else
      let s := s.modOp i fun op => { op with state := if ok then .idle else .dead }
      let s := s.emit (.replied i .setup ok)
      s.emitIf (!ok) (.ended i .reply)

/-- src/servermon.cpp:139-144 and :176-181, the final message of a monitor; the cleanup() has no effect -/
def monFinish (s : SConn) (i : Nat) : SConn :=
  match s.ops[i]? with
  | none => s
  | some op =>
    if op.kind ≠ .mon ∨ op.state ≠ .executing ∨ !s.isOpen then s
    else (s.modOp i fun op => { op with state := .dead }).emit (.ended i .reply)

/-- src/serverintrospect.cpp:120-175; a GET_FIELD executes at once -/
def getField (s : SConn) (sid ioid : Nat) : SConn :=
  match Map.find? s.chanBySID sid, Map.find? s.opByIOID ioid with
  | some c, none =>
    let i := s.ops.length
    let s := newOp s c ioid .info 0 .executing
    { s with handles := s.handles ++ [i] }.emit (.exec i s.handles.length .nothing)
  | _, _ => s

/-- src/serverintrospect.cpp:24-51 `ServerIntrospect::doReply`.  Unlike the others it forgets the operation. -/
def infoReply (s : SConn) (i : Nat) (k : Nat) (ok : Bool) : SConn :=
  match s.ops[i]? with
  | none => s
  | some op =>
    if op.kind ≠ .info ∨ op.state ≠ .executing ∨ !s.isOpen then s
    else
      let s := s.modOp i fun op => { op with state := .dead }
      let s := s.emit (.replied i (.handle k) ok)
      let s := s.emit (.ended i .reply)
      forget s i op

/-! ### events -/

inductive Ev where
  -- messages
  | gprInit (kind : Kind) (sid ioid : Nat) (subcmd : Byte)
  | gprExec (kind : Kind) (ioid : Nat) (subcmd : Byte) (ok : Bool)
  | monInit (sid ioid : Nat)
  | monCtl (sid ioid : Nat) (start : Option Bool) (destroy : Bool)
  | getField (sid ioid : Nat)
  | cancel (sid ioid : Nat)
  | destroy (sid ioid : Nat)
  | createChan (cid : Nat) (onOp onRPC onSubscribe onClose : Bool)
  | destroyChan (sid : Nat)
  | disconnect                           -- also: a message which can not be decoded, a timeout, Server::stop()
  -- the application
  | connect (op : Nat) (proto : Option Nat) (maskOK : Bool)
  | setupError (op : Nat)
  | monReply (op : Nat) (ok : Bool)
  | monFinish (op : Nat)
  | reply (k : Nat) (value : Option Nat)
  | error (k : Nat)
  | setOnClose (op : Nat)
  | setOnCancel (k : Nat)
  | closeChan (chan : Nat)
  | runPending                           -- the next dispatched cleanup()
deriving DecidableEq

/-- ExecOp::reply()/error(), ConnectOp of a GET_FIELD -/
def useHandle (s : SConn) (k : Nat) (value : Option Nat) (ok : Bool) : SConn :=
  match s.handles[k]? with
  | none => s
  | some i =>
    match s.ops[i]? with
    | none => s
    | some op => if op.kind = .info then infoReply s i k ok else doReply s i value ok (.handle k)

/-- src/serverget.cpp:242-251, src/servermon.cpp:424-433, src/serverintrospect.cpp:101-110.  A callback set on a Dead
operation is never called (it is kept in the C++, ignored here). -/
def setOnClose (s : SConn) (i : Nat) : SConn :=
  match s.ops[i]? with
  | none => s
  | some op =>
    if op.state = .dead then s
    else (s.modOp i fun op => { op with onClose := true }).emit (.setClose i)

/-- src/serverget.cpp:307-316 `ExecOp::onCancel`; not available for monitors.  As above for a Dead operation. -/
def setOnCancel (s : SConn) (k : Nat) : SConn :=
  match s.handles[k]? with
  | none => s
  | some i => s.modOp i fun op => if op.state = .dead ∨ !op.kind.isGPR then op else { op with onCancel := true }

/-- the cleanup() dispatched in src/servermon.cpp:655 -/
def runPending (s : SConn) : SConn :=
  match s.pending with
  | [] => s
  | i :: more => cleanup { s with pending := more } i

/-- one event.  Messages are only received while the connection is open; kinds other than GPR never reach the GPR handlers. -/
def step (s : SConn) (e : Ev) : SConn :=
  if s.aborted then s
  else match e with
  | .gprInit k sid ioid sc => if s.isOpen ∧ k.isGPR then gprInit s k sid ioid sc else s
  | .gprExec k ioid sc ok => if s.isOpen ∧ k.isGPR then gprExec s k ioid sc ok else s
  | .monInit sid ioid => if s.isOpen then monInit s sid ioid else s
  | .monCtl sid ioid st d => if s.isOpen then monCtl s sid ioid st d else s
  | .getField sid ioid => if s.isOpen then getField s sid ioid else s
  | .cancel sid ioid => if s.isOpen then cancelRequest s sid ioid else s
  | .destroy sid ioid => if s.isOpen then destroyRequest s sid ioid else s
  | .createChan cid a b c d => if s.isOpen then createChan s cid a b c d else s
  | .destroyChan sid => if s.isOpen then destroyChan s sid else s
  | .disconnect => disconnect s
  | .connect i p m => gprConnect s i p m
  | .setupError i => gprSetupError s i
  | .monReply i ok => monReply s i ok
  | .monFinish i => monFinish s i
  | .reply k v => useHandle s k v true
  | .error k => useHandle s k none false
  | .setOnClose i => setOnClose s i
  | .setOnCancel k => setOnCancel s k
  | .closeChan c => chanCleanup s c
  | .runPending => runPending s

def run (s : SConn) (es : List Ev) : SConn := es.foldl step s

end Pvxs.Server
