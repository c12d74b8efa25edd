import Verif.Model.ServerMon
/-
SharedPV: src/sharedpv.cpp

One SharedPV, the channels, operations and subscriptions attached to it.  Its mutex makes each section which holds it atomic;
between the sections anything may happen.  An event which needs the mutex while post() holds it does not happen (`locked`).
The subscriptions themselves are those of Model/ServerMon.lean.

Simplifications: the requested mask is fixed when the subscription is created (it is computed in connect() from the type);
a request which fits the type is assumed.  The order in which post() visits the subscribers (a set of pointers) is that of
their insertion.  Callbacks of the application do not call back into the PV.  The unlocked accesses to
`pending` (:223) are not a data race here.  PUT and RPC go to the application.
-/
namespace Pvxs.SPV
open Pvxs.Mon (Upd)

/-- what can be observed -/
inductive Out where
  | opened (ty : Nat) (v : Upd)
  | posted (ty : Nat) (v : Upd)
  | closed
  | refused                        -- open() or post() throws
  | value (v : Option Upd)         -- result of fetch() and of a GET.  none: throws, resp. error
  | connectOp (op ty : Nat)        -- an operation is told the type
  | attached (sub : Nat) (v : Upd) -- the value from which subscription `sub` starts
  | firstConnect
  | lastDisconnect
  | closeChan (c : Nat)
deriving DecidableEq

/-- a subscription in the midst of connectSub() -/
structure Attach where
  sub : Nat
  cell : Nat                       -- the Value passed to connect() and to post()
  connected : Bool := false
deriving DecidableEq

/-- src/sharedpv.cpp:35-52 `SharedPV::Impl`, with the server.  `trace`: what was done to subscriptions.
`live`: channels whose onClose() callback has not been called.
`fan`: subscriptions to which post() in progress has not yet passed the Value `fanCell`. -/
structure World where
  sys : Mon.Sys := {}
  trace : List Mon.Ev := []
  current : Option (Nat × Upd) := none
  channels : List Nat := []
  live : List Nat := []
  nchan : Nat := 0
  pending : List Nat := []
  nops : Nat := 0
  mpending : List Nat := []
  attaching : List Attach := []
  subscribers : List Nat := []
  fan : List Nat := []
  fanCell : Nat := 0
  out : List Out := []
deriving DecidableEq

def World.act (w : World) (e : Mon.Ev) : World := { w with sys := Mon.step w.sys e, trace := w.trace ++ [e] }
def World.say (w : World) (o : List Out) : World := { w with out := w.out ++ o }

inductive Ev where
  | peer (e : Mon.Ev)                                  -- messages for subscriptions, and turns of the event loop
  | attach                                             -- a client connects to the PV
  | chanClosed (c : Nat)
  | op                                                 -- a client wants to GET, PUT, ...
  | opClosed (i : Nat)
  | subscribe (pipeline : Bool) (nack : Nat) (queueSize : Option Nat) (mask : List Bool)
  | subClosed (i : Nat)
  | connect (i : Nat)                                  -- connectSub(), first and second section
  | insert (i : Nat)
  | open (ty : Nat) (v : Upd)
  | post (ty : Nat) (v : Upd)
  | fan                                                -- the loop in post()
  | close
  | fetch
deriving DecidableEq

/-- events of a subscription which do not involve the PV -/
def peerOk : Mon.Ev → Bool
  | .ctl _ _ _ _ => true
  | .cancel _ => true
  | .work _ => true
  | _ => false

/-- src/sharedpv.cpp:240-262 onSubscribe.  The clone of the current value (:261) is a new Value. -/
def subscribe (w : World) (p : Bool) (n : Nat) (q : Option Nat) (mask : List Bool) : World :=
  let i := w.sys.mons.length
  let w := w.act (.subscribe p n q mask)
  match w.current with
  | none => { w with mpending := w.mpending ++ [i] }
  | some (_, v) =>
    let cell := w.sys.heap.length
    { (w.act (.value v)).say [.attached i v] with attaching := w.attaching ++ [⟨i, cell, false⟩] }

/-- src/sharedpv.cpp:79-92, not locked.  connect() throws if the subscription is already gone (src/servermon.cpp:380-406); error()
(:94-101) has no effect then.  A server which is destroyed meanwhile (connect() returns a null pointer) is not modelled. -/
def connect (w : World) (i : Nat) : World :=
  match w.attaching.find? fun a => a.sub == i && !a.connected, w.sys.mons[i]? with
  | some a, some m =>
    if m.state = .creating then
      let w := (w.act (.setup i true)).act (.post i a.cell false false)
      { w with attaching := w.attaching.map fun b => if b.sub = i then { b with connected := true } else b }
    else { w with attaching := w.attaching.filter fun b => b.sub != i }
  | _, _ => w

/-- src/sharedpv.cpp:93 -/
def insert (w : World) (i : Nat) : World :=
  if w.attaching.any fun a => a.sub == i && a.connected then
    { w with attaching := w.attaching.filter fun b => b.sub != i, subscribers := if i ∈ w.subscribers then w.subscribers else w.subscribers ++ [i] }
  else w

/-- src/sharedpv.cpp:84-88 and :248-252, the onClose() callback of a subscription -/
def subClosed (w : World) (i : Nat) : World :=
  { w.act (.close i) with mpending := w.mpending.erase i, subscribers := w.subscribers.erase i }

/-- src/sharedpv.cpp:337-372.  All subscriptions which were waiting are given the same Value `temp`. -/
def «open» (w : World) (ty : Nat) (v : Upd) : World :=
  if w.current.isSome then w.say [.refused]
  else
    let cell := w.sys.heap.length
    let w := w.act (.value v)
    let att := w.mpending.map fun i => (⟨i, cell, false⟩ : Attach)
    let o := .opened ty v :: w.mpending.map (fun i => .attached i v) ++ w.pending.map (fun i => .connectOp i ty)
    { w.say o with current := some (ty, v), pending := [], mpending := [], attaching := w.attaching ++ att }

/-- src/sharedpv.cpp:408-435 `post`, up to the loop -/
def post (w : World) (ty : Nat) (v : Upd) : World :=
  match w.current with
  | none => w.say [.refused]
  | some (ty0, u) =>
    if ty0 ≠ ty then w.say [.refused]
    else
      let cell := w.sys.heap.length
      { (w.act (.value v)).say [.posted ty v] with current := some (ty0, Mon.merge u v), fan := w.subscribers, fanCell := cell }

/-- src/sharedpv.cpp:432-434, one turn of the loop -/
def fan (w : World) : World :=
  match w.fan with
  | [] => w
  | i :: rest => { w.act (.post i w.fanCell false false) with fan := rest }

/-- src/sharedpv.cpp:383-406 -/
def close (w : World) : World :=
  { w.say (.closed :: w.channels.map .closeChan) with current := none, subscribers := [], channels := [] }

/-- src/sharedpv.cpp:264-301, end of attach() -/
def attach (w : World) : World :=
  let o := if w.channels.isEmpty then [.firstConnect] else []
  { w.say o with channels := w.channels ++ [w.nchan], live := w.live ++ [w.nchan], nchan := w.nchan + 1 }

/-- src/sharedpv.cpp:264-283, the onClose() callback of a channel: called once (src/serverchan.cpp:43-60) -/
def chanClosed (w : World) (c : Nat) : World :=
  if c ∈ w.live then
    let ch := w.channels.erase c
    let o := if ch.isEmpty then [.lastDisconnect] else []
    { w.say o with channels := ch, live := w.live.erase c }
  else w

/-- src/sharedpv.cpp:172-236 onOp -/
def op (w : World) : World :=
  match w.current with
  | none => { w with pending := w.pending ++ [w.nops], nops := w.nops + 1 }
  | some (ty, _) => { w.say [.connectOp w.nops ty] with nops := w.nops + 1 }

def World.locked (w : World) : Bool := !w.fan.isEmpty

def step (w : World) : Ev → World
  | .peer e => if peerOk e then w.act e else w
  | .connect i => connect w i
  | .fan => fan w
  | .opClosed i => { w with pending := w.pending.erase i }         -- :217-224
  | e =>
    if w.locked then w
    else match e with
      | .attach => attach w
      | .chanClosed c => chanClosed w c
      | .op => op w
      | .subscribe p n q mask => subscribe w p n q mask
      | .subClosed i => subClosed w i
      | .insert i => insert w i
      | .open ty v => «open» w ty v
      | .post ty v => post w ty v
      | .close => close w
      | .fetch => w.say [.value (w.current.map (·.2))]             -- :437-465, and onGet :180-198
      | _ => w

def run (w : World) (es : List Ev) : World := es.foldl step w

end Pvxs.SPV
