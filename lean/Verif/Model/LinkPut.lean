/-
PVA output and forward links of an IOC: the part of a pvaLinkChannel which puts.

Modelled: /repo/ioc/pvalink_lset.cpp:570-664 (pvaPutValueX, pvaPutValue, pvaPutValueAsync,
pvaScanForward), /repo/ioc/pvalink_channel.cpp:126-184 (linkBuildPut), :186-217 (linkPutDone),
:219-280 (pvaLinkChannel::put), :282-310 (AfterPut::run), the Disconnect and first update cases of
run (:349-378), /repo/ioc/pvalink_link.cpp:66-80 (valid, onDisconnect); of the client:
/repo/src/clientget.cpp:362-386 (a put which is executed by itself is made again on the next
connection), :567-594 (the destructor of an operation waits for the worker).

Simplified: the links of one channel in the order of `links`; a value is an element of `α`, and
what putting it into the prototype does is a parameter (`conv`); the record which a link belongs to
is a number.  The callbacks of the client run in two steps, as its worker enters them before it has
the lock of the channel.
-/
namespace Pvxs.LinkPut

/-- `proc` of an output link (pvalink.h:74-80); CP and CPP act as PP (pvalink_channel.cpp:242-245) -/
inductive Proc where
  | npp
  | dflt
  | pp
deriving DecidableEq, Repr

/-- A link. `scratch` is put_scratch if used_scratch, `queue` is put_queue if used_queue
(pvalink.h:236-238). -/
structure Link (α : Type) where
  record : Nat
  proc : Proc := .dflt
  defer : Bool := false
  retry : Bool := false
  scratch : Option α := none
  queue : Option α := none
deriving DecidableEq, Repr

/-- `record._options.process` of a PUT -/
inductive Process where
  | passive
  | yes
  | no
deriving DecidableEq, Repr

/-- op_put. `sent`: the builder has been called and the PUT is on its way. -/
structure Op where
  process : Process
  block : Bool
  sent : Bool := false
deriving DecidableEq, Repr

/-- A pvaLinkChannel (pvalink.h:146-222). `waiting` is after_put; `scans` counts AfterPut in the
queue of the worker of links; `inCb`: the worker of the client is about to call linkBuildPut or
linkPutDone, and does not have the lock. -/
structure Chan (α : Type) where
  links : List (Link α)
  connected : Bool := false
  op : Option Op := none
  waiting : List Nat := []
  scans : Nat := 0
  inCb : Bool := false
deriving DecidableEq, Repr

/-- What can be seen outside. -/
inductive Out (α : Type) where
  /-- the put function of the link returns an error -/
  | refused (i : Nat)
  /-- a PUT is sent, with these values of the links -/
  | sent (process : Process) (block : Bool) (vals : List (Nat × α))
  /-- asynchronous processing of a record is completed -/
  | completed (r : Nat)
  /-- "PVA link put ERROR" -/
  | error
deriving DecidableEq, Repr

inductive Fate where
  | ok
  | deadlock
deriving DecidableEq, Repr

structure Ret (α : Type) where
  fate : Fate := .ok
  ch : Chan α
  outs : List (Out α) := []
deriving DecidableEq, Repr

/-- what assigning a value to the prototype does (pvalink_channel.cpp:139-181): it is set, left out
(no such field, an empty array for a scalar), or the conversion throws -/
inductive Conv where
  | sets
  | skips
  | throws
deriving DecidableEq, Repr

/-- the links whose scratch value is moved, one by one (pvalink_channel.cpp:226-248) -/
def moveOne (l : Link α) : Link α :=
  match l.scratch with
  | none => l
  | some v => { l with scratch := none, queue := some v }

/-- the option "process" (pvalink_channel.cpp:235-263), from the links moved now -/
def processOf (force : Bool) (ls : List (Link α)) : Process :=
  if force || ls.any (fun l => l.scratch.isSome && l.proc == .pp) then .yes
  else if ls.any (fun l => l.scratch.isSome && l.proc == .npp) then .no
  else .passive

/-- pvaLinkChannel::put, by a thread which holds the lock (pvalink_channel.cpp:219-280). Assigning
op_put destroys the operation in progress, which waits for the worker of the client
(clientget.cpp:583-592) unless called on it (`onWorker`); the worker waits for the lock if it is
in one of the callbacks. -/
def chanPut (c : Chan α) (force onWorker : Bool) : Fate × Chan α :=
  let doit := force || c.links.any (fun l => l.scratch.isSome)
  let c1 := { c with links := c.links.map moveOne }
  if doit then
    if c.op.isSome && c.inCb && !onWorker then (.deadlock, c)
    else (.ok, { c1 with op := some { process := processOf force c.links, block := !c.waiting.isEmpty } })
  else (.ok, c1)

/-- std::set::insert of after_put -/
def addRec (r : Nat) (l : List Nat) : List Nat := if r ∈ l then l else l ++ [r]

/-- the value of a link which is written -/
def setScratch (ls : List (Link α)) (i : Nat) (v : α) : List (Link α) :=
  ls.modify i fun l => { l with scratch := some v }

/-- pvaPutValueX (pvalink_lset.cpp:570-630) -/
def putValue (c : Chan α) (i : Nat) (v : α) (wait : Bool) : Ret α :=
  match c.links[i]? with
  | none => { ch := c }
  | some l =>
    if !l.retry && !c.connected then { ch := c, outs := [.refused i] }
    else
      let c1 := { c with links := setScratch c.links i v,
                         waiting := if wait then addRec l.record c.waiting else c.waiting }
      if l.defer then { ch := c1 }
      else
        let r := chanPut c1 false false
        { fate := r.1, ch := r.2 }

/-- pvaScanForward (pvalink_lset.cpp:642-660) -/
def forward (c : Chan α) (i : Nat) : Ret α :=
  match c.links[i]? with
  | none => { ch := c }
  | some l =>
    if !l.retry && !c.connected then { ch := c, outs := [.refused i] }
    else
      let r := chanPut c true false
      { fate := r.1, ch := r.2 }

/-- linkPutDone (pvalink_channel.cpp:186-217), on the worker of the client -/
def finish (c : Chan α) (ok : Bool) : Ret α :=
  let needscans := !c.waiting.isEmpty
  let c1 := { c with op := none, inCb := false }
  let c2 := if ok then (chanPut c1 false true).2 else c1
  { ch := { c2 with scans := if needscans then c2.scans + 1 else c2.scans },
    outs := if ok then [] else [.error] }

/-- the loop of linkBuildPut (pvalink_channel.cpp:133-181): the links after it, the values set, and
whether an exception ended it -/
def buildLoop (conv : Nat → α → Conv) : Nat → List (Link α) → List (Link α) × List (Nat × α) × Bool
  | _, [] => ([], [], false)
  | i, l :: ls =>
    match l.queue with
    | none =>
      let r := buildLoop conv (i+1) ls
      (l :: r.1, r.2)
    | some v =>
      let l1 := { l with queue := none }
      match conv i v with
      | .throws => (l1 :: ls, [], true)
      | .skips =>
        let r := buildLoop conv (i+1) ls
        (l1 :: r.1, r.2)
      | .sets =>
        let r := buildLoop conv (i+1) ls
        (l1 :: r.1, (i, v) :: r.2.1, r.2.2)

/-- linkBuildPut; after it the PUT is sent. An exception ends the operation (clientget.cpp:276-287),
and linkPutDone is called. -/
def build (conv : Nat → α → Conv) (c : Chan α) : Ret α :=
  match c.op with
  | none => { ch := c }
  | some op =>
    let r := buildLoop conv 0 c.links
    if r.2.2 then finish { c with links := r.1 } false
    else
      { ch := { c with links := r.1, op := some { op with sent := true }, inCb := false },
        outs := [.sent op.process op.block r.2.1] }

/-- pvaLink::onDisconnect -/
def dropVals (l : Link α) : Link α := { l with scratch := none, queue := none }

/-- What can happen. -/
inductive Ev (α : Type) where
  /-- a record writes link `i`; `wait`: it wants to be told of the completion -/
  | put (i : Nat) (v : α) (wait : Bool)
  /-- a record processes its forward link `i` -/
  | forward (i : Nat)
  /-- the worker of the client is about to call linkBuildPut or linkPutDone -/
  | enter
  /-- it calls linkBuildPut -/
  | build (conv : Nat → α → Conv)
  /-- it calls linkPutDone with the answer of the server -/
  | done (ok : Bool)
  /-- the client loses the connection -/
  | lost
  /-- the worker of links takes Disconnect from the subscription -/
  | disconnect
  /-- it takes the first update of a connection -/
  | connect
  /-- it takes an AfterPut from its queue -/
  | after

def step (c : Chan α) : Ev α → Ret α
  | .put i v wait => putValue c i v wait
  | .forward i => forward c i
  | .enter => { ch := { c with inCb := c.op.isSome } }
  | .build conv =>
    match c.op with
    | some op => if c.inCb && !op.sent then build conv c else { ch := { c with inCb := false } }
    | none => { ch := { c with inCb := false } }
  | .done ok =>
    match c.op with
    | some op => if c.inCb && (op.sent || !ok) then finish c ok else { ch := { c with inCb := false } }
    | none => { ch := { c with inCb := false } }
  | .lost => { ch := { c with op := c.op.map fun op => { op with sent := false } } }
  | .disconnect =>
    if c.op.isSome && c.inCb then { fate := .deadlock, ch := c }
    else { ch := { c with connected := false, op := none, links := c.links.map dropVals } }
  | .connect => { ch := { c with connected := true } }
  | .after =>
    if c.scans = 0 then { ch := c }
    else { ch := { c with scans := c.scans - 1, waiting := [] }, outs := c.waiting.map .completed }

def run (c : Chan α) : List (Ev α) → Ret α
  | [] => { ch := c }
  | e :: es =>
    let r := step c e
    match r.fate with
    | .deadlock => r
    | .ok =>
      let r2 := run r.ch es
      { r2 with outs := r.outs ++ r2.outs }

end Pvxs.LinkPut
