/-
PVA input links of an IOC: the subscription of a pvaLinkChannel, and the records it processes.

Modelled: /repo/ioc/pvalink_channel.cpp:40-52 and 328-436 (the worker of links, pvaLinkChannel::run),
:313-325 (ScanTrack::scan), :79-84 (LinkSort), :106-124 (open); /repo/ioc/pvalink_lset.cpp:44-147
(pvaOpenLink, the part which attaches a link), /repo/ioc/pvalink_link.cpp:27-46 (the destructor of a
link), :121-132 (scanOnUpdate); /repo/src/clientmon.cpp:93-101 and 159-203 (wantToNotify, _pop).

Simplified: what the subscription delivers is a list of items, squashed or not (C13, C46); the cache of
the channel is an element of `α`, and `merge` is Value::assign. The records are processed in the step
which takes the item: only the worker changes the cache. A link which is removed while records are
processed is not modelled. Addresses of links are numbers.
-/
namespace Pvxs.LinkScan

/-- `proc` of an input link (pvalink.h:74-80) -/
inductive Proc where
  | npp
  | dflt
  | pp
  | cp
  | cpp
deriving DecidableEq, Repr

/-- A pvaLink; `input`: the field of the record is an input link (DBF_INLINK) -/
structure Link where
  addr : Nat
  record : Nat
  input : Bool := true
  proc : Proc := .cp
  atomic : Bool := false
  monorder : Int := 0
deriving DecidableEq, Repr

/-- scanOnUpdate (pvalink_link.cpp:121-132) -/
inductive Sou where
  | no
  | passive
  | yes
deriving DecidableEq, Repr

def scanOnUpdate (l : Link) : Sou :=
  if !l.input then .no
  else match l.proc with
    | .cp => .yes
    | .cpp => .passive
    | _ => .no

/-- What the subscription delivers: an update, Disconnect (or Finished), or RemoteError. -/
inductive Item (α : Type) where
  | update (d : α)
  | disconnect
  | error
deriving DecidableEq, Repr

/-- ScanTrack (pvalink.h:205-213) -/
structure Track where
  record : Nat
  checkPassive : Bool
deriving DecidableEq, Repr

/-- A pvaLinkChannel, its subscription, and its entries in the queue of the worker. `jobs` counts
them; `needNotify` is that of the subscription. -/
structure Chan (α : Type) where
  links : List Link := []
  changed : Bool := false
  atomics : List Track := []
  others : List Track := []
  connected : Bool := false
  root : Option α := none
  queue : List (Item α) := []
  needNotify : Bool := true
  jobs : Nat := 0
deriving DecidableEq, Repr

/-- What ScanTrack::scan does with a record (pvalink_channel.cpp:313-325). -/
inductive Act where
  | process (r : Nat)
  /-- it is active: RPRO is set -/
  | again (r : Nat)
deriving DecidableEq, Repr

/-- The records of an IOC: whether SCAN is Passive, whether PACT is set. -/
structure Recs where
  passive : Nat → Bool
  pact : Nat → Bool

inductive Out (α : Type) where
  /-- the records are processed; links read the cache of the channel, `none` if it is not connected -/
  | scan (as : List Act) (seen : Option α)
  /-- scanOnce of a record, after a link is attached -/
  | once (r : Nat)
deriving DecidableEq, Repr

/-- LinkSort (pvalink_channel.cpp:79-84) -/
def before (a b : Link) : Bool :=
  if a.monorder = b.monorder then decide (a.addr < b.addr) else decide (a.monorder < b.monorder)

/-- std::set::insert -/
def insertLink (l : Link) : List Link → List Link
  | [] => [l]
  | m :: ms => if before l m then l :: m :: ms else if before m l then m :: insertLink l ms else m :: ms

/-- the list of records of some links (pvalink_channel.cpp:390-405) -/
def tracks (ls : List Link) : List Track :=
  ls.filterMap fun l => match scanOnUpdate l with
    | .no => none
    | .passive => some ⟨l.record, true⟩
    | .yes => some ⟨l.record, false⟩

/-- ScanTrack::scan -/
def scanOne (rs : Recs) (t : Track) : Option Act :=
  if t.checkPassive && !rs.passive t.record then none
  else if rs.pact t.record then some (.again t.record)
  else some (.process t.record)

/-- what a link reads (valid, pvalink_link.cpp:66-69) -/
def seen (c : Chan α) : Option α := if c.connected then c.root else none

/-- the part of run which takes an item (pvalink_channel.cpp:338-380) -/
def takeItem (merge : α → α → α) (c : Chan α) : Item α → Chan α
  | .update d =>
    if !c.connected then { c with root := some d, connected := true }
    else { c with root := some (match c.root with | some r => merge r d | none => d) }
  | .disconnect => { c with connected := false }
  | .error => c

/-- the lists are made again (pvalink_channel.cpp:382-414) -/
def rebuild (c : Chan α) : Chan α :=
  if c.changed then
    { c with atomics := tracks (c.links.filter Link.atomic),
             others := tracks (c.links.filter fun l => !l.atomic), changed := false }
  else c

/-- pvaLinkChannel::run, once taken from the queue of the worker (pvalink_channel.cpp:328-436) -/
def work (merge : α → α → α) (rs : Recs) (c : Chan α) : Chan α × List (Out α) :=
  if c.jobs = 0 then (c, [])
  else match c.queue with
  | [] => ({ c with jobs := c.jobs - 1, needNotify := true }, [])
  | it :: q =>
    let c1 := rebuild (takeItem merge { c with queue := q } it)
    (c1, [.scan ((c1.atomics ++ c1.others).filterMap (scanOne rs)) (seen c1)])

/-- whether the record is processed once the link is attached (pvalink_lset.cpp:127-145) -/
def scanInit (rs : Recs) (l : Link) : Bool :=
  match scanOnUpdate l with
  | .no => false
  | .passive => rs.passive l.record
  | .yes => true

inductive Ev (α : Type) where
  /-- the subscription queues an item (clientmon.cpp:388-404, 645-704) -/
  | arrive (it : Item α)
  /-- a link is attached to the channel -/
  | add (l : Link) (rs : Recs)
  /-- a link is removed -/
  | remove (addr : Nat)
  /-- the worker takes one entry from its queue -/
  | work (rs : Recs)

def step (merge : α → α → α) (c : Chan α) : Ev α → Chan α × List (Out α)
  | .arrive it =>
    let notify := c.queue.isEmpty && c.needNotify
    ({ c with queue := c.queue ++ [it], needNotify := if notify then false else c.needNotify,
              jobs := if notify then c.jobs + 1 else c.jobs }, [])
  | .add l rs =>
    ({ c with links := insertLink l c.links, changed := true },
      if c.connected && scanInit rs l then [.once l.record] else [])
  | .remove a => ({ c with links := c.links.filter fun l => l.addr ≠ a, changed := true }, [])
  | .work rs => work merge rs c

def run (merge : α → α → α) (c : Chan α) : List (Ev α) → Chan α × List (Out α)
  | [] => (c, [])
  | e :: es =>
    let r := step merge c e
    let r2 := run merge r.1 es
    (r2.1, r.2 ++ r2.2)

end Pvxs.LinkScan
