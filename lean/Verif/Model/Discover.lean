import Verif.Model.Beacon
/-
Context::discover(): who is told of servers, on which thread, and how it ends.
src/clientdiscover.cpp:18-115, src/client.cpp:609-626,742-823 (onBeacon), :863-874 (a reply to a ping), :1241-1275 (tickBeaconClean),
src/evhelper.cpp:361-375.

Beacons are received on the thread of the UDP collector (`udp`), replies to a ping and time outs are found on the worker of the client
(`tcp`), which also runs what exec(), cancel() and the release of an operation ask for.  Events are reported with `pokeLock` held, so by one
thread at a time; the list of listeners is changed without it.

Simplifications: listeners are numbered, and a number is used once (the code uses addresses); the list is in the order in which they were put in
place; an event is a number (Model/Beacon.lean says which there are); the Context is not closed.  `raced` is set if the list is changed
while the other thread goes through it: the behaviour is then undefined, and the model goes on as if the change had been made in between.
A callback which cancels does so while nothing else is queued for the worker.
-/
namespace Pvxs.Discover

inductive Th where
  | udp
  | tcp
deriving DecidableEq, Repr

def Th.other : Th → Th
  | .udp => .tcp
  | .tcp => .udp

/-- what a callback does -/
inductive Act where
  | ok
  | throws
  /-- it calls cancel() of the operation j -/
  | cancels (j : Nat)
deriving DecidableEq, Repr

/-- src/clientdiscover.cpp:103-115 `serverEvent`, on its way -/
structure Frame where
  ev : Nat
  /-- still to be told -/
  todo : List Nat
  /-- whose callback is running -/
  inside : Option Nat := none
deriving DecidableEq, Repr

/-- what is queued for the worker: src/clientdiscover.cpp:83-97, :30-39, :66-78 -/
inductive Work where
  | setup (d : Nat)
  | cancel (d : Nat)
  | release (d : Nat)
deriving DecidableEq, Repr

/-- what can be seen -/
inductive Obs where
  /-- exec() has taken effect -/
  | placed (d : Nat)
  /-- cancel() or release has taken effect -/
  | removed (d : Nat)
  /-- a server came or went -/
  | begins (ev : Nat)
  /-- the callback of d is called -/
  | tells (d ev : Nat)
deriving DecidableEq, Repr

inductive Fate where
  | ok
  /-- an iterator which is no longer valid is used -/
  | freed
  /-- an exception from a destructor -/
  | terminated
  /-- both threads wait for each other -/
  | deadlock
deriving DecidableEq, Repr

structure St where
  /-- `ContextImpl::discoverers` -/
  disc : List Nat := []
  /-- released, but kept alive by a callback which is running -/
  dying : List Nat := []
  frame : Th → Option Frame := fun _ => none
  /-- waits for pokeLock -/
  waits : Th → Option Nat := fun _ => none
  queue : List Work := []
  trace : List Obs := []
  raced : Bool := false
  fate : Fate := .ok

def upd {α : Type} (f : Th → α) (t : Th) (x : α) : Th → α := fun u => if u = t then x else f u

def St.busy (s : St) (t : Th) : Bool := (s.frame t).isSome || (s.waits t).isSome

/-- pokeLock is taken -/
def St.begin (s : St) (t : Th) (ev : Nat) : St :=
  { s with frame := upd s.frame t (some { ev := ev, todo := s.disc }), waits := upd s.waits t none, trace := s.trace ++ [.begins ev] }

/-- `Guard G(pokeLock)`, src/client.cpp:747, :1246 -/
def St.start (s : St) (t : Th) (ev : Nat) : St :=
  if s.busy t then s
  else if (s.frame t.other).isSome then { s with waits := upd s.waits t (some ev) }
  else s.begin t ev

/-- src/clientdiscover.cpp:105-108 -/
def St.enter (s : St) (t : Th) : St :=
  match s.frame t with
  | some { ev, todo := d :: rest, inside := none } =>
    { s with frame := upd s.frame t (some { ev := ev, todo := rest, inside := some d }), trace := s.trace ++ [.tells d ev] }
  | _ => s

/-- `discoverers.erase()` -/
def St.erase (s : St) (d : Nat) : St :=
  { s with disc := s.disc.filter (· != d), trace := s.trace ++ [.removed d] }

/-- the callback ends: an exception is logged (src/clientdiscover.cpp:109-111).  cancel() in a callback runs at once on the worker, or else waits for it. -/
def St.leave (s : St) (t : Th) (a : Act) : St :=
  match s.frame t with
  | some { ev, todo, inside := some d } =>
    let s1 := { s with frame := upd s.frame t (some { ev := ev, todo := todo, inside := none }), dying := s.dying.filter (· != d) }
    if d ∈ s.dying then { s1 with fate := if t = .udp then .terminated else s.fate }
    else match a with
      | .ok | .throws => s1
      | .cancels j =>
        if t = .udp ∧ (s.waits .tcp).isSome then { s1 with fate := .deadlock }
        else if j = d then { (s1.erase j) with fate := .freed }
        else { (s1.erase j) with frame := upd s.frame t (some { ev := ev, todo := todo.filter (· != j), inside := none }) }
  | _ => s

/-- all have been told, pokeLock is released; the other thread may go on -/
def St.finish (s : St) (t : Th) : St :=
  match s.frame t with
  | some { ev := _, todo := [], inside := none } =>
    let s1 := { s with frame := upd s.frame t none }
    match s.waits t.other with
    | some ev => s1.begin t.other ev
    | none => s1
  | _ => s

/-- the worker is not busy, and takes the next entry of its queue -/
def St.work (s : St) : St :=
  if s.busy .tcp then s
  else
    let raced := s.raced || (s.frame .udp).isSome
    match s.queue with
    | [] => s
    -- :83-97
    | .setup d :: q => { s with queue := q, raced := raced, disc := s.disc ++ [d], trace := s.trace ++ [.placed d] }
    -- :30-48
    | .cancel d :: q => { (s.erase d) with queue := q, raced := raced }
    -- :66-78; the destructor, src/clientdiscover.cpp:23-26, runs at once unless a callback is running
    | .release d :: q =>
      let dying := if (s.frame .udp).any (fun f => f.inside == some d) then d :: s.dying else s.dying
      { (s.erase d) with queue := q, raced := raced, dying := dying }

inductive Op where
  | exec (d : Nat)
  | cancel (d : Nat)
  | release (d : Nat)
  | work
  | start (t : Th) (ev : Nat)
  | enter (t : Th)
  | leave (t : Th) (a : Act)
  | finish (t : Th)
deriving DecidableEq, Repr

def St.step (s : St) : Op → St
  | .exec d => { s with queue := s.queue ++ [.setup d] }
  | .cancel d => { s with queue := s.queue ++ [.cancel d] }
  | .release d => { s with queue := s.queue ++ [.release d] }
  | .work => s.work
  | .start t ev => s.start t ev
  | .enter t => s.enter t
  | .leave t a => s.leave t a
  | .finish t => s.finish t

/-- it ends if something is wrong -/
def run (s : St) : List Op → St
  | [] => s
  | o :: os => if s.fate = .ok then run (s.step o) os else s

/-- src/clientdiscover.cpp:88-95: is a ping sent -/
def pings (s : St) (ping : Bool) : Bool := s.disc.isEmpty && ping

end Pvxs.Discover
