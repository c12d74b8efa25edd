import Verif.Model.ClientMon
/-
The work queue of subscriptions: the example in the documentation of `Context::monitor()`, and tools/monitor.cpp.
The subscriptions are those of Model/ClientMon; the queue between the worker and the main thread is the MPMCFIFO of
src/pvxs/util.h, whose own blocking and waking is in Model/Fifo: here push() and pop() are one step each.
-/
namespace Pvxs.WorkQueue
open ClientMon (Sub Out Entry)

/-- a subscription, and everything observed of it so far -/
structure One where
  sub : Sub
  started : Bool := false
  outs : List Out := []

/-- tools/monitor.cpp:100-121 -/
structure State where
  /-- the number of PVs, `argc-optind` -/
  n : Nat
  subs : Nat → One
  /-- `workqueue`; `none` is nullptr -/
  work : List (Option Nat) := []
  /-- a push() found no room: its thread waits -/
  blocked : Bool := false
  /-- `mon`, taken from the work queue, pop() not yet called -/
  hand : Option Nat := none
  /-- `mon`, to be pushed again -/
  back : Option Nat := none
  remaining : Nat
  interrupt : Bool := false
  /-- what was printed, oldest first -/
  printed : List (Nat × Entry) := []
  /-- main() has returned -/
  exit : Option Nat := none

/-- tools/monitor.cpp:100-106: `new` are the subscriptions as built -/
def init (n : Nat) (new : Nat → Sub) : State := { n := n, subs := fun i => { sub := new i }, remaining := n }

/-- src/pvxs/util.h:247-271 `emplace`, with the limit of tools/monitor.cpp:101 -/
def push (s : State) (x : Option Nat) : State :=
  if s.work.length < s.n + 1 then { s with work := s.work ++ [x] } else { s with blocked := true }

/-- tools/monitor.cpp:113-116, src/pvxs/client.h:463-468: the event callback of subscription `i`, for each call in `outs` -/
def notify (i : Nat) : List Out → State → State
  | [], s => s
  | .called :: outs, s => notify i outs (push s (some i))
  | _ :: outs, s => notify i outs s

/-- the subscription `i` becomes `o`, and does `outs` -/
def become (s : State) (i : Nat) (o : Sub) (outs : List Out) : State :=
  { s with subs := fun j => if j = i then { sub := o, started := true, outs := (s.subs i).outs ++ outs } else s.subs j }

/-- what the worker does; pop() is called by the main thread only -/
def byWorker : ClientMon.Ev → Bool
  | .pop => false
  | .popN _ => false
  | _ => true

inductive Ev where
  /-- the worker starts the subscription `i`: src/clientmon.cpp:828-845 -/
  | start (i : Nat) (fail up : Bool)
  /-- something happens to the subscription `i` on the worker -/
  | worker (i : Nat) (e : ClientMon.Ev)
  /-- the main thread: `workqueue.pop()` -/
  | take
  /-- the main thread: `mon->pop()` -/
  | pop
  /-- the main thread: `workqueue.push(mon)` -/
  | again
  /-- SIGINT -/
  | interrupt

/-- tools/monitor.cpp:178-186 -/
def status (s : State) : Nat := if s.remaining = 0 then 0 else 2

/-- tools/monitor.cpp:131-133: `while(auto mon = workqueue.pop())`, which waits while there is none, then the test of `remaining`
and `interrupt`.  A `mon` taken when it leaves the loop stays in `hand`. -/
def take (s : State) : State :=
  match s.exit, s.hand, s.back, s.work with
  | none, none, none, none :: rest => { s with work := rest, exit := some (status s) }
  | none, none, none, some i :: rest =>
    if s.remaining = 0 ∨ s.interrupt = true then { s with work := rest, hand := some i, exit := some (status s) }
    else { s with work := rest, hand := some i }
  | _, _, _, _ => s

/-- tools/monitor.cpp:152-156: `remaining` after an event -/
def leftAfter (e : Entry) (k : Nat) : Nat :=
  match e with
  | .exc .finished => k - 1
  | _ => k

/-- tools/monitor.cpp:137-174: the result of `mon->pop()` of subscription `i` -/
def handle (s : State) (i : Nat) : List Out → State
  | [.popped e] =>
    { s with hand := none, back := some i, printed := s.printed ++ [(i, e)]
             remaining := leftAfter e s.remaining }
  | _ => { s with hand := none }

/-- tools/monitor.cpp:136-142 -/
def pop (s : State) : State :=
  match s.exit, s.hand with
  | none, some i =>
    handle (become s i (ClientMon.pop (s.subs i).sub).1 (ClientMon.pop (s.subs i).sub).2) i (ClientMon.pop (s.subs i).sub).2
  | _, _ => s

/-- tools/monitor.cpp:176-177 -/
def again (s : State) : State :=
  match s.exit, s.back with
  | none, some i => push { s with back := none } (some i)
  | _, _ => s

def step (s : State) : Ev → State
  | .start i fail up =>
    if i < s.n ∧ (s.subs i).started = false then
      notify i (ClientMon.begin (s.subs i).sub fail up).2
        (become s i (ClientMon.begin (s.subs i).sub fail up).1 (ClientMon.begin (s.subs i).sub fail up).2)
    else s
  | .worker i e =>
    if i < s.n ∧ (s.subs i).started = true ∧ byWorker e = true then
      notify i (ClientMon.step (s.subs i).sub e).2 (become s i (ClientMon.step (s.subs i).sub e).1 (ClientMon.step (s.subs i).sub e).2)
    else s
  | .take => take s
  | .pop => pop s
  | .again => again s
  -- tools/monitor.cpp:126-129
  | .interrupt => push { s with interrupt := true } none

def run (s : State) (es : List Ev) : State := es.foldl step s

end Pvxs.WorkQueue
