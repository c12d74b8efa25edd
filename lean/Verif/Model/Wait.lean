/-
Waiting for the result of an operation: src/client.cpp:287-311, src/clientimpl.h:29-41 (`ResultWaiter`).

Any number of threads call `wait()`; `complete()` is called by the worker with results, and by `interrupt()`.  A step is what happens with the mutex held, a call to
`epicsEvent::signal()`, or the return of `epicsEvent::wait()`.  An epicsEvent is one flag: signal() sets it, and a wait() which ends because of it clears it.
Simplification: a result is a number.
-/
namespace Pvxs.Wait

/-- `outcome`, with `result` -/
inductive Outcome where
  | busy
  | done (result : Nat)
  | abort
deriving Repr, DecidableEq

/-- a thread which called `wait()` -/
inductive Thread where
  | none
  /-- in `notify.wait(timeout)` -/
  | blocked
  /-- `wait()` returned this -/
  | returned (result : Nat)
  /-- Interrupted was thrown -/
  | interrupted
  /-- Timeout was thrown -/
  | timedOut
deriving Repr, DecidableEq

structure State where
  outcome : Outcome := .busy
  /-- the epicsEvent -/
  flag : Bool := false
  /-- calls of `complete()` which have yet to call signal() -/
  signals : Nat := 0
  threads : Nat → Thread := fun _ => .none

inductive Event where
  /-- thread t calls `wait()` -/
  | wait (t : Nat)
  /-- `epicsEvent::wait()` of thread t ends because of the flag -/
  | wake (t : Nat)
  /-- it ends because of the timeout -/
  | expire (t : Nat)
  /-- `complete(result, false)` up to the end of its critical section -/
  | complete (result : Nat)
  /-- `interrupt()`: `complete(Result(), true)`, likewise -/
  | interrupt
  /-- src/client.cpp:310 -/
  | signal
deriving Repr, DecidableEq

/-- src/client.cpp:290-298: what thread does, holding the mutex -/
def check (s : State) (t : Nat) : State :=
  { s with threads := fun x => if x = t then (match s.outcome with
    | .busy => .blocked
    | .done r => .returned r
    | .abort => .interrupted) else s.threads x }

/-- src/client.cpp:303-309 -/
def complete (s : State) (o : Outcome) : State :=
  match s.outcome with
  | .busy => { s with outcome := o, signals := s.signals + 1 }
  | _ => s

/-- an event which cannot occur does nothing -/
def step (s : State) : Event → State
  | .wait t => if s.threads t = .blocked then s else check s t
  | .wake t => if s.threads t = .blocked ∧ s.flag = true then check { s with flag := false } t else s
  | .expire t => if s.threads t = .blocked then { s with threads := fun x => if x = t then .timedOut else s.threads x } else s
  | .complete r => complete s (.done r)
  | .interrupt => complete s .abort
  | .signal => if 0 < s.signals then { s with signals := s.signals - 1, flag := true } else s

def run (s : State) (es : List Event) : State := es.foldl step s

end Pvxs.Wait
