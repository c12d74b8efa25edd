/-
Work which is handed to the thread of an event loop: src/evhelper.cpp:116-345.

A step of any thread is an operation here; between two of them the lock is not held.  Simplifications: event_add() succeeds, exceptions are std::exception,
and a thread which waits for its call() is woken only by the end of that.  event_base_loopexit() lets timers which were already due, as `dowork` is when it
was added before, run once more before the loop ends; those added later may or may not run.
-/
namespace Pvxs.EvLoop

/-- src/evhelper.cpp:122-129 `Work`; the number of it, counting those accepted; the thread which waits; whether it is going to throw -/
structure Work where
  id : Nat
  notify : Option Nat
  throws : Bool
deriving DecidableEq, Repr

/-- where a thread is in dispatch() or call() -/
inductive Pc where
  | idle
  /-- before event_add(); of call() for this -/
  | wake (after : Option Nat)
  /-- call() waits for this -/
  | wait (id : Nat)
deriving DecidableEq, Repr

/-- what can be seen -/
inductive Ev where
  | accepted (w : Work)
  /-- by thread -/
  | rejected (t : Nat)
  | ran (id : Nat)
  /-- call() by this thread returns, or throws -/
  | returned (t id : Nat) (threw : Bool)
  /-- call() on the worker: the function is run at once -/
  | inline (threw : Bool)
  | stopped
  | exited
deriving DecidableEq, Repr

structure St where
  actions : List Work := []
  running : Bool := true
  /-- `dowork` was added, and did not run yet -/
  wake : Bool := false
  /-- what is left of `todo` in doWork() -/
  todo : List Work := []
  pc : Nat → Pc := fun _ => .idle
  /-- `ThreadEvent done` -/
  signal : Nat → Bool := fun _ => false
  /-- `result` is set -/
  result : Nat → Bool := fun _ => false
  next : Nat := 0
  exitAsked : Bool := false
  /-- `dowork` was due when this was asked -/
  drain : Bool := false
  exited : Bool := false

inductive Op where
  /-- src/evhelper.cpp:297-309,325-336: up to the end of the block with the lock -/
  | dispatch (t : Nat) (throws : Bool)
  | call (t : Nat) (throws : Bool)
  /-- src/evhelper.cpp:311-313,338-340 -/
  | add (t : Nat)
  /-- src/evhelper.cpp:342-345 -/
  | ret (t : Nat)
  /-- src/evhelper.cpp:319-322 -/
  | callHere (throws : Bool)
  /-- src/evhelper.cpp:219-225 -/
  | take
  /-- src/evhelper.cpp:226-241: one of them -/
  | exec
  /-- src/evhelper.cpp:159-164 `join` -/
  | stop
  /-- src/evhelper.cpp:167 -/
  | exit
  /-- event_base_loop() returns -/
  | leave
deriving DecidableEq, Repr

def St.setPc (s : St) (t : Nat) (p : Pc) : St := { s with pc := fun i => if i = t then p else s.pc i }

/-- the event and the result which thread `t` waits for -/
def St.notify (s : St) (t : Nat) (signal result : Bool) : St :=
  { s with signal := fun i => if i = t then signal else s.signal i, result := fun i => if i = t then result else s.result i }

/-- the part of dispatch() and call() which is the same -/
def push (s : St) (t : Nat) (notify : Bool) (throws : Bool) : List Ev × St :=
  if s.pc t ≠ .idle then ([], s)
  else if s.running = false then ([.rejected t], s)
  else
    let w : Work := { id := s.next, notify := if notify then some t else none, throws := throws }
    let s' := { s with actions := s.actions ++ [w], next := s.next + 1 }
    ([.accepted w], s'.setPc t (if s.actions = [] then .wake (if notify then some s.next else none) else if notify then .wait s.next else .idle))

/-- what a thread does after event_add() (src/evhelper.cpp:312-315, 341-344): call() waits for the notification, dispatch() returns -/
def Pc.afterAdd : Option Nat → Pc
  | some id => .wait id
  | none => .idle

def step (s : St) : Op → List Ev × St
  | .dispatch t throws => push s t false throws
  | .call t throws => push s t true throws
  | .add t => match s.pc t with
    | .wake after => ([], St.setPc { s with wake := true } t (Pc.afterAdd after))
    | _ => ([], s)
  | .ret t => match s.pc t with
    | .wait id => if s.signal t then ([.returned t id (s.result t)], St.setPc (s.notify t false false) t .idle) else ([], s)
    | _ => ([], s)
  | .callHere throws => ([.inline throws], s)
  | .take => if s.todo = [] ∧ s.wake = true ∧ s.exited = false then ([], { s with todo := s.actions, actions := [], wake := false, drain := false }) else ([], s)
  | .exec => match s.todo with
    | [] => ([], s)
    | w :: rest => match w.notify with
      | none => ([.ran w.id], { s with todo := rest })
      | some t => ([.ran w.id], St.notify { s with todo := rest } t true w.throws)
  | .stop => ([.stopped], { s with running := false })
  | .exit => if s.running = false ∧ s.exitAsked = false then ([], { s with exitAsked := true, drain := s.wake }) else ([], s)
  | .leave => if s.exitAsked = true ∧ s.todo = [] ∧ s.drain = false ∧ s.exited = false then ([.exited], { s with exited := true }) else ([], s)

def run : List Op → St → List Ev × St
  | [], s => ([], s)
  | o :: l, s =>
    let r := step s o
    let r' := run l r.2
    (r.1 ++ r'.1, r'.2)

end Pvxs.EvLoop
