/-
Handling of SIGINT and SIGTERM: src/util.cpp:256-370, src/pvxs/util.h:84-111, and Server::run() with Server::interrupt() (src/server.cpp:208-234).

The objects of a process are numbered in the order in which they are made.  A step is an access to `onsig`, a send() or recv() of one byte, or a call which others
can see.  Signals may arrive at any time, on any thread, and a signal handler which was entered may be delayed for any time.

Simplifications: the constructor is one step, a signal which comes between compare_exchange_strong() and signal() is one which comes before it.  In SigInt_handler()
`onsig.load()` and the compare_exchange_strong() after it are one step, which drops the signal when another handler is in progress; a failing exchange does the same.
In ~Pvt() the reading of `onsig` and the compare_exchange_strong() are one step: a failing exchange leads to another reading.  The socket never is full, and socket
numbers are not given out again.  SIGINT and SIGTERM are not told apart.  handler() returns.
-/
namespace Pvxs.SigInt

/-- the values of `onsig`: src/util.cpp:258-266 -/
inductive Slot where
  /-- EVUTIL_INVALID_SOCKET -/
  | invalid
  /-- `wake.s[1]` of an object -/
  | armed (k : Nat)
  /-- EVUTIL_INVALID_SOCKET-1 -/
  | inprog
deriving DecidableEq, Repr

/-- how far an object is: it is not there, in use, after the send() of its destructor (src/util.cpp:325), or after exitWait() (src/util.cpp:327) -/
inductive Phase where
  | none
  | alive
  | disarmed
  | joined
deriving DecidableEq, Repr

/-- the thread of an object, run(): in recv(), in handler(), or at its end.  src/util.cpp:337-349 -/
inductive Thr where
  | waiting
  | calling
  | finished
deriving DecidableEq, Repr

/-- what is seen -/
inductive Obs where
  /-- the constructor of the object returns -/
  | made (k : Nat)
  /-- the constructor throws std::logic_error("Only one SigInt may exist in a process"): src/util.cpp:306 -/
  | refused
  /-- a signal is taken by SigInt_handler() for the object -/
  | signalled (k : Nat)
  /-- a signal while the previous action of the process is in place -/
  | previous
  /-- the function given to the object is called -/
  | called (k : Nat)
  /-- send() to a socket of an object which is gone -/
  | badSend (k : Nat)
  /-- the destructor of the object returns -/
  | gone (k : Nat)
deriving DecidableEq, Repr

structure St where
  onsig : Slot := .invalid
  /-- objects made so far -/
  n : Nat := 0
  /-- the object made last -/
  id : Nat := 0
  phase : Phase := .none
  /-- bytes sent to `wake.s[1]`, not yet received -/
  msgs : Nat := 0
  thr : Thr := .waiting
  /-- signal() has SigInt_handler() in place -/
  ours : Bool := false
  /-- handlers which were entered, and did not yet look at `onsig` -/
  entered : Nat := 0
  /-- `fd` of the handler which has set `onsig` to inprog, and whether it did its send() -/
  flight : Option (Nat × Bool) := none
  log : List Obs := []
deriving DecidableEq, Repr

/-- Pvt::Pvt(): src/util.cpp:297-313 -/
def ctor (s : St) : St :=
  if s.onsig = .invalid then
    { s with onsig := .armed s.n, n := s.n + 1, id := s.n, phase := .alive, msgs := 0, thr := .waiting, ours := true, log := s.log ++ [.made s.n] }
  else { s with log := s.log ++ [.refused] }

/-- a signal: src/util.cpp:309-310, src/util.cpp:317-318 -/
def deliver (s : St) : St :=
  if s.ours then { s with entered := s.entered + 1 } else { s with log := s.log ++ [.previous] }

/-- SigInt_handler(), load() and compare_exchange_strong(): src/util.cpp:354-356 -/
def grab (s : St) : St :=
  if s.entered = 0 then s else
  match s.onsig with
  | .armed k => { s with entered := s.entered - 1, onsig := .inprog, flight := some (k, false), log := s.log ++ [.signalled k] }
  | _ => { s with entered := s.entered - 1 }

/-- SigInt_handler(), send(): src/util.cpp:357-359 -/
def send (s : St) : St :=
  match s.flight with
  | some (k, false) =>
    if k = s.id ∧ s.phase ≠ .none then { s with flight := some (k, true), msgs := s.msgs + 1 }
    else { s with flight := some (k, true), log := s.log ++ [.badSend k] }
  | _ => s

/-- SigInt_handler(), `onsig = fd`: src/util.cpp:360 -/
def store (s : St) : St :=
  match s.flight with
  | some (k, true) => { s with flight := none, onsig := .armed k }
  | _ => s

/-- run(), up to the call of handler(), which is made whatever the byte is: src/util.cpp:337-346 -/
def recv (s : St) : St :=
  if s.phase ≠ .none ∧ s.thr = .waiting ∧ 0 < s.msgs then { s with msgs := s.msgs - 1, thr := .calling, log := s.log ++ [.called s.id] } else s

/-- handler() returns, and run() with it: src/util.cpp:347-349 -/
def ret (s : St) : St :=
  if s.thr = .calling then { s with thr := .finished } else s

/-- ~Pvt() up to send(): src/util.cpp:317-326 -/
def disarm (s : St) : St :=
  if s.phase = .alive then { s with phase := .disarmed, ours := false, msgs := s.msgs + 1 } else s

/-- ~Pvt(), exitWait(): src/util.cpp:327 -/
def join (s : St) : St :=
  if s.phase = .disarmed ∧ s.thr = .finished then { s with phase := .joined } else s

/-- ~Pvt(), the loop, which ends when `onsig` is not the socket of the object, and the destructors of the members: src/util.cpp:329-334, src/util.cpp:278-281 -/
def release (s : St) : St :=
  if s.phase = .joined then
    { s with phase := .none, onsig := if s.onsig = .armed s.id then .invalid else s.onsig, log := s.log ++ [.gone s.id] }
  else s

inductive Op where
  | ctor | deliver | grab | send | store | recv | ret | disarm | join | release
deriving DecidableEq, Repr

/-- one step of any thread: src/util.cpp:287-361 -/
def step (s : St) : Op → St
  | .ctor => ctor s
  | .deliver => deliver s
  | .grab => grab s
  | .send => send s
  | .store => store s
  | .recv => recv s
  | .ret => ret s
  | .disarm => disarm s
  | .join => join s
  | .release => release s

def run (s : St) (ops : List Op) : St := ops.foldl step s

/-- no signal handler is in progress whenever a destructor ends; not in the code -/
def Calm : St → List Op → Prop
  | _, [] => True
  | s, op :: ops => (op = .release → s.phase = .joined → s.flight = none) ∧ Calm (step s op) ops

/-! ### Server::run() -/

/-- what is seen of a server -/
inductive RunObs where
  /-- run() begins -/
  | begun
  /-- interrupt() -/
  | interrupt
  /-- SIGINT or SIGTERM, while run() waits -/
  | signal
  /-- run() returns -/
  | returned
deriving DecidableEq, Repr

structure Srv where
  /-- `done`, an epicsEvent, is set -/
  done : Bool := false
  /-- in `done.wait()`, or in ~SigInt(), or in neither -/
  at_ : Option Bool := none
  /-- a signal was taken; handler() was called (at most once for an object) -/
  sig : Bool := false
  called : Bool := false
  log : List RunObs := []
deriving DecidableEq, Repr

inductive RunOp where
  | run | interrupt | signal | handler | wake | ret
deriving DecidableEq, Repr

/-- src/server.cpp:208-234; the handler is called after a signal or by the destructor of `handler` (`recv` above), once -/
def Srv.step (s : Srv) : RunOp → Srv
  | .run => if s.at_ = none then { s with at_ := some false, sig := false, called := false, log := s.log ++ [.begun] } else s
  | .interrupt => { s with done := true, log := s.log ++ [.interrupt] }
  | .signal => if s.at_ = some false then { s with sig := true, log := s.log ++ [.signal] } else s
  | .handler => if s.called = false ∧ (s.at_ = some true ∨ (s.at_ = some false ∧ s.sig = true)) then { s with called := true, done := true } else s
  | .wake => if s.at_ = some false ∧ s.done = true then { s with at_ := some true, done := false } else s
  | .ret => if s.at_ = some true ∧ s.called = true then { s with at_ := none, log := s.log ++ [.returned] } else s

def Srv.run (s : Srv) (ops : List RunOp) : Srv := ops.foldl Srv.step s

end Pvxs.SigInt
