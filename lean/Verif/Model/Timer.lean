/-
Timers which run a function once, later: src/evhelper.cpp:1048-1142, src/evhelper.h:357-373, src/pvxs/util.h:318-340, made with ExecOp::timerOneShot()
(src/serverget.cpp:318-325).

One timer, with its handle.  A handle is not to be used by two threads at once, so at most one use of it is under way.  base.call() and base.tryCall()
(src/evhelper.cpp:317-346) from a thread which is not the worker are two steps: what is given to them runs on the worker while no callback does, then the thread
goes on; from the worker, the function is run at once.  The event loop itself is in Model/EvLoop.

Simplifications: when a timer is due is not modelled, it may expire at any time once it was added.  event_new() and event_add() succeed.  libevent is not in /repo:
event_free() from another thread than the worker waits for the callback of the event, and an event which was freed or removed is not called.
-/
namespace Pvxs.Timer

/-- what is seen of a timer -/
inductive Obs where
  /-- buildOneShot() throws std::invalid_argument("NULL cb") -/
  | invalid
  | created
  /-- the callback begins -/
  | called
  /-- cancel() returns -/
  | cancelled (b : Bool)
  /-- cancel() throws std::logic_error("NULL Timer") -/
  | nullTimer
  /-- buildOneShot() or cancel() throws std::logic_error("Worker stopped") -/
  | stopped
  /-- ~Timer() returns -/
  | dropped
deriving DecidableEq, Repr

/-- where the thread is which uses the handle -/
inductive Pc where
  | idle
  /-- in base.call() of buildOneShot() -/
  | creating
  /-- in base.call() of Pvt::cancel() -/
  | cancelling
  /-- after it, in Timer::cancel(): `P` is to be destroyed -/
  | cancelled (b : Bool)
  /-- in tryCall() of the deleter; what is seen afterwards -/
  | dropping (o : Obs)
  /-- the worker was stopped: the deleter destroys Pvt in this thread -/
  | unwinding (o : Obs)
  | done (o : Obs)
deriving DecidableEq, Repr

structure St where
  /-- `Timer::pvt` is not NULL -/
  handle : Bool := false
  made : Bool := false
  /-- `evbase::Pvt::running` -/
  up : Bool := true
  /-- `Timer::Pvt::cb` is not empty -/
  cb : Bool := false
  /-- `Timer::Pvt::timer`, and event_pending() of it -/
  ev : Option Bool := none
  /-- in expire_cb() -/
  running : Bool := false
  /-- the function object was destroyed while it ran -/
  freed : Bool := false
  /-- std::terminate() -/
  dead : Bool := false
  pc : Pc := .idle
  log : List Obs := []
deriving DecidableEq, Repr

/-- how a callback ends -/
inductive Ended where
  | returns
  /-- a std::exception, which is logged -/
  | throws
  /-- anything else, which goes on into libevent -/
  | other
deriving DecidableEq, Repr

inductive Op where
  /-- timerOneShot() by a thread which is not the worker -/
  | create (null : Bool)
  /-- the same on the worker -/
  | createW (null : Bool)
  | cancel
  | cancelW
  | drop
  | dropW
  /-- the worker takes what base.call() gave to it -/
  | exec
  /-- the thread goes on -/
  | go
  /-- the timer is due: `expire_cb` -/
  | expire
  /-- the callback ends -/
  | ends (x : Ended)
  /-- the server is destroyed: src/evhelper.cpp:159-164 -/
  | stop
deriving DecidableEq, Repr

/-- src/evhelper.cpp:1075-1082, of Timer::Pvt::cancel(), and the end of `trash` -/
def St.body (s : St) : St := { s with cb := false, freed := s.freed || (s.running && s.cb), ev := none }

/-- src/evhelper.cpp:1079 `ret` -/
def St.pending (s : St) : Bool := decide (s.ev = some true)

def St.say (s : St) (o : Obs) : St := { s with log := s.log ++ [o] }

/-- src/evhelper.cpp:1126-1140: the function given to base.call() -/
def St.start (s : St) : St := { s with ev := some true }

/-- src/evhelper.cpp:1106-1109 -/
def St.make (s : St) : St := { s with made := true, cb := true }

/-- src/evhelper.cpp:1103-1143 `buildOneShot` -/
def create (s : St) (null worker : Bool) : St :=
  if s.made ∨ s.pc ≠ .idle then s
  else if null then s.say .invalid
  else if worker then { (s.make.start.say .created) with handle := true }
  else if s.up then { s.make with pc := .creating }
  else { s.say .stopped with made := true }

/-- src/evhelper.cpp:1052-1060 `Timer::cancel`, up to base.call(); 1062-1066 -/
def cancel (s : St) (worker : Bool) : St :=
  if s.pc ≠ .idle then s
  else if s.handle = false then s.say .nullTimer
  else if worker then ({ s.body with handle := false }).say (.cancelled s.pending)
  else if s.up then { s with handle := false, pc := .cancelling }
  else { s with handle := false, pc := .unwinding .stopped }

/-- src/evhelper.cpp:1050 `Timer::~Timer` and 1112-1124, the deleter -/
def drop (s : St) (worker : Bool) : St :=
  if s.pc ≠ .idle ∨ s.handle = false then s
  else if worker then ({ s.body with handle := false }).say .dropped
  else if s.up then { s with handle := false, pc := .dropping .dropped }
  else { s with handle := false, pc := .unwinding .dropped }

/-- src/evhelper.cpp:226-241 for the function given to base.call() -/
def exec (s : St) : St :=
  if s.running then s else match s.pc with
  | .creating => { s.start with pc := .done .created }
  | .cancelling => { s.body with pc := .cancelled s.pending }
  | .dropping o => { s.body with pc := .done o }
  | _ => s

/-- what the other thread does next -/
def go (s : St) : St := match s.pc with
  | .cancelled b => { s with pc := if s.up then .dropping (.cancelled b) else .unwinding (.cancelled b) }
  | .unwinding o => if s.running then s else { s.body.say o with pc := .idle }
  | .done o => { s.say o with pc := .idle, handle := decide (o = .created) }
  | _ => s

/-- src/evhelper.cpp:1088-1100 `expire_cb` up to the call of the callback -/
def expire (s : St) : St :=
  if s.running = false ∧ s.ev = some true then { s.say .called with ev := some false, running := true } else s

/-- src/evhelper.cpp:1095-1099 -/
def ends (s : St) (x : Ended) : St :=
  if s.running then { s with running := false, dead := decide (x = .other) } else s

def step (s : St) (o : Op) : St :=
  if s.dead then s else match o with
  | .create null => create s null false
  | .createW null => create s null true
  | .cancel => cancel s false
  | .cancelW => cancel s true
  | .drop => drop s false
  | .dropW => drop s true
  | .exec => exec s
  | .go => go s
  | .expire => expire s
  | .ends x => ends s x
  | .stop => { s with up := false }

def run (os : List Op) : St := os.foldl step {}

end Pvxs.Timer
