/-
Things initialised once: src/util.cpp:729-756, src/utilpvt.h:94-110, used by the loggers, the event loops, the map of interfaces and the hooks.

`epicsThreadOnce()` is not in /repo: what is modelled is osi/os/posix/osdThread.c of EPICS Base, which looks at the state of the object with
a lock held, marks it as active by this thread, calls the function without the lock, and marks it as done; other threads wait meanwhile; a thread
which comes again from inside of the function is stopped for good.

Not modelled: what the functions do; an exception which is thrown again is known by a number.
-/
namespace Pvxs.Once

/-- `epicsThreadOnceId` -/
inductive Id where
  | init
  | active (i : Nat)
  | done
deriving DecidableEq, Repr

/-- how threadOnce() ends -/
inductive Result where
  | returns
  /-- the exception of the function -/
  | rethrows (x : Nat)
  /-- std::logic_error("threadOnce() : Previous failure") -/
  | previous
deriving DecidableEq, Repr

/-- where a thread is -/
inductive Pc where
  | outside
  /-- in the function -/
  | inside
  /-- in epicsThreadOnce(), another thread is in the function -/
  | waiting
  /-- back in threadOnce_(), with `args.err` -/
  | back (err : Option Nat)
  /-- cantProceed() -/
  | stopped
deriving DecidableEq, Repr

structure St where
  id : Id := .init
  /-- `info->ok` -/
  ok : Bool := false
  pc : Nat → Pc := fun _ => .outside
  /-- calls of the function -/
  calls : Nat := 0
  /-- how those which ended did: the exception, or none -/
  ended : List (Option Nat) := []
  /-- the results of threadOnce() -/
  log : List (Nat × Result) := []

def St.at (s : St) (i : Nat) (p : Pc) : St := { s with pc := fun j => if j = i then p else s.pc j }

inductive Ev where
  /-- thread `i` calls threadOnce(), from outside or from inside of the function -/
  | call (i : Nat)
  /-- the function ends, in thread `i` -/
  | ends (i : Nat) (x : Option Nat)
  /-- thread `i` looks again -/
  | look (i : Nat)
  /-- threadOnce() ends, in thread `i` -/
  | leave (i : Nat)
deriving DecidableEq, Repr

/-- epicsThreadOnce() until it calls the function, waits or returns -/
def enter (s : St) (i : Nat) : St := match s.id with
  | .init => { s.at i .inside with id := .active i, calls := s.calls + 1 }
  | .active j => if j = i then s.at i .stopped else s.at i .waiting
  | .done => s.at i (.back none)

/-- src/util.cpp:735-746 `onceWrapper`, and the rest of epicsThreadOnce() -/
def finish (s : St) (i : Nat) (x : Option Nat) : St :=
  { s.at i (.back x) with ok := x.isNone, id := .done, ended := s.ended ++ [x] }

/-- src/util.cpp:752-755, the rest of `threadOnce_` -/
def resultOf (ok : Bool) : Option Nat → Result
  | some x => .rethrows x
  | none => if ok then .returns else .previous

/-- src/util.cpp:748-756 `threadOnce_` -/
def step (s : St) : Ev → St
  | .call i => match s.pc i with
    | .outside => enter s i
    | .inside => enter s i
    | _ => s
  | .ends i x => match s.pc i with
    | .inside => finish s i x
    | _ => s
  | .look i => match s.pc i with
    | .waiting => if s.id = .done then s.at i (.back none) else s
    | _ => s
  | .leave i => match s.pc i with
    | .back err => { s.at i .outside with log := s.log ++ [(i, resultOf s.ok err)] }
    | _ => s

def run (es : List Ev) : St := es.foldl step {}

/-- src/utilpvt.h:104-110: the template `threadOnce`, through which all of the library calls, is noexcept: what `threadOnce_` throws ends the process -/
def aborts : Result → Bool
  | .returns => false
  | _ => true

/-- the process, all of whose calls are of the template: nothing happens after std::terminate() -/
def runT (es : List Ev) : St := es.foldl (fun s e => if s.log.any (fun l => aborts l.2) then s else step s e) {}

end Pvxs.Once
