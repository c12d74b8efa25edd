/-
The bounded queue between threads: src/pvxs/util.h:211-316 `MPMCFIFO`.

Each thread runs to the next point where another can interfere: critical sections are atomic, since they hold the lock.
`epicsEvent` is a flag: signal() sets it, wait() blocks until it is set and clears it.
-/
namespace Pvxs.Fifo

/-- where a thread is -/
inductive Pc (T : Type) where
  /-- not in the queue's code -/
  | idle
  /-- in emplace(v) / pop(), about to take the lock -/
  | push (v : T)
  | popping
  /-- released the lock, in notifyW.wait() / notifyR.wait() -/
  | waitW (v : T)
  | waitR
  /-- wait() returned, about to take the lock -/
  | awakeW (v : T)
  | awakeR
  /-- left the critical section: notifyR, notifyW still to be signalled -/
  | sig (r w : Bool)
deriving DecidableEq

structure Queue (T : Type) where
  limit : Nat
  q : List T := []
  nwriters : Nat := 0
  nreaders : Nat := 0
  evW : Bool := false
  evR : Bool := false
  threads : List (Pc T)

/-- what was done -/
inductive Out (T : Type) where
  /-- emplace(v) was entered -/
  | called (i : Nat) (v : T)
  | pushed (i : Nat) (v : T)
  | popped (i : Nat) (v : T)

/-- a thread takes a step -/
inductive Ev (T : Type) where
  | callPush (i : Nat) (v : T)
  | callPop (i : Nat)
  | lock (i : Nat)
  | wake (i : Nat)
  | signal (i : Nat)

variable {T : Type}

def Queue.at (s : Queue T) (i : Nat) (p : Pc T) : Queue T := { s with threads := s.threads.set i p }

/-- src/pvxs/util.h:251-266 -/
def lockPush (s : Queue T) (i : Nat) (v : T) : Queue T × List (Out T) :=
  if s.limit ≠ 0 ∧ s.limit ≤ s.q.length then ({ s with nwriters := s.nwriters + 1 }.at i (.waitW v), [])
  else
    let wakeupR := s.q.isEmpty && s.nreaders != 0
    let s := { s with q := s.q ++ [v] }
    let wakeupW := s.nwriters != 0 && decide (s.q.length < s.limit)
    (s.at i (.sig wakeupR wakeupW), [.pushed i v])

/-- src/pvxs/util.h:293-309 -/
def lockPop (s : Queue T) (i : Nat) : Queue T × List (Out T) :=
  match s.q with
  | [] => ({ s with nreaders := s.nreaders + 1 }.at i .waitR, [])
  | v :: q => ({ s with q := q }.at i (.sig (!q.isEmpty && s.nreaders != 0) (s.nwriters != 0)), [.popped i v])

def step (s : Queue T) : Ev T → Queue T × List (Out T)
  | .callPush i v =>
    match s.threads[i]? with
    | some .idle => (s.at i (.push v), [.called i v])
    | _ => (s, [])
  | .callPop i =>
    match s.threads[i]? with
    | some .idle => (s.at i .popping, [])
    | _ => (s, [])
  | .lock i =>
    match s.threads[i]? with
    | some (.push v) => lockPush s i v
    -- src/pvxs/util.h:259
    | some (.awakeW v) => lockPush { s with nwriters := s.nwriters - 1 } i v
    | some .popping => lockPop s i
    -- src/pvxs/util.h:301
    | some .awakeR => lockPop { s with nreaders := s.nreaders - 1 } i
    | _ => (s, [])
  | .wake i =>
    match s.threads[i]? with
    | some (.waitW v) => if s.evW then ({ s with evW := false }.at i (.awakeW v), []) else (s, [])
    | some .waitR => if s.evR then ({ s with evR := false }.at i .awakeR, []) else (s, [])
    | _ => (s, [])
  | .signal i =>
    -- src/pvxs/util.h:267-270 and 310-314
    match s.threads[i]? with
    | some (.sig true w) => ({ s with evR := true }.at i (.sig false w), [])
    | some (.sig false true) => ({ s with evW := true }.at i (.sig false false), [])
    | some (.sig false false) => (s.at i .idle, [])
    | _ => (s, [])

def run (s : Queue T) : List (Ev T) → Queue T × List (Out T)
  | [] => (s, [])
  | e :: es =>
    let (s, outs) := step s e
    let (s, outs') := run s es
    (s, outs ++ outs')

end Pvxs.Fifo
