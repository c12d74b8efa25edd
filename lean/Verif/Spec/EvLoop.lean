import Verif.Model.EvLoop
/-
What is promised about work which is handed to another thread.
-/
namespace Pvxs.Spec.EvLoop
open Pvxs.EvLoop

/-- accepted, in order -/
def accepted (l : List Ev) : List Work := l.filterMap fun | .accepted w => some w | _ => none

/-- run, in order -/
def ran (l : List Ev) : List Nat := l.filterMap fun | .ran id => some id | _ => none

/-- a thread is inside of call() for this -/
def Calling (s : St) (t id : Nat) : Prop := s.pc t = .wake (some id) ∨ s.pc t = .wait id

/-- no thread is inside of dispatch() or call(), other than waiting for its function to be run; and the loop has nothing to do -/
structure Quiet (s : St) : Prop where
  threads : ∀ t a, s.pc t ≠ .wake a
  done : s.todo = []
  asleep : s.wake = false

end Pvxs.Spec.EvLoop
