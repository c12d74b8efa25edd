import Verif.Model.WorkQueue
import Verif.Spec.ClientMon
/-
What a program with a work queue of subscriptions shows.
-/
namespace Pvxs.Spec.WQ
open ClientMon WorkQueue Spec.CMon

/-- everything that happened to `n` new subscriptions and the main thread -/
def after (n : Nat) (p : Nat → Params) (es : List WorkQueue.Ev) : State := WorkQueue.run (WorkQueue.init n fun i => fresh (p i)) es

/-- how often the user interrupted -/
def interrupts : List WorkQueue.Ev → Nat
  | [] => 0
  | .interrupt :: es => interrupts es + 1
  | _ :: es => interrupts es

/-- what happened to subscription `i` on the worker once it was started -/
def workOf (i : Nat) : List WorkQueue.Ev → List ClientMon.Ev
  | [] => []
  | .worker j e :: es => if j = i ∧ byWorker e = true then e :: workOf i es else workOf i es
  | _ :: es => workOf i es

/-- how subscription `i` was started, and what happened to it then on the worker -/
def courseOf (i : Nat) : List WorkQueue.Ev → Option (Bool × Bool × List ClientMon.Ev)
  | [] => none
  | .start j fail up :: es => if j = i then some (fail, up, workOf i es) else courseOf i es
  | _ :: es => courseOf i es

/-- what was printed of subscription `i` -/
def printedOf (i : Nat) (s : State) : List Entry := s.printed.filterMap fun x => if x.1 = i then some x.2 else none

/-- how often subscription `i` is in the work queue or held by the main thread -/
def held (i : Nat) (s : State) : Nat :=
  s.work.count (some i) + (if s.hand = some i then 1 else 0) + (if s.back = some i then 1 else 0)

/-- the main thread goes round its loop `k` times -/
def rounds : Nat → List WorkQueue.Ev
  | 0 => []
  | k + 1 => .take :: .pop :: .again :: rounds k

/-- f 0 + … + f (n-1) -/
def total (f : Nat → Nat) : Nat → Nat
  | 0 => 0
  | n + 1 => total f n + f n

/-- how many events wait in the queues of the subscriptions -/
def backlog (s : State) : Nat := total (fun i => (s.subs i).sub.queue.length) s.n

end Pvxs.Spec.WQ
