import Verif.Model.LinkWait
/-
When a wait is to end.
-/
namespace Pvxs.Spec.LinkWait
open Pvxs.LinkWait

/-- the thread which takes this step, if it is one that waits -/
def Op.thread : Op → Option Nat
  | .startConn t _ => some t
  | .startUpdate t => some t
  | .look t => some t
  | .wake t => some t
  | .update _ => none

/-- what is waited for has come -/
def Due (s : St) : Goal → Prop
  | .conn want => s.connected = want
  | .update seq => s.seq ≠ seq

/-- the thread sleeps although what it waits for has come, and nothing is there to wake it -/
def Stuck (s : St) (t : Nat) : Prop := ∃ g, s.pc t = .wait g ∧ Due s g ∧ s.evt = false

/-- only thread `t` waits -/
def Alone (l : List Op) (t : Nat) : Prop := ∀ o ∈ l, ∀ u, Op.thread o = some u → u = t

end Pvxs.Spec.LinkWait
