import Verif.Model.Timer
/-
What is expected of a timer, said of what is seen of it.
-/
namespace Pvxs.Spec.Timer
open Pvxs.Timer

/-- the timer was given up by its user -/
def Over : Obs → Prop
  | .cancelled _ | .stopped | .dropped => True
  | _ => False

/-- at most one call -/
def Once (log : List Obs) : Prop := log.count .called ≤ 1

/-- once the timer was given up, no call -/
def Quiet (log : List Obs) : Prop := ∀ a x b, log = a ++ x :: b → Over x → .called ∉ b

/-- cancel() returns true when it is the reason why there is no call, and false when it came too late -/
def Truthful (log : List Obs) : Prop := ∀ a v b, log = a ++ .cancelled v :: b → (v = true ↔ .called ∉ a)

end Pvxs.Spec.Timer
