import Verif.Model.Discover
/-
Specification for C92, on what can be seen.
-/
namespace Pvxs.Spec.Discover
open Pvxs.Discover

/-- callbacks which do not cancel -/
def Quiet (os : List Op) : Prop := ∀ t j, Op.leave t (.cancels j) ∉ os

/-- an operation is executed once, and cancelled or released later, if at all; `made`: those so far -/
def Fair (made : List Nat) : List Op → Prop
  | [] => True
  | .exec d :: os => d ∉ made ∧ Fair (d :: made) os
  | .cancel d :: os => d ∈ made ∧ Fair made os
  | .release d :: os => d ∈ made ∧ Fair made os
  | _ :: os => Fair made os

/-- is d in place at the end, and which events came while it was -/
def watch (d : Nat) (w : Bool × List Nat) : Obs → Bool × List Nat
  | .placed j => if j = d then (true, w.2) else w
  | .removed j => if j = d then (false, w.2) else w
  | .begins ev => if w.1 then (w.1, w.2 ++ [ev]) else w
  | .tells _ _ => w
def due (d : Nat) (tr : List Obs) : List Nat := (tr.foldl (watch d) (false, [])).2

/-- what d has been told -/
def told (d : Nat) (tr : List Obs) : List Nat := tr.filterMap fun
  | .tells j ev => if j = d then some ev else none
  | _ => none

/-- no event is being reported -/
def Idle (s : St) : Prop := ∀ t, s.frame t = none ∧ s.waits t = none

/-- the events found by threads which are free to report them -/
def found (s : St) : List Op → List Nat
  | [] => []
  | o :: os =>
    if s.fate = .ok then
      match o with
      | .start t ev => if (s.frame t).isNone ∧ (s.waits t).isNone then ev :: found (s.step o) os else found (s.step o) os
      | _ => found (s.step o) os
    else []

/-- the events which have been reported, or are being reported -/
def begun (tr : List Obs) : List Nat := tr.filterMap fun
  | .begins ev => some ev
  | _ => none

end Pvxs.Spec.Discover
