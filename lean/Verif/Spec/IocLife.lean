import Verif.Model.IocLife
/-
The states of an IOC, and when its PVA server should serve (C115).
-/
namespace Pvxs.Spec.IocLife
open Pvxs Pvxs.IocLife

inductive Phase where
  | loaded
  | built
  | running
  | paused
  | down
deriving DecidableEq, Repr

/-- what EPICS Base allows in each state -/
def next : Phase → Act → Option Phase
  | .loaded, .build => some .built
  | .built, .run => some .running
  | .paused, .run => some .running
  | .running, .pause => some .paused
  | .built, .shutdown => some .down
  | .running, .shutdown => some .down
  | .paused, .shutdown => some .down
  | .down, .again => some .loaded
  | _, _ => none

/-- where a sequence of actions leads, if Base allows it -/
def phase : Phase → List Act → Option Phase
  | p, [] => some p
  | p, a :: as => (next p a).bind fun q => phase q as

/-- a client which searches for a record gets it -/
def Serves (s : St) : Bool := match s.srv with
  | some v => v.running && v.single && v.group
  | none => false

/-- no client can connect -/
def Silent (s : St) : Bool := match s.srv with
  | some v => !v.running
  | none => true

/-- the user has turned QSRV off, or QSRV 1 is there -/
def TurnedOff (e : Env) : Prop :=
  e.qsrv1 = true ∨ (∃ v, e.ignore = some v ∧ ∃ a b, v = a ++ tQsrv2 ++ b) ∨
  (∃ v, e.enable = some v ∧ v.map upper = tNO)

end Pvxs.Spec.IocLife
