import Verif.Model.Wait
/-! Specification for C78 -/
namespace Pvxs.Spec.Wait
open Pvxs.Wait

/-- a result, or an interruption -/
inductive Fate where
  | result (r : Nat)
  | interruption
deriving Repr, DecidableEq

/-- results and interruptions in order -/
def fates : List Event → List Fate := List.filterMap fun e => match e with
  | .complete r => some (.result r)
  | .interrupt => some .interruption
  | _ => none

/-- how a call of `wait()` ended -/
def ended : Thread → Option Fate
  | .returned r => some (.result r)
  | .interrupted => some .interruption
  | _ => none

/-- thread t can be woken: its wait need not last until the timeout -/
def CanWake (s : State) (t : Nat) : Prop := s.flag = true ∨ 0 < s.signals

/-- only one thread waits at a time -/
def OneAtATime (s : State) : List Event → Prop
  | [] => True
  | e :: es => (match e with
    | .wait t => ∀ u, s.threads u = .blocked → u = t
    | _ => True) ∧ OneAtATime (step s e) es

end Pvxs.Spec.Wait
