import Verif.Model.FlowCtl
/-
Specification for C93.
-/
namespace Pvxs.Spec.FlowCtl
open Pvxs.FlowCtl

/-- the updates posted to subscription i -/
def posted (i : Nat) (os : List Op) : List Nat := os.filterMap fun
  | .post j u => if j = i then some u else none
  | _ => none

/-- the updates sent to subscription i -/
def sentTo (i : Nat) (s : St) : List Nat := s.sent.filterMap fun x => if x.1 = i then some x.2 else none

/-- what the server, and a client which reads, do without new requests or updates: may it happen now -/
def Ready (s : St) : Op → Prop
  | .job => s.jobs ≠ []
  | .wrote k => 1 ≤ k ∧ k ≤ s.tx
  | .callback => s.wcb = true
  | _ => False

/-- such steps, each when it may happen -/
def Goes (c : Cfg) (s : St) : List Op → Prop
  | [] => True
  | o :: os => Ready s o ∧ Goes c (step c s o) os

end Pvxs.Spec.FlowCtl
