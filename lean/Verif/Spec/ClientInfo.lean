import Verif.Model.ClientInfo
import Verif.Spec.TypeDesc
/-
Specification for C84: histories of an info() operation.
-/
namespace Pvxs.Spec.ClientInfo
open Pvxs Pvxs.ClientInfo

/-- the operation starts (with a channel which is up or not), then `es` happens -/
def history (up : Option Nat) (es : List Ev) : Op × List Out :=
  let b := begin false up
  let r := run b.1 es
  (r.1, b.2 ++ r.2)

/-- the request which waits for its reply: sent, on a connection which was not lost since -/
def track (c : Option Nat) : Out → Option Nat
  | .asked k => some k
  | .lost => none
  | .closed => none
  | _ => c
def current (outs : List Out) : Option Nat := outs.foldl track none

/-- the results given to the application -/
def results (outs : List Out) : List Result := outs.filterMap fun x => match x with
  | .called r => some r
  | _ => none

/-- the requests sent -/
def asks (outs : List Out) : List Nat := outs.filterMap fun x => match x with
  | .asked k => some k
  | _ => none

/-- the application has not given up the operation -/
def Wanted (es : List Ev) : Prop := .cancel ∉ es ∧ .drop ∉ es

end Pvxs.Spec.ClientInfo
