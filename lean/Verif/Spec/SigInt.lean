import Verif.Model.SigInt
/-
What is expected of the handling of SIGINT and SIGTERM, said of what is seen.
-/
namespace Pvxs.Spec.SigInt
open Pvxs.SigInt

/-- the function of an object is called at most once -/
def Once (log : List Obs) : Prop := ∀ k, log.count (.called k) ≤ 1

/-- it is called while the object exists -/
def Inside (log : List Obs) : Prop := ∀ a k b, log = a ++ .called k :: b → .made k ∈ a ∧ .gone k ∉ a

/-- it is called because of a signal -/
def Caused (log : List Obs) : Prop := ∀ a k b, log = a ++ .called k :: b → .signalled k ∈ a

/-- an object is made only when no other exists -/
def Alone (log : List Obs) : Prop := ∀ a k b, log = a ++ .made k :: b → ∀ j, .made j ∈ a → .gone j ∈ a

/-- an object is refused only while another exists -/
def Open (log : List Obs) : Prop := ∀ a b, log = a ++ .refused :: b → ∃ j, .made j ∈ a ∧ .gone j ∉ a

/-- nothing is sent to a socket which was closed -/
def Sound (log : List Obs) : Prop := ∀ k, .badSend k ∉ log

/-- a signal is taken for an object which exists -/
def Current (log : List Obs) : Prop := ∀ a k b, log = a ++ .signalled k :: b → .made k ∈ a ∧ .gone k ∉ a

/-- before run() returns there was a call of interrupt() or a signal which no earlier run() was ended by: never more returns than such causes -/
def Answered (log : List RunObs) : Prop := log.count .returned ≤ log.count .interrupt + log.count .signal

end Pvxs.Spec.SigInt
