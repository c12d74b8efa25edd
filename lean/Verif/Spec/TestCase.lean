import Verif.Model.TestCase
/-
Which checks a test program begins, and which it loses (C113).
-/
namespace Pvxs.Spec.TestCase
open Pvxs Pvxs.TestCase

/-- it has a result which has not been reported -/
def Pending (c : Case) : Bool := decide (c.res = .pass) || decide (c.res = .fail)

/-- the number of tests reported -/
def tests : List Line → Nat
  | [] => 0
  | .ok _ _ :: ls => 1 + tests ls
  | .diag _ :: ls => tests ls

/-- the result of each test reported -/
def verdicts : List Line → List Bool
  | [] => []
  | .ok b _ :: ls => b :: verdicts ls
  | .diag _ :: ls => verdicts ls

def textOf : Line → Str
  | .ok _ t => t
  | .diag t => t

/-- this operation begins a check -/
def begins (s : St) : Op → Nat
  | .make i _ => if s.live i = none then 1 else 0
  | .setPass i _ => match s.live i with
    | some c => if Pending c then 0 else 1
    | none => 0
  | _ => 0

/-- this operation drops a check: another is assigned over it, or it has no message when it is destroyed -/
def drops (s : St) : Op → Nat
  | .assign a b => match s.live a, s.live b with
    | some _, some c => if a ≠ b ∧ Pending c then 1 else 0
    | _, _ => 0
  | .destroy i => match s.live i with
    | some c => if Pending c ∧ c.msg = [] then 1 else 0
    | none => 0
  | _ => 0

/-- the sum over a run -/
def total (f : St → Op → Nat) : St → List Op → Nat
  | _, [] => 0
  | s, op :: ops => f s op + total f (step s op) ops

/-- the checks which are pending among the first `n` places -/
def pending (s : St) : Nat → Nat
  | 0 => 0
  | n + 1 => pending s n + (match s.live n with | some c => if Pending c then 1 else 0 | none => 0)

def ids : Op → List Nat
  | .blank i => [i]
  | .make i _ => [i]
  | .setPass i _ => [i]
  | .put i _ => [i]
  | .move a b => [a, b]
  | .assign a b => [a, b]
  | .destroy i => [i]

/-- what was expected has been thrown, with a matching text if one was asked for -/
def asExpected (matching : Bool) : End → Bool
  | .expected m => !matching || decide (m = .found)
  | _ => false

end Pvxs.Spec.TestCase
