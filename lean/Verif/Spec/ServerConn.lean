import Verif.Model.ServerConn
/-
Specification vocabulary for the life of an operation on the server (C22, C23, C24, C54).
Everything is said about the list of observations alone.
-/
namespace Pvxs.Spec
open Pvxs Server

/-- how many times -/
def execs (i : Nat) (l : List Obs) : Nat := l.countP fun | .exec j _ _ => j == i | _ => false
def execReplies (i : Nat) (l : List Obs) : Nat := l.countP fun | .replied j (.handle _) _ => j == i | _ => false
def setupReplies (i : Nat) (l : List Obs) : Nat := l.countP fun | .replied j .setup _ => j == i | _ => false
def cancels (i : Nat) (l : List Obs) : Nat := l.countP fun | .cancelled j => j == i | _ => false
def closes (i : Nat) (l : List Obs) : Nat := l.countP fun | .onClose j => j == i | _ => false

/-- operation `i` is over -/
def isOver (i : Nat) (l : List Obs) : Prop := ∃ w, Obs.ended i w ∈ l

/-- an execution of `i` has been accepted and neither been answered nor cancelled -/
def outstanding (i : Nat) (l : List Obs) : Prop := execReplies i l + cancels i l < execs i l

/-- the execution of `i` which was accepted last -/
def lastExec (i : Nat) (l : List Obs) : Option Nat :=
  l.foldl (fun r o => match o with | .exec j k _ => if j = i then some k else r | _ => r) none

/-- the execution with handle `k` has been cancelled by the client -/
def CancelledSince (k : Nat) (l : List Obs) : Prop :=
  ∃ i c a b d, l = a ++ Obs.exec i k c :: (b ++ Obs.cancelled i :: d)

/-- the handle with which the application answers -/
def uses : Ev → Option Nat
  | .reply k _ | .error k => some k
  | _ => none

/-- An application which uses each handle once, and not any more once the execution has been cancelled.
`used`: handles already used -/
def Careful (used : List Nat) (s : SConn) : List Ev → Prop
  | [] => True
  | e :: es => (∀ k, uses e = some k → k ∉ used ∧ ¬ CancelledSince k s.log)
      ∧ Careful ((uses e).toList ++ used) (step s e) es

/-- a server to which a client has just connected -/
def start : SConn := {}

end Pvxs.Spec
