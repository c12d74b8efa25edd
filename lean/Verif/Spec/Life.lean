import Verif.Model.Life
/-
What start() and stop() of a server promise.
-/
namespace Pvxs.Spec.Life
open Pvxs.Life

/-- which of the four a moment is in, from the events of start() and stop() alone -/
inductive Phase where
  | off
  /-- inside of a start() by this thread -/
  | starting (t : Nat)
  | on
  /-- inside of a stop() by this thread -/
  | stopping (t : Nat)
  /-- never -/
  | wrong
deriving DecidableEq

/-- start() acts when the server is stopped and only then, stop() when it runs and only then, and one does not begin before the other has ended -/
def next : Phase → Ev → Phase
  | .off, .began t => .starting t
  | .starting t, .up t' => if t' = t then .on else .wrong
  | .on, .halting t => .stopping t
  | .stopping t, .halted t' => if t' = t then .off else .wrong
  | _, .began _ => .wrong
  | _, .up _ => .wrong
  | _, .halting _ => .wrong
  | _, .halted _ => .wrong
  | p, _ => p

def phase (l : List Ev) : Phase := l.foldl next .off

/-- connections which are open after these events -/
def connected (l : List Ev) : List Nat := l.foldl (fun cs e => match e with | .opened c => cs ++ [c] | .closed c => cs.filter fun x => x ≠ c | _ => cs) []

/-- the most recent event of this thread's calls -/
def lastOf (t : Nat) (l : List Ev) : Option Ev :=
  l.foldl (fun r e => match e with
    | .began t' => if t' = t then some e else r
    | .up t' => if t' = t then some e else r
    | .startRet t' _ => if t' = t then some e else r
    | .halting t' => if t' = t then some e else r
    | .halted t' => if t' = t then some e else r
    | .stopRet t' _ => if t' = t then some e else r
    | _ => r) none

end Pvxs.Spec.Life
