import Verif.Model.SharedPV
import Verif.Spec.ServerMon
/-
Specification vocabulary for SharedPV (C29, C30, C31).
-/
namespace Pvxs.Spec.SPV
open Pvxs Pvxs.SPV
open Pvxs.Mon (Upd merge content)

/-- a new SharedPV, without clients -/
def start : World := {}

/-- effect of a successful call of open(), post(), close() on the value and its type -/
def after (cur : Option (Nat × Upd)) : Out → Option (Nat × Upd)
  | .opened ty v => some (ty, v)
  | .posted _ v => cur.map fun (ty, u) => (ty, merge u v)
  | .closed => none
  | _ => cur
/-- the value which these calls leave -/
def valueOf (l : List Out) : Option (Nat × Upd) := l.foldl after none

/-- what a subscriber is to be told: the value at the time when it was attached, and then every post -/
def due (i : Nat) : Bool → List Out → List Upd
  | _, [] => []
  | b, .attached j v :: l => if j = i then v :: due i true l else due i b l
  | b, .posted _ v :: l => (if b then [v] else []) ++ due i b l
  | b, _ :: l => due i b l

/-- the Values passed to post() of subscription `i` -/
def callsTo (i : Nat) : Mon.Sys → List Mon.Ev → List Upd
  | _, [] => []
  | s, e :: es => (match e with
      | .post j c _ _ => if j = i then [content s.heap c] else []
      | _ => []) ++ callsTo i (Mon.step s e) es

/-- subscription `i` is just being attached -/
def attaching (w : World) (i : Nat) : Bool := w.attaching.any fun a => a.sub == i

/-- open(), post() or close() -/
def changes : Ev → Bool
  | .open _ _ => true
  | .post _ _ => true
  | .close => true
  | _ => false

/-- the application does not call open(), post() or close() just while subscription `i` is being attached -/
def NoRace (i : Nat) (es : List Ev) : Prop :=
  ∀ pre e post, es = pre ++ e :: post → attaching (run start pre) i = true → changes e = false

/-- first-connect and last-disconnect callbacks, in order -/
def clients (l : List Out) : List Bool :=
  l.filterMap fun | .firstConnect => some true | .lastDisconnect => some false | _ => none

end Pvxs.Spec.SPV
