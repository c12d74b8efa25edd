import Verif.Model.ServerMon
/-
Specification vocabulary for subscriptions on the server (C25 ... C29, C59).
-/
namespace Pvxs.Spec.Mon
open Pvxs Mon

/-- a server without subscriptions -/
def start : Sys := {}

/-- the updates sent, in order -/
def dataOf (l : List Msg) : List Upd := l.filterMap fun | .data u => some u | _ => none

/-- several updates as one: of each field the last value -/
def mergeAll (g : List Upd) : Upd := g.foldl merge []

/-- subscription `i` has been set up, that is there is somebody who could post -/
def connected (i : Nat) (s : Sys) : Bool :=
  match s.mons[i]? with
  | some m => m.state != .creating
  | none => false

/-- the event posts `u` to subscription `i`, with fields the subscriber wants, and this is not a tryPost() which finds the queue full -/
def offer (i : Nat) (s : Sys) : Ev → Option Upd
  | .post j c maybe force =>
    match s.mons[i]? with
    | some m =>
      if j = i ∧ testmask m.mask (content s.heap c) ∧ (!maybe ∨ force ∨ m.queue.length < m.limit) then some (content s.heap c)
      else none
    | none => none
  | _ => none

/-- the updates which a subscriber is to be told about: those posted before finish() -/
def accepted (i : Nat) : Bool → Sys → List Ev → List Upd
  | _, _, [] => []
  | fin, s, e :: es =>
    (if connected i s && !fin then (offer i s e).toList else [])
      ++ accepted i (fin || (connected i s && e == .finish i)) (step s e) es

/-- `out` is `posts`, in order, where some consecutive ones are merged -/
def Squashed (posts out : List Upd) : Prop :=
  ∃ gs : List (List Upd), (∀ g ∈ gs, g ≠ []) ∧ gs.flatten = posts ∧ out = gs.map mergeAll

/-- the updates waiting in the queue of subscription `i` -/
def queued (s : Sys) (m : Mon) : List Upd := m.queue.filterMap fun c => c.map (content s.heap)

/-- the Value which is posted -/
def postedCell : Ev → Option Nat
  | .post _ c _ _ => some c
  | _ => none

/-- no Value is posted twice, neither to the same nor to several subscriptions -/
def PostedOnce (es : List Ev) : Prop := (es.filterMap postedCell).Nodup

/-- the event does not concern another subscription than `i` -/
def about (i : Nat) : Ev → Bool
  | .value _ => true
  | .subscribe _ _ _ _ => true
  | .setup j _ => j == i
  | .post j _ _ _ => j == i
  | .finish j => j == i
  | .ctl j _ _ _ => j == i
  | .cancel j => j == i
  | .close j => j == i
  | .work j => j == i

/-- the initial window granted with a subscription -/
def windowOf : Ev → Option Nat
  | .subscribe _ n _ _ => some n
  | _ => none
/-- how many updates the client has allowed: the initial window of the i-th subscription, and the acknowledgements -/
def initialWindow (es : List Ev) (i : Nat) : Nat :=
  ((es.filterMap windowOf)[i]?).getD 0
/-- what happens after the i-th subscription was created -/
def since : Nat → List Ev → List Ev
  | _, [] => []
  | 0, .subscribe _ _ _ _ :: es => es
  | i+1, .subscribe _ _ _ _ :: es => since i es
  | i, _ :: es => since i es
def ackSum (i : Nat) (es : List Ev) : Nat :=
  (es.map fun | .ctl j (some n) _ _ => if j = i then n else 0 | _ => 0).sum
def granted (i : Nat) (es : List Ev) : Nat := initialWindow es i + ackSum i (since i es)

/-- how many times the client has stopped the subscription -/
def stopCount (i : Nat) (es : List Ev) : Nat :=
  es.countP fun | .ctl j _ (some false) _ => j == i | .cancel j => j == i | _ => false
def stops (i : Nat) (es : List Ev) : Nat := stopCount i (since i es)

end Pvxs.Spec.Mon
