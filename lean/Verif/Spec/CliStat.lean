import Verif.Model.CliStat
import Verif.Spec.ClientMon
/-
C117: statistics of a client subscription.
-/
namespace Pvxs.Spec.CliStat
open Pvxs.CliStat Pvxs.Spec.CMon
open Pvxs.ClientMon (Sub Entry Out)

/-- a subscription after MonitorBuilder::exec(), and what follows -/
def after (p : Params) (fail up : Bool) (es : List Ev) : St := run { sub := (ClientMon.begin (fresh p) fail up).1 } es

/-- what an event adds to the stream of the subscription, see C37.  The content is of no interest here. -/
def comes (s : St) : Ev → List Entry
  | .sub e _ => arrives s.sub (fun _ => 0) e
  | .stats _ => []

/-- a sum over the events, in the state each of them meets -/
def total (f : St → Ev → Nat) (s : St) : List Ev → Nat
  | [] => 0
  | e :: es => f s e + total f (step s e) es

/-- how many events, updates or exceptions, came -/
def came (p : Params) (fail up : Bool) (es : List Ev) : Nat :=
  (begun p fail up).length + total (fun s e => (comes s e).length) { sub := (ClientMon.begin (fresh p) fail up).1 } es

/-- how many were delivered by pop() -/
def taken (p : Params) (fail up : Bool) (es : List Ev) : Nat :=
  total (fun s e => (popped (outs s e)).length) { sub := (ClientMon.begin (fresh p) fail up).1 } es

/-- what the calls of stats() which reset it said of a counter -/
def told (f : Stat → Nat) (s : St) : Ev → Nat
  | .stats true => f (statOf s)
  | _ => 0

/-- what they said in total -/
def toldOf (f : Stat → Nat) (p : Params) (fail up : Bool) (es : List Ev) : Nat :=
  total (told f) { sub := (ClientMon.begin (fresh p) fail up).1 } es

/-- an update which the server combined from several -/
def combined (s : St) : Ev → Nat
  | .sub e true => if (arrives s.sub (fun _ => 0) e).any isData then 1 else 0
  | _ => 0

def combinedOf (p : Params) (fail up : Bool) (es : List Ev) : Nat :=
  total combined { sub := (ClientMon.begin (fresh p) fail up).1 } es

/-- the longest queue met before or after one of the events -/
def longest (s : St) : List Ev → Nat
  | [] => s.sub.queue.length
  | e :: es => max s.sub.queue.length (longest (step s e) es)

/-- an expected message with an update, or the last message -/
def updated (s : St) : Ev → Bool
  | .sub (.msg r _) _ => Takes s.sub && (ClientMon.fits s.sub r && !r.init)
  | _ => false

/-- the longest queue after such a message -/
def longestUpdated (s : St) : List Ev → Nat
  | [] => 0
  | e :: es => max (if updated s e then (step s e).sub.queue.length else 0) (longestUpdated (step s e) es)

def noReset : Ev → Bool
  | .stats true => false
  | _ => true

end Pvxs.Spec.CliStat
