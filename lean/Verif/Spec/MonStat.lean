import Verif.Model.MonStat
import Verif.Spec.ServerMon
/-
What the statistics and flow control levels of a subscription on the server are to be (C105).
-/
namespace Pvxs.Spec.MonStat
open Pvxs.Mon (Mon Sys testmask content)
open Pvxs.MonStat

/-- how many entries wait in the queue of subscription `i` -/
def waiting (i : Nat) (s : St) : Nat :=
  match s.sys.mons[i]? with
  | some m => m.queue.length
  | none => 0

/-- the highest number of waiting entries, from this state on -/
def peak (A : Nat → AckAny) (i : Nat) : St → List Ev → Nat
  | s, [] => waiting i s
  | s, e :: es => max (waiting i s) (peak A i (step A s e) es)

/-- an update is posted, not with tryPost(), to a subscription which is not finished and wants it, and the queue does not become longer: it was
combined with the last one in the queue -/
def combined (A : Nat → AckAny) (i : Nat) (s : St) (e : Ev) : Bool :=
  match e, s.sys.mons[i]? with
  | .mon (.post j c false _), some m =>
    j == i && m.state != .creating && !m.finished && testmask m.mask (content s.sys.heap c) && waiting i (step A s e) == waiting i s
  | _, _ => false

def combinedCount (A : Nat → AckAny) (i : Nat) : St → List Ev → Nat
  | _, [] => 0
  | s, e :: es => (if combined A i s e then 1 else 0) + combinedCount A i (step A s e) es

/-- the statistics of `i` are not reset -/
def NoReset (i : Nat) (es : List Ev) : Prop := .stats i true ∉ es

/-- The client acknowledges after so many updates.  A number is taken as it is, a percentage is of the size of the queue; half of it by default.  At least 1, at most the size. -/
def ackAfter (a : AckAny) (size : Nat) : Nat :=
  let n := match a with
    | .none => size / 2
    | .count n => if n = 0 then size / 2 else n
    | .percent num den => if num.toNat * size / (100 * den) = 0 then size / 2 else num.toNat * size / (100 * den)
  max 1 (min n size)

/-- The client allows for further updates, so that more than the level can be sent, and somebody is to be told of it.  The subscription is set up, not finished, and was
not ended by the client. -/
def exceeds (i : Nat) (s : St) (e : Ev) : Bool :=
  match e, s.sys.mons[i]?, s.ext[i]? with
  | .mon (.ctl j (some n) _ _), some m, some x =>
    j == i && (m.state == .idle || m.state == .executing) && !m.closing && m.pipeline && !m.finished && decide (x.high < m.window + n) && x.onHigh
  | _, _, _ => false

def exceedCount (A : Nat → AckAny) (i : Nat) : St → List Ev → Nat
  | _, [] => 0
  | s, e :: es => (if exceeds i s e then 1 else 0) + exceedCount A i (step A s e) es

/-- how often the application was told that the level is exceeded -/
def highCalls (i : Nat) (s : St) : Nat :=
  match s.ext[i]? with
  | some x => x.calls.count .high
  | none => 0

end Pvxs.Spec.MonStat
