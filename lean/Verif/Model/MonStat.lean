import Verif.Model.ServerMon
/-
Subscriptions on the server: what post() returns, statistics, and flow control levels (src/servermon.cpp).

These do not act on the subscription itself, so they are kept beside the model of it in Model/ServerMon (`Sys`).
-/
namespace Pvxs.MonStat
open Pvxs.Mon
open Pvxs.Server (OpState)

/-- `record._options.ackAny` of a request, as it is understood by src/servermon.cpp:507-527 and src/clientmon.cpp:767-791: a number (or its decimal digits), or a
string which ends with '%', after a number `num/den`; anything else is `none`.  Simplified: the number is exact. -/
inductive AckAny where
  | none
  | count (n : Nat)
  | percent (num : Int) (den : Nat)
deriving DecidableEq, Repr

/-- the count, src/servermon.cpp:521-527, src/clientmon.cpp:786-792: only if nothing was found so far; "50%" is not a number -/
def orCount (a : AckAny) (at_ : Nat) : Nat :=
  if at_ = 0 then match a with
    | .count n => n
    | _ => 0
  else at_

/-- src/servermon.cpp:529-533, src/clientmon.cpp:794-798 -/
def clampAck (at_ limit : Nat) : Nat := max 1 (min (if at_ = 0 then limit / 2 else at_) limit)

/-- src/servermon.cpp:507-533; `ackAt` is 1 at first (:63) -/
def serverAckAt (a : AckAny) (limit : Nat) : Nat :=
  clampAck (orCount a (match a with
    | .percent num den => (max 0 (min num (100 * den))).toNat * limit / den
    | _ => 1)) limit

/-- src/clientmon.cpp:767-798; `ackAt` is 0 at first (:88).  The product is taken to fit (uint32_t). -/
def clientAckAt (a : AckAny) (queueSize : Nat) : Nat :=
  clampAck (orCount a (match a with
    | .percent num den => if 0 < num ∧ num ≤ 100 * den then num.toNat * queueSize / den else 0
    | _ => 0)) queueSize

inductive Mark where
  | low | high
deriving DecidableEq, Repr

/-- further members of `MonitorOp`, src/servermon.cpp:44-66; `onLow`, `onHigh`: a callback is set; `calls` records the calls of them -/
structure Ext where
  maxQueue : Nat := 0
  nSquash : Nat := 0
  low : Nat := 0
  high : Nat := 0
  ackAt : Nat := 1
  onLow : Bool := false
  onHigh : Bool := false
  lowPending : Bool := false
  highPending : Bool := false
  calls : List Mark := []
deriving DecidableEq, Repr

structure St where
  sys : Sys := {}
  ext : List Ext := []

/-- src/servermon.cpp:262-290 `doPost`: the counters -/
def onPost (heap : List Upd) (m : Mon) (cell : Nat) (maybe force : Bool) (x : Ext) : Ext :=
  if m.state = .creating ∨ m.finished ∨ !testmask m.mask (content heap cell) then x
  else if m.queue.length < m.limit ∨ force then { x with maxQueue := if x.maxQueue < m.queue.length + 1 then m.queue.length + 1 else x.maxQueue }
  else if !maybe then { x with nSquash := x.nSquash + 1 }
  else x

/-- the same without a Value -/
def onFinish (m : Mon) (x : Ext) : Ext :=
  if m.state = .creating ∨ m.finished then x
  else { x with maxQueue := if x.maxQueue < m.queue.length + 1 then m.queue.length + 1 else x.maxQueue }

/-- src/servermon.cpp:596-626: an acknowledgement -/
def onCtl (m : Mon) (ack : Option Nat) (x : Ext) : Ext :=
  if m.state = .dead ∨ m.closing ∨ m.state = .creating then x
  else match ack with
    | some n =>
      if m.pipeline && !x.highPending && decide (x.high < m.window + n) && x.onHigh && !m.finished then { x with highPending := true } else x
    | none => x

/-- src/servermon.cpp:185-202: an update was sent, and counted against the window -/
def onWork (heap : List Upd) (m : Mon) (x : Ext) : Ext :=
  if decide ((m.runJob heap).window < m.window) && !x.lowPending && decide ((m.runJob heap).window ≤ x.low) && x.onLow then { x with lowPending := true } else x

def modExt (s : Sys) (xs : List Ext) (i : Nat) (g : Mon → Ext → Ext) : List Ext :=
  match s.mons[i]? with
  | some m => xs.modify i (g m)
  | none => xs

/-- what happens to the statistics and levels; `A i`: the `ackAny` of the i-th subscription -/
def extStep (A : Nat → AckAny) (s : Sys) (xs : List Ext) : Mon.Ev → List Ext
  | .subscribe _ n q _ => xs ++ [{ ackAt := serverAckAt (A s.mons.length) (limitFor n q) }]
  | .post i c maybe force => modExt s xs i fun m => onPost s.heap m c maybe force
  | .finish i => modExt s xs i onFinish
  | .ctl i a _ _ => modExt s xs i fun m => onCtl m a
  | .work i => modExt s xs i (onWork s.heap)
  | _ => xs

/-- src/servermon.cpp:314-328 `setWatermarks` with low ≤ high, otherwise an exception is thrown -/
def levels (low high : Nat) (x : Ext) : Ext := { x with low := min low (x.ackAt - 1), high := min high (x.ackAt - 1) }

/-- src/servermon.cpp:190-199: the dispatched call -/
def runLow (x : Ext) : Ext :=
  if x.lowPending then { x with lowPending := false, calls := if x.onLow then x.calls ++ [.low] else x.calls } else x

/-- src/servermon.cpp:613-624: the dispatched call -/
def runHigh (m : Mon) (x : Ext) : Ext :=
  if x.highPending then { x with highPending := false, calls := if !m.finished && x.onHigh then x.calls ++ [.high] else x.calls } else x

/-- src/pvxs/source.h:53-72 `MonitorStat` -/
structure Stat where
  window : Nat := 0
  nQueue : Nat := 0
  maxQueue : Nat := 0
  limitQueue : Nat := 0
  nSquash : Nat := 0
  running : Bool := false
  finished : Bool := false
  pipeline : Bool := false
deriving DecidableEq, Repr

/-- src/servermon.cpp:298-316 `stats(stat, reset)`: what is stored to `stat` -/
def statsOf (m : Mon) (x : Ext) (stat : Stat) : Stat :=
  let stat := { stat with running := m.state == OpState.executing, finished := m.finished, pipeline := m.pipeline }
  let stat := { stat with nQueue := m.queue.length, maxQueue := x.maxQueue, limitQueue := m.limit, window := m.window }
  { stat with nQueue := x.nSquash }

/-- src/servermon.cpp:314-315 -/
def resetStats (x : Ext) : Ext := { x with maxQueue := 0, nSquash := 0 }

inductive Ev where
  | mon (e : Mon.Ev)
  | stats (i : Nat) (reset : Bool)
  | setWatermarks (i low high : Nat)
  | onLowMark (i : Nat)
  | onHighMark (i : Nat)
  /-- the event loop runs a dispatched call -/
  | runLow (i : Nat)
  | runHigh (i : Nat)
deriving DecidableEq

def step (A : Nat → AckAny) (s : St) : Ev → St
  | .mon e => { sys := Mon.step s.sys e, ext := extStep A s.sys s.ext e }
  | .stats i reset => { s with ext := if reset then s.ext.modify i resetStats else s.ext }
  | .setWatermarks i low high => { s with ext := if low ≤ high then s.ext.modify i (levels low high) else s.ext }
  | .onLowMark i => { s with ext := s.ext.modify i fun x => { x with onLow := true } }
  | .onHighMark i => { s with ext := s.ext.modify i fun x => { x with onHigh := true } }
  | .runLow i => { s with ext := s.ext.modify i MonStat.runLow }
  | .runHigh i => { s with ext := modExt s.sys s.ext i MonStat.runHigh }

def run (A : Nat → AckAny) (s : St) (es : List Ev) : St := es.foldl (step A) s

/-- src/servermon.cpp:246-296: the value returned by post(), tryPost() and forcePost() -/
def postResult (s : Sys) (i cell : Nat) (maybe force : Bool) : Bool :=
  match s.mons[i]?, (postValue s i cell maybe force).mons[i]? with
  | some m, some m' => !m.finished && decide (m'.queue.length < m'.limit)
  | _, _ => false

end Pvxs.MonStat
