import Verif.Model.ClientMon
/-
Statistics of a client subscription: src/clientmon.cpp, src/pvxs/client.h.

The subscription itself is that of Model/ClientMon.lean, which has the counter of updates merged by the client.

Not modelled: counters beyond the range of size_t; the mask of overruns is only seen as empty or not.
-/
namespace Pvxs.CliStat
open Pvxs.ClientMon (Sub Reply Out fits)

/-- src/pvxs/client.h:161-173 `SubscriptionStat` -/
structure Stat where
  nQueue : Nat := 0
  nSrvSquash : Nat := 0
  nCliSquash : Nat := 0
  maxQueue : Nat := 0
  limitQueue : Nat := 0
deriving DecidableEq, Repr

/-- src/clientmon.cpp:34-76: a subscription with its other counters -/
structure St where
  sub : Sub
  nSrvSquash : Nat := 0
  queueMax : Nat := 0

/-- src/clientmon.cpp:485-607: the message is one for this subscription, which can be decoded and is expected -/
def reached (o : Sub) (r : Reply) : Bool := o.reg && !(r.carries && !o.fl) && o.alive && fits o r

/-- src/clientmon.cpp:545-560, 734-735: `overrun` is the mask of overruns sent with an update -/
def countSrv (s : St) (r : Reply) (overrun : Bool) : Nat :=
  if reached s.sub r && r.carries && overrun then s.nSrvSquash + 1 else s.nSrvSquash

/-- src/clientmon.cpp:672-728: only an update or the last message is counted, not the reply to INIT -/
def countMax (s : St) (r : Reply) (len : Nat) : Nat :=
  if reached s.sub r && !r.init then max s.queueMax len else s.queueMax

inductive Ev where
  /-- an event of the subscription; `overrun`: the mask of overruns of a MONITOR message is not empty -/
  | sub (e : ClientMon.Ev) (overrun : Bool)
  | stats (reset : Bool)

/-- src/clientmon.cpp:145-156 `stats` -/
def statOf (s : St) : Stat :=
  { nQueue := s.sub.queue.length, nSrvSquash := s.nSrvSquash, nCliSquash := s.sub.nCliSquash, maxQueue := s.queueMax, limitQueue := s.sub.queueSize }

/-- src/clientmon.cpp:152-154 -/
def resetStat (s : St) : St := { sub := { s.sub with nCliSquash := 0 }, nSrvSquash := 0, queueMax := 0 }

/-- one event of the subscription -/
def subStep (s : St) (e : ClientMon.Ev) (overrun : Bool) : St :=
  match e with
  | .msg r i =>
    { sub := (ClientMon.step s.sub (.msg r i)).1
      nSrvSquash := countSrv s r overrun
      queueMax := countMax s r (ClientMon.step s.sub (.msg r i)).1.queue.length }
  | e => { s with sub := (ClientMon.step s.sub e).1 }

/-- one event -/
def step (s : St) : Ev → St
  | .sub e v => subStep s e v
  | .stats reset => if reset then resetStat s else s

/-- what the application and the server see of it -/
def outs (s : St) : Ev → List Out
  | .sub e _ => (ClientMon.step s.sub e).2
  | .stats _ => []

def run (s : St) (es : List Ev) : St := es.foldl step s

end Pvxs.CliStat
