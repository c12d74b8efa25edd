/-
Waiting for a PVA link, in tests of IOC applications: testqsrvWaitForLinkConnected() and QSrvWaitForLinkUpdate, ioc/pvalink.cpp:132-181; the signals are given by
pvaLinkChannel::run(), ioc/pvalink_channel.cpp:328-418.

Threads which wait are natural numbers.  The steps are those between which the lock of the link is given up.

Simplifications: one link.  The time limits (after which the test is aborted) are not modelled: a wait which is not ended by a signal is taken to exceed them.
-/
namespace Pvxs.LinkWait

/-- what is waited for -/
inductive Goal where
  /-- ioc/pvalink.cpp:132: the link is connected, or is not -/
  | conn (want : Bool)
  /-- ioc/pvalink.cpp:153-160: an update after the one with this number -/
  | update (seq : Nat)
deriving DecidableEq, Repr

inductive Pc where
  /-- before, or outside, a wait -/
  | idle
  /-- about to look -/
  | look (g : Goal)
  /-- in `update_evt.wait()` -/
  | wait (g : Goal)
deriving DecidableEq, Repr

structure St where
  connected : Bool := false
  /-- ioc/pvalink.h:166 `update_seq`, 32 bits -/
  seq : Nat := 0
  /-- ioc/pvalink.h:155 `update_evt`, is signalled -/
  evt : Bool := false
  pc : Nat → Pc := fun _ => .idle
  /-- how many updates there were -/
  updates : Nat := 0
  /-- how many there were when a thread began to wait -/
  since : Nat → Nat := fun _ => 0
  /-- the waits which ended: the thread, for what, whether the link was connected, and the updates between -/
  ended : List (Nat × Goal × Bool × Nat) := []

inductive Op where
  /-- ioc/pvalink.cpp:136-137 -/
  | startConn (t : Nat) (want : Bool)
  /-- ioc/pvalink.cpp:153-160, the constructor -/
  | startUpdate (t : Nat)
  /-- ioc/pvalink.cpp:138, 170: the condition of the loop -/
  | look (t : Nat)
  /-- ioc/pvalink.cpp:141, 175: the signal is taken -/
  | wake (t : Nat)
  /-- ioc/pvalink_channel.cpp:328-418: an update, after which the link is connected or not -/
  | update (connected : Bool)
deriving DecidableEq, Repr

/-- ioc/pvalink.cpp:138, 170 -/
def met (s : St) : Goal → Bool
  | .conn want => s.connected == want
  | .update seq => s.seq != seq

def setPc (s : St) (t : Nat) (p : Pc) : Nat → Pc := fun x => if x = t then p else s.pc x

def start (s : St) (t : Nat) (g : Goal) : St :=
  match s.pc t with
  | .idle => { s with pc := setPc s t (.look g), since := fun x => if x = t then s.updates else s.since x }
  | _ => s

def look (s : St) (t : Nat) : St :=
  match s.pc t with
  | .look g =>
    if met s g then { s with pc := setPc s t .idle, ended := s.ended ++ [(t, g, s.connected, s.updates - s.since t)] }
    else { s with pc := setPc s t (.wait g) }
  | _ => s

def wake (s : St) (t : Nat) : St :=
  match s.pc t with
  | .wait g => if s.evt then { s with pc := setPc s t (.look g), evt := false } else s
  | _ => s

def step (s : St) : Op → St
  | .startConn t want => start s t (.conn want)
  | .startUpdate t => start s t (.update s.seq)
  | .look t => look s t
  | .wake t => wake s t
  | .update c => { s with connected := c, seq := (s.seq + 1) % 2 ^ 32, evt := true, updates := s.updates + 1 }

def run (l : List Op) : St := l.foldl step {}

end Pvxs.LinkWait
