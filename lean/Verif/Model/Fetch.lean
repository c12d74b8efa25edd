import Verif.Model.Beacon
/-
The command line programs pvxget (tools/get.cpp), pvxinfo (tools/info.cpp) and pvxlist (tools/list.cpp): what is printed, when they end, and with which
exit status.

Simplifications: options are not modelled; of what is printed only the kind is (Model/Print and Model/TypeText say how values and types are
printed); the callback of an operation runs at most once, as Model/ClientOp and Model/ClientInfo have it; `wait(timeout)` does not give up if
signalled before.
-/
namespace Pvxs.Fetch

inductive Prog where
  | get
  | info
  /-- pvxlist with addresses of servers -/
  | list
deriving DecidableEq, Repr

inductive Ev where
  /-- the callback of the operation for the i-th name runs; `ok`: with a value, or else with an error -/
  | result (i : Nat) (ok : Bool)
  /-- SIGINT or SIGTERM arrives, and its handler has run -/
  | interrupt
  /-- `done.wait(timeout)` gives up -/
  | timeout
  /-- `done.wait(timeout)` returns since it was signalled -/
  | wake
  /-- main() goes on to its end: tools/get.cpp:133-146, tools/info.cpp:112-121, tools/list.cpp:205 -/
  | finish
deriving DecidableEq, Repr

/-- what is printed on standard output for one name -/
inductive Shown where
  | value
  | error
  /-- only the name: tools/get.cpp:112 comes before the exception of :114 -/
  | name
deriving DecidableEq, Repr

inductive Phase where
  | waiting
  /-- the wait is over; `true`: by a signal -/
  | waited (signalled : Bool)
  | exited (status : Nat)
deriving DecidableEq, Repr

/-- tools/get.cpp:104-105, tools/info.cpp:83-84, tools/list.cpp:117, :156; `answered`: for which names the callback has run -/
structure Main where
  remaining : Int
  answered : List Nat := []
  out : List (Nat × Shown) := []
  done : Bool := false
  phase : Phase := .waiting
deriving DecidableEq, Repr

def start (n : Nat) : Main := { remaining := n }

/-- the end of a callback: `remaining.fetch_sub(1)==1`, tools/get.cpp:119-120, tools/info.cpp:99-100, tools/list.cpp:192-194.  (In list.cpp
`remaining` is gone when the block :154-198 is left, although the callbacks refer to it; here it lives on.) -/
def Main.count (m : Main) : Main := { m with remaining := m.remaining - 1, done := m.done || decide (m.remaining = 1) }

def Main.print (m : Main) (i : Nat) (w : Shown) : Main := { m with out := m.out ++ [(i, w)] }

/-- the callbacks: tools/get.cpp:111-121 (`result()` throws if there is an error, and what throws is logged by src/clientget.cpp:158-171),
tools/info.cpp:89-101, tools/list.cpp:162-195 (an error is printed on standard error) -/
def Main.callback (p : Prog) (m : Main) (i : Nat) (ok : Bool) : Main :=
  match p, ok with
  | .get, true => (m.print i .value).count
  | .get, false => m.print i .name
  | .info, true => (m.print i .value).count
  | .info, false => (m.print i .error).count
  | .list, true => (m.print i .value).count
  | .list, false => m.count

/-- tools/get.cpp:135-146, tools/info.cpp:112-121, tools/list.cpp:205 -/
def Main.status (p : Prog) (m : Main) (signalled : Bool) : Nat :=
  if p = .list then 0
  else if !signalled then 1
  else if m.remaining = 0 then 0
  else 2

def exited (m : Main) : Bool := match m.phase with | .exited _ => true | _ => false

def step (p : Prog) (n : Nat) (m : Main) : Ev → Main
  | .result i ok =>
    if exited m ∨ n ≤ i ∨ i ∈ m.answered then m
    else Main.callback p { m with answered := m.answered ++ [i] } i ok
  | .interrupt => if exited m then m else { m with done := true }
  | .timeout => if m.phase = .waiting ∧ m.done = false then { m with phase := .waited false } else m
  | .wake => if m.phase = .waiting ∧ m.done = true then { m with phase := .waited true } else m
  | .finish => match m.phase with
    | .waited b => { m with phase := .exited (m.status p b) }
    | _ => m

def run (p : Prog) (n : Nat) (es : List Ev) : Main := es.foldl (step p n) (start n)

/-! ### pvxlist without addresses, tools/list.cpp:126-152 -/

structure Seen where
  /-- `servprotos` -/
  known : List (List Wire.Byte × Str) := []
  /-- `std::cout<<serv.server` -/
  out : List Udp.Ep := []
deriving DecidableEq, Repr

/-- tools/list.cpp:129-149, not verbose.  `tcp` is the text "tcp". -/
def hear (tcp : Str) (s : Seen) (e : Beacon.Event) : Seen :=
  if e.key.2 ≠ tcp then s
  else if e.online = false then { s with known := s.known.filter (· ≠ (e.guid, e.key.2)) }
  else if (e.guid, e.key.2) ∈ s.known then s
  else { known := s.known ++ [(e.guid, e.key.2)], out := s.out ++ [e.key.1] }

def listing (es : List Beacon.Event) : Seen := es.foldl (hear [0x74, 0x63, 0x70]) {}

end Pvxs.Fetch
