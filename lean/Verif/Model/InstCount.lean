/-
Counters of instances: src/utilpvt.h:289-311, registerICount() and instanceSnapshot() (src/util.cpp:79-121, src/pvxs/util.h:124-126).

One class, with its counter.  Objects are made and destroyed by any threads; a step is one access to the counter or one critical section of the lock of the table.

Simplifications: there are fewer than 2^64 - 1 objects at a time, so the counter itself does not wrap; the subtraction of instanceSnapshot() may.
-/
namespace Pvxs.InstCount

structure St where
  /-- `Cnt` -/
  cnt : Nat := 0
  /-- the table has an entry for this counter -/
  reg : Bool := false
  /-- objects with a constructor which found 0, and did not yet enter registerICount() -/
  first : Nat := 0
  /-- objects with a constructor between `counters.emplace()` and `Cnt++` -/
  added : Nat := 0
  /-- objects with a constructor which returned, and which were not destroyed -/
  live : Nat := 0
  /-- answers of instanceSnapshot() for this class, with the number of objects at that time -/
  log : List (Option Nat × Nat) := []
deriving DecidableEq, Repr

/-- objects which were begun and not destroyed; not in the code -/
def St.objects (s : St) : Nat := s.first + s.added + s.live

/-- InstCounter::InstCounter(), fetch_add(): src/utilpvt.h:295-299 -/
def make (s : St) : St :=
  if s.cnt = 0 then { s with cnt := s.cnt + 1, first := s.first + 1 } else { s with cnt := s.cnt + 1, live := s.live + 1 }

/-- registerICount(), the critical section.  `ok`: there is memory; `taken`: another class of that name has an entry: src/util.cpp:93-103 -/
def add (taken : Bool) (s : St) (ok : Bool) : St :=
  if s.first = 0 then s
  else if ok = false ∨ taken = true ∨ s.reg = true then { s with first := s.first - 1, live := s.live + 1 }
  else { s with first := s.first - 1, reg := true, added := s.added + 1 }

/-- registerICount(), `Cnt++`: src/util.cpp:104 -/
def bias (s : St) : St :=
  if s.added = 0 then s else { s with cnt := s.cnt + 1, added := s.added - 1, live := s.live + 1 }

/-- ~InstCounter(): src/utilpvt.h:302-304 -/
def destroy (s : St) : St :=
  if s.live = 0 then s else { s with cnt := s.cnt - 1, live := s.live - 1 }

/-- what instanceSnapshot() has for this class, in arithmetic of size_t: src/util.cpp:107-121 -/
def answer (s : St) : Option Nat :=
  if s.reg then some ((s.cnt + (2 ^ 64 - 1)) % 2 ^ 64) else none

inductive Op where
  | make
  | add (ok : Bool)
  | bias
  | destroy
  | snapshot
deriving DecidableEq, Repr

def step (taken : Bool) (s : St) : Op → St
  | .make => make s
  | .add ok => add taken s ok
  | .bias => bias s
  | .destroy => destroy s
  | .snapshot => { s with log := s.log ++ [(answer s, s.objects)] }

def run (taken : Bool) (s : St) (ops : List Op) : St := ops.foldl (step taken) s

end Pvxs.InstCount
