/-
Numbers for channels and requests: src/serverchan.cpp:262-275,314-330, src/client.cpp:119-146,351-380.  All three are 32 bit unsigned
counters which skip numbers in use.
-/
namespace Pvxs.Ids

/-- `++` on a uint32_t -/
def succ (n : Nat) : Nat := (n + 1) % 2 ^ 32

/-- The search for an unused number, from `n`.  After 2^32 steps all have been looked at, and the loop goes round again: `none` with
this fuel means that it does not end. -/
def scan (used : Nat → Bool) : Nat → Nat → Option Nat
  | 0, _ => none
  | f+1, n => if used n then scan used f (succ n) else some n

def fresh (used : Nat → Bool) (n : Nat) : Option Nat := scan used (2 ^ 32) n

/-- A table of objects by number, std::map<uint32_t, ...>; objects are numbered in the order of their creation. `stuck`: in an endless
loop. -/
structure Tab where
  next : Nat
  tab : List (Nat × Nat) := []
  count : Nat := 0
  stuck : Bool := false

def Tab.used (t : Tab) (n : Nat) : Bool := (t.tab.lookup n).isSome

/-- std::map::operator[] with assignment, emplace() of a number which is not there -/
def Tab.insert (t : Tab) (id obj : Nat) : Tab := { t with tab := (id, obj) :: t.tab.filter fun p => p.1 != id }

/-- src/serverchan.cpp:265-275,314-326: a client asks for a channel, which is claimed by some source or not -/
def serverCreate (t : Tab) (claimed : Bool) : Tab :=
  if t.stuck then t
  else if t.tab.length = 0xffffffff then t
  else match fresh t.used t.next with
    | none => { t with stuck := true }
    | some sid =>
      let t := { t with next := succ sid }
      if claimed then { t.insert sid t.count with count := t.count + 1 } else t

/-- src/client.cpp:361-374: a channel which is not in the cache is built -/
def clientBuild (t : Tab) : Tab :=
  if t.stuck then t
  else match fresh t.used t.next with
    | none => { t with stuck := true }
    | some cid => { ({ t with next := cid } : Tab).insert cid t.count with count := t.count + 1 }

/-- src/client.cpp:131-143: one pending operation of a channel which is now open -/
def clientRequest (t : Tab) : Tab :=
  if t.stuck then t
  else match fresh t.used t.next with
    | none => { t with stuck := true }
    | some ioid => { ({ t with next := succ ioid } : Tab).insert ioid t.count with count := t.count + 1 }

/-- src/client.cpp:192, src/clientget.cpp:361, src/clientmon.cpp: `conn->opByIOID.erase(ioid)` -/
def clientRelease (t : Tab) (ioid : Nat) : Tab := { t with tab := t.tab.filter fun p => p.1 != ioid }

/-- on one connection of a server: only a new connection starts over -/
def serverRun (l : List Bool) : Tab := l.foldl serverCreate { next := 0x07050301 }

/-- of one client context: nothing is ever erased from chanByCID -/
def clientRun : Nat → Tab
  | 0 => { next := 0x12345678 }
  | n+1 => clientBuild (clientRun n)

inductive Op where
  | request
  | release (ioid : Nat)

def reqStep (t : Tab) : Op → Tab
  | .request => clientRequest t
  | .release i => clientRelease t i

/-- on one connection of a client -/
def reqRun (l : List Op) : Tab := l.foldl reqStep { next := 0x10002000 }

end Pvxs.Ids
