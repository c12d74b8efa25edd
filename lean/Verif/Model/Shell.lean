import Verif.Model.SMap
/-
What the IOC shell commands pvxrefshow, pvxrefsave, pvxrefdiff (ioc/iochooks.cpp:237-304) and dbpvar (ioc/pvalink.cpp:184-316) print.
-/
namespace Pvxs.Shell

/-! ### pvxrefdiff -/

/-- ioc/iochooks.cpp:274-297: `cur` and `prev` from their iterators on, and `diff`.  Simplified: counters are below 2^63, so that int64_t() does not change them. -/
def coIterate : SMap Nat → SMap Nat → SMap Int → SMap Int
  | [], [], d => d
  | [], (b, y) :: p, d => coIterate [] p (d.insert b (-(y : Int)))
  | (a, x) :: c, [], d => coIterate c [] (d.insert a (x : Int))
  | (a, x) :: c, (b, y) :: p, d =>
    if a = b then coIterate c p (d.insert a ((x : Int) - (y : Int)))
    else if strLt b a then coIterate ((a, x) :: c) p (d.insert b (-(y : Int)))
    else coIterate c ((b, y) :: p) (d.insert a (x : Int))
termination_by c p => c.length + p.length

/-- ioc/iochooks.cpp:262-304 `pvxrefdiff`: the lines -/
def refDiff (prev cur : SMap Nat) : List (Str × Int) := (coIterate cur prev []).filter (fun q => q.2 ≠ 0)

/-- ioc/iochooks.cpp:239-245 `pvxrefshow` -/
def refShow (cur : SMap Nat) : List (Str × Nat) := cur.filter (fun q => 0 < q.2)

/-! ### dbpvar -/

/-- a channel of PVA links: whether the weak pointer still leads to it, whether it is connected, and for each of its links the name of the record, if `plink` is not NULL -/
structure Chan where
  alive : Bool
  connected : Bool
  links : List (Option Str)
deriving DecidableEq, Repr

/-- nconn, nchans, nlinks: ioc/pvalink.cpp:200 -/
structure Sums where
  nconn : Nat := 0
  nchans : Nat := 0
  nlinks : Nat := 0
deriving DecidableEq, Repr

/-- ioc/pvalink.cpp:219-228: the links of records which match -/
def matching (glob : Str → Bool) : List (Option Str) → Nat
  | [] => 0
  | some r :: l => (if glob r then 1 else 0) + matching glob l
  | none :: l => matching glob l

/-- ioc/pvalink.cpp:208-238, one channel; `glob`: matches the name which is given, if one is -/
def visit (glob : Option (Str → Bool)) (s : Sums) (c : Chan) : Sums :=
  if c.alive = false then s
  else match glob with
    | some g =>
      if matching g c.links = 0 then s
      else { nconn := s.nconn + (if c.connected then 1 else 0), nchans := s.nchans + 1, nlinks := s.nlinks + matching g c.links }
    | none => { nconn := s.nconn + (if c.connected then 1 else 0), nchans := s.nchans + 1, nlinks := s.nlinks + c.links.length }

/-- ioc/pvalink.cpp:185-311 `dbpvar`: the last line -/
def dbpvar (glob : Option (Str → Bool)) (cs : List Chan) : Sums := cs.foldl (visit glob) {}

end Pvxs.Shell
