import Verif.Model.SMap
/-
The helpers for unit tests: src/pvxs/unittest.h and src/unittest.cpp.  `testOk` and `testDiag` are those of EPICS Base; here they write one line.

Simplifications: values are printed by a function given as an argument; regular expressions are not modelled, only what regcomp() and regexec()
return (src/unittest.cpp:148-162); of a moved std::ostringstream it is assumed that it is left empty (:104, :119).
-/
namespace Pvxs.TestCase

/-- src/pvxs/unittest.h:56-61 -/
inductive Res where
  | nothing
  | diag
  | pass
  | fail
deriving DecidableEq, Repr

/-- src/pvxs/unittest.h:54-62 `class testCase` -/
structure Case where
  res : Res
  msg : Str := []
deriving DecidableEq, Repr

/-- one line which is reported -/
inductive Line where
  /-- testOk() -/
  | ok (pass : Bool) (text : Str)
  /-- testDiag() -/
  | diag (text : Str)
deriving DecidableEq, Repr

/-- src/unittest.cpp:93-95 -/
def blank : Case := { res := .diag }
/-- src/unittest.cpp:97-99 -/
def make (b : Bool) : Case := { res := if b then .pass else .fail }
/-- src/pvxs/unittest.h:78-81 -/
def Case.setPass (c : Case) (b : Bool) : Case := { c with res := if b then .pass else .fail }
/-- src/pvxs/unittest.h:89-93 -/
def Case.put (c : Case) (s : Str) : Case := { c with msg := c.msg ++ s }

/-- `for(std::string line; std::getline(strm, line);)`: what is before each LF, and what is after the last unless that is nothing; `cur` is the line so far -/
def getlines (cur : Str) : Str → List Str
  | [] => if cur = [] then [] else [cur]
  | x :: s => if x = 0x0a then cur :: getlines [] s else getlines (cur ++ [x]) s

/-- src/unittest.cpp:135-143: one line; the state changes after the first -/
def report : Res → List Str → List Line
  | _, [] => []
  | .diag, l :: ls => .diag l :: report .diag ls
  | r, l :: ls => .ok (decide (r = .pass)) l :: report .diag ls

/-- src/unittest.cpp:128-144 `~testCase` -/
def Case.close (c : Case) : List Line := if c.res = .nothing then [] else report c.res (getlines [] c.msg)

/-! ### several of them, moved about -/

inductive Op where
  /-- testCase(), testShow() -/
  | blank (i : Nat)
  /-- testCase(bool) -/
  | make (i : Nat) (b : Bool)
  | setPass (i : Nat) (b : Bool)
  | put (i : Nat) (s : Str)
  /-- `testCase dst(std::move(src))` -/
  | move (src dst : Nat)
  /-- `dst = std::move(src)` -/
  | assign (src dst : Nat)
  | destroy (i : Nat)
deriving DecidableEq, Repr

/-- the objects which exist, and what has been reported -/
structure St where
  live : Nat → Option Case := fun _ => none
  out : List Line := []

def St.set (s : St) (i : Nat) (c : Option Case) : St := { s with live := fun j => if j = i then c else s.live j }

/-- src/unittest.cpp:101-111, src/unittest.cpp:113-126 leave this -/
def moved : Case := { res := .nothing }

/-- what is not possible in C++ does nothing: the use of an object which does not exist, two objects in the same place -/
def step (s : St) : Op → St
  | .blank i => if s.live i = none then s.set i (some blank) else s
  | .make i b => if s.live i = none then s.set i (some (make b)) else s
  | .setPass i b => match s.live i with
    | some c => s.set i (some (c.setPass b))
    | none => s
  | .put i t => match s.live i with
    | some c => s.set i (some (c.put t))
    | none => s
  | .move a b => match s.live a, s.live b with
    | some c, none => (s.set a (some moved)).set b (some c)
    | _, _ => s
  | .assign a b => match s.live a, s.live b with
    | some c, some _ => if a = b then s else (s.set a (some moved)).set b (some c)
    | _, _ => s
  | .destroy i => match s.live i with
    | some c => { s.set i none with out := s.out ++ c.close }
    | none => s

def run (ops : List Op) : St := ops.foldl step {}

/-! ### the comparisons -/

/-- src/pvxs/unittest.h:142-152 `testEq`, src/pvxs/unittest.h:154-164 `testNotEq`; `l`, `r` are the texts of the arguments -/
def testEq [DecidableEq α] (pr : α → Str) (eq : Bool) (l : Str) (x : α) (r : Str) (y : α) : Case :=
  ((((((make (decide (x = y) == eq)).put (l ++ [0x20, 0x28])).put (pr x)).put (if eq then [0x29, 0x20, 0x3d, 0x3d, 0x20] else [0x29, 0x20, 0x21, 0x3d, 0x20])).put
    (r ++ [0x20, 0x28])).put (pr y)).put [0x29, 0x20]

/-- the loop src/pvxs/unittest.h:196-205: are those elements equal which both have -/
def arrLoop [DecidableEq α] : List α → List α → Bool
  | x :: xs, y :: ys => decide (x = y) && arrLoop xs ys
  | _, _ => true

/-- src/pvxs/unittest.h:186-208 `testArrEq`, whether it passes -/
def arrEq [DecidableEq α] (x y : List α) : Bool := decide (x.length = y.length) && arrLoop x y

/-- src/unittest.cpp:180-194 `_testStrTest`, whether it passes; `none` is NULL.  Simplified: that a pointer equals itself is the equality of texts -/
def strTest (op : Bool) (l r : Option Str) : Bool :=
  match l, r with
  | none, none => op == true
  | some a, some b => op == decide (a = b)
  | _, _ => op == false

/-- what regcomp() and regexec() say -/
inductive Match where
  /-- regcomp() fails -/
  | badExpr
  | found
  | noMatch
  /-- regexec() fails otherwise, e.g. REG_ESPACE -/
  | failed
deriving DecidableEq, Repr

/-- src/unittest.cpp:146-176 `setPassMatch`, whether it passes -/
def Match.pass : Match → Bool
  | .badExpr => false
  | .noMatch => false
  | _ => true

/-- how the function under test ends -/
inductive End where
  | returns
  /-- throws what was expected; `m`: whether what() matches -/
  | expected (m : Match)
  /-- throws another std::exception -/
  | other
  /-- throws something else -/
  | alien
deriving DecidableEq, Repr

/-- src/pvxs/unittest.h:228-241 `testThrows`, src/pvxs/unittest.h:262-275 `testThrowsMatch`.  `t`: the text added.  `true`: an exception leaves, and the object is destroyed. -/
def throws (matching : Bool) (t : Str) : End → Case × Bool
  | .returns => ((make false).put (0x55 :: t), false)
  | .expected m => (((make false).setPass (if matching then m.pass else true)).put (0x45 :: t), false)
  | .other => ((make false).put (0x55 :: t), false)
  | .alien => (make false, true)

end Pvxs.TestCase
