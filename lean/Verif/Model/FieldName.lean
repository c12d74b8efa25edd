import Verif.Model.Res
import Verif.Model.Scalar
import Verif.Model.Config
/-
Names of the fields of a group PV: ioc/fieldname.cpp, ioc/fieldname.h, ioc/fieldnamecomponent.h.

Simplifications: `long` has 64 bits; the padding of to_string() is left out.
-/
namespace Pvxs.FieldName
open Wire (Byte)
open Cfg (splitLast)

/-- `std::getline(strm, part, c)` until it fails: the parts of `s`.  Nothing follows a `c` at the very end. -/
def getlines (c : Byte) : Str → List Str
  | [] => []
  | x :: s =>
    if x = c then [] :: getlines c s
    else
      match getlines c s with
      | [] => [[x]]
      | p :: ps => (x :: p) :: ps

/-- ioc/fieldnamecomponent.h:32-56: `index` is (uint32_t)-1 when there is none -/
structure Comp where
  name : Str
  index : Nat := 2 ^ 32 - 1
deriving Repr, DecidableEq

/-- ioc/fieldnamecomponent.h:55 -/
def Comp.isArray (c : Comp) : Bool := c.index != 2 ^ 32 - 1

/-- the digits of strtol(): value, clamped to `long`, and what follows -/
def strtolDigits (neg : Bool) (s : Str) : Int × Str :=
  let n := digitsVal 10 (s.takeWhile (isDigit 10))
  (if neg then (if 2 ^ 63 < n then -(2 ^ 63 : Int) else -(n : Int)) else (if 2 ^ 63 ≤ n then 2 ^ 63 - 1 else (n : Int)),
   s.dropWhile (isDigit 10))

/-- strtol(s, &end, 10): without a digit the end is the start -/
def strtol (s : Str) : Int × Str :=
  match s.dropWhile isSpace with
  | 0x2d :: r => if r.takeWhile (isDigit 10) = [] then (0, s) else strtolDigits true r
  | 0x2b :: r => if r.takeWhile (isDigit 10) = [] then (0, s) else strtolDigits false r
  | r => if r.takeWhile (isDigit 10) = [] then (0, s) else strtolDigits false r

/-- ioc/fieldname.cpp:35-59, one part -/
def parsePart (part : Str) : Res Comp :=
  if part = [] then .throws "Empty field component"
  else if part.getLast? = some 0x5d then
    match splitLast 0x5b part with
    | none => .throws "Invalid field array sub-script"
    | some (name, arrayIndex) =>
      let (index, endScan) := strtol arrayIndex
      if endScan.head? ≠ some 0x5d then .throws "Invalid field array sub-script"
      -- long to uint32_t
      else .ok { name, index := (index % 2 ^ 32).toNat }
  else .ok { name := part }

/-- ioc/fieldname.cpp:34-60, the loop -/
def parseParts : List Str → Res (List Comp)
  | [] => .ok []
  | p :: ps => do
    let c ← parsePart p
    let cs ← parseParts ps
    return c :: cs

/-- ioc/fieldname.cpp:29-67 `FieldName::FieldName` -/
def parse (s : Str) : Res (List Comp) :=
  if s = [] then .ok []
  else do
    let cs ← parseParts (getlines 0x2e s)
    if cs = [] then .throws "Empty field name" else .ok cs

/-- ioc/fieldname.cpp:99-102 -/
def showComp (c : Comp) : Str := c.name ++ if c.isArray then 0x5b :: (showNat c.index ++ [0x5d]) else []

/-- ioc/fieldname.cpp:92-103 -/
def showComps : List Comp → Str
  | [] => []
  | [c] => showComp c
  | c :: cs => showComp c ++ 0x2e :: showComps cs

/-- ioc/fieldname.cpp:87-106 `operator<<` -/
def toString (cs : List Comp) : Str := if cs = [] then [0x2f] else showComps cs

end Pvxs.FieldName
