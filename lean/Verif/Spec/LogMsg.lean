import Verif.Model.LogMsg
/-
What is expected of the messages of loggers (C122).
-/
namespace Pvxs.Spec.LogMsg
open Pvxs Pvxs.LogMsg

/-- time, level and name, with a blank between each -/
def Prefix (time lname name : Str) : Str := time ++ [0x20] ++ lname ++ [0x20] ++ name

/-- the value of a digit -/
def digit? (c : UInt8) : Option UInt8 :=
  if 0x30 ≤ c ∧ c ≤ 0x39 then some (c - 0x30) else if 0x41 ≤ c ∧ c ≤ 0x46 then some (c - 0x37) else none

/-- bytes written with two digits each -/
def unhex : Str → Option Str
  | [] => some []
  | [_] => none
  | a :: b :: l => (digit? a).bind fun x => (digit? b).bind fun y => (unhex l).map ((16 * x + y) :: ·)

/-- the digits of all lines -/
def digits : List Line → Str
  | [] => []
  | .row _ gs :: l => gs.flatten ++ digits l
  | .ellipsis :: l => digits l

end Pvxs.Spec.LogMsg
