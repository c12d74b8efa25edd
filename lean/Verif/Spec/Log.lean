import Verif.Model.Log
/-
What the level of a logger should be.
-/
namespace Pvxs.Spec.Lg
open Log

/-- the calls which set a level, in order; a level below 1 counts as 1 -/
def sets : List Op → List (Str × Int)
  | [] => []
  | .set p l :: ops => (p, if l < 1 then 1 else l) :: sets ops
  | _ :: ops => sets ops

/-- those which concern a logger -/
def relevant (glob : Str → Str → Bool) (n : Str) (ops : List Op) : List (Str × Int) := (sets ops).filter fun x => glob n x.1

/-- the last of these decides; without any, it is Warn -/
def level (glob : Str → Str → Bool) (n : Str) (ops : List Op) : Int :=
  match (relevant glob n ops).getLast? with
  | some x => x.2
  | none => warn

/-- no pattern is set, then another one, then the first again -/
def Steady (l : List (Str × Int)) : Prop := ∀ p q : Str, p ≠ q → ¬ [p, q, p].Sublist (l.map (·.1))

/-- the bytes of an ASCII text -/
def ascii (s : String) : Str := s.toList.map Char.toUInt8

/-- one setting in $PVXS_LOG -/
def Assigns (s key : Str) (lvl : Int) : Prop :=
  key ≠ [] ∧ (0x3d : Wire.Byte) ∉ key ∧ ∃ val, s = key ++ 0x3d :: val ∧
    ((val = ascii "DEBUG" ∧ lvl = 50) ∨ (val = ascii "INFO" ∧ lvl = 40) ∨ (val = ascii "WARN" ∧ lvl = 30) ∨
      (val = ascii "ERR" ∧ lvl = 20) ∨ (val = ascii "CRIT" ∧ lvl = 10))

/-- pieces separated by commas -/
def joined : List Str → Str
  | [] => []
  | [a] => a
  | a :: l => a ++ 0x2c :: joined l

/-- `l` are the settings among the pieces, in order -/
inductive Settings : List Str → List Op → Prop where
  | nil : Settings [] []
  | good {s key : Str} {lvl : Int} {ss : List Str} {ops : List Op} (h : Assigns s key lvl) (hs : Settings ss ops) :
      Settings (s :: ss) (.set key lvl :: ops)
  | junk {s : Str} {ss : List Str} {ops : List Op} (h : ∀ key lvl, ¬ Assigns s key lvl) (hs : Settings ss ops) : Settings (s :: ss) ops

end Pvxs.Spec.Lg
