import Verif.Model.Once
/-
C118: things initialised once.
-/
namespace Pvxs.Spec.Once
open Pvxs.Once

/-- what a caller should get: `mine`: it is the one which called the function -/
def due (x : Option Nat) (mine : Bool) : Result := match x with
  | none => .returns
  | some x => if mine then .rethrows x else .previous

def isRethrow : Result → Bool
  | .rethrows _ => true
  | _ => false

end Pvxs.Spec.Once
