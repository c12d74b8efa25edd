/-
Outcome of a C++ call in the model: a result, an exception, or undefined behaviour (out of bounds access, violated
precondition).  Keeping `ub` distinct means that a theorem concluding `= .ok _` also shows that the code path is defined.
-/
namespace Pvxs

inductive Res (α : Type) where
  | ok (a : α)
  | throws (what : String)
  | ub
deriving Repr, DecidableEq

namespace Res
def isOk : Res α → Bool
  | ok _ => true
  | _ => false

def bind (r : Res α) (f : α → Res β) : Res β :=
  match r with
  | ok a => f a
  | throws w => throws w
  | ub => ub

instance : Monad Res where
  pure := ok
  bind := bind

@[simp] theorem pure_eq (a : α) : (pure a : Res α) = ok a := rfl
@[simp] theorem bind_ok (a : α) (f : α → Res β) : (ok a >>= f) = f a := rfl
@[simp] theorem bind_throws (w : String) (f : α → Res β) : ((throws w : Res α) >>= f) = throws w := rfl
@[simp] theorem bind_ub (f : α → Res β) : ((ub : Res α) >>= f) = ub := rfl
end Res

end Pvxs
