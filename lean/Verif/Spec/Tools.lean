import Verif.Model.Tools
import Verif.Spec.PutBuild
import Verif.Spec.RpcArgs
/-
What the arguments of pvxput and pvxcall mean (C106).
-/
namespace Pvxs.Spec.Tools
open Pvxs Pvxs.PutBuild Spec
open Pvxs.Rpc (leafVal)

/-- the argument `name=text` -/
def setting (f : Str × Str) : Str := f.1 ++ 0x3d :: f.2

/-- a name without '=' -/
def NoEq (name : Str) : Prop := (0x3d : Wire.Byte) ∉ name

/-- the field `name` is to be set to `text` -/
def textArg (f : Str × Str) : Arg := { name := f.1, value := leafVal .String (.str f.2), required := true }

/-- what `name=text` says: the text after the first '=' -/
def Says (a name text : Str) : Prop := NoEq name ∧ a = setting (name, text)

end Pvxs.Spec.Tools
