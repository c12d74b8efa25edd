import Verif.Model.RpcArgs
import Verif.Spec.NT
import Verif.Spec.ValueOps
/-
Specification vocabulary for the arguments of a remote procedure call (C100).
-/
namespace Pvxs.Spec.Rpc
open Pvxs Spec Pvxs.Rpc
open Pvxs.Spec.NT (txt)

/-- the definition of the argument of a call: an NTURI with these fields in its query -/
def uriDef (ms : List Member) : Member :=
  { code := .Struct, id := txt "epics:nt/NTURI:1.0", children :=
      [{ code := .String, name := txt "scheme" }, { code := .String, name := txt "authority" }, { code := .String, name := txt "path" },
       { code := .Struct, name := txt "query", children := ms }] }

/-- the field of `v` reached by the names in `path` has the description `d` and the content and mark `c` -/
def Has (v : Val) (path : List Str) (d : FieldDesc) (c : Cell) : Prop :=
  ∃ t cs k, v = .mk t cs ∧ Descends t 0 path k ∧ t[k]? = some d ∧ cs[k]? = some c

/-- the type of what is given as argument -/
def typeOf : Given → List FieldDesc
  | .plain c _ => [{ code := c }]
  | .value v => v.desc
  | _ => []

/-- what is given as argument -/
def contentOf : Given → List Cell
  | .plain _ x => [.mk true x]
  | .value (.mk _ cs) => cs
  | _ => []

/-- a number, a text, a truth value, or an array of those -/
def Simple (c : TypeCode) : Prop := c ∉ [TypeCode.Struct, .Union, .Any, .StructA, .UnionA, .AnyA]

/-- the field at node `k` is one of those which are sent: the value is not a structure, or the field is marked, or is in a marked structure -/
def Copied (t : List FieldDesc) (cs : List Cell) (k : Nat) : Prop :=
  (∃ d, t[0]? = some d ∧ d.code ≠ .Struct) ∨ CoveredBelow t (validAt cs) 0 k

/-- arguments for which the property holds: simple ones, and structures of a type a program can define, unless a field which is sent is a union or an array of structures or unions.
What becomes of the others: C100_union, C100_values, C100_any. -/
inductive Allowed : Given → Prop
  | plain (c : TypeCode) (x : Datum) (hc : Simple c) (hv : c.valid = true) (ok : DatumOK { code := c } x) : Allowed (.plain c x)
  | value (m : Member) (t : List FieldDesc) (cs : List Cell) (hv : Validated m) (hd : DistinctNames m) (hb : Pvxs.build m = .ok t) (hp : PlainNames t)
      (ok : ValOK (.mk t cs)) (hr : Simple m.code ∨ m.code = .Struct)
      (hin : ∀ j d, CoveredBelow t (validAt cs) 0 j → t[j]? = some d → d.code ∉ [TypeCode.Union, .StructA, .UnionA]) : Allowed (.value (.mk t cs))

end Pvxs.Spec.Rpc
