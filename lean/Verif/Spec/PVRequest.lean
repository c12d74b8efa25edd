import Verif.Spec.ValueOps
import Verif.Spec.Value
import Verif.Model.PVRequest
/-
What a request selects.  A request is a structure `pvr`; its member `field` mirrors the fields wanted.
-/
namespace Pvxs.Spec

/-- the type `t` is a Struct -/
def TopStruct (t : List FieldDesc) : Prop := ∃ d, t[0]? = some d ∧ d.code = .Struct

/-- `d` is the member `field` of the request -/
def FieldPart (pvr : List FieldDesc) (d : FieldDesc) : Prop := ∃ q, Descends pvr 0 [fieldName] q ∧ pvr[q]? = some d

/-- the request asks for everything: it has no `field`, or an empty one -/
def AsksAll (pvr : List FieldDesc) : Prop := ∀ d, FieldPart pvr d → d.code = .Struct ∧ d.miter = []

/-- below `field` the request has a sub-structure `d`, and its dotted path is that of the field `i` of the type `t` -/
def Requests (t pvr : List FieldDesc) (i : Nat) (d : FieldDesc) : Prop :=
  ∃ ps q qs, ps ≠ [] ∧ Descends pvr 0 (fieldName :: ps) q ∧ pvr[q]? = some d ∧ d.code = .Struct ∧
    qs ≠ [] ∧ joinDots qs = joinDots ps ∧ Descends t 0 qs i

/-- field `j` is named by the request, or lies below a field which the request names without saying what it wants of it -/
def Selects (t pvr : List FieldDesc) (j : Nat) : Prop :=
  ∃ i d, Requests t pvr i d ∧ (j = i ∨ (d.miter = [] ∧ ∃ ps, Descends t i ps j))

end Pvxs.Spec
