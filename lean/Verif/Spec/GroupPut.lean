import Verif.Model.GroupPut
import Verif.Spec.GroupConf
/-
What a put to a group should do (documentation/qgroup.rst).
-/
namespace Pvxs.Spec.Group
open Pvxs.Group (PField Put Chan Ev MapType)

/-- the put wants `v` written to field i: it was sent, and the field is mapped to a record,
    has a put order, and its mapping has a value -/
def Wanted (fs : List PField) (p : Put) (i v : Nat) : Prop :=
  ∃ f c o, fs[i]? = some f ∧ f.chan = some c ∧ f.putOrder = some o ∧ 
    f.type ≠ .metadata ∧ f.type ≠ .proc ∧ f.type ≠ .struct ∧ p.sent i = some v

/-- the records which are locked after these events -/
def held (es : List Ev) : List Nat :=
  es.foldl (fun h e => match e with
    | .lock rs => rs
    | .unlock => []
    | _ => h) []

/-- the fields which are written, in order -/
def written : List Ev → List Nat := List.filterMap fun e => match e with
  | .write i _ => some i
  | _ => none

/-- all fields are mapped to records -/
def AllMapped (fs : List PField) : Prop := ∀ f ∈ fs, f.chan.isSome = true

end Pvxs.Spec.Group
