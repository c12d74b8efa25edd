import Verif.Model.GroupType
import Verif.Spec.NT
import Verif.Spec.TypeDef
/-
What the type of a group should be (C98).
-/
namespace Pvxs.Spec.GroupType
open Pvxs.GroupType Spec.NT
open Pvxs.FieldName (Comp)

/-- the field with this path -/
def fieldAt : List Member → List Str → Option Member
  | _, [] => none
  | ms, [n] => ms.find? fun m => m.name = n
  | ms, n :: p => (ms.find? fun m => m.name = n).bind fun m => fieldAt m.children p

/-- type code and id of a field -/
abbrev About := TypeCode × Str

def about (m : Member) : About := (m.code, m.id)

/-- the structures on the way to a field: those with an index are arrays -/
def wayCode (c : Comp) : TypeCode := if c.isArray then .StructA else .Struct

/-- the fields which result if `leaf` is placed below the structures `way` -/
def placed : List Comp → List Member → List Str → Option About
  | [], leaf, p => (fieldAt leaf p).map about
  | c :: _, _, [n] => if n = c.name then some (wayCode c, []) else none
  | c :: way, leaf, n :: p => if n = c.name then placed way leaf p else none
  | _ :: _, _, [] => none

/-- the type of a definition -/
def topOf : Res TypeDef.Def → Option Member
  | .ok d => d.top
  | _ => none

/-- the fields "alarm" and "timeStamp" -/
def metaFields : List Member :=
  [{ code := .Struct, name := txt "alarm", id := txt "alarm_t", children :=
      [{ code := .Int32, name := txt "severity" }, { code := .Int32, name := txt "status" }, { code := .String, name := txt "message" }] },
   { code := .Struct, name := txt "timeStamp", id := txt "time_t", children :=
      [{ code := .Int64, name := txt "secondsPastEpoch" }, { code := .Int32, name := txt "nanoseconds" }, { code := .Int32, name := txt "userTag" }] }]

/-- the type of the field to which a mapping leads.
scalar: the NTEnum, NTScalar or NTScalarArray of the channel; plain: the type of the value of the channel; any: a variant; struct: a structure with this id,
or an array of them if the last component has an index; const: the type of the constant -/
def leafType (c : Comp) : What → Option Member
  | .scalar ch => topOf (if ch.type = .enum then NT.enum
      else NT.scalar { value := RecVal.valueType ch, display := true, control := true, valueAlarm := true, form := true })
  | .plain ch => some { code := RecVal.valueType ch }
  | .any => some { code := .Any }
  | .struct id => some { code := wayCode c, id := id }
  | .const t => some t
  | .metadata => none
  | .proc => none

/-- the fields which a mapping calls for -/
def given (m : Mapping) (p : List Str) : Option About :=
  match m.what with
  | .proc => none
  | .metadata => placed m.path metaFields p
  | w =>
    match m.path.getLast? with
    | none => none
    | some c =>
      match leafType c w with
      | none => none
      | some t => placed m.path.dropLast [{ t with name := c.name }] p

/-- the fields which every group has -/
def options (p : List Str) : Option About :=
  if p = [txt "record"] ∨ p = [txt "record", txt "_options"] then some (.Struct, [])
  else if p = [txt "record", txt "_options", txt "queueSize"] then some (.Int32, [])
  else if p = [txt "record", txt "_options", txt "atomic"] then some (.Bool, [])
  else none

/-- a field, as it is called for by one mapping, and then by another: the second one decides, but an id is not taken away -/
def later : Option About → Option About → Option About
  | none, y => y
  | x, none => x
  | some (_, i), some (c', i') => some (c', if i' = [] then i else i')

/-- what all of them call for -/
def allGiven (ms : List Mapping) (p : List Str) : Option About := (ms.map fun m => given m p).foldl later (options p)

/-- two types which a field may be given one after the other: both have members, or both are Any, or both are something else -/
def SameKind (c c' : TypeCode) : Prop := (TypeDef.Holds c ↔ TypeDef.Holds c') ∧ (TypeDef.Compound c ↔ TypeDef.Compound c')

/-- a mapping which may be configured -/
def Proper (m : Mapping) : Prop :=
  (∀ c ∈ m.path, Name c.name) ∧ (m.path = [] → m.what = .metadata ∨ m.what = .proc) ∧
  (∀ id, m.what = .struct id → m.path.length = 1) ∧ (∀ t, m.what = .const t → Validated t ∧ DistinctNames t)

/-- no two mappings disagree on what a field is -/
def Agree (ms : List Mapping) : Prop :=
  (∀ m ∈ ms, ∀ p x y, options p = some x → given m p = some y → SameKind x.1 y.1) ∧
  (∀ m ∈ ms, ∀ m' ∈ ms, ∀ p x y, given m p = some x → given m' p = some y → SameKind x.1 y.1)

end Pvxs.Spec.GroupType
