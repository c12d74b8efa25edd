import Verif.Model.NT
import Verif.Model.FieldName
import Verif.Model.RecordVal
/-
The type of the value of a group: ioc/groupconfigprocessor.cpp:492-525 (`initialiseValueTemplate`), :565-607 (`addTemplatesForDefinedFields`), :856-1036,
ioc/field.cpp:19-46.

The names of the fields have been parsed.  Simplifications: the channels are open, and none of them is a link field (for which an exception is thrown);
the type of a constant is given as its definition.
-/
namespace Pvxs.GroupType
open Pvxs.TypeDef Pvxs.NT
open Pvxs.FieldName (Comp)

/-- ioc/fieldconfig.h:25-34 `MappingInfo::type_t`, with what a mapping of this type refers to -/
inductive What where
  | scalar (ch : RecVal.Chan)
  | plain (ch : RecVal.Chan)
  | any
  | metadata
  | proc
  | struct (id : Str)
  | const (type : Member)

/-- a field of the group: the components of its name, and its mapping -/
structure Mapping where
  path : List Comp
  what : What

/-- ioc/fieldname.h:68-70 `FieldName::empty` -/
def isEmpty : List Comp → Bool
  | [] => true
  | [c] => c.name == []
  | _ => false

/-- ioc/fieldname.h:107-109 `FieldName::leafFieldName` -/
def leafName (path : List Comp) : Res Str :=
  match path.getLast? with
  | none => .ub
  | some c => .ok c.name

/-- ioc/groupconfigprocessor.cpp:1024-1030: the constructor of the structure checks its name and members -/
def enclose (c : Comp) (kids : List Member) : Res (List Member) :=
  Member.validate { code := if c.isArray then .StructA else .Struct, name := c.name, children := kids } >>= fun _ =>
  .ok [{ code := if c.isArray then .StructA else .Struct, name := c.name, children := kids }]

/-- ioc/groupconfigprocessor.cpp:1016-1031, the loop from the last component to the first; `isLeaf`, `childrenToAdd` -/
def wrap (leaf : List Member) : List Comp → Bool → List Member → Res (List Member)
  | [], _, kids => .ok kids
  | _ :: cs, true, _ => wrap leaf cs false leaf
  | c :: cs, false, kids => enclose c kids >>= wrap leaf cs false

/-- ioc/groupconfigprocessor.cpp:1000-1034 `setFieldTypeDefinition`: what is added -/
def setField (path : List Comp) (leaf : List Member) (isLeaf : Bool) : Res (List Member) :=
  if isEmpty path then .ok leaf
  else wrap leaf path.reverse isLeaf (if isLeaf then [] else leaf)

/-- ioc/groupconfigprocessor.cpp:955-970 `getTypeDefForChannel` -/
def typeDefFor (ch : RecVal.Chan) : Res Def :=
  if ch.type = .enum then NT.enum
  else NT.scalar { value := RecVal.valueType ch, display := true, control := true, valueAlarm := ch.type ≠ .string, form := true }

/-- ioc/groupconfigprocessor.cpp:937-944 -/
def metaMembers : Res (List Member) :=
  timeStamp >>= fun ts => ts.as (lit "timeStamp") >>= fun t =>
  .ok [grp "alarm" "alarm_t" [fld .Int32 "severity", fld .Int32 "status", fld .String "message"], t]

/-- ioc/field.cpp:30-31 `Field::name` -/
def fieldName : List Comp → Str
  | [] => []
  | c :: _ => c.name

/-- ioc/field.cpp:34-36 `Field::isArray` -/
def fieldIsArray (path : List Comp) : Bool :=
  match path.getLast? with
  | none => false
  | some c => c.isArray

/-- ioc/groupconfigprocessor.cpp:867-928: the members for a structure with an id -/
def structMember (path : List Comp) (id : Str) : Member :=
  { code := if fieldIsArray path then .StructA else .Struct, name := fieldName path, id := id }

/-- ioc/groupconfigprocessor.cpp:570-606: what is added for one field -/
def membersFor (m : Mapping) : Res (List Member) :=
  match m.what with
  | .scalar ch =>
    if isEmpty m.path then .ub
    else typeDefFor ch >>= fun d => leafName m.path >>= fun n => d.as n >>= fun l => setField m.path [l] true
  | .plain ch =>
    if isEmpty m.path then .ub
    else make (RecVal.valueType ch) [] [] >>= fun d => leafName m.path >>= fun n => d.as n >>= fun l => setField m.path [l] true
  | .any =>
    if isEmpty m.path then .ub
    else leafName m.path >>= fun n => Member.validate { code := .Any, name := n } >>= fun _ => setField m.path [{ code := .Any, name := n }] true
  | .metadata => metaMembers >>= fun ms => setField m.path ms false
  | .proc => .ok []
  | .struct id => Member.validate (structMember m.path id) >>= fun _ => setField m.path [structMember m.path id] true
  | .const t =>
    if isEmpty m.path then .throws "TODO: \"\":{+type:\"const\" ...} not currently supported"
    else leafName m.path >>= fun n => setField m.path [{ t with name := n }] true

/-- ioc/groupconfigprocessor.cpp:568-607 `addTemplatesForDefinedFields` -/
def gather : List Member → List Mapping → Res (List Member)
  | acc, [] => .ok acc
  | acc, m :: ms => membersFor m >>= fun new => gather (acc ++ new) ms

/-- ioc/groupconfigprocessor.cpp:504-511 -/
def recordMember : Member := grp "record" "" [grp "_options" "" [fld .Int32 "queueSize", fld .Bool "atomic"]]

/-- ioc/groupconfigprocessor.cpp:499-525 `initialiseValueTemplate`: the definition of the type -/
def groupType (id : Str) (ms : List Mapping) : Res Def :=
  gather [recordMember] ms >>= fun all => make .Struct id [] >>= fun d => plus d all

end Pvxs.GroupType
