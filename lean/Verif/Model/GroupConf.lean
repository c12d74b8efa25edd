import Verif.Model.FieldName
/-
Group definitions: ioc/groupconfigprocessor.cpp:128-564, ioc/field.cpp:19-46, ioc/group.cpp:101-107.

One group.  Simplifications: the JSON text has been read; the type of the group's value (initialiseValueTemplate) is left out, and so are
structure IDs, the atomic flag, and messages; `putOrder` is any integer.
-/
namespace Pvxs.Group
open FieldName (getlines)

/-- ioc/fieldconfig.h:25-34 `MappingInfo::type_t` -/
inductive MapType where
  | scalar
  | plain
  | any
  | metadata
  | proc
  | struct
  | const
deriving Repr, DecidableEq

/-- ioc/fieldconfig.h:38,50-54: an empty text stands for a key which is not given; `none`: std::numeric_limits<int64_t>::min() -/
structure FieldConf where
  type : MapType := .scalar
  channel : Str := []
  trigger : Str := []
  putOrder : Option Int := none
deriving Repr, DecidableEq

/-- order of int64_t, the least of which is `none` -/
def orderLt : Option Int → Option Int → Bool
  | _, none => false
  | none, some _ => true
  | some a, some b => decide (a < b)

/-- ioc/fielddefinition.h:29-37.  `targets` is the entry of GroupDefinition::fieldTriggerMap for this field: each field has one. -/
structure Def where
  name : Str
  conf : FieldConf
  targets : SMap Unit := []
  triggerNames : SMap Unit := []
deriving Repr, DecidableEq

/-- ioc/groupconfigprocessor.cpp:139-147 -/
def MapType.needsChannel : MapType → Bool
  | .scalar | .plain | .any | .metadata | .proc => true
  | .struct | .const => false

/-- ioc/groupconfigprocessor.cpp:136-157; `none`: the group is ignored -/
def validate (fs : SMap FieldConf) : Option (SMap FieldConf) :=
  if fs.any fun f => f.2.type.needsChannel && f.2.channel == [] then none
  else some (fs.map fun f => if f.2.type.needsChannel then f else (f.1, { f.2 with channel := [] }))

/-- std::set::insert() -/
def insertAll (ns : List Str) (s : SMap Unit) : SMap Unit := ns.foldl (fun s n => s.insert n ()) s

/-- ioc/groupconfigprocessor.cpp:297-310 -/
def targetsOf (trigger : Str) : SMap Unit := if trigger = [] then [] else insertAll (getlines 0x2c trigger) []

/-- ioc/groupconfigprocessor.cpp:215-245.  The names are the keys of a map: no duplicates. -/
def defineFields (fs : SMap FieldConf) : List Def :=
  (fs.filter fun f => !(f.1 == [] && f.2.type != .metadata)).map fun f => { name := f.1, conf := f.2, targets := targetsOf f.2.trigger }

/-- GroupDefinition::hasTriggers, ioc/groupconfigprocessor.cpp:303 -/
def hasTriggers (ds : List Def) : Bool := ds.any fun d => d.conf.trigger != []

/-- put `d` after those which are not greater -/
def insertDef (d : Def) : List Def → List Def
  | [] => [d]
  | e :: ds => if orderLt d.conf.putOrder e.conf.putOrder then d :: e :: ds else e :: insertDef d ds

/-- std::stable_sort(), ioc/groupconfigprocessor.cpp:253-257 -/
def sortDefs (ds : List Def) : List Def := ds.foldl (fun acc d => insertDef d acc) []

/-- ioc/groupconfigprocessor.cpp:258-263, from index `i` on -/
def mapFields (m : SMap Nat) (i : Nat) : List Def → SMap Nat
  | [] => m
  | d :: ds => mapFields (m.insert d.name i) (i + 1) ds

/-- GroupDefinition::fieldMap -/
def fieldMap (ds : List Def) : SMap Nat := mapFields [] 0 ds

/-- names of the fields which have a channel -/
def channelNames (ds : List Def) : List Str := (ds.filter fun d => d.conf.channel != []).map (·.name)

/-- ioc/groupconfigprocessor.cpp:383-412, one target of a field.  `fields.at(index)` does not throw: `fieldMap` has no other indices. -/
def addTarget (ds : List Def) (s : SMap Unit) (t : Str) : SMap Unit :=
  if t = [0x2a] then insertAll (channelNames ds) s
  else
    match (fieldMap ds).find? t with
    | none => s
    | some i =>
      match ds[i]? with
      | none => s
      | some d => if d.conf.channel = [] then s else s.insert d.name ()

/-- ioc/groupconfigprocessor.cpp:381-413 -/
def addTargets (ds : List Def) (targets : SMap Unit) : SMap Unit := targets.foldl (fun s t => addTarget ds s t.1) []

/-- ioc/groupconfigprocessor.cpp:317-371 -/
def resolve (ds : List Def) : List Def :=
  if hasTriggers ds then ds.map fun d => { d with triggerNames := addTargets ds d.targets }
  else ds.map fun d => if d.conf.channel = [] then d else { d with triggerNames := insertAll [d.name] [] }

/-- ioc/field.h: `channel` is `value` (and `properties`); `triggers` are pointers to other fields of the group, here indices;
    `lock` are the fields the records of which are locked by `lock` -/
structure GField where
  fullName : Str
  conf : FieldConf
  triggers : List Nat := []
  lock : List Nat := []
deriving Repr, DecidableEq

/-- ioc/field.cpp:19-46; `exist`: there is a record for this text, else Channel() throws -/
def fieldOf (exist : Str → Bool) (d : Def) : Res GField := do
  let cs ← FieldName.parse d.name
  if d.conf.channel ≠ [] ∧ exist d.conf.channel = false then .throws "Invalid PV"
  else .ok { fullName := if cs = [] then [] else FieldName.toString cs, conf := d.conf }

/-- ioc/groupconfigprocessor.cpp:482-490: the fields which are in the group when the loop ends, by an exception or not -/
def initialiseGroupFields (exist : Str → Bool) : List Def → List GField × Bool
  | [] => ([], true)
  | d :: ds =>
    match fieldOf exist d with
    | .ok f => let r := initialiseGroupFields exist ds; (f :: r.1, r.2)
    | _ => ([], false)

/-- ioc/group.cpp:101-107: which field it is; `none`: std::logic_error -/
def lookup (fs : List GField) (name : Str) : Option Nat :=
  match fs with
  | [] => none
  | f :: fs => if f.fullName = name then some 0 else (lookup fs name).map (· + 1)

/-- ioc/groupconfigprocessor.cpp:546-558, the names in `ns`.  `group.fields[index]` is not checked. -/
def references (fm : SMap Nat) (fs : List GField) : SMap Unit → Res (List Nat)
  | [] => .ok []
  | (n, _) :: ns =>
    match fm.find? n with
    | none => references fm fs ns
    | some i =>
      if i < fs.length then do
        let rest ← references fm fs ns
        return i :: rest
      else .ub

/-- does the field of this index have a channel -/
def hasChannel (fs : List GField) (i : Nat) : Bool := ((fs[i]?).map fun f => f.conf.channel != []).getD false

/-- ioc/groupconfigprocessor.cpp:537-564, the definitions in `ds` -/
def initialiseTriggers (fm : SMap Nat) : List Def → List GField → Res (List GField)
  | [], fs => .ok fs
  | d :: ds, fs =>
    if d.conf.channel = [] then initialiseTriggers fm ds fs
    else
      match lookup fs d.name with
      | none => .throws "field not found in group"
      | some i => do
        let refs ← references fm fs d.triggerNames
        initialiseTriggers fm ds
          (fs.modify i fun f => { f with triggers := f.triggers ++ refs, lock := refs.filter (hasChannel fs) })

/-- ioc/groupconfigprocessor.cpp:170-205 (one group) and :317: the definition from which the group is created -/
def definition (fs : SMap FieldConf) : List Def := resolve (sortDefs (defineFields fs))

/-- ioc/groupconfigprocessor.cpp:423-467, one group: its fields.  An exception in the first pass is reported, and the group remains in
    `groupMap` with the fields it has; the second pass goes on with it. -/
def create (exist : Str → Bool) (ds : List Def) : Res (List GField) :=
  initialiseTriggers (fieldMap ds) ds (initialiseGroupFields exist ds).1

/-- all of it, for a group whose name is not that of a record; `none`: there is no such group -/
def load (exist : Str → Bool) (fs : SMap FieldConf) : Option (Res (List GField)) :=
  (validate fs).map fun fs => create exist (definition fs)

end Pvxs.Group
