import Verif.Model.NT
import Verif.Spec.TypeDesc
/-
The fields of the normative types, as tables.
-/
namespace Pvxs.Spec.NT
open Pvxs

/-- a text -/
def txt (s : String) : Str := s.toList.map fun c => UInt8.ofNat c.toNat

/-- a field: its path, type, and type id -/
structure Row where
  path : Str
  code : TypeCode
  id : Str := []
deriving DecidableEq

mutual
/-- a field below `pre`, followed by those in it -/
def rowsOf (pre : Str) : Member → List Row
  | ⟨code, name, id, kids⟩ => ⟨pre ++ name, code, id⟩ :: rows (pre ++ name ++ [0x2e]) kids
/-- the fields of a definition below `pre`, in order, each followed by those in it -/
def rows (pre : Str) : List Member → List Row
  | [] => []
  | m :: ms => rowsOf pre m ++ rows pre ms
end

/-- the scalar types, and the type of one element of this type -/
def elementOf (c : TypeCode) : Option TypeCode :=
  if c = .Bool ∨ c = .BoolA then some .Bool
  else if c = .Int8 ∨ c = .Int8A then some .Int8
  else if c = .Int16 ∨ c = .Int16A then some .Int16
  else if c = .Int32 ∨ c = .Int32A then some .Int32
  else if c = .Int64 ∨ c = .Int64A then some .Int64
  else if c = .UInt8 ∨ c = .UInt8A then some .UInt8
  else if c = .UInt16 ∨ c = .UInt16A then some .UInt16
  else if c = .UInt32 ∨ c = .UInt32A then some .UInt32
  else if c = .UInt64 ∨ c = .UInt64A then some .UInt64
  else if c = .Float32 ∨ c = .Float32A then some .Float32
  else if c = .Float64 ∨ c = .Float64A then some .Float64
  else if c = .String ∨ c = .StringA then some .String
  else none

/-- the arrays of scalars -/
def isArray (c : TypeCode) : Bool := c ∈ [.BoolA, .Int8A, .Int16A, .Int32A, .Int64A, .UInt8A, .UInt16A, .UInt32A, .UInt64A, .Float32A, .Float64A, .StringA]

/-- numbers, and arrays of them -/
def isNumber (e : TypeCode) : Bool := e ≠ .Bool ∧ e ≠ .String

def alarmRows : List Row := [⟨txt "alarm", .Struct, txt "alarm_t"⟩, ⟨txt "alarm.severity", .Int32, []⟩, ⟨txt "alarm.status", .Int32, []⟩, ⟨txt "alarm.message", .String, []⟩]

def timeRows : List Row := [⟨txt "timeStamp", .Struct, txt "time_t"⟩, ⟨txt "timeStamp.secondsPastEpoch", .Int64, []⟩, ⟨txt "timeStamp.nanoseconds", .Int32, []⟩,
  ⟨txt "timeStamp.userTag", .Int32, []⟩]

/-- the fields of an NTScalar or NTScalarArray; `e`: the type of an element -/
def scalarRows (o : NT.Scalar) (e : TypeCode) : List Row :=
  ⟨txt "value", o.value, []⟩ :: (alarmRows ++ timeRows ++
  (if o.display then
    ⟨txt "display", .Struct, []⟩ ::
    ((if isNumber e then [⟨txt "display.limitLow", e, []⟩, ⟨txt "display.limitHigh", e, []⟩] else []) ++
     [⟨txt "display.description", .String, []⟩, ⟨txt "display.units", .String, []⟩] ++
     (if isNumber e && o.form then [⟨txt "display.precision", .Int32, []⟩, ⟨txt "display.form", .Struct, txt "enum_t"⟩, ⟨txt "display.form.index", .Int32, []⟩,
       ⟨txt "display.form.choices", .StringA, []⟩] else [])) else []) ++
  (if o.control && isNumber e then
    [⟨txt "control", .Struct, []⟩, ⟨txt "control.limitLow", e, []⟩, ⟨txt "control.limitHigh", e, []⟩, ⟨txt "control.minStep", e, []⟩] else []) ++
  (if o.valueAlarm && isNumber e then
    [⟨txt "valueAlarm", .Struct, []⟩, ⟨txt "valueAlarm.active", .Bool, []⟩,
     ⟨txt "valueAlarm.lowAlarmLimit", e, []⟩, ⟨txt "valueAlarm.lowWarningLimit", e, []⟩, ⟨txt "valueAlarm.highWarningLimit", e, []⟩, ⟨txt "valueAlarm.highAlarmLimit", e, []⟩,
     ⟨txt "valueAlarm.lowAlarmSeverity", .Int32, []⟩, ⟨txt "valueAlarm.lowWarningSeverity", .Int32, []⟩, ⟨txt "valueAlarm.highWarningSeverity", .Int32, []⟩,
     ⟨txt "valueAlarm.highAlarmSeverity", .Int32, []⟩, ⟨txt "valueAlarm.hysteresis", .Float64, []⟩] else []))

/-- the fields of an NTEnum -/
def enumRows : List Row :=
  [⟨txt "value", .Struct, txt "enum_t"⟩, ⟨txt "value.index", .Int32, []⟩, ⟨txt "value.choices", .StringA, []⟩] ++ alarmRows ++ timeRows ++
  [⟨txt "display", .Struct, []⟩, ⟨txt "display.description", .String, []⟩]

/-- a column which was asked for: the type of one cell, its name, and a label if it has another -/
structure Column where
  cell : TypeCode
  name : Str
  label : Option Str

/-- the type of a column -/
def arrayOfScalar (c : TypeCode) : TypeCode :=
  if c = .Bool then .BoolA
  else if c = .Int8 then .Int8A
  else if c = .Int16 then .Int16A
  else if c = .Int32 then .Int32A
  else if c = .Int64 then .Int64A
  else if c = .UInt8 then .UInt8A
  else if c = .UInt16 then .UInt16A
  else if c = .UInt32 then .UInt32A
  else if c = .UInt64 then .UInt64A
  else if c = .Float32 then .Float32A
  else if c = .Float64 then .Float64A
  else .StringA

/-- the fields of an NTTable -/
def tableRows (cols : List Column) : List Row :=
  [⟨txt "labels", .StringA, []⟩, ⟨txt "value", .Struct, []⟩] ++ cols.map (fun c => ⟨txt "value." ++ c.name, arrayOfScalar c.cell, []⟩) ++
  [⟨txt "descriptor", .String, []⟩] ++ alarmRows ++ timeRows

/-- the labels of an NTTable -/
def labelsOf (cols : List Column) : List Str := cols.map fun c => match c.label with
  | some l => l
  | none => c.name

/-- a name of a field: a letter or underscore, then letters, digits or underscores -/
def Name (s : Str) : Prop :=
  ∃ a t, s = a :: t ∧ (∀ c ∈ s, (0x30 ≤ c ∧ c ≤ 0x39) ∨ (0x61 ≤ c ∧ c ≤ 0x7a) ∨ (0x41 ≤ c ∧ c ≤ 0x5a) ∨ c = 0x5f) ∧ ¬(0x30 ≤ a ∧ a ≤ 0x39)

/-- columns of scalars, which have names, all different -/
def GoodColumns (cols : List Column) : Prop :=
  (∀ c ∈ cols, elementOf c.cell = some c.cell ∧ Name c.name) ∧ (cols.map Column.name).Nodup

/-- add_column(), for each -/
def addAll : List NT.Col → List Column → Res (List NT.Col)
  | cs, [] => .ok cs
  | cs, c :: more => NT.addColumn cs c.cell c.name c.label >>= fun cs => addAll cs more

/-- the fields of an NTURI whose query has these -/
def uriRows (args : List Member) : List Row :=
  [⟨txt "scheme", .String, []⟩, ⟨txt "authority", .String, []⟩, ⟨txt "path", .String, []⟩, ⟨txt "query", .Struct, []⟩] ++ rows (txt "query.") args

/-- the choices of the value of an NTNDArray, as the normative types define them: an array of each numeric type -/
def ndChoices : List (Str × TypeCode) :=
  [(txt "booleanValue", .BoolA), (txt "byteValue", .Int8A), (txt "shortValue", .Int16A), (txt "intValue", .Int32A), (txt "longValue", .Int64A),
   (txt "ubyteValue", .UInt8A), (txt "ushortValue", .UInt16A), (txt "uintValue", .UInt32A), (txt "ulongValue", .UInt64A),
   (txt "floatValue", .Float32A), (txt "doubleValue", .Float64A)]

/-- the fields of an NTNDArray, whose value has these choices -/
def ndRows (choices : List (Str × TypeCode)) : List Row :=
  ⟨txt "value", .Union, []⟩ :: choices.map (fun c => ⟨txt "value." ++ c.1, c.2, []⟩) ++
  [⟨txt "codec", .Struct, txt "codec_t"⟩, ⟨txt "codec.name", .String, []⟩, ⟨txt "codec.parameters", .Any, []⟩,
   ⟨txt "compressedSize", .Int64, []⟩, ⟨txt "uncompressedSize", .Int64, []⟩, ⟨txt "uniqueId", .Int32, []⟩,
   ⟨txt "dataTimeStamp", .Struct, txt "time_t"⟩, ⟨txt "dataTimeStamp.secondsPastEpoch", .Int64, []⟩, ⟨txt "dataTimeStamp.nanoseconds", .Int32, []⟩,
   ⟨txt "dataTimeStamp.userTag", .Int32, []⟩] ++ alarmRows ++ timeRows ++
  [⟨txt "dimension", .StructA, txt "dimension_t"⟩, ⟨txt "dimension.size", .Int32, []⟩, ⟨txt "dimension.offset", .Int32, []⟩, ⟨txt "dimension.fullSize", .Int32, []⟩,
   ⟨txt "dimension.binning", .Int32, []⟩, ⟨txt "dimension.reverse", .Bool, []⟩,
   ⟨txt "attribute", .StructA, txt "epics:nt/NTAttribute:1.0"⟩, ⟨txt "attribute.name", .String, []⟩, ⟨txt "attribute.value", .Any, []⟩, ⟨txt "attribute.tags", .StringA, []⟩,
   ⟨txt "attribute.descriptor", .String, []⟩] ++ alarmRows.map (fun r => { r with path := txt "attribute." ++ r.path }) ++
  timeRows.map (fun r => { r with path := txt "attribute." ++ r.path }) ++
  [⟨txt "attribute.sourceType", .Int32, []⟩, ⟨txt "attribute.source", .String, []⟩]

/-- a definition, of a type which was built, with this id and these fields -/
def Is (d : TypeDef.Def) (id : Str) (rs : List Row) : Prop :=
  ∃ m t, d.top = some m ∧ d.desc = some t ∧ build m = .ok t ∧ m.code = .Struct ∧ m.id = id ∧ rows [] m.children = rs ∧ Validated m ∧ DistinctNames m

end Pvxs.Spec.NT
