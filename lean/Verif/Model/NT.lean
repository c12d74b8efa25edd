import Verif.Model.TypeDef
/-
Definitions of normative types: /repo/src/nt.cpp and /repo/src/pvxs/nt.h.

The constructors of members are run for their arguments which are not constants; those with constant names, codes and ids do not throw.
`NTURI::call()` is in Model/RpcArgs.lean.  Not modelled: that copies of an NTTable share their columns.
-/
namespace Pvxs.NT
open Pvxs Pvxs.TypeDef

/-- a text -/
def lit (s : String) : Str := s.toList.map fun c => UInt8.ofNat c.toNat

/-- src/pvxs/data.h `members::Int32("name")` and the like -/
def fld (code : TypeCode) (name : String) : Member := { code := code, name := lit name }
/-- `members::Struct("name", "id", {...})` -/
def grp (name id : String) (kids : List Member) : Member := { code := .Struct, name := lit name, id := lit id, children := kids }

/-- src/nt.cpp:13-23 `TimeStamp::build` -/
def timeStamp : Res Def :=
  make .Struct (lit "time_t") [fld .Int64 "secondsPastEpoch", fld .Int32 "nanoseconds", fld .Int32 "userTag"]

/-- src/nt.cpp:25-35 `Alarm::build` -/
def alarm : Res Def :=
  make .Struct (lit "alarm_t") [fld .Int32 "severity", fld .Int32 "status", fld .String "message"]

/-- `operator+=` on a TypeDef which nobody shares -/
def plus (d : Def) (as : List Member) : Res Def :=
  match d.append false as with
  | (.ok (), d') => .ok d'
  | (.throws w, _) => .throws w
  | (.ub, _) => .ub

/-- src/pvxs/nt.h:63-85 -/
structure Scalar where
  value : TypeCode := .Float64
  display : Bool := false
  control : Bool := false
  valueAlarm : Bool := false
  form : Bool := false
deriving DecidableEq, Repr

/-- src/nt.cpp:54 -/
def isNumeric (c : TypeCode) : Bool := c.kind = TypeCode.KInteger || c.kind = TypeCode.KReal

/-- src/nt.cpp:57-85 -/
def addDisplay (o : Scalar) (d : Def) : Res Def :=
  if o.display && isNumeric o.value then
    plus d [grp "display" "" [fld o.value.scalarOf "limitLow", fld o.value.scalarOf "limitHigh", fld .String "description", fld .String "units"]] >>= fun d =>
    if o.form then
      plus d [grp "display" "" [fld .Int32 "precision", grp "form" "enum_t" [fld .Int32 "index", fld .StringA "choices"]]]
    else .ok d
  else if o.display && !isNumeric o.value then plus d [grp "display" "" [fld .String "description", fld .String "units"]]
  else .ok d

/-- src/nt.cpp:87-95 -/
def addControl (o : Scalar) (d : Def) : Res Def :=
  if o.control && isNumeric o.value then
    plus d [grp "control" "" [fld o.value.scalarOf "limitLow", fld o.value.scalarOf "limitHigh", fld o.value.scalarOf "minStep"]]
  else .ok d

/-- src/nt.cpp:97-112 -/
def addValueAlarm (o : Scalar) (d : Def) : Res Def :=
  if o.valueAlarm && isNumeric o.value then
    plus d [grp "valueAlarm" "" [fld .Bool "active", fld o.value.scalarOf "lowAlarmLimit", fld o.value.scalarOf "lowWarningLimit",
      fld o.value.scalarOf "highWarningLimit", fld o.value.scalarOf "highAlarmLimit", fld .Int32 "lowAlarmSeverity", fld .Int32 "lowWarningSeverity",
      fld .Int32 "highWarningSeverity", fld .Int32 "highAlarmSeverity", fld .Float64 "hysteresis"]]
  else .ok d

/-- src/nt.cpp:37-115 `NTScalar::build` -/
def scalar (o : Scalar) : Res Def :=
  if !o.value.valid || o.value.kind = TypeCode.KCompound then .throws "NTScalar only permits (array of) primitive"
  else
    timeStamp >>= fun ts => ts.as (lit "timeStamp") >>= fun t =>
    make .Struct (lit (if o.value.isarray then "epics:nt/NTScalarArray:1.0" else "epics:nt/NTScalar:1.0"))
      [fld o.value "value", grp "alarm" "alarm_t" [fld .Int32 "severity", fld .Int32 "status", fld .String "message"], t] >>= fun d =>
    addDisplay o d >>= fun d => addControl o d >>= fun d => addValueAlarm o d

/-- src/nt.cpp:117-135 `NTEnum::build` -/
def enum : Res Def :=
  alarm >>= fun al => al.as (lit "alarm") >>= fun a =>
  timeStamp >>= fun ts => ts.as (lit "timeStamp") >>= fun t =>
  make .Struct (lit "epics:nt/NTEnum:1.0")
    [grp "value" "enum_t" [fld .Int32 "index", fld .StringA "choices"], a, t, grp "display" "" [fld .String "description"]]

/-- src/nt.cpp:137-143 `NTTable::Pvt::Col` -/
structure Col where
  code : TypeCode
  name : Str
  label : Str
deriving DecidableEq, Repr

/-- src/nt.cpp:151-160 `NTTable::add_column`; `label`: none for a null pointer -/
def addColumn (cols : List Col) (code : TypeCode) (name : Str) (label : Option Str) : Res (List Col) :=
  if !code.valid || code.isarray then .throws "NTTable column type must be scalar"
  else .ok (cols ++ [{ code := code.arrayOf, name := name, label := label.getD name }])

/-- src/nt.cpp:164-169: the constructor of Member checks name and code -/
def columns : List Col → Res (List Member)
  | [] => .ok []
  | c :: cs =>
    Member.validate { code := c.code, name := c.name } >>= fun _ => columns cs >>= fun ms => .ok ({ code := c.code, name := c.name } :: ms)

/-- src/nt.cpp:162-180 `NTTable::build` -/
def table (cols : List Col) : Res Def :=
  columns cols >>= fun ms =>
  Member.validate { code := .Struct, name := lit "value", children := ms } >>= fun _ =>
  alarm >>= fun al => al.as (lit "alarm") >>= fun a =>
  timeStamp >>= fun ts => ts.as (lit "timeStamp") >>= fun t =>
  make .Struct (lit "epics:nt/NTTable:1.0")
    [fld .StringA "labels", { code := .Struct, name := lit "value", children := ms }, fld .String "descriptor", a, t]

/-- src/nt.cpp:182-195 `NTTable::create`: the definition, and what is assigned to "labels" -/
def tableLabels (cols : List Col) : Res (Def × List Str) := table cols >>= fun d => .ok (d, cols.map Col.label)

/-- src/nt.cpp:203-207 -/
def ndAlarm : List Member := [fld .Int32 "severity", fld .Int32 "status", fld .String "message"]

/-- src/nt.cpp:197-249 `NTNDArray::build` -/
def ndarray : Res Def :=
  timeStamp >>= fun ts => ts.as (lit "dataTimeStamp") >>= fun dt => ts.as (lit "timeStamp") >>= fun t =>
  make .Struct (lit "epics:nt/NTNDArray:1.0")
    [{ code := .Union, name := lit "value", children := [fld .BoolA "booleanValue", fld .Int8A "byteValue", fld .Int16A "shortValue", fld .Int32A "intValue",
         fld .Int64A "longValue", fld .UInt8A "ubyteValue", fld .UInt16A "ushortValue", fld .UInt32A "uintValue", fld .UInt64A "ulongValue",
         fld .Float32 "floatValue", fld .Float64 "doubleValue"] },
     grp "codec" "codec_t" [fld .String "name", fld .Any "parameters"],
     fld .Int64 "compressedSize", fld .Int64 "uncompressedSize", fld .Int32 "uniqueId", dt,
     grp "alarm" "alarm_t" ndAlarm, t,
     { code := .StructA, name := lit "dimension", id := lit "dimension_t", children := [fld .Int32 "size", fld .Int32 "offset", fld .Int32 "fullSize",
         fld .Int32 "binning", fld .Bool "reverse"] },
     { code := .StructA, name := lit "attribute", id := lit "epics:nt/NTAttribute:1.0", children := [fld .String "name", fld .Any "value", fld .StringA "tags",
         fld .String "descriptor", grp "alarm" "alarm_t" ndAlarm, t, fld .Int32 "sourceType", fld .String "source"] }]

/-- src/nt.cpp:251-261 `NTURI::NTURI`; `args` are members which were constructed, so they are checked already -/
def uri (args : List Member) : Res Def :=
  Member.validate { code := .Struct, name := lit "query", children := args } >>= fun _ =>
  make .Struct (lit "epics:nt/NTURI:1.0")
    [fld .String "scheme", fld .String "authority", fld .String "path", { code := .Struct, name := lit "query", children := args }]

end Pvxs.NT
