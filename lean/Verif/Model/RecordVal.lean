import Verif.Model.RealScalar
/-
The value of a record of an IOC, as it is put and read: ioc/iocsource.cpp:68-156 (`getScalarValue`, `getArrayValue`), :337-351 (`IOCSource::get`, the value),
:457-555 (`doDbPut`, `putScalar`, `putLongString`, `putStringArray`, `putArray`), :583-617 (`IOCSource::put`), :626-651 (`getChannelValueType`),
ioc/typeutils.cpp:28-62 (`fromDbrType`), ioc/channel.cpp:35-80 (`Channel::Channel`), ioc/singlesource.cpp:176-193 (`getValuePrototype`).

The elements of a numeric field are their bit patterns.  A string field holds C strings: the bytes before the NUL.
epics-base (`dbChannelGet`, `dbChannelPut`) is seen as: it copies elements of the type of the field, at most as many as there is place for; it cuts a string to what a
string field and a buffer of 40 bytes can hold, and it converts elements of other types in a way which is left open.
Not modelled: link fields; filters; failing database calls other than failing conversions.
-/
namespace Pvxs.RecVal
open Pvxs Wire Pvxs.ArrayConv Pvxs.RealScalar

/-- dbFldTypes.h, the DBR_ types without links -/
inductive Dbr where
  | string | char | uchar | short | ushort | long | ulong | int64 | uint64 | float | double | enum
deriving DecidableEq, Repr

/-- epicsTypes.h MAX_STRING_SIZE -/
def maxString : Nat := 40

/-- ioc/typeutils.cpp:28-62 -/
def fromDbrType : Dbr → TypeCode
  | .char => .Int8
  | .uchar => .UInt8
  | .short => .Int16
  | .ushort => .UInt16
  | .enum => .UInt16
  | .long => .Int32
  | .ulong => .UInt32
  | .int64 => .Int64
  | .uint64 => .UInt64
  | .float => .Float32
  | .double => .Float64
  | .string => .String

/-- a field as dbChannelCreate() finds it: its type, its number of elements and the size of one, whether it is the value field of a record with
info(Q:form, "String"), and whether the number of elements in use is known (`get_array_info`) -/
structure Field where
  type : Dbr
  elems : Nat
  size : Nat
  form : Bool := false
  counted : Bool := false
deriving DecidableEq, Repr

/-- an open channel: dbChannelFinalFieldType(), dbChannelFinalElements(), the size of an element, `format()=="String"` -/
structure Chan where
  type : Dbr
  elems : Nat
  size : Nat
  text : Bool
  counted : Bool
deriving DecidableEq, Repr

/-- ioc/channel.cpp:35-80: a scalar string field with extra capacity is seen as char[] -/
def openField (f : Field) : Chan :=
  if f.type = .string ∧ f.elems = 1 ∧ maxString + 1 < f.size then
    { type := .char, elems := f.size, size := 1, text := true, counted := false }
  else { type := f.type, elems := f.elems, size := f.size, text := f.form, counted := f.counted }

/-- what a field holds: the elements which are in use -/
inductive Store where
  | nums (xs : List Nat)
  | strs (ss : List Str)
deriving DecidableEq, Repr

/-- the string at the begin of a buffer -/
def cText (b : Str) : Str := b.takeWhile fun c => c != 0

/-- epics-base: a string, between a field whose elements have this size and a buffer of 40 bytes -/
def cutTo (size : Nat) (s : Str) : Str := s.take (min size maxString - 1)

/-- epics-base `dbChannelGet` of elements of the type of the field -/
def dbGet (ch : Chan) (st : Store) : Store :=
  match st with
  | .nums xs => .nums (xs.take ch.elems)
  | .strs ss => .strs ((ss.take ch.elems).map (cutTo ch.size))

/-- epics-base: elements of the type of the field are written; without `counted` the others are left as they are -/
def stored (ch : Chan) (st new : Store) : Store :=
  match new with
  | .nums xs => match st with
    | .nums old => .nums (if ch.counted then xs.take ch.elems else xs.take ch.elems ++ old.drop (xs.take ch.elems).length)
    | .strs _ => .nums (xs.take ch.elems)
  | .strs ss => .strs ((ss.take ch.elems).map (cutTo ch.size))

/-- epics-base: conversions between the types of elements -/
abbrev Convert := Dbr → Dbr → Store → Res Store

/-- epics-base `dbChannelPut` of elements of type `dbr`.  The conversion of USHORT to ENUM is a copy -/
def dbPut (conv : Convert) (ch : Chan) (st : Store) (dbr : Dbr) (new : Store) : Res Store :=
  if dbr = ch.type ∨ (dbr = .ushort ∧ ch.type = .enum) then .ok (stored ch st new)
  else (conv dbr ch.type new).bind fun x => .ok (stored ch st x)

/-- ioc/typeutils.h `MappingInfo::type_t`, those which can have a value of a record -/
inductive Mapping where
  | scalar | plain | any
deriving DecidableEq, Repr

/-- ioc/iocsource.cpp:626-651 -/
def valueType (ch : Chan) : TypeCode :=
  if ch.type = .char ∧ ch.elems ≠ 1 ∧ ch.text = true then .String
  else if ch.elems ≠ 1 then (fromDbrType ch.type).arrayOf else fromDbrType ch.type

/-- ioc/singlesource.cpp:176-193 and ioc/groupconfigprocessor.cpp:891,962-968: the type of the value; a Struct is an enum_t -/
def leafType (m : Mapping) (ch : Chan) : TypeCode :=
  if m = .scalar ∧ ch.type = .enum then .Struct else valueType ch

/-- a value, or the index of an enum_t -/
structure PVal where
  code : TypeCode
  data : Datum

/-! ### reading -/

/-- `Value::from()` of a number of the type of the field -/
def ofBitsAs (code : TypeCode) (x : Nat) : Res PVal :=
  match code.wireKind with
  | .int w => .ok ⟨code, .int (intOf w x)⟩
  | .uint w => .ok ⟨code, .uint (x % 256 ^ w)⟩
  | .f32 => .ok ⟨code, .real (storeReal code (widen x))⟩
  | .f64 => .ok ⟨code, .real x⟩
  | _ => .throws "logic_error"

/-- ioc/iocsource.cpp:68-114.  An empty array of capacity one is read as zero -/
def getScalar (ch : Chan) (st : Store) (code : TypeCode) : Res PVal :=
  match dbGet ch st with
  | .strs ss => if code = .String then .ok ⟨code, .str (cText ((ss.headD []).take (maxString - 1)))⟩ else .throws "logic_error"
  | .nums xs =>
    if code = .String then .throws "logic_error"
    else if code = .Struct then
      if ch.type = .enum then .ok ⟨.Int32, .int (intOf 4 (xs.headD 0))⟩ else .throws "logic_error"
    else ofBitsAs code (xs.headD 0)

/-- ioc/iocsource.cpp:127-137: a buffer for all elements, of which the last is set to NUL -/
def longBuf (ch : Chan) (xs : List Nat) : Str :=
  ((xs.map fun (n : Nat) => UInt8.ofNat n) ++ List.replicate (ch.elems - xs.length) 0).take (ch.elems - 1)

/-- ioc/iocsource.cpp:116-156 -/
def getArray (ch : Chan) (st : Store) (code : TypeCode) : Res PVal :=
  match dbGet ch st with
  | .strs ss => if code = .StringA then .ok ⟨code, .strs (ss.map cText)⟩ else .throws "NoConvert"
  | .nums xs =>
    if ch.type = .char ∧ code = .String ∧ ch.elems ≠ 0 then .ok ⟨code, .str (cText (longBuf ch xs))⟩
    else code.arrayType.bind fun _ => .ok ⟨code, .pods xs⟩

/-- ioc/iocsource.cpp:337-351 -/
def readValue (m : Mapping) (ch : Chan) (st : Store) : Res PVal :=
  if ch.elems = 1 then getScalar ch st (leafType m ch) else getArray ch st (leafType m ch)

/-! ### writing -/

/-- `as<int64_t>()`, then converted to an integer of `w` bytes -/
def asInt (w : Nat) (d : Datum) : Res Nat :=
  match d with
  | .real b => (ofReal b .int).bind fun x => match x with
    | .int v => .ok (intBits w v)
    | _ => .throws "NoConvert"
  | d => match copyOut d .int with
    | some (.int v) => .ok (intBits w v)
    | _ => .throws "NoConvert"

/-- `as<uint64_t>()`, then converted to an unsigned integer of `w` bytes -/
def asUInt (w : Nat) (d : Datum) : Res Nat :=
  match d with
  | .real b => (ofReal b .uint).bind fun x => match x with
    | .uint n => .ok (n % 256 ^ w)
    | _ => .throws "NoConvert"
  | d => match copyOut d .uint with
    | some (.uint n) => .ok (n % 256 ^ w)
    | _ => .throws "NoConvert"

/-- `as<std::string>()` -/
def asStr (d : Datum) : Res Str :=
  match d with
  | .real b => .ok (showDouble b)
  | d => match copyOut d .str with
    | some (.str s) => .ok s
    | _ => .throws "NoConvert"

/-- ioc/iocsource.cpp:507-510: strncpy() to the buffer of 40 bytes -/
def scalarBuf (s : Str) : Str :=
  (cText s).take (maxString - 1) ++ List.replicate (maxString - ((cText s).take (maxString - 1)).length) 0

/-- ioc/iocsource.cpp:489-514: the number of the type of the field.  `parse`: parseTo<double>.  An enum is read as an int16_t -/
def scalarNum (parse : Str → Option Nat) (t : Dbr) (d : Datum) : Res Nat :=
  match t with
  | .char => asInt 1 d
  | .enum => asInt 2 d
  | .short => asInt 2 d
  | .long => asInt 4 d
  | .uchar => asUInt 1 d
  | .ushort => asUInt 2 d
  | .ulong => asUInt 4 d
  | .int64 => asInt 8 d
  | .uint64 => asUInt 8 d
  | .float => (readReal parse d).bind fun b => .ok (narrow b)
  | .double => readReal parse d
  | .string => .throws "logic_error"

/-- ioc/iocsource.cpp:471-517 -/
def putScalar (parse : Str → Option Nat) (conv : Convert) (ch : Chan) (st : Store) (v : PVal) : Res Store :=
  if ch.type = .string then (asStr v.data).bind fun s => dbPut conv ch st .string (.strs [cText (scalarBuf s)])
  else (scalarNum parse ch.type v.data).bind fun n => dbPut conv ch st ch.type (.nums [n])

/-- ioc/iocsource.cpp:519-526: with the NUL -/
def putLongString (conv : Convert) (ch : Chan) (st : Store) (v : PVal) : Res Store :=
  (asStr v.data).bind fun s => dbPut conv ch st .char (.nums ((s ++ [0]).map UInt8.toNat))

/-- ioc/iocsource.cpp:536-539: `std::string::copy()` to a buffer of zeros -/
def elemBuf (s : Str) : Str := s.take (maxString - 1) ++ List.replicate (maxString - (s.take (maxString - 1)).length) 0

/-- ioc/iocsource.cpp:528-543; arrays of numbers are first converted to strings, which is left out here -/
def putStringArray (conv : Convert) (ch : Chan) (st : Store) (v : PVal) : Res Store :=
  match v.data with
  | .strs ss => dbPut conv ch st .string (.strs (ss.map fun s => cText (elemBuf s)))
  | _ => .throws "NoConvert"

/-- ioc/iocsource.cpp:550-572: the type of the elements of an array -/
def arrayDbr (code : TypeCode) : Option Dbr :=
  if code = .Int8A then some .char
  else if code = .Int16A then some .short
  else if code = .Int32A then some .long
  else if code = .UInt8A then some .uchar
  else if code = .UInt16A then some .ushort
  else if code = .UInt32A then some .ulong
  else if code = .Int64A then some .int64
  else if code = .UInt64A then some .uint64
  else if code = .Float32A then some .float
  else if code = .Float64A then some .double
  else none

/-- ioc/iocsource.cpp:545-575; `null`: an array which was never set -/
def putArray (conv : Convert) (ch : Chan) (st : Store) (v : PVal) : Res Store :=
  match v.data with
  | .null => .ok st
  | .strs _ => putStringArray conv ch st v
  | .pods xs => match arrayDbr v.code with
    | some dbr => dbPut conv ch st dbr (.nums xs)
    | none => .throws "runtime_error"
  | _ => .throws "NoConvert"

/-- ioc/iocsource.cpp:583-617, once it is known which value is meant -/
def writeValue (parse : Str → Option Nat) (conv : Convert) (ch : Chan) (st : Store) (v : PVal) : Res Store :=
  if ch.elems = 1 then putScalar parse conv ch st v
  else if ch.type = .char ∧ v.code = .String then putLongString conv ch st v
  else if ch.type = .string then putStringArray conv ch st v
  else putArray conv ch st v

end Pvxs.RecVal
