import Verif.Model.Res
/-
Model of `pvxs::TypeCode`: /repo/src/pvxs/data.h:140-228 and /repo/src/type.cpp:44-166.
A type code is the byte itself (`enum code_t : uint8_t`; `explicit TypeCode(uint8_t)` accepts any byte).
-/
namespace Pvxs

/-- src/pvxs/data.h:154-221 `struct TypeCode` -/
structure TypeCode where
  code : UInt8
deriving DecidableEq, Repr, Inhabited

namespace TypeCode

/-! src/pvxs/data.h:156-190, the named codes -/
abbrev Bool     : TypeCode := ⟨0x00⟩
abbrev BoolA    : TypeCode := ⟨0x08⟩
abbrev Int8     : TypeCode := ⟨0x20⟩
abbrev Int16    : TypeCode := ⟨0x21⟩
abbrev Int32    : TypeCode := ⟨0x22⟩
abbrev Int64    : TypeCode := ⟨0x23⟩
abbrev UInt8    : TypeCode := ⟨0x24⟩
abbrev UInt16   : TypeCode := ⟨0x25⟩
abbrev UInt32   : TypeCode := ⟨0x26⟩
abbrev UInt64   : TypeCode := ⟨0x27⟩
abbrev Int8A    : TypeCode := ⟨0x28⟩
abbrev Int16A   : TypeCode := ⟨0x29⟩
abbrev Int32A   : TypeCode := ⟨0x2a⟩
abbrev Int64A   : TypeCode := ⟨0x2b⟩
abbrev UInt8A   : TypeCode := ⟨0x2c⟩
abbrev UInt16A  : TypeCode := ⟨0x2d⟩
abbrev UInt32A  : TypeCode := ⟨0x2e⟩
abbrev UInt64A  : TypeCode := ⟨0x2f⟩
abbrev Float32  : TypeCode := ⟨0x42⟩
abbrev Float64  : TypeCode := ⟨0x43⟩
abbrev Float32A : TypeCode := ⟨0x4a⟩
abbrev Float64A : TypeCode := ⟨0x4b⟩
abbrev String   : TypeCode := ⟨0x60⟩
abbrev StringA  : TypeCode := ⟨0x68⟩
abbrev Struct   : TypeCode := ⟨0x80⟩
abbrev Union    : TypeCode := ⟨0x81⟩
abbrev Any      : TypeCode := ⟨0x82⟩
abbrev StructA  : TypeCode := ⟨0x88⟩
abbrev UnionA   : TypeCode := ⟨0x89⟩
abbrev AnyA     : TypeCode := ⟨0x8a⟩
abbrev Null     : TypeCode := ⟨0xff⟩

/-- src/pvxs/data.h:141-148 `enum struct Kind`, as its byte -/
def kind (c : TypeCode) : _root_.UInt8 := c.code &&& 0xe0       -- :197
abbrev KBool     : _root_.UInt8 := 0x00
abbrev KInteger  : _root_.UInt8 := 0x20
abbrev KReal     : _root_.UInt8 := 0x40
abbrev KString   : _root_.UInt8 := 0x60
abbrev KCompound : _root_.UInt8 := 0x80
abbrev KNull     : _root_.UInt8 := 0xe0

/-- src/pvxs/data.h:199 -/
def order (c : TypeCode) : _root_.UInt8 := c.code &&& 3
/-- src/pvxs/data.h:201 -/
def size (c : TypeCode) : Nat := 1 <<< c.order.toNat
/-- src/pvxs/data.h:203 -/
def isunsigned (c : TypeCode) : _root_.Bool := c.code &&& 0x04 != 0
/-- src/pvxs/data.h:205 -/
def isarray (c : TypeCode) : _root_.Bool := c.code &&& 0x08 != 0
/-- src/pvxs/data.h:215 -/
def arrayOf (c : TypeCode) : TypeCode := ⟨c.code ||| 0x08⟩
/-- src/pvxs/data.h:217 -/
def scalarOf (c : TypeCode) : TypeCode := ⟨c.code &&& 0xf7⟩

/-- src/type.cpp:44-71 `TypeCode::valid` -/
def valid (c : TypeCode) : _root_.Bool :=
  if c.code &&& 0x10 != 0 && c.code != 0xff then false
  else c.scalarOf ∈ [Bool, Int8, Int16, Int32, Int64, UInt8, UInt16, UInt32, UInt64,
                     Float32, Float64, String, Any, Union, Struct, Null]

/-- src/pvxs/data.h:29-38 `enum struct StoreType` -/
inductive StoreType where
  | null | bool | uinteger | integer | real | string | compound | array
deriving DecidableEq, Repr, Inhabited

/-- src/type.cpp:73-99 `TypeCode::storedAs` -/
def storedAs (c : TypeCode) : Res StoreType :=
  if c.isarray then .ok .array
  else if c = Struct then .ok .null
  else if c = String then .ok .string
  else if c = Bool then .ok .bool
  else if c.kind = KReal then .ok .real
  else if c.kind = KInteger then .ok (if c.isunsigned then .uinteger else .integer)
  else if c.kind = KCompound then .ok .compound
  else .throws "storedAs"

/-- src/pvxs/sharedArray.h:27-43 `enum class ArrayType`: the code of the array TypeCode, Value = 0x88, Null = 0xff -/
abbrev ArrayType := _root_.UInt8

/-- src/type.cpp:101-124 `TypeCode::arrayType` -/
def arrayType (c : TypeCode) : Res ArrayType :=
  if c ∈ [BoolA, Int8A, Int16A, Int32A, Int64A, UInt8A, UInt16A, UInt32A, UInt64A, Float32A, Float64A, StringA] then
    .ok c.code
  else if c = StructA ∨ c = UnionA ∨ c = AnyA then .ok 0x88
  else .throws "arrayType"

/-- src/type.cpp:126-166 `TypeCode::name` -/
def name (c : TypeCode) : _root_.String :=
  match c.code with
  | 0x00 => "bool"      | 0x20 => "int8_t"     | 0x21 => "int16_t"    | 0x22 => "int32_t"   | 0x23 => "int64_t"
  | 0x24 => "uint8_t"   | 0x25 => "uint16_t"   | 0x26 => "uint32_t"   | 0x27 => "uint64_t"
  | 0x42 => "float"     | 0x43 => "double"     | 0x60 => "string"     | 0x82 => "any"
  | 0x81 => "union"     | 0x80 => "struct"     | 0xff => "null"
  | 0x08 => "bool[]"    | 0x28 => "int8_t[]"   | 0x29 => "int16_t[]"  | 0x2a => "int32_t[]" | 0x2b => "int64_t[]"
  | 0x2c => "uint8_t[]" | 0x2d => "uint16_t[]" | 0x2e => "uint32_t[]" | 0x2f => "uint64_t[]"
  | 0x4a => "float[]"   | 0x4b => "double[]"   | 0x68 => "string[]"   | 0x8a => "any[]"
  | 0x89 => "union[]"   | 0x88 => "struct[]"
  | _ => "???_t"

end TypeCode
end Pvxs
