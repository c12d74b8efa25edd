import Verif.Model.Scalar
/-
Arrays converted from one element type to another: src/sharedarray.cpp:158-496 (`convertCast`, `convertToStr`, `convertFromStr`,
`convertArr`, `copyAs`), src/utilpvt.h:53-58 (`promote_print`), src/pvxs/sharedArray.h:646-661 (`thaw`) and :694-706
(`convertTo`), src/data.cpp:608-660 (`Value::copyIn`, arrays of scalars), :705-722 (an unselected Union), :771-782 (`tryCopyIn`).

The elements of an array are their bit patterns (bool: one byte, 0 or 1).  Signed `char`, as on the usual platforms.
Left open: the text of a real (`std::ostream << float`, `<< double`) and `parseTo<double>`.
Not modelled: allocation failure, reference counts (an array is its content).
-/
namespace Pvxs.ArrayConv
open Pvxs Wire

/-- src/pvxs/sharedArray.h:27-43 `enum class ArrayType` -/
inductive AType where
  | null | bool | i8 | i16 | i32 | i64 | u8 | u16 | u32 | u64 | f32 | f64 | str | value
deriving DecidableEq, Repr

/-- the C++ types of the template arguments of `convertCast` -/
inductive CType where
  | bool
  | sint (w : Nat)    -- intN_t of w bytes
  | uint (w : Nat)    -- uintN_t
  | f32
  | f64
deriving DecidableEq, Repr

/-- what the model leaves open -/
structure Reals where
  show32 : Nat → Str            -- std::ostream << float
  show64 : Nat → Str            -- std::ostream << double
  parse : Str → Option Nat      -- src/util.cpp:757-773 parseTo<double>; `none` is a thrown NoConvert

/-! ### C++ conversions of one element -/

/-- a natural number as a binary floating point number with `mb` bits of mantissa: round to nearest, ties to even -/
def realOfNat (mb bias n : Nat) : Nat :=
  if n = 0 then 0
  else if n.log2 ≤ mb then (n.log2 + bias) * 2 ^ mb + (n - 2 ^ n.log2) * 2 ^ (mb - n.log2)
  else (n.log2 + bias) * 2 ^ mb + (roundShift n (n.log2 - mb) - 2 ^ mb)

/-- `float(v)`, `double(v)` of an integer; `sign`: the place of the sign bit -/
def realOfInt (mb bias sign : Nat) (v : Int) : Nat :=
  (if v < 0 then 2 ^ sign else 0) + realOfNat mb bias v.natAbs

/-- the integer part of the magnitude of a real; `none` for an infinity or not-a-number -/
def wholePart (mb eb x : Nat) : Option Nat :=
  let e := x / 2 ^ mb % 2 ^ eb
  let m := x % 2 ^ mb
  let one := 2 ^ (eb - 1) - 1 + mb
  if e = 2 ^ eb - 1 then none
  else if e = 0 then some 0
  else if one ≤ e then some ((2 ^ mb + m) * 2 ^ (e - one)) else some ((2 ^ mb + m) / 2 ^ (one - e))

/-- a real truncated towards zero -/
def truncated (mb eb x : Nat) : Option Int :=
  (wholePart mb eb x).map fun (n : Nat) => if x / 2 ^ (mb + eb) % 2 = 1 then -(n : Int) else (n : Int)

/-- conversion to an integer type: undefined unless the truncated value is representable -/
def truncTo (t : CType) (v : Option Int) : Res Nat :=
  match t, v with
  | .sint w, some v => if -((256 ^ w / 2 : Nat) : Int) ≤ v ∧ v < ((256 ^ w / 2 : Nat) : Int) then .ok (intBits w v) else .ub
  | .uint w, some v => if 0 ≤ v ∧ v < ((256 ^ w : Nat) : Int) then .ok (intBits w v) else .ub
  | _, _ => .ub

/-- the number of an element of an integer type, or bool -/
def ofBits (t : CType) (x : Nat) : Int :=
  match t with
  | .sint w => intOf w x
  | _ => (x : Int)

/-- an integer converted -/
def castInt (v : Int) (d : CType) : Nat :=
  match d with
  | .bool => if v ≠ 0 then 1 else 0
  | .sint w => intBits w v
  | .uint w => intBits w v
  | .f32 => realOfInt 23 127 31 v
  | .f64 => realOfInt 52 1023 63 v

/-- src/sharedarray.cpp:160-167 `Dest(S[i])` -/
def castOne (s d : CType) (x : Nat) : Res Nat :=
  match s with
  | .f32 => match d with
    | .bool => .ok (if x % 2 ^ 31 ≠ 0 then 1 else 0)
    | .f32 => .ok x
    | .f64 => .ok (widen x)
    | d => truncTo d (truncated 23 8 x)
  | .f64 => match d with
    | .bool => .ok (if x % 2 ^ 63 ≠ 0 then 1 else 0)
    | .f32 => .ok (narrow x)
    | .f64 => .ok x
    | d => truncTo d (truncated 52 11 x)
  | s => .ok (castInt (ofBits s x) d)

/-- src/sharedarray.cpp:169-191 `printValue(D[i], promote_print<Src>::op(S[i]))`.
src/utilpvt.h:57-58: an uint8_t is first converted to (signed) char, then to unsigned. -/
def printOne (R : Reals) (s : CType) (x : Nat) : Str :=
  match s with
  | .bool => if x ≠ 0 then trueText else falseText
  | .f32 => R.show32 x
  | .f64 => R.show64 x
  | .uint 1 => showInt (intBits 4 (intOf 1 x))
  | s => showInt (ofBits s x)

/-- an exception, or not -/
def orThrow (what : String) : Option α → Res α
  | some a => .ok a
  | none => .throws what

/-- src/sharedarray.cpp:193-222 `parseValue` -/
def parseOne (R : Reals) (d : CType) (s : Str) : Res Nat :=
  match d with
  | .bool => if s = trueText then .ok 1 else if s = falseText then .ok 0 else .throws "runtime_error"
  | .sint w => orThrow "NoConvert" ((parseI64 s).map (intBits w))
  | .uint w => orThrow "NoConvert" ((parseU64 s).map fun (n : Nat) => n % 256 ^ w)
  | .f32 => orThrow "NoConvert" ((R.parse s).map narrow)
  | .f64 => orThrow "NoConvert" (R.parse s)

/-! ### arrays -/

/-- what `convertArr` does to an array -/
inductive How where
  | copy                   -- memcpy
  | cast (s d : CType)     -- convertCast<s, d>
  | print (s : CType)      -- convertToStr<s>
  | parse (d : CType)      -- convertFromStr<d>
  | same                   -- convertCast<std::string, std::string>
  | no                     -- throw NoConvert
deriving DecidableEq, Repr

abbrev S8 := CType.sint 1
abbrev S16 := CType.sint 2
abbrev S32 := CType.sint 4
abbrev S64 := CType.sint 8
abbrev U8 := CType.uint 1
abbrev U16 := CType.uint 2
abbrev U32 := CType.uint 4
abbrev U64 := CType.uint 8

/-- src/sharedarray.cpp:242-466, the switch of `convertArr` -/
def how (s d : AType) : How :=
  match s with
  | .bool => match d with              -- :243-260
    | .bool => .copy
    | .i8 | .u8 => .cast .bool U8
    | .i16 | .u16 => .cast .bool U16
    | .i32 | .u32 => .cast .bool U32
    | .i64 | .u64 => .cast .bool U64
    | .f32 => .cast .bool .f32
    | .f64 => .cast .bool .f64
    | .str => .print .bool
    | .value | .null => .no
  | .i8 => match d with                -- :261-280
    | .bool => .cast S8 .bool
    | .i8 | .u8 => .copy
    | .i16 => .cast S8 S16
    | .u16 => .cast S8 U16
    | .i32 => .cast S8 S32
    | .u32 => .cast S8 U32
    | .i64 => .cast S8 S64
    | .u64 => .cast S8 U64
    | .f32 => .cast S8 .f32
    | .f64 => .cast S8 .f64
    | .str => .print S8
    | .value | .null => .no
  | .i16 => match d with               -- :281-298
    | .bool => .cast S16 .bool
    | .i8 | .u8 => .cast U16 U8
    | .i16 | .u16 => .copy
    | .i32 => .cast S16 S32
    | .u32 => .cast S16 U32
    | .i64 => .cast S16 S64
    | .u64 => .cast S16 U64
    | .f32 => .cast S16 .f32
    | .f64 => .cast S16 .f64
    | .str => .print S16
    | .value | .null => .no
  | .i32 => match d with               -- :299-316
    | .bool => .cast S32 .bool
    | .i8 | .u8 => .cast U32 U8
    | .i16 | .u16 => .cast U32 U16
    | .i32 | .u32 => .copy
    | .i64 => .cast S32 S64
    | .u64 => .cast S32 U64
    | .f32 => .cast S32 .f32
    | .f64 => .cast S32 .f64
    | .str => .print S32
    | .value | .null => .no
  | .i64 => match d with               -- :317-334
    | .bool => .cast S64 .bool
    | .i8 | .u8 => .cast S64 S8
    | .i16 | .u16 => .cast S64 S16
    | .i32 | .u32 => .cast S64 S32
    | .i64 | .u64 => .copy
    | .f32 => .cast S64 .f32
    | .f64 => .cast S64 .f64
    | .str => .print S64
    | .value | .null => .no
  | .u8 => match d with                -- :335-353
    | .bool => .cast U8 .bool
    | .i8 | .u8 => .copy
    | .i16 | .u16 => .cast U8 U16
    | .i32 | .u32 => .cast U8 U32
    | .i64 | .u64 => .cast U8 U64
    | .f32 => .cast U8 .f32
    | .f64 => .cast U8 .f64
    | .str => .print U8
    | .value | .null => .no
  | .u16 => match d with               -- :354-371
    | .bool => .cast U16 .bool
    | .i8 | .u8 => .cast U16 S8
    | .i16 | .u16 => .copy
    | .i32 | .u32 => .cast U16 U32
    | .i64 | .u64 => .cast U16 U64
    | .f32 => .cast U16 .f32
    | .f64 => .cast U16 .f64
    | .str => .print U16
    | .value | .null => .no
  | .u32 => match d with               -- :372-389
    | .bool => .cast U32 .bool
    | .i8 | .u8 => .cast U32 S8
    | .i16 | .u16 => .cast U32 S16
    | .i32 | .u32 => .copy
    | .i64 | .u64 => .cast U32 S64
    | .f32 => .cast U32 .f32
    | .f64 => .cast U32 .f64
    | .str => .print U32
    | .value | .null => .no
  | .u64 => match d with               -- :390-407
    | .bool => .cast U64 .bool
    | .i8 | .u8 => .cast U64 S8
    | .i16 | .u16 => .cast U64 S16
    | .i32 | .u32 => .cast U64 S32
    | .i64 | .u64 => .copy
    | .f32 => .cast U64 .f32
    | .f64 => .cast U64 .f64
    | .str => .print U64
    | .value | .null => .no
  | .f32 => match d with               -- :408-425
    | .bool => .cast .f32 .bool
    | .i8 => .cast .f32 S8
    | .u8 => .cast .f32 U8
    | .i16 => .cast .f32 S16
    | .u16 => .cast .f32 U16
    | .i32 => .cast .f32 S32
    | .u32 => .cast .f32 U32
    | .i64 => .cast .f32 S64
    | .u64 => .cast .f32 U64
    | .f32 => .copy
    | .f64 => .cast .f32 .f64
    | .str => .print .f32
    | .value | .null => .no
  | .f64 => match d with               -- :426-443
    | .bool => .cast .f64 .bool
    | .i8 => .cast .f64 S8
    | .u8 => .cast .f64 U8
    | .i16 => .cast .f64 S16
    | .u16 => .cast .f64 U16
    | .i32 => .cast .f64 S32
    | .u32 => .cast .f64 U32
    | .i64 => .cast .f64 S64
    | .u64 => .cast .f64 U64
    | .f32 => .cast .f64 .f32
    | .f64 => .copy
    | .str => .print .f64
    | .value | .null => .no
  | .str => match d with               -- :444-462
    | .bool => .parse .bool
    | .i8 => .parse S8
    | .u8 => .parse U8
    | .i16 => .parse S16
    | .u16 => .parse U16
    | .i32 => .parse S32
    | .u32 => .parse U32
    | .i64 => .parse S64
    | .u64 => .parse U64
    | .f32 => .parse .f32
    | .f64 => .parse .f64
    | .str => .same
    | .value | .null => .no
  | .value | .null => .no              -- :463-465

/-- an array of scalars, of strings, or of Values (of which only the number matters here) -/
inductive Elems where
  | pods (xs : List Nat)
  | strs (ss : List Str)
  | vals (n : Nat)
deriving DecidableEq, Repr

/-- `count` -/
def Elems.size : Elems → Nat
  | .pods xs => xs.length
  | .strs ss => ss.length
  | .vals n => n

/-- one element after the other; the first exception ends the loop -/
def eachRes (f : α → Res β) : List α → Res (List β)
  | [] => .ok []
  | a :: l => f a >>= fun b => eachRes f l >>= fun r => .ok (b :: r)

/-- the content of a new array of no elements -/
def emptyOf : AType → Elems
  | .str => .strs []
  | .value => .vals 0
  | _ => .pods []

/-- src/sharedarray.cpp:235-468 `convertArr`: the content of the destination.  A destination which does not match its type is not
possible. -/
def convertArr (R : Reals) (d s : AType) (x : Elems) : Res Elems :=
  if x.size = 0 then .ok (emptyOf d)             -- :239-240
  else match how s d, x with
    | .copy, .pods xs => .ok (.pods xs)
    | .cast a b, .pods xs => eachRes (castOne a b) xs >>= fun r => .ok (.pods r)
    | .print a, .pods xs => .ok (.strs (xs.map (printOne R a)))
    | .parse b, .strs ss => eachRes (parseOne R b) ss >>= fun r => .ok (.pods r)
    | .same, .strs ss => .ok (.strs ss)
    | .no, _ => .throws "NoConvert"              -- :467
    | _, _ => .ub

/-- src/sharedarray.cpp:470-496 `copyAs`; a fresh array of `count` elements, not written if the source has no type -/
def copyAs (R : Reals) (d s : AType) (x : Elems) : Res Elems :=
  if s = .null then .ok (match d with
    | .str => .strs (List.replicate x.size [])
    | .value => .vals x.size
    | .null => .pods []
    | _ => .pods (List.replicate x.size 0))
  else convertArr R d s x

/-- an array with its element type: `shared_array<const void>` -/
structure Arr where
  type : AType
  elems : Elems
deriving DecidableEq, Repr

/-- `Kind::Compound`: an array of Struct, Union or Any -/
def compound (d : AType) : Bool := d = .value

/-- src/data.cpp:608-660 `Value::copyIn`, a field which is an array of type `d` (arrays of Value to such a field: see
Model/ValueOps.lean) -/
def assignArr (R : Reals) (d : AType) (x : Arr) : Res Arr :=
  if x.type = .null ∨ x.elems.size = 0 then .ok ⟨.null, .pods []⟩             -- :612-614
  else if x.type = .value ∧ compound d = true then .ok x                     -- :616-641
  else if x.type ≠ .value ∧ d = x.type then .ok x                            -- :643-645
  else if x.type ≠ .value then copyAs R d x.type x.elems >>= fun r => .ok ⟨d, r⟩   -- :647-649
  else .throws "NoConvert"                                                   -- :651-653

/-- src/data.cpp:771-782 `tryCopyIn`: was it assigned -/
def tryAssignArr (R : Reals) (d : AType) (x : Arr) : Res (Bool × Option Arr) :=
  match assignArr R d x with
  | .ok r => .ok (true, some r)
  | .throws "NoConvert" => .ok (false, none)
  | .throws "NoField" => .ok (false, none)
  | .throws w => .throws w
  | .ub => .ub

/-- src/pvxs/sharedArray.h:694-706 `shared_array<const void>::convertTo<TO>` (`Value::as<shared_array<const TO>>`, data.h:119-128).
`castTo` of the same type cannot fail. -/
def convertTo (R : Reals) (d : AType) (x : Arr) : Res Arr :=
  if d = x.type then .ok x
  else convertArr R d x.type x.elems >>= fun r => .ok ⟨d, r⟩

/-- src/pvxs/sharedArray.h:646-661 `shared_array<const void>::thaw`; `unique`: the only reference -/
def thaw (R : Reals) (unique : Bool) (x : Arr) : Res Arr :=
  if unique then .ok x
  else convertArr R x.type x.type x.elems >>= fun r => .ok ⟨x.type, r⟩

/-- src/data.cpp:705-722: an array assigned to an Union of arrays of which no choice is selected.  The choice selected, and its content. -/
def autoSelect (R : Reals) (x : Arr) : Nat → List AType → Res (Nat × Arr)
  | _, [] => .throws "NoConvert"
  | k, d :: more => match assignArr R d x with
    | .ok r => .ok (k, r)
    | .throws "NoConvert" => autoSelect R x (k+1) more
    | .throws w => .throws w
    | .ub => .ub

/-! ### within a Value (Model/ValueOps.lean) -/

/-- src/type.cpp:101-124 `TypeCode::arrayType`, of an array of scalars -/
def atypeOf (c : TypeCode) : AType :=
  if c = .BoolA then .bool else if c = .Int8A then .i8 else if c = .Int16A then .i16 else if c = .Int32A then .i32
  else if c = .Int64A then .i64 else if c = .UInt8A then .u8 else if c = .UInt16A then .u16 else if c = .UInt32A then .u32
  else if c = .UInt64A then .u64 else if c = .Float32A then .f32 else if c = .Float64A then .f64 else if c = .StringA then .str
  else if c = .StructA ∨ c = .UnionA ∨ c = .AnyA then .value else .null

/-- content of a field from elements -/
def toDatum : Elems → Res Datum
  | .pods xs => .ok (.pods xs)
  | .strs ss => .ok (.strs ss)
  | .vals _ => .ub

/-- elements of an array of scalars or strings -/
def ofDatum : Datum → Option Elems
  | .pods xs => some (.pods xs)
  | .strs ss => some (.strs ss)
  | _ => none

/-- src/data.cpp:647-649, what Model/ValueOps.lean leaves open as `CopyEnv.conv` for arrays of scalars -/
def convDatum (R : Reals) (d s : TypeCode) (x : Elems) : Res Datum := copyAs R (atypeOf d) (atypeOf s) x >>= toDatum

end Pvxs.ArrayConv
