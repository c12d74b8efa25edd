import Verif.Model.ValueOps
/-
Scalars read and assigned through another type: src/data.cpp:399-467 (`copyOutScalar`, `Value::copyOut`) and :513-605
(`copyInScalar`, `Value::copyIn`), src/util.cpp:775-808 (`parseTo<uint64_t>`, `parseTo<int64_t>`).

Not modelled: double, arrays and compound fields.
-/
namespace Pvxs
open Wire (Byte)

/-- `std::ostream << uint64_t`: base 10 -/
def showNat (n : Nat) : Str :=
  if n < 10 then [UInt8.ofNat (0x30 + n)] else showNat (n / 10) ++ [UInt8.ofNat (0x30 + n % 10)]
termination_by n
decreasing_by omega

/-- `std::ostream << int64_t` -/
def showInt (v : Int) : Str := if v < 0 then 0x2d :: showNat v.natAbs else showNat v.natAbs

/-- the signed part of strtoll(): too large is out of range -/
def parseSigned (neg : Bool) (s : Str) : Option Int :=
  let (base, s) := numBase s
  let ds := s.takeWhile (isDigit base)
  let n := digitsVal base ds
  if ds = [] ∨ (if neg then 2 ^ 63 < n else 2 ^ 63 ≤ n) ∨ !((s.dropWhile (isDigit base)).all isSpace) then none
  else some (if neg then -(n : Int) else n)

/-- src/util.cpp:792-808 `parseTo<int64_t>`, `std::stoll(s, &idx, 0)`; `none` is a thrown NoConvert -/
def parseI64 (s : Str) : Option Int :=
  match s.dropWhile isSpace with
  | 0x2d :: r => parseSigned true r
  | 0x2b :: r => parseSigned false r
  | r => parseSigned false r

/-- "true" -/
def trueText : Str := [0x74, 0x72, 0x75, 0x65]
/-- "false" -/
def falseText : Str := [0x66, 0x61, 0x6c, 0x73, 0x65]

/-- src/data.cpp:459-462 and :587-589 -/
def parseBool (s : Str) : Option Bool :=
  if s = trueText then some true else if s = falseText then some false else none

/-- the type a field is read as -/
inductive ReadAs where
  | int
  | uint
  | bool
  | str

/-- src/data.cpp:419-467 `Value::copyOut`; `none` is a thrown NoConvert -/
def copyOut (x : Datum) (as : ReadAs) : Option Datum :=
  match x, as with
  -- copyOutScalar, :401-416
  | .int v, .int => some (.int v)
  | .int v, .uint => some (.uint (intBits 8 v))
  | .int v, .bool => some (.bool (v != 0))
  | .int v, .str => some (.str (showInt v))
  | .uint n, .int => some (.int (intOf 8 n))
  | .uint n, .uint => some (.uint n)
  | .uint n, .bool => some (.bool (n != 0))
  | .uint n, .str => some (.str (showNat n))
  -- :428-441
  | .bool b, .int => some (.int (if b then 1 else 0))
  | .bool b, .uint => some (.uint (if b then 1 else 0))
  | .bool b, .bool => some (.bool b)
  | .bool b, .str => some (.str (if b then trueText else falseText))
  -- :442-467
  | .str s, .int => (parseI64 s).map .int
  | .str s, .uint => (parseU64 s).map .uint
  | .str s, .bool => (parseBool s).map .bool
  | .str s, .str => some (.str s)
  | _, _ => none

/-- src/data.cpp:534-605 `Value::copyIn`; `none` is a thrown NoConvert -/
def copyIn (code : TypeCode) (x : Datum) : Option Datum :=
  match code.wireKind, x with
  -- :553-566: first to int64_t, then to the width of the field
  | .int w, .int v => some (.int (intOf w (intBits w v)))
  | .int w, .uint n => some (.int (intOf w (intBits w (intOf 8 n))))
  | .int w, .bool b => some (.int (intOf w (intBits w (if b then 1 else 0))))
  | .int w, .str s => (parseI64 s).map fun v => .int (intOf w (intBits w v))
  -- :567-580
  | .uint w, .int v => some (.uint (intBits 8 v % 256 ^ w))
  | .uint w, .uint n => some (.uint (n % 256 ^ w))
  | .uint w, .bool b => some (.uint ((if b then 1 else 0) % 256 ^ w))
  | .uint w, .str s => (parseU64 s).map fun n => .uint (n % 256 ^ w)
  -- :581-595: an integer is read as uint64_t
  | .bool, .int v => some (.bool (intBits 8 v != 0))
  | .bool, .uint n => some (.bool (n != 0))
  | .bool, .bool b => some (.bool b)
  | .bool, .str s => (parseBool s).map .bool
  -- :596-605
  | .str, .int v => some (.str (showInt v))
  | .str, .uint n => some (.str (showNat n))
  | .str, .bool b => some (.str (if b then trueText else falseText))
  | .str, .str s => some (.str s)
  | _, _ => none

end Pvxs
