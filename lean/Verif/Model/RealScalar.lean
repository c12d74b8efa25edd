import Verif.Model.ArrayConv
/-
Scalars which are reals, or are read or assigned as reals: src/data.cpp:399-467 (`copyOutScalar`, `Value::copyOut`) and :513-605
(`copyInScalar`, `Value::copyIn`); the text of a double, src/utilpvt.h:80-87 (`SB()<<`).

A Real is stored as a double whatever the type of the field is.
Left open: `parseTo<double>` (a parameter).  Not modelled: locales other than "C"; compound fields and arrays (C17, C81).
-/
namespace Pvxs.RealScalar
open Pvxs Wire Pvxs.ArrayConv

/-! ### the text of a double: `std::ostream << double` with the flags of a new stream, that is printf("%.6g") -/

/-- n/d, to the nearest whole number, ties to even -/
def roundDiv (n d : Nat) : Nat :=
  let q := n / d
  let r := n % d
  if d < 2 * r ∨ (d = 2 * r ∧ q % 2 = 1) then q + 1 else q

/-- without the zeros at its end -/
def stripZeros (s : Str) : Str := (s.reverse.dropWhile fun c => c == 0x30).reverse

/-- with a point, if there is anything after it -/
def withPoint (whole frac : Str) : Str := if frac = [] then whole else whole ++ 0x2e :: frac

/-- the exponent: its sign and at least two digits -/
def expText (X : Int) : Str :=
  let n := showNat X.natAbs
  0x65 :: (if X < 0 then 0x2d else 0x2b) :: (if n.length < 2 then 0x30 :: n else n)

/-- `d`: six digits, of which the first stands for ten to the `X` -/
def digitsText (d : Nat) (X : Int) : Str :=
  let ds := showNat d
  if -4 ≤ X ∧ X < 6 then
    if 0 ≤ X then withPoint (ds.take (X.toNat + 1)) (stripZeros (ds.drop (X.toNat + 1)))
    else withPoint [0x30] (stripZeros (List.replicate ((-X).toNat - 1) 0x30 ++ ds))
  else withPoint (ds.take 1) (stripZeros (ds.drop 1)) ++ expText X

/-- the exponent of the first digit of n/2^1074, which is at least 2^-1074 and so more than 10^-324 -/
def firstDigit (n : Nat) : Int := ((showNat (n * 10 ^ 324 / 2 ^ 1074)).length : Int) - 1 - 324

/-- n/2^1074 in units of the sixth digit -/
def sixDigits (n : Nat) : Nat :=
  let X := firstDigit n
  if 5 ≤ X then roundDiv n (2 ^ 1074 * 10 ^ (X - 5).toNat) else roundDiv (n * 10 ^ (5 - X).toNat) (2 ^ 1074)

/-- the magnitude of a finite double, in multiples of 2^-1074 -/
def magnitude (x : Nat) : Nat :=
  let e := x / 2 ^ 52 % 2048
  let m := x % 2 ^ 52
  if e = 0 then m else (2 ^ 52 + m) * 2 ^ (e - 1)

/-- `%.6g` -/
def showDouble (x : Nat) : Str :=
  let sign : Str := if x / 2 ^ 63 % 2 = 1 then [0x2d] else []
  if x / 2 ^ 52 % 2048 = 2047 then sign ++ (if x % 2 ^ 52 = 0 then [0x69, 0x6e, 0x66] else [0x6e, 0x61, 0x6e])
  else if magnitude x = 0 then sign ++ [0x30]
  else
    let d := sixDigits (magnitude x)
    sign ++ (if d = 10 ^ 6 then digitsText (10 ^ 5) (firstDigit (magnitude x) + 1) else digitsText d (firstDigit (magnitude x)))

/-! ### reading and assigning -/

/-- src/data.cpp:425-458: read as a double.  `parse`: parseTo<double> -/
def readReal (parse : Str → Option Nat) : Datum → Res Nat
  | .real b => .ok b
  | .int v => .ok (realOfInt 52 1023 63 v)
  | .uint n => .ok (realOfInt 52 1023 63 n)
  | .bool b => .ok (realOfInt 52 1023 63 (if b then 1 else 0))
  | .str s => orThrow "NoConvert" (parse s)
  | _ => .throws "NoConvert"

/-- src/data.cpp:402-416, a double read as another type -/
def ofReal (b : Nat) : ReadAs → Res Datum
  | .int => (truncTo (.sint 8) (truncated 52 11 b)).bind fun n => .ok (.int (intOf 8 n))
  | .uint => (truncTo (.uint 8) (truncated 52 11 b)).bind fun n => .ok (.uint n)
  | .bool => .ok (.bool (b % 2 ^ 63 != 0))
  | .str => .ok (.str (showDouble b))

/-- src/data.cpp:544-549: a double is stored in a field of type Float64 or Float32 -/
def storeReal (code : TypeCode) (b : Nat) : Nat := if code = .Float32 then widen (narrow b) else b

/-- src/data.cpp:543-549: assignment to a field of type Float64 or Float32 -/
def assignToReal (parse : Str → Option Nat) (code : TypeCode) (x : Datum) : Res Datum :=
  (readReal parse x).bind fun b => .ok (.real (storeReal code b))

/-- src/data.cpp:550-605: a double assigned to a field of another type -/
def assignReal (code : TypeCode) (b : Nat) : Res Datum :=
  match code.wireKind with
  | .f64 => .ok (.real b)
  | .f32 => .ok (.real (storeReal code b))
  | .int w => (truncTo (.sint 8) (truncated 52 11 b)).bind fun n => .ok (.int (intOf w (intBits w (intOf 8 n))))
  | .uint w => (truncTo (.uint 8) (truncated 52 11 b)).bind fun n => .ok (.uint (n % 256 ^ w))
  | .bool => .throws "NoConvert"
  | .str => .ok (.str (showDouble b))
  | _ => .throws "NoConvert"

end Pvxs.RealScalar
