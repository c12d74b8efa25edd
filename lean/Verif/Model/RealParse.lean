import Verif.Model.RealScalar
/-
Text read as a double: src/util.cpp:757-773 `parseTo<double>`, which is std::stod followed by blanks only.

std::stod (libstdc++, ext/string_conversions.h `__stoa`) calls strtod, and throws if nothing was read (invalid_argument) or errno is
ERANGE (out_of_range).  strtod is that of glibc in the "C" locale with rounding to nearest: it reads the longest prefix which is a number
and rounds its exact value once; ERANGE is set for a result which is too large, and for one which is tiny and not exact.  Whether a number
which rounds to 2^-1022 is tiny depends on the processor (`after`: TININESS_AFTER_ROUNDING of glibc, x86: yes, ARM: no).

Simplified: what follows the longest prefix is only looked at for blanks, so a prefix which leaves other characters is not computed.  The
payload of "nan(...)" is not modelled.
-/
namespace Pvxs.RealParse
open Pvxs Wire Pvxs.RealScalar

/-! ### a ratio of natural numbers as a double -/

/-- how many low bits are dropped of N/d units of 2^-1074 -/
def shiftOf (N d : Nat) : Nat := (N / d).log2 - 52
/-- exponent and mantissa, which may be greater than those of any double -/
def bitsOf (N d : Nat) : Nat := shiftOf N d * 2 ^ 52 + roundDiv N (d * 2 ^ shiftOf N d)
/-- the pattern of infinity -/
def infBits : Nat := 2047 * 2 ^ 52
/-- below 2^-1022, for the processor -/
def tiny (after : Bool) (N d : Nat) : Bool := if after then decide (4 * N < (2 ^ 54 - 1) * d) else decide (N < 2 ^ 52 * d)
/-- round_and_return of glibc strtod; `none`: ERANGE.  The number is N/d units of 2^-1074. -/
def roundBits (after : Bool) (N d : Nat) : Option Nat :=
  if tiny after N d && N % d != 0 then none
  else if infBits ≤ bitsOf N d then none
  else some (bitsOf N d)

/-! ### the text -/

/-- digits, with or without a point: their value, the number of digits after the point, and the rest -/
def mantissa (base : Nat) (s : Str) : Option (Nat × Nat × Str) :=
  let w := s.takeWhile (isDigit base)
  match s.dropWhile (isDigit base) with
  | 0x2e :: r =>
    let f := r.takeWhile (isDigit base)
    if w ++ f = [] then none else some (digitsVal base (w ++ f), f.length, r.dropWhile (isDigit base))
  | r => if w = [] then none else some (digitsVal base w, 0, r)

/-- the digits of an exponent -/
def expDigits (neg : Bool) (s : Str) : Option (Int × Str) :=
  let w := s.takeWhile (isDigit 10)
  if w = [] then none
  else some (if neg then -(digitsVal 10 w : Int) else (digitsVal 10 w : Int), s.dropWhile (isDigit 10))
/-- and their sign -/
def expSigned : Str → Option (Int × Str)
  | 0x2d :: r => expDigits true r
  | 0x2b :: r => expDigits false r
  | r => expDigits false r
/-- an exponent after the letter `low` or `up`; if there are no digits it is not read -/
def exponent (low up : Byte) : Str → Int × Str
  | c :: r => if c = low ∨ c = up then (expSigned r).getD (0, c :: r) else (0, c :: r)
  | [] => (0, [])

/-- a number is `m` times `base` to the `exp` -/
structure Num where
  m : Nat
  base : Nat
  exp : Int
deriving DecidableEq, Repr

def decimal (s : Str) : Option (Num × Str) :=
  (mantissa 10 s).map fun p =>
    let e := exponent 0x65 0x45 p.2.2
    (⟨p.1, 10, e.1 - p.2.1⟩, e.2)
def hexNumber (s : Str) : Option (Num × Str) :=
  (mantissa 16 s).map fun p =>
    let e := exponent 0x70 0x50 p.2.2
    (⟨p.1, 2, e.1 - 4 * p.2.1⟩, e.2)
/-- after "0x" or "0X" -/
def afterHex : Str → Option Str
  | 0x30 :: x :: r => if x = 0x78 ∨ x = 0x58 then some r else none
  | _ => none
def number (s : Str) : Option (Num × Str) :=
  match (afterHex s).bind hexNumber with
  | some p => some p
  | none => decimal s

def lower (c : Byte) : Byte := if 0x41 ≤ c ∧ c ≤ 0x5a then c + 0x20 else c
/-- what is left after the word `w`, in letters of either case -/
def word (w : Str) (s : Str) : Option Str := if (s.take w.length).map lower = w then some (s.drop w.length) else none

/-- isalnum or underscore -/
def nanChar (c : Byte) : Bool := decide (digitVal c < 36) || c == 0x5f
/-- "(...)" after "nan" -/
def nanTail : Str → Str
  | 0x28 :: t => match t.dropWhile nanChar with
    | 0x29 :: u => u
    | _ => 0x28 :: t
  | s => s

inductive Parsed where
  | num (n : Num)
  | inf
  | nan
deriving DecidableEq, Repr

/-- strtod, after blanks and the sign -/
def magnitudeText (s : Str) : Option (Parsed × Str) :=
  match word [0x69, 0x6e, 0x66, 0x69, 0x6e, 0x69, 0x74, 0x79] s with
  | some r => some (.inf, r)
  | none => match word [0x69, 0x6e, 0x66] s with
    | some r => some (.inf, r)
    | none => match word [0x6e, 0x61, 0x6e] s with
      | some r => some (.nan, nanTail r)
      | none => (number s).map fun p => (.num p.1, p.2)

/-- the double; `none`: ERANGE -/
def bits (after : Bool) : Parsed → Option Nat
  | .num n => roundBits after (n.m * n.base ^ n.exp.toNat * 2 ^ 1074) (n.base ^ (-n.exp).toNat)
  | .inf => some infBits
  | .nan => some (infBits + 2 ^ 51)

/-- parseTo<double>, after blanks and the sign -/
def parseUnsigned (after neg : Bool) (s : Str) : Option Nat :=
  (magnitudeText s).bind fun p =>
    if p.2.all isSpace then (bits after p.1).map fun b => (if neg then 2 ^ 63 else 0) + b else none

/-- src/util.cpp:757-773 `parseTo<double>`; `none` is a thrown NoConvert -/
def parseDouble (after : Bool) (s : Str) : Option Nat :=
  match s.dropWhile isSpace with
  | 0x2d :: r => parseUnsigned after true r
  | 0x2b :: r => parseUnsigned after false r
  | r => parseUnsigned after false r

/-- what ArrayConv leaves open: `<< float` prints the float as a double, with the same six digits -/
def reals (after : Bool) : Pvxs.ArrayConv.Reals where
  show32 x := showDouble (widen x)
  show64 := showDouble
  parse := parseDouble after

end Pvxs.RealParse
