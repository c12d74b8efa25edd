/-
IEEE 754 conversions between `double` and `float`, on bit patterns.

pvxs stores every Real field as a double (/repo/src/dataimpl.h:107-113); a `float` field is narrowed on the way out
(`float(fld)`, src/dataencode.cpp:236) and widened on the way in (:474).  The conversions are those of the hardware:
round to nearest, ties to even; a NaN keeps the upper part of its payload and becomes quiet.
-/
namespace Pvxs

/-- divide by 2^k, rounding to nearest, ties to even -/
def roundShift (v k : Nat) : Nat :=
  let q := v / 2 ^ k
  let r := v % 2 ^ k
  if 2 ^ k < 2 * r ∨ (2 ^ k = 2 * r ∧ q % 2 = 1) then q + 1 else q

/-- `double(float)`, src/dataencode.cpp:474 -/
def widen (x : Nat) : Nat :=
  let s := x / 2 ^ 31 % 2
  let e := x / 2 ^ 23 % 256
  let m := x % 2 ^ 23
  if e = 255 then
    s * 2 ^ 63 + 2047 * 2 ^ 52 + (if m = 0 then 0 else if m < 2 ^ 22 then (m + 2 ^ 22) * 2 ^ 29 else m * 2 ^ 29)
  else if e = 0 then
    if m = 0 then s * 2 ^ 63
    else s * 2 ^ 63 + (m.log2 + 874) * 2 ^ 52 + (m - 2 ^ m.log2) * 2 ^ (52 - m.log2)
  else s * 2 ^ 63 + (e + 896) * 2 ^ 52 + m * 2 ^ 29

/-- `float(double)`, src/dataencode.cpp:236 -/
def narrow (x : Nat) : Nat :=
  let s := x / 2 ^ 63 % 2
  let e := x / 2 ^ 52 % 2048
  let m := x % 2 ^ 52
  if e = 2047 then
    s * 2 ^ 31 + 255 * 2 ^ 23 + (if m = 0 then 0 else if m < 2 ^ 51 then m / 2 ^ 29 + 2 ^ 22 else m / 2 ^ 29)
  else if 897 ≤ e then
    s * 2 ^ 31 + min ((e - 896) * 2 ^ 23 + roundShift m 29) (255 * 2 ^ 23)
  else if e = 0 then s * 2 ^ 31                         -- magnitude below 2^-1022
  else s * 2 ^ 31 + roundShift (2 ^ 52 + m) (926 - e)

end Pvxs
