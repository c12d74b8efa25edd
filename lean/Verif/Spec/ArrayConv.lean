import Verif.Model.ArrayConv
import Verif.Spec.Scalar
/-
Specification for C81: the numbers the elements of an array stand for.
-/
namespace Pvxs.Spec.ArrayConv
open Pvxs.ArrayConv (AType)

/-- width in bits of an element, and is it a signed integer -/
def intType : AType → Option (Nat × Bool)
  | .i8 => some (8, true)
  | .i16 => some (16, true)
  | .i32 => some (32, true)
  | .i64 => some (64, true)
  | .u8 => some (8, false)
  | .u16 => some (16, false)
  | .u32 => some (32, false)
  | .u64 => some (64, false)
  | _ => none

/-- bits of mantissa and of exponent -/
def realType : AType → Option (Nat × Nat)
  | .f32 => some (23, 8)
  | .f64 => some (52, 11)
  | _ => none

/-- the patterns an element may have -/
def Pattern (t : AType) (x : Nat) : Prop := match t with
  | .bool => x < 2
  | .f32 => x < 2 ^ 32
  | .f64 => x < 2 ^ 64
  | t => match intType t with
    | some (b, _) => x < 2 ^ b
    | none => False

/-- the integer an element stands for: two's complement; true is 1 -/
def number (t : AType) (x : Nat) : Option Int := match t with
  | .bool => some (x : Int)
  | t => match intType t with
    | some (b, true) => some (if x < 2 ^ (b - 1) then (x : Int) else (x : Int) - 2 ^ b)
    | some (_, false) => some (x : Int)
    | none => none

/-- the integers an integer type can hold -/
def Fits (t : AType) (v : Int) : Prop := match intType t with
  | some (b, true) => -2 ^ (b - 1) ≤ v ∧ v < 2 ^ (b - 1)
  | some (b, false) => 0 ≤ v ∧ v < 2 ^ b
  | none => False

/-- differ by a multiple of two to the number of bits of an integer type -/
def Wraps (t : AType) (v u : Int) : Prop := match intType t with
  | some (b, _) => ∃ k : Int, v = u + k * 2 ^ b
  | none => False

/-! Every finite real of a format is a whole multiple of the smallest positive one. -/

/-- how many times the smallest positive real makes 1 -/
def one (mb eb : Nat) : Nat := 2 ^ (2 ^ (eb - 1) - 2 + mb)

/-- a finite real, in multiples of the smallest positive one: sign, exponent, mantissa -/
def units (mb eb x : Nat) : Option Int :=
  let s := x / 2 ^ (mb + eb) % 2
  let e := x / 2 ^ mb % 2 ^ eb
  let m := x % 2 ^ mb
  if e = 2 ^ eb - 1 then none
  else
    let n : Nat := if e = 0 then m else (2 ^ mb + m) * 2 ^ (e - 1)
    some (if s = 1 then -(n : Int) else (n : Int))

/-- `y` is a finite real, and no finite real is nearer to `v / scale` -/
def Nearest (mb eb y : Nat) (v : Int) (scale : Nat) : Prop :=
  ∃ u, units mb eb y = some u ∧
    ∀ z w, units mb eb z = some w → (u * scale - v * one mb eb).natAbs ≤ (w * scale - v * one mb eb).natAbs

/-- the elements of two arrays, one by one -/
def Each {α β : Type} (P : α → β → Prop) (xs : List α) (ys : List β) : Prop :=
  ys.length = xs.length ∧ ∀ (i : Nat) (x : α) (y : β), xs[i]? = some x → ys[i]? = some y → P x y

/-- the text of a boolean -/
def boolText (x : Nat) : Str := if x = 0 then [0x66, 0x61, 0x6c, 0x73, 0x65] else [0x74, 0x72, 0x75, 0x65]

/-- the decimal text of an integer, without needless digits -/
def Decimal (v : Int) (s : Str) : Prop :=
  ∃ t, Spec.Scl.Digits 10 t v.natAbs ∧ (v ≠ 0 → t.head? ≠ some 0x30) ∧ (v = 0 → t.length = 1) ∧ s = if v < 0 then 0x2d :: t else t

/-- `t` is the text of an integer of 64 bits: for a signed type from -2^63 up to 2^63, for an unsigned type any sign and less than 2^64 -/
def Reads (sg : Bool) (t : Str) (neg : Bool) (m : Nat) : Prop :=
  Spec.Scl.Says t neg m ∧ if sg then (if neg then m ≤ 2 ^ 63 else m < 2 ^ 63) else m < 2 ^ 64

/-- the number -/
def numberRead (neg : Bool) (m : Nat) : Int := if neg then -(m : Int) else m

end Pvxs.Spec.ArrayConv
