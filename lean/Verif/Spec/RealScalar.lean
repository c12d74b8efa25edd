import Verif.Spec.ArrayConv
/-
Specification for C83: numbers as text with a point and an exponent.  What a double or float stands for is in Spec/ArrayConv.lean: `units`
multiples of the smallest positive one, of which `one` make 1.
-/
namespace Pvxs.Spec.RealScalar
open Wire (Byte)

/-- no exponent, or "e", a sign and digits -/
inductive ExpText : Str → Int → Prop where
  | none : ExpText [] 0
  | pos (s : Str) (n : Nat) (h : Scl.Digits 10 s n) : ExpText (0x65 :: 0x2b :: s) n
  | neg (s : Str) (n : Nat) (h : Scl.Digits 10 s n) : ExpText (0x65 :: 0x2d :: s) (-(n : Int))

/-- the text stands for ±M·10^E -/
inductive Stands : Str → Bool → Nat → Int → Prop where
  | whole (neg : Bool) (w e : Str) (M : Nat) (X : Int) (hw : Scl.Digits 10 w M) (he : ExpText e X) :
      Stands ((if neg then [0x2d] else []) ++ w ++ e) neg M X
  | point (neg : Bool) (w f e : Str) (M : Nat) (X : Int) (hw : w ≠ []) (hf : f ≠ []) (hd : Scl.Digits 10 (w ++ f) M) (he : ExpText e X) :
      Stands ((if neg then [0x2d] else []) ++ w ++ 0x2e :: f ++ e) neg M (X - f.length)

/-- M·10^E is `v` -/
def Is (M : Nat) (E : Int) (v : Nat) : Prop := M * 10 ^ E.toNat = v * 10 ^ (-E).toNat

end Pvxs.Spec.RealScalar
