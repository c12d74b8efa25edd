import Verif.Spec.RealScalar
/-
Specification for C90: the text of a real.
-/
namespace Pvxs.Spec.RealParse
open Wire (Byte)
open Pvxs.Spec.Scl (Digits Blank)
open Pvxs.Spec.ArrayConv (units one)

/-- digits in some base, perhaps with a point somewhere: their value, and how many follow the point -/
inductive Mantissa (base : Nat) : Str → Nat → Nat → Prop where
  | whole {w : Str} {M : Nat} (h : Digits base w M) : Mantissa base w M 0
  | point {w f : Str} {M : Nat} (h : Digits base (w ++ f) M) : Mantissa base (w ++ 0x2e :: f) M f.length

/-- no exponent, or one of the two letters, a sign or none, and decimal digits -/
inductive Exponent (low up : Byte) : Str → Int → Prop where
  | none : Exponent low up [] 0
  | plain {c : Byte} {s : Str} {n : Nat} (hc : c = low ∨ c = up) (h : Digits 10 s n) : Exponent low up (c :: s) n
  | plus {c : Byte} {s : Str} {n : Nat} (hc : c = low ∨ c = up) (h : Digits 10 s n) : Exponent low up (c :: 0x2b :: s) n
  | minus {c : Byte} {s : Str} {n : Nat} (hc : c = low ∨ c = up) (h : Digits 10 s n) : Exponent low up (c :: 0x2d :: s) (-(n : Int))

/-- `M` times `B` to the `E`: decimal with "e", or after "0x" hexadecimal with "p" -/
inductive Number : Str → Nat → Nat → Int → Prop where
  | dec {m x : Str} {M k : Nat} {X : Int} (hm : Mantissa 10 m M k) (hx : Exponent 0x65 0x45 x X) : Number (m ++ x) M 10 (X - k)
  | hex {c : Byte} {m x : Str} {M k : Nat} {X : Int} (hc : c = 0x78 ∨ c = 0x58) (hm : Mantissa 16 m M k) (hx : Exponent 0x70 0x50 x X) :
      Number (0x30 :: c :: (m ++ x)) M 2 (X - 4 * k)

/-- optional blanks, optional sign, what `P` says, optional blanks -/
inductive Around (P : Str → Prop) : Str → Bool → Prop where
  | pos {b s b' : Str} (hb : Blank b) (hs : P s) (hb' : Blank b') : Around P (b ++ s ++ b') false
  | plus {b s b' : Str} (hb : Blank b) (hs : P s) (hb' : Blank b') : Around P (b ++ 0x2b :: s ++ b') false
  | minus {b s b' : Str} (hb : Blank b) (hs : P s) (hb' : Blank b') : Around P (b ++ 0x2d :: s ++ b') true

/-- the text says ±M·B^E -/
def Says (s : Str) (neg : Bool) (M B : Nat) (E : Int) : Prop := Around (fun t => Number t M B E) s neg

/-- the same letters, in any case -/
def Letters (w s : Str) : Prop :=
  s.length = w.length ∧ ∀ (i : Nat) (a b : Byte), w[i]? = some a → s[i]? = some b → b = a ∨ b.toNat + 0x20 = a.toNat

/-- "inf", "infinity" -/
def Infinity (s : Str) : Prop := Letters [0x69, 0x6e, 0x66] s ∨ Letters [0x69, 0x6e, 0x66, 0x69, 0x6e, 0x69, 0x74, 0x79] s
/-- letters, digits, underscore -/
def NanChar (c : Byte) : Prop :=
  (0x30 ≤ c.toNat ∧ c.toNat ≤ 0x39) ∨ (0x61 ≤ c.toNat ∧ c.toNat ≤ 0x7a) ∨ (0x41 ≤ c.toNat ∧ c.toNat ≤ 0x5a) ∨ c.toNat = 0x5f
/-- "nan", "nan(...)" -/
inductive NotANumber : Str → Prop where
  | plain {s : Str} (h : Letters [0x6e, 0x61, 0x6e] s) : NotANumber s
  | paren {s t : Str} (h : Letters [0x6e, 0x61, 0x6e] s) (ht : ∀ c ∈ t, NanChar c) : NotANumber (s ++ 0x28 :: t ++ [0x29])

/-- M·B^E as a ratio -/
def num (M B : Nat) (E : Int) : Nat := M * B ^ E.toNat
def den (B : Nat) (E : Int) : Nat := B ^ (-E).toNat

/-- with its sign -/
def signed (neg : Bool) (n : Nat) : Int := if neg then -(n : Int) else n

/-- `y` is the double nearest to v/d; of two which are as near the one whose last bit is 0 -/
def Rounds (y : Nat) (v : Int) (d : Nat) : Prop :=
  ∃ u, units 52 11 y = some u ∧
    (∀ z w, units 52 11 z = some w → (u * d - v * one 52 11).natAbs ≤ (w * d - v * one 52 11).natAbs) ∧
    (∀ z w, units 52 11 z = some w → w ≠ u → (u * d - v * one 52 11).natAbs = (w * d - v * one 52 11).natAbs → y % 2 = 0)

/-- n/d is below the middle between the largest double and 2^1024 -/
def BelowMax (n d : Nat) : Prop := n < (2 ^ 1024 - 2 ^ 970) * d
/-- n/d is at least 2^-1022, the smallest normal double -/
def Normal (n d : Nat) : Prop := d ≤ n * 2 ^ 1022

end Pvxs.Spec.RealParse
