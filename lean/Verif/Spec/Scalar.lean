import Verif.Model.Value
/-
Specification for C58: the numbers scalars stand for, and the text of a number.
-/
namespace Pvxs.Spec.Scl
open Wire (Byte)

/-- the number an integer or boolean stands for -/
def number : Datum → Option Int
  | .int v => some v
  | .uint n => some (n : Int)
  | .bool b => some (if b then 1 else 0)
  | _ => none

/-- what the storage of a field can hold: int64_t, uint64_t -/
def Holds : Datum → Prop
  | .int v => -2 ^ 63 ≤ v ∧ v < 2 ^ 63
  | .uint n => n < 2 ^ 64
  | _ => True

/-- `a` and `b` differ by a multiple of `m` -/
def SameMod (m : Nat) (a b : Int) : Prop := ∃ k : Int, a = b + k * m

/-- the numbers of a signed integer of w bytes -/
def InSigned (w : Nat) (v : Int) : Prop := -(256 ^ w / 2 : Nat) ≤ v ∧ v < (256 ^ w / 2 : Nat)
/-- the numbers of an unsigned integer of w bytes -/
def InUnsigned (w : Nat) (v : Int) : Prop := 0 ≤ v ∧ v < (256 ^ w : Nat)

/-- `c` is the digit `d` in some base -/
def Digit (base : Nat) (c : Byte) (d : Nat) : Prop :=
  d < base ∧ ((d < 10 ∧ c.toNat = 0x30 + d) ∨ (10 ≤ d ∧ c.toNat = 0x61 + (d - 10)) ∨ (10 ≤ d ∧ c.toNat = 0x41 + (d - 10)))

/-- one or more digits, and their value -/
inductive Digits (base : Nat) : Str → Nat → Prop where
  | one {c : Byte} {d : Nat} (h : Digit base c d) : Digits base [c] d
  | snoc {s : Str} {n : Nat} {c : Byte} {d : Nat} (hs : Digits base s n) (h : Digit base c d) : Digits base (s ++ [c]) (n * base + d)

/-- a number without sign: base 16 after "0x", base 8 after "0", else base 10 -/
inductive Numeral : Str → Nat → Prop where
  | dec {s : Str} {n : Nat} (h : Digits 10 s n) (h0 : s.head? ≠ some 0x30) : Numeral s n
  | oct {s : Str} {n : Nat} (h : Digits 8 s n) (h0 : s.head? = some 0x30) : Numeral s n
  | hex {x : Byte} {s : Str} {n : Nat} (hx : x = 0x78 ∨ x = 0x58) (h : Digits 16 s n) : Numeral (0x30 :: x :: s) n

/-- space, tab, line feed, vertical tab, form feed, carriage return -/
def Blank (s : Str) : Prop := ∀ c ∈ s, c.toNat = 0x20 ∨ (9 ≤ c.toNat ∧ c.toNat ≤ 13)

/-- optional blanks, optional sign, a number, optional blanks -/
inductive Says : Str → Bool → Nat → Prop where
  | pos {b s b' : Str} {n : Nat} (hb : Blank b) (hs : Numeral s n) (hb' : Blank b') : Says (b ++ s ++ b') false n
  | plus {b s b' : Str} {n : Nat} (hb : Blank b) (hs : Numeral s n) (hb' : Blank b') : Says (b ++ 0x2b :: s ++ b') false n
  | minus {b s b' : Str} {n : Nat} (hb : Blank b) (hs : Numeral s n) (hb' : Blank b') : Says (b ++ 0x2d :: s ++ b') true n

end Pvxs.Spec.Scl
