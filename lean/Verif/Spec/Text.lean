import Verif.Model.Text
/-
What escaped text and line differences mean.
-/
namespace Pvxs.Spec.Txt
open Text

def IsByte (c : Nat) : Prop := c < 256
def Printable (c : Nat) : Prop := 0x20 ≤ c ∧ c ≤ 0x7e

def hexVal (c : Nat) : Nat := if c < 0x40 then c - 0x30 else c - 0x61 + 10

def unshort (c : Nat) : Nat :=
  if c = 0x61 then 7 else if c = 0x62 then 8 else if c = 0x66 then 12 else if c = 0x6e then 10 else if c = 0x72 then 13
  else if c = 0x74 then 9 else if c = 0x76 then 11 else c

/-- reads escaped text, as a C compiler reads a string literal -/
def unescape : List Nat → List Nat
  | 0x5c :: 0x78 :: a :: b :: s => (hexVal a * 16 + hexVal b) :: unescape s
  | 0x5c :: c :: s => unshort c :: unescape s
  | c :: s => c :: unescape s
  | [] => []

/-- where a literal which was opened with the quote `q` ends: its text, and what follows the closing quote.  A backslash takes the next
character with it. -/
def literal (q : Nat) : List Nat → Option (List Nat × List Nat)
  | 0x5c :: c :: s => (literal q s).map fun r => (0x5c :: c :: r.1, r.2)
  | c :: s => if c = q then some ([], s) else (literal q s).map fun r => (c :: r.1, r.2)
  | [] => none

/-- every CR is followed by LF -/
def Tidy : List Nat → Prop
  | [] => True
  | [c] => c ≠ 13
  | c :: d :: s => (c = 13 → d = 10) ∧ Tidy (d :: s)

/-- the lines of the first text in the output -/
def lefts : List Line → List (List Nat)
  | [] => []
  | .left s :: o => s :: lefts o
  | .both s :: o => s :: lefts o
  | .right _ :: o => lefts o

/-- the lines of the second text in the output -/
def rights : List Line → List (List Nat)
  | [] => []
  | .right s :: o => s :: rights o
  | .both s :: o => s :: rights o
  | .left _ :: o => rights o

end Pvxs.Spec.Txt
