import Verif.Model.RecordVal
/-
What it means that a field of a record holds a value, stated without the functions which put and read it.
-/
namespace Pvxs.Spec.RecVal
open Pvxs Wire Pvxs.RecVal

/-- the bytes of an element of a numeric field, and whether it is signed -/
def intWidth : Dbr → Option (Nat × Bool)
  | .char => some (1, true)
  | .uchar => some (1, false)
  | .short => some (2, true)
  | .ushort => some (2, false)
  | .long => some (4, true)
  | .ulong => some (4, false)
  | .int64 => some (8, true)
  | .uint64 => some (8, false)
  | .enum => some (2, false)
  | _ => none

/-- the type of one element, seen by a client -/
def codeOf : Dbr → TypeCode
  | .char => .Int8
  | .uchar => .UInt8
  | .short => .Int16
  | .ushort => .UInt16
  | .long => .Int32
  | .ulong => .UInt32
  | .int64 => .Int64
  | .uint64 => .UInt64
  | .enum => .UInt16
  | .float => .Float32
  | .double => .Float64
  | .string => .String

/-- the type of an array of such elements -/
def arrayCodeOf : Dbr → TypeCode
  | .char => .Int8A
  | .uchar => .UInt8A
  | .short => .Int16A
  | .ushort => .UInt16A
  | .long => .Int32A
  | .ulong => .UInt32A
  | .int64 => .Int64A
  | .uint64 => .UInt64A
  | .enum => .UInt16A
  | .float => .Float32A
  | .double => .Float64A
  | .string => .StringA

/-- a signalling not-a-number -/
def Signalling (f : Nat) : Prop := f / 2 ^ 23 % 256 = 255 ∧ 0 < f % 2 ^ 23 ∧ f % 2 ^ 23 < 2 ^ 22

/-- the bit pattern `x` of an element stands for this number: two's complement; a float is held as the double of the same value -/
def IsNumber (t : Dbr) (x : Nat) (d : Datum) : Prop :=
  match t with
  | .float => x < 2 ^ 32 ∧ ¬Signalling x ∧ d = .real (widen x)
  | .double => d = .real x
  | t => match intWidth t with
    | some (w, true) => ∃ v : Int, d = .int v ∧ -((256 ^ w : Nat) : Int) ≤ 2 * v ∧ 2 * v < ((256 ^ w : Nat) : Int) ∧ (x : Int) = v % ((256 ^ w : Nat) : Int)
    | some (w, false) => x < 256 ^ w ∧ d = .uint x
    | none => False

/-- no NUL in it -/
def Clean (s : Str) : Prop := (0 : UInt8) ∉ s

/-- a text which begins a buffer, up to the first NUL or its end -/
def Begins (s : Str) (b : List Nat) : Prop :=
  Clean s ∧ (b = s.map UInt8.toNat ∨ ∃ rest, b = s.map UInt8.toNat ++ 0 :: rest)

/-- the field, which holds `st`, has the value `v`.  (An enum has an index if it is mapped as "scalar") -/
inductive Has (m : Mapping) (ch : Chan) : Store → PVal → Prop where
  /-- a number -/
  | num (x d) : ch.elems = 1 → ¬(m = .scalar ∧ ch.type = .enum) → IsNumber ch.type x d → Has m ch (.nums [x]) ⟨codeOf ch.type, d⟩
  /-- a choice -/
  | choice (i) : ch.elems = 1 → m = .scalar → ch.type = .enum → i < 65536 → Has m ch (.nums [i]) ⟨.Int32, .int (i : Int)⟩
  /-- a string of at most 39 bytes -/
  | string (s) : ch.elems = 1 → ch.type = .string → Clean s → s.length < min ch.size 40 → Has m ch (.strs [s]) ⟨.String, .str s⟩
  /-- a long string, and its NUL -/
  | long (s b) : ch.type = .char → ch.elems ≠ 1 → ch.text = true → s.length < ch.elems → Begins s b → b.length ≤ ch.elems → Has m ch (.nums b) ⟨.String, .str s⟩
  /-- an array of numbers -/
  | array (xs) : ch.elems ≠ 1 → ch.type ≠ .string → ¬(ch.type = .char ∧ ch.text = true) → ¬(m = .scalar ∧ ch.type = .enum) → xs.length ≤ ch.elems →
      Has m ch (.nums xs) ⟨arrayCodeOf ch.type, .pods xs⟩
  /-- an array of strings -/
  | strings (ss) : ch.elems ≠ 1 → ch.type = .string → ss.length ≤ ch.elems → (∀ s ∈ ss, Clean s ∧ s.length < min ch.size 40) →
      Has m ch (.strs ss) ⟨.StringA, .strs ss⟩

/-- a field which can hold this value, and nothing else after it -/
def CanHold (m : Mapping) (ch : Chan) (v : PVal) : Prop :=
  (∃ st, Has m ch st v) ∧
  -- an array of which it is not known how many elements are in use always has all of them
  ∀ xs, v.data = .pods xs → ch.counted = true ∨ xs.length = ch.elems

/-- what a field can hold at all -/
def Sized (ch : Chan) : Store → Prop
  | .nums xs => ch.type ≠ .string ∧ xs.length ≤ ch.elems ∧ (ch.counted = false → xs.length = ch.elems)
  | .strs ss => ch.type = .string ∧ ss.length ≤ ch.elems

end Pvxs.Spec.RecVal
