import Verif.Spec.BitMask
import Verif.Model.Value
import Verif.Spec.TypeDesc
/-
Specification vocabulary for values (C13, C14).
-/
namespace Pvxs.Spec
open Pvxs

/-- a float bit pattern which is a signalling NaN; the hardware turns it into a quiet one -/
def SignallingNaN (x : Nat) : Prop := x / 2 ^ 23 % 256 = 255 ∧ 0 < x % 2 ^ 23 ∧ x % 2 ^ 23 < 2 ^ 22

/-- a type which can be described to a peer: built from an accepted definition, at most 21 levels deep -/
def Sendable (t : List FieldDesc) : Prop :=
  ∃ m : Member, Validated m ∧ FitsWire m ∧ levels m ≤ 21 ∧ build m = .ok t

mutual
/-- `v` is a value its type allows: it has been constructed, each field holds content of its own type, in range -/
def ValOK (v : Val) : Prop :=
  match v with
  | .null => False
  | .mk t cs => (newValue t).isOk = true ∧ nodesOf t = t ∧ t ≠ [] ∧ CellsOK t cs
def CellsOK (t : List FieldDesc) (cs : List Cell) : Prop :=
  match t, cs with
  | [], [] => True
  | d :: t, .mk _ x :: cs => DatumOK d x ∧ CellsOK t cs
  | _, _ => False
def DatumOK (d : FieldDesc) (x : Datum) : Prop :=
  match x with
  | .null => d.code = .Struct
  | .real b => (d.code = .Float64 ∧ b < 2 ^ 64) ∨
      (d.code = .Float32 ∧ ∃ f, f < 2 ^ 32 ∧ ¬ SignallingNaN f ∧ b = widen f)
  | .int v => (d.code = .Int8 ∧ -2 ^ 7 ≤ v ∧ v < 2 ^ 7) ∨ (d.code = .Int16 ∧ -2 ^ 15 ≤ v ∧ v < 2 ^ 15) ∨
      (d.code = .Int32 ∧ -2 ^ 31 ≤ v ∧ v < 2 ^ 31) ∨ (d.code = .Int64 ∧ -2 ^ 63 ≤ v ∧ v < 2 ^ 63)
  | .uint v => (d.code = .UInt8 ∧ v < 2 ^ 8) ∨ (d.code = .UInt16 ∧ v < 2 ^ 16) ∨
      (d.code = .UInt32 ∧ v < 2 ^ 32) ∨ (d.code = .UInt64 ∧ v < 2 ^ 64)
  | .bool _ => d.code = .Bool
  | .str s => d.code = .String ∧ s.length < 2 ^ 32
  | .unionNull => d.code = .Union
  | .union i v => d.code = .Union ∧ i < 2 ^ 32 ∧ ValOK v ∧
      ∃ p, d.miter[i]? = some p ∧ v.desc = subTable d.members p.2
  | .any v => d.code = .Any ∧ AnyOK v
  | .pods vs => vs.length < 2 ^ 32 ∧ (
      ((d.code = .BoolA) ∧ ∀ x ∈ vs, x < 2) ∨
      ((d.code = .Int8A ∨ d.code = .UInt8A) ∧ ∀ x ∈ vs, x < 2 ^ 8) ∨
      ((d.code = .Int16A ∨ d.code = .UInt16A) ∧ ∀ x ∈ vs, x < 2 ^ 16) ∨
      ((d.code = .Int32A ∨ d.code = .UInt32A ∨ d.code = .Float32A) ∧ ∀ x ∈ vs, x < 2 ^ 32) ∨
      ((d.code = .Int64A ∨ d.code = .UInt64A ∨ d.code = .Float64A) ∧ ∀ x ∈ vs, x < 2 ^ 64))
  | .strs ss => d.code = .StringA ∧ ss.length < 2 ^ 32 ∧ ∀ s ∈ ss, s.length < 2 ^ 32
  | .vals vs => vs.length < 2 ^ 32 ∧ ((d.code = .StructA ∧ SameElemsOK d.members vs) ∨
      (d.code = .UnionA ∧ (∃ u, d.members = [u] ∧ u.code = .Union) ∧ SameElemsOK d.members vs) ∨
      (d.code = .AnyA ∧ AnyElemsOK vs))
/-- an Any is empty or holds a value of a type which can be described -/
def AnyOK (v : Val) : Prop :=
  match v with
  | .null => True
  | .mk t cs => Sendable t ∧ ((newValue t).isOk = true ∧ nodesOf t = t ∧ t ≠ []) ∧ CellsOK t cs
/-- elements of a Struct[] or Union[] are null or values of the element type -/
def SameElemsOK (t : List FieldDesc) (vs : List Val) : Prop :=
  match vs with
  | [] => True
  | .null :: vs => SameElemsOK t vs
  | .mk t' cs :: vs => (t' = t ∧ (newValue t).isOk = true ∧ nodesOf t = t ∧ t ≠ [] ∧ CellsOK t' cs) ∧ SameElemsOK t vs
def AnyElemsOK (vs : List Val) : Prop :=
  match vs with
  | [] => True
  | v :: vs => AnyOK v ∧ AnyElemsOK vs
end

mutual
/-- how deep values are nested in each other (Union choices, Any, elements of arrays of those and of Struct[]) -/
def nesting (v : Val) : Nat :=
  match v with
  | .null => 0
  | .mk _ cs => 1 + nestingCells cs
def nestingCells (cs : List Cell) : Nat :=
  match cs with
  | [] => 0
  | .mk _ x :: cs => max (nestingDatum x) (nestingCells cs)
def nestingDatum (x : Datum) : Nat :=
  match x with
  | .union _ v => nesting v
  | .any v => nesting v
  | .vals vs => nestingVals vs
  | _ => 0
def nestingVals (vs : List Val) : Nat :=
  match vs with
  | [] => 0
  | v :: vs => max (nesting v) (nestingVals vs)
end

mutual
/-- the value without its marks -/
def unmarked (v : Val) : Val :=
  match v with
  | .null => .null
  | .mk t cs => .mk t (unmarkedCells cs)
def unmarkedCells (cs : List Cell) : List Cell :=
  match cs with
  | [] => []
  | .mk _ x :: cs => .mk false (unmarkedDatum x) :: unmarkedCells cs
def unmarkedDatum (x : Datum) : Datum :=
  match x with
  | .union i v => .union i (unmarked v)
  | .any v => .any (unmarked v)
  | .vals vs => .vals (unmarkedVals vs)
  | x => x
def unmarkedVals (vs : List Val) : List Val :=
  match vs with
  | [] => []
  | v :: vs => unmarked v :: unmarkedVals vs
end

mutual
/-- what the receiver of `v` holds: the same types and the same content; in a structure every field which is not itself a
structure is marked, and nothing else; the elements of a Union[] are replaced by what they select -/
def received (v : Val) : Val :=
  match v with
  | .null => .null
  | .mk t cs => .mk t (receivedCells (isStruct t) t cs)
def receivedCells (mark : Bool) (t : List FieldDesc) (cs : List Cell) : List Cell :=
  match t, cs with
  | d :: t, .mk _ x :: cs => .mk (mark && d.code != .Struct) (receivedDatum d x) :: receivedCells mark t cs
  | _, _ => []
def receivedDatum (d : FieldDesc) (x : Datum) : Datum :=
  match x with
  | .union i v => .union i (received v)
  | .any v => .any (received v)
  | .vals vs => .vals (if d.code = .UnionA then receivedChoices vs else receivedVals vs)
  | x => x
def receivedVals (vs : List Val) : List Val :=
  match vs with
  | [] => []
  | v :: vs => received v :: receivedVals vs
def receivedChoices (vs : List Val) : List Val :=
  match vs with
  | [] => []
  | .mk _ [.mk _ (.union _ w)] :: vs => received w :: receivedChoices vs
  | _ :: vs => .null :: receivedChoices vs
end

mutual
/-- no field of the value, at any depth, is a Union[] -/
def NoUnionArrays (v : Val) : Prop :=
  match v with
  | .null => True
  | .mk t cs => NoUnionArraysCells t cs
def NoUnionArraysCells (t : List FieldDesc) (cs : List Cell) : Prop :=
  match t, cs with
  | d :: t, .mk _ x :: cs => d.code ≠ .UnionA ∧ NoUnionArraysDatum x ∧ NoUnionArraysCells t cs
  | _, _ => True
def NoUnionArraysDatum (x : Datum) : Prop :=
  match x with
  | .union _ v => NoUnionArrays v
  | .any v => NoUnionArrays v
  | .vals vs => NoUnionArraysVals vs
  | _ => True
def NoUnionArraysVals (vs : List Val) : Prop :=
  match vs with
  | [] => True
  | v :: vs => NoUnionArrays v ∧ NoUnionArraysVals vs
end

/-! ### partial updates -/

/-- node `i` of a structure is part of the sub-structure at node `b` (possibly `b` itself): the sub-structure occupies
`size` consecutive nodes -/
def Within (t : List FieldDesc) (b i : Nat) : Prop := ∃ d, t[b]? = some d ∧ b ≤ i ∧ i < b + d.size

/-- the sender has marked node `i`, and the mask (if any) includes it -/
def Picked (mask : Option BitMask) (cs : List Cell) (i : Nat) : Prop :=
  (∃ c, cs[i]? = some c ∧ c.valid = true) ∧ ∀ m, mask = some m → Has m i

/-- node `i` is to be sent: it is picked, or part of a sub-structure which is picked -/
def Transferred (mask : Option BitMask) (t : List FieldDesc) (cs : List Cell) (i : Nat) : Prop :=
  ∃ b, Picked mask cs b ∧ Within t b i

/-- node `i` is picked, and no enclosing sub-structure is -/
def Outermost (mask : Option BitMask) (t : List FieldDesc) (cs : List Cell) (i : Nat) : Prop :=
  Picked mask cs i ∧ ∀ b, Picked mask cs b → Within t b i → b = i

end Pvxs.Spec
