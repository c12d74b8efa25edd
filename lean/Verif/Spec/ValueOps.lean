import Verif.Model.ValueOps
import Verif.Spec.Value
/-
Specification vocabulary for the operations on values (C15-C18).
-/
namespace Pvxs.Spec
open Pvxs

/-- the types a program can come by: defined by it, received from a peer, or the type of a field, of a choice of a Union, or
of the elements of an array of one of those -/
inductive Obtained : List FieldDesc → Prop
  | built (m : Member) (t : List FieldDesc) (h : build m = .ok t) : Obtained t
  | decoded (msgs : List (Bool × List Wire.Byte)) (i : Wire.In) (t : List FieldDesc)
      (ht : (getTypeTop (afterMessages [] msgs) i).1.1 = t) (ok : (getTypeTop (afterMessages [] msgs) i).2.err = false)
      (hne : t ≠ []) : Obtained t
  | field (t : List FieldDesc) (i : Nat) (h : Obtained t) (ok : (newValue t).isOk = true) (hi : i < t.length) :
      Obtained (asRoot (subTable t i))
  | choice (t : List FieldDesc) (d : FieldDesc) (name : Str) (off : Nat) (h : Obtained t) (hd : d ∈ t) (hu : d.code = .Union)
      (hc : (name, off) ∈ d.miter) (ok : (newValue (d.members.drop off)).isOk = true) : Obtained (subTable d.members off)
  | elem (t : List FieldDesc) (d : FieldDesc) (h : Obtained t) (hd : d ∈ t) (ha : d.code = .StructA ∨ d.code = .UnionA) :
      Obtained d.members

/-- a type of which a value exists -/
def Usable (t : List FieldDesc) : Prop := Obtained t ∧ (newValue t).isOk = true

/-! ### marks -/

/-- the mark of a field -/
def Marked (h : Heap) (f : Field) : Prop := ∃ x, h[f.top]? = some x ∧ x.valid[f.pos]? = some true

/-- `f` is a node of a StructTop with a handle left -/
def Exists (h : Heap) (f : Field) : Prop := ∃ x, h[f.top]? = some x ∧ x.alive = true ∧ f.pos < x.desc.length

/-- `f` and `g` belong to one StructTop of type `t` -/
def SameTop (h : Heap) (f g : Field) (t : List FieldDesc) : Prop := f.top = g.top ∧ ∃ x, h[f.top]? = some x ∧ x.desc = t

/-- `g` is `f`, or below `f` in the same structure -/
def Below (h : Heap) (f g : Field) : Prop := ∃ t, SameTop h f g t ∧ Within t f.pos g.pos

/-- the storage `f` belongs to was created as content of `g`, or as content of such content, and so on; all of those still exist -/
inductive InsideOf (h : Heap) : Field → Field → Prop
  | one (f g : Field) (x y : Top) (hx : h[f.top]? = some x) (he : x.enclosing = some (g.top, g.pos)) (hy : h[g.top]? = some y)
      (ha : y.alive = true) : InsideOf h f g
  | more (f g g' : Field) (h1 : InsideOf h f g) (h2 : InsideOf h g g') : InsideOf h f g'

/-- operation `op` marks `f` -/
def SetsMark (h : Heap) (op : MarkOp) (f : Field) : Prop := ∃ g, op = .mark g true ∧ (f = g ∨ InsideOf h g f)

/-- operation `op` clears the mark of `f` -/
def ClearsMark (h : Heap) (op : MarkOp) (f : Field) : Prop :=
  op = .mark f false ∨
  ∃ g p c, op = .unmark g p c ∧ (f = g ∨ (c = true ∧ Below h g f) ∨ (p = true ∧ Below h f g))

/-- operations a program can perform: handles refer to existing storage, types are usable -/
def Legal (h : Heap) : MarkOp → Prop
  | .build t enc => Usable t ∧ ∀ f, enc = some f → Exists h f
  | .mark f _ => Exists h f
  | .unmark f _ _ => Exists h f
  | .drop i => ∃ x, h[i]? = some x ∧ x.alive = true

/-- each operation is legal when performed -/
def LegalRun : Heap → List MarkOp → Prop
  | _, [] => True
  | h, op :: ops => Legal h op ∧ LegalRun (markStep h op) ops

/-! ### iteration -/

mutual
/-- `ns` are the nodes below node `i`, depth first, siblings in order of declaration -/
inductive DepthFirst (t : List FieldDesc) : Nat → List Nat → Prop
  | leaf (i : Nat) (d : FieldDesc) (hd : t[i]? = some d) (hc : d.code ≠ .Struct) : DepthFirst t i []
  | struct (i : Nat) (d : FieldDesc) (ns : List Nat) (hd : t[i]? = some d) (hc : d.code = .Struct)
      (hk : DepthFirstKids t i d.miter ns) : DepthFirst t i ns
/-- the same, for some of the members -/
inductive DepthFirstKids (t : List FieldDesc) : Nat → List (Str × Nat) → List Nat → Prop
  | nil (i : Nat) : DepthFirstKids t i [] []
  | cons (i : Nat) (name : Str) (off : Nat) (more : List (Str × Nat)) (ns ms : List Nat)
      (h1 : DepthFirst t (i + off) ns) (h2 : DepthFirstKids t i more ms) :
      DepthFirstKids t i ((name, off) :: more) ((i + off) :: (ns ++ ms))
end

/-- node `j`, below node `i`, is covered by a mark: it, or a structure which contains it and is below `i`, is marked -/
def CoveredBelow (t : List FieldDesc) (valid : Nat → Bool) (i j : Nat) : Prop :=
  ∃ b, b ≠ i ∧ Within t i b ∧ valid b = true ∧ Within t b j

/-! ### assignment -/

/-- no member name contains one of the characters which mean something in a lookup expression: `<`, `[`, `-`.  Names given
by a program are limited to letters, digits and underscore. -/
def PlainNames (t : List FieldDesc) : Prop :=
  ∀ d ∈ t, ∀ p ∈ d.miter, ∀ c ∈ p.1, c ≠ 0x3c ∧ c ≠ 0x5b ∧ c ≠ 0x2d

/-- content which is not a Union; elements of arrays of Struct or Union were allocated from the type of the array, not
from another type with the same members -/
def CopiesWhole (env : CopyEnv) (d : FieldDesc) (x : Datum) : Prop :=
  d.code ≠ .Union ∧ ∀ vs, x = .vals vs → d.code ≠ .AnyA → ∀ t cs, Val.mk t cs ∈ vs → env.same t d.members = true

/-! ### lookup -/

/-- names joined by dots -/
def joinDots : List Str → Str
  | [] => []
  | [a] => a
  | a :: b :: l => a ++ [0x2e] ++ joinDots (b :: l)

/-- `j` is reached from node `i` by going to the member with the first name, from there to the member with the second, ... -/
inductive Descends (t : List FieldDesc) : Nat → List Str → Nat → Prop
  | here (i : Nat) : Descends t i [] i
  | member (i : Nat) (d : FieldDesc) (name : Str) (off : Nat) (more : List Str) (j : Nat) (hd : t[i]? = some d)
      (hc : d.code = .Struct) (hm : (name, off) ∈ d.miter) (h : Descends t (i + off) more j) : Descends t i (name :: more) j

end Pvxs.Spec
