import Verif.Spec.TypeDesc
/-
When a printed type can be read, and what "the same type" means where the printed form leaves something out.
-/
namespace Pvxs.Spec.TypeText

mutual
/-- no ID with a quotation mark, no name with a NUL -/
def Legible : Member → Prop
  | ⟨_, name, id, ch⟩ => (0x22 : UInt8) ∉ id ∧ (0 : UInt8) ∉ name ∧ LegibleAll ch
def LegibleAll : List Member → Prop
  | [] => True
  | m :: ms => Legible m ∧ LegibleAll ms
end

mutual
/-- the same codes, names, members in the same order and IDs, except for the IDs of those codes for which `ids` is false -/
inductive Same (ids : TypeCode → Prop) : Member → Member → Prop
  | mk (code : TypeCode) (name id id' : Str) (ch ch' : List Member) (hi : ids code → id = id') (hc : SameAll ids ch ch') :
      Same ids ⟨code, name, id, ch⟩ ⟨code, name, id', ch'⟩
inductive SameAll (ids : TypeCode → Prop) : List Member → List Member → Prop
  | nil : SameAll ids [] []
  | cons (m m' : Member) (ms ms' : List Member) (h : Same ids m m') (hs : SameAll ids ms ms') : SameAll ids (m :: ms) (m' :: ms')
end

/-- not an array of structures or unions -/
def NotArray (c : TypeCode) : Prop := c ≠ .StructA ∧ c ≠ .UnionA

mutual
/-- no array of structures or unions in the type has an ID -/
def NoArrayId : Member → Prop
  | ⟨code, _, id, ch⟩ => (NotArray code ∨ id = []) ∧ NoArrayIdAll ch
def NoArrayIdAll : List Member → Prop
  | [] => True
  | m :: ms => NoArrayId m ∧ NoArrayIdAll ms
end

end Pvxs.Spec.TypeText
