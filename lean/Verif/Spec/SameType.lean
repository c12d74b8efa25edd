import Verif.Spec.TypeDesc
/-
Specification for C57: when two definitions describe the same type.
-/
namespace Pvxs.Spec

mutual
/-- the same type code, and the same members: names, types, and order.  The name of the type itself (of the top), and ids, do not matter. -/
def SameShape : Member → Member → Prop
  | ⟨c, _, _, ch⟩, m' => c = m'.code ∧ SameKids ch m'.children
def SameKids : List Member → List Member → Prop
  | [], ms' => ms' = []
  | m :: ms, ms' => ∃ m' more, ms' = m' :: more ∧ m.name = m'.name ∧ SameShape m m' ∧ SameKids ms more
end

mutual
/-- no Union, or array of Unions, anywhere -/
def NoUnion : Member → Prop
  | ⟨c, _, _, ch⟩ => c ≠ .Union ∧ c ≠ .UnionA ∧ NoUnions ch
def NoUnions : List Member → Prop
  | [] => True
  | m :: ms => NoUnion m ∧ NoUnions ms
end

end Pvxs.Spec
