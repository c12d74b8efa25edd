import Verif.Model.TypeDef
import Verif.Spec.TypeDesc
/-
Specification vocabulary for definitions of types (C80).
-/
namespace Pvxs.Spec.TypeDef
open Pvxs Spec

/-- may a member with this code have members of its own: Struct, Union, and arrays of them -/
def Holds (c : TypeCode) : Prop := c = .Struct ∨ c = .Union ∨ c = .StructA ∨ c = .UnionA

/-- Struct, Union, Any, and arrays of them -/
def Compound (c : TypeCode) : Prop := Holds c ∨ c = .Any ∨ c = .AnyA

/-- The members `new` are the members `old` with the members `add` merged into them: each old member is in its old place, the added members which have a new
name follow in their order; a member of `old` whose name is not in `add` is unchanged, an added member with a new name is there as given; where both
have a member, the added one decides the code, and the id unless it has none, and their members are merged likewise. -/
inductive Merged : List Member → List Member → List Member → Prop
  | mk (old add new : List Member) (sub : Member → Member → List Member)
      (order : new.map Member.name = old.map Member.name ++ (add.map Member.name).filter (fun n => n ∉ old.map Member.name))
      (kept : ∀ c ∈ old, c.name ∉ add.map Member.name → c ∈ new)
      (added : ∀ a ∈ add, a.name ∉ old.map Member.name → a ∈ new)
      (deeper : ∀ c ∈ old, ∀ a ∈ add, c.name = a.name → Merged c.children a.children (sub c a))
      (joined : ∀ c ∈ old, ∀ a ∈ add, c.name = a.name →
        { code := a.code, name := c.name, id := if a.id = [] then c.id else a.id, children := sub c a } ∈ new) :
      Merged old add new

/-- the members `add` can be merged into the members `old`: where both have a member, both are Compound or neither is -/
inductive Mergeable : List Member → List Member → Prop
  | mk (old add : List Member)
      (kind : ∀ c ∈ old, ∀ a ∈ add, c.name = a.name → (Compound c.code ↔ Compound a.code))
      (deeper : ∀ c ∈ old, ∀ a ∈ add, c.name = a.name → Mergeable c.children a.children) : Mergeable old add

/-- no member which has members becomes one which can not have members -/
inductive KeepsMembers : List Member → List Member → Prop
  | mk (old add : List Member)
      (holds : ∀ c ∈ old, ∀ a ∈ add, c.name = a.name → c.children ≠ [] → Holds a.code)
      (id : ∀ c ∈ old, ∀ a ∈ add, c.name = a.name → c.id ≠ [] → Holds a.code)
      (deeper : ∀ c ∈ old, ∀ a ∈ add, c.name = a.name → KeepsMembers c.children a.children) : KeepsMembers old add

/-- the two definitions differ at most in the name of the outermost member -/
def SameDef (m m' : Member) : Prop := m.code = m'.code ∧ m.id = m'.id ∧ m.children = m'.children

end Pvxs.Spec.TypeDef
