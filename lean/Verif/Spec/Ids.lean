/-
What numbers of objects should be.
-/
namespace Pvxs.Spec.Ids

/-- no two entries have the same number, or are for the same object, and numbers have 32 bits -/
structure Distinct (tab : List (Nat × Nat)) : Prop where
  numbers : (tab.map (·.1)).Nodup
  objects : (tab.map (·.2)).Nodup
  range : ∀ p ∈ tab, p.1 < 2 ^ 32

/-- the object `obj` has been given a number, which was free, and all others keep theirs -/
def Gives (before after : List (Nat × Nat)) (obj : Nat) : Prop :=
  ∃ id, id < 2 ^ 32 ∧ (∀ p ∈ before, p.1 ≠ id) ∧ (∀ p, p ∈ after ↔ p = (id, obj) ∨ p ∈ before)

end Pvxs.Spec.Ids
