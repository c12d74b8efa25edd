import Verif.Model.InstCount
/-
What is expected of the counters of instances.
-/
namespace Pvxs.Spec.InstCount

/-- each answer is the number of objects at that time (no answer before there was one) -/
def Exact (log : List (Option Nat × Nat)) : Prop := ∀ v n, (some v, n) ∈ log → v = n

/-- each answer is that number, or one less -/
def Close (log : List (Option Nat × Nat)) : Prop := ∀ v n, (some v, n) ∈ log → v = n ∨ v + 1 = n

/-- where there are objects there is an answer -/
def Listed (log : List (Option Nat × Nat)) : Prop := ∀ n, (none, n) ∈ log → n = 0

end Pvxs.Spec.InstCount
