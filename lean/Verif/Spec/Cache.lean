import Verif.Model.Cache
/-
Which channels operations get.
-/
namespace Pvxs.Spec.Cache
open Pvxs.Cache

/-- the channel for this is dropped, whether used or not -/
def Drops (k : Key) : Op → Prop
  | .pass name a => a ≠ .clean ∧ (name = [] ∨ name = k.1)
  | .clear name a => a ≠ .clean ∧ (name = [] ∨ name = k.1)
  | .close => True
  | _ => False

/-- which operations got which channels -/
def built (r : List Eff × St) : List (Key × Nat) := r.1.filterMap (·.built)

/-- an operation on this channel is there -/
def InUse (s : St) (id : Nat) : Prop := id ∈ s.refs

end Pvxs.Spec.Cache
