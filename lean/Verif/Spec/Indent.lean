import Verif.Model.Indent
/-
What is expected of the indentation of streams.
-/
namespace Pvxs.Spec.Indent
open Pvxs.Indent

/-- the sum of the depths of the Indented objects of a stream -/
def total (strm : Nat) : List Obj → Int
  | [] => 0
  | o :: l => (if o.kind = .indent ∧ o.strm = strm then o.val else 0) + total strm l

/-- within a scope: an Indented adds to the indentation, a Detailed sets the level -/
def inner (k : Kind) (outer v : Int) : Int :=
  match k with
  | .indent => outer + v
  | .detail => v

end Pvxs.Spec.Indent
