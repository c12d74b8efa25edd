import Verif.Spec.ValueOps
import Verif.Model.LinkMeta
/-
Specification vocabulary for the metadata of a PVA link (C102).
-/
namespace Pvxs.Spec.LinkMeta
open Pvxs Pvxs.ArrayConv Pvxs.NT Pvxs.LinkMeta

/-- the link has a target, and selects this structure in it -/
structure Selects (l : Link) (t : List FieldDesc) (cs : List Cell) (i : Nat) : Prop where
  connected : l.connected = true
  root : l.root = some ⟨t, cs, i⟩
  usable : Usable t
  struct : ∃ d, t[i]? = some d ∧ d.code = .Struct

/-- a number, as the nearest double -/
inductive Number : Datum → Nat → Prop
  | real (b : Nat) : Number (.real b) b
  | int (v : Int) : Number (.int v) (realOfInt 52 1023 63 v)
  | uint (n : Nat) : Number (.uint n) (realOfInt 52 1023 63 n)

/-- the content of the member with this path -/
def Has (t : List FieldDesc) (cs : List Cell) (i : Nat) (path : List Str) (x : Datum) : Prop := ∃ j, Descends t i path j ∧ datumAt cs j = x

/-- there is no such member -/
def Lacks (t : List FieldDesc) (i : Nat) (path : List Str) : Prop := ∀ ps j, joinDots ps = joinDots path → ¬ Descends t i ps j

/-- `new` is what the caller gets where it asked for the number at `path` -/
def Reports (t : List FieldDesc) (cs : List Cell) (i : Nat) (path : List Str) (new : Option Nat) : Prop :=
  ∀ x b, Has t cs i path x → Number x b → new = some b

end Pvxs.Spec.LinkMeta
