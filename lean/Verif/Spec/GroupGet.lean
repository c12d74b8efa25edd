import Verif.Model.GroupGet
/-
Specification for C91: what a client which gets a group is told.
-/
namespace Pvxs.Spec.GroupGet
open Pvxs.GroupGet
open Pvxs.Group (MapType)
open Pvxs.GroupMon (Part Item)

/-- the parts of a field which a client gets (documentation/qgroup.rst, "+type") -/
inductive Shown : MapType → Part → Prop where
  | scalar (p : Part) : Shown .scalar p
  | plain : Shown .plain .value
  | any : Shown .any .value
  | metadata : Shown .metadata .alarm
  | const : Shown .const .value

/-- part `p` of field number `i` is `x`, if the records are as in `D` -/
inductive Is (E : Env) (fs : List GField) (D : Nat → Nat) (i : Nat) (p : Part) (x : Nat) : Prop where
  | const {f} : fs[i]? = some f → f.type = .const → p = .value → x = f.cval → Is E fs D i p x
  | form {f} : fs[i]? = some f → f.type = .scalar → p = .form → x = E.form i → Is E fs D i p x
  | record {f r} : fs[i]? = some f → f.type ≠ .const → Shown f.type p → p ≠ .form → f.chan = some r → x = E.data i p (D r) → Is E fs D i p x

/-- the reply says how it was done -/
def Says (v : List (Item × Nat)) (atomic : Bool) : Prop :=
  ∀ x, (Item.options, x) ∈ v ↔ x = if atomic then 1 else 0

/-- a group as it can be loaded (C67): only a constant or a structure has no channel -/
def Loaded (fs : List GField) : Prop := ∀ f ∈ fs, f.type ≠ .const → f.type ≠ .struct → f.chan ≠ none

/-- at most once -/
def Once (v : List (Item × Nat)) : Prop := (v.map (·.1)).Nodup

end Pvxs.Spec.GroupGet
