import Verif.Model.PutBuild
import Verif.Spec.ValueOps
/-
Specification for C79: what a put which is built with set() has to hold.
-/
namespace Pvxs.Spec.PutBuild
open Pvxs Pvxs.PutBuild

/-- the field a name stands for: `a.b.c`; the empty name is the whole -/
def Names (t : List FieldDesc) (name : Str) (k : Nat) : Prop :=
  (name = [] ∧ k = 0) ∨ (name ≠ [] ∧ ∃ ps, ps ≠ [] ∧ name = joinDots ps ∧ Descends t 0 ps k)

/-- a name, and no expression with `<`, `[` or `-` -/
def Plain (name : Str) : Prop := ∀ c ∈ name, c ≠ 0x3c ∧ c ≠ 0x5b ∧ c ≠ 0x2d

/-- what assignment of a value which is not a Struct to a new field makes of it (C17, C58) -/
def Converted (env : CopyEnv) (rec : Assign) (d : FieldDesc) (v : Val) (r : Res Datum) : Prop :=
  ∃ sd st m x cs, v = .mk (sd :: st) (.mk m x :: cs) ∧ sd.code ≠ .Struct ∧ copyDatum env rec d (initDatum d.code) sd.code x = r

/-- `a` is stored in field `k` as `x` -/
def Fits (env : CopyEnv) (rec : Assign) (t : List FieldDesc) (a : Arg) (k : Nat) (x : Datum) : Prop :=
  Names t a.name k ∧ ∃ d, t[k]? = some d ∧ Converted env rec d a.value (.ok x)

/-- there is no such field, or it cannot hold the value -/
def Misfits (env : CopyEnv) (rec : Assign) (t : List FieldDesc) (a : Arg) : Prop :=
  (∀ k, ¬ Names t a.name k) ∨ ∃ k d, Names t a.name k ∧ t[k]? = some d ∧ Converted env rec d a.value (.throws "NoConvert")

end Pvxs.Spec.PutBuild
