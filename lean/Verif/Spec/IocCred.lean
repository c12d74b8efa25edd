import Verif.Model.IocCred
/-! Specification for C75 -/
namespace Pvxs.Spec.IocCred
open Pvxs Pvxs.IocCred

/-- `g` is the name of a group the account belongs to, on this host -/
def InGroup (s : Sys) (account g : Str) : Prop :=
  ∃ name gid, s.pwnam account = some (name, gid) ∧ ∃ i, (i = gid ∨ i ∈ s.groups name gid) ∧ s.grgid i = some g

/-- there is such an account on this host -/
def Known (s : Sys) (account : Str) : Prop := (s.pwnam account).isSome = true

/-- `n` is the last part of a path with '/' -/
def LastPart (path n : Str) : Prop := 0x2f ∉ n ∧ (path = n ∨ ∃ p, path = p ++ 0x2f :: n)

/-- a client "role/g", where g is a group it belongs to -/
def isRole (g : Str) : Str := [0x72, 0x6f, 0x6c, 0x65, 0x2f] ++ g

end Pvxs.Spec.IocCred
