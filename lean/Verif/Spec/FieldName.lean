import Verif.Model.SMap
import Verif.Model.FieldName
/-
How the field names of a group are written (documentation/qgroup.rst): names separated by dots, each of which may be followed by an
index in brackets, e.g. `a.b[1].c`.
-/
namespace Pvxs.Spec.FieldName
open Wire (Byte)

/-- decimal digits, with no sign, space, or leading zero -/
inductive Dec : Str → Nat → Prop where
  | one {d : Nat} : d < 10 → Dec [UInt8.ofNat (0x30 + d)] d
  | more {s : Str} {n d : Nat} : Dec s n → 0 < n → d < 10 → Dec (s ++ [UInt8.ofNat (0x30 + d)]) (10 * n + d)

/-- one part of a name: with an index or without -/
inductive Part : Str → Str → Option Nat → Prop where
  | plain {n : Str} : n ≠ [] → (0x2e : Byte) ∉ n → n.getLast? ≠ some 0x5d → Part n n none
  | index {n ds : Str} {i : Nat} : (0x2e : Byte) ∉ n → Dec ds i → i < 2 ^ 32 - 1 → Part (n ++ [0x5b] ++ ds ++ [0x5d]) n (some i)

/-- a name: its parts, with a dot between any two of them -/
inductive Name : Str → List (Str × Option Nat) → Prop where
  | one {s n : Str} {i : Option Nat} : Part s n i → Name s [(n, i)]
  | more {s n t : Str} {i : Option Nat} {l : List (Str × Option Nat)} : Part s n i → Name t l → Name (s ++ [0x2e] ++ t) ((n, i) :: l)

/-- what the program stores for them -/
def comps (l : List (Str × Option Nat)) : List Pvxs.FieldName.Comp :=
  l.map fun p => match p.2 with
    | none => { name := p.1 }
    | some i => { name := p.1, index := i }

end Pvxs.Spec.FieldName
