import Verif.Model.GroupConf
import Verif.Spec.FieldName
/-
What a group definition means (documentation/qgroup.rst).
-/
namespace Pvxs.Spec.Group
open Pvxs.Group (FieldConf MapType)
open Wire (Byte)

/-- `n` is one of the comma separated names in the text `t`.  (What follows a comma at the very end is no name.) -/
def Listed (t n : Str) : Prop :=
  (0x2c : Byte) ∉ n ∧ ∃ a b, t = a ++ n ++ b ∧ (a = [] ∨ a.getLast? = some 0x2c) ∧ (b = [] ∨ b.head? = some 0x2c) ∧ (n ≠ [] ∨ b ≠ [])

/-- the field `n` of the definition, with this configuration, is part of the group: at the top there can only be meta-data -/
def IsField (g : List (Str × FieldConf)) (n : Str) (c : FieldConf) : Prop := (n, c) ∈ g ∧ (n ≠ [] ∨ c.type = .metadata)

/-- the same, as a test -/
def isIn (f : Str × FieldConf) : Bool := !(f.1 == [] && f.2.type != .metadata)

/-- the field is mapped to a record: structure and const mappings are not, whatever `+channel` says -/
def Mapped (c : FieldConf) : Prop := c.channel ≠ [] ∧ c.type ≠ .struct ∧ c.type ≠ .const

/-- some field has a `+trigger` -/
def AnyTrigger (g : List (Str × FieldConf)) : Prop := ∃ n c, IsField g n c ∧ c.trigger ≠ []

/-- an event of the field `n`, which is mapped to a record, updates the field `m` -/
def Updates (g : List (Str × FieldConf)) (n m : Str) : Prop :=
  ∃ c d, IsField g n c ∧ Mapped c ∧ IsField g m d ∧ Mapped d ∧
    ((AnyTrigger g ∧ (Listed c.trigger [0x2a] ∨ Listed c.trigger m)) ∨ (¬ AnyTrigger g ∧ m = n))

/-- the field has what its mapping needs -/
def Complete (c : FieldConf) : Prop := c.channel ≠ [] ∨ c.type = .struct ∨ c.type = .const

/-- a name which is written as documented, or that of the group itself -/
def GoodName (n : Str) : Prop := n = [] ∨ ∃ l, FieldName.Name n l

/-- `+putorder` is never less, and comes after every field which has none -/
def Before : Option Int → Option Int → Prop
  | none, _ => True
  | some _, none => False
  | some a, some b => a ≤ b

end Pvxs.Spec.Group
