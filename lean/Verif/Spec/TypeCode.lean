import Verif.Model.TypeCode
/-
Specification for type codes, from the protocol document and the API documentation: which bytes are field types, and
which pairs are "scalar T" / "array of T".
-/
namespace Pvxs.Spec
open Pvxs

/-- (scalar code, array code, element size in bytes when fixed, unsigned?) of every field type PVXS supports -/
def fieldTypes : List (UInt8 × UInt8 × Option Nat × Bool) :=
  [ (0x00, 0x08, some 1, false),                                    -- bool
    (0x20, 0x28, some 1, false), (0x21, 0x29, some 2, false), (0x22, 0x2a, some 4, false), (0x23, 0x2b, some 8, false),
    (0x24, 0x2c, some 1, true),  (0x25, 0x2d, some 2, true),  (0x26, 0x2e, some 4, true),  (0x27, 0x2f, some 8, true),
    (0x42, 0x4a, some 4, false), (0x43, 0x4b, some 8, false),       -- float, double
    (0x60, 0x68, none, false),                                      -- string
    (0x80, 0x88, none, false), (0x81, 0x89, none, false), (0x82, 0x8a, none, false) ]  -- struct, union, any

/-- `c` is the code of some supported scalar (or struct/union/any) field type -/
def IsScalar (c : TypeCode) : Prop := ∃ a s u, (c.code, a, s, u) ∈ fieldTypes
/-- `c` is the code of some supported array field type -/
def IsArray (c : TypeCode) : Prop := ∃ b s u, (b, c.code, s, u) ∈ fieldTypes
/-- `a` is the "array of `c`" type -/
def ArrayTypeOf (c a : TypeCode) : Prop := ∃ s u, (c.code, a.code, s, u) ∈ fieldTypes

instance (c : TypeCode) : Decidable (IsScalar c) :=
  decidable_of_iff (fieldTypes.any (fun r => r.1 == c.code) = true) (by
    simp only [IsScalar, List.any_eq_true, beq_iff_eq]
    constructor
    · rintro ⟨⟨b, a, s, u⟩, hm, h⟩; exact ⟨a, s, u, by rw [← h]; exact hm⟩
    · rintro ⟨a, s, u, h⟩; exact ⟨_, h, rfl⟩)

instance (c : TypeCode) : Decidable (IsArray c) :=
  decidable_of_iff (fieldTypes.any (fun r => r.2.1 == c.code) = true) (by
    simp only [IsArray, List.any_eq_true, beq_iff_eq]
    constructor
    · rintro ⟨⟨b, a, s, u⟩, hm, h⟩; exact ⟨b, s, u, by rw [← h]; exact hm⟩
    · rintro ⟨a, s, u, h⟩; exact ⟨_, h, rfl⟩)

instance (c a : TypeCode) : Decidable (ArrayTypeOf c a) :=
  decidable_of_iff (fieldTypes.any (fun r => r.1 == c.code && r.2.1 == a.code) = true) (by
    simp only [ArrayTypeOf, List.any_eq_true, Bool.and_eq_true, beq_iff_eq]
    constructor
    · rintro ⟨⟨b, a', s, u⟩, hm, h1, h2⟩; exact ⟨s, u, by rw [← h1, ← h2]; exact hm⟩
    · rintro ⟨s, u, h⟩; exact ⟨_, h, rfl, rfl⟩)

end Pvxs.Spec
