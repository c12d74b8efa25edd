import Verif.Spec.TypeCode
/-! C19: type codes. -/
namespace Pvxs.Props
open Pvxs Spec

/-- a decidable statement about type codes holds for all of them once it holds for the 256 bytes -/
theorem forall_codes {P : TypeCode → Prop} [DecidablePred P]
    (h : ∀ n : Fin 256, P ⟨UInt8.ofFin n⟩) (c : TypeCode) : P c := by
  obtain ⟨b⟩ := c
  have := h b.toFin
  simpa using this

/-- C19: `valid()` accepts exactly the codes of supported field types. -/
theorem C19_valid_iff (c : TypeCode) : c.valid = true ↔ IsScalar c ∨ IsArray c := by
  revert c; exact forall_codes (by decide +kernel)

/-- C19: `isarray()` tells array types from scalar types. -/
theorem C19_isarray (c : TypeCode) : (IsArray c → c.isarray = true) ∧ (IsScalar c → c.isarray = false) := by
  revert c; exact forall_codes (by decide +kernel)

/-- C19: on scalar types `arrayOf` gives the corresponding array type; on array types it changes nothing. -/
theorem C19_arrayOf (c : TypeCode) :
    (IsScalar c → ArrayTypeOf c c.arrayOf) ∧ (IsArray c → c.arrayOf = c) := by
  revert c; exact forall_codes (by decide +kernel)

/-- C19: on array types `scalarOf` gives the corresponding scalar type; on scalar types it changes nothing. -/
theorem C19_scalarOf (c : TypeCode) :
    (IsArray c → ArrayTypeOf c.scalarOf c) ∧ (IsScalar c → c.scalarOf = c) := by
  revert c; exact forall_codes (by decide +kernel)

/-- C19: the conversions are mutually inverse. -/
theorem C19_inverse (c : TypeCode) :
    (IsScalar c → c.arrayOf.scalarOf = c) ∧ (IsArray c → c.scalarOf.arrayOf = c) := by
  revert c; exact forall_codes (by decide +kernel)

/-- C19: they never leave the set of supported types, and keep kind, element size and signedness (any byte). -/
theorem C19_preserve (c : TypeCode) :
    (c.valid = true → c.arrayOf.valid = true ∧ c.scalarOf.valid = true) ∧
    c.arrayOf.kind = c.kind ∧ c.scalarOf.kind = c.kind ∧
    c.arrayOf.size = c.size ∧ c.scalarOf.size = c.size ∧
    c.arrayOf.isunsigned = c.isunsigned ∧ c.scalarOf.isunsigned = c.isunsigned := by
  revert c; exact forall_codes (by decide +kernel)

/-- C19: element size and signedness are as documented for every field type with a fixed element size. -/
theorem C19_size : ∀ r ∈ fieldTypes, ∀ n, r.2.2.1 = some n →
    (⟨r.1⟩ : TypeCode).size = n ∧ (⟨r.1⟩ : TypeCode).isunsigned = r.2.2.2 := by
  decide +kernel

/-- C19: every supported field type has a storage class (no exception), and only those with storage `array` are array
types. -/
theorem C19_storedAs (c : TypeCode) (h : c.valid = true) :
    ∃ s, c.storedAs = .ok s ∧ (s = .array ↔ IsArray c) := by
  have key : c.valid = true → (c.storedAs.isOk = true ∧ (c.storedAs = .ok .array ↔ IsArray c)) := by
    revert c; intro c _; revert c
    exact forall_codes (by decide +kernel)
  obtain ⟨h1, h2⟩ := key h
  cases hs : c.storedAs with
  | ok s => exact ⟨s, rfl, by rw [hs] at h2; rw [← h2]; simp⟩
  | throws w => rw [hs] at h1; simp [Res.isOk] at h1
  | ub => rw [hs] at h1; simp [Res.isOk] at h1

/-- C19: the name printed for a supported field type identifies it. -/
theorem C19_name_injective (a b : TypeCode) (ha : a.valid = true) (hb : b.valid = true) (h : a.name = b.name) :
    a = b := by
  have mem : ∀ c : TypeCode, c.valid = true → c ∈ (fieldTypes.flatMap fun r => [(⟨r.1⟩ : TypeCode), ⟨r.2.1⟩]) :=
    forall_codes (by decide +kernel)
  have tab : ∀ a ∈ (fieldTypes.flatMap fun r => [(⟨r.1⟩ : TypeCode), ⟨r.2.1⟩]),
      ∀ b ∈ (fieldTypes.flatMap fun r => [(⟨r.1⟩ : TypeCode), ⟨r.2.1⟩]), a.name = b.name → a = b := by
    decide +kernel
  exact tab a (mem a ha) b (mem b hb) h

/-- Observation: the default type code `Null`, which the source lists among the valid ones, is not `valid()`. -/
theorem C19_null_not_valid : TypeCode.Null.valid = false := by decide

example : IsScalar .UInt16 ∧ IsArray .UInt16A ∧ TypeCode.UInt16.valid = true ∧ TypeCode.UInt16.arrayOf = .UInt16A := by
  decide

end Pvxs.Props
