import Verif.Model.BitMask
/-! Specification vocabulary for bit masks. -/
namespace Pvxs.Spec
open Pvxs

/-- index `i` is in the mask, as seen through the API: below `size()` and `mask[i]` reads true -/
def Has (m : BitMask) (i : Nat) : Prop := i < m.size ∧ m.test i = some true

instance (m : BitMask) (i : Nat) : Decidable (Has m i) := inferInstanceAs (Decidable (_ ∧ _))

/-- A mask as built by the constructors, assignment of bits below the size, `&`, `|` and the decoder: enough storage for
its size, which fits a uint16_t (bitmask.h:96-98). -/
structure Valid (m : BitMask) : Prop where
  size16 : m.size < 2 ^ 16
  store  : m.words.length = (m.size + 63) / 64

/-- no index at or above the size is set in the storage -/
def NoTail (m : BitMask) : Prop := ∀ i, m.size ≤ i → m.test i ≠ some true

/-- `r` is the least member at or above `start`, or the size when there is none -/
def IsNext (m : BitMask) (start r : Nat) : Prop :=
  (Has m r ∧ start ≤ r ∧ ∀ i, start ≤ i → i < r → ¬ Has m i) ∨
  (r = m.size ∧ ∀ i, start ≤ i → ¬ Has m i)

end Pvxs.Spec
