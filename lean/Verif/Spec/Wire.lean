/-
Small specification vocabulary for the codec properties, independent of the helpers used in the proofs.
-/
import Verif.Model.Wire
namespace Pvxs.Spec
open Pvxs.Wire

/-- an empty growable output buffer of the given byte order -/
def fresh (be : Bool) : Out := { be := be }

/-- an input buffer holding `bs`, not faulted -/
def input (be : Bool) (bs : List Byte) : In := { be := be, rest := bs }

/-- "what `enc` writes is read back by `dec` as `a`":
* `enc` succeeds, and appends the same bytes whatever the buffer already holds;
* `dec` on those bytes followed by anything yields `a`, consuming exactly those bytes;
* `dec` faults on every strict prefix of those bytes. -/
structure RoundTrips (be : Bool) (enc : Out → Out) (dec : Dec α) (a : α) : Prop where
  ok      : (enc (fresh be)).err = false
  appends : ∀ pre, enc { fresh be with data := pre } = { fresh be with data := pre ++ (enc (fresh be)).data }
  reads   : ∀ rest, dec (input be ((enc (fresh be)).data ++ rest)) = (a, input be rest)
  whole   : ∀ p q, (enc (fresh be)).data = p ++ q → q ≠ [] → (dec (input be p)).2.err = true

/-- decoding whatever bytes: only a prefix of what is available is consumed; a buffer that has already faulted is
left exactly as it was (no bytes consumed); the fault cannot be cleared -/
structure StaysInside (dec : Dec α) : Prop where
  consumes : ∀ i, ∃ used, i.rest = used ++ (dec i).2.rest
  sticky   : ∀ i, i.err = true → (dec i).2 = i
  /-- on success the result depends only on the bytes consumed, not on what follows them -/
  local_   : ∀ be used rest, (dec (input be (used ++ rest))).2 = input be rest →
               ∀ rest', dec (input be (used ++ rest')) = ((dec (input be (used ++ rest))).1, input be rest')

/-- the `n` base-256 digits of `v`, most significant first -/
def digitsMSB (n v : Nat) : List Byte := (List.range n).map fun k => UInt8.ofNat (v / 256 ^ (n - 1 - k) % 256)

/-- ... least significant first -/
def digitsLSB (n v : Nat) : List Byte := (List.range n).map fun k => UInt8.ofNat (v / 256 ^ k % 256)

end Pvxs.Spec
