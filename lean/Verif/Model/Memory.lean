import Verif.Model.Value
/-
What is allocated before it is known whether the bytes are there.
-/
namespace Pvxs.Memory
open Pvxs.Wire

/-- The number of elements for which `shared_array<E> arr(slen.size)` asks, before any element is read: src/pvaproto.h:522-528 (scalars and strings),
src/dataencode.cpp:607-610, :625-627, :657-659 (values).  Simplified: the size of one element. -/
def arrayAsks (i : In) : Nat := (getSize false i).1

/-- The number of members for which `fld.miter.reserve(nfld.size)` asks, before any is read: src/dataencode.cpp:141-150.  The position is after the code. -/
def membersAsks (i : In) : Nat := (getSize false (getStr i).2).1

end Pvxs.Memory
