import Verif.Model.Vct
/-
Networks (C116).
-/
namespace Pvxs.Spec.Vct
open Pvxs Pvxs.Vct

/-- the first `n` bits of both addresses are the same: `a` is in the network `net/n` -/
def InNet (n : Nat) (net a : BitVec 32) : Prop := a.toNat / 2 ^ (32 - n) = net.toNat / 2 ^ (32 - n)

end Pvxs.Spec.Vct
