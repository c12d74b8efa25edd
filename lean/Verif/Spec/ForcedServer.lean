import Verif.Model.ForcedServer
/-
Where channels may be created.
-/
namespace Pvxs.Spec.ForcedServer
open Pvxs.ForcedServer

/-- the server of channel `cid` as given by the application when it was made -/
def Given (s : St) (cid server : Nat) : Prop := ∃ c, s.chans cid = some c ∧ c.forced = some server

/-- no server refuses a channel for which it was given -/
def NoneRefused (l : List Op) : Prop := ∀ l1 l2 cid, l = l1 ++ .refused cid :: l2 → ∀ f, ¬Given (run l1) cid f

end Pvxs.Spec.ForcedServer
