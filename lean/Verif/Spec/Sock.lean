import Verif.Model.Sock
/-
What is expected of the ownership of sockets and of multicast datagrams.
-/
namespace Pvxs.Spec.Sock
open Pvxs.Sock

/-- no socket is closed twice -/
def Once (log : List Ev) : Prop := ∀ f, log.count (.closed f) ≤ 1

/-- no socket stays open -/
def AllClosed (log : List Ev) : Prop := ∀ f, .opened f ∈ log → .closed f ∈ log

/-- a multicast datagram has the time to live and the interface of its destination -/
def Right (num : Nat → Nat) (x : Sent) : Prop :=
  x.dest.mcast = true → x.opt.ttl = x.dest.ttl ∧ x.opt.iface = (match x.dest.iface with | some i => num i | none => 0)

end Pvxs.Spec.Sock
