import Verif.Model.Alive
/-
A network which is not slower than some bound.
-/
namespace Pvxs.Spec.Alive
open Pvxs.Alive

/-- time does not go on beyond `d` after a message was sent while the one it is for waits, nor after a side accepted or closed the
connection while the other waits to be told -/
def Waits (d t : Nat) (s : State) : Prop :=
  (match s.srv with
    | .open_ => (∀ m ∈ s.toServer, t ≤ m.sent + d) ∧ (∀ a, s.phase = .closed a → t ≤ a + d) ∧ (∀ a, s.phase = .connecting a → t ≤ s.rxS + d)
    | _ => True) ∧
  (match s.phase with
    | .connected => (∀ m ∈ s.toClient, t ≤ m.sent + d) ∧ (∀ a, s.srv = .closed a → t ≤ a + d)
    | _ => True)

/-- a message takes at most `d` to its receiver, the time until it is read and handled included, and so does news of the connection itself -/
def Prompt (c : Conf) (d : Nat) (s : State) : List Ev → Prop
  | [] => True
  | e :: es => (∀ t, e = .pass t → Waits d t s) ∧ ∀ s', step c s e = some s' → Prompt c d s' es

/-- the connection is made and neither side has given it up -/
def Up (s : State) : Prop := s.phase = .connected ∧ s.srv = .open_

end Pvxs.Spec.Alive
