import Verif.Model.Shell
/-
The difference of two sets of counters, and the channels which belong to a record (C114).
-/
namespace Pvxs.Spec.Shell
open Pvxs Pvxs.Shell

/-- the keys of a std::map ascend -/
def IsMap (m : SMap α) : Prop := m.Pairwise fun a b => strLt a.1 b.1 = true

/-- the count of one kind of object; one which is not listed has none -/
def count (m : SMap Nat) (k : Str) : Int := ((m.find? k).getD 0 : Nat)

/-- a link to show -/
def Shown (glob : Option (Str → Bool)) (l : Option Str) : Bool := match glob, l with
  | none, _ => true
  | some g, some r => g r
  | some _, none => false

/-- a channel to show: with a name, one which a record of that name uses -/
def Used (glob : Option (Str → Bool)) (c : Chan) : Bool := c.alive && (glob.isNone || c.links.any (Shown glob))

end Pvxs.Spec.Shell
