import Verif.Model.ServerPV
import Verif.Spec.Source
import Verif.Spec.ValueOps
/-
Specification for C82: what a StaticSource has, and how the PV "server" is to answer.
-/
namespace Pvxs.Spec.ServerPV
open Wire Pvxs.ServerPV

/-! ### StaticSource -/

/-- the PV of this name: the first which was added and has not been removed.  The latest use is first. -/
def here : List (Use α) → Str → Option α
  | [], _ => none
  | .add n pv :: earlier, name => if name = n then (match here earlier name with | some old => some old | none => some pv) else here earlier name
  | .remove n :: earlier, name => if name = n then none else here earlier name
  | .onList _ :: earlier, name => here earlier name

/-- `l` has the names with `P`, each once, in the order of a dictionary -/
structure Listing (l : List Str) (P : Str → Prop) : Prop where
  mem : ∀ n, n ∈ l ↔ P n
  order : l.Pairwise Source.Before

/-- two threads are about to use the same variable, and one of them is about to change it -/
def Race (s : Threads) : Prop := ∃ i j, i ≠ j ∧ s.at_ i = .write ∧ s.at_ j ≠ .out

/-! ### the arguments of a call -/

/-- field `j` is the member `name` of the Struct `i` -/
def Part (t : List FieldDesc) (i : Nat) (name : Str) (j : Nat) : Prop :=
  ∃ d off, t[i]? = some d ∧ d.code = .Struct ∧ (name, off) ∈ d.miter ∧ j = i + off

/-- where the arguments are: in the member "query", if there is one -/
def ArgsAt (t : List FieldDesc) (i : Nat) : Prop :=
  Part t 0 [0x71, 0x75, 0x65, 0x72, 0x79] i ∨ ((∀ j, ¬Part t 0 [0x71, 0x75, 0x65, 0x72, 0x79] j) ∧ i = 0)

/-- "help" is among the arguments -/
def AsksHelp (t : List FieldDesc) : Prop := ∃ i j, ArgsAt t i ∧ Part t i [0x68, 0x65, 0x6c, 0x70] j

/-- a text, or a Union or Any which holds one -/
inductive Says : Datum → Str → Prop
  | str (s : Str) : Says (.str s) s
  | any (t : List FieldDesc) (m : Bool) (x : Datum) (cs : List Cell) (s : Str) (h : Says x s) : Says (.any (.mk t (.mk m x :: cs))) s
  | union (k : Nat) (t : List FieldDesc) (m : Bool) (x : Datum) (cs : List Cell) (s : Str) (h : Says x s) : Says (.union k (.mk t (.mk m x :: cs))) s

/-- the argument "op" is this text -/
def Asks (t : List FieldDesc) (cs : List Cell) (s : Str) : Prop :=
  ∃ i j m x, ArgsAt t i ∧ Part t i [0x6f, 0x70] j ∧ cs[j]? = some (.mk m x) ∧ Says x s

/-- there is no argument "op" -/
def NoOp (t : List FieldDesc) : Prop := ∀ i, ArgsAt t i → ∀ j, ¬Part t i [0x6f, 0x70] j

/-- the replies which were sent for request `k` -/
def replies (k : Nat) (log : List Server.Obs) : List Server.Obs :=
  log.filter fun o => match o with | .replied _ (.handle k') _ => k' == k | _ => false

/-- request `k` is an RPC which the handler has been called for, and which has not been answered -/
structure Pending (s : Server.SConn) (k i : Nat) (op : Server.SOp) : Prop where
  up : s.isOpen = true
  fine : s.aborted = false
  handle : s.handles[k]? = some i
  found : s.ops[i]? = some op
  rpc : op.kind = .rpc
  executing : op.state = .executing

end Pvxs.Spec.ServerPV
