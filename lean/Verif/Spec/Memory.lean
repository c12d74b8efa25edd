import Verif.Model.Memory
import Verif.Spec.Wire
/-
How large a type is, and how much of a message was read (C112).
-/
namespace Pvxs.Spec.Memory
open Pvxs Pvxs.Wire

mutual
/-- all nodes of a type, also those of its unions and of the elements of its arrays -/
def nodes : List FieldDesc → Nat
  | [] => 0
  | d :: t => nodesIn d + nodes t
def nodesIn : FieldDesc → Nat
  | ⟨_, _, _, _, _, ms⟩ => 1 + nodes ms
end

/-- how many bytes a decoder has taken -/
def taken (d : Dec α) (i : In) : Nat := i.rest.length - (d i).2.rest.length

/-- no type kept for this connection has more than `B` nodes -/
def KeptBelow (B : Nat) (c : TypeStore) : Prop := ∀ k t, c.find? k = some t → nodes t ≤ B

/-- the bytes of all strings, and one for each -/
def textOf : List (List Byte) → Nat
  | [] => 0
  | s :: ss => s.length + 1 + textOf ss

mutual
/-- how much there is in a field: one for each scalar, and for each union, and for each element of an array, and the characters of strings -/
def weightD : Datum → Nat
  | .null => 0
  | .real _ => 1
  | .int _ => 1
  | .uint _ => 1
  | .bool _ => 1
  | .str s => 1 + s.length
  | .unionNull => 1
  | .union _ v => 1 + weightV v
  | .any v => 1 + weightV v
  | .pods vs => vs.length
  | .strs ss => textOf ss
  | .vals vs => weightVs vs
def weightC : Cell → Nat
  | .mk _ d => weightD d
def weightCs : List Cell → Nat
  | [] => 0
  | c :: cs => weightC c + weightCs cs
/-- how much there is in a value -/
def weightV : Val → Nat
  | .null => 0
  | .mk _ cs => weightCs cs
def weightVs : List Val → Nat
  | [] => 0
  | v :: vs => 1 + weightV v + weightVs vs
end

end Pvxs.Spec.Memory
