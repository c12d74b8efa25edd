import Verif.Model.Print
import Verif.Spec.Lookup
/-
Specification for C99: what the delta print-out of a value has to list.
-/
namespace Pvxs.Spec.Prt
open Pvxs Pvxs.Spec

/-- content of a field which is a value itself: what a Union or an Any holds, or an element of an array -/
inductive Inside : Datum → Val → Prop where
  | choice (i : Nat) (v : Val) : Inside (.union i v) v
  | any (v : Val) : Inside (.any v) v
  | element (vs : List Val) (n : Nat) (v : Val) (h : vs[n]? = some v) : Inside (.vals vs) v

/-- The fields of a structure to be listed: those which are marked, or are inside of a marked structure, and, if marked or if `always`, the
value as a whole.  A value which is not a structure is listed as a whole, or not at all. -/
inductive Own (always : Bool) : Val → Handle → Prop where
  | whole (t : List FieldDesc) (cs : List Cell) (h : always = true ∨ validAt cs 0 = true) : Own always (.mk t cs) ⟨t, cs, 0⟩
  | field (t : List FieldDesc) (cs : List Cell) (j : Nat) (h : CoveredBelow t (validAt cs) 0 j) : Own always (.mk t cs) ⟨t, cs, j⟩

/-- the fields to be listed, including those of values which are content of such fields -/
inductive Listed : Bool → Val → Handle → Prop where
  | own (b : Bool) (v : Val) (h : Handle) (ho : Own b v h) : Listed b v h
  | inside (b : Bool) (v : Val) (h h' : Handle) (d : FieldDesc) (x : Datum) (v' : Val) (ho : Own b v h) (ha : At h d x) (hi : Inside x v')
      (hl : Listed true v' h') : Listed b v h'

/-- a Union or Any which holds nothing, or an element which is null, and how this is written after the name of the field -/
inductive Nothing : Datum → Str → Prop where
  | union : Nothing .unionNull [0x2d, 0x3e]
  | any : Nothing (.any .null) [0x2d, 0x3e]
  | element (vs : List Val) (n : Nat) (h : vs[n]? = some .null) : Nothing (.vals vs) (0x5b :: (showNat n ++ [0x5d]))

/-- the type code of a value -/
def codeOf : Val → TypeCode
  | .mk (d :: _) _ => d.code
  | _ => .Null

mutual
/-- The case for which names come out right: in each Union, the selected choice comes after choices which are not structures; no Any holds
a structure.  An array has less than 2^64 elements. -/
def Plain : Val → Prop
  | .null => True
  | .mk t cs => PlainCells t cs
def PlainCells (t : List FieldDesc) : List Cell → Prop
  | [] => True
  | .mk _ x :: cs =>
    match t with
    | [] => True
    | d :: t => PlainDatum d x ∧ PlainCells t cs
def PlainDatum (d : FieldDesc) : Datum → Prop
  | .union i v => (∀ p, d.miter[i]? = some p → p.2 = i) ∧ Plain v
  | .any v => codeOf v ≠ .Struct ∧ Plain v
  | .vals vs => vs.length < 2 ^ 64 ∧ PlainVals vs
  | _ => True
def PlainVals : List Val → Prop
  | [] => True
  | v :: vs => Plain v ∧ PlainVals vs
end

/-- two lists of the same length, related one by one -/
inductive Matched {α β : Type} (R : α → β → Prop) : List α → List β → Prop where
  | nil : Matched R [] []
  | cons (a : α) (b : β) (as : List α) (bs : List β) (h : R a b) (more : Matched R as bs) : Matched R (a :: as) (b :: bs)

/-- content of two fields of the same type, both scalar but not real -/
inductive Alike : Datum → Datum → Prop where
  | int (v w : Int) (hv : -2 ^ 63 ≤ v ∧ v < 2 ^ 63) (hw : -2 ^ 63 ≤ w ∧ w < 2 ^ 63) : Alike (.int v) (.int w)
  | uint (v w : Nat) (hv : v < 2 ^ 64) (hw : w < 2 ^ 64) : Alike (.uint v) (.uint w)
  | bool (a b : Bool) : Alike (.bool a) (.bool b)
  | str (a b : Str) : Alike (.str a) (.str b)

/-- texts separated by ", " -/
def commas : List Str → Str
  | [] => []
  | [a] => a
  | a :: b :: l => a ++ 0x2c :: 0x20 :: commas (b :: l)

end Pvxs.Spec.Prt
