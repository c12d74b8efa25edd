import Verif.Spec.ValueOps
import Verif.Spec.Scalar
/-
Specification for C18: what a lookup expression means.
-/
namespace Pvxs.Spec
open Wire (Byte)

/-- member and choice names as a program can define them, or at least: none is empty, or has a character which means something in an
expression; the choices of a Union have different names -/
def ClearNames (t : List FieldDesc) : Prop :=
  ∀ d ∈ t, (∀ p ∈ d.miter, p.1 ≠ [] ∧ ∀ c ∈ p.1, c ≠ 0x3c ∧ c ≠ 0x5b ∧ c ≠ 0x2d ∧ c ≠ 0x2e) ∧ (d.miter.map (·.1)).Nodup

mutual
/-- a value as a program can come by: of a usable type; a Union holds a value of the type of the choice -/
def Proper (v : Val) : Prop :=
  match v with
  | .null => True
  | .mk t cs => Usable t ∧ ClearNames t ∧ ProperCells t cs
def ProperCells (t : List FieldDesc) (cs : List Cell) : Prop :=
  match t, cs with
  | [], [] => True
  | d :: t, .mk _ x :: cs => ProperDatum d x ∧ ProperCells t cs
  | _, _ => False
def ProperDatum (d : FieldDesc) (x : Datum) : Prop :=
  match x with
  | .union i v => d.code = .Union ∧ v ≠ .null ∧ (∃ p, d.miter[i]? = some p ∧ v.desc = subTable d.members p.2) ∧ Proper v
  | .any v => d.code = .Any ∧ Proper v
  | .vals vs => (d.code = .StructA ∨ d.code = .UnionA ∨ d.code = .AnyA) ∧ ProperVals vs
  | _ => True
def ProperVals (vs : List Val) : Prop :=
  match vs with
  | [] => True
  | v :: vs => Proper v ∧ ProperVals vs
end

/-- `p` is the structure of which node `i` is a member -/
def ParentOf (t : List FieldDesc) (p i : Nat) : Prop :=
  ∃ d name off, t[p]? = some d ∧ d.code = .Struct ∧ (name, off) ∈ d.miter ∧ i = p + off

/-- the node `h` refers to is described by `d` and holds `x` -/
def At (h : Handle) (d : FieldDesc) (x : Datum) : Prop := h.desc[h.pos]? = some d ∧ ∃ m, h.cells[h.pos]? = some (.mk m x)

/-- a name ends here: at the end of the expression, or before `<`, `[` or `-` -/
def NameEnds (s : Str) : Prop := s = [] ∨ ∃ r, s = 0x3c :: r ∨ s = 0x5b :: r ∨ s = 0x2d :: r

/-- the name of a choice also ends before a dot -/
def ChoiceEnds (s : Str) : Prop := NameEnds s ∨ ∃ r, s = 0x2e :: r

/-- the number an index stands for: decimal, octal or hexadecimal; a minus sign means modulo 2^64 -/
def IndexText (s : Str) (n : Nat) : Prop :=
  ∃ neg m, Scl.Says s neg m ∧ m < 2 ^ 64 ∧ n = if neg then (2 ^ 64 - m) % 2 ^ 64 else m

/-- what an expression finds, starting from a node.  `dot`: a choice or an element has just been named, so that a dot has to come before the
name of a member. -/
inductive Leads : Bool → Handle → Str → Handle → Prop where
  /-- nothing is left -/
  | here (dot : Bool) (h : Handle) : Leads dot h [] h
  /-- `<` is the structure around this -/
  | parent (dot : Bool) (h h' : Handle) (p : Nat) (s : Str) (hp : ParentOf h.desc p h.pos) (f : Leads dot ⟨h.desc, h.cells, p⟩ s h') :
      Leads dot h (0x3c :: s) h'
  /-- `a.b.c` -/
  | member (h h' : Handle) (ps : List Str) (j : Nat) (s : Str) (hne : ps ≠ []) (hd : Descends h.desc h.pos ps j) (hs : NameEnds s)
      (f : Leads false ⟨h.desc, h.cells, j⟩ s h') : Leads false h (joinDots ps ++ s) h'
  /-- `.a.b.c` after a choice or an element which is a structure -/
  | dotted (h h' : Handle) (d : FieldDesc) (s : Str) (hd : h.desc[h.pos]? = some d) (hs : d.code = .Struct) (hne : s ≠ [])
      (f : Leads false h s h') : Leads true h (0x2e :: s) h'
  /-- `->a` is the choice `a` of a Union, if this is what is selected -/
  | choice (dot : Bool) (h h' : Handle) (d : FieldDesc) (name : Str) (off i : Nat) (t : List FieldDesc) (cs : List Cell) (s : Str)
      (hx : At h d (.union i (.mk t cs))) (hi : d.miter[i]? = some (name, off)) (hs : ChoiceEnds s)
      (f : Leads true ⟨t, cs, 0⟩ s h') : Leads dot h (0x2d :: 0x3e :: (name ++ s)) h'
  /-- `->`, if no name of a choice comes next: what is selected -/
  | selected (dot : Bool) (h h' : Handle) (d : FieldDesc) (i : Nat) (t : List FieldDesc) (cs : List Cell) (s : Str)
      (hx : At h d (.union i (.mk t cs))) (hn : ∀ p ∈ d.miter, ∀ r, s = p.1 ++ r → ¬ ChoiceEnds r)
      (f : Leads false ⟨t, cs, 0⟩ s h') : Leads dot h (0x2d :: 0x3e :: s) h'
  /-- `->` is what an Any holds -/
  | any (dot : Bool) (h h' : Handle) (d : FieldDesc) (t : List FieldDesc) (cs : List Cell) (s : Str) (hx : At h d (.any (.mk t cs)))
      (f : Leads false ⟨t, cs, 0⟩ s h') : Leads dot h (0x2d :: 0x3e :: s) h'
  /-- `[n]` is an element of an array -/
  | element (dot : Bool) (h h' : Handle) (d : FieldDesc) (vs : List Val) (num : Str) (n : Nat) (t : List FieldDesc) (cs : List Cell) (s : Str)
      (hx : At h d (.vals vs)) (hn : IndexText num n) (hb : 0x5d ∉ num) (hv : vs[n]? = some (.mk t cs))
      (f : Leads true ⟨t, cs, 0⟩ s h') : Leads dot h (0x5b :: (num ++ 0x5d :: s)) h'

/-- what is between brackets is always a number -/
def Numeric (e : Str) : Prop := ∀ a num b, e = a ++ 0x5b :: (num ++ 0x5d :: b) → 0x5d ∉ num → num ≠ [] → ∃ n, IndexText num n

end Pvxs.Spec
