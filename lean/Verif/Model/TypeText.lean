import Verif.Model.TypeDef
import Verif.Model.Print
/-
A type printed: src/type.cpp:418-448 (`operator<<` of a TypeDef) and src/datafmt.cpp:182-304 (`FmtTree`, with showValue(false), which is
what pvxinfo prints: tools/info.cpp:90-95).

Simplification: a Value whose type is printed is the table of its type only; the selected member of a Union is shown by its type like the
others (src/data.cpp:1077-1080), so that the content has no influence.
-/
namespace Pvxs.TypeText
open Pvxs Pvxs.NT

/-- `indent{}` of a stream which is indented by `n`: src/util.cpp:128-139 -/
def indent (n : Nat) : Str := List.replicate (4 * n) 0x20

/-- the ID, if there is one; it is not escaped: src/type.cpp:421-422, src/datafmt.cpp:192-196 -/
def idText (id : Str) : Str := if id = [] then [] else lit " \"" ++ id ++ [0x22]

/-- the name, if there is one: src/type.cpp:432-433, :436-437, src/datafmt.cpp:199-200, :218-219, :269-270 -/
def nameText (name : Str) : Str := if name = [] then [] else 0x20 :: name

mutual
/-- src/type.cpp:418-440 `show_Node`, on a stream which is indented by `n` -/
def showNode (n : Nat) : Member → Str → Str
  | ⟨code, _, id, children⟩, name =>
    lit code.name ++ idText id ++
      (if children = [] then nameText name ++ [0x0a]
       else lit " {\n" ++ showNodes n children ++ indent n ++ [0x7d] ++ nameText name ++ [0x0a])
/-- the loop src/type.cpp:425-429 -/
def showNodes (n : Nat) : List Member → Str
  | [] => []
  | c :: cs => indent (n + 1) ++ showNode (n + 1) c c.name ++ showNodes n cs
end

/-- src/type.cpp:442-450 `operator<<` of a TypeDef -/
def showDef (n : Nat) : Option Member → Str
  | none => lit "<Empty>\n"
  | some m => showNode n m []

/-- src/data.cpp:372-397 `nameOf()`, of a direct member of a Struct: `ml` is the table of names of the Struct -/
def memberName (st : Bool) (ml : SMap Nat) (off : Nat) : Res Str :=
  if st ∧ (off = 0 ∨ ml.length < off) then .throws "not a descendant"
  else match List.find? (fun p => p.2 == off) ml with
    | none => .throws "missing descendant"
    | some p => .ok p.1

/-- src/datafmt.cpp:249-270: the braces around the members -/
def braces (n : Nat) (head : Str) (member : Str) (kids : Str) (none_ : Bool) : Str :=
  head ++ lit " {" ++ (if none_ then [] else 0x0a :: kids ++ indent n) ++ [0x7d] ++ nameText member ++ [0x0a]

mutual
/-- src/datafmt.cpp:182-271 `FmtTree::show` without values, of the type at the head of `t` -/
def treeType (n : Nat) (t : List FieldDesc) (member : Str) : Res Str :=
  match t with
  | [] => .ok (lit "null\n")
  | d :: rest =>
    if d.code = .Struct then
      treeKids n true d.mlookup rest 1 d.miter >>= fun kids => .ok (braces n (lit d.code.name ++ idText d.id) member kids d.miter.isEmpty)
    else if d.code = .Union then
      treeKids n false d.mlookup d.members 0 d.miter >>= fun kids => .ok (braces n (lit d.code.name ++ idText d.id) member kids d.miter.isEmpty)
    else if d.code = .StructA ∨ d.code = .UnionA then
      elemKids n d.members >>= fun r => .ok (braces n (lit d.code.name ++ idText d.id) member r.1 r.2)
    else .ok (lit d.code.name ++ idText d.id ++ nameText member ++ [0x0a])
termination_by (sizeOf t, 0)
decreasing_by
  · simp; omega
  · cases d; simp; omega
  · cases d; simp; omega

/-- the members of the element type of an array, and whether there are none: src/datafmt.cpp:240-246, :252-262 -/
def elemKids (n : Nat) (t : List FieldDesc) : Res (Str × Bool) :=
  match t with
  | [] => .ub
  | e :: es =>
    if e.code = .Struct then treeKids n true e.mlookup es 1 e.miter >>= fun k => .ok (k, e.miter.isEmpty)
    else treeKids n false e.mlookup e.members 0 e.miter >>= fun k => .ok (k, e.miter.isEmpty)
termination_by (sizeOf t, 0)
decreasing_by
  · simp; omega
  · cases e; simp; omega

/-- the loop src/datafmt.cpp:254-261; `cref` as in `putTypeKids` -/
def treeKids (n : Nat) (st : Bool) (ml : SMap Nat) (base : List FieldDesc) (cref : Nat) (kids : List (Str × Nat)) : Res Str :=
  match kids with
  | [] => .ok []
  | (_, off) :: more =>
    if off < cref ∨ base.length ≤ off - cref then .ub
    else
      memberName st ml off >>= fun name =>
      treeType (n + 1) (base.drop (off - cref)) name >>= fun x =>
      treeKids n st ml base cref more >>= fun xs => .ok (indent (n + 1) ++ x ++ xs)
termination_by (sizeOf base, 1 + kids.length)
decreasing_by
  · have : sizeOf (base.drop (off - cref)) ≤ sizeOf base := by
      have h := List.drop_suffix (off - cref) base
      obtain ⟨p, hp⟩ := h
      have : sizeOf (p ++ base.drop (off - cref)) ≥ sizeOf (base.drop (off - cref)) := by
        clear hp
        induction p with
        | nil => simp
        | cons a p ih => simp only [List.cons_append, List.cons.sizeOf_spec]; omega
      rwa [hp] at this
    rcases Nat.lt_or_eq_of_le this with h | h
    · exact Prod.Lex.left _ _ h
    · rw [h]; exact Prod.Lex.right _ (by omega)
  · exact Prod.Lex.right _ (by simp)
end

/-- `strm<<val.format().showValue(false)`: src/datafmt.cpp:308-316 -/
def showType (n : Nat) (t : List FieldDesc) : Res Str := treeType n t [] >>= fun x => .ok (indent n ++ x)

end Pvxs.TypeText
