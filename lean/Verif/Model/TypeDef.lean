import Verif.Model.Value
/-
Model of `TypeDef`: /repo/src/type.cpp:285-412 and /repo/src/pvxs/data.h:369-455.
-/
namespace Pvxs.TypeDef
open Pvxs

/-- src/pvxs/data.h:369-375 `class TypeDef`: the definition (`top`) and the type built from it (`desc`); both empty for `TypeDef()` -/
structure Def where
  top : Option Member := none
  desc : Option (List FieldDesc) := none

/-- src/pvxs/data.h:390-416 the constructors with a code, an id and members, through src/type.cpp:285-294: `Member(code, "", id, children)` checks its arguments
(src/type.cpp:217-225), then the type is built.  An assert which fails is `ub`. -/
def make (code : TypeCode) (id : Str) (children : List Member) : Res Def :=
  Member.validate { code := code, name := [], id := id, children := children } >>= fun _ =>
  build { code := code, name := [], id := id, children := children } >>= fun t =>
  .ok { top := some { code := code, name := [], id := id, children := children }, desc := some t }

mutual
/-- src/type.cpp:296-315 `copy_tree`: the definition of the type described by the table suffix `t`, with an empty name.
(:310-313): for Struct[] and Union[] the definition is that of the element, with the code changed. -/
def copyTree (t : List FieldDesc) : Res Member :=
  match t with
  | [] => .ub
  | d :: rest =>
    if d.code = .Struct then
      copyKids rest 1 d.miter >>= fun ks => .ok { code := d.code, id := d.id, children := ks }
    else if d.code = .Union then
      copyKids d.members 0 d.miter >>= fun ks => .ok { code := d.code, id := d.id, children := ks }
    else if d.code = .StructA ∨ d.code = .UnionA then
      copyTree d.members >>= fun m => .ok { m with code := m.code.arrayOf }
    else .ok { code := d.code, id := d.id }
termination_by (sizeOf t, 0)
decreasing_by
  · simp; omega
  · cases d; simp; omega
  · cases d; simp; omega

/-- the loop :303-309.  `children.emplace_back(cdesc->code, pair.first)` is the constructor of `Member`, which checks code and name.
`cref` as in `putTypeKids`. -/
def copyKids (base : List FieldDesc) (cref : Nat) (kids : List (Str × Nat)) : Res (List Member) :=
  match kids with
  | [] => .ok []
  | (name, off) :: more =>
    if off < cref then .ub
    else match (base.drop (off - cref))[0]? with
      | none => .ub
      | some c =>
        Member.validate { code := c.code, name := name } >>= fun _ =>
        copyTree (base.drop (off - cref)) >>= fun m =>
        copyKids base cref more >>= fun ms => .ok ({ m with name := name } :: ms)
termination_by (sizeOf base, 1 + kids.length)
decreasing_by
  · have : sizeOf (base.drop (off - cref)) ≤ sizeOf base := by
      have h := List.drop_suffix (off - cref) base
      obtain ⟨p, hp⟩ := h
      have : sizeOf (p ++ base.drop (off - cref)) ≥ sizeOf (base.drop (off - cref)) := by
        clear hp
        induction p with
        | nil => simp
        | cons a p ih => simp only [List.cons_append, List.cons.sizeOf_spec]; omega
      rwa [hp] at this
    rcases Nat.lt_or_eq_of_le this with h | h
    · exact Prod.Lex.left _ _ h
    · rw [h]; exact Prod.Lex.right _ (by omega)
  · exact Prod.Lex.right _ (by simp)
end

/-- src/type.cpp:317-332 `TypeDef::TypeDef(const Value&)`; `t` = `val.desc`, the suffix of the table starting at the field referred to, `[]` for an
invalid Value -/
def ofValue (t : List FieldDesc) : Res Def :=
  match t with
  | [] => .ok {}
  | d :: _ =>
    Member.validate { code := d.code } >>= fun _ =>
    copyTree t >>= fun m =>
    build m >>= fun t' => .ok { top := some m, desc := some t' }

/-- src/type.cpp:336-344 `TypeDef::as(name)`: the name is not checked -/
def Def.as (d : Def) (name : Str) : Res Member :=
  match d.top with
  | none => .throws "Can't append empty TypeDef"
  | some m => .ok { m with name := name }

/-- src/type.cpp:346-355 `TypeDef::as(code, name)` -/
def Def.asCode (d : Def) (code : TypeCode) (name : Str) : Res Member :=
  d.as name >>= fun m =>
    if (code.kind = TypeCode.KCompound) ≠ (m.code.kind = TypeCode.KCompound) then .throws "as() may change between Compound and non-Compound"
    else .ok { m with code := code }

mutual
/-- src/type.cpp:373-396 `TypeDef::_append(node, adopt)`; the children of `node`, before and after -/
def adopt (cs : List Member) (a : Member) : Res (List Member) :=
  match cs with
  | [] => .ok [a]
  | c :: cs =>
    if c.name = a.name then
      if (c.code.kind = TypeCode.KCompound) ≠ (a.code.kind = TypeCode.KCompound) then .throws "May not change member kind to/from Compound"
      else adoptAll c.children a.children >>= fun ks =>
        .ok ({ code := a.code, name := c.name, id := if a.id ≠ [] then a.id else c.id, children := ks } :: cs)
    else adopt cs a >>= fun cs => .ok (c :: cs)
termination_by (sizeOf a, cs.length)
decreasing_by
  · cases a; apply Prod.Lex.left; simp; omega
  · apply Prod.Lex.right; simp
/-- the loops src/type.cpp:386-388 and src/pvxs/data.h:443-445, 451-453 -/
def adoptAll (cs : List Member) (as : List Member) : Res (List Member) :=
  match as with
  | [] => .ok cs
  | a :: as => adopt cs a >>= fun cs => adoptAll cs as
termination_by (sizeOf as, 0)
decreasing_by
  · apply Prod.Lex.left; simp; omega
  · apply Prod.Lex.left; simp; omega
end

/-- src/pvxs/data.h:440-456 `TypeDef::operator+=` with `_append_start` (src/type.cpp:357-371) and `_append_finish` (:398-407).
`shared`: another TypeDef shares the definition (`use_count()!=1`), so a copy is edited; otherwise `top` is emptied first.
Result: what the call does, and the TypeDef afterwards. -/
def Def.append (d : Def) (shared : Bool) (as : List Member) : Res Unit × Def :=
  match d.top with
  | none => (.throws "May only append to Struct, Union, StructA, or UnionA", d)
  | some m =>
    if m.code.scalarOf ≠ .Struct ∧ m.code.scalarOf ≠ .Union then (.throws "May only append to Struct, Union, StructA, or UnionA", d)
    else
      match adoptAll m.children as >>= fun ks => build { m with children := ks } >>= fun t => .ok (ks, t) with
      | .ok (ks, t) => (.ok (), { top := some { m with children := ks }, desc := some t })
      | .throws w => (.throws w, if shared then d else { d with top := none })
      | .ub => (.ub, d)

/-- src/type.cpp:409-415 `TypeDef::create` -/
def Def.create (d : Def) : Res Val :=
  match d.desc with
  | none => .throws "Empty TypeDef"
  | some t => newValue t

end Pvxs.TypeDef
