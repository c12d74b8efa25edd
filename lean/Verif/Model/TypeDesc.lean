import Verif.Model.SMap
import Verif.Model.TypeCode
/-
Model of type descriptions: /repo/src/dataimpl.h:56-102, /repo/src/type.cpp:180-315 and the type codec
/repo/src/dataencode.cpp:30-210.
-/
namespace Pvxs
open Wire (Byte Out In Dec putU8 putStr putSize getU8 getStr getSize getInt)

/-- src/dataimpl.h:65-94 `struct FieldDesc`: one node of a descriptor table.
A table (`std::vector<FieldDesc>`) is a `List FieldDesc`; a `const FieldDesc*` pointing at a node is the suffix of the
table starting there (`*cur` = head, `cur[n]` = element n of the suffix). -/
structure FieldDesc where
  code : TypeCode
  id : Str := []
  mlookup : SMap Nat := []
  miter : List (Str × Nat) := []
  parentIndex : Nat := 0
  members : List FieldDesc := []

/-- src/dataimpl.h:93 `FieldDesc::size` -/
def FieldDesc.size (d : FieldDesc) : Nat := 1 + (if d.members.isEmpty then d.mlookup.length else 0)

/-- src/pvxs/data.h:257-308 `struct Member` -/
structure Member where
  code : TypeCode
  name : Str := []
  id : Str := []
  children : List Member := []

/-! ### building from a definition (src/type.cpp) -/

/-- src/type.cpp:180-191 `node_validate`; `parent` = code of the parent member, if any -/
def nodeValidate (parent : Option TypeCode) (id : Str) (code : TypeCode) : Res Unit :=
  if id ≠ [] ∧ code.scalarOf ≠ .Struct ∧ code.scalarOf ≠ .Union then .throws "Only Struct or Union may have an ID"
  else if !code.valid then .throws "Invalid TypeCode"
  else match parent with
    | none => .ok ()
    | some p => if p.scalarOf ≠ .Struct ∧ p.scalarOf ≠ .Union then .throws "Only (array of) Struct or Union may have members"
                else .ok ()

/-- src/type.cpp:193-215 `name_validate`; the name is a C string, so it ends at the first NUL -/
def nameValidate (name : Str) : Res Unit :=
  let n := Wire.cstr name
  if n = [] then .throws "empty field name not allowed"
  else if n.zipIdx.all (fun (c, i) =>
      (decide (0x30 ≤ c) && decide (c ≤ 0x39) && decide (0 < i)) ||
      (decide (0x61 ≤ c) && decide (c ≤ 0x7a)) || (decide (0x41 ≤ c) && decide (c ≤ 0x5a)) || c == 0x5f) then .ok ()
  else .throws "invalid field name"

/-- `if(!name.empty()) act` -/
def ifNamed (name : Str) (act : Res Unit) : Res Unit := if name ≠ [] then act else .ok ()

/-- src/type.cpp:217-225 `Member::_validate`, run by every constructor of a non-empty Member -/
def Member.validate (m : Member) : Res Unit := do
  ifNamed m.name (nameValidate m.name)
  nodeValidate none m.id m.code
  m.children.forM fun c => nodeValidate (some m.code) c.id c.code

/-- the loop body of src/type.cpp:265-279: append a child's nodes `sub` and record it under `name`.
`fld` = desc[index]; `kids` = the nodes already appended after it (Struct), or fld.members (otherwise). -/
def buildKid (fld : FieldDesc) (kids : List FieldDesc) (name : Str) (sub : List FieldDesc) : FieldDesc × List FieldDesc :=
  let isStruct := fld.code = .Struct
  let off := if isStruct then kids.length + 1 else kids.length      -- cindex-cref
  match sub with
  | [] => (fld, kids)       -- unreachable: build_tree always appends at least one node
  | child :: more =>
    let child := if isStruct then { child with parentIndex := off } else child
    let ml := fld.mlookup.insert name off
    let ml := if isStruct ∧ child.code = .Struct then
        child.mlookup.foldl (fun ml (p : Str × Nat) => ml.insert (name ++ [0x2e] ++ p.1) (off + p.2)) ml
      else ml
    ({ fld with mlookup := ml, miter := fld.miter ++ [(name, off)] }, kids ++ (child :: more))

/-- where the nodes of the children end up: after the node itself (Struct), or in its `members`
(src/type.cpp:257 and src/dataencode.cpp:152 `cdescs`) -/
def withKids (fld : FieldDesc) (kids : List FieldDesc) : List FieldDesc :=
  if fld.code = .Struct then fld :: kids else [{ fld with members := kids }]

/-- the tail of `build_tree` (src/type.cpp:249-282): where the children are stored, and the `assert()` (a failure aborts
the process and is modelled as `Res.ub`) -/
def buildFinish (fld : FieldDesc) (kids : List FieldDesc) : Res (List FieldDesc) :=
  match withKids fld kids with
  | [] => .ub
  | root :: more => if (root :: more).length = root.size then .ok (root :: more) else .ub

mutual
/-- src/type.cpp:233-283 `Member::Helper::build_tree`; returns the nodes appended to `desc`.
Struct[]/Union[] (:236-247): a single node whose `members` is the table of the element type; the temporary Member
`next` is constructed without children, which validates the name again. -/
def build : Member → Res (List FieldDesc)
  | ⟨code, name, id, children⟩ =>
    if code = .StructA ∨ code = .UnionA then do
      Member.validate { code := code.scalarOf, name := name }
      let (fld, kids) ← buildKids { code := code.scalarOf, id := id } [] children
      let next ← buildFinish fld kids
      .ok [{ code := code, members := next }]
    else do
      let (fld, kids) ← buildKids { code := code, id := id } [] children
      buildFinish fld kids
/-- src/type.cpp:260-280, the loop over children -/
def buildKids (fld : FieldDesc) (kids : List FieldDesc) : List Member → Res (FieldDesc × List FieldDesc)
  | [] => .ok (fld, kids)
  | c :: cs => do
    let sub ← build c
    let (fld, kids) := buildKid fld kids c.name sub
    buildKids fld kids cs
end

/-! ### wire form (src/dataencode.cpp) -/

mutual
/-- src/dataencode.cpp:30-67 `to_wire(Buffer&, const FieldDesc*)`; `[]` is the null pointer.
An index outside the table would be undefined behaviour in the C++; the model faults the buffer instead, so a theorem
concluding that encoding succeeds also excludes that. -/
def putType (t : List FieldDesc) (o : Out) : Out :=
  match t with
  | [] => putU8 o 0xff
  | d :: rest =>
    let o := putU8 o d.code.code
    if d.code = .StructA ∨ d.code = .UnionA then
      if d.members.isEmpty then o.fault else putType d.members o
    else if d.code = .Struct then
      putTypeKids rest 1 d.miter (putSize (putStr o d.id) d.miter.length)
    else if d.code = .Union then
      putTypeKids d.members 0 d.miter (putSize (putStr o d.id) d.miter.length)
    else o
termination_by (sizeOf t, 0)
decreasing_by
  · cases d; simp; omega
  · simp; omega
  · cases d; simp; omega

/-- the loops :50-53 (`cur+pair.second`, relative to the node after `cur`, so cref=1) and :59-62 (`members[pair.second]`,
cref=0) -/
def putTypeKids (base : List FieldDesc) (cref : Nat) (kids : List (Str × Nat)) (o : Out) : Out :=
  match kids with
  | [] => o
  | (name, off) :: more =>
    let o := putStr o name
    let o := if off < cref ∨ base.length ≤ off - cref then o.fault else putType (base.drop (off - cref)) o
    putTypeKids base cref more o
termination_by (sizeOf base, 1 + kids.length)
decreasing_by
  · have : sizeOf (base.drop (off - cref)) ≤ sizeOf base := by
      have h := List.drop_suffix (off - cref) base
      obtain ⟨p, hp⟩ := h
      have : sizeOf (p ++ base.drop (off - cref)) ≥ sizeOf (base.drop (off - cref)) := by
        clear hp
        induction p with
        | nil => simp
        | cons a p ih => simp only [List.cons_append, List.cons.sizeOf_spec]; omega
      rwa [hp] at this
    rcases Nat.lt_or_eq_of_le this with h | h
    · exact Prod.Lex.left _ _ h
    · rw [h]; exact Prod.Lex.right _ (by omega)
  · exact Prod.Lex.right _ (by simp)
end

/-- src/dataimpl.h:99 `TypeStore = std::map<uint16_t, std::vector<FieldDesc>>`, the per-connection type cache -/
abbrev TypeStore := List (Nat × List FieldDesc)

/-- `cache.find(key)` -/
def TypeStore.find? (c : TypeStore) (k : Nat) : Option (List FieldDesc) := List.lookup k c
/-- `cache.emplace(key, ...)`: does nothing when the key is already present (src/dataencode.cpp:93-95) -/
def TypeStore.emplace (c : TypeStore) (k : Nat) (t : List FieldDesc) : TypeStore :=
  match c.find? k with
  | some _ => c
  | none => c ++ [(k, t)]

/-- the loop body src/dataencode.cpp:166-182 -/
def wireKid (fld : FieldDesc) (kids : List FieldDesc) (name : Str) (sub : List FieldDesc) : FieldDesc × List FieldDesc :=
  let isStruct := fld.code = .Struct
  let off := if isStruct then kids.length + 1 else kids.length
  match sub with
  | [] => (fld, kids)       -- excluded by the test :161
  | cfld :: more =>
    let cfld := if isStruct then { cfld with parentIndex := off } else cfld
    let ml := fld.mlookup.insert name off
    let ml := if isStruct ∧ fld.code = cfld.code then
        cfld.mlookup.foldl (fun ml (p : Str × Nat) => ml.insert (name ++ [0x2e] ++ p.1) (off + p.2)) ml
      else ml
    ({ fld with mlookup := ml, miter := fld.miter ++ [(name, off)] }, kids ++ (cfld :: more))

/-- `if(!buf.good() || c) { buf.fault(); return; }` then `d` -/
def failIf (c : Bool) (a : α) (d : Dec α) : Dec α := fun i => if i.err ∨ c then (a, i.fault) else d i

/-- `buf.fault(); return;` -/
def failWith (a : α) : Dec α := fun i => (a, i.fault)

/-- src/dataencode.cpp:155-183, the loop over children; `rec` decodes one type at depth+1.
Result: the node, the nodes of its children, the cache. -/
def getKids (rec : TypeStore → Dec (List FieldDesc × TypeStore)) :
    Nat → FieldDesc → List FieldDesc → TypeStore → Dec ((FieldDesc × List FieldDesc) × TypeStore)
  | 0, fld, kids, c => pure ((fld, kids), c)
  | n+1, fld, kids, c => do
    let name ← getStr
    let r ← rec c
    failIf r.1.isEmpty ((fld, kids), r.2) do
      getKids rec n (wireKid fld kids name r.1).1 (wireKid fld kids name r.1).2 r.2

/-- the codes of nodes without further description, src/dataencode.cpp:189-206 -/
def simpleCodes : List TypeCode :=
  [.Bool, .Int8, .Int16, .Int32, .Int64, .UInt8, .UInt16, .UInt32, .UInt64, .Float32, .Float64, .String, .Any]

/-- src/dataencode.cpp:83-98, code 0xfd: define a cache entry -/
def getTypeDefine (rec : TypeStore → Dec (List FieldDesc × TypeStore)) (c : TypeStore) : Dec (List FieldDesc × TypeStore) := do
  let key ← getInt 2
  let r ← rec c
  failIf r.1.isEmpty r do
    match r.1 with
    | [] => pure r            -- excluded by the test
    | d :: more => pure ({ d with parentIndex := 0 } :: more, r.2.emplace key r.1)

/-- src/dataencode.cpp:100-118, code 0xfe: fetch a cache entry -/
def getTypeFetch (c : TypeStore) : Dec (List FieldDesc × TypeStore) := do
  let key ← getInt 2
  match c.find? key with
  | none => failWith ([], c)
  | some t => failIf t.isEmpty ([], c) (pure (t, c))

/-- src/dataencode.cpp:134 `fld.members.empty() || fld.members[0].code!=fld.code.scalarOf()` -/
def wrongElem (t : List FieldDesc) (code : TypeCode) : Bool :=
  match t with
  | [] => true
  | d :: _ => d.code != code.scalarOf

/-- src/dataencode.cpp:130-137, Struct[] and Union[] -/
def getTypeArr (rec : TypeStore → Dec (List FieldDesc × TypeStore)) (code : TypeCode) (c : TypeStore) :
    Dec (List FieldDesc × TypeStore) := do
  let r ← rec c
  failIf (wrongElem r.1 code) ([{ code := code, members := r.1 }], r.2)
    (pure ([{ code := code, members := r.1 }], r.2))

/-- src/dataencode.cpp:139-185, Struct and Union -/
def getTypeCompound (rec : TypeStore → Dec (List FieldDesc × TypeStore)) (code : TypeCode) (c : TypeStore) :
    Dec (List FieldDesc × TypeStore) := do
  let id ← getStr
  let n ← getSize false
  let r ← getKids rec n { code := code, id := id } [] c
  pure (withKids r.1.1 r.1.2, r.2)

/-- src/dataencode.cpp:80-209, after the type code byte -/
def getTypeBody (rec : TypeStore → Dec (List FieldDesc × TypeStore)) (c : TypeStore) (code : Byte) :
    Dec (List FieldDesc × TypeStore) :=
  if code = 0xff then pure ([], c)
  else if code = 0xfd then getTypeDefine rec c
  else if code = 0xfe then getTypeFetch c
  else if code &&& 0x10 ≠ 0 then failWith ([], c)
  else if code = 0x88 ∨ code = 0x89 then getTypeArr rec ⟨code⟩ c
  else if code = 0x80 ∨ code = 0x81 then getTypeCompound rec ⟨code⟩ c
  else if (⟨code⟩ : TypeCode).scalarOf ∈ simpleCodes then pure ([{ code := ⟨code⟩ }], c)
  else failWith ([{ code := ⟨code⟩ }], c)

/-- src/dataencode.cpp:69-210 `from_wire(Buffer&, std::vector<FieldDesc>&, TypeStore&, unsigned depth)`.
The first argument is the remaining depth, `21 - depth`.  Result: the nodes appended to `descs`, and the cache.
When the code byte can not be read `code` keeps its initial value Null and the function returns.
Simplification: `miter.reserve` (:149) is not modelled. -/
def getType : Nat → TypeStore → Dec (List FieldDesc × TypeStore)
  | 0, c => failWith ([], c)
  | f+1, c => failIf false ([], c) do
      let code ← getU8
      failIf false ([], c) (getTypeBody (getType f) c code)

/-- decoding of a type as called by the protocol handlers (depth=0), e.g. src/dataencode.cpp:733 -/
def getTypeTop (c : TypeStore) : Dec (List FieldDesc × TypeStore) := getType 21 c

end Pvxs
