import Verif.Model.Value
/-
Model of the operations on values: marks, iteration, lookup by name, comparison of types, assignment
(/repo/src/data.cpp:124-370, :535-1225, /repo/src/util.cpp:775-790).
-/
namespace Pvxs

/-! ### marks

Marks are part of the storage shared by all handles, and marking reaches enclosing storage, so here a heap of `StructTop`
is modelled, of which only the marks matter. -/

/-- src/dataimpl.h:150-165 `struct StructTop`: its type, the `valid` flag of each node, and the field which encloses it
(src/data.cpp:124-128) as index of a StructTop and of a node.  `alive` is false once no handle is left: `enclosing` is a
weak pointer. -/
structure Top where
  desc : List FieldDesc
  valid : List Bool
  enclosing : Option (Nat × Nat) := none
  alive : Bool := true

/-- all StructTops ever allocated -/
abbrev Heap := List Top

/-- src/pvxs/data.h `class Value`: a handle to one node -/
structure Field where
  top : Nat
  pos : Nat
deriving DecidableEq

/-- the sub-table at a node as the type of a new StructTop; `parent_index` of its root is never read, since every loop
over parents stops at `top->desc` (src/data.cpp:234, :296, :791) -/
def asRoot (t : List FieldDesc) : List FieldDesc :=
  match t with
  | [] => []
  | d :: ds => { d with parentIndex := 0 } :: ds

/-- the loop `while(pdesc!=top->desc.get())` of src/data.cpp:232-240 and :293-302: the nodes visited starting from node `i`;
`none` is an out of bounds access or an endless loop.  The first argument bounds the number of steps. -/
def ancestors (t : List FieldDesc) : Nat → Nat → Option (List Nat)
  | _, 0 => some []
  | 0, _+1 => none
  | f+1, i+1 =>
    match t[i+1]? with
    | none => none
    | some d =>
      if d.parentIndex = 0 ∨ i + 1 < d.parentIndex then none
      else (ancestors t f (i + 1 - d.parentIndex)).map fun l => (i + 1 - d.parentIndex) :: l

/-- the nodes of `range(desc->size())`, src/data.cpp:222-229 and :285-290 -/
def subNodes (t : List FieldDesc) (i : Nat) : List Nat :=
  match t[i]? with
  | none => []
  | some d => (List.range d.size).map (i + ·)

/-- src/data.cpp:209-244 `Value::isMarked` -/
def isMarked (h : Heap) (f : Field) (parents children : Bool) : Res Bool :=
  match h[f.top]? with
  | none => .ub
  | some x =>
    match ancestors x.desc f.pos f.pos with
    | none => .ub
    | some up =>
      .ok (x.valid[f.pos]? == some true
        || (children && (subNodes x.desc f.pos).any fun j => x.valid[j]? == some true)
        || (parents && up.any fun j => x.valid[j]? == some true))

/-- `valid = b` for some nodes of one StructTop -/
def setMarks (x : Top) (js : List Nat) (b : Bool) : Top := { x with valid := js.foldl (fun v j => v.set j b) x.valid }

/-- the loop src/data.cpp:264-267, starting at the StructTop `i`; the first argument bounds the number of steps -/
def markOuter : Nat → Heap → Nat → Heap
  | 0, h, _ => h
  | n+1, h, i =>
    match h[i]? with
    | none => h
    | some x =>
      match x.enclosing with
      | none => h
      | some (i', j') =>
        match h[i']? with
        | none => h
        | some y => if y.alive then markOuter n (h.set i' (setMarks y [j'] true)) i' else h

/-- src/data.cpp:254-268 `Value::mark` -/
def mark (h : Heap) (f : Field) (v : Bool) : Heap :=
  match h[f.top]? with
  | none => h
  | some x =>
    let h' := h.set f.top (setMarks x [f.pos] v)
    if v then markOuter h.length h' f.top else h'

/-- src/data.cpp:270-304 `Value::unmark` -/
def unmark (h : Heap) (f : Field) (parents children : Bool) : Heap :=
  match h[f.top]? with
  | none => h
  | some x =>
    h.set f.top (setMarks x
      (f.pos :: ((if children then subNodes x.desc f.pos else []) ++
        (if parents then (ancestors x.desc f.pos f.pos).getD [] else []))) false)

/-- what user code can do to the marks -/
inductive MarkOp where
  | build (t : List FieldDesc) (enclosing : Option Field)     -- a new value, e.g. by selecting a Union, or allocMember()
  | mark (f : Field) (v : Bool)
  | unmark (f : Field) (parents children : Bool)
  | drop (top : Nat)                                          -- the last handle is released

/-- one step -/
def markStep (h : Heap) : MarkOp → Heap
  | .build t enc => h ++ [{ desc := t, valid := t.map fun _ => false, enclosing := enc.map fun f => (f.top, f.pos) }]
  | .mark f v => mark h f v
  | .unmark f p c => unmark h f p c
  | .drop i => match h[i]? with
    | none => h
    | some x => h.set i { x with alive := false }

def markRun (h : Heap) (ops : List MarkOp) : Heap := ops.foldl markStep h

/-! ### iteration.  An iterator over a Struct yields nodes, here by index in the table; over a Union, choices. -/

/-- src/data.cpp:1007-1041, `iall()` of the Struct at node `i` -/
def iall (t : List FieldDesc) (i : Nat) : List Nat :=
  match t[i]? with
  | none => []
  | some d => if d.code = .Struct then (List.range d.mlookup.length).map fun pos => i + 1 + pos else []

/-- src/data.cpp:1043-1078, `ichildren()` of the Struct at node `i` -/
def ichildren (t : List FieldDesc) (i : Nat) : List Nat :=
  match t[i]? with
  | none => []
  | some d => if d.code = .Struct then d.miter.map fun p => i + p.2 else []

/-- `desc->size()` of node `i` -/
def sizeAt (t : List FieldDesc) (i : Nat) : Nat :=
  match t[i]? with
  | none => 0
  | some d => d.size

/-- src/data.cpp:1089-1100, the loop of `_next_marked`: the next position, and nextcheck.  `i` is the Struct, `n` its
mlookup.size(); the first argument is `n - pos`. -/
def scanMarked (t : List FieldDesc) (valid : Nat → Bool) (i : Nat) : Nat → Nat → Nat × Nat
  | 0, pos => (pos, pos)
  | k+1, pos => if valid (i + 1 + pos) then (pos, pos + sizeAt t (i + 1 + pos)) else scanMarked t valid i k (pos + 1)

/-- src/data.cpp:1080-1100 `_next_marked` -/
def nextMarked (t : List FieldDesc) (valid : Nat → Bool) (i n pos nextcheck : Nat) : Nat × Nat :=
  if pos < nextcheck then (pos, nextcheck) else scanMarked t valid i (n - pos) pos

/-- from one position of the iterator to the end, src/data.cpp:1132-1191; the first argument bounds the number of steps -/
def imarkedFrom (t : List FieldDesc) (valid : Nat → Bool) (i n : Nat) : Nat → Nat × Nat → List Nat
  | 0, _ => []
  | k+1, (pos, nc) => if pos = n then [] else (i + 1 + pos) :: imarkedFrom t valid i n k (nextMarked t valid i n (pos + 1) nc)

/-- `imarked()` of the Struct at node `i` -/
def imarked (t : List FieldDesc) (valid : Nat → Bool) (i : Nat) : List Nat :=
  match t[i]? with
  | none => []
  | some d =>
    if d.code = .Struct then
      imarkedFrom t valid i d.mlookup.length (d.mlookup.length + 1) (nextMarked t valid i d.mlookup.length 0 0)
    else []

/-! ### types -/

mutual
/-- src/data.cpp:325-370 `Value::_equal`.  `[]` is the null pointer. -/
def equalType (A B : List FieldDesc) : Res Bool :=
  match A, B with
  | [], [] => .ok true
  | [], _ :: _ => .ok false
  | _ :: _, [] => .ok false
  | a :: A, b :: B => if a.size ≠ b.size then .ok false else equalNodes a.size (a :: A) (b :: B)
termination_by (sizeOf A, 2)
decreasing_by
  · exact Prod.Lex.right _ (by omega)

/-- the loop :341-367 -/
def equalNodes (n : Nat) (A B : List FieldDesc) : Res Bool :=
  match n, A, B with
  | 0, _, _ => .ok true
  | n+1, a :: A, b :: B => do
    let same ← equalNode a b
    if same then equalNodes n A B else .ok false
  | _+1, _, _ => .ub
termination_by (sizeOf A, 1)
decreasing_by
  · apply Prod.Lex.left; simp; omega
  · apply Prod.Lex.left; simp; omega

/-- the loop body :342-366 -/
def equalNode (a b : FieldDesc) : Res Bool :=
  if a.code ≠ b.code then .ok false
  else if a.code = .StructA ∨ a.code = .UnionA then
    if a.members.isEmpty ∨ b.members.isEmpty then .ub else equalType a.members b.members
  else if a.code = .Struct ∨ a.code = .Union then equalLookup (a.code == .Union) a.members b.members a.mlookup b.mlookup
  else .ok true
termination_by (sizeOf a, 0)
decreasing_by
  · apply Prod.Lex.left; cases a; simp; omega
  · apply Prod.Lex.left; cases a; simp; omega

/-- the loop :354-365: only the end of `a.mlookup` is tested -/
def equalLookup (isUnion : Bool) (am bm : List FieldDesc) (l l' : SMap Nat) : Res Bool :=
  match l, l' with
  | [], _ => .ok true
  | _ :: _, [] => .ub
  | (n, o) :: l, (n', o') :: l' =>
    if n ≠ n' then .ok false
    else if o ≠ o' then .ok false
    else if isUnion then do
      let same ← (if am.length ≤ o ∨ bm.length ≤ o then .ub else equalType (am.drop o) (bm.drop o))
      if same then equalLookup isUnion am bm l l' else .ok false
    else equalLookup isUnion am bm l l'
termination_by (sizeOf am, 3 + l.length)
decreasing_by
  · have : sizeOf (am.drop o) ≤ sizeOf am := by
      obtain ⟨p, hp⟩ := List.drop_suffix o am
      have : sizeOf (p ++ am.drop o) ≥ sizeOf (am.drop o) := by
        clear hp
        induction p with
        | nil => simp
        | cons a p ih => simp only [List.cons_append, List.cons.sizeOf_spec]; omega
      rwa [hp] at this
    rcases Nat.lt_or_eq_of_le this with h | h
    · exact Prod.Lex.left _ _ h
    · rw [h]; exact Prod.Lex.right _ (by omega)
  · exact Prod.Lex.right _ (by simp)
  · exact Prod.Lex.right _ (by simp)
end

/-- src/data.cpp:372-399 `Value::nameOf`, for the node `j` of a Struct value -/
def nameOf (t : List FieldDesc) (j : Nat) : Res Str :=
  match t with
  | [] => .throws "NoField"
  | d :: _ =>
    if j = 0 ∨ d.mlookup.length < j then .throws "not a descendant"
    else match List.find? (fun p => p.2 == j) d.mlookup with
      | none => .throws "missing descendant"
      | some p => .ok p.1

/-! ### lookup -/

/-- a handle, as seen by a lookup: the StructTop and the node in it.  Simplification: what an Any holds is regarded as the
root of its StructTop. -/
structure Handle where
  desc : List FieldDesc
  cells : List Cell
  pos : Nat

def Val.handle? : Val → Option Handle
  | .null => none
  | .mk t cs => some ⟨t, cs, 0⟩

/-- isspace() in the "C" locale -/
def isSpace (c : Wire.Byte) : Bool := c == 0x20 || (decide (0x09 ≤ c) && decide (c ≤ 0x0d))

/-- value of a digit, or 36 -/
def digitVal (c : Wire.Byte) : Nat :=
  if 0x30 ≤ c ∧ c ≤ 0x39 then c.toNat - 0x30
  else if 0x61 ≤ c ∧ c ≤ 0x7a then c.toNat - 0x61 + 10
  else if 0x41 ≤ c ∧ c ≤ 0x5a then c.toNat - 0x41 + 10
  else 36

def isDigit (base : Nat) (c : Wire.Byte) : Bool := decide (digitVal c < base)

/-- strtoull()'s choice of base: "0x" only when followed by a hex digit, else "0" is octal -/
def numBase (s : Str) : Nat × Str :=
  match s with
  | 0x30 :: 0x78 :: c :: r => if isDigit 16 c then (16, c :: r) else (8, s)
  | 0x30 :: 0x58 :: c :: r => if isDigit 16 c then (16, c :: r) else (8, s)
  | 0x30 :: _ => (8, s)
  | _ => (10, s)

def digitsVal (base : Nat) (s : Str) : Nat := s.foldl (fun n c => n * base + digitVal c) 0

/-- the unsigned part: no digits is invalid, too large is out of range, then only space may follow -/
def parseDigits (neg : Bool) (s : Str) : Option Nat :=
  let (base, s) := numBase s
  let ds := s.takeWhile (isDigit base)
  let n := digitsVal base ds
  if ds = [] ∨ 2 ^ 64 ≤ n ∨ !((s.dropWhile (isDigit base)).all isSpace) then none
  else some (if neg then (2 ^ 64 - n) % 2 ^ 64 else n)

/-- src/util.cpp:775-790 `parseTo<uint64_t>`, `std::stoull(s, &idx, 0)`; `none` is a thrown NoConvert -/
def parseU64 (s : Str) : Option Nat :=
  match s.dropWhile isSpace with
  | 0x2d :: r => parseDigits true r
  | 0x2b :: r => parseDigits false r
  | r => parseDigits false r

/-- characters which end the name of a member of a Struct: `<[-`, src/data.cpp:823 -/
def endsName (c : Wire.Byte) : Bool := c == 0x3c || c == 0x5b || c == 0x2d
/-- characters which end the name of a choice: `<[-.`, src/data.cpp:867 -/
def endsChoice (c : Wire.Byte) : Bool := endsName c || c == 0x2e

/-- `expr[pos]=='[' && sep!=npos && sep-pos>=2`, src/data.cpp:917-920: the index, and what follows the `]` -/
def splitIndex (s : Str) : Option (Str × Str) :=
  match s with
  | 0x5b :: r =>
    match r.dropWhile (· != 0x5d) with
    | [] => none
    | _ :: rest => if r.takeWhile (· != 0x5d) = [] then none else some (r.takeWhile (· != 0x5d), rest)
  | _ => none

/-- which choice of `d` is at `members[o]` -/
def choiceAt (d : FieldDesc) (o : Nat) (i : Nat) : Bool := (d.miter[i]?).map (·.2) == some o

/-- what the lookup does next with the rest of the expression.  `dot`: a '.' is expected (`maybedot`) -/
inductive Step where
  | go (dot : Bool) (rest : Str) (h : Handle)
  | null                                  -- an invalid Value
  | throws                                -- an exception, also from operator[]
  | ub

/-- src/data.cpp:804-846, Struct; `first`: nothing of the expression has been consumed (`sep>0`) -/
def stepStruct (first dot : Bool) (s : Str) (h : Handle) (d : FieldDesc) : Step :=
  if dot ∧ s.head? ≠ some 0x2e then .null
  else
    let s := if dot then s.tail else s
    let name := s.takeWhile (fun c => !endsName c)
    let rest := s.dropWhile (fun c => !endsName c)
    if first && !dot && name.isEmpty && !rest.isEmpty then .null
    else match d.mlookup.find? name with
      | some o => .go false rest { h with pos := h.pos + o }
      | none => .null

/-- src/data.cpp:865-905, Union, after "->".  With `modify` a choice which is not selected is selected; the model then
continues in a new value. -/
def stepUnion (modify : Bool) (s : Str) (d : FieldDesc) (x : Datum) : Step :=
  let name := s.takeWhile (fun c => !endsChoice c)
  let rest := s.dropWhile (fun c => !endsChoice c)
  match d.mlookup.find? name, x with
  | some o, .union i (.mk t cs) =>
    if choiceAt d o i then .go true rest ⟨t, cs, 0⟩
    else if modify then
      match newValue (subTable d.members o) with
      | .ok (.mk t cs) => .go true rest ⟨t, cs, 0⟩
      | .ub => .ub
      | _ => .throws
    else .null
  | some o, _ =>
    if modify then
      match newValue (subTable d.members o) with
      | .ok (.mk t cs) => .go true rest ⟨t, cs, 0⟩
      | .ub => .ub
      | _ => .throws
    else .null
  | none, .union _ (.mk t cs) => .go false s ⟨t, cs, 0⟩
  | none, _ => .null

/-- src/data.cpp:858-863, Any, after "->" -/
def stepAny (s : Str) (x : Datum) : Step :=
  match x with
  | .any (.mk t cs) => .go false s ⟨t, cs, 0⟩
  | _ => .null

/-- src/data.cpp:909-947, array of Struct, Union or Any -/
def stepIndex (s : Str) (x : Datum) : Step :=
  match splitIndex s with
  | none => .null
  | some (num, rest) =>
    match parseU64 num with
    | none => .throws
    | some n =>
      match x with
      | .vals vs => match vs[n]? with
        | some (.mk t cs) => .go true rest ⟨t, cs, 0⟩
        | _ => .null
      | _ => .null

/-- src/data.cpp:788-800, parent -/
def stepParent (dot : Bool) (s : Str) (h : Handle) (d : FieldDesc) : Step :=
  if h.pos = 0 then .null
  else if h.pos < d.parentIndex then .ub
  else .go dot s { h with pos := h.pos - d.parentIndex }

/-- the content of a node -/
def datumAt (cs : List Cell) (i : Nat) : Datum := match cs[i]? with | some c => c.data | none => .null

/-- the loop body src/data.cpp:786-956 -/
def stepLookup (modify first dot : Bool) (s : Str) (h : Handle) : Step :=
  match h.desc[h.pos]? with
  | none => .ub
  | some d =>
    match s with
    | 0x3c :: r => stepParent dot r h d
    | _ =>
      if d.code = .Struct then stepStruct first dot s h d
      else if d.code = .Union ∨ d.code = .Any then
        match s with
        | 0x2d :: 0x3e :: r => if d.code = .Any then stepAny r (datumAt h.cells h.pos) else stepUnion modify r d (datumAt h.cells h.pos)
        | _ => .null
      else if d.code = .StructA ∨ d.code = .UnionA ∨ d.code = .AnyA then stepIndex s (datumAt h.cells h.pos)
      else .null

/-- each round consumes a part of the expression, or (a member with an empty name) goes on to a later node -/
def advances (s rest : Str) (h h' : Handle) : Bool :=
  decide (rest.length < s.length) ||
    (decide (rest.length = s.length) && decide (h'.desc.length = h.desc.length) && decide (h.pos < h'.pos) && decide (h'.pos < h'.desc.length))

/-- src/data.cpp:781-962 `Value::traverse`; `first`: no round has been made.  A round which does not advance could only be made outside of
the table. -/
def traverse (modify first dot : Bool) (s : Str) (h : Handle) : Res (Option Handle) :=
  match s with
  | [] => .ok (some h)
  | c :: s =>
    match stepLookup modify first dot (c :: s) h with
    | .go dot rest h' =>
      if _ok : advances (c :: s) rest h h' = true then traverse modify false dot rest h' else .ub
    | .null => .ok none
    | .throws => .throws "NoConvert"
    | .ub => .ub
termination_by (s.length, h.desc.length - h.pos)
decreasing_by
  simp only [advances, Bool.or_eq_true, decide_eq_true_eq, Bool.and_eq_true] at _ok
  rcases _ok with h1 | ⟨⟨⟨h1, h2⟩, h3⟩, h4⟩
  · exact Prod.Lex.left _ _ h1
  · rw [h1]
    exact Prod.Lex.right _ (by omega)

/-- src/data.cpp:964-976 `Value::operator[]` -/
def index (modify : Bool) (h : Handle) (expr : Str) : Res (Option Handle) := traverse modify true false expr h

/-- src/data.cpp:978-990 `Value::lookup` -/
def lookup (modify : Bool) (h : Handle) (expr : Str) : Res Handle :=
  index modify h expr >>= fun r => match r with
    | some h => .ok h
    | none => .throws "LookupError"

/-! ### assignment -/

/-- What the model of assignment leaves open.  `same a b`: the two types are one object in memory (pointer comparison,
src/data.cpp:627).  `conv`: assignment of content of one storage class to a field of another, or between arrays of
different element type (src/data.cpp:505-518, :592-604, :648-650, :671-673, :705-728). -/
structure CopyEnv where
  same : List FieldDesc → List FieldDesc → Bool
  conv : TypeCode → TypeCode → Datum → Res Datum

/-- the Value held by a Union or Any field -/
def heldBy : Datum → Val
  | .union _ v => v
  | .any v => v
  | _ => .null

/-- src/data.cpp:544-604: scalars and strings, of the same storage class -/
def copyScalar (env : CopyEnv) (code sc : TypeCode) (x : Datum) : Res Datum :=
  match code.wireKind, x with
  | .f64, .real b => .ok (.real b)
  | .f32, .real b => .ok (.real (widen (narrow b)))
  | .int w, .int v => .ok (.int (intOf w (intBits w v)))
  | .int w, .uint v => .ok (.int (intOf w (v % 256 ^ w)))
  | .uint w, .uint v => .ok (.uint (v % 256 ^ w))
  | .uint w, .int v => .ok (.uint (intBits w v))
  | .bool, .bool b => .ok (.bool b)
  | .bool, .int v => .ok (.bool (v != 0))
  | .bool, .uint v => .ok (.bool (v != 0))
  | .str, .str s => .ok (.str s)
  | _, _ => env.conv code sc x

/-- `src.empty()` -/
def emptyArray : Datum → Bool
  | .pods [] => true
  | .strs [] => true
  | .vals [] => true
  | _ => false

/-- the name of a member is looked up with `operator[]` (src/data.cpp:742 and :748), whatever characters it contains.  A name
which contains one of `<[-` is only looked up up to that character; when such a prefix is itself a member the lookup goes
on in ways which are not modelled here (`ub`). -/
def findField (t : List FieldDesc) (name : Str) : Res (Option Nat) :=
  match t with
  | [] => .ub
  | d :: _ =>
    if name.any endsName then
      match d.mlookup.find? (name.takeWhile fun c => !endsName c) with
      | none => .ok none
      | some _ => .ub
    else .ok (d.mlookup.find? name)

/-- `dfld.mark()` -/
def markCell (cs : List Cell) (j : Nat) : List Cell :=
  match cs[j]? with
  | some (.mk _ x) => cs.set j (.mk true x)
  | none => cs

/-- store and mark -/
def storeCell (cs : List Cell) (j : Nat) (x : Datum) : List Cell := cs.set j (.mk true x)

/-- the position among `miter` of the first choice of `d` whose type equals `t`, src/data.cpp:683-688 -/
def firstChoice (d : FieldDesc) (t : List FieldDesc) : Nat → List (Str × Nat) → Res (Option Nat)
  | _, [] => .ok none
  | k, (_, o) :: more => do
    let same ← equalType t (d.members.drop o)
    if same then .ok (some k) else firstChoice d t (k+1) more

/-- does a Value[] need conversion to the element type, src/data.cpp:622-632 -/
def needConvert (env : CopyEnv) (d : FieldDesc) (vs : List Val) : Bool :=
  d.code != .AnyA && vs.any fun v => match v with
    | .null => false
    | .mk t _ => !env.same t d.members

/-- `valid` of each node -/
def validAt (cs : List Cell) (i : Nat) : Bool := match cs[i]? with | some c => c.valid | none => false

/-- assignment from one value to another, of sub-values: `Value::assign` with recursion bound by the first argument -/
abbrev Assign := Val → Val → Res Val

/-- convert the elements of a Value[], src/data.cpp:633-641 -/
def convertVals (rec : Assign) (d : FieldDesc) : List Val → Res (List Val)
  | [] => .ok []
  | .null :: vs => do let r ← convertVals rec d vs; .ok (.null :: r)
  | v :: vs => do
    let e ← newValue d.members
    let e ← rec e v
    let r ← convertVals rec d vs
    .ok (e :: r)

/-- src/data.cpp:608-660, arrays; `sc`: the element type of the source is that of the field it is stored in -/
def copyArray (env : CopyEnv) (rec : Assign) (d : FieldDesc) (sc : TypeCode) (x : Datum) : Res Datum :=
  if emptyArray x then .ok (initDatum d.code)
  else match x with
    | .vals vs =>
      if d.code = .StructA ∨ d.code = .UnionA ∨ d.code = .AnyA then
        if needConvert env d vs then do let r ← convertVals rec d vs; .ok (.vals r) else .ok (.vals vs)
      else .throws "NoConvert"
    | .pods _ => if d.code = sc then .ok x else env.conv d.code sc x
    | .strs _ => if d.code = sc then .ok x else env.conv d.code sc x
    | _ => .throws "NoConvert"

/-- src/data.cpp:678-702, Union from the Value held by another Union or Any; `old`: present content -/
def copyUnion (rec : Assign) (d : FieldDesc) (old : Datum) (src : Val) : Res Datum := do
  let k ← firstChoice d src.desc 0 d.miter
  match k with
  | some k => do
    let temp ← newValue (subTable d.members ((d.miter[k]?).map (·.2) |>.getD 0))
    let temp ← rec temp src
    .ok (.union k temp)
  | none => match old with
    | .union _ _ => .ok old
    | _ => .throws "NoConvert"

/-- src/data.cpp:535-770 `Value::copyIn` for a node which is not a Struct: the new content.
`old`: present content; `sc`, `x`: type code and content of the source field. -/
def copyDatum (env : CopyEnv) (rec : Assign) (d : FieldDesc) (old : Datum) (sc : TypeCode) (x : Datum) : Res Datum :=
  match d.code.wireKind with
  | .struct | .bad => .throws "NoConvert"
  | .pods _ | .strs | .structs | .unions | .anys => copyArray env rec d sc x
  | .any => if sc = .Union ∨ sc = .Any then .ok (.any (heldBy x)) else env.conv d.code sc x
  | .union => if sc = .Union ∨ sc = .Any then copyUnion rec d old (heldBy x) else env.conv d.code sc x
  | _ => copyScalar env d.code sc x

/-- the loop body src/data.cpp:739-760; `j`: node of the source -/
def copyField (env : CopyEnv) (rec : Assign) (st : List FieldDesc) (scs : List Cell) (t : List FieldDesc) (cs : List Cell)
    (j : Nat) : Res (List Cell) := do
  let name ← nameOf st j
  let r ← findField t name
  match st[j]?, r with
  | none, _ => .ub
  | some sd, none => if sd.code = .Struct then .ok cs else .throws "NoField"
  | some sd, some k =>
    if sd.code = .Struct then .ok (markCell cs k)
    else match t[k]? with
      | none => .ub
      | some d => do
        let x ← copyDatum env rec d (datumAt cs k) sd.code (datumAt scs j)
        .ok (storeCell cs k x)

def copyFields (env : CopyEnv) (rec : Assign) (st : List FieldDesc) (scs : List Cell) (t : List FieldDesc) :
    List Nat → List Cell → Res (List Cell)
  | [], cs => .ok cs
  | j :: js, cs => do
    let cs ← copyField env rec st scs t cs j
    copyFields env rec st scs t js cs

/-- src/data.cpp:153-168 `Value::assign` and the Struct case :731-765.  A Compound (Union, Any or an array of those or of
Struct) is given the source value as a whole, not its content.
Simplifications: when an exception is thrown the fields already assigned stay so in the C++, here there is no result;
marks above the assigned value (`Value::mark`) are the subject of `mark`. -/
def assign (env : CopyEnv) : Nat → Assign
  | 0, _, _ => .ub
  | _+1, .null, _ => .throws "logic_error"
  | _+1, .mk _ _, .null => .throws "logic_error"
  | n+1, .mk t cs, .mk st scs =>
    match t, st with
    | d :: _, sd :: _ =>
      if d.code = .Struct then
        if sd.code = .Struct then do
          let cs ← copyFields env (assign env n) st scs t (imarked st (validAt scs) 0) cs
          .ok (.mk t (if validAt scs 0 then markCell cs 0 else cs))
        else .throws "NoConvert"
      else do
        let x ← (if d.code = .Any then .ok (.any (.mk st scs))
          else if d.code = .Union then copyUnion (assign env n) d (datumAt cs 0) (.mk st scs)
          else if d.code = .StructA ∨ d.code = .UnionA ∨ d.code = .AnyA then .throws "NoConvert"
          else copyDatum env (assign env n) d (datumAt cs 0) sd.code (datumAt scs 0))
        .ok (.mk t (storeCell cs 0 x))
    | _, _ => .ub

/-- src/data.cpp:142-151 `Value::clone` -/
def clone (env : CopyEnv) (n : Nat) (v : Val) : Res Val := do
  let e ← newValue v.desc
  match e, v with
  | .null, _ => .ok .null
  | e, v => assign env n e v

/-- src/data.cpp:188-204: by `s.code`, the kind of storage -/
def clearDatum : Datum → Datum
  | .null => .null
  | .real _ => .real 0
  | .int _ => .int 0
  | .uint _ => .uint 0
  | .bool _ => .bool false
  | .str _ => .str []
  | .unionNull | .union _ _ => .unionNull
  | .any _ => .any .null
  | .pods _ => .pods []
  | .strs _ => .strs []
  | .vals _ => .vals []

/-- the loop src/data.cpp:184-205: the first `n` cells -/
def clearFirst : Nat → List Cell → List Cell
  | 0, cs => cs
  | _, [] => []
  | n + 1, .mk _ x :: cs => .mk false (clearDatum x) :: clearFirst n cs

/-- src/data.cpp:179-207 `Value::clear` through the handle of field `i` -/
def clearAt (t : List FieldDesc) (cs : List Cell) (i : Nat) : List Cell :=
  match t[i]? with
  | none => cs
  | some d => cs.take i ++ clearFirst d.size (cs.drop i)

/-- of a whole value -/
def clearVal : Val → Val
  | .null => .null
  | .mk t cs => .mk t (clearAt t cs 0)

end Pvxs
