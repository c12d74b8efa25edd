import Verif.Model.Float
import Verif.Model.BitMask
import Verif.Model.TypeDesc
/-
Model of values: storage (/repo/src/dataimpl.h:104-165, /repo/src/data.cpp:95-125) and the value codec
(/repo/src/dataencode.cpp:213-765).

A `Value` of the C++ is a handle to one field of a `StructTop`.  The model represents the value reached through a handle,
as a tree; sharing of storage between handles is modelled separately where it matters.
-/
namespace Pvxs
open Wire (Byte Out In Dec putU8 putStr putSize putInt putSel putPodArr putStrArr getU8 getStr getSize getInt getSel
  getPodArr getStrArr)

mutual
/-- src/dataimpl.h:106-121, content of `FieldStorage::store`.  Reals are the bit pattern of the double, elements of a
POD array their own bit pattern (bool: one byte). -/
inductive Datum where
  | null                                  -- StoreType::Null (a Struct node)
  | real (bits : Nat)
  | int (v : Int)
  | uint (v : Nat)
  | bool (b : Bool)
  | str (s : Str)
  | unionNull                             -- Union with nothing selected
  | union (choice : Nat) (v : Val)        -- Union; the C++ recognises the choice by the address of its descriptor
                                          -- (dataencode.cpp:288-292), the model stores its position among the members
  | any (v : Val)
  | pods (vs : List Nat)
  | strs (ss : List Str)
  | vals (vs : List Val)                  -- array of Value
/-- src/dataimpl.h:104-148 `struct FieldStorage` -/
inductive Cell where
  | mk (valid : Bool) (data : Datum)
/-- a `Value`: null, or a field with its sub-fields (`StructTop::members`, src/dataimpl.h:150-165) -/
inductive Val where
  | null
  | mk (desc : List FieldDesc) (cells : List Cell)
end

def Cell.valid : Cell → Bool | .mk b _ => b
def Cell.data : Cell → Datum | .mk _ d => d
def Val.desc : Val → List FieldDesc | .null => [] | .mk t _ => t
def Val.cells : Val → List Cell | .null => [] | .mk _ cs => cs

/-- which branch of the nested switches on `store->code` and `desc->code` (src/dataencode.cpp:216-401 and :453-687) is
taken for a field initialised by `init(desc->code.storedAs())` -/
inductive WireKind where
  | struct | f32 | f64 | int (w : Nat) | uint (w : Nat) | bool | str | union | any
  | pods (w : Nat) | strs | structs | unions | anys | bad
deriving DecidableEq, Repr

/-- src/dataencode.cpp:216-401: the case labels -/
def TypeCode.wireKind (c : TypeCode) : WireKind :=
  if c = .Struct then .struct
  else if c = .Float32 then .f32
  else if c = .Float64 then .f64
  else if c = .Int8 then .int 1
  else if c = .Int16 then .int 2
  else if c = .Int32 then .int 4
  else if c = .Int64 then .int 8
  else if c = .UInt8 then .uint 1
  else if c = .UInt16 then .uint 2
  else if c = .UInt32 then .uint 4
  else if c = .UInt64 then .uint 8
  else if c = .Bool then .bool
  else if c = .String then .str
  else if c = .Union then .union
  else if c = .Any then .any
  else if c = .BoolA ∨ c = .Int8A ∨ c = .UInt8A then .pods 1
  else if c = .Int16A ∨ c = .UInt16A then .pods 2
  else if c = .Int32A ∨ c = .UInt32A ∨ c = .Float32A then .pods 4
  else if c = .Int64A ∨ c = .UInt64A ∨ c = .Float64A then .pods 8
  else if c = .StringA then .strs
  else if c = .StructA then .structs
  else if c = .UnionA then .unions
  else if c = .AnyA then .anys
  else .bad

/-- src/data.cpp:1242-1267 `FieldStorage::init`: the initial content -/
def initDatum (c : TypeCode) : Datum :=
  match c.wireKind with
  | .struct => .null
  | .f32 | .f64 => .real 0
  | .int _ => .int 0
  | .uint _ => .uint 0
  | .bool => .bool false
  | .str => .str []
  | .union => .unionNull
  | .any => .any .null
  | .pods _ => .pods []
  | .strs => .strs []
  | .structs | .unions | .anys => .vals []
  | .bad => .null

/-- the nodes described by the pointer `&t[0]`: `desc` ... `desc+desc->size()` -/
def nodesOf (t : List FieldDesc) : List FieldDesc :=
  match t with
  | [] => []
  | d :: _ => t.take d.size

/-- the sub-table starting at `&members[off]` -/
def subTable (members : List FieldDesc) (off : Nat) : List FieldDesc := nodesOf (members.drop off)

/-- one round of the loop src/data.cpp:111-116: `desc.get()+off`, `members.at(off)` -/
def initNode (t : List FieldDesc) (d : FieldDesc) (off : Nat) : Res Unit :=
  if off < d.size then
    match t[off]? with
    | none => .ub
    | some c => c.code.storedAs >>= fun _ => .ok ()
  else .throws "out_of_range"

/-- the checks made while constructing a value of type `t`, src/data.cpp:96-122 -/
def checkNew (t : List FieldDesc) : Res Unit :=
  match t with
  | [] => .ok ()
  | d :: _ => d.code.storedAs >>= fun _ => if d.code = .Struct then d.mlookup.forM fun p => initNode t d p.2 else .ok ()

/-- src/data.cpp:96-122 `Value::Value(const std::shared_ptr<const FieldDesc>&)` -/
def newValue (t : List FieldDesc) : Res Val :=
  checkNew t >>= fun _ =>
    match t with
    | [] => .ok .null
    | _ :: _ => .ok (.mk (nodesOf t) ((nodesOf t).map fun d => .mk false (initDatum d.code)))

/-! ### encoding -/

/-- `intN_t(v)`: the bit pattern of the low w bytes -/
def intBits (w : Nat) (v : Int) : Nat := (v % (256 ^ w : Nat)).toNat

/-- sign extension of a w byte pattern to `int64_t` -/
def intOf (w : Nat) (n : Nat) : Int := if 2 * n < 256 ^ w then (n : Int) else (n : Int) - (256 ^ w : Nat)

/-- src/dataencode.cpp:382-394: only the elements of an Any[] carry their type -/
def putElemType (typed : Bool) (t : List FieldDesc) (o : Out) : Out := if typed then putType t o else o

mutual
/-- src/dataencode.cpp:213-405 `to_wire_field` for a node which is not a Struct.  A content which does not match the type
code (excluded by construction of a value) would be `assert(false)` and is a fault. -/
def putDatum (d : FieldDesc) (x : Datum) (o : Out) : Out :=
  match x with
  | .null => o.fault
  | .real b =>
    if d.code.wireKind = .f32 then putInt o 4 (narrow b)
    else if d.code.wireKind = .f64 then putInt o 8 b
    else o.fault
  | .int v => match d.code.wireKind with
    | .int w => putInt o w (intBits w v)
    | _ => o.fault
  | .uint v => match d.code.wireKind with
    | .uint w => putInt o w (v % 256 ^ w)
    | _ => o.fault
  | .bool b => if d.code.wireKind = .bool then putU8 o (if b then 1 else 0) else o.fault
  | .str s => if d.code.wireKind = .str then putStr o s else o.fault
  | .unionNull => if d.code.wireKind = .union then putSel o (-1) else o.fault
  | .union i v =>
    if d.code.wireKind = .union ∧ i < d.miter.length then putVal v (putSel o i) else o.fault
  | .any v => if d.code.wireKind = .any then putAny v o else o.fault
  | .pods vs => match d.code.wireKind with
    | .pods w => putPodArr w o vs
    | _ => o.fault
  | .strs ss => if d.code.wireKind = .strs then putStrArr o ss else o.fault
  | .vals vs =>
    if d.code.wireKind = .structs ∨ d.code.wireKind = .unions then putElems false vs (putSize o vs.length)
    else if d.code.wireKind = .anys then putElems true vs (putSize o vs.length)
    else o.fault

/-- src/dataencode.cpp:302-313 -/
def putAny (v : Val) (o : Out) : Out :=
  match v with
  | .null => putU8 o 0xff
  | .mk t cs => putCells t cs (putType t o)

/-- the loops over elements src/dataencode.cpp:357-365, :371-379, :385-394; `typed`: each element is preceded by its type -/
def putElems (typed : Bool) (vs : List Val) (o : Out) : Out :=
  match vs with
  | [] => o
  | .null :: vs => putElems typed vs (putU8 o 0)
  | .mk t cs :: vs => putElems typed vs (putCells t cs (putElemType typed t (putU8 o 1)))

/-- src/dataencode.cpp:219-228: every node in turn but the Struct nodes themselves.  The same function serves a value which
is a single non-Struct node. -/
def putCells (t : List FieldDesc) (cs : List Cell) (o : Out) : Out :=
  match t, cs with
  | [], [] => o
  | d :: t, .mk _ x :: cs => putCells t cs (if d.code = .Struct then o else putDatum d x o)
  | _, _ => o.fault

/-- src/dataencode.cpp:407-412 `to_wire_full` -/
def putVal (v : Val) (o : Out) : Out :=
  match v with
  | .null => o.fault            -- assert
  | .mk t cs => putCells t cs o
end

/-- src/dataencode.cpp:423-430: node `i` and onwards; the fields to send.  `skip` nodes are part of a sub-structure which
is already selected. -/
def selectBits (mask : Nat → Bool) (i skip : Nat) : List FieldDesc → List Cell → List Nat
  | d :: t, c :: cs =>
    match skip with
    | k+1 => selectBits mask (i+1) k t cs
    | 0 => if c.valid && mask i then i :: selectBits mask (i+1) (d.size - 1) t cs
           else selectBits mask (i+1) 0 t cs
  | _, _ => []

/-- src/dataencode.cpp:434-437; `valid.onlySet()` yields the bits just set, in order -/
def putBits (t : List FieldDesc) (cs : List Cell) : List Nat → Out → Out
  | [], o => o
  | b :: bs, o => putBits t cs bs (putCells (nodesOf (t.drop b)) ((cs.drop b).take (nodesOf (t.drop b)).length) o)

/-- `!mask || (*mask)[bit]`, src/dataencode.cpp:424 -/
def maskAllows (mask : Option BitMask) (i : Nat) : Bool :=
  match mask with
  | none => true
  | some m => m.test i == some true

/-- src/dataencode.cpp:414-438 `to_wire_valid`; `mask = none` is the null pointer.  A bit outside of the storage of the
masks (size ≥ 2^16) is undefined behaviour and modelled as a fault. -/
def putValid (mask : Option BitMask) (v : Val) (o : Out) : Out :=
  match v with
  | .null => o.fault
  | .mk t cs =>
    match t with
    | [] => o.fault
    | d :: _ =>
      if d.code ≠ .Struct ∨ (mask.any fun m => m.size ≠ d.size) then o.fault     -- asserts
      else
        let bits := selectBits (maskAllows mask) 0 0 t cs
        match (BitMask.sized d.size).setAll bits with
        | none => o.fault
        | some m => putBits t cs bits (m.toWire o)

/-! ### decoding

As elsewhere in the model a decoder yields an unspecified result when the buffer faults.  An exception thrown by the
constructor of a value is also modelled as a fault: in every caller both end the connection. -/

/-- `desc->miter[select.size]`, src/dataencode.cpp:527-530 -/
def choice? (d : FieldDesc) (k : Nat) : Option (List FieldDesc) := (d.miter[k]?).map fun p => subTable d.members p.2

abbrev ValDec := TypeStore → List FieldDesc → Dec (Val × TypeStore)

/-- src/dataencode.cpp:521-540, after the selector -/
def getUnion (rec : ValDec) (c : TypeStore) (d : FieldDesc) (s : Int) : Dec (Datum × TypeStore) :=
  if s ≤ -1 then pure (.unionNull, c)
  else match choice? d s.toNat with
    | none => failWith (.unionNull, c)
    | some t => do
      let r ← rec c t
      pure (.union s.toNat r.1, r.2)

/-- src/dataencode.cpp:632-648, one element of a Union[] after the flag byte and selector; the element becomes the
selected choice itself -/
def getUnionElem (rec : ValDec) (d : FieldDesc) (c : TypeStore) (s : Int) : Dec (Val × TypeStore) :=
  if s ≤ -1 then pure (.null, c)
  else match choice? d s.toNat with
    | none => failWith (.null, c)
    | some t => rec c t

/-- src/dataencode.cpp:542-561 and :662-677: a type followed by a value of this type -/
def getTyped (rec : ValDec) (c : TypeStore) : Dec (Val × TypeStore) := do
  let r ← getTypeTop c
  failIf false (.null, r.2) (if r.1.isEmpty then pure (.null, r.2) else rec r.2 r.1)

/-- one element, after its flag byte -/
def getElem (one : TypeStore → Dec (Val × TypeStore)) (c : TypeStore) (flag : Byte) : Dec (Val × TypeStore) :=
  if flag ≠ 0 then one c else pure (.null, c)

/-- the loops over elements src/dataencode.cpp:613-619, :630-651, :661-679 -/
def getElems (one : TypeStore → Dec (Val × TypeStore)) : Nat → TypeStore → Dec (List Val × TypeStore)
  | 0, c => pure ([], c)
  | n+1, c => do
    let f ← getU8
    let r ← getElem one c f
    let rs ← getElems one n r.2
    pure (r.1 :: rs.1, rs.2)

/-- src/dataencode.cpp:607-683: number of elements, then the elements -/
def getVals (one : TypeStore → Dec (Val × TypeStore)) (c : TypeStore) : Dec (Datum × TypeStore) := do
  let n ← getSize false
  let r ← getElems one n c
  pure (.vals r.1, r.2)

/-- `&desc->members[0]` -/
def elemDesc (d : FieldDesc) : FieldDesc := d.members.headD { code := .Null }

/-- src/dataencode.cpp:450-690 `from_wire_field` for a node which is not a Struct.
Simplification: the storage of arrays is allocated (:610 etc.) as elements arrive. -/
def getDatum (rec : ValDec) (c : TypeStore) (d : FieldDesc) : Dec (Datum × TypeStore) :=
  match d.code.wireKind with
  | .f32 => do let b ← getInt 4; pure (.real (widen b), c)
  | .f64 => do let b ← getInt 8; pure (.real b, c)
  | .int w => do let n ← getInt w; pure (.int (intOf w n), c)
  | .uint w => do let n ← getInt w; pure (.uint n, c)
  | .bool => do let b ← getU8; pure (.bool (b != 0), c)
  | .str => do let s ← getStr; pure (.str s, c)
  | .union => do let s ← getSel; getUnion rec c d s
  | .any => do let r ← getTyped rec c; pure (.any r.1, r.2)
  | .pods w => do let vs ← getPodArr w; pure (.pods vs, c)
  | .strs => do let ss ← getStrArr; pure (.strs ss, c)
  | .structs => getVals (fun c => rec c d.members) c
  | .unions => getVals (fun c => do let s ← getSel; getUnionElem rec (elemDesc d) c s) c
  | .anys => getVals (fun c => getTyped rec c) c
  | .struct | .bad => failWith (.null, c)

/-- one node of the loop src/dataencode.cpp:458-465 -/
def getCell (rec : ValDec) (mark : Bool) (c : TypeStore) (d : FieldDesc) : Dec (Cell × TypeStore) :=
  if d.code = .Struct then pure (.mk false .null, c)
  else do
    let r ← getDatum rec c d
    pure (.mk mark r.1, r.2)

/-- src/dataencode.cpp:456-467; `mark` = a field decoded as part of a structure is marked (:463), a lone field is not -/
def getCells (rec : ValDec) (mark : Bool) : TypeStore → List FieldDesc → Dec (List Cell × TypeStore)
  | c, [] => pure ([], c)
  | c, d :: t => do
    let r ← getCell rec mark c d
    let rs ← getCells rec mark r.2 t
    pure (r.1 :: rs.1, rs.2)

/-- `desc->code==TypeCode::Struct` -/
def isStruct (t : List FieldDesc) : Bool :=
  match t with
  | [] => false
  | d :: _ => d.code == .Struct

/-- construct a value of type `t` and decode its content: `Value::Helper::build()` then `from_wire_full`,
src/dataencode.cpp:692-697.  The first argument is the recursion depth still available (the C++ uses the machine stack and
does not check): exhausting it is a fault in the model, see `C06_value_depth`. -/
def getVal : Nat → ValDec
  | 0, c, _ => failWith (.null, c)
  | f+1, c, t =>
    failIf (t.isEmpty || !(newValue t).isOk) (.null, c) do
      let r ← getCells (getVal f) (isStruct t) c (nodesOf t)
      pure (.mk (nodesOf t) r.1, r.2)

/-- the Struct nodes of a sub-structure are not touched by :458-465 -/
def keepStructs : List FieldDesc → List Cell → List Cell → List Cell
  | d :: t, o :: os, n :: ns => (if d.code = .Struct then o else n) :: keepStructs t os ns
  | _, _, _ => []

/-- `cstore->valid = true`, src/dataencode.cpp:724 -/
def markFirst : List Cell → List Cell
  | [] => []
  | .mk _ x :: cs => .mk true x :: cs

/-- src/dataencode.cpp:718-726: decode the first node of `t` and those below it; `old` is the previous content -/
def getSub (rec : ValDec) (c : TypeStore) (t : List FieldDesc) (old : List Cell) : Dec (List Cell × TypeStore) := do
  let r ← getCells rec true c (nodesOf t)
  pure (markFirst (keepStructs (nodesOf t) old r.1), r.2)

/-- replace the cells `b` ... `b+new.length` -/
def splice (cs : List Cell) (b : Nat) (new : List Cell) : List Cell := cs.take b ++ new ++ cs.drop (b + new.length)

/-- src/dataencode.cpp:718-726: the loop over the nodes, starting at `bit` -/
def getBits (rec : ValDec) (t : List FieldDesc) (m : BitMask) : Nat → TypeStore → List Cell → Nat → Dec (List Cell × TypeStore)
  | 0, c, cs, _ => failWith (cs, c)          -- not reached: `bit` increases
  | n+1, c, cs, bit =>
    match t.drop bit with
    | [] => pure (cs, c)                     -- bit >= desc->size()
    | d :: more => do
      let r ← getSub rec c (d :: more) (cs.drop bit)
      match m.findSet (bit + d.size) with
      | none => failWith (cs, r.2)           -- read outside of the mask
      | some b => getBits rec t m n r.2 (splice cs bit r.1) b

/-- src/dataencode.cpp:699-727 `from_wire_valid`, for a value which is the whole structure -/
def getValid (f : Nat) (c : TypeStore) (v : Val) : Dec (Val × TypeStore) :=
  match v with
  | .null => failWith (.null, c)
  | .mk t cs => do
    let m ← BitMask.fromWire
    failIf false (.mk t cs, c) do
      match (m.resize t.length).findSet 0 with
      | none => failWith (.mk t cs, c)
      | some b => do
        let r ← getBits (getVal f) t (m.resize t.length) (t.length + 1) c cs b
        pure (.mk t r.1, r.2)

/-- src/dataencode.cpp:729-745 `from_wire_type` -/
def getTypeValue (c : TypeStore) : Dec (Val × TypeStore) := do
  let r ← getTypeTop c
  failIf false (.null, r.2) do
    match newValue r.1 with
    | .ok v => pure (v, r.2)
    | _ => failWith (.null, r.2)

/-- src/dataencode.cpp:747-765 `from_wire_type_value` -/
def getTypeAndValue (f : Nat) (c : TypeStore) : Dec (Val × TypeStore) := getTyped (getVal f) c

end Pvxs
