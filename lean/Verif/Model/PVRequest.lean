import Verif.Model.ValueOps
/-
Field selection: /repo/src/pvrequest.cpp.
-/
namespace Pvxs

/-- what `pvRequest["field"]` yields as far as src/pvrequest.cpp:15,21-26,53 looks at it: an invalid Value, a Value of Struct
type (the nodes from `Value::Helper::desc(fields)` on), or a Value of another type -/
inductive Fields where
  | absent
  | struct (r : List FieldDesc)
  | other

/-- the name "field" -/
def fieldName : Str := [0x66, 0x69, 0x65, 0x6c, 0x64]

/-- src/pvrequest.cpp:15,21 `pvRequest["field"]` and its type.  Simplification: the pvRequest is an invalid Value (no nodes) or
of Struct type; for these `operator[]` is one search of the table of names (modelled in general by `lookup`). -/
def fieldsOf (pvr : List FieldDesc) : Fields :=
  match pvr with
  | [] => .absent
  | d :: _ =>
    match d.mlookup.find? fieldName with
    | none => .absent
    | some off =>
      match pvr[off]? with
      | none => .absent
      | some c => if c.code = .Struct then .struct (pvr.drop off) else .other

/-- `ret[bit] = true` for each bit of a list; out of bounds is undefined -/
def setEach : List Nat → BitMask → Res BitMask
  | [], m => .ok m
  | b :: bs, m =>
    match m.set b true with
    | none => .ub
    | some m => setEach bs m

/-- src/pvrequest.cpp:28-51: one round of the loop over the requested paths; the state is `ret` and `foundrequested` -/
def requestOne (t r : List FieldDesc) (lookup : SMap Nat) (pair : Str × Nat) (s : BitMask × Bool) : Res (BitMask × Bool) :=
  match r[pair.2]? with
  | none => .ub
  | some crdesc =>
    if crdesc.code = .Struct then
      match lookup.find? pair.1 with
      | none => .ok s
      | some i =>
        match t[i]? with
        | none => .ub
        | some cdesc =>
          setEach (i :: (if crdesc.mlookup.isEmpty ∧ cdesc.code = .Struct then cdesc.mlookup.map (fun p => i + p.2) else [])) s.1
            >>= fun m => .ok (m, true)
    else .ok s

/-- src/pvrequest.cpp:28-51: the loop -/
def requestAll (t r : List FieldDesc) (lookup : SMap Nat) : List (Str × Nat) → BitMask × Bool → Res (BitMask × Bool)
  | [], s => .ok s
  | p :: ps, s => requestOne t r lookup p s >>= fun s => requestAll t r lookup ps s

/-- src/pvrequest.cpp:21-58: which bits, and `foundrequested` -/
def requestBits (t : List FieldDesc) (lookup : SMap Nat) (f : Fields) (ret : BitMask) : Res (BitMask × Bool) :=
  match f with
  | .absent => .ok (ret, true)
  | .other => .ok (ret, false)
  | .struct r =>
    match r with
    | [] => .ub
    | rd :: _ => requestAll t r lookup rd.mlookup (ret, rd.mlookup.isEmpty)

/-- src/pvrequest.cpp:60-69: `foundrequested` is required; a mask with no bit but that of the top level becomes full -/
def requestEnd (n : Nat) (s : BitMask × Bool) : Res BitMask :=
  if s.2 then
    match s.1.findSet 1 with
    | none => .ub
    | some k => if k = s.1.size then setEach (List.range n) s.1 else .ok s.1
  else .throws "pvRequest must select at least one field"

/-- src/pvrequest.cpp:19-71: everything after the mask `ret` was created -/
def requestFrom (t pvr : List FieldDesc) (desc : FieldDesc) : Option BitMask → Res BitMask
  | none => .ub
  | some ret => requestBits t desc.mlookup (fieldsOf pvr) ret >>= fun s => requestEnd desc.size s

/-- src/pvrequest.cpp:13-72 `request2mask`; `t` is the type of the value to send (from `desc` on), `pvr` that of the
pvRequest: of the request only the type matters -/
def request2mask (t pvr : List FieldDesc) : Res BitMask :=
  match t with
  | [] => .ub
  | desc :: _ => requestFrom t pvr desc (BitMask.ofBits [0] desc.size)

/-- src/pvrequest.cpp:86-91: the loop of testmask(); `mask[idx]` is only evaluated for marked fields -/
def anyMasked (mask : BitMask) : Nat → List Cell → Res Bool
  | _, [] => .ok false
  | i, c :: cs =>
    if c.valid then
      match mask.test i with
      | none => .ub
      | some true => .ok true
      | some false => anyMasked mask (i + 1) cs
    else anyMasked mask (i + 1) cs

/-- src/pvrequest.cpp:74-95 `testmask` -/
def testmask (v : Val) (mask : BitMask) : Res Bool :=
  match v with
  | .null => .ok false
  | .mk [] _ => .ok false
  | .mk (d :: _) cs => anyMasked mask 0 (if d.code = .Struct then cs.take d.size else cs.take 1)

end Pvxs
