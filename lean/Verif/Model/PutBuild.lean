import Verif.Model.ValueOps
/-
The values of a put which are given by name: src/clientget.cpp:22-46,78-101 (`PRBase::Args`, `PutBuilder::set`).

Simplification: names which contain one of `<[-`, that is expressions which leave the structure of the prototype, are not modelled (`ub`).
-/
namespace Pvxs.PutBuild

/-- one call of `set(name, value, required)`.  `value` is what src/data.cpp:42-94 `Value::Helper::build` made of the argument: its type follows that of the argument -/
structure Arg where
  name : Str
  value : Val
  required : Bool

/-- src/clientget.cpp:24-25 -/
structure Args where
  values : SMap (Val × Bool) := []
  names : List Str := []

/-- src/clientget.cpp:86-101 `PRBase::_set` -/
def set (a : Args) (x : Arg) : Res Args :=
  if (a.values.find? x.name).isSome then .throws "logic_error"
  else .ok { values := a.values.insert x.name (x.value, x.required), names := a.names ++ [x.name] }

/-- the calls of `set()` of a builder -/
def setAll (a : Args) : List Arg → Res Args
  | [] => .ok a
  | x :: xs => set a x >>= fun a => setAll a xs

/-- src/clientget.cpp:33, `ret[name]`: src/data.cpp:781-846 for a plain name; the empty name is the value itself.  (Agrees with `index`: see `fieldOf_index`.) -/
def fieldOf (t : List FieldDesc) (name : Str) : Res (Option Nat) :=
  if name = [] then .ok (some 0)
  else if name.any endsName then .ub
  else match t with
    | [] => .ub
    | d :: _ => if d.code = .Struct then .ok (d.mlookup.find? name) else .ok none

/-- src/clientget.cpp:35-36 `fld.copyIn(&store->store, store->code)`: the new content of a field described by `d`.  The storage code of a Struct is Null: this is not
convertible (src/data.cpp:732,764), and unselects a Union or Any (:661-664). -/
def copyFrom (env : CopyEnv) (rec : Assign) (d : FieldDesc) (old : Datum) (v : Val) : Res Datum :=
  match v with
  | .mk (sd :: _) (.mk _ x :: _) =>
    if sd.code = .Struct then (if d.code = .Union ∨ d.code = .Any then .ok (initDatum d.code) else .throws "NoConvert")
    else copyDatum env rec d old sd.code x
  | _ => .ub

/-- src/clientget.cpp:34-40: `fld.copyIn()` failed or not; `cs` is what was there -/
def stored (required : Bool) (cs : List Cell) (k : Nat) : Res Datum → Res (List Cell)
  | .ok x => .ok (storeCell cs k x)
  | .throws w => if w = "NoConvert" ∧ required = false then .ok cs else .throws w
  | .ub => .ub

/-- src/clientget.cpp:32-45, the loop body -/
def buildOne (env : CopyEnv) (rec : Assign) (t : List FieldDesc) (cs : List Cell) (p : Str × (Val × Bool)) : Res (List Cell) :=
  fieldOf t p.1 >>= fun r => match r with
    | none => if p.2.2 then .throws "runtime_error" else .ok cs
    | some k => match t[k]? with
      | none => .ub
      | some d => stored p.2.2 cs k (copyFrom env rec d (datumAt cs k) p.2.1)

def buildEach (env : CopyEnv) (rec : Assign) (t : List FieldDesc) : List (Str × (Val × Bool)) → List Cell → Res (List Cell)
  | [], cs => .ok cs
  | p :: ps, cs => buildOne env rec t cs p >>= fun cs => buildEach env rec t ps cs

/-- src/clientget.cpp:28-46 `Args::build`, of a prototype of type `t` -/
def build (env : CopyEnv) (rec : Assign) (t : List FieldDesc) (a : Args) : Res Val :=
  newValue t >>= fun v => match v with
    | .null => .ub
    | .mk t cs => buildEach env rec t a.values cs >>= fun cs => .ok (.mk t cs)

end Pvxs.PutBuild
