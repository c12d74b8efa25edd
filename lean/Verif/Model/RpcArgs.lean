import Verif.Model.PutBuild
import Verif.Model.NT
/-
The argument of a remote procedure call: `RPCBuilder` (src/pvxs/client.h:821-864, src/clientget.cpp:48-72,86-101,658-681), `Value::Helper::build` (src/data.cpp:42-94)
and `NTURI::call` (src/pvxs/nt.h:165-204).
-/
namespace Pvxs.Rpc
open Pvxs Pvxs.TypeDef Pvxs.NT

/-- what is given to `arg(name, v)`: after `impl::StoreAs<T>`, a pointer and a `StoreType`.
`plain`: Bool, Integer, UInteger, Real, String or an array of a scalar type; the code is that of the type which src/data.cpp:45-67 selects.
`vals`: an array of Value.  `value`: a Value.  `none`: an array without a type, or nothing. -/
inductive Given where
  | plain (code : TypeCode) (x : Datum)
  | vals (vs : List Val)
  | value (v : Val)
  | none

/-- a new value of a type without members, with this content; marked -/
def leafVal (code : TypeCode) (x : Datum) : Val := .mk [{ code := code }] [.mk true x]

/-- src/data.cpp:42-94 `Value::Helper::build(ptr, type)` -/
def build (env : CopyEnv) (n : Nat) : Given → Res Val
  | .plain code x => copyDatum env (assign env n) { code := code } (initDatum code) code x >>= fun y => .ok (leafVal code y)
  | .vals vs => .ok (leafVal .AnyA (.vals vs))
  | .value .null => .ok (leafVal .Any (.any .null))
  | .value (.mk t cs) => ofValue t >>= fun d => d.create >>= fun dst => assign env n dst (.mk t cs)
  | .none => .throws "logic_error"

/-- src/clientget.cpp:86-101 `PRBase::_set`, called by src/pvxs/client.h:841-847 `RPCBuilder::arg` -/
def arg (env : CopyEnv) (n : Nat) (a : PutBuild.Args) (name : Str) (g : Given) : Res PutBuild.Args :=
  if (a.values.find? name).isSome then .throws "logic_error"
  else build env n g >>= fun v => PutBuild.set a { name := name, value := v, required := true }

/-- the calls of `arg()` of a builder -/
def argAll (env : CopyEnv) (n : Nat) (a : PutBuild.Args) : List (Str × Given) → Res PutBuild.Args
  | [] => .ok a
  | x :: xs => arg env n a x.1 x.2 >>= fun a => argAll env n a xs

/-- the loop src/clientget.cpp:54-62 -/
def members (a : PutBuild.Args) : List Str → Res (List Member)
  | [] => .ok []
  | name :: more => match a.values.find? name with
    | none => .throws "logic_error"
    | some p => ofValue p.1.desc >>= fun d => d.as name >>= fun m => members a more >>= fun ms => .ok (m :: ms)

/-- `v[name]` of a structure described by the table `t`: the empty name is the structure itself -/
def member (t : List FieldDesc) (name : Str) : Res (Option Nat) :=
  if name = [] then .ok (some 0) else findField t name

/-- the type of the field at node `k` -/
def partType (t : List FieldDesc) (k : Nat) : List FieldDesc := asRoot (subTable t k)

/-- the field at node `k` -/
def part (t : List FieldDesc) (cs : List Cell) (k : Nat) : Val := .mk (partType t k) ((cs.drop k).take (partType t k).length)

/-- the cells after the field at node `k` has become `v` -/
def replace (cs : List Cell) (k : Nat) : Val → Res (List Cell)
  | .null => .ub
  | .mk _ rs => .ok (cs.take k ++ rs ++ cs.drop (k + rs.length))

/-- src/clientget.cpp:68-70, the loop body.  Both lookups are done with `operator[]`; an empty Value can not be assigned to. -/
def assignOne (env : CopyEnv) (n : Nat) (t : List FieldDesc) (cs : List Cell) (p : Str × (Val × Bool)) : Res (List Cell) :=
  member t (lit "query") >>= fun q => match q with
    | none => .throws "logic_error"
    | some q => member (partType t q) p.1 >>= fun k => match k with
      | none => .throws "logic_error"
      | some k => assign env n (part t cs (q + k)) p.2.1 >>= replace cs (q + k)

/-- src/clientget.cpp:68-70 -/
def assignEach (env : CopyEnv) (n : Nat) (t : List FieldDesc) : List (Str × (Val × Bool)) → List Cell → Res (List Cell)
  | [], cs => .ok cs
  | p :: ps, cs => assignOne env n t cs p >>= fun cs => assignEach env n t ps cs

/-- src/clientget.cpp:48-73 `Args::uriArgs` -/
def uriArgs (env : CopyEnv) (n : Nat) (a : PutBuild.Args) : Res Val :=
  NT.uri [] >>= fun d =>
  members a a.names >>= fun ms =>
  Member.validate { code := .Struct, name := lit "query", children := ms } >>= fun _ =>
  plus d [{ code := .Struct, name := lit "query", children := ms }] >>= fun d =>
  d.create >>= fun v => match v with
    | .null => .ub
    | .mk t cs => assignEach env n t a.values cs >>= fun cs => .ok (.mk t cs)

/-- src/pvxs/client.h:821-864 the state of an `RPCBuilder`, as far as the argument is concerned.  `ctx`: made by a Context.  `argument`: the Value given to
`Context::rpc(name, arg)`; null when none was given. -/
structure Builder where
  ctx : Bool := true
  autoexec : Bool := true
  name : Str
  argument : Val := .null
  args : Option PutBuild.Args := none

/-- src/clientget.cpp:675 `op->arg["path"] = _name` -/
def withPath (name : Str) : Val → Res Val
  | .null => .throws "NoField"
  | .mk t cs => member t (lit "path") >>= fun r => match r with
    | none => .throws "NoField"
    | some k => .ok (.mk t (storeCell cs k (.str name)))

/-- src/clientget.cpp:658-681 `RPCBuilder::exec`: the argument which is sent; null: none -/
def exec (env : CopyEnv) (n : Nat) (b : Builder) : Res Val :=
  if b.ctx = false then .throws "logic_error"
  else if b.autoexec = false then .throws "logic_error"
  else match b.argument with
    | .mk t cs => .ok (.mk t cs)
    | .null => match b.args with
      | none => .ok .null
      | some a => uriArgs env n a >>= withPath b.name

/-- `ctxt.rpc(name, v).arg(...)....exec()`, or `ctxt.rpc(name).arg(...)....exec()` with `v` null.  The first call of `arg()` creates the list of arguments
(src/clientget.cpp:88-89). -/
def call (env : CopyEnv) (n : Nat) (name : Str) (v : Val) (gs : List (Str × Given)) : Res Val :=
  match gs with
  | [] => exec env n { name := name, argument := v }
  | g :: gs => argAll env n {} (g :: gs) >>= fun a => exec env n { name := name, argument := v, args := some a }

/-! ### NTURI::call -/

/-- src/pvxs/nt.h:181-193 `NTURI::_assign`: the nodes of the query which are left, the arguments which are left.  Only arguments which are not a Value are modelled. -/
def assignRest (env : CopyEnv) (n : Nat) (t : List FieldDesc) : List Nat → List (TypeCode × Datum) → List Cell → Res (List Cell)
  | _, [], cs => .ok cs
  | [], _ :: _, _ => .throws "logic_error"
  | k :: ks, (code, x) :: more, cs => match t[k]? with
    | none => .ub
    | some d => copyDatum env (assign env n) d (datumAt cs k) code x >>= fun y => assignRest env n t ks more (storeCell cs k y)

/-- src/pvxs/nt.h:196-203 `NTURI::call(args...)` of an NTURI with these members in its query -/
def uriCall (env : CopyEnv) (n : Nat) (ms : List Member) (xs : List (TypeCode × Datum)) : Res Val :=
  NT.uri ms >>= fun d => d.create >>= fun v => match v with
    | .null => .ub
    | .mk t cs => member t (lit "query") >>= fun q => match q with
      | none => .throws "logic_error"
      | some q => assignRest env n t (ichildren t q) xs cs >>= fun cs => .ok (.mk t cs)

end Pvxs.Rpc
