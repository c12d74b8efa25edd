import Verif.Model.RpcArgs
/-
The command line programs pvxput (tools/put.cpp) and pvxcall (tools/call.cpp): arguments after the options and the PV name, what is sent, and the exit status.
-/
namespace Pvxs.Tools
open Pvxs Pvxs.TypeDef Pvxs.NT Pvxs.Rpc

/-- `find_first_of('=')` and the two `substr()`, tools/put.cpp:97-105, tools/call.cpp:82-97; `none`: no '=' -/
def splitArg (a : Str) : Option (Str × Str) :=
  match a.dropWhile (· != 0x3d) with
  | [] => none
  | _ :: v => some (a.takeWhile (· != 0x3d), v)

/-- the loop tools/put.cpp:95-106; `none`: `return 1` -/
def putEach (m : SMap Str) : List Str → Option (SMap Str)
  | [] => some m
  | a :: as => match splitArg a with
    | none => none
    | some p => putEach (m.insert p.1 p.2) as

/-- tools/put.cpp:85-107 -/
def putArgs (as : List Str) : Option (SMap Str) :=
  match as with
  | [a] => match splitArg a with
    | none => some (SMap.insert (lit "value") a [])
    | some _ => putEach [] [a]
  | as => putEach [] as

/-- tools/put.cpp:120-130: the function given to `build()`, with a prototype of type `t`.  `val[name] = text` is what `set(name, text)` of a builder does
(Model/PutBuild), when it is required.  Simplified: which exception is thrown. -/
def putValue (env : CopyEnv) (rec : Assign) (t : List FieldDesc) (m : SMap Str) : Res Val :=
  PutBuild.build env rec t { values := m.map fun p => (p.1, (leafVal .String (.str p.2), true)) }

/-- the loop tools/call.cpp:80-97; `none`: `return 1` -/
def callEach (m : SMap Str) (keys : List Str) : List Str → Option (SMap Str × List Str)
  | [] => some (m, keys)
  | a :: as => match splitArg a with
    | none => none
    | some p => if (m.find? p.1).isSome then none else callEach (m.insert p.1 p.2) (keys ++ [p.1]) as

/-- tools/call.cpp:104 `uri += {Struct("query", {String(key)})}`; the two constructors check their arguments -/
def addKey (d : Def) (key : Str) : Res Def :=
  Member.validate { code := .String, name := key } >>= fun _ =>
  Member.validate { code := .Struct, name := lit "query", children := [{ code := .String, name := key }] } >>= fun _ =>
  plus d [{ code := .Struct, name := lit "query", children := [{ code := .String, name := key }] }]

/-- the loop tools/call.cpp:101-105 -/
def addKeys (d : Def) : List Str → Res Def
  | [] => .ok d
  | k :: ks => addKey d k >>= fun d => addKeys d ks

/-- tools/call.cpp:112 `query[pair.first] = pair.second` -/
def assignText (env : CopyEnv) (rec : Assign) (t : List FieldDesc) (cs : List Cell) (p : Str × Str) : Res (List Cell) :=
  member t (lit "query") >>= fun q => match q with
    | none => .throws "NoField"
    | some q => member (partType t q) p.1 >>= fun k => match k with
      | none => .throws "NoField"
      | some k => match t[q + k]? with
        | none => .ub
        | some d => copyDatum env rec d (datumAt cs (q + k)) .String (.str p.2) >>= fun x => .ok (storeCell cs (q + k) x)

/-- the loop tools/call.cpp:111-113 -/
def assignTexts (env : CopyEnv) (rec : Assign) (t : List FieldDesc) : SMap Str → List Cell → Res (List Cell)
  | [], cs => .ok cs
  | p :: ps, cs => assignText env rec t cs p >>= fun cs => assignTexts env rec t ps cs

/-- tools/call.cpp:80-113: the argument of the call; an exception is printed and the status is 1 (:154-157) -/
def callArg (env : CopyEnv) (rec : Assign) (pv : Str) (as : List Str) : Res Val :=
  match callEach [] [] as with
  | none => .throws "exit"
  | some p =>
    NT.uri [] >>= fun d => addKeys d p.2 >>= fun d => d.create >>= fun v => withPath pv v >>= fun v => match v with
      | .null => .ub
      | .mk t cs => assignTexts env rec t p.1 cs >>= fun cs => .ok (.mk t cs)

/-! ### how the programs end -/

inductive Ev where
  /-- the result callback runs: `ok` if the server has done it -/
  | result (ok : Bool)
  /-- SIGINT or SIGTERM arrives, and its handler has run -/
  | interrupt
  /-- `done.wait(timeout)` gives up: main() goes on -/
  | timeout
  /-- `done.wait(timeout)` returns since it was signalled: main() goes on -/
  | wake
deriving DecidableEq

/-- `ret`, `done` and the exit status, tools/put.cpp:115-156, tools/call.cpp:120-152 -/
structure Main where
  ret : Nat
  done : Bool := false
  status : Option Nat := none
deriving DecidableEq

/-- tools/put.cpp:131-139, :145-156, tools/call.cpp:124-135, :141-152.  `ok`: what `ret` becomes after success -/
def mainStep (ok : Nat → Nat) (m : Main) : Ev → Main
  | .result b => if m.status.isSome then m else { m with ret := if b then ok m.ret else 1, done := true }
  | .interrupt => if m.status.isSome then m else { m with done := true }
  | .timeout => if m.status.isSome ∨ m.done then m else { m with status := some 1 }
  | .wake => if m.status.isSome ∨ !m.done then m else { m with status := some m.ret }

/-- tools/put.cpp: `ret` is 0 at first (:116), and left as it is after success -/
def putMain (es : List Ev) : Main := es.foldl (mainStep id) { ret := 0 }

/-- tools/call.cpp: `ret` is 2 at first (:121), and 0 after success (:129) -/
def callMain (es : List Ev) : Main := es.foldl (mainStep fun _ => 0) { ret := 2 }

end Pvxs.Tools
