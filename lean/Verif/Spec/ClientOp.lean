import Verif.Model.ClientOp
/-
Histories of a client operation and what can be observed of them.
-/
namespace Pvxs.Spec.COp
open ClientOp

/-- how often, and with what, the callback `cb` is called -/
def callsOf (cb : Nat) (outs : List Out) : List Outcome :=
  outs.filterMap fun x => match x with
    | .called c o => if c = cb then some o else none
    | _ => none

/-- a new operation, as the builders make it -/
def fresh (kind : Kind) (autoExec getOput hasInit : Bool) (cb : Nat) (arg : Option Nat) : Op :=
  { kind := kind, autoExec := autoExec, getOput := getOput, hasInit := hasInit, done := some cb, arg := arg }

/-- the operation starts (with a channel which is up or not, or without) and then `es` happens -/
def history (o : Op) (fail up : Bool) (es : List Ev) : Op × List Out :=
  let (o1, outs1) := begin o fail up
  let (o2, outs2) := run o1 es
  (o2, outs1 ++ outs2)

/-- the messages sent -/
def sentOf (outs : List Out) : List Msg := outs.filterMap fun x => match x with
  | .sent m => some m
  | _ => none

/-- the put builder calls cancel() -/
def Cancels : BuildAct → Prop
  | .value _ c => c = true
  | .throws c => c = true

/-- an answer of the server, and what the callbacks it triggers do -/
structure Answer where
  ok : Bool
  data : Nat
  onInit : InitAct
  build : BuildAct

/-- the server's reply to a request repeats its subcmd -/
def answer (m : Msg) (a : Answer) : Reply :=
  { init := decide (m = .init), get := decide (m = .get), ok := a.ok, data := a.data }

/-- the last request sent -/
def lastSent (outs : List Out) : Option Msg := (sentOf outs).getLast?

/-- the server answers the request `m` and those which follow -/
def serve (o : Op) (m : Option Msg) : List Answer → Op × List Out
  | [] => (o, [])
  | a :: as =>
    match m with
    | none => (o, [])
    | some m =>
      let (o1, outs1) := step o (.reply (answer m a) a.onInit a.build)
      let (o2, outs2) := serve o1 (lastSent outs1) as
      (o2, outs1 ++ outs2)

/-- nothing cancels the operation -/
def Undisturbed (es : List Ev) : Prop :=
  ∀ e ∈ es, e ≠ .cancel ∧ e ≠ .drop ∧ ∀ r i b, e = .reply r i b → i ≠ .cancels ∧ ¬ Cancels b

/-- why a callback is given a result: the event during which it is called -/
def Explains : Ev → Outcome → Prop
  | .reply r _ _, .value d => r.ok = true ∧ r.init = false ∧ r.data = d
  | .reply r _ _, .remote => r.ok = false
  | .reply r _ b, .builder => r.ok = true ∧ ∃ c, b = .throws c
  | .reply r i _, .init => r.ok = true ∧ i = .throws
  -- the client closes the connection because of the reply
  | .reply r _ _, .disconnect => r.cmd = false ∨ r.init = true ∨ r.get = true
  | .down, .disconnect => True
  | .reExec _ _ _, .invalid => True
  | _, _ => False

/-- a request which makes the server act -/
def isExec : Msg → Bool
  | .exec _ => true
  | _ => false

/-- the number of times the server is asked to execute -/
def execs (outs : List Out) : Nat := ((sentOf outs).filter isExec).length

/-- the connection is never lost -/
def Steady (es : List Ev) (outs : List Out) : Prop := .down ∉ es ∧ .closed ∉ outs

def isReExec : Ev → Bool
  | .reExec _ _ _ => true
  | _ => false

/-- the callbacks of the reExec calls which caused a request to be sent, in order -/
def accepted (o : Op) : List Ev → List Nat
  | [] => []
  | e :: es =>
    (match e with
      | .reExec _ _ cb => if (sentOf (step o e).2).isEmpty then [] else [cb]
      | _ => []) ++ accepted (step o e).1 es

/-- all calls, in order -/
def callList (outs : List Out) : List (Nat × Outcome) := outs.filterMap fun x => match x with
  | .called c o => some (c, o)
  | _ => none

/-- the server has no error to report, and onInit() does not throw -/
def Smooth (es : List Ev) : Prop := ∀ r i b, Ev.reply r i b ∈ es → r.ok = true ∧ i ≠ .throws

end Pvxs.Spec.COp
