import Verif.Model.RecordPut
/-! Specification for C76 -/
namespace Pvxs.Spec.RecPut
open Pvxs.RecPut
open Pvxs.Group (Chan Tri)

/-- a put as the client and access security see it -/
structure APut where
  op : Nat
  who : Nat
  data : Nat
  /-- is the field "value" sent? -/
  marked : Bool
  allow : Nat → Bool
  chan : Chan

def APut.event (p : APut) : Event := .put p.op p.who p.data p.marked p.allow p.chan

/-- the puts of a history -/
def puts : List Event → List APut := List.filterMap fun e => match e with
  | .put op who data marked allow c => some ⟨op, who, data, marked, allow, c⟩
  | _ => none

/-- the record accepts changes, and user `w` may write -/
def Permitted (p : APut) (w : Nat) : Prop := p.chan.attr = false ∧ p.chan.disabled = false ∧ p.allow w = true

/-- is the record to be processed?  A write to PROC always does; otherwise as asked; by default when the field is a process passive one of a passive record -/
def Processes (process : Tri) (c : Chan) : Prop := c.isProc = true ∨ process = .yes ∨ (process = .unset ∧ c.passive = true)

/-- the outputs which write `d` for a put -/
def writes (op : Nat) : List Out → List Nat := List.filterMap fun x => match x with
  | .write o d => if o = op then some d else none
  | .putField o d => if o = op then some d else none
  | _ => none

/-- the replies to a put -/
def replies (op : Nat) : List Out → List Bool := List.filterMap fun x => match x with
  | .reply o ok => if o = op then some ok else none
  | _ => none

/-- what epics-base calls, if it is asked to put or to process with notification -/
structure Calls where
  chan : Chan
  disabled : Bool
  status : Status

/-- a put alone, with all there is of it: if notification was asked for, epics-base calls `putCallback` if there is something to put, and then `doneCallback` -/
def episode (o : Options) (s : Cache) (x : APut × Calls) : Cache × List Out :=
  let r := step o s x.1.event
  let rest : List Event :=
    if Out.notify x.1.op true ∈ r.2 then [.callPut x.2.chan x.2.disabled, .callDone x.2.status]
    else if Out.notify x.1.op false ∈ r.2 then [.callDone x.2.status]
    else []
  let q := run o r.1 rest
  (q.1, r.2 ++ q.2)

/-- puts one after the other -/
def episodes (o : Options) (s : Cache) : List (APut × Calls) → Cache × List Out
  | [] => (s, [])
  | x :: xs =>
    let r := episode o s x
    let q := episodes o r.1 xs
    (q.1, r.2 ++ q.2)

/-- dbNotify is not canceled, reports no success of a put which is disabled, and the value can be converted and written when it is asked for -/
def Calls.Fine (c : Calls) : Prop := c.status ≠ .canceled ∧ (c.disabled = true → c.status ≠ .ok) ∧ (c.disabled = false → c.chan.putFails = false)

end Pvxs.Spec.RecPut
