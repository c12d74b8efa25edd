import Verif.Model.LinkPut
/-
Specification for C86: what is written through PVA output links.
-/
namespace Pvxs.Spec.LinkPut
open Pvxs Pvxs.LinkPut

variable {α : Type}

/-- the values of link `i` in a PUT -/
def valsOf (i : Nat) (vs : List (Nat × α)) : List α := vs.filterMap fun p => if p.1 = i then some p.2 else none

/-- the values of link `i` in all PUTs sent, in order -/
def sentTo (i : Nat) (outs : List (Out α)) : List α := outs.flatMap fun o => match o with
  | .sent _ _ vs => valsOf i vs
  | _ => []

/-- the values written to link `i` -/
def written (i : Nat) (es : List (Ev α)) : List α := es.filterMap fun e => match e with
  | .put j v _ => if j = i then some v else none
  | _ => none

/-- the values written to link `i` while it was connected, or if it has `retry` -/
def accepted (retry : Bool) (i : Nat) (connected : Bool) : List (Ev α) → List α
  | [] => []
  | .put j v _ :: es =>
    if j = i ∧ (retry = true ∨ connected = true) then v :: accepted retry i connected es
    else accepted retry i connected es
  | .connect :: es => accepted retry i true es
  | .disconnect :: es => accepted retry i false es
  | _ :: es => accepted retry i connected es

/-- A history in which the connection lasts, the server refuses nothing, every value can be
converted, and no record is processed while the worker of the client is in a callback
(`busy`). -/
def Calm (busy : Bool) : List (Ev α) → Prop
  | [] => True
  | .put _ _ _ :: es => busy = false ∧ Calm busy es
  | .forward _ :: es => busy = false ∧ Calm busy es
  | .enter :: es => Calm true es
  | .build conv :: es => (∀ i v, conv i v = .sets) ∧ Calm false es
  | .done ok :: es => ok = true ∧ Calm false es
  | .lost :: _ => False
  | .disconnect :: _ => False
  | .connect :: es => Calm busy es
  | .after :: es => Calm busy es

/-- links as configured, nothing written yet -/
def Fresh (c : Chan α) : Prop :=
  c.op = none ∧ c.waiting = [] ∧ c.scans = 0 ∧ c.inCb = false ∧ c.connected = false ∧
  ∀ l, l ∈ c.links → l.scratch = none ∧ l.queue = none

/-- no record is processed (its links are not used) -/
def Idle (es : List (Ev α)) : Prop := ∀ e, e ∈ es → (∀ i v w, e ≠ .put i v w) ∧ (∀ i, e ≠ .forward i)

/-- the server answers, twice: what waits is sent, and what was written meanwhile -/
def drain : List (Ev α) :=
  [.enter, .build fun _ _ => .sets, .enter, .done true, .enter, .build fun _ _ => .sets, .enter, .done true]

/-- no link is written, and no forward link processed, while a PUT waits to be built -/
def Alone (c : Chan α) : List (Ev α) → Prop
  | [] => True
  | .put i v w :: es => (∀ op, c.op = some op → op.sent = true) ∧ Alone (step c (.put i v w)).ch es
  | .forward i :: es => (∀ op, c.op = some op → op.sent = true) ∧ Alone (step c (.forward i)).ch es
  | e :: es => Alone (step c e).ch es

/-- The processing asked for by a PUT which carries `vals`; `procs i` is the option of link `i`. -/
def Asks (procs : Nat → Option Proc) (forwarded : Bool) (p : Process) (vals : List (Nat × α)) : Prop :=
  ((∃ x, x ∈ vals ∧ procs x.1 = some .pp) → p = .yes) ∧
  (p = .yes → forwarded = true ∨ ∃ x, x ∈ vals ∧ procs x.1 = some .pp) ∧
  (p = .no → ∃ x, x ∈ vals ∧ procs x.1 = some .npp) ∧
  (p = .passive → ∀ x, x ∈ vals → procs x.1 = some .dflt)

/-- a forward link is processed -/
def Forwarded (es : List (Ev α)) : Prop := ∃ i, .forward i ∈ es

/-- a record which waits for the completion writes through a link without `defer` -/
def WaitsNow (c : Chan α) (es : List (Ev α)) : Prop :=
  ∀ i v l, .put i v true ∈ es → c.links[i]? = some l → l.defer = false

end Pvxs.Spec.LinkPut
