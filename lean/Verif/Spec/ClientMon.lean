import Verif.Model.ClientMon
/-
Histories of a client subscription and what can be observed of them.
-/
namespace Pvxs.Spec.CMon
open ClientMon

/-- a new subscription -/
structure Params where
  pipeline : Bool
  autostart : Bool
  maskConn : Bool
  maskDiscon : Bool
  hasInit : Bool
  queueSize : Nat
  ackAt : Nat

/-- as the builder makes it; src/clientmon.cpp:745-806 yields 2 ≤ queueSize and 1 ≤ ackAt ≤ queueSize -/
def fresh (p : Params) : Sub :=
  { pipeline := p.pipeline, autostart := p.autostart, maskConn := p.maskConn, maskDiscon := p.maskDiscon, hasInit := p.hasInit,
    queueSize := p.queueSize, ackAt := p.ackAt, hasEvent := true }

def Params.ok (p : Params) : Prop := 2 ≤ p.queueSize ∧ 1 ≤ p.ackAt ∧ p.ackAt ≤ p.queueSize

/-- the subscription starts (with a channel which is up or not, or without) and then `es` happens -/
def history (p : Params) (fail up : Bool) (es : List Ev) : Sub × List Out :=
  let (o1, outs1) := begin (fresh p) fail up
  let (o2, outs2) := run o1 es
  (o2, outs1 ++ outs2)

/-! ### C36 -/

def isCall : Out → Bool
  | .called => true
  | _ => false

def isEmpty : Out → Bool
  | .empty => true
  | _ => false

/-- what was seen since the application last found the queue empty; at first it is empty -/
def sinceEmpty : List Out → List Out
  | [] => []
  | x :: xs => if (x :: xs).any isEmpty then sinceEmpty xs else x :: xs

def calls (outs : List Out) : Nat := (outs.filter isCall).length
def empties (outs : List Out) : Nat := (outs.filter isEmpty).length

/-- events of the worker thread; pop() runs on any thread -/
def Worker : Ev → Prop
  | .pop => False
  | .popN _ => False
  | _ => True

/-- pop() is called by the event callback, or on the worker: not while the worker is about to call the callback -/
def Prompt (o : Sub) : List Ev → Prop
  | [] => True
  | e :: es => (Worker e ∨ o.owed = false) ∧ Prompt (step o e).1 es

/-! ### C37 -/

/-- what pop() delivered -/
def popped (outs : List Out) : List Entry := outs.filterMap fun x => match x with
  | .popped e => some e
  | _ => none

/-- the subscription takes messages of its connection -/
def Takes (o : Sub) : Bool := o.reg && o.alive

/-- What an event adds to the stream of the subscription: `latest` is the last content of each field on this connection. -/
def arrives (o : Sub) (latest : Nat → Nat) : Ev → List Entry
  | .up => if o.state = .connecting ∧ o.pending ∧ o.alive ∧ !o.maskConn then [.exc .connected] else []
  | .down => if Takes o ∧ o.state ≠ .done ∧ o.state ≠ .connecting ∧ !o.maskDiscon then [.exc .disconnect] else []
  | .msg r _ =>
    if Takes o ∧ fits o r then
      if r.init then (if r.success then [] else [.exc .remote])
      else
        (if !r.success then [.exc .remote] else if r.carries then [.data (sync latest r)] else []) ++
        (if r.final then [.exc .finished] else [])
    -- the client gives up the connection
    else if Takes o ∧ !(r.carries ∧ !o.fl) ∧ o.state ≠ .done ∧ o.state ≠ .connecting ∧ !o.maskDiscon then [.exc .disconnect]
    else []
  | _ => []

/-- the last content of each field, after the event -/
def latestAfter (o : Sub) (latest : Nat → Nat) : Ev → Nat → Nat
  | .msg r _ =>
    if Takes o ∧ fits o r then
      if r.init then (if r.success then fun _ => 0 else latest)
      else if r.carries then (sync latest r).content
      else latest
    else latest
  | _ => latest

/-- the stream of a subscription in state `o` -/
def stream (o : Sub) (latest : Nat → Nat) : List Ev → List Entry
  | [] => []
  | e :: es => arrives o latest e ++ stream (step o e).1 (latestAfter o latest e) es

/-- before the first event -/
def begun (p : Params) (fail up : Bool) : List Entry :=
  if fail then [.exc .setup] else if up ∧ !p.maskConn then [.exc .connected] else []

/-- all of the stream -/
def streamOf (p : Params) (fail up : Bool) (es : List Ev) : List Entry :=
  begun p fail up ++ stream (begin (fresh p) fail up).1 (fun _ => 0) es

/-- two updates in one: every field marked by either is marked and has its newest content -/
def merged (w u : Upd) : Upd :=
  { content := fun i => if u.marked i then u.content i else w.content i, marked := fun i => w.marked i || u.marked i }

/-- `q` is `a` with some updates merged into their predecessor -/
inductive Squashed : List Entry → List Entry → Prop where
  | nil : Squashed [] []
  | keep {a q : List Entry} (e : Entry) : Squashed a q → Squashed (a ++ [e]) (q ++ [e])
  | merge {a q : List Entry} {w u : Upd} : Squashed a (q ++ [.data w]) → Squashed (a ++ [.data u]) (q ++ [.data (merged w u)])

/-- the last content of each field, after `es` -/
def latestOf (o : Sub) (latest : Nat → Nat) : List Ev → Nat → Nat
  | [] => latest
  | e :: es => latestOf (step o e).1 (latestAfter o latest e) es

def isData : Entry → Bool
  | .data _ => true
  | .exc _ => false

def dataCount (q : List Entry) : Nat := (q.filter isData).length
def excCount (q : List Entry) : Nat := (q.filter (fun e => !isData e)).length

/-! ### C38 -/

def ackOf : Out → Nat
  | .sent (.ack k) => k
  | _ => 0

/-- acknowledged to the server, in all -/
def acked (outs : List Out) : Nat := (outs.map ackOf).sum

/-- how many updates the server may send, by what it is told: at INIT the queue size -/
def creditOut (q : Nat) (c : Nat) : Out → Nat
  | .sent .init => q
  | .sent (.ack k) => c + k
  | _ => c

def creditOuts (q : Nat) (c : Nat) (outs : List Out) : Nat := outs.foldl (creditOut q) c

/-- the event is an update, or the last message, for this subscription -/
def sends (o : Sub) : Ev → Bool
  | .msg r _ => Takes o && fits o r && !r.init
  | _ => false

def creditStep (o : Sub) (c : Nat) (e : Ev) : Nat :=
  creditOuts o.queueSize (if sends o e then c - 1 else c) (step o e).2

/-- what the server may still send -/
def credit (o : Sub) (c : Nat) : List Ev → Nat
  | [] => c
  | e :: es => credit (step o e).1 (creditStep o c e) es

/-- the server sends no more than it may -/
def Within (o : Sub) (c : Nat) : List Ev → Prop
  | [] => True
  | e :: es => (sends o e → 0 < c) ∧ Within (step o e).1 (creditStep o c e) es

/-- what the server may send after a history -/
def creditOf (p : Params) (up : Bool) (es : List Ev) : Nat :=
  credit (begin (fresh p) false up).1 (creditOuts p.queueSize 0 (begin (fresh p) false up).2) es

def WithinOf (p : Params) (up : Bool) (es : List Ev) : Prop :=
  Within (begin (fresh p) false up).1 (creditOuts p.queueSize 0 (begin (fresh p) false up).2) es

/-- connected to the server: INIT was sent, and the subscription is not over -/
def Live (o : Sub) : Prop := o.state = .creating ∨ o.state = .idle ∨ o.state = .running

/-- the connection lasts -/
def Steady (es : List Ev) (outs : List Out) : Prop := (∀ e ∈ es, e ≠ .down) ∧ .closed ∉ outs

/-! ### C63 -/

/-- has START been sent on this connection? -/
def startedOut (b : Bool) : Out → Bool
  | .sent .init => false
  | .sent .start => true
  | .closed => false
  | _ => b

def startedOuts (b : Bool) (outs : List Out) : Bool := outs.foldl startedOut b

def startedAfter (o : Sub) (b : Bool) : Ev → Bool
  | .down => false
  | e => startedOuts b (step o e).2

/-- the server sends updates only after START -/
def Polite (o : Sub) (b : Bool) : List Ev → Prop
  | [] => True
  | e :: es => (∀ r i, e = .msg r i → r.carries = true → b = true) ∧ Polite (step o e).1 (startedAfter o b e) es

def PoliteOf (p : Params) (fail up : Bool) (es : List Ev) : Prop :=
  Polite (begin (fresh p) fail up).1 (startedOuts false (begin (fresh p) fail up).2) es

/-- onInit() does not fail or cancel, the application keeps the subscription, and the server does not end it with its INIT reply -/
def Calm (es : List Ev) : Prop :=
  ∀ e ∈ es, match e with
    | .cancel => False
    | .drop => False
    | .msg r i => i = .ok ∧ ¬ (r.init = true ∧ r.final = true)
    | _ => True

end Pvxs.Spec.CMon
