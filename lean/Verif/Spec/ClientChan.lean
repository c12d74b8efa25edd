import Verif.Model.ClientChan
/-
What a client promises about its channels and connections.
-/
namespace Pvxs.Spec.ClientChan
open Pvxs.ClientChan

/-- what has been asked for so far, from the calls of the application alone -/
structure Told where
  /-- channels made, which are numbered from 0 -/
  n : Nat := 0
  /-- of these, the ones still in use -/
  live : List Nat := []
  /-- operations which have been started and neither finished nor cancelled: channel, operation -/
  todo : List (Nat × Nat) := []
deriving DecidableEq, Repr

def tell (t : Told) : Ev → Told
  | .newChan _ _ => { t with n := t.n + 1, live := t.live ++ [t.n] }
  | .drop c => { t with live := t.live.filter fun x => x ≠ c, todo := t.todo.filter fun p => p.1 ≠ c }
  | .start c op => if c ∈ t.live then { t with todo := t.todo ++ [(c, op)] } else t
  | .finish c op => { t with todo := t.todo.filter fun p => p ≠ (c, op) }
  | _ => t

def told (es : List Ev) : Told := es.foldl tell {}

/-- there is a socket -/
def Open (s : Ctx) (k : Nat) : Prop := (s.conns k).alive = true ∧ (s.conns k).bev = true

/-- there is no socket yet, a timer will open one -/
def Soon (s : Ctx) (k : Nat) : Prop := (s.conns k).alive = true ∧ (s.conns k).ph = .holdoff ∧ (s.conns k).timer = true

/-- the client is doing something about this channel -/
def Minded (s : Ctx) (c : Nat) : Prop := match (s.chans c).st with
  /- it is searched for -/
  | .searching => c ∈ s.ring
  /- or it will be asked for as soon as a connection, open or soon to be, is validated -/
  | .connecting => ∃ k, (s.chans c).conn = some k ∧ (Open s k ∨ Soon s k) ∧ (s.conns k).ready = false ∧ c ∈ (s.conns k).pending
  /- or the server has been asked for it, on a connection which is open, and its reply is waited for -/
  | .creating => ∃ k, (s.chans c).conn = some k ∧ Open s k ∧ Msg.create k c ∈ s.sent ∧ c ∈ (s.conns k).creating
  /- or it is connected -/
  | .active => ∃ k, (s.chans c).conn = some k ∧ Open s k ∧ Msg.create k c ∈ s.sent ∧ ((s.chans c).sid, c) ∈ (s.conns k).active

/-- an operation waits for its channel to be connected -/
def Waits (s : Ctx) (c op : Nat) : Prop := (s.chans c).st ≠ .active ∧ op ∈ (s.chans c).waiting

/-- the server of the channel has been asked for an operation, on the connection the channel has now, and its replies will be recognized -/
def Asked (s : Ctx) (c op : Nat) : Prop := (s.chans c).st = .active ∧
  ∃ k i, (s.chans c).conn = some k ∧ Msg.init k (s.chans c).sid i op ∈ s.sent ∧ (i, op) ∈ (s.conns k).ops ∧ (op, i) ∈ (s.chans c).ops

/-- the server gives a channel an ID which no other of this connection has -/
def FreshId (s : Ctx) (k sid : Nat) : Prop := ∀ c, (s.chans c).alive = true → (s.chans c).st = .active → (s.chans c).conn = some k → (s.chans c).sid ≠ sid

/-- a history in which servers do not give one ID to two channels, and an attempt to connect does not fail before it has begun; the client is not closed -/
def Usual : List Ev → Ctx → Prop
  | [], _ => True
  | e :: es, s => (match e with
    | .created k _ sid true => FreshId s k sid
    | .newChan (some _) fails => fails = false
    | .retry _ fails => fails = false
    | .close => False
    | _ => True) ∧ Usual es (step s e)

/-- a history without the three things which leave an old connection behind: server(), a refused channel, name servers -/
def NoTrace : Ev → Prop
  | .newChan (some _) _ => False
  | .created _ _ _ false => False
  | _ => True

/-- what servers and the network do, as opposed to the application -/
def Answer : Ev → Prop
  | .reply _ _ _ => True
  | .connected _ => True
  | .validated _ => True
  | .created _ _ _ _ => True
  | .retry _ _ => True
  | _ => False

/-- the connection to a name server is open, or soon will be -/
def Served (s : Ctx) (a : Nat) (o : Option Nat) : Prop := ∃ k, o = some k ∧ (s.conns k).addr = a ∧ (Open s k ∨ Soon s k)

/-- the client does not itself close the connection to a name server, for a message which it can not decode or which is not allowed -/
def Clean : List Ev → Ctx → Prop
  | [], _ => True
  | e :: es, s => (match e with
    | .violation k => ∀ a, (a, some k) ∉ s.ns
    | _ => True) ∧ Clean es (step s e)

end Pvxs.Spec.ClientChan
