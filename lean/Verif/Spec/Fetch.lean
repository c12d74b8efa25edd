import Verif.Model.Fetch
/-
What pvxget, pvxinfo and pvxlist were told, said without what they keep in mind (C111).
-/
namespace Pvxs.Spec.Fetch
open Pvxs Pvxs.Fetch

/-- the first result for the i-th name, if any -/
def answer (es : List Ev) (i : Nat) : Option Bool :=
  es.findSome? fun e => match e with
    | .result j ok => if j = i then some ok else none
    | _ => none

/-- there is an answer with a value for every name -/
def AllGood (n : Nat) (es : List Ev) : Prop := ∀ i, i < n → answer es i = some true

/-- there is an answer for every name, be it an error -/
def AllAnswered (n : Nat) (es : List Ev) : Prop := ∀ i, i < n → (answer es i).isSome

/-- the program has ended, with this status -/
def endedWith (p : Prog) (n : Nat) (es : List Ev) (k : Nat) : Prop := (run p n es).phase = .exited k

/-- the program can return: it does not wait, or it was woken -/
def canReturn (p : Prog) (n : Nat) (es : List Ev) : Prop := (run p n es).phase ≠ .waiting ∨ (run p n es).done = true

def tcp : Str := [0x74, 0x63, 0x70]

/-- this says that a TCP endpoint of the server appeared -/
def Up (g : List Wire.Byte) (e : Beacon.Event) : Prop := e.online = true ∧ e.key.2 = tcp ∧ e.guid = g

/-- this says that a TCP endpoint of the server is gone -/
def Down (g : List Wire.Byte) (e : Beacon.Event) : Prop := e.online = false ∧ e.key.2 = tcp ∧ e.guid = g

/-- an endpoint of the server appeared, and none was gone since -/
def Present (g : List Wire.Byte) (h : List Beacon.Event) : Prop :=
  ∃ h1 u h2, h = h1 ++ u :: h2 ∧ Up g u ∧ ∀ x ∈ h2, ¬ Down g x

end Pvxs.Spec.Fetch
