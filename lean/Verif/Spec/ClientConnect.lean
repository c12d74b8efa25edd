import Verif.Model.ClientConnect
/-
Specification for C85: what the user of connect() has to be told.
-/
namespace Pvxs.Spec.ClientConnect
open Pvxs Pvxs.ClientConnect

/-- nothing but looking: a callback which neither throws nor releases a Connect -/
def Quiet (beh : Nat → Act) : Prop := ∀ i, beh i = .ok

/-- A correct user: every Connect is new, made for a valid server on an open Context,
is released once at most, and callbacks are quiet. `made` and `gone` are the Connects
made and released so far. -/
def Fair (made gone : List Nat) : List Ev → Prop
  | [] => True
  | .exec i _ _ good :: es => i ∉ made ∧ good = true ∧ Fair (i :: made) gone es
  | .drop i :: es => i ∈ made ∧ i ∉ gone ∧ Fair made (i :: gone) es
  | .work beh :: es => Quiet beh ∧ Fair made gone es
  | .up beh beh2 :: es => Quiet beh ∧ Quiet beh2 ∧ Fair made gone es
  | .down beh :: es => Quiet beh ∧ Fair made gone es
  | .op :: es => Fair made gone es

/-- What concerns Connect `i` in a history: the state of the channel, what the worker
has still to do (in the order asked for), whether the Connect is in place, and the
states it has seen: the one found when put in place, then each change. -/
structure View where
  active : Bool := false
  line : List Work := []
  here : Bool := false
  seen : List Bool := []

def look (i : Nat) (v : View) : Ev → View
  | .exec j _ _ _ => { v with line := v.line ++ [.setup j] }
  | .drop j => { v with line := v.line ++ [.remove j] }
  | .work _ =>
    match v.line with
    | [] => v
    | .setup j :: l =>
      if j = i then { v with line := l, here := true, seen := v.seen ++ [v.active] }
      else { v with line := l }
    | .remove j :: l =>
      if j = i then { v with line := l, here := false } else { v with line := l }
  | .up _ _ =>
    if v.active then v else
    { v with active := true, seen := if v.here then v.seen ++ [true] else v.seen }
  | .down _ =>
    if v.active then
      { v with active := false, seen := if v.here then v.seen ++ [false] else v.seen }
    else v
  | .op => v

def view (i : Nat) (es : List Ev) : View := es.foldl (look i) {}

/-- the callbacks given for Connect `i` -/
def hasC (i : Nat) (es : List Ev) : Bool := es.any fun e => match e with
  | .exec j c _ _ => j == i && c
  | _ => false
def hasD (i : Nat) (es : List Ev) : Bool := es.any fun e => match e with
  | .exec j _ d _ => j == i && d
  | _ => false

/-- the calls of the callbacks of Connect `i`, in order: `true` for onConnect -/
def calls (i : Nat) (outs : List Told) : List Bool :=
  (outs.filter fun t => t.i == i).map (·.up)

/-- no two neighbours alike -/
def Alternates : List Bool → Prop
  | [] => True
  | [_] => True
  | a :: b :: l => a ≠ b ∧ Alternates (b :: l)

end Pvxs.Spec.ClientConnect
