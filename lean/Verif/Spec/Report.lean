import Verif.Model.Report
/-
C119: the byte counters of reports.
-/
namespace Pvxs.Spec.Report
open Pvxs.Report

/-- bytes sent in an event: header and body -/
def sent : Ev → Nat
  | .send n _ => 8 + n
  | _ => 0

/-- bytes received -/
def received : Ev → Nat
  | .control => 8
  | .recv n _ _ => 8 + n
  | _ => 0

def sum (f : Ev → Nat) (es : List Ev) : Nat := (es.map f).sum

/-- what the reports which reset the counters said, in total -/
def toldTotal (f : Told → Nat) (s : Conn) : List Ev → Nat
  | [] => 0
  | .report true :: es => f (told s) + toldTotal f (step s (.report true)) es
  | e :: es => toldTotal f (step s e) es

/-- this can happen to a connection of a server -/
def ofServer : Ev → Bool
  | .asked _ => false
  | .created _ => false
  | .again => false
  | _ => true

/-- the same connection all the time -/
def oneConn : Ev → Bool
  | .again => false
  | _ => true

/-- the length of each body is such that 8 more is less than 2^32 -/
def fits : Ev → Bool
  | .recv n _ _ => decide (8 + n < 2 ^ 32)
  | _ => true

/-- no report resets the counters while a part of a message was received -/
def calm : Nat → List Ev → Bool
  | _, [] => true
  | seg, .recv n last _ :: es => calm (if last then 0 else seg + n) es
  | seg, .report true :: es => decide (seg = 0) && calm seg es
  | seg, _ :: es => calm seg es

end Pvxs.Spec.Report
