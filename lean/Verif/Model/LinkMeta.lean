import Verif.Model.LinkRead
import Verif.Model.NT
/-
Limits, precision, units and alarm message through a PVA input link (ioc/pvalink_lset.cpp, ioc/pvalink_link.cpp).

The cache is given by what it is after the last update (see LinkScan).  Simplified: a limit which is an Any or a Union is taken as one which can
not be converted; memory which the caller did not ask for (a null pointer) is `none`.
-/
namespace Pvxs.LinkMeta
open Pvxs Pvxs.ArrayConv Pvxs.RealScalar Pvxs.LinkRead Pvxs.NT

/-- a link, as far as it is used here.  `root`: the field which the link selects, none if there is no such field -/
structure Link where
  connected : Bool
  root : Option Handle
  severity : Int := 3
  message : Str := []

/-- the type of a field -/
def codeAt (h : Handle) : Option TypeCode := h.desc[h.pos]?.map FieldDesc.code

/-- `fld_meta`: ioc/pvalink_link.cpp:83-111 -/
def fldMeta (l : Link) : Option Handle := l.root.bind fun h => if codeAt h = some .Struct then some h else none

/-- `self->fld_meta[name]`: the content, if there is such a field -/
def field (l : Link) (name : Str) : Res (Option Datum) :=
  match fldMeta l with
  | none => .ok none
  | some h => index false h name >>= fun r => .ok (r.map fun f => datumAt f.cells f.pos)

/-- src/pvxs/data.h:636-647 `as(T& val)`, src/data.cpp:502-513 `tryCopyOut`: `old` stays if there is no field, or it can not be converted -/
def tryAs (conv : Datum → Res α) (old : α) : Option Datum → Res α
  | none => .ok old
  | some d => match conv d with
    | .ok a => .ok a
    | .throws _ => .ok old
    | .ub => .ub

/-- `if(lo) (void)self->fld_meta[name].as(*lo)` -/
def limit (R : Reals) (l : Link) (name : Str) : Option Nat → Res (Option Nat)
  | none => .ok none
  | some old => field l name >>= fun d => tryAs (readReal R.parse) old d >>= fun b => .ok (some b)

/-- two limits, and zero for success; -1 if the link is not valid -/
def limits2 (R : Reals) (l : Link) (low high : Str) (lo hi : Option Nat) : Res (Rc × Option Nat × Option Nat) :=
  if !l.connected then .ok (.fail, lo, hi)
  else limit R l low lo >>= fun lo => limit R l high hi >>= fun hi => .ok (.ok, lo, hi)

/-- ioc/pvalink_lset.cpp:414-430 `pvaGetControlLimits`; in: what `*lo`, `*hi` are before, none: a null pointer -/
def controlLimits (R : Reals) (l : Link) (lo hi : Option Nat) := limits2 R l (lit "control.limitLow") (lit "control.limitHigh") lo hi

/-- ioc/pvalink_lset.cpp:432-448 `pvaGetGraphicLimits` -/
def graphicLimits (R : Reals) (l : Link) (lo hi : Option Nat) := limits2 R l (lit "display.limitLow") (lit "display.limitHigh") lo hi

/-- ioc/pvalink_lset.cpp:450-474 `pvaGetAlarmLimits` -/
def alarmLimits (R : Reals) (l : Link) (lolo lo hi hihi : Option Nat) : Res (Rc × Option Nat × Option Nat × Option Nat × Option Nat) :=
  if !l.connected then .ok (.fail, lolo, lo, hi, hihi)
  else
    limit R l (lit "valueAlarm.lowAlarmLimit") lolo >>= fun lolo =>
    limit R l (lit "valueAlarm.lowWarningLimit") lo >>= fun lo =>
    limit R l (lit "valueAlarm.highWarningLimit") hi >>= fun hi =>
    limit R l (lit "valueAlarm.highAlarmLimit") hihi >>= fun hihi => .ok (.ok, lolo, lo, hi, hihi)

/-- ioc/pvalink_lset.cpp:476-491 `pvaGetPrecision`: as uint16_t, then stored as short -/
def precision (l : Link) (old : Int) : Res (Rc × Int) :=
  if !l.connected then .ok (.fail, old)
  else field l (lit "display.precision") >>= fun d => tryAs asUint 0 d >>= fun n => .ok (.ok, intOf 2 (n % 2 ^ 16))

/-- ioc/pvalink_lset.cpp:493-510 `pvaGetUnits`, with room for `size` characters: the text in the buffer; none: nothing is written -/
def units (l : Link) (size : Nat) : Res (Rc × Option Str) :=
  if !l.connected then .ok (.fail, none)
  else if size = 0 then .ok (.ok, none)
  else field l (lit "display.units") >>= fun d => tryAs asStr [] d >>= fun s => .ok (.ok, some ((s.takeWhile fun c => c != 0).take (size - 1)))

/-- ioc/pvalink_lset.cpp:512-539 `pvaGetAlarmMsg` with a buffer for `size` characters: the status, the severity and the text in the buffer.
epicsSnprintf() with a size of n writes at most n-1 characters. -/
def alarmMsg (l : Link) (size : Nat) : Option (Bool × Int × Option Str) :=
  if !l.connected then none
  else some (l.severity ≠ 0, l.severity,
    if size = 0 then none else if l.message = [] then some [] else some ((l.message.takeWhile fun c => c != 0).take (size - 1 - 1)))

end Pvxs.LinkMeta
