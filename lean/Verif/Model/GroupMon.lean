import Verif.Model.GroupConf
/-
A subscription to a group: ioc/groupsource.cpp:206-406, ioc/fieldsubscriptionctx.h:48-55, ioc/iocsource.cpp:312-352.

`currentValue` is modelled by the parts of it which are marked: no others are sent.  What is read from a record is any number.
Simplifications: the event queue of the database is not modelled, any callback may come at any time, with any data; the callbacks run one
after the other (there is one event thread).  A start runs on another thread: `startPost`, `startUnmark`, `valueRead` and `valuePost` are for
a start and an event which run at the same time.
-/
namespace Pvxs.GroupMon
open Group (MapType)

/-- ioc/field.h: `triggers` as in C67 -/
structure MField where
  type : MapType := .scalar
  chan : Bool := true
  triggers : List Nat := []
  /-- `info.cval` -/
  cval : Nat := 0
deriving Repr, DecidableEq

/-- the parts of what a field is mapped to: its value; alarm and timeStamp; display, control and so on; display.form -/
inductive Part where
  | value
  | alarm
  | props
  | form
deriving Repr, DecidableEq

/-- a part of the group's value; `options` is record._options -/
inductive Item where
  | options
  | part (field : Nat) (p : Part)
deriving Repr, DecidableEq

/-- UpdateType -/
structure Mask where
  value : Bool := false
  alarm : Bool := false
  props : Bool := false
deriving Repr, DecidableEq

/-- ioc/iocsource.cpp:312-352 `IOCSource::get`: the parts which it sets -/
def parts (t : MapType) (m : Mask) : List Part :=
  if t = .proc ∨ t = .struct then []
  else if t = .const then [.value]
  else
    (if m.props ∧ t = .scalar then [.props] else []) ++
    (if (t = .scalar ∨ t = .metadata) ∧ (m.value ∨ m.alarm) then [.alarm] else []) ++
    (if m.value ∧ t ≠ .metadata then [.value] else [])

/-- `read`: a part of `currentValue` is set, and marked.  `post`: MonitorControlOp::post(), with the marked parts -/
inductive Ev where
  | read (item : Item) (x : Nat)
  | post (u : List (Item × Nat))
deriving Repr, DecidableEq

/-- GroupSourceSubscriptionCtx, and the hadValueEvent and hadPropertyEvent of each field -/
structure St where
  hadValue : Nat → Bool
  hadProps : Nat → Bool
  primed : Bool := false
  /-- a start on its own thread is between post() and unmark() -/
  posting : Bool := false
  /-- what is marked in `currentValue` -/
  marked : List (Item × Nat) := []
  trace : List Ev := []

/-- set a part of `currentValue` -/
def St.read (s : St) (it : Item) (x : Nat) : St :=
  { s with marked := (it, x) :: s.marked.filter (fun p => p.1 != it), trace := s.trace ++ [.read it x] }

/-- more than one -/
def St.reads (s : St) : List (Item × Nat) → St
  | [] => s
  | (it, x) :: l => (s.read it x).reads l

/-- ioc/groupsource.cpp:214-218 -/
def St.complete (fs : List MField) (s : St) : Bool := (List.range fs.length).all fun i => s.hadValue i && s.hadProps i

/-- ioc/groupsource.cpp:235-236 -/
def St.send (s : St) : St := { s with marked := [], trace := s.trace ++ [.post s.marked] }

/-- ioc/groupsource.cpp:207-237 `subscriptionPost` -/
def St.post (fs : List MField) (s : St) : St :=
  if s.primed then (if s.marked = [] then s else s.send)
  else if s.complete fs then St.send { s with primed := true }
  else s

/-- ioc/groupsource.cpp:384-398: does the field have a subscription for properties -/
def hasProps (f : MField) : Bool := f.type == .metadata || f.type == .scalar

/-- ioc/groupsource.cpp:359-399: what is set at first, of the fields from number i on -/
def initial (i : Nat) : List MField → List (Item × Nat)
  | [] => []
  | f :: fs =>
    (if f.type = .const then [(.part i .value, f.cval)] else if f.chan && f.type == .scalar then [(.part i .form, 0)] else []) ++
      initial (i + 1) fs

/-- ioc/groupsource.cpp:350-406 `onSubscribe`; ioc/fieldsubscriptionctx.h:51-54 -/
def St.init (fs : List MField) : St :=
  St.reads
    { hadValue := fun i => match fs[i]? with | some f => !f.chan | none => true
      hadProps := fun i => match fs[i]? with | some f => !f.chan || !hasProps f | none => true }
    ((.options, 0) :: initial 0 fs)

/-- ioc/groupsource.cpp:283-301, the triggered fields in `js` (all of which are in the group, C67); `i`: the field the event is for; false: it throws.
    `fails j`: the record of field j cannot be read. -/
def St.readAll (fs : List MField) (i : Nat) (m : Mask) (db : Nat → Part → Nat) (fails : Nat → Bool) : List Nat → St → St × Bool
  | [], s => (s, true)
  | j :: js, s =>
    match fs[j]? with
    | none => St.readAll fs i m db fails js s
    | some f =>
      if fails j then (s, false)
      else
        let change : Mask := if i = j then m else { value := true, alarm := true }
        St.readAll fs i m db fails js (s.reads ((parts f.type change).map fun p => (.part j p, if f.type = .const then f.cval else db j p)))

/-- what happens.  `m`: the mask of the event, `db`: what is read from the records -/
inductive Op where
  | start
  | value (i : Nat) (m : Mask) (db : Nat → Part → Nat) (fails : Nat → Bool)
  | props (i : Nat) (db : Part → Nat) (fails : Bool)
  /-- onStart() on its own thread, up to post() -/
  | startPost
  /-- and the rest of it -/
  | startUnmark
  /-- a value event, up to its subscriptionPost() -/
  | valueRead (i : Nat) (m : Mask) (db : Nat → Part → Nat)
  /-- and the rest of it -/
  | valuePost

/-- ioc/groupsource.cpp:245-340; there are no events for a field without channel -/
def St.step (fs : List MField) (s : St) : Op → St
  -- :245-253 (the events which enable() asks for come later)
  | .start => s.post fs
  -- :262-308
  | .value i m db fails =>
    match fs[i]? with
    | none => s
    | some f =>
      if f.chan = false then s
      else
        let r := St.readAll fs i m db fails f.triggers { s with hadValue := fun k => k == i || s.hadValue k }
        if r.2 then r.1.post fs else r.1
  -- :311-340
  | .props i db fails =>
    match fs[i]? with
    | none => s
    | some f =>
      if f.chan = false || !hasProps f then s
      else
        let s := { s with hadProps := fun k => k == i || s.hadProps k }
        if fails then s
        else St.post fs (s.reads ((parts f.type { props := true }).map fun p => (.part i p, db p)))
  -- :210-235
  | .startPost =>
    if (s.primed && s.marked != []) || (!s.primed && s.complete fs) then
      { s with primed := true, posting := true, trace := s.trace ++ [.post s.marked] }
    else s
  -- :236
  | .startUnmark => if s.posting then { s with posting := false, marked := [] } else s
  -- :267-301
  | .valueRead i m db =>
    match fs[i]? with
    | none => s
    | some f =>
      if f.chan = false then s
      else (St.readAll fs i m db (fun _ => false) f.triggers { s with hadValue := fun k => k == i || s.hadValue k }).1
  -- :303
  | .valuePost => s.post fs

def run (fs : List MField) (ops : List Op) : St := ops.foldl (St.step fs) (St.init fs)

end Pvxs.GroupMon
