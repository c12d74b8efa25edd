import Verif.Model.TypeDesc
/-
Reading a record of an IOC: ioc/iocsource.cpp:158-310 (time, alarm), 312-352 (`IOCSource::get` of a scalar mapping), ioc/singlesource.cpp:47-168,265-284,
ioc/typeutils.cpp:79-89.

Simplifications: the value, and the properties (display, control, valueAlarm), are numbers which stand for any data; epics-base has alarm messages and user tags (7.0.6 and
later), and its options DBR_STATUS, DBR_TIME, DBR_UTAG are always available; reading does not fail.  A structure which is sent is seen through its marked fields.
-/
namespace Pvxs.RecGet

/-- a record, as far as dbChannelGet() tells -/
structure Rec where
  value : Nat
  /-- `enum epicsAlarmCondition` -/
  status : Nat
  severity : Nat
  /-- alarm message, [] if there is none -/
  amsg : Str
  /-- epicsTimeStamp -/
  sec : Nat
  nsec : Nat
  utag : Nat
  props : Nat
deriving Repr, DecidableEq

/-- the marked fields of a structure, or what a client knows -/
structure Node where
  value : Option Nat := none
  status : Option Nat := none
  severity : Option Nat := none
  message : Option Str := none
  seconds : Option Nat := none
  nanoseconds : Option Nat := none
  userTag : Option Nat := none
  props : Option Nat := none
deriving Repr, DecidableEq

/-- caeventmask.h -/
def DBE_VALUE : Nat := 1
def DBE_ARCHIVE : Nat := 2
def DBE_ALARM : Nat := 4
def DBE_PROPERTY : Nat := 8
/-- ioc/iocsource.h:36-43 -/
def everything : Nat := 13

/-- ioc/iocsource.cpp:188-223, with the numbers of alarm.h -/
def pvaStatus (s : Nat) : Nat := match s with
  | 0 => 0
  | 1 => 1 | 2 => 1 | 3 => 1 | 4 => 1 | 5 => 1 | 6 => 1 | 7 => 1 | 8 => 1 | 11 => 1
  | 9 => 2 | 10 => 2 | 17 => 2
  | 12 => 3 | 13 => 3 | 14 => 3 | 15 => 3 | 16 => 3
  | 18 => 4 | 19 => 4 | 20 => 4 | 21 => 4
  | _ => 6

/-- ioc/iocsource.cpp:225-237; `names`: epicsAlarmConditionStrings -/
def alarmText (names : Nat → Str) (r : Rec) : Str :=
  if r.amsg ≠ [] then r.amsg
  else if r.status ≠ 0 ∧ r.status < 22 then names r.status
  else []

/-- POSIX_TIME_AT_EPICS_EPOCH -/
def epoch : Nat := 631152000

/-- ioc/typeutils.cpp:83-88: the mask for "nsec:lsb:`dig`", a uint32_t; 0 ≤ dig < 64 -/
def nsecMask (dig : Nat) : Nat := (2 ^ dig - 1) % 2 ^ 32

/-- `~mask` -/
def inv32 (m : Nat) : Nat := m ^^^ (2 ^ 32 - 1)

/-- ioc/iocsource.cpp:160-251 `getTimeAlarm` -/
def getTimeAlarm (names : Nat → Str) (mask change : Nat) (r : Rec) (n : Node) : Node :=
  let n := if change &&& DBE_ALARM ≠ 0 then { n with status := some (pvaStatus r.status), severity := some r.severity, message := some (alarmText names r) } else n
  { n with seconds := some (r.sec + epoch), nanoseconds := some (r.nsec &&& inv32 mask), userTag := some (if mask ≠ 0 then r.nsec &&& mask else r.utag) }

/-- ioc/iocsource.cpp:312-352 `IOCSource::get` with MappingInfo::Scalar -/
def get (names : Nat → Str) (mask change : Nat) (r : Rec) (n : Node) : Node :=
  let n := if change &&& DBE_PROPERTY ≠ 0 then { n with props := some r.props } else n
  let n := if change &&& (DBE_VALUE ||| DBE_ALARM) ≠ 0 then getTimeAlarm names mask change r n else n
  if change &&& DBE_VALUE ≠ 0 then { n with value := some r.value } else n

/-- ioc/singlesource.cpp:265-284 `singleGet`: what a client is sent -/
def singleGet (names : Nat → Str) (mask : Nat) (r : Rec) : Node := get names mask everything r {}

/-! ### subscriptions -/

/-- the option record._options.DBE -/
inductive Opt where
  | absent
  | text (s : Str)
  /-- as a uint8_t -/
  | number (n : UInt8)
  | other
deriving Repr

/-- `mask.find(w) != npos` -/
def finds (w : Str) : Str → Bool
  | [] => w.isEmpty
  | b :: s => w.isPrefixOf (b :: s) || finds w s

/-- "VALUE" -/
def tVALUE : Str := [0x56, 0x41, 0x4c, 0x55, 0x45]
/-- "ARCHIVE" -/
def tARCHIVE : Str := [0x41, 0x52, 0x43, 0x48, 0x49, 0x56, 0x45]
/-- "ALARM" -/
def tALARM : Str := [0x41, 0x4c, 0x41, 0x52, 0x4d]

/-- ioc/singlesource.cpp:107-131: which events are subscribed -/
def dbe (o : Opt) : Nat :=
  let m := match o with
    | .text s => (if finds tVALUE s then DBE_VALUE else 0) ||| (if finds tARCHIVE s then DBE_ARCHIVE else 0) ||| (if finds tALARM s then DBE_ALARM else 0)
    | .number n => n.toNat
    | _ => 0
  let m := m &&& (DBE_VALUE ||| DBE_ARCHIVE ||| DBE_ALARM)
  if m = 0 then DBE_VALUE ||| DBE_ALARM else m

/-- an event of the database with the record as it is then -/
inductive Event where
  /-- `mask` of the db_field_log, if there is one -/
  | value (mask : Option Nat) (r : Rec)
  | property (r : Rec)

/-- `SingleSourceSubscriptionCtx` -/
structure Sub where
  /-- the marked fields of `currentValue` -/
  cur : Node := {}
  hadValue : Bool := false
  hadProperty : Bool := false

/-- ioc/singlesource.cpp:79-84 -/
def changeOf : Option Nat → Nat
  | some m => m &&& everything
  | none => DBE_VALUE ||| DBE_ALARM

/-- ioc/singlesource.cpp:62-68 -/
def post (s : Sub) : Sub × List Node :=
  if s.hadValue && s.hadProperty then ({ s with cur := {} }, [s.cur]) else (s, [])

/-- ioc/singlesource.cpp:47-93.  No nsecMask is used. -/
def step (names : Nat → Str) (s : Sub) : Event → Sub × List Node
  | .value m r => post { s with hadValue := true, cur := get names 0 (changeOf m) r s.cur }
  | .property r => post { s with hadProperty := true, cur := get names 0 DBE_PROPERTY r s.cur }

/-- what is posted -/
def run (names : Nat → Str) (s : Sub) : List Event → Sub × List Node
  | [] => (s, [])
  | e :: es =>
    let r := step names s e
    let q := run names r.1 es
    (q.1, r.2 ++ q.2)

end Pvxs.RecGet
