import Verif.Model.RealScalar
/-
Reading through a PVA input link: value, alarm and time (ioc/pvalink_link.cpp, ioc/pvalink_lset.cpp).

Simplified: the selected field is given by what the link looks up in it (`View`); a value of type Any or
Union, and limits, precision and units are not modelled.  `fld_seconds` refers to a member of a Value:
while the type has this member the link reads what the cache has now; else it still refers to the member
of an earlier cache (`stale`), because onTypeChange does not clear it (pvalink_link.cpp:87-88).
-/
namespace Pvxs.LinkRead
open Pvxs Wire Pvxs.ArrayConv Pvxs.RealScalar

/-- the value of the selected field -/
inductive V where
  /-- a scalar; its type is one of those of `AType` -/
  | scalar (t : AType) (d : Datum)
  | array (a : Arr)
  /-- a structure with ID "enum_t"; `index` read as int32_t -/
  | enum (index : Int) (choices : List Str)
  /-- another structure -/
  | struct

/-- What onTypeChange finds (pvalink_link.cpp:90-111), with the content of these fields. -/
inductive View where
  /-- the link has no such field -/
  | missing
  /-- it is not a structure -/
  | plain (v : V)
  | struct (value : Option V) (seconds nanos severity message userTag : Option Datum)

def View.value : View → Option V
  | .missing => none
  | .plain v => some v
  | .struct v _ _ _ _ _ => v
def View.nanos : View → Option Datum
  | .struct _ _ n _ _ _ => n
  | _ => none
def View.severity : View → Option Datum
  | .struct _ _ _ s _ _ => s
  | _ => none
def View.message : View → Option Datum
  | .struct _ _ _ _ m _ => m
  | _ => none

/-- sevr (pvalink.h:82-86) -/
inductive Ms where
  | nms | ms | msi
deriving DecidableEq, Repr

structure Opts where
  ms : Ms := .nms
  time : Bool := false
deriving DecidableEq, Repr

/-- epicsTimeStamp -/
structure Stamp where
  sec : Nat := 0
  nsec : Nat := 0
deriving DecidableEq, Repr

/-- pvaLink (pvalink.h:233-250) with what it uses of pvaLinkChannel -/
structure Link where
  connected : Bool := false
  view : View := .missing
  stale : Option Datum := none
  time : Stamp := {}
  /-- it is never assigned -/
  tag : Nat := 0
  /-- INVALID_ALARM -/
  severity : Int := 3
  message : Str := []

/-- fld_seconds -/
def Link.seconds (l : Link) : Option Datum :=
  match l.view with
  | .struct _ s _ _ _ _ => s
  | _ => l.stale

/-- What the subscription delivers; see LinkScan.  The view is that of the cache after the update. -/
inductive Item where
  | update (v : View)
  | disconnect (at' : Stamp)

/-- pvaLinkChannel::run (pvalink_channel.cpp:342-376), onTypeChange (pvalink_link.cpp:83-111) -/
def take (l : Link) : Item → Link
  | .update v => { l with connected := true, view := v, stale := l.seconds }
  | .disconnect t => { l with connected := false, time := t }

/-! ### types of the database -/

inductive Dbr where
  | char | uchar | short | ushort | long | ulong | int64 | uint64 | float | double | string
  /-- DBR_ENUM and any other -/
  | other
deriving DecidableEq, Repr

/-- the cases of pvaGetValue (pvalink_lset.cpp:283-293) -/
def Dbr.array : Dbr → Option AType
  | .char => some .i8
  | .short => some .i16
  | .long => some .i32
  | .int64 => some .i64
  | .uchar => some .u8
  | .ushort => some .u16
  | .ulong => some .u32
  | .uint64 => some .u64
  | .float => some .f32
  | .double => some .f64
  | _ => none

inductive Buf where
  /-- bit patterns, or for strings their text up to the first nil -/
  | pods (xs : List Nat)
  | strs (ss : List Str)
  /-- all bytes of one element are 0 -/
  | zero
  /-- not written -/
  | none
  /-- some of it may have been written before an exception -/
  | some
deriving DecidableEq, Repr

/-- strncpy of c_str() with MAX_STRING_SIZE-1 = 39, then nil -/
def cut (s : Str) : Str := (s.takeWhile fun c => c != 0).take 39

def intOut : Datum → Res Int
  | .int v => .ok v
  | _ => .throws "NoConvert"
def uintOut : Datum → Res Nat
  | .uint n => .ok n
  | _ => .throws "NoConvert"
def strOut : Datum → Res Str
  | .str s => .ok s
  | _ => .throws "NoConvert"
/-- Value::as<int64_t>, as<uint64_t> and as<std::string> of a scalar (data.h:627-631): see Scalar, RealScalar -/
def asInt : Datum → Res Int
  | .real b => (ofReal b .int).bind intOut
  | d => (orThrow "NoConvert" (copyOut d .int)).bind intOut
def asUint : Datum → Res Nat
  | .real b => (ofReal b .uint).bind uintOut
  | d => (orThrow "NoConvert" (copyOut d .uint)).bind uintOut
def asStr : Datum → Res Str
  | .real b => (ofReal b .str).bind strOut
  | d => (orThrow "NoConvert" (copyOut d .str)).bind strOut

/-- a plain scalar (pvalink_lset.cpp:341-363): as<T> converts via the storage type, then casts -/
def readScalar (R : Reals) (d : Datum) : Dbr → Option (Res Buf)
  | .char => some ((asInt d).bind fun v => .ok (.pods [intBits 1 v]))
  | .short => some ((asInt d).bind fun v => .ok (.pods [intBits 2 v]))
  | .long => some ((asInt d).bind fun v => .ok (.pods [intBits 4 v]))
  | .int64 => some ((asInt d).bind fun v => .ok (.pods [intBits 8 v]))
  | .uchar => some ((asUint d).bind fun n => .ok (.pods [n % 256 ^ 1]))
  | .ushort => some ((asUint d).bind fun n => .ok (.pods [n % 256 ^ 2]))
  | .ulong => some ((asUint d).bind fun n => .ok (.pods [n % 256 ^ 4]))
  | .uint64 => some ((asUint d).bind fun n => .ok (.pods [n % 256 ^ 8]))
  | .float => some ((readReal R.parse d).bind fun b => .ok (.pods [narrow b]))
  | .double => some ((readReal R.parse d).bind fun b => .ok (.pods [b]))
  | .string => some ((asStr d).bind fun s => .ok (.strs [cut s]))
  | .other => none

/-- pvalink_lset.cpp:324-330 -/
def choiceText (index : Int) (choices : List Str) : Str :=
  if 0 ≤ index then (choices[index.toNat]?.map cut).getD (showNat (intBits 4 index))
  else showNat (intBits 4 index)

/-- an enum (pvalink_lset.cpp:308-338) -/
def readEnum (index : Int) (choices : List Str) : Dbr → Option (Res Buf)
  | .char => some (.ok (.pods [intBits 1 index]))
  | .short => some (.ok (.pods [intBits 2 index]))
  | .long => some (.ok (.pods [intBits 4 index]))
  | .int64 => some (.ok (.pods [intBits 8 index]))
  | .uchar => some (.ok (.pods [intBits 1 index]))
  | .ushort => some (.ok (.pods [intBits 2 index]))
  | .ulong => some (.ok (.pods [intBits 4 index]))
  | .uint64 => some (.ok (.pods [intBits 8 index]))
  | .float => some (.ok (.pods [realOfInt 23 127 31 index]))
  | .double => some (.ok (.pods [realOfInt 52 1023 63 index]))
  | .string => some (.ok (.strs [choiceText index choices]))
  | .other => none

/-- the first elements of an array -/
def takeElems (n : Nat) : Elems → Elems
  | .pods xs => .pods (xs.take n)
  | .strs ss => .strs (ss.take n)
  | .vals m => .vals (min n m)

def podsOut : Elems → Res Buf
  | .pods xs => .ok (.pods xs)
  | _ => .ub

/-- an array (pvalink_lset.cpp:264-303); `n`: the number of elements, at most those it has.  An array with
no data (`null`) casts to any type. -/
def readArray (R : Reals) (a : Arr) (n : Nat) (t : Dbr) : Option (Res Buf) :=
  if t = .string then
    match a.elems with
    | .strs ss => some (.ok (.strs ((ss.take n).map cut)))
    | _ => if a.type = .null then some (.ok (.strs [])) else some (.throws "logic_error")
  else match t.array with
    | none => none
    | some d => some ((convertArr R d a.type (takeElems n a.elems)).bind podsOut)

/-- status of pvaGetValue: 0, -1 or S_db_badDbrtype -/
inductive Rc where
  | ok | fail | badType
deriving DecidableEq, Repr

structure Result where
  rc : Rc
  buf : Buf := .none
  /-- *pnRequest afterwards -/
  n : Option Int := none
  /-- LINK_ALARM with this severity is set on the record, by recGblSetSevr -/
  alarm : Option Int := none
  /-- the TIME of the record is set -/
  time : Option Stamp := none
deriving DecidableEq, Repr

/-- POSIX_TIME_AT_EPICS_EPOCH -/
def epoch : Nat := 631152000

/-- The first part of pvaGetValue (pvalink_lset.cpp:252-366): buffer and number of elements. `none`: S_db_badDbrtype. -/
def readValue (R : Reals) (l : Link) (t : Dbr) (req : Option Int) : Option (Res (Buf × Int)) :=
  let n := req.getD 1
  match l.view.value with
  | none => some (.ok (if req.isNone then (.zero, 1) else (.none, n)))
  | some v =>
    if n ≤ 0 then some (.ok (if req.isNone then (.zero, 1) else (.none, n)))
    else match v with
      | .array a =>
        let k := min n.toNat a.elems.size
        (readArray R a k t).map fun r => r.bind fun b => .ok (b, (k : Int))
      | .enum i cs => (readEnum i cs t).map fun r => r.bind fun b => .ok (b, 1)
      | .scalar _ d => (readScalar R d t).map fun r => r.bind fun b => .ok (b, 1)
      | .struct => if t = .other then none else some (.throws "NoConvert")

/-- the snapshot of time, severity and message (pvalink_lset.cpp:371-393) -/
def snapTime (l : Link) : Res Stamp :=
  match l.seconds with
  | none => .ok {}
  | some s => (asUint s).bind fun n =>
    let sec := intBits 4 ((n % 2 ^ 32 : Nat) - (epoch : Int))
    match l.view.nanos with
    | none => .ok { sec := sec, nsec := 0 }
    | some d => (asUint d).bind fun m => .ok { sec := sec, nsec := m % 2 ^ 32 }
def snapSeverity (l : Link) : Res Int :=
  match l.view.severity with
  | none => .ok 0
  | some d => (asUint d).bind fun n => .ok (intOf 2 (n % 2 ^ 16))
def snapMessage (l : Link) (severity : Int) : Res Str :=
  match l.view.message with
  | none => .ok []
  | some d => if severity = 0 then .ok [] else asStr d

/-- severity to be set on the record (pvalink_lset.cpp:395-401) -/
def raise (o : Opts) (severity : Int) : Option Int :=
  if (severity ≠ 0 ∧ o.ms = .ms) ∨ (severity = 3 ∧ o.ms = .msi) then some severity else none

/-- an exception is caught: -1 is returned; `f` gets the link, as it is then, and the buffer -/
def orFail (r : Res α) (onThrow : Link × Result) (f : α → Res (Link × Result)) : Res (Link × Result) :=
  match r with
  | .ok a => f a
  | .throws _ => .ok onThrow
  | .ub => .ub

/-- pvaGetValue (pvalink_lset.cpp:237-412) -/
def read (R : Reals) (o : Opts) (l : Link) (t : Dbr) (req : Option Int) : Res (Link × Result) :=
  if !l.connected then
    .ok (l, { rc := .fail, n := req, alarm := some 3, time := if o.time then some l.time else none })
  else match readValue R l t req with
  | none => .ok (l, { rc := .badType, n := req })
  | some r => orFail r (l, { rc := .fail, buf := .some, n := req }) fun (buf, k) =>
    let n := req.map fun _ => k
    orFail (snapTime l) (l, { rc := .fail, buf := buf, n := n }) fun time =>
    let l1 := { l with time := time }
    orFail (snapSeverity l1) (l1, { rc := .fail, buf := buf, n := n }) fun sev =>
    let l2 := { l1 with severity := sev }
    orFail (snapMessage l2 sev) (l2, { rc := .fail, buf := buf, n := n }) fun msg =>
    .ok ({ l2 with message := msg },
      { rc := .ok, buf := buf, n := n, alarm := raise o sev, time := if o.time then some time else none })

/-- pvaGetAlarmMsg (pvalink_lset.cpp:512-539): severity and message; the status is LINK_ALARM if the severity is not 0 -/
def alarmOf (l : Link) : Option (Int × Str) := if l.connected then some (l.severity, l.message) else none
/-- pvaGetTimeStampTag (pvalink_lset.cpp:547-563) -/
def timeOf (l : Link) : Option (Stamp × Nat) := if l.connected then some (l.time, l.tag) else none
/-- pvaGetElements (pvalink_lset.cpp:220-235) -/
def elementsOf (l : Link) : Option Nat :=
  if l.connected then match l.view.value with
    | some (.array a) => some a.elems.size
    | _ => some 1
  else none

/-- the fields of a database -/
inductive Dbf where
  | char | uchar | short | ushort | long | ulong | int64 | uint64 | float | double | string | enum
deriving DecidableEq, Repr

/-- pvaGetDBFtype (pvalink_lset.cpp:177-218), `vtype` is not used there -/
def typeOf (l : Link) : Option Dbf :=
  if l.connected then some (match l.view.value with
    | some (.scalar t _) => match t with
      | .i8 => .char | .i16 => .short | .i32 => .long | .i64 => .int64
      | .u8 => .uchar | .u16 => .ushort | .u32 => .ulong | .u64 => .uint64
      | .f32 => .float | .f64 => .double | .str => .string
      | _ => .long
    | some (.enum _ _) => .enum
    | _ => .long)
  else none

inductive Ev where
  | item (it : Item)
  | read (t : Dbr) (req : Option Int)

/-- the link after these events; reads which are not defined end it -/
def run (R : Reals) (o : Opts) : Link → List Ev → Res Link
  | l, [] => .ok l
  | l, .item it :: es => run R o (take l it) es
  | l, .read t req :: es => match read R o l t req with
    | .ok (l', _) => run R o l' es
    | .throws w => .throws w
    | .ub => .ub

end Pvxs.LinkRead
