import Verif.Model.GroupConf
/-
Put to a group: ioc/groupsource.cpp:168-187,497-612, ioc/iocsource.cpp:362-421,583-617.

Simplifications: what there is to know about a record is given as data, and does not change while the put goes on; the data sent for a
field is any value; conversions and dbPut() either write this data or fail; a field of a group which is created has a channel unless it
is a structure or const mapping (C67).
-/
namespace Pvxs.Group

/-- a dbChannel, and its record -/
structure Chan where
  /-- which record, for locking -/
  record : Nat
  /-- `addr.special == SPC_ATTRIBUTE` -/
  attr : Bool := false
  /-- `precord->disp`, and the field is not DISP itself -/
  disabled : Bool := false
  /-- DBF_INLINK..DBF_FWDLINK -/
  link : Bool := false
  /-- `pfield == &precord->proc` -/
  isProc : Bool := false
  /-- `process_passive && scan == 0 && type < DBR_PUT_ACKT` -/
  passive : Bool := false
  /-- `precord->pact` -/
  active : Bool := false
  /-- the conversion of the value or dbChannelPut() fails -/
  putFails : Bool := false
  /-- dbProcess() fails -/
  processFails : Bool := false
deriving Repr, DecidableEq

/-- ioc/field.h, as far as a put is concerned -/
structure PField where
  type : MapType := .scalar
  putOrder : Option Int := none
  chan : Option Chan := none
deriving Repr, DecidableEq

/-- TriState, ioc/securityclient.h `forceProcessing` -/
inductive Tri where
  | unset
  | no
  | yes
deriving Repr, DecidableEq

/-- one put: `sent i` is the data at the leaf of field i, if that leaf is marked; `anySent`: `value.isMarked(true, true)`;
    `allowed i`: the credentials of the client are allowed to write the channel of field i -/
structure Put where
  sent : Nat → Option Nat
  anySent : Bool
  allowed : Nat → Bool
  force : Tri := .unset

/-- what happens to the database -/
inductive Ev where
  | lock (records : List Nat)
  | unlock
  | write (field : Nat) (data : Nat)
  | process (field : Nat)
  | reprocess (field : Nat)
deriving Repr, DecidableEq

/-- ioc/groupsource.cpp:170-180, ioc/securityclient.cpp:42-46: SecurityClient number `k` has no credentials if field k has no channel -/
def canWrite (fs : List PField) (p : Put) (k : Nat) : Bool :=
  match fs[k]? with
  | some f => f.chan.isSome && p.allowed k
  | none => false

/-- ioc/iocsource.cpp:585-604: can this mapping be written.  (const has no channel) -/
def MapType.writes : MapType → Bool
  | .scalar | .plain | .any | .const => true
  | .metadata | .proc | .struct => false

/-- ioc/iocsource.cpp:397-421 `doPostProcessing`; false: it throws -/
def postProcess (p : Put) (i : Nat) (c : Chan) : List Ev × Bool :=
  if c.isProc || p.force = .yes || (c.passive && p.force = .unset) then
    if c.active then ([.reprocess i], true)
    else if c.processFails then ([.process i], false)
    else ([.process i], true)
  else ([], true)

/-- ioc/groupsource.cpp:497-517 `putGroupField` of field i, with SecurityClient number k; `none`: it throws -/
def putGroupField (fs : List PField) (p : Put) (i k : Nat) (f : PField) : List Ev × Option Bool :=
  match f.chan with
  | none => ([], some false)
  | some c =>
    match p.sent i, f.putOrder with
    | some v, some _ =>
      if canWrite fs p k = false then ([], none)
      else if f.type.writes && c.putFails then ([], none)
      else
        let r := postProcess p i c
        ((if f.type.writes then [.write i v] else []) ++ r.1, if r.2 then some true else none)
    | _, _ =>
      if f.type = .proc then
        let r := postProcess p i c
        (r.1, if r.2 then some true else none)
      else ([], some false)

/-- ioc/groupsource.cpp:564-572, the fields from number i on -/
def putAtomic (all : List PField) (p : Put) (i : Nat) (did : Bool) : List PField → List Ev × Option Bool
  | [] => ([], some did)
  | f :: fs =>
    match putGroupField all p i i f with
    | (es, none) => (es, none)
    | (es, some d) =>
      let r := putAtomic all p (i + 1) (did || d) fs
      (es ++ r.1, r.2)

/-- ioc/groupsource.cpp:581-593; `k` is `fieldIndex`, which is not incremented for a field without channel -/
def putEach (all : List PField) (p : Put) (i k : Nat) (did : Bool) : List PField → List Ev × Option Bool
  | [] => ([], some did)
  | f :: fs =>
    match f.chan with
    | none => putEach all p (i + 1) k did fs
    | some c =>
      match putGroupField all p i k f with
      | (es, none) => (.lock [c.record] :: es ++ [.unlock], none)
      | (es, some d) =>
        let r := putEach all p (i + 1) (k + 1) (did || d) fs
        (.lock [c.record] :: es ++ .unlock :: r.1, r.2)

/-- ioc/groupsource.cpp:540-552: an exception before anything is written -/
def refuses (f : PField) : Bool :=
  match f.chan with
  | none => false
  | some c => c.attr || c.disabled || c.link

/-- `group.value.lock`, ioc/groupconfigprocessor.cpp:1165-1176 -/
def records (fs : List PField) : List Nat := fs.filterMap fun f => f.chan.map (·.record)

/-- ioc/groupsource.cpp:527-612 `putGroup`: what it does, and whether it replies without error -/
def putGroup (fs : List PField) (p : Put) (atomic : Bool) : List Ev × Bool :=
  if fs.any refuses then ([], false)
  else
    let r :=
      if atomic then
        let r := putAtomic fs p 0 false fs
        (.lock (records fs) :: r.1 ++ [.unlock], r.2)
      else putEach fs p 0 0 false fs
    match r.2 with
    | none => (r.1, false)
    | some did => (r.1, !(!did && p.anySent))

end Pvxs.Group
