import Verif.Model.GroupMon
import Verif.Model.Scalar
/-
Get of a group: ioc/groupsource.cpp:409-480, ioc/iocsource.cpp:40-66,312-352, ioc/dblocker.h, ioc/dbmanylocker.h.

The database is a number for each record, which stands for all of its fields.  Other threads change records while the get goes on: the
get is a list of steps, and a schedule says who comes next.  Each dbChannelGet() is a step of its own.
Simplifications: a write by another thread is one step, which waits (it does nothing) while the record is locked by the get; what the
channel filters (ioc/localfieldlog.cpp) change is part of `Env.data`; Field::findIn() finds the place of the field (C67, C70), and a place
is given by the number of the field; the reply is seen through its marked parts.
-/
namespace Pvxs.GroupGet
open Group (MapType)
open GroupMon (Part Item)

/-- ioc/field.h -/
structure GField where
  type : MapType := .scalar
  /-- the record of the channel -/
  chan : Option Nat := none
  /-- `info.cval` -/
  cval : Nat := 0
deriving Repr, DecidableEq

/-- what is read of a record: `data i p x` is part p of field i, if the record of the field is x; `fails i p x`: it cannot be read;
    `form i`: display.form, from the Q:form tag -/
structure Env where
  data : Nat → Part → Nat → Nat
  fails : Nat → Part → Nat → Bool
  form : Nat → Nat

inductive Instr where
  | lock (records : List Nat)
  /-- dbChannelGet() of a part of field i, from a record -/
  | read (i : Nat) (p : Part) (record : Nat)
  /-- set a part of field i, without reading -/
  | set (i : Nat) (p : Part) (x : Nat)
  | unlock
  | reply
  | error
deriving Repr, DecidableEq

/-- ioc/groupsource.cpp:409-427 `getGroupField` with UpdateType::Everything: `initialize` (ioc/iocsource.cpp:40-66), then `IOCSource::get` (:312-352) -/
def fieldSteps (E : Env) (i : Nat) (f : GField) : List Instr :=
  match f.type with
  | .proc | .struct => []
  | .const => [.set i .value f.cval]
  | .scalar => match f.chan with
    | none => []
    | some r => [.set i .form (E.form i), .read i .props r, .read i .alarm r, .read i .value r]
  | .metadata => match f.chan with
    | none => []
    | some r => [.read i .alarm r]
  | .plain | .any => match f.chan with
    | none => []
    | some r => [.read i .value r]

/-- ioc/groupsource.cpp:448-457, the fields from number i on.  (Proc and Structure do nothing) -/
def allSteps (E : Env) (i : Nat) : List GField → List Instr
  | [] => []
  | f :: fs => fieldSteps E i f ++ allSteps E (i + 1) fs

/-- ioc/groupsource.cpp:466-480 -/
def eachSteps (E : Env) (i : Nat) : List GField → List Instr
  | [] => []
  | f :: fs => (match f.chan with
    | none => []
    | some r => .lock [r] :: (fieldSteps E i f ++ [.unlock])) ++ eachSteps E (i + 1) fs

/-- `group.value.lock`, ioc/groupconfigprocessor.cpp:1165-1176 -/
def records (fs : List GField) : List Nat := fs.filterMap (·.chan)

/-- ioc/groupsource.cpp:440-483 `GroupSource::get` -/
def program (E : Env) (fs : List GField) (atomic : Bool) : List Instr :=
  if atomic then .lock (records fs) :: (allSteps E 0 fs ++ [.unlock, .reply])
  else eachSteps E 0 fs ++ [.reply]

/-- ioc/groupsource.cpp:436-437: `dflt` from the definition of the group, `opt`: record._options.atomic of the pvRequest.  (`as()` leaves its argument alone if it fails) -/
def atomicOf (dflt : Bool) (opt : Option Datum) : Bool :=
  match opt with
  | none => dflt
  | some d => match copyOut d .bool with
    | some (.bool b) => b
    | _ => dflt

inductive Result where
  | value (l : List (Item × Nat))
  | error
deriving Repr, DecidableEq

structure St where
  db : Nat → Nat
  /-- locked by the get -/
  locked : List Nat := []
  /-- what it is still going to do -/
  todo : List Instr
  /-- what is marked in `returnValue` -/
  out : List (Item × Nat)
  /-- sent to the client -/
  sent : List Result := []

/-- who comes next -/
inductive Turn where
  | get
  | write (record : Nat) (x : Nat)
deriving Repr, DecidableEq

/-- one step of the get; an exception ends it, and the lock is released (ioc/groupsource.cpp:416-424) -/
def St.exec (E : Env) (s : St) : Instr → List Instr → St
  | .lock rs, k => { s with locked := rs, todo := k }
  | .read i p r, k =>
    if E.fails i p (s.db r) then { s with todo := [.unlock, .error] }
    else { s with out := s.out ++ [(.part i p, E.data i p (s.db r))], todo := k }
  | .set i p x, k => { s with out := s.out ++ [(.part i p, x)], todo := k }
  | .unlock, k => { s with locked := [], todo := k }
  | .reply, k => { s with sent := s.sent ++ [.value s.out], todo := k }
  | .error, k => { s with sent := s.sent ++ [.error], todo := k }

def St.step (E : Env) (s : St) : Turn → St
  | .get => match s.todo with
    | [] => s
    | c :: k => s.exec E c k
  | .write r x => if r ∈ s.locked then s else { s with db := fun q => if q = r then x else s.db q }

/-- ioc/groupsource.cpp:436-441; `returnValue["record._options.atomic"] = atomic` -/
def St.init (E : Env) (fs : List GField) (atomic : Bool) (db : Nat → Nat) : St :=
  { db := db, todo := program E fs atomic, out := [(.options, if atomic then 1 else 0)] }

def run (E : Env) (fs : List GField) (atomic : Bool) (db : Nat → Nat) (ts : List Turn) : St :=
  ts.foldl (St.step E) (St.init E fs atomic db)

end Pvxs.GroupGet
