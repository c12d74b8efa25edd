import Verif.Model.GroupPut
/-
Put to a record of an IOC: ioc/singlesource.cpp:195-256,306-369, ioc/iocsource.cpp:362-455,583-617, ioc/securityclient.h:33-66.

One operation of a client, which may be executed many times.  Simplifications: the data of the field "value" is a number, which stands for any value; conversions and
dbChannelPut() either write this data or fail; what there is to know about a record is given with each event.  The processNotify of epics-base is seen through the calls it
makes: putCallback and doneCallback.
-/
namespace Pvxs.RecPut
open Pvxs.Group (Chan Tri)

/-- dbNotify.h `notifyStatus` -/
inductive Status where
  | ok
  | canceled
  | error
  | putDisabled
deriving Repr, DecidableEq

/-- `PutOperationCache`, ioc/securityclient.h:33-66 -/
structure Cache where
  /-- `credentials`, and `done`: whose first put it was -/
  who : Option Nat := none
  force : Tri := .unset
  doWait : Bool := false
  /-- `valueToSet`, as it is put into the notify request -/
  valueToSet : Option Nat := none
  /-- `putOperation` -/
  op : Option Nat := none
deriving Repr, DecidableEq

/-- the options of the request: record._options.process, record._options.block -/
structure Options where
  process : Tri := .unset
  block : Bool := false
deriving Repr, DecidableEq

inductive Event where
  /-- the client's put number `op` is executed; `who` it is now; the data of "value" and whether it is marked; whom access security lets write now -/
  | put (op who data : Nat) (marked : Bool) (allow : Nat → Bool) (c : Chan)
  /-- epics-base calls `putCallback`; `disabled`: with putDisabledType -/
  | callPut (c : Chan) (disabled : Bool)
  /-- epics-base calls `doneCallback` -/
  | callDone (s : Status)

/-- what is seen of it.  (The `op` of the first two is not known to the database: it is whose put it is.) -/
inductive Out where
  /-- the value of the record is written -/
  | write (op data : Nat)
  /-- `dbChannelPutField` -/
  | putField (op data : Nat)
  /-- dbProcess() -/
  | process (op : Nat)
  /-- the record is active, and will be processed again -/
  | reprocess (op : Nat)
  /-- dbProcessNotify(), with a put or without -/
  | notify (op : Nat) (withPut : Bool)
  /-- `reply()` or `error()` -/
  | reply (op : Nat) (ok : Bool)
  /-- a C++ exception reaches C code -/
  | escapes
deriving Repr, DecidableEq

/-- ioc/singlesource.cpp:318-333, ioc/iocsource.cpp:429-455 -/
def Cache.first (s : Cache) (o : Options) (who : Nat) : Cache := match s.who with
  | some _ => s
  | none => { s with who := some who, force := o.process, doWait := if o.process = .unset then o.block else false }

/-- ioc/iocsource.cpp:362-387: `doPreProcessing`, `doFieldPreProcessing` throw -/
def refused (s : Cache) (allow : Nat → Bool) (c : Chan) : Bool :=
  c.attr || c.disabled || !(match s.who with
    | some w => allow w
    | none => false)

/-- ioc/iocsource.cpp:397-421 `doPostProcessing`; false: it throws -/
def post (force : Tri) (op : Nat) (c : Chan) : List Out × Bool :=
  if c.isProc || force = .yes || (c.passive && force = .unset) then
    if c.active then ([.reprocess op], true)
    else ([.process op], !c.processFails)
  else ([], true)

/-- ioc/singlesource.cpp:353-368 -/
def direct (force : Tri) (op data : Nat) (c : Chan) : List Out :=
  if c.putFails then [.reply op false]
  else if c.link then [.putField op data, .reply op true]
  else
    let r := post force op c
    .write op data :: r.1 ++ [.reply op r.2]

/-- ioc/singlesource.cpp:313-369 -/
def put (o : Options) (s : Cache) (op who data : Nat) (marked : Bool) (allow : Nat → Bool) (c : Chan) : Cache × List Out :=
  let s := s.first o who
  if refused s allow c then (s, [.reply op false])
  else if s.doWait then ({ s with valueToSet := some data, op := some op }, [.notify op marked])
  else (s, direct s.force op data c)

/-- ioc/singlesource.cpp:202-222 `putCallback`; the data was moved from before -/
def callPut (s : Cache) (c : Chan) (disabled : Bool) : Cache × List Out :=
  let s' := { s with valueToSet := none }
  if disabled then (s', [])
  else match s.valueToSet with
    | none => (s', [.escapes])
    | some d =>
      if c.putFails then (s', [.escapes])
      else (s', [if c.link then .putField (s.op.getD 0) d else .write (s.op.getD 0) d])

/-- ioc/singlesource.cpp:229-256 `doneCallback` -/
def callDone (s : Cache) (st : Status) : Cache × List Out :=
  let s' := { s with op := none }
  match s.op with
  | none => (s', [.escapes])
  | some op => match st with
    | .ok => (s', [.reply op true])
    | .canceled => (s', [])
    | .error => (s', [.reply op false])
    | .putDisabled => (s', [.reply op false])

def step (o : Options) (s : Cache) : Event → Cache × List Out
  | .put op who data marked allow c => put o s op who data marked allow c
  | .callPut c d => callPut s c d
  | .callDone st => callDone s st

/-- the puts of an operation -/
def run (o : Options) (s : Cache) : List Event → Cache × List Out
  | [] => (s, [])
  | e :: es =>
    let r := step o s e
    let q := run o r.1 es
    (q.1, r.2 ++ q.2)

end Pvxs.RecPut
