import Verif.Model.SMap
/-
The PVA server of an IOC: ioc/iochooks.cpp, ioc/singlesourcehooks.cpp:156-160, ioc/groupsourcehooks.cpp:190-194.

Simplifications: configuration of the server, shell commands and the links themselves are not modelled; processGroups() and resetGroups() are in Model/GroupLoad, and here do nothing;
iocInit() and the others of EPICS Base are their calls of the hooks which are used (with USE_DEINIT_HOOKS and USE_PREPARE_CLEANUP_HOOKS, ioc/qsrvpvt.h:40-45);
start() and stop() of the server are in Model/Life, and here at once.
-/
namespace Pvxs.IocLife

/-! ### whether QSRV is enabled -/

structure Env where
  /-- `registryDeviceSupportFind("devWfPDBDemo")` -/
  qsrv1 : Bool := false
  /-- $EPICS_IOC_IGNORE_SERVERS -/
  ignore : Option Str := none
  /-- $PVXS_QSRV_ENABLE -/
  enable : Option Str := none
deriving DecidableEq, Repr

/-- strstr(): is the second a part of the first -/
def contains : Str → Str → Bool
  | [], t => t.isEmpty
  | x :: s, t => t.isPrefixOf (x :: s) || contains s t

/-- toupper() -/
def upper (c : UInt8) : UInt8 := if 0x61 ≤ c ∧ c ≤ 0x7a then c - 0x20 else c

/-- `epicsStrCaseCmp(a, b)==0` -/
def sameCase (a b : Str) : Bool := decide (a.map upper = b.map upper)

/-- "qsrv2" -/
def tQsrv2 : Str := [0x71, 0x73, 0x72, 0x76, 0x32]
def tYES : Str := [0x59, 0x45, 0x53]
def tNO : Str := [0x4e, 0x4f]

/-- ioc/iochooks.cpp:394-419: `request` -/
def request (e : Env) : Bool :=
  let permit := !e.qsrv1
  if (e.ignore.map (contains · tQsrv2)).getD false then false
  else if (e.enable.map (sameCase · tYES)).getD false then true
  else if (e.enable.map (sameCase · tNO)).getD false then false
  else permit

/-- ioc/iochooks.cpp:393-441 `enable2`, without what it prints -/
def enable2 (e : Env) : Bool := !e.qsrv1 && request e

/-! ### the hooks -/

/-- a server: started, and with sources for records and for groups -/
structure Srv where
  running : Bool := false
  single : Bool := false
  group : Bool := false
deriving DecidableEq, Repr

structure St where
  /-- `pvxServer->srv` -/
  srv : Option Srv := none
  /-- initHookRegister() -/
  hooked : Bool := false
  /-- `dbpvar`, `pvxsl`, `pvxgl` and others are shell commands -/
  commands : Bool := false
  /-- `linkGlobal` -/
  links : Bool := false
  /-- `linkGlobal->running` -/
  linksUp : Bool := false
  /-- a hook which is noexcept has thrown, or cantProceed() -/
  dead : Bool := false
deriving DecidableEq, Repr

inductive Hook where
  | afterPrepareDatabase
  | atBeginning
  | afterCaLinkInit
  | afterInitDatabase
  | afterIocBuilt
  | afterIocRunning
  | afterCaServerPaused
  | atShutdown
  | afterShutdown
  | beforeCleanupDatabase
deriving DecidableEq, Repr

/-- ioc/iochooks.cpp:86-97 `initialisePvxsServer` -/
def St.makeServer (s : St) : St := match s.srv with
  | some _ => s
  | none => { s with srv := some {} }

/-- ioc/iochooks.cpp:77-84 `server()`, used where an exception is fatal -/
def St.withServer (s : St) (f : Srv → Option Srv) : St := match s.srv with
  | none => { s with dead := true }
  | some v => match f v with
    | none => { s with dead := true }
    | some v' => { s with srv := some v' }

/-- ioc/singlesourcehooks.cpp:156-160 `addSingleSrc`; src/server.cpp:92-93 throws if there is one -/
def addSingle (v : Srv) : Option Srv := if v.single then none else some { v with single := true }
/-- ioc/groupsourcehooks.cpp:190-194 `addGroupSrc` -/
def addGroup (v : Srv) : Option Srv := if v.group then none else some { v with group := true }

/-- ioc/pvalink.cpp:50-64 `linkGlobal_t::alloc`, not in a unit test -/
def St.linkAlloc (s : St) : St := if s.links then { s with dead := true } else { s with links := true }

/-- ioc/pvalink.cpp:66-80 `linkGlobal_t::init`, which uses `linkGlobal` without a test -/
def St.linkInit (s : St) : St := if s.links then { s with linksUp := true } else { s with dead := true }

/-- ioc/iochooks.cpp:99-116 `pvxsExitBeforeIocShutdown`; IOCGroupConfigCleanup() is not modelled -/
def St.exitBefore (s : St) : St := { s with linksUp := false, srv := none }

/-- ioc/iochooks.cpp:118-129 `pvxsExitAfterIocShutdown` -/
def St.exitAfter (s : St) : St := { s with links := false }

/-- ioc/iochooks.cpp:308-384 `pvxsInitHook` -/
def hook (s : St) (h : Hook) : St :=
  if s.dead ∨ s.hooked = false then s else match h with
  | .afterPrepareDatabase => s.makeServer
  | .atBeginning => s
  | .afterCaLinkInit => s.linkAlloc
  | .afterInitDatabase => s
  | .afterIocBuilt => (s.linkInit.withServer addSingle).withServer addGroup
  | .afterIocRunning => s.withServer fun v => some { v with running := true }
  | .afterCaServerPaused => s.withServer fun v => some { v with running := false }
  | .atShutdown => s.exitBefore
  | .afterShutdown => s.exitAfter
  | .beforeCleanupDatabase => { s with srv := none }

/-- ioc/iochooks.cpp:453-486 `pvxsBaseRegistrar` -/
def registrar (e : Env) (s : St) : St :=
  { s.makeServer with hooked := true, commands := enable2 e }

/-! ### what EPICS Base does -/

inductive Act where
  /-- iocBuild() -/
  | build
  /-- iocRun() -/
  | run
  /-- iocPause() -/
  | pause
  /-- iocShutdown() -/
  | shutdown
  /-- testdbCleanup() and testdbPrepare(), for another IOC in the same process -/
  | again
deriving DecidableEq, Repr

/-- the hooks of each, in order -/
def hooks : Act → List Hook
  | .build => [.atBeginning, .afterCaLinkInit, .afterInitDatabase, .afterIocBuilt]
  | .run => [.afterIocRunning]
  | .pause => [.afterCaServerPaused]
  | .shutdown => [.atShutdown, .afterShutdown]
  | .again => [.beforeCleanupDatabase, .afterPrepareDatabase]

def act (s : St) (a : Act) : St := (hooks a).foldl hook s

/-- an IOC which is loaded, and then all these -/
def ioc (e : Env) (as : List Act) : St := as.foldl act (registrar e {})

/-! ### ioc::server() while another thread shuts down -/

inductive Step where
  /-- `if(pvxServer->srv)`, ioc/iochooks.cpp:80 -/
  | test
  /-- `return pvxServer->srv`, ioc/iochooks.cpp:81 -/
  | copy
  /-- `std::move(pvxServer->srv)`, ioc/iochooks.cpp:107 -/
  | take
deriving DecidableEq, Repr

inductive Got where
  | handle
  /-- a Server without an instance -/
  | empty
  /-- std::logic_error("No Instance") -/
  | thrown
deriving DecidableEq, Repr

structure Race where
  srv : Bool := true
  tested : Bool := false
  got : Option Got := none
deriving DecidableEq, Repr

/-- `Guard (pvxServer->lock);` of ioc/iochooks.cpp:79 and :106 is an object without a name, gone at the end of the statement: no mutex is held after it.
Simplified: each step is at once, although the copy of a shared_ptr while it is moved from is not defined. -/
def raceStep (r : Race) : Step → Race
  | .test => if r.got.isSome ∨ r.tested then r else if r.srv then { r with tested := true } else { r with got := some .thrown }
  | .copy => if r.tested ∧ r.got = none then { r with got := some (if r.srv then .handle else .empty) } else r
  | .take => { r with srv := false }

def race (l : List Step) : Race := l.foldl raceStep {}

end Pvxs.IocLife
