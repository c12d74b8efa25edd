import Verif.Model.SMap
/-
Levels of loggers: src/log.cpp:161-390.  epicsStrGlobMatch() is a parameter.  All of this runs under the lock of logger_gbl.
-/
namespace Pvxs.Log

/-- src/pvxs/log.h:30-36 -/
def debug : Int := 50
def info : Int := 40
def warn : Int := 30
def err : Int := 20
def crit : Int := 10

/-- src/log.cpp:173-177: patterns and levels; names and levels of loggers in use -/
structure State where
  config : List (Str × Int) := []
  loggers : List (Str × Int) := []
deriving DecidableEq

/-- src/log.cpp:192-206: the level of a logger which is used for the first time -/
def initial (glob : Str → Str → Bool) (s : State) (name : Str) : Int :=
  match s.loggers.find? (·.1 = name) with
  | some l => l.2
  | none => s.config.foldl (fun lvl tup => if glob name tup.1 then tup.2 else lvl) warn

/-- src/log.cpp:188-213 `init`: the first use of a logger.  The multimap keeps loggers of the same name in the order of their first use,
and finds the first. -/
def init (glob : Str → Str → Bool) (s : State) (name : Str) : State :=
  { s with loggers := s.loggers ++ [(name, initial glob s name)] }

/-- src/log.cpp:240-245 -/
def apply (glob : Str → Str → Bool) (exp : Str) (lvl : Int) (loggers : List (Str × Int)) : List (Str × Int) :=
  loggers.map fun l => if glob l.1 exp then (l.1, lvl) else l

/-- src/log.cpp:224-230,239: the first entry for a pattern gets another level -/
def update (exp : Str) (lvl : Int) : List (Str × Int) → List (Str × Int)
  | [] => []
  | t :: c => if t.1 = exp then (exp, lvl) :: c else t :: update exp lvl c

/-- src/log.cpp:215-247 `set` -/
def set (glob : Str → Str → Bool) (s : State) (exp : Str) (lvl : Int) : State :=
  let lvl := if lvl ≤ 0 then 1 else lvl
  match s.config.find? (·.1 = exp) with
  | none => { config := s.config ++ [(exp, lvl)], loggers := apply glob exp lvl s.loggers }
  | some conf =>
    if conf.2 ≠ lvl then { config := update exp lvl s.config, loggers := apply glob exp lvl s.loggers }
    else s

inductive Op where
  /-- a logger with this name is used for the first time -/
  | use (name : Str)
  /-- src/log.cpp:322-329 `logger_level_set` -/
  | set (exp : Str) (lvl : Int)
  /-- src/log.cpp:331-338 `logger_level_clear` -/
  | clear

def step (glob : Str → Str → Bool) (s : State) : Op → State
  | .use n => init glob s n
  | .set p l => set glob s p l
  | .clear => { s with config := [] }

def run (glob : Str → Str → Bool) (s : State) (ops : List Op) : State := ops.foldl (step glob) s

/-- src/log.cpp:161-171 `name2lvl`; 0 is no level -/
def name2lvl (s : Str) : Int :=
  if s = [0x44, 0x45, 0x42, 0x55, 0x47] then debug
  else if s = [0x49, 0x4e, 0x46, 0x4f] then info
  else if s = [0x57, 0x41, 0x52, 0x4e] then warn
  else if s = [0x45, 0x52, 0x52] then err
  else if s = [0x43, 0x52, 0x49, 0x54] then crit
  else 0

/-- src/log.cpp:363-382: one piece between commas -/
def piece (s : Str) : List Op :=
  let key := s.takeWhile (· != 0x3d)
  match s.dropWhile (· != 0x3d) with
  | [] => []
  | _ :: val =>
    if key = [] ∨ val = [] then []
    else if name2lvl val ≠ 0 then [.set key (name2lvl val)]
    else []

/-- src/log.cpp:340-390 `logger_config_env`: what the value of $PVXS_LOG sets -/
def env (s : Str) : List Op :=
  match h : s.dropWhile (· != 0x2c) with
  | [] => piece (s.takeWhile (· != 0x2c))
  | _ :: r => piece (s.takeWhile (· != 0x2c)) ++ env r
termination_by s.length
decreasing_by
  have h1 : (s.dropWhile (· != 0x2c)).length ≤ s.length := (List.dropWhile_sublist _).length_le
  rw [h] at h1
  simp only [List.length_cons] at h1
  omega

end Pvxs.Log
