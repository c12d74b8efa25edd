import Verif.Model.SMap
/-
Messages of loggers: src/log.cpp:53-158, 251-262, 285-323, src/pvxs/log.h.  Levels are in Model/Log.

`prefix` is memory of 80 bytes.  A write outside of it is the end (none); C++ does not define what happens then.

Not modelled: errlog of EPICS Base, and what a message says after the prefix.  epicsSnprintf() does not return a negative number.  Without a clock the time is "<notime>";
otherwise the format "%Y-%m-%dT%H:%M:%S.%9f" gives 29 characters.
-/
namespace Pvxs.LogMsg

/-! ### the prefix of a message -/

/-- sizeof(prefix) -/
def room : Nat := 80

/-- bytes are written at `off` -/
def put (mem : Str) (off : Nat) (bs : Str) : Option Str :=
  if off + bs.length ≤ mem.length then some (mem.take off ++ bs ++ mem.drop (off + bs.length)) else none

/-- `sizeof(prefix)-N` of size_t -/
def left (n : Nat) : Nat := if n ≤ room then room - n else 2 ^ 64 + room - n

/-- snprintf(prefix+off, cap, "%s", text), without its result, which is the length of `text` -/
def snprintf (mem : Str) (off cap : Nat) (text : Str) : Option Str :=
  if cap = 0 then some mem else put mem off (text.take (cap - 1) ++ [0])

inductive Level where
  | crit
  | err
  | warn
  | info
  | debug
  | other
deriving DecidableEq, Repr

/-- src/log.cpp:59,76-83: names of levels, with the colours of errlog.h of EPICS Base, or without (src/log.cpp:34-38) -/
def levelName (ansi : Bool) : Level → Str
  | .crit => if ansi then "\x1b[31;1mCRIT\x1b[0m".toUTF8.toList else "CRIT".toUTF8.toList
  | .err => if ansi then "\x1b[31;1mERR\x1b[0m".toUTF8.toList else "ERR".toUTF8.toList
  | .warn => if ansi then "\x1b[35;1mWARN\x1b[0m".toUTF8.toList else "WARN".toUTF8.toList
  | .info => if ansi then "\x1b[34;1mINFO\x1b[0m".toUTF8.toList else "INFO".toUTF8.toList
  | .debug => "DEBUG".toUTF8.toList
  | .other => "<???>".toUTF8.toList

/-- " %s %s" -/
def body (lname name : Str) : Str := 0x20 :: (lname ++ 0x20 :: name)

/-- "\n    " -/
def newLine : Str := [0x0a, 0x20, 0x20, 0x20, 0x20]

/-- "<notime>" -/
def noTime : Str := "<notime>".toUTF8.toList

/-- src/log.cpp:64-94 `log_prep`, for a level which is let through; `time` is what the clock gives -/
def prep (mem : Str) (time : Option Str) (lname name : Str) : Option Str :=
  let t := time.getD noTime
  (put mem 0 (t ++ [0])).bind fun m1 =>
  (snprintf m1 t.length (left t.length) (body lname name)).bind fun m2 =>
  let n := t.length + (body lname name).length
  if n > 60 then snprintf m2 n (left n) newLine else some m2

/-- what printf("%s") shows of it -/
def text (mem : Str) : Str := mem.takeWhile (· ≠ 0)

/-! ### what comes after the message -/

inductive After where
  | goesOn
  /-- abort() -/
  | aborts
  /-- cantProceed(): this thread stops -/
  | stops
  /-- epicsStackTrace() -/
  | traces
deriving DecidableEq, Repr

/-- src/log.cpp:251-262: $_PVXS_ABORT_ON_CRIT; `same` is epicsStrCaseCmp()==0 -/
def abortOnCrit (same : Str → Str → Bool) : Option Str → Nat
  | none => 0
  | some env => if same env "YES".toUTF8.toList ∨ env = "1".toUTF8.toList then 1 else if same env "EPICS".toUTF8.toList then 2 else 0

/-- src/pvxs/log.h:30-36 -/
def Level.code : Level → Nat
  | .crit => 10
  | .err => 20
  | .warn => 30
  | .info => 40
  | .debug => 50
  | .other => 0

/-- src/log.cpp:98-119 `_log_vprintf` -/
def after (abort rawlvl : Nat) : After :=
  if rawlvl &&& 0xff = Level.code .crit ∧ abort ≠ 0 then (if abort = 1 then .aborts else .stops)
  else if rawlvl &&& 0x1000 ≠ 0 then .traces
  else .goesOn

/-- src/log.cpp:143-157 `evlog_handler`: the level of a message of libevent -/
def ofLibevent : Int → Level
  | 0 => .debug
  | 1 => .info
  | 2 => .warn
  | 3 => .err
  | _ => .crit

/-! ### dump of bytes -/

/-- src/log.cpp:306 -/
def hexDigit (n : UInt8) : UInt8 := if n < 10 then 0x30 + n else 0x37 + n

/-- src/log.cpp:304-310: at most `n` bytes; and those which are left -/
def group : Nat → Str → Str × Str
  | 0, l => ([], l)
  | _ + 1, [] => ([], [])
  | n + 1, v :: l => let r := group n l; (hexDigit ((v >>> 4) &&& 0xf) :: hexDigit (v &&& 0xf) :: r.1, r.2)

/-- src/log.cpp:297-318: groups of a line; those for which no byte is left are empty -/
def groups : Nat → Str → List Str × Str
  | 0, l => ([], l)
  | n + 1, l => let g := group 4 l; let r := groups n g.2; (g.1 :: r.1, r.2)

/-- a printed line -/
inductive Line where
  | row (addr : Nat) (groups : List Str)
  | ellipsis
deriving DecidableEq, Repr

/-- src/log.cpp:292-320: the loop; at most as many turns as bytes -/
def rows : Nat → Nat → Str → List Line
  | 0, _, _ => []
  | fuel + 1, pos, l =>
    if l = [] then [] else
    let r := groups 4 l
    .row pos r.1 :: rows fuel (pos + (l.length - r.2.length)) r.2

/-- src/log.cpp:285-323 `xerrlogHexPrintf` -/
def dump (buf : Str) : List Line :=
  let b := buf.take 64
  rows b.length 0 b ++ (if buf.length > 64 then [.ellipsis] else [])

end Pvxs.LogMsg
