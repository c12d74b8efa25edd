import Verif.Model.GroupJson
/-
Files with group definitions: ioc/groupsourcehooks.cpp:42-46,97-188 and ioc/group.h:60-76.

Simplified: a file is opened when the command is given and read later, the model has its text, with macros
replaced, at once.  `none` for the text: the file can not be opened, or the macros are no definitions.
-/
namespace Pvxs.GLoad
open GJson (Text Proc Msg loadDb loadFiles)

/-- ioc/group.h:61-73 `IOCGroupConfig::JFile` -/
structure JFile where
  fname : Str
  macros : Str
  text : Text
deriving Repr, DecidableEq

/-- ioc/groupsourcehooks.cpp:147-152: those with this name and these macros are erased -/
def erase (files : List JFile) (fname macros : Str) : List JFile := files.filter fun f => !(f.fname == fname && f.macros == macros)

/-- ioc/groupsourcehooks.cpp:112-158, the name without the sign -/
def loadOrRemove (files : List JFile) (remove : Bool) (fname macros : Str) (text : Option Text) : List JFile × Bool :=
  if fname = [0x2a] then ([], true)
  else if remove then (erase files fname macros, true)
  else
    match text with
    | none => (files, false)
    | some t => (erase files fname macros ++ [{ fname, macros, text := t }], true)

/-- ioc/groupsourcehooks.cpp:97-163 dbLoadGroup().  The second: it returns 0 -/
def dbLoadGroup (files : List JFile) (name macros : Str) (text : Option Text) : List JFile × Bool :=
  match name with
  | [] => (files, false)
  | c :: cs => if c = 0x2d then loadOrRemove files true cs macros text else loadOrRemove files false (c :: cs) macros text

/-- ioc/groupconfigprocessor.cpp:77-79 loadConfigFiles(): the list is moved to a local one.  (That leaves it empty.)
    What is printed, or thrown, does not matter here -/
def takeFiles (files : List JFile) : List JFile × List (Str × Text) := ([], files.map fun f => (f.fname, f.text))

/-- ioc/groupsourcehooks.cpp:43-46 dbLoadGroupCmd(), the command of the shell: what is read goes to a GroupConfigProcessor
    which is destroyed at once.  The exceptions are caught, ioc/iocshcommand.h:94-101. -/
def dbLoadGroupCmd (files : List JFile) (name macros : Str) (text : Option Text) : List JFile :=
  (takeFiles (dbLoadGroup files name macros text).1).1

/-- one command -/
structure Cmd where
  name : Str
  macros : Str := []
  text : Option Text := none
deriving Repr, DecidableEq

/-- calls of dbLoadGroup() by a program -/
def calls (files : List JFile) (cs : List Cmd) : List JFile := cs.foldl (fun fs c => (dbLoadGroup fs c.name c.macros c.text).1) files
/-- commands of the shell -/
def shell (files : List JFile) (cs : List Cmd) : List JFile := cs.foldl (fun fs c => dbLoadGroupCmd fs c.name c.macros c.text) files

/-- ioc/groupsourcehooks.cpp:166-175 processGroups(), until the definitions are read -/
def process (records : List (Str × Text)) (files : List JFile) : Res (Proc × List Msg) :=
  match loadDb {} records with
  | .ok (p, ms) =>
    match loadFiles p (takeFiles files).2 with
    | .ok (q, ms') => .ok (q, ms ++ ms')
    | .throws w => .throws w
    | .ub => .ub
  | .throws w => .throws w
  | .ub => .ub

end Pvxs.GLoad
