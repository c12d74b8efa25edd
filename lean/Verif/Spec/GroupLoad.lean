import Verif.Model.GroupLoad
import Verif.Spec.GroupJson
/-
dbLoadGroup() as its help says: "Load additional DB group definitions from file" and "Remove all, or one, previously added".
-/
namespace Pvxs.Spec.GLoad
open Spec.GJson (bytes Doc text)
open Pvxs.GLoad (Cmd JFile)

/-- what the user asks for -/
inductive Ask where
  | load (fname macros : Str) (d : Doc)
  | remove (fname macros : Str)
  | removeAll
  /-- a file which can not be opened -/
  | noFile (fname macros : Str)
deriving Repr, DecidableEq

/-- as it is written -/
def Ask.cmd : Ask → Cmd
  | .load f m d => { name := f, macros := m, text := some (text d) }
  | .remove f m => { name := bytes "-" ++ f, macros := m }
  | .removeAll => { name := bytes "-*" }
  | .noFile f m => { name := f, macros := m }

/-- a name of a file which is not taken for something else -/
def FileName (f : Str) : Prop := f ≠ [] ∧ f.head? ≠ some 0x2d ∧ f ≠ bytes "*"

def Ask.Good : Ask → Prop
  | .load f _ _ => FileName f
  | .remove f _ => f ≠ bytes "*"
  | .removeAll => True
  | .noFile f _ => FileName f

/-- after this the definitions of an earlier load are gone, or replaced -/
def Ask.Ends (f m : Str) : Ask → Prop
  | .load f' m' _ => f' = f ∧ m' = m
  | .remove f' m' => f' = f ∧ m' = m
  | .removeAll => True
  | .noFile _ _ => False

instance (f m : Str) (a : Ask) : Decidable (a.Ends f m) := by
  cases a <;> simp only [Ask.Ends] <;> infer_instance

/-- the files to be read, in order: those which are loaded, and neither removed nor loaded once more after that -/
def kept : List Ask → List (Str × Str × Doc)
  | [] => []
  | .load f m d :: later => if ∃ a ∈ later, a.Ends f m then kept later else (f, m, d) :: kept later
  | _ :: later => kept later

/-- the names and the definitions -/
def docs (l : List (Str × Str × Doc)) : List (Str × Doc) := l.map fun x => (x.1, x.2.2)

end Pvxs.Spec.GLoad
