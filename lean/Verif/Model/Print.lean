import Verif.Model.ArrayConv
import Verif.Model.NT
import Verif.Model.Text
/-
A value printed: src/datafmt.cpp (`Value::Fmt`, `operator<<`), src/sharedarray.cpp:92-152 (`Limiter`).

The stream is not indented, and has the flags of a new stream.  Left open: the text of a real (`Reals`), and the text of an array without
elements (`{?}[]` when it was never assigned, else `{0}[]`).
Of the tree format, the lines of scalars and of arrays of scalars.  Not modelled: its lines of compound fields.
-/
namespace Pvxs.Print
open Pvxs Pvxs.ArrayConv Pvxs.NT

/-- src/pvxs/data.h:785-805 `Value::Fmt`, and what is left open -/
structure Opts where
  R : Reals
  empty : Str
  limit : Nat := 0
  showValue : Bool := true

/-- `escape()` of a std::string, see Model/Text.lean -/
def esc (s : Str) : Str := (Text.escape (s.map UInt8.toNat)).map UInt8.ofNat

/-- src/sharedarray.cpp:94-101 `Print<E>::as`, of an element of an array of scalars; a bool without boolalpha -/
def elem (o : Opts) (c : TypeCode) (x : Nat) : Str :=
  if c = .BoolA then (if x ≠ 0 then lit "1" else lit "0")
  else if c = .Float32A then o.R.show32 x
  else if c = .Float64A then o.R.show64 x
  else if c = .Int8A then showInt (intOf 1 x)
  else if c = .Int16A then showInt (intOf 2 x)
  else if c = .Int32A then showInt (intOf 4 x)
  else if c = .Int64A then showInt (intOf 8 x)
  else showNat x

/-- src/sharedarray.cpp:101 `Print<std::string>::as`, src/datafmt.cpp:38 -/
def quoted (s : Str) : Str := 0x22 :: (esc s ++ [0x22])

/-- src/sharedarray.cpp:112-120: the loop of `showArr`, at element `i`; :108-109 makes a limit of zero larger than any array -/
def arrLoop (limit : Nat) : Nat → List Str → Str
  | _, [] => []
  | i, e :: es => (if i ≠ 0 then lit ", " else []) ++ (if limit ≠ 0 ∧ limit ≤ i then lit "..." else e ++ arrLoop limit (i + 1) es)

/-- src/sharedarray.cpp:103-122 `showArr`, :125-152 `operator<<(std::ostream&, const Limiter&)` -/
def arrText (o : Opts) (es : List Str) : Str :=
  if es = [] then o.empty else 0x7b :: (showNat es.length ++ lit "}[" ++ arrLoop o.limit 0 es ++ [0x5d])

/-- src/datafmt.cpp:30-50: the content, in delta format -/
def valueText (o : Opts) (c : TypeCode) : Datum → Str
  | .real x => lit " = " ++ o.R.show64 x
  | .int v => lit " = " ++ showInt v
  | .uint v => lit " = " ++ showNat v
  | .bool b => lit " = " ++ (if b then lit "true" else lit "false")
  | .str s => lit " = " ++ quoted s
  | .pods xs => lit " = " ++ arrText o (xs.map (elem o c))
  | .strs ss => lit " = " ++ arrText o (ss.map quoted)
  | _ => []

/-- src/datafmt.cpp:25-28: the type, and the ID of a structure which has one -/
def typeText (d : FieldDesc) : Str :=
  lit d.code.name ++ (if d.code = .Struct ∧ d.id ≠ [] then lit " \"" ++ esc d.id ++ [0x22] else [])

/-- what is printed after the name of a field: src/datafmt.cpp:23-52 -/
def fieldText (o : Opts) (verytop : Bool) (d : FieldDesc) (x : Datum) : Str :=
  (if verytop then [] else [0x20]) ++ typeText d ++ (if o.showValue then valueText o d.code x else []) ++ [0x0a]

/-- a line: the name, and what follows it -/
abbrev Line := Str × Str

/-- src/datafmt.cpp:61-70: the name of what a Union holds, appended to "->".  The address of its type is compared with that of each *node* of
the types of the choices; with the position of this node, `miter`, which has one entry for each *choice*, is indexed. -/
def choiceName (d : FieldDesc) (i : Nat) : Res Str :=
  match d.miter[i]? with
  | none => .ub
  | some p =>
    if p.2 < d.members.length then
      match d.miter[p.2]? with
      | none => .ub
      | some q => .ok q.1
    else .ok []

/-- src/datafmt.cpp:97-103: a null Value -/
def nullLine (pre : Str) (verytop : Bool) : Line := (pre, (if verytop then [] else [0x20]) ++ lit "null\n")

/-- the lines of one field: its own, then those of what it holds -/
def ownLine (o : Opts) (pre : Str) (verytop : Bool) (d : FieldDesc) (x : Datum) (inner : Str → Res (List Line)) : Res (List Line) :=
  inner pre >>= fun ls => .ok ((pre, fieldText o verytop d x) :: ls)

/-- the content of a node -/
def datumOf (cs : List Cell) (j : Nat) : Datum := match cs[j]? with | some c => c.data | none => .null

/-- src/datafmt.cpp:17-93 `field`, of node `j`; `fs`: what is printed for the content of each node -/
def fieldLines (o : Opts) (t : List FieldDesc) (cs : List Cell) (fs : List (Str → Res (List Line))) (pre : Str) (verytop : Bool) (j : Nat) :
    Res (List Line) :=
  match t[j]?, fs[j]? with
  | some d, some f => ownLine o pre verytop d (datumOf cs j) f
  | _, _ => .ub

/-- src/datafmt.cpp:107-115: the loop over the marked fields of a structure -/
def memberLines (o : Opts) (t : List FieldDesc) (cs : List Cell) (fs : List (Str → Res (List Line))) (pre : Str) (verytop : Bool) :
    List Nat → Res (List Line)
  | [] => .ok []
  | j :: js =>
    nameOf t j >>= fun name =>
      fieldLines o t cs fs (pre ++ (if verytop then [] else [0x2e]) ++ name) false j >>= fun ls =>
        memberLines o t cs fs pre verytop js >>= fun more => .ok (ls ++ more)

/-- src/datafmt.cpp:95-116 `top` of a Value which is not null; src/datafmt.cpp:19-20: the whole value is not named unless it is marked itself -/
def topLines (o : Opts) (t : List FieldDesc) (cs : List Cell) (fs : List (Str → Res (List Line))) (pre : Str) (verytop : Bool) :
    Res (List Line) :=
  (if verytop && !validAt cs 0 then .ok [] else fieldLines o t cs fs pre verytop 0) >>= fun ls =>
    memberLines o t cs fs pre verytop (imarked t (validAt cs) 0) >>= fun more => .ok (ls ++ more)

mutual
/-- src/datafmt.cpp:95-116 `FmtDelta::top` -/
def delta (o : Opts) : Val → Str → Bool → Res (List Line)
  | .null, pre, verytop => .ok [nullLine pre verytop]
  | .mk t cs, pre, verytop => topLines o t cs (innerCells o t cs) pre verytop
/-- for each node, the lines of what it holds -/
def innerCells (o : Opts) (t : List FieldDesc) : List Cell → List (Str → Res (List Line))
  | [] => []
  | .mk _ x :: cs =>
    match t with
    | [] => []
    | d :: t => inner o d x :: innerCells o t cs
/-- src/datafmt.cpp:54-92: the switch -/
def inner (o : Opts) (d : FieldDesc) : Datum → Str → Res (List Line)
  | .union i v, pre => choiceName d i >>= fun name => delta o v (pre ++ [0x2d, 0x3e] ++ name) false
  | .unionNull, pre => .ok [nullLine (pre ++ [0x2d, 0x3e]) false]
  | .any v, pre => delta o v (pre ++ [0x2d, 0x3e]) false
  | .vals vs, pre => innerVals o vs 0 pre
  | _, _ => .ok []
/-- src/datafmt.cpp:81-86: the loop over the elements, from `idx`.  The limit is not looked at. -/
def innerVals (o : Opts) : List Val → Nat → Str → Res (List Line)
  | [], _, _ => .ok []
  | v :: vs, idx, pre =>
    delta o v (pre ++ 0x5b :: (showNat idx ++ [0x5d])) false >>= fun ls => innerVals o vs (idx + 1) pre >>= fun more => .ok (ls ++ more)
end

/-- src/datafmt.cpp:320-322: `strm<<val.format().delta()`, as lines -/
def deltaLines (o : Opts) (v : Val) : Res (List Line) := delta o v [] true

/-- the text -/
def text (ls : List Line) : Str := ls.flatMap fun l => l.1 ++ l.2

/-! ### tree format -/

/-- src/datafmt.cpp:123-178 `FmtTree::show_value`.  `int8_t` and `uint8_t` are types of characters: :132-133, :136-137 print the byte.
`Float32` is converted to float first. -/
def treeValue (o : Opts) (c : TypeCode) : Datum → Str
  | .bool b => if b then lit "true" else lit "false"
  | .int v => if c = .Int8 then [UInt8.ofNat (intBits 1 v)] else showInt v
  | .uint v => if c = .UInt8 then [UInt8.ofNat v] else showNat v
  | .real x => if c = .Float32 then o.R.show32 (narrow x) else o.R.show64 x
  | .str s => quoted s
  | .pods xs => arrText o (xs.map (elem o c))
  | .strs ss => arrText o (ss.map quoted)
  | _ => []

/-- src/datafmt.cpp:182-209 `FmtTree::show`, of a field which is not compound; `member`: its name, empty at the top -/
def treeLine (o : Opts) (d : FieldDesc) (x : Datum) (member : Str) : Str :=
  lit d.code.name ++ (if d.id ≠ [] then lit " \"" ++ d.id ++ [0x22] else []) ++ (if member ≠ [] then 0x20 :: member else []) ++
    (if o.showValue then lit " = " ++ treeValue o d.code x else []) ++ [0x0a]

end Pvxs.Print
