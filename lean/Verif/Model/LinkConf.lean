/-
Options of a PVA link, from JSON (ioc/pvalink_jlif.cpp).

Simplified: the callbacks which yajl makes for a JSON value are listed by `toks`; dbJLink.c of EPICS base
counts maps in `parseDepth`.  A real number and an array have no callback: the link is rejected, they are
not modelled.  Messages are not modelled.
-/
namespace Pvxs.LinkConf

mutual
inductive J where
  | null
  | bool (b : Bool)
  | int (v : Int)
  | str (s : String)
  | map (ms : Ms)
inductive Ms where
  | nil
  | cons (key : String) (v : J) (more : Ms)
end

/-- the callbacks -/
inductive Tok where
  | null
  | bool (b : Bool)
  | int (v : Int)
  | str (s : String)
  | startMap
  | key (k : String)
  | endMap
deriving DecidableEq, Repr

mutual
def toks : J → List Tok
  | .null => [.null]
  | .bool b => [.bool b]
  | .int v => [.int v]
  | .str s => [.str s]
  | .map ms => .startMap :: (members ms ++ [.endMap])
def members : Ms → List Tok
  | .nil => []
  | .cons k v more => .key k :: (toks v ++ members more)
end

inductive Pp where
  | npp | default | pp | cp | cpp
deriving DecidableEq, Repr
inductive Ms3 where
  | nms | ms | msi
deriving DecidableEq, Repr

/-- pvaLinkConfig (pvalink.h:65-97) -/
structure Conf where
  pv : String := ""
  field : String := ""
  queueSize : Nat := 4
  proc : Pp := .default
  sevr : Ms3 := .nms
  defer : Bool := false
  pipeline : Bool := false
  time : Bool := false
  retry : Bool := false
  isLocal : Bool := false
  always : Bool := false
  atomic : Bool := false
  monorder : Int := 0
deriving DecidableEq, Repr

/-- pvaLinkConfig with parseDepth and jkey -/
structure P where
  conf : Conf := {}
  depth : Nat := 0
  jkey : String := ""
deriving DecidableEq, Repr

/-- pva_parse_null (pvalink_jlif.cpp:65-84) -/
def setNull (p : P) : Conf :=
  if p.depth ≠ 1 then p.conf
  else if p.jkey = "proc" then { p.conf with proc := .default }
  else if p.jkey = "sevr" then { p.conf with sevr := .nms }
  else if p.jkey = "local" then { p.conf with isLocal := false }
  else p.conf

/-- pva_parse_bool (pvalink_jlif.cpp:86-118) -/
def setBool (p : P) (b : Bool) : Conf :=
  if p.depth ≠ 1 then p.conf
  else if p.jkey = "proc" then { p.conf with proc := if b then .pp else .npp }
  else if p.jkey = "sevr" then { p.conf with sevr := if b then .ms else .nms }
  else if p.jkey = "defer" then { p.conf with defer := b }
  else if p.jkey = "pipeline" then { p.conf with pipeline := b }
  else if p.jkey = "time" then { p.conf with time := b }
  else if p.jkey = "retry" then { p.conf with retry := b }
  else if p.jkey = "local" then { p.conf with isLocal := b }
  else if p.jkey = "always" then { p.conf with always := b }
  else if p.jkey = "atomic" then { p.conf with atomic := b }
  else p.conf

/-- int(val) of a long long: modulo 2^32 -/
def toInt32 (v : Int) : Int := (v + 2 ^ 31) % 2 ^ 32 - 2 ^ 31

/-- pva_parse_integer (pvalink_jlif.cpp:120-137) -/
def setInt (p : P) (v : Int) : Conf :=
  if p.depth ≠ 1 then p.conf
  else if p.jkey = "Q" then { p.conf with queueSize := if v < 1 then 1 else v.toNat }
  else if p.jkey = "monorder" then { p.conf with monorder := max (-1024) (min (toInt32 v) 1024) }
  else p.conf

/-- pva_parse_string (pvalink_jlif.cpp:139-193) -/
def setStr (p : P) (s : String) : Conf :=
  if p.depth = 0 ∨ (p.depth = 1 ∧ p.jkey = "pv") then { p.conf with pv := s }
  else if p.depth > 1 then p.conf
  else if p.jkey = "field" then { p.conf with field := s }
  else if p.jkey = "proc" then
    if s = "" then { p.conf with proc := .default }
    else if s = "CP" then { p.conf with proc := .cp }
    else if s = "CPP" then { p.conf with proc := .cpp }
    else if s = "PP" then { p.conf with proc := .pp }
    else if s = "NPP" then { p.conf with proc := .npp }
    else p.conf
  else if p.jkey = "sevr" then
    if s = "NMS" then { p.conf with sevr := .nms }
    else if s = "MS" then { p.conf with sevr := .ms }
    else if s = "MSI" then { p.conf with sevr := .msi }
    else if s = "MSS" then { p.conf with sevr := .ms }
    else p.conf
  else p.conf

/-- one callback -/
def step (p : P) : Tok → P
  | .null => { p with conf := setNull p, jkey := "" }
  | .bool b => { p with conf := setBool p b, jkey := "" }
  | .int v => { p with conf := setInt p v, jkey := "" }
  | .str s => { p with conf := setStr p s, jkey := "" }
  | .startMap => { p with depth := p.depth + 1 }
  | .key k => { p with jkey := k }
  | .endMap => { p with depth := p.depth - 1 }

/-- the options of a link -/
def parse (j : J) : Conf := ((toks j).foldl step {}).conf

end Pvxs.LinkConf
