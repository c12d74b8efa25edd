import Verif.Model.LinkConf
/-
Specification for C89: the options of a PVA link as in documentation/pvalink.rst.
-/
namespace Pvxs.Spec.LinkConf
open Pvxs.LinkConf

/-- documentation/pvalink.rst:13-31, "Default values for all keys" -/
def defaults : Conf where
  pv := ""
  field := ""
  isLocal := false
  queueSize := 4
  pipeline := false
  proc := .default
  sevr := .nms
  time := false
  monorder := 0
  retry := false
  always := false
  atomic := false
  defer := false

/-- one member of the map -/
def option (c : Conf) : String → J → Conf
  | "pv", .str s => { c with pv := s }
  | "field", .str s => { c with field := s }
  | "local", .bool b => { c with isLocal := b }
  | "Q", .int v => { c with queueSize := v.toNat }
  | "pipeline", .bool b => { c with pipeline := b }
  | "proc", .null => { c with proc := .default }
  | "proc", .bool true => { c with proc := .pp }
  | "proc", .bool false => { c with proc := .npp }
  | "proc", .str "PP" => { c with proc := .pp }
  | "proc", .str "NPP" => { c with proc := .npp }
  | "proc", .str "CP" => { c with proc := .cp }
  | "proc", .str "CPP" => { c with proc := .cpp }
  | "sevr", .bool false => { c with sevr := .nms }
  | "sevr", .bool true => { c with sevr := .ms }
  | "sevr", .str "NMS" => { c with sevr := .nms }
  | "sevr", .str "MS" => { c with sevr := .ms }
  | "sevr", .str "MSI" => { c with sevr := .msi }
  | "sevr", .str "MSS" => { c with sevr := .msi }
  | "time", .bool b => { c with time := b }
  | "retry", .bool b => { c with retry := b }
  | "always", .bool b => { c with always := b }
  | "atomic", .bool b => { c with atomic := b }
  | "monorder", .int v => { c with monorder := v }
  | "defer", .bool b => { c with defer := b }
  | _, _ => c

/-- all members, in order: later ones replace earlier ones -/
def options (c : Conf) : Ms → Conf
  | .nil => c
  | .cons k v more => options (option c k v) more

/-- this member is treated as documented -/
def Fine : String → J → Prop
  | "Q", .int v => 1 ≤ v ∧ v < 2 ^ 63
  | "monorder", .int v => -1024 ≤ v ∧ v ≤ 1024
  | "sevr", .str s => s ≠ "MSS"
  | "sevr", .null => False
  | "local", .null => False
  | "proc", .str s => s ≠ ""
  | _, _ => True
def AllFine : Ms → Prop
  | .nil => True
  | .cons k v more => Fine k v ∧ AllFine more

end Pvxs.Spec.LinkConf
