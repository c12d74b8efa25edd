import Verif.Model.GroupJson
/-
Group definitions in the JSON of documentation/qgroup.rst and documentation/qsrv2-schema-0.json, and what they say.
-/
namespace Pvxs.Spec.GJson
open Pvxs.GJson (Scalar Ev Text)
open Group (MapType)

/-- the bytes of an ASCII text -/
def bytes (s : String) : Str := s.toList.map fun c => UInt8.ofNat c.toNat

/-- one key of a field -/
inductive Opt where
  | type (t : MapType)
  | channel (s : Str)
  | id (s : Str)
  | trigger (s : Str)
  | putorder (n : Int)
  | const (v : Scalar)
  /-- `+type` with a text which is no mapping -/
  | typeOther (s : Str)
  /-- any other key -/
  | other (key : Str) (v : Scalar)
deriving Repr, DecidableEq

/-- one key of a group -/
inductive Item where
  | atomic (b : Bool)
  | id (s : Str)
  | field (name : Str) (opts : List Opt)
  /-- any other key with a value which is no object -/
  | other (key : Str) (v : Scalar)
deriving Repr, DecidableEq

/-- definitions of groups, each with its name -/
abbrev Doc := List (Str × List Item)

/-! ### as JSON -/

/-- how a mapping is written -/
def typeName : MapType → String
  | .scalar => "scalar"
  | .plain => "plain"
  | .any => "any"
  | .metadata => "meta"
  | .proc => "proc"
  | .struct => "structure"
  | .const => "const"

/-- the key of an option and its value -/
def Opt.json : Opt → Str × Scalar
  | .type t => (bytes "+type", .str (bytes (typeName t)))
  | .channel s => (bytes "+channel", .str s)
  | .id s => (bytes "+id", .str s)
  | .trigger s => (bytes "+trigger", .str s)
  | .putorder n => (bytes "+putorder", .int n)
  | .const v => (bytes "+const", v)
  | .typeOther s => (bytes "+type", .str s)
  | .other k v => (k, v)

/-- `"key": value` -/
def pair (kv : Str × Scalar) : List Ev := [.key kv.1, .scalar kv.2]

def Item.evs : Item → List Ev
  | .atomic b => pair (bytes "+atomic", .bool b)
  | .id s => pair (bytes "+id", .str s)
  | .field n os => [.key n, .startMap] ++ (os.flatMap fun o => pair o.json) ++ [.endMap]
  | .other k v => pair (k, v)

def groupEvs (g : Str × List Item) : List Ev := [.key g.1, .startMap] ++ g.2.flatMap Item.evs ++ [.endMap]

/-- the definitions as one JSON object -/
def text (d : Doc) : Text := { evs := [.startMap] ++ d.flatMap groupEvs ++ [.endMap] }

/-! ### which are as documented -/

def Opt.Good : Opt → Prop
  | .putorder n => -9223372036854775808 ≤ n
  | .typeOther s => ∀ t, s ≠ bytes (typeName t)
  | .other k _ => k ≠ [] ∧ k ∉ ["+type", "+channel", "+id", "+trigger", "+putorder", "+const"].map bytes
  | _ => True

def Item.Good : Item → Prop
  | .field _ os => ∀ o ∈ os, o.Good
  | .other k _ => k ∉ ["+atomic", "+id"].map bytes
  | _ => True

/-- groups have names; keys are as documented, or not known at all -/
def Good (d : Doc) : Prop := ∀ g ∈ d, g.1 ≠ [] ∧ ∀ i ∈ g.2, i.Good

/-! ### what they say -/

/-- one key, where it is.  `record`: the record which has the definition -/
inductive Said where
  | atomic (g : Str) (b : Bool)
  | id (g : Str) (s : Str)
  | other (g : Str) (key : Str)
  | field (record : Option Str) (g f : Str) (o : Opt)
deriving Repr, DecidableEq

def Item.said (record : Option Str) (g : Str) : Item → List Said
  | .atomic b => [.atomic g b]
  | .id s => [.id g s]
  | .field n os => os.map (.field record g n)
  | .other k _ => [.other g k]

/-- all keys in order -/
def said (record : Option Str) (d : Doc) : List Said := d.flatMap fun g => g.2.flatMap (Item.said record g.1)

/-- the last of those which `p` picks -/
def lastOf (p : Said → Option α) (l : List Said) : Option α := (l.filterMap p).getLast?

def Said.group : Said → Str
  | .atomic g _ => g
  | .id g _ => g
  | .other g _ => g
  | .field _ g _ _ => g

def pickAtomic (g : Str) : Said → Option Bool
  | .atomic g' b => if g' = g then some b else none
  | _ => none

def pickId (g : Str) : Said → Option Str
  | .id g' s => if g' = g then some s else none
  | _ => none

/-- what is picked from the options of this field -/
def pick (g f : Str) (p : Option Str → Opt → Option α) : Said → Option α
  | .field r g' f' o => if g' = g ∧ f' = f then p r o else none
  | _ => none

def optType : Option Str → Opt → Option MapType
  | _, .type t => some t
  | _, _ => none

/-- a channel is a field of the record which has the definition; without a record it is a full name -/
def optChannel : Option Str → Opt → Option Str
  | some r, .channel s => some (r ++ bytes "." ++ s)
  | none, .channel s => some s
  | _, _ => none

def optTrigger : Option Str → Opt → Option Str
  | _, .trigger s => some s
  | _, _ => none

def optId : Option Str → Opt → Option Str
  | _, .id s => some s
  | _, _ => none

/-- the least int64_t stands for "none": the next one is taken -/
def optOrder : Option Str → Opt → Option Int
  | _, .putorder n => some (max n (-9223372036854775807))
  | _, _ => none

def optConst : Option Str → Opt → Option Scalar
  | _, .const v => some v
  | _, _ => none

/-- there is something about this group -/
def Mentions (l : List Said) (g : Str) : Prop := ∃ s ∈ l, s.group = g

/-- there is an option of this field -/
def MentionsField (l : List Said) (g f : Str) : Prop := ∃ s ∈ l, ∃ r o, s = .field r g f o

/-- what all the options of a field say: the last of each kind, and what documentation/qgroup.rst has for none -/
def confMeaning (l : List Said) (g f : Str) : Group.FieldConf where
  type := (lastOf (pick g f optType) l).getD .scalar
  channel := (lastOf (pick g f optChannel) l).getD []
  trigger := (lastOf (pick g f optTrigger) l).getD []
  putOrder := lastOf (pick g f optOrder) l

/-- the same, with the ID of the structure and the constant -/
def fieldMeaning (l : List Said) (g f : Str) : Pvxs.GJson.Field where
  conf := confMeaning l g f
  id := (lastOf (pick g f optId) l).getD []
  cval := (lastOf (pick g f optConst) l).getD .null

/-- the groups and their fields are what is said, and no others -/
def Recorded (l : List Said) (groups : SMap Pvxs.GJson.GroupC) : Prop :=
  ∀ g, ((groups.find? g).isSome ↔ Mentions l g) ∧
    ∀ G, groups.find? g = some G →
      G.atomic = lastOf (pickAtomic g) l ∧ G.id = (lastOf (pickId g) l).getD [] ∧
      ∀ f, ((G.fields.find? f).isSome ↔ MentionsField l g f) ∧ ∀ F, G.fields.find? f = some F → F = fieldMeaning l g f

/-- what the definitions of the records say, and those of the files after them -/
def allSaid (records files : List (Str × Doc)) : List Said :=
  (records.flatMap fun x => said (some x.1) x.2) ++ files.flatMap fun x => said none x.2

/-- the definitions as texts -/
def texts (l : List (Str × Doc)) : List (Str × Text) := l.map fun x => (x.1, text x.2)

/-- a message which is a warning -/
def IsWarning : Pvxs.GJson.Msg → Prop
  | .warnings _ _ => True
  | .error _ _ => False

/-- the text of the warning about a key, or a mapping, which is not known -/
def warningOf : Said → Option Str
  | .other _ k => some k
  | .field _ _ _ (.typeOther s) => some s
  | .field _ _ f (.other k _) => some (f ++ bytes ":" ++ k)
  | _ => none

end Pvxs.Spec.GJson
