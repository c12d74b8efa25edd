import Verif.Model.GroupConf
import Verif.Model.RealScalar
/-
Group definitions as JSON: ioc/groupprocessorcontext.cpp, ioc/groupprocessorcontext.h,
ioc/groupconfigprocessor.cpp:30-127,612-840,1039-1140.

Simplified: the text is the list of the callbacks which yajl makes for it, and whether it is JSON to its end.  yajl stops
at a callback which returns zero and at an error of syntax, and makes no callbacks then.  There is no callback for the
brackets of an array.  Warnings are a list of texts, not one text.  What a message says is a name for it.
-/
namespace Pvxs.GJson
open Group (FieldConf MapType)
open RealScalar (showDouble ofReal)

/-- a JSON value which is no array and no object -/
inductive Scalar where
  | null
  | bool (b : Bool)
  | int (v : Int)
  | real (bits : Nat)
  | str (s : Str)
deriving Repr, DecidableEq

/-- Value::as<std::string>() of the Value made at groupconfigprocessor.cpp:650-726 (src/data.cpp:402-467); `none`: it throws -/
def asText : Scalar → Option Str
  | .null => none
  | .bool b => some (if b then trueText else falseText)
  | .int v => some (showInt v)
  | .real b => some (showDouble b)
  | .str s => some s

/-- Value::as<bool>(), the same lines -/
def asBool : Scalar → Option Bool
  | .null => none
  | .bool b => some b
  | .int v => some (v != 0)
  | .real b => some (b % 2 ^ 63 != 0)
  | .str s => parseBool s

/-- Value::as<int64_t>(), the same lines.  A real which is out of range: undefined -/
def asInt : Scalar → Res Int
  | .null => .throws "NoField"
  | .bool b => .ok (if b then 1 else 0)
  | .int v => .ok v
  | .real b => (ArrayConv.truncTo (.sint 8) (ArrayConv.truncated 52 11 b)).bind fun n => .ok (intOf 8 n)
  | .str s => match parseI64 s with | some v => .ok v | none => .throws "NoConvert"

/-! texts -/
/-- "+atomic" -/
def kAtomic : Str := [0x2b, 0x61, 0x74, 0x6f, 0x6d, 0x69, 0x63]
/-- "+id" -/
def kId : Str := [0x2b, 0x69, 0x64]
/-- "+type" -/
def kType : Str := [0x2b, 0x74, 0x79, 0x70, 0x65]
/-- "+channel" -/
def kChannel : Str := [0x2b, 0x63, 0x68, 0x61, 0x6e, 0x6e, 0x65, 0x6c]
/-- "+trigger" -/
def kTrigger : Str := [0x2b, 0x74, 0x72, 0x69, 0x67, 0x67, 0x65, 0x72]
/-- "+putorder" -/
def kPutorder : Str := [0x2b, 0x70, 0x75, 0x74, 0x6f, 0x72, 0x64, 0x65, 0x72]
/-- "+const" -/
def kConst : Str := [0x2b, 0x63, 0x6f, 0x6e, 0x73, 0x74]

/-- ioc/groupprocessorcontext.cpp:46-60 -/
def typeNamed (s : Str) : Option MapType :=
  if s = [0x73, 0x63, 0x61, 0x6c, 0x61, 0x72] then some .scalar
  else if s = [0x70, 0x6c, 0x61, 0x69, 0x6e] then some .plain
  else if s = [0x61, 0x6e, 0x79] then some .any
  else if s = [0x6d, 0x65, 0x74, 0x61] then some .metadata
  else if s = [0x70, 0x72, 0x6f, 0x63] then some .proc
  else if s = [0x73, 0x74, 0x72, 0x75, 0x63, 0x74, 0x75, 0x72, 0x65] then some .struct
  else if s = [0x63, 0x6f, 0x6e, 0x73, 0x74] then some .const
  else none

/-- ioc/fieldconfig.h:38-54 `FieldConfig` -/
structure Field where
  conf : FieldConf := {}
  id : Str := []
  cval : Scalar := .null
deriving Repr, DecidableEq

/-- ioc/groupconfig.h:23-31; `atomic`: `none` unless atomicIsSet -/
structure GroupC where
  atomic : Option Bool := none
  id : Str := []
  fields : SMap Field := []
deriving Repr, DecidableEq

/-- what is kept from one text to the next: groupConfigMap and groupProcessingWarnings (groupconfigprocessor.h:40-42) -/
structure Proc where
  groups : SMap GroupC := []
  warnings : List Str := []
deriving Repr, DecidableEq

/-- ioc/groupprocessorcontext.h:22-31 -/
structure Ctx where
  pre : Str
  proc : Proc
  groupName : Str := []
  field : Str := []
  key : Str := []
  depth : Nat := 0
  error : Option String := none
deriving Repr, DecidableEq

/-- a callback of yajl -/
inductive Ev where
  | scalar (v : Scalar)
  | startMap
  | key (k : Str)
  | endMap
deriving Repr, DecidableEq

/-- `groupConfigMap[groupName]`: made if it is not there -/
def Ctx.group (c : Ctx) : GroupC := (c.proc.groups.find? c.groupName).getD {}
/-- the group is replaced -/
def Ctx.withGroup (c : Ctx) (g : GroupC) : Ctx := { c with proc := { c.proc with groups := c.proc.groups.insert c.groupName g } }
/-- groupProcessingWarnings += -/
def Ctx.warn (c : Ctx) (w : Str) : Ctx := { c with proc := { c.proc with warnings := c.proc.warnings ++ [w] } }
/-- `fieldConfigMap[field]` -/
def Ctx.fieldOf (c : Ctx) : Field := (c.group.fields.find? c.field).getD {}
/-- the field is replaced -/
def Ctx.withField (c : Ctx) (f : Field) : Ctx := c.withGroup { c.group with fields := c.group.fields.insert c.field f }

/-- ioc/groupprocessorcontext.cpp:24-38.  The second: what is thrown -/
def assignGroup (c : Ctx) (v : Scalar) : Ctx × Option String :=
  if c.field = kAtomic then
    match asBool v with
    | some b => ({ c.withGroup { c.group with atomic := some b } with field := [] }, none)
    | none => (c.withGroup c.group, some "NoConvert")
  else if c.field = kId then
    match asText v with
    | some s => ({ c.withGroup { c.group with id := s } with field := [] }, none)
    | none => (c.withGroup c.group, some "NoConvert")
  else ({ (c.withGroup c.group).warn c.field with field := [] }, none)

/-- std::numeric_limits<int64_t>::min() -/
def int64Min : Int := -9223372036854775808

/-- the end of a successful assignment, ioc/groupprocessorcontext.cpp:88 -/
def done (c : Ctx) : Ctx × Option String := ({ c with key := [] }, none)

/-- ioc/groupprocessorcontext.cpp:66,69,72: a text is stored by `put` -/
def assignText (c : Ctx) (v : Scalar) (put : Str → Field) : Ctx × Option String :=
  match asText v with
  | some s => done (c.withField (put s))
  | none => (c.withField c.fieldOf, some "NoConvert")

/-- ioc/groupprocessorcontext.cpp:45-63 -/
def assignType (c : Ctx) (v : Scalar) : Ctx × Option String :=
  match asText v with
  | none => (c.withField c.fieldOf, some "NoConvert")
  | some s =>
    match typeNamed s with
    | some t => done (c.withField { c.fieldOf with conf := { c.fieldOf.conf with type := t } })
    | none => done ((c.withField c.fieldOf).warn s)

/-- ioc/groupprocessorcontext.cpp:74-78 -/
def assignOrder (c : Ctx) (v : Scalar) : Res (Ctx × Option String) :=
  match asInt v with
  | .ok n => .ok (done (c.withField { c.fieldOf with conf := { c.fieldOf.conf with putOrder := some (if n = int64Min then n + 1 else n) } }))
  | .throws w => .ok (c.withField c.fieldOf, some w)
  | .ub => .ub

/-- ioc/groupprocessorcontext.cpp:40-89 -/
def assignField (c : Ctx) (v : Scalar) : Res (Ctx × Option String) :=
  if c.key = kType then .ok (assignType c v)
  else if c.key = kChannel then .ok (assignText c v fun s => { c.fieldOf with conf := { c.fieldOf.conf with channel := c.pre ++ s } })
  else if c.key = kId then .ok (assignText c v fun s => { c.fieldOf with id := s })
  else if c.key = kTrigger then .ok (assignText c v fun s => { c.fieldOf with conf := { c.fieldOf.conf with trigger := s } })
  else if c.key = kPutorder then assignOrder c v
  else if c.key = kConst then .ok (done (c.withField { c.fieldOf with cval := v }))
  else .ok (done ((c.withField c.fieldOf).warn (c.field ++ 0x3a :: c.key)))

/-- ioc/groupprocessorcontext.cpp:20-90 and canAssign(), groupprocessorcontext.h:37-41 -/
def assign (c : Ctx) (v : Scalar) : Res (Ctx × Option String) :=
  if c.depth = 2 then .ok (assignGroup c v)
  else if c.depth = 3 then assignField c v
  else .ok (c, some "Can't assign value in this context")

/-- ioc/groupconfigprocessor.cpp:620-640 -/
def onKey (c : Ctx) (k : Str) : Ctx × Option String :=
  if k = [] ∧ c.depth ≠ 2 then (c, some "empty group or key name not allowed")
  else if c.depth = 1 then ({ c with groupName := k }, none)
  else if c.depth = 2 then ({ c with field := k }, none)
  else if c.depth = 3 then ({ c with key := k }, none)
  else (c, some "too many nesting levels")

/-- ioc/groupconfigprocessor.cpp:734-742: the level is counted before the exception -/
def onStart (c : Ctx) : Ctx × Option String :=
  ({ c with depth := c.depth + 1 }, if c.depth + 1 > 3 then some "too deep" else none)

/-- ioc/groupconfigprocessor.cpp:751-768.  The assertion: `ub` -/
def onEnd (c : Ctx) : Res (Ctx × Option String) :=
  if c.key ≠ [] then .ub
  else if c.depth = 3 then .ok ({ c with key := [], depth := 2 }, none)
  else if c.depth = 2 then .ok ({ c with field := [], depth := 1 }, none)
  else if c.depth = 1 then .ok ({ c with groupName := [], depth := 0 }, none)
  else .ok (c, some "invalid depth")

/-- ioc/groupconfigprocessor.cpp:620-768: the functions given to yajlProcess() -/
def callback (c : Ctx) : Ev → Res (Ctx × Option String)
  | .scalar v => assign c v
  | .startMap => .ok (onStart c)
  | .key k => .ok (onKey c k)
  | .endMap => onEnd c

/-- ioc/groupconfigprocessor.cpp:1047-1059 yajlProcess(): what the callback returns to yajl -/
def yajlProcess : Ctx × Option String → Ctx × Int
  | (c, none) => (c, 1)
  | (c, some what) => ({ c with error := c.error.or (some what) }, -1)

/-- yajl_parse(): a callback which returns zero cancels.  The second: yajl_status_client_canceled -/
def run (c : Ctx) : List Ev → Res (Ctx × Bool)
  | [] => .ok (c, false)
  | e :: es =>
    match callback c e with
    | .ok r => if (yajlProcess r).2 = 0 then .ok ((yajlProcess r).1, true) else run (yajlProcess r).1 es
    | .throws w => .throws w
    | .ub => .ub

/-- a text: the callbacks yajl makes for it, if none of them cancels; `whole`: no error of syntax follows -/
structure Text where
  evs : List Ev
  whole : Bool := true
deriving Repr, DecidableEq

/-- ioc/groupconfigprocessor.cpp:811-816: what a channel begins with -/
def prefixOf : Option Str → Str
  | some record => record ++ [0x2e]
  | none => []

/-- ioc/groupconfigprocessor.cpp:800-835,1068-1140 parseConfigString().  `record`: the name of the record, if there is one.
    The second: what is thrown.  (The groups are changed in any case.) -/
def parse (p : Proc) (record : Option Str) (t : Text) : Res (Proc × Option String) :=
  match run { pre := prefixOf record, proc := p } t.evs with
  | .ok (c, true) => .ok (c.proc, some (c.error.getD ""))
  | .ok (c, false) => .ok (c.proc, if t.whole then none else some "Error on line")
  | .throws w => .throws w
  | .ub => .ub

/-- what is printed -/
inductive Msg where
  | warnings (record : Str) (ws : List Str)
  | error (record : Str) (what : String)
deriving Repr, DecidableEq

/-- ioc/groupconfigprocessor.cpp:58-66, one record -/
def report (record : Str) (p : Proc) : Option String → List Msg
  | some what => [.error record what]
  | none => if p.warnings = [] then [] else [.warnings record p.warnings]

/-- ioc/groupconfigprocessor.cpp:45-71 loadConfigFromDb(): the records which have info(Q:group), in order -/
def loadDb (p : Proc) : List (Str × Text) → Res (Proc × List Msg)
  | [] => .ok (p, [])
  | (record, t) :: more =>
    match parse p (some record) t with
    | .ok (p', e) =>
      match loadDb p' more with
      | .ok (q, ms) => .ok (q, report record p' e ++ ms)
      | .throws w => .throws w
      | .ub => .ub
    | .throws w => .throws w
    | .ub => .ub

/-- ioc/groupconfigprocessor.cpp:78-126 loadConfigFiles(): an exception ends it; the second: what is printed, by file -/
def loadFiles (p : Proc) : List (Str × Text) → Res (Proc × List Msg)
  | [] => .ok (p, [])
  | (file, t) :: more =>
    match parse p none t with
    | .ok (p', some what) => .ok (p', [.error file what])
    | .ok (p', none) =>
      match loadFiles p' more with
      | .ok (q, ms) => .ok (q, report file p' none ++ ms)
      | .throws w => .throws w
      | .ub => .ub
    | .throws w => .throws w
    | .ub => .ub

end Pvxs.GJson
