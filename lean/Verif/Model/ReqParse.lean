import Verif.Model.TypeDesc
/-
The client's request builder and its text form: /repo/src/clientreq.cpp.
-/
namespace Pvxs.PVR

/-- src/clientreq.cpp:20-30 `CommonBase::Req`, without `pvRequest` (rawRequest() is not modelled).  `fields` are the children
of the member "field"; option values are strings (record() with other types is not modelled). -/
structure Req where
  fields : List Member := []
  options : SMap Str := []

/-! ### field() -/

/-- src/clientreq.cpp:47-63: cut `s` at the dots, leaving out empty pieces.  `cur` is the piece being collected (the code
finds its end with find_first_of and copies it with substr). -/
def pieces (cur : Str) : List Wire.Byte → List Str
  | [] => if cur = [] then [] else [cur]
  | c :: s =>
    if c = 0x2e then (if cur = [] then pieces [] s else cur :: pieces [] s)
    else pieces (cur ++ [c]) s

/-- src/clientreq.cpp:65-78: the child named `p` of a member with children `ms`, appended if there is none (Member's constructor
validates the name), and `k` applied to its children -/
def inChild (p : Str) (k : List Member → Res (List Member)) : List Member → Res (List Member)
  | [] =>
    Member.validate { code := .Struct, name := p } >>= fun _ =>
    k [] >>= fun ch => .ok [{ code := .Struct, name := p, children := ch }]
  | m :: ms =>
    if m.name = p then k m.children >>= fun ch => .ok ({ m with children := ch } :: ms)
    else inChild p k ms >>= fun r => .ok (m :: r)

/-- src/clientreq.cpp:45-79: the loop, starting from a member with children `ms`.  Simplification: an exception is taken to
end the whole call chain, the fields added before it are not kept. -/
def addPath : List Str → List Member → Res (List Member)
  | [], ms => .ok ms
  | p :: ps, ms => inChild p (addPath ps) ms

/-- src/clientreq.cpp:40-80 `_field` -/
def Req.field (r : Req) (s : Str) : Res Req := addPath (pieces [] s) r.fields >>= fun f => .ok { r with fields := f }

/-- src/clientreq.cpp:82-88 `_record`, for a string -/
def Req.record (r : Req) (key val : Str) : Req := { r with options := r.options.insert key val }

/-! ### the text form -/

/-- src/clientreq.cpp:108-120 `token_t` with `lexval` -/
inductive Tok where
  | comma | lp | rp | lb | rb | eq | field | record | name (w : Str) | eof
deriving DecidableEq, Repr

/-- src/clientreq.cpp:157-162 -/
def isName (c : Wire.Byte) : Bool :=
  (decide (0x61 ≤ c) && decide (c ≤ 0x7a)) || (decide (0x41 ≤ c) && decide (c ≤ 0x5a)) ||
  (decide (0x30 ≤ c) && decide (c ≤ 0x39)) || c == 0x2e || c == 0x5f

/-- src/clientreq.cpp:144-155: the character tokens -/
def punct (c : Wire.Byte) : Option Tok :=
  if c = 0x5b then some .lb else if c = 0x5d then some .rb else if c = 0x28 then some .lp else if c = 0x29 then some .rp
  else if c = 0x2c then some .comma else if c = 0x3d then some .eq else none

/-- src/clientreq.cpp:173-181: the token for a word -/
def wordTok (w : Str) : Tok :=
  if w = [0x66, 0x69, 0x65, 0x6c, 0x64] then .field
  else if w = [0x72, 0x65, 0x63, 0x6f, 0x72, 0x64] then .record
  else .name w

/-- src/clientreq.cpp:143-181: after the spaces; the end of the text is the terminating NUL, which is no name character -/
def lexHere (s : List Wire.Byte) : Res (Tok × List Wire.Byte) :=
  match s with
  | [] => .throws "invalid character near"
  | c :: cs =>
    match punct c with
    | some t => .ok (t, cs)
    | none =>
      let w := s.takeWhile isName
      if w = [] then .throws "invalid character near" else .ok (wordTok w, s.drop w.length)

/-- src/clientreq.cpp:131-182 `lex`; `s` is the text up to its NUL -/
def lex (s : List Wire.Byte) : Res (Tok × List Wire.Byte) :=
  if s = [] then .ok (.eof, []) else lexHere (s.dropWhile (· == 0x20))

/-- src/clientreq.cpp:223-237 `parse_fields`; yields the token which ended the list.  The first argument bounds the number of
rounds, `ub` when it is exceeded (an endless loop). -/
def parseFields : Nat → List Wire.Byte → Req → Res (Tok × List Wire.Byte × Req)
  | 0, _, _ => .ub
  | n + 1, s, r =>
    lex s >>= fun (t, s) =>
      match t with
      | .name w => r.field w >>= fun r => parseFields n s r
      | .comma => parseFields n s r
      | t => .ok (t, s, r)

/-- src/clientreq.cpp:251-261: `=value` -/
def parseValue (s : List Wire.Byte) : Res (Str × List Wire.Byte) :=
  lex s >>= fun (t1, s) => lex s >>= fun (t2, s) =>
    match t1, t2 with
    | .eq, .name v => .ok (v, s)
    | _, _ => .throws "Expected K=V or K=V,..."

/-- src/clientreq.cpp:239-278 `parse_options`, from the `do` on: `t` is the token last read -/
def parseOptions : Nat → Tok → List Wire.Byte → Req → Res (Tok × List Wire.Byte × Req)
  | 0, _, _, _ => .ub
  | n + 1, t, s, r =>
    match t with
    | .name key =>
      parseValue s >>= fun (v, s) => lex s >>= fun (t, s) =>
        if t = .comma then lex s >>= fun (t, s) => parseOptions n t s (r.record key v)
        else .ok (t, s, r.record key v)
    | t => .ok (t, s, r)

/-- src/clientreq.cpp:192-197: after `field` -/
def parseFieldEnt (n : Nat) (s : List Wire.Byte) (r : Req) : Res (List Wire.Byte × Req) :=
  lex s >>= fun (t, s) =>
    if t ≠ .lp then .throws "Expected field("
    else parseFields n s r >>= fun (t, s, r) => if t ≠ .rp then .throws "Expected field(...)" else .ok (s, r)

/-- src/clientreq.cpp:199-205: after `record` -/
def parseRecordEnt (n : Nat) (s : List Wire.Byte) (r : Req) : Res (List Wire.Byte × Req) :=
  lex s >>= fun (t, s) =>
    if t ≠ .lb then .throws "Expected record["
    else lex s >>= fun (t, s) => parseOptions n t s r >>= fun (t, s, r) =>
      if t ≠ .rb then .throws "Expected record[...]" else .ok (s, r)

/-- src/clientreq.cpp:184-221 `parse` -/
def parse : Nat → List Wire.Byte → Req → Res Req
  | 0, _, _ => .ub
  | n + 1, s, r =>
    lex s >>= fun (t, s) =>
      match t with
      | .eof => .ok r
      | .field => parseFieldEnt n s r >>= fun (s, r) => parse n s r
      | .record => parseRecordEnt n s r >>= fun (s, r) => parse n s r
      | .name w => r.field w >>= fun r => parse n s r
      | _ => .throws "Expected field|record|name|EOF"

/-- src/clientreq.cpp:281-285 `_parse`: the text is passed as a C string -/
def Req.parse (r : Req) (s : Str) : Res Req := PVR.parse ((Wire.cstr s).length + 1) (Wire.cstr s) r

/-! ### the request -/

/-- src/clientreq.cpp:293-323 `_buildReq`, the type of the request: without any builder call the same as after calls which
left nothing behind.  Option members are named with `as()`, which does not validate the name. -/
def Req.member (r : Req) : Member :=
  let f : Member := { code := .Struct, name := [0x66, 0x69, 0x65, 0x6c, 0x64], children := r.fields }
  let o : List Member := r.options.map fun p => { code := .String, name := p.1 }
  let rec_ : Member := { code := .Struct, name := [0x72, 0x65, 0x63, 0x6f, 0x72, 0x64],
                         children := [{ code := .Struct, name := [0x5f, 0x6f, 0x70, 0x74, 0x69, 0x6f, 0x6e, 0x73], children := o }] }
  { code := .Struct, children := if r.options = [] then [f] else [f, rec_] }

end Pvxs.PVR
