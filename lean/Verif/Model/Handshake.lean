import Verif.Model.Scalar
/-
The handshake of a new connection and the identity of the client: src/clientconn.cpp:207-327, src/serverconn.cpp:74-80,91-112,161-232.

The bodies of the messages; headers are C05 and how a message is cut from the stream is C20.  The buffers here are contiguous: the first 16 bytes of a body are made so
(`EvInBuf M(.., 16)`), the rest is C06.  Simplifications: what is logged is left out; the peer's address does not change; a text printed from a floating point number is a
parameter.
-/
namespace Pvxs.Handshake
open Wire (Byte Dec Out In)

/-- "ca" -/
def caName : Str := [0x63, 0x61]
/-- "anonymous" -/
def anonName : Str := [0x61, 0x6e, 0x6f, 0x6e, 0x79, 0x6d, 0x6f, 0x75, 0x73]
/-- "user" -/
def userKey : Str := [0x75, 0x73, 0x65, 0x72]
/-- "host" -/
def hostKey : Str := [0x68, 0x6f, 0x73, 0x74]
/-- "nobody" -/
def nobody : Str := [0x6e, 0x6f, 0x62, 0x6f, 0x64, 0x79]
/-- "invalidhost." -/
def noHost : Str := [0x69, 0x6e, 0x76, 0x61, 0x6c, 0x69, 0x64, 0x68, 0x6f, 0x73, 0x74, 0x2e]

/-- src/pvaproto.h:73-83 `Buffer::skip` -/
def skip (n : Nat) : Dec Unit := fun i => ((), i.skip n)

/-! ### the client -/

/-- src/serverconn.cpp:100-111: the body of the first message of a server, which offers some methods -/
def putOffer (methods : List Str) (o : Out) : Out :=
  methods.foldl Wire.putStr (Wire.putSize (Wire.putInt (Wire.putInt o 4 0x10000) 2 0x7fff) methods.length)

/-- src/serverconn.cpp:109-111: what a server of this library offers -/
def offered : List Str := [anonName, caName]

/-- src/clientconn.cpp:230-234, one method -/
def choose (selected method : Str) : Str := if method = caName ∨ (method = anonName ∧ selected ≠ caName) then method else selected

/-- src/clientconn.cpp:216-242: the methods in the offer of a server.  The loop goes on after a fault, without effect. -/
def getOffer : Dec (List Str) := do
  skip 6
  let n ← Wire.getSize false
  Wire.getStrs n

/-- src/clientconn.cpp:221-250 -/
def selected (methods : List Str) : Str :=
  let s := methods.foldl choose []
  if s = [] then anonName else s

/-- src/client.cpp:507-516 `buildCAMethod` -/
def caMember : Member := { code := .Struct, children := [{ code := .String, name := userKey }, { code := .String, name := hostKey }] }

/-- the type of `caMethod` -/
def caType : List FieldDesc :=
  [{ code := .Struct, mlookup := [(hostKey, 2), (userKey, 1)], miter := [(userKey, 1), (hostKey, 2)] },
   { code := .String, parentIndex := 1 }, { code := .String, parentIndex := 2 }]

/-- `std::vector<char> buffer(256u)` with its last element made NUL, as text -/
def inBuffer (s : Str) : Str := (Wire.cstr s).take 255

/-- src/clientconn.cpp:252-275.  `user`, `host`: what the operating system says, or an error -/
def credentials (user host : Option Str) : Val :=
  .mk caType [.mk false .null, .mk true (.str ((user.map inBuffer).getD nobody)), .mk true (.str ((host.map inBuffer).getD noHost))]

/-- src/clientconn.cpp:291-293 -/
def putAuth (auth : Val) (o : Out) : Out := match auth with
  | .null => putType [] o
  | .mk t cs => putVal (.mk t cs) (putType t o)

/-- src/clientconn.cpp:280-294: the body of the reply -/
def putReply (method : Str) (auth : Val) (o : Out) : Out :=
  putAuth auth (Wire.putStr (Wire.putInt (Wire.putInt (Wire.putInt o 4 0x10000) 2 0x7fff) 2 0) method)

/-- src/clientconn.cpp:207-296 `handle_CONNECTION_VALIDATION`: the body of the reply, `none` when the connection is closed.
`be`, `sendBE`: the byte orders of the two messages -/
def answer (be sendBE : Bool) (user host : Option Str) (body : List Byte) : Option (List Byte) :=
  let r := getOffer { be := be, rest := body }
  if r.2.err then none
  else
    let m := selected r.1
    some (putReply m (if m = caName then credentials user host else .null) { be := sendBE }).data

/-! ### the server -/

mutual
/-- src/data.cpp:419-512 `tryCopyOut` to a string; `none` when it cannot be done -/
def textOf (showReal : Nat → Str) (x : Datum) : Option Str :=
  match x with
  | .real b => some (showReal b)
  | .union _ v => textVal showReal v
  | .any v => textVal showReal v
  | .null => none
  | .unionNull => none
  | .pods _ => none
  | .strs _ => none
  | .vals _ => none
  | .int v => some (showInt v)
  | .uint n => some (showNat n)
  | .bool b => some (if b then trueText else falseText)
  | .str s => some s
/-- src/data.cpp:486-489 -/
def textVal (showReal : Nat → Str) (v : Val) : Option Str :=
  match v with
  | .null => none
  | .mk _ [] => none
  | .mk _ (.mk _ x :: _) => textOf showReal x
end

/-- src/serverconn.cpp:204 `auth["user"].as<std::string>(…)` -/
def userOf (showReal : Nat → Str) (auth : Val) : Option Str := match auth with
  | .null => none
  | .mk t cs => match index false ⟨t, cs, 0⟩ userKey with
    | .ok (some h) => textOf showReal (datumAt h.cells h.pos)
    | _ => none

/-- src/pvxs/srvcommon.h:35-55 `ClientCredentials` -/
structure Cred where
  method : Str
  account : Str
  raw : Val := .null

/-- src/serverconn.cpp:74-80 -/
def Cred.init : Cred := { method := anonName, account := anonName }

/-- src/serverconn.cpp:201-214 -/
def adopt (showReal : Nat → Str) (c : Cred) (method : Str) (auth : Val) : Cred :=
  let c := if method = caName then match userOf showReal auth with
      | some u => { c with method := method, account := u }
      | none => c
    else c
  let c := if c.method = [] then { c with account := anonName, method := anonName } else c
  { c with raw := auth }

/-- src/serverconn.cpp:180-190: the method and what comes with it -/
def getReply (f : Nat) (reg : TypeStore) : Dec (Str × Val × TypeStore) := do
  skip 8
  let m ← Wire.getStr
  let r ← getTypeAndValue f reg
  pure (m, r.1, r.2)

/-- the part of a `ServerConn` which matters here -/
structure Conn where
  cred : Cred := Cred.init
  /-- rxRegistry -/
  reg : TypeStore := []
  closed : Bool := false

/-- src/serverconn.cpp:218-231: is the reply of the server positive? -/
def accepts (method : Str) : Bool := method = caName || method = anonName

/-- src/serverconn.cpp:176-232 `handle_CONNECTION_VALIDATION`, with whether the status sent is Ok; `none` when the connection is closed.
`f` bounds the depth of the recursion. -/
def validate (showReal : Nat → Str) (be : Bool) (f : Nat) (c : Conn) (body : List Byte) : Conn × Option Bool :=
  if c.closed then (c, none)
  else
    let r := getReply f c.reg { be := be, rest := body }
    if r.2.err then ({ c with closed := true }, none)
    else ({ c with cred := adopt showReal c.cred r.1.1 r.1.2.1, reg := r.1.2.2 }, some (accepts r.1.1))

/-- the handshakes of a client, each in its byte order -/
def handshakes (showReal : Nat → Str) (f : Nat) (c : Conn) (msgs : List (Bool × List Byte)) : Conn :=
  msgs.foldl (fun c m => (validate showReal m.1 f c m.2).1) c

end Pvxs.Handshake
