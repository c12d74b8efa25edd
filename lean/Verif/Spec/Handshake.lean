import Verif.Model.Handshake
import Verif.Spec.Value
/-! Specification for C74 -/
namespace Pvxs.Spec.Handshake
open Pvxs Pvxs.Handshake

/-- a handshake of a client: the method it selects and what it presents -/
abbrev Hello := Str × Val

/-- "ca" -/
def ca : Str := [0x63, 0x61]
/-- "anonymous" -/
def anonymous : Str := [0x61, 0x6e, 0x6f, 0x6e, 0x79, 0x6d, 0x6f, 0x75, 0x73]

/-- the account a handshake presents: with the method "ca", the text of the field "user" -/
def account (showReal : Nat → Str) (h : Hello) : Option Str := if h.1 = ca then userOf showReal h.2 else none

/-- who a client is after a handshake, as (method, account): the account it presents, otherwise it is anonymous -/
def whoIs (showReal : Nat → Str) (h : Hello) : Str × Str := match account showReal h with
  | some u => (ca, u)
  | none => (anonymous, anonymous)

/-- who a client is after its handshakes -/
def whoAfter (showReal : Nat → Str) : List Hello → Str × Str
  | [] => (anonymous, anonymous)
  | [h] => whoIs showReal h
  | _ :: h :: l => whoAfter showReal (h :: l)

/-- the last account presented by any of them -/
def lastAccount (showReal : Nat → Str) (l : List Hello) : Option Str := (l.filterMap (account showReal)).getLast?

/-- the messages of these handshakes, each in its byte order -/
def messages (l : List (Bool × Hello)) : List (Bool × List UInt8) :=
  l.map fun x => (x.1, (putReply x.2.1 x.2.2 { be := x.1 }).data)

/-- a handshake which can be sent, and read with recursion to depth `f` -/
def Sendable (f : Nat) (h : Hello) : Prop := h.1.length < 2 ^ 32 ∧ AnyOK h.2 ∧ nesting h.2 ≤ f

end Pvxs.Spec.Handshake
