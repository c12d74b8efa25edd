import Verif.Model.Conn
/-
Specification vocabulary for framing and segmentation (C20, C21).
-/
namespace Pvxs.Spec
open Pvxs Wire

/-- place of a message in a sequence of segments -/
inductive Seg where
  | only | first | middle | last
deriving DecidableEq

/-- the segmentation bits of the flags byte -/
def Seg.bits : Seg → Byte
  | .only => 0x00 | .first => 0x10 | .middle => 0x30 | .last => 0x20

/-- one message of the protocol, as a peer sends it.  `other`: the flag bits without meaning to the receiver -/
inductive Item where
  | control (version : Byte) (be : Bool) (other : Byte) (cmd : Byte) (len : List Byte)
  | app (version : Byte) (be : Bool) (seg : Seg) (cmd : Byte) (body : List Byte)

/-- 4 bytes -/
def bytes4 (be : Bool) (n : Nat) : List Byte :=
  let l := [UInt8.ofNat (n / 2 ^ 24), UInt8.ofNat (n / 2 ^ 16), UInt8.ofNat (n / 2 ^ 8), UInt8.ofNat n]
  if be then l else l.reverse

/-- who sent it, and the byte order -/
def baseFlags (fromServer be : Bool) : Byte := (if fromServer then 0x40 else 0) ||| (if be then 0x80 else 0)

/-- on the wire, when sent to a client (`isClient`) or to a server -/
def Item.bytes (isClient : Bool) : Item → List Byte
  | .control v be other cmd len => [0xca, v, baseFlags isClient be ||| 1 ||| (other &&& 0x3e), cmd] ++ len
  | .app v be seg cmd body => [0xca, v, baseFlags isClient be ||| seg.bits, cmd] ++ bytes4 be body.length ++ body

/-- what a peer can send: a version, four bytes of length in a control message, a length which fits -/
def Item.OK : Item → Prop
  | .control v _ _ _ len => v ≠ 0 ∧ len.length = 4
  | .app v _ _ _ body => v ≠ 0 ∧ body.length < 2 ^ 32

def stream (isClient : Bool) (items : List Item) : List Byte := items.flatMap (Item.bytes isClient)

/-- what the receiver should have done after some messages: the message being assembled, the byte order asked for, the state
of the application; `none` once the connection is closed -/
structure Want (σ : Type) where
  partly : Option (Byte × List Byte)
  sendBE : Bool
  app : σ

/-- one complete message -/
def Want.act (w : Want σ) (h : Handler σ) (m : Msg) : Want σ × Bool :=
  ({ w with partly := none, app := (h w.app m).1 }, (h w.app m).2)

/-- one more message of the protocol; the Bool tells whether the connection stays open -/
def Want.step (h : Handler σ) (w : Want σ) : Item → Want σ × Bool
  | .control _ be _ cmd _ => ({ w with sendBE := if cmd = 2 then be else w.sendBE }, true)
  | .app v be .only cmd body => match w.partly with
    | none => w.act h ⟨cmd, be, v, body⟩
    | some _ => (w, false)
  | .app _ _ .first cmd body => match w.partly with
    | none => ({ w with partly := some (cmd, body) }, true)
    | some _ => (w, false)
  | .app _ _ .middle cmd body => match w.partly with
    | some (c, b) => if c = cmd then ({ w with partly := some (c, b ++ body) }, true) else (w, false)
    | none => (w, false)
  | .app v be .last cmd body => match w.partly with
    | some (c, b) => if c = cmd then w.act h ⟨cmd, be, v, b ++ body⟩ else (w, false)
    | none => (w, false)

/-- a sequence of them: nothing happens after the connection is closed -/
def Want.run (h : Handler σ) (w : Want σ) : List Item → Want σ × Bool
  | [] => (w, true)
  | i :: is => if (w.step h i).2 then Want.run h (w.step h i).1 is else w.step h i

end Pvxs.Spec
