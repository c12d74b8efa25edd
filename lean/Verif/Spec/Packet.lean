import Verif.Spec.Wire
/-
Which bytes stand for what, in messages.  These are relations between a thing and its bytes, because some things can be written in more than
one way.
-/
namespace Pvxs.Spec.Packet
open Wire

/-- an `n` byte number -/
def IsNum (be : Bool) (n v : Nat) (bs : List Byte) : Prop := v < 256 ^ n ∧ bs = if be then digitsMSB n v else digitsLSB n v

/-- a size: one byte, or 254 and four bytes -/
def IsSize (be : Bool) (n : Nat) (bs : List Byte) : Prop :=
  (n < 254 ∧ bs = [UInt8.ofNat n]) ∨ ∃ d, IsNum be 4 n d ∧ bs = 254 :: d

/-- a text: size and bytes; the null string counts as empty -/
def IsStr (be : Bool) (s bs : List Byte) : Prop :=
  (s = [] ∧ bs = [255]) ∨ ∃ p, IsSize be s.length p ∧ bs = p ++ s

/-- sixteen bytes; ::ffff:0:0/96 is IPv4 -/
def IsAddr (a : Addr) (bs : List Byte) : Prop :=
  (∃ p q r s, a = .v4 p q r s ∧ bs = [0, 0, 0, 0, 0, 0, 0, 0, 0, 0, 255, 255, p, q, r, s]) ∨
  (a = .v6 bs ∧ bs.length = 16 ∧ bs.take 12 ≠ [0, 0, 0, 0, 0, 0, 0, 0, 0, 0, 255, 255])

/-- one after the other -/
inductive IsSeq (P : α → List Byte → Prop) : List α → List Byte → Prop where
  | nil : IsSeq P [] []
  | cons {a : α} {l : List α} {bs bs' : List Byte} (h : P a bs) (hs : IsSeq P l bs') : IsSeq P (a :: l) (bs ++ bs')

/-- a message header; the byte order is given by the highest bit of the flags -/
structure IsHeader (be : Bool) (cmd flags version : Byte) (len : Nat) (bs : List Byte) : Prop where
  order : be = (flags &&& 0x80 != 0)
  nonzero : version ≠ 0
  bytes : ∃ d, IsNum be 4 len d ∧ bs = [0xca, version, flags, cmd] ++ d

/-- a name which is searched for, and its identifier -/
def IsName (be : Bool) (x : List Byte × Nat) (bs : List Byte) : Prop :=
  ∃ i z, IsNum be 4 x.2 i ∧ IsSize be x.1.length z ∧ bs = i ++ (z ++ x.1)

/-- the first part of a search message -/
structure IsSearchHead (be : Bool) (id : Nat) (flags : Byte) (addr : Addr) (port : Nat) (bs : List Byte) : Prop where
  bytes : ∃ i r a p, IsNum be 4 id i ∧ r.length = 3 ∧ IsAddr addr a ∧ IsNum be 2 port p ∧ bs = i ++ ([flags] ++ (r ++ (a ++ p)))

/-- protocols and names -/
structure IsSearchBody (be : Bool) (protos : List (List Byte)) (names : List (List Byte × Nat)) (bs : List Byte) : Prop where
  bytes : ∃ z p n x, IsSize be protos.length z ∧ IsSeq (IsStr be) protos p ∧ IsNum be 2 names.length n ∧ IsSeq (IsName be) names x ∧
    bs = z ++ (p ++ (n ++ x))

end Pvxs.Spec.Packet
