import Verif.Model.Config
import Verif.Spec.Scalar
/-
What C45, C46, C64 and C65 say.
-/
namespace Pvxs.Spec.Cfg
open Pvxs.Cfg

/-- an IPv4 or IPv6 address and port -/
def Valid : SockAddr → Prop
  | .unspec => False
  | .v4 ip p => ip < 2 ^ 32 ∧ p < 2 ^ 16
  | .v6 ip p => ip < 2 ^ 128 ∧ p < 2 ^ 16

/-- 224.0.0.0 to 239.255.255.255, or ff00:: and above -/
def Multicast : SockAddr → Prop
  | .unspec => False
  | .v4 ip _ => 0xe0000000 ≤ ip ∧ ip < 0xf0000000
  | .v6 ip _ => 0xff * 2 ^ 120 ≤ ip

/-- packets go to the same place: time to live and interface matter for multicast only -/
def SameDest (a b : Endpoint) : Prop := a.addr = b.addr ∧ (Multicast a.addr → a.ttl = b.ttl ∧ a.iface = b.iface)

/-- the same address with another port -/
def atPort (p : Nat) : SockAddr → SockAddr
  | .unspec => .unspec
  | .v4 ip _ => .v4 ip p
  | .v6 ip _ => .v6 ip p

/-- inet_ntop() and inet_pton(): an address is printed with digits, dots and colons, and read back -/
structure Standard (net : Net) : Prop where
  back4 : ∀ a, a < 2 ^ 32 → net.pton4 (net.ntop4 a) = some a
  back6 : ∀ a, a < 2 ^ 128 → net.pton6 (net.ntop6 a) = some a
  chars4 : ∀ a, ∀ c ∈ net.ntop4 a, c.toNat = 0x2e ∨ (0x30 ≤ c.toNat ∧ c.toNat ≤ 0x39)
  chars6 : ∀ a, ∀ c ∈ net.ntop6 a,
    c.toNat = 0x2e ∨ (0x30 ≤ c.toNat ∧ c.toNat ≤ 0x3a) ∨ (0x61 ≤ c.toNat ∧ c.toNat ≤ 0x66)
  size4 : ∀ a, a < 2 ^ 32 → net.ntop4 a ≠ [] ∧ (net.ntop4 a).length ≤ 15
  size6 : ∀ a, a < 2 ^ 128 → (net.ntop6 a).length ≤ 45

/-- each once, where it first occurs -/
def firsts {α : Type} [DecidableEq α] : List α → List α
  | [] => []
  | a :: l => a :: (firsts l).filter (· ≠ a)

def key (e : Endpoint) : SockAddr × Str := (e.addr, e.iface)

/-- `r` is `l` with each (address, interface) once, where it first occurs, with the largest time to live given for it -/
def Merged (l r : List Endpoint) : Prop :=
  r.map key = firsts (l.map key) ∧
  ∀ e ∈ r, (∃ x ∈ l, key x = key e ∧ x.ttl = e.ttl) ∧ ∀ x ∈ l, key x = key e → x.ttl ≤ e.ttl

/-- the value of a setting which has an own name and a common name: the own name counts -/
def Setting (defs : Defs) (own common : Name) (v : Str) : Prop :=
  defs own = some v ∨ (defs own = none ∧ defs common = some v)

/-- a number in the range of ports, in decimal, octal or hexadecimal -/
def SaysPort (v : Str) (p : Nat) : Prop := Spec.Scl.Says v false p ∧ p < 65536

/-- no number: neither a number nor a negative number of 64 bits -/
def SaysNothing (v : Str) : Prop := ∀ neg m, Spec.Scl.Says v neg m → 2 ^ 64 ≤ m

/-- a timeout which can be used: finite, at least two seconds, small enough for time_t -/
def Usable (t : Dbl) : Prop := ∃ q : Rat, t = .fin q ∧ 2 ≤ q ∧ q < 2 ^ 63

/-- an address as it is printed: not empty, no blanks -/
def Plain (w : Str) : Prop := w ≠ [] ∧ ∀ c ∈ w, c.toNat ≠ 0x20 ∧ c.toNat ≠ 9 ∧ c.toNat ≠ 10 ∧ c.toNat ≠ 13

/-- an endpoint which keeps its meaning as text (C64), and does not fall apart in a list -/
structure Steady (net : Net) (e : Endpoint) : Prop where
  valid : Valid e.addr
  comma : (0x2c : Wire.Byte) ∉ e.iface
  blank : ∀ c ∈ e.iface, c.toNat ≠ 0x20 ∧ c.toNat ≠ 9 ∧ c.toNat ≠ 10 ∧ c.toNat ≠ 13
  named : net.pton4 e.iface = none
  ttl : Multicast e.addr → -2 ^ 31 ≤ e.ttl ∧ e.ttl < 2 ^ 31 ∧ e.ttl ≠ 0

/-- with the default port `d`, where none was given -/
def orPort (d : Nat) (e : Endpoint) : Endpoint := if e.addr.port = 0 then { e with addr := atPort d e.addr } else e

end Pvxs.Spec.Cfg
