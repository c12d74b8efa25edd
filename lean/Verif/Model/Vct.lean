import Verif.Model.SMap
/-
tools/pvxvct.cpp: which searches and beacons are shown.

Simplifications: addresses of IPv4 are numbers, most significant byte first; the name of a host has been resolved, and a mask with dots been read
(`none`: that failed); binding and the text of the messages are not modelled.
-/
namespace Pvxs.Vct

/-- what follows the slash of -H, tools/pvxvct.cpp:38-50, :57-63 -/
inductive MaskArg where
  | absent
  /-- with a dot; `none`: evutil_inet_pton() fails -/
  | dotted (m : Option (BitVec 32))
  /-- only digits, with this value -/
  | bits (n : Nat)
deriving DecidableEq, Repr

/-- `strm>>nbit` of digits: what is too large gives UINT_MAX.  All digits are read, so the stream is at its end and not good() in any case: the test of tools/pvxvct.cpp:67
never throws -/
def readBits (n : Nat) : BitVec 32 := if n < 2 ^ 32 then BitVec.ofNat 32 n else BitVec.allOnes 32

/-- `0xffffffff<<(32-nbit)`, tools/pvxvct.cpp:70.  C++ does not define a shift by 32 or more; this is what the processors of PCs do, which
use the five lower bits. -/
def maskOf (nbit : BitVec 32) : BitVec 32 := BitVec.allOnes 32 <<< ((32#32 - nbit).toNat % 32)

/-- tools/pvxvct.cpp:35-78 `parsePeer`; `none`: throws -/
def parsePeer (host : Option (BitVec 32)) (m : MaskArg) : Option (BitVec 32 × BitVec 32) :=
  match host with
  | none => none
  | some a => match m with
    | .absent => some (a, BitVec.allOnes 32)
    | .dotted none => none
    | .dotted (some k) => some (a &&& k, k)
    | .bits n => some (a &&& maskOf (readBits n), maskOf (readBits n))

/-- tools/pvxvct.cpp:105-111 -/
structure Opts where
  client : Bool := false
  server : Bool := false
  peers : List (BitVec 32 × BitVec 32) := []
  pvnames : List Str := []
deriving DecidableEq, Repr

/-- tools/pvxvct.cpp:173-176 -/
def Opts.defaults (o : Opts) : Opts := if !o.client && !o.server then { o with client := true, server := true } else o

/-- the loop tools/pvxvct.cpp:118-122 -/
def anyPeer : List (BitVec 32 × BitVec 32) → BitVec 32 → Bool
  | [], _ => false
  | (net, k) :: l, a => if a &&& k = net then true else anyPeer l a

/-- tools/pvxvct.cpp:113-124 `allowPeer`; `none`: not IPv4 -/
def Opts.allowPeer (o : Opts) (src : Option (BitVec 32)) : Bool :=
  if o.peers.isEmpty then true
  else match src with
    | none => false
    | some a => anyPeer o.peers a

/-- the loop tools/pvxvct.cpp:213-218; `show` before it -/
def anyName (pvs : List Str) : Bool → List Str → Bool
  | s, [] => s
  | _, n :: l => if n ∈ pvs then true else anyName pvs false l

/-- tools/pvxvct.cpp:207-226: the names shown, or nothing -/
def Opts.search (o : Opts) (src : Option (BitVec 32)) (names : List Str) : Option (List Str) :=
  if !o.client || !o.allowPeer src then none
  else if !o.pvnames.isEmpty && !anyName o.pvnames false names then none
  else some names

/-- tools/pvxvct.cpp:228-237: whether it is shown -/
def Opts.beacon (o : Opts) (src : Option (BitVec 32)) : Bool := !(!o.server || !o.allowPeer src)

end Pvxs.Vct
