import Verif.Model.Wire
import Verif.Model.Res
/-
Model of /repo/src/bitmask.h and /repo/src/bitmask.cpp.

A read or write of `_words` outside the vector is undefined behaviour in C++; the model gives it the distinct outcome
`none`.
-/
namespace Pvxs
open Wire

/-- bitmask.h:91-98 `class BitMask`: storage words (bit 0 = lsb of word 0) and `_size`, a uint16_t -/
structure BitMask where
  words : List (BitVec 64)
  size  : Nat
deriving Repr, DecidableEq

namespace BitMask

/-- bitmask.h:105 default constructor -/
def empty : BitMask := ⟨[], 0⟩

/-- bitmask.cpp:46 "round up to multiple of 64", size_t arithmetic modulo 2^64, then `/64` (:47) -/
def storeWords (bits : Nat) : Nat := ((((bits + (2^64 - 1)) % 2^64) ||| 0x3f) + 1) % 2^64 / 64

/-- `std::vector::resize(n, 0u)` -/
def vresize (ws : List (BitVec 64)) (n : Nat) : List (BitVec 64) :=
  ws.take n ++ List.replicate (n - ws.length) 0#64

/-- bitmask.cpp:44-49 `BitMask::resize`; `uint16_t(bits)` keeps the low 16 bits -/
def resize (m : BitMask) (bits : Nat) : BitMask :=
  ⟨vresize m.words (storeWords bits), bits % 2^16⟩

/-- bitmask.h:114 `BitMask(size_t)` -/
def sized (nbits : Nat) : BitMask := resize empty nbits

/-- bitmask.h:149-151 `operator bool` of `mask[bit]`: `_size` is not consulted -/
def test (m : BitMask) (bit : Nat) : Option Bool :=
  match m.words[bit / 64]? with
  | none => none
  | some w => some ((w &&& (1#64 <<< (bit % 64))) ≠ 0#64)

/-- bitmask.h:152-159 assignment through `mask[bit]` -/
def set (m : BitMask) (bit : Nat) (v : Bool) : Option BitMask :=
  match m.words[bit / 64]? with
  | none => none
  | some w =>
    let w' := if v then w ||| (1#64 <<< (bit % 64)) else w &&& ~~~(1#64 <<< (bit % 64))
    some { m with words := m.words.set (bit / 64) w' }

/-- bitmask.cpp:36-38 loop of the initializer_list constructor -/
def setAll (m : BitMask) : List Nat → Option BitMask
  | [] => some m
  | b :: bs => match m.set b true with
    | none => none
    | some m => setAll m bs

/-- bitmask.cpp:31-42 `BitMask(std::initializer_list<size_t>, size_t)` -/
def ofBits (bits : List Nat) (nbits : Nat) : Option BitMask :=
  if bits.isEmpty then some (sized nbits)
  else setAll (sized (max nbits (1 + bits.foldl max 0))) bits

/-- bitmask.cpp:70-82: isolate the lowest set bit, then binary search for its index -/
def lowBit (x : BitVec 64) : Nat :=
  let m := x &&& (-x)
  let bit := 63
  let bit := if m &&& 0x00000000ffffffff#64 ≠ 0#64 then bit - 32 else bit
  let bit := if m &&& 0x0000ffff0000ffff#64 ≠ 0#64 then bit - 16 else bit
  let bit := if m &&& 0x00ff00ff00ff00ff#64 ≠ 0#64 then bit - 8 else bit
  let bit := if m &&& 0x0f0f0f0f0f0f0f0f#64 ≠ 0#64 then bit - 4 else bit
  let bit := if m &&& 0x3333333333333333#64 ≠ 0#64 then bit - 2 else bit
  let bit := if m &&& 0x5555555555555555#64 ≠ 0#64 then bit - 1 else bit
  bit

/-- bitmask.cpp:51-88 `BitMask::findSet` -/
def findSet (m : BitMask) (start : Nat) : Option Nat :=
  if _h : start < m.size then
    match m.words[start / 64]? with
    | none => none
    | some w =>
      let masked := w &&& ~~~((1#64 <<< (start % 64)) - 1#64)
      if masked = 0#64 then findSet m ((start / 64 + 1) * 64)
      else some ((start / 64 * 64) ||| lowBit masked)
  else some m.size
termination_by m.size - start
decreasing_by omega

/-- bitmask.h:170-184 `_SetIter` walked from `pos` until it compares equal to `stop` (:187).  The C++ loop has no other
bound: `fuel` exhausted = still running, `none`. -/
def walk (m : BitMask) (stop : Nat) : Nat → Nat → Option (List Nat)
  | 0, _ => none
  | fuel+1, pos =>
    if pos = stop then some []
    else match m.findSet (pos + 1) with
      | none => none
      | some p => (walk m stop fuel p).map (pos :: ·)

/-- bitmask.h:200 iteration over `onlySet(a, b)` -/
def onlySet (m : BitMask) (a b fuel : Nat) : Option (List Nat) :=
  match m.findSet a with
  | none => none
  | some p => walk m b fuel p

/-- bitmask.cpp:103-111 `operator==` (word vectors of equal size have equal length, see `WF`) -/
def beq (a b : BitMask) : Bool := a.size == b.size && a.words == b.words

/-- bitmask.h:205-209 evaluate an expression of `sz` bits and words `ws` into a new BitMask -/
def eval (sz : Nat) (ws : List (BitVec 64)) : Res BitMask :=
  if ws.length ≤ storeWords sz then .ok ⟨vresize ws (storeWords sz), sz % 2^16⟩
  else .ub

/-- bitmask.h:29-45 `operator!` -/
def not (m : BitMask) : Res BitMask := eval m.size (m.words.map (~~~ ·))

/-- bitmask.h:48-66 `operator&` -/
def and (a b : BitMask) : Res BitMask :=
  if a.size ≠ b.size then .throws "op size mismatch"
  else eval a.size (List.zipWith (· &&& ·) a.words b.words)

/-- bitmask.h:69-87 `operator|`; wsize() is the larger one, so word(i) of the shorter operand is out of bounds -/
def or (a b : BitMask) : Res BitMask :=
  if a.size ≠ b.size then .throws "op size mismatch"
  else if a.words.length ≠ b.words.length then .ub
  else eval a.size (List.zipWith (· ||| ·) a.words b.words)

/-- bitmask.h:221-227 `operator|=` with a BitMask operand: resizes to the size of the operand first -/
def orAssign (a b : BitMask) : Res BitMask :=
  let a' := a.resize b.size
  if a'.words.length < b.words.length then .ub
  else .ok { a' with words := List.zipWith (· ||| ·) a'.words (vresize b.words a'.words.length) }

/-- bitmask.h:230-236 `operator&=`, likewise -/
def andAssign (a b : BitMask) : Res BitMask :=
  let a' := a.resize b.size
  if a'.words.length < b.words.length then .ub
  else .ok { a' with words := List.zipWith (· &&& ·) a'.words (vresize b.words a'.words.length) }

/-! wire form -/

/-- bitmask.cpp:126-132: number of low bytes needed when the top byte is zero -/
def extraOf (last : BitVec 64) : Nat :=
  if last &&& 0x00ff000000000000#64 ≠ 0#64 then 7
  else if last &&& 0x0000ff0000000000#64 ≠ 0#64 then 6
  else if last &&& 0x000000ff00000000#64 ≠ 0#64 then 5
  else if last &&& 0x00000000ff000000#64 ≠ 0#64 then 4
  else if last &&& 0x0000000000ff0000#64 ≠ 0#64 then 3
  else if last &&& 0x000000000000ff00#64 ≠ 0#64 then 2
  else if last &&& 0x00000000000000ff#64 ≠ 0#64 then 1
  else 0

/-- bitmask.cpp:119-134: drop trailing zero words and bytes.  Result: (whole words, extra bytes) -/
def trim (ws : List (BitVec 64)) : Nat → Nat × Nat
  | 0 => (0, 0)
  | n+1 =>
    let last := ws.getD n 0#64
    if last &&& 0xff00000000000000#64 ≠ 0#64 then (n+1, 0)
    else if last = 0#64 then trim ws n
    else (n, extraOf last)

/-- bitmask.cpp:138-140 -/
def putWords (o : Out) : List (BitVec 64) → Out
  | [] => o
  | w :: ws => putWords (putInt o 8 w.toNat) ws

/-- bitmask.cpp:143-145: bytes i, i+1, ... i+n-1 of `last` -/
def putLow (o : Out) (last : BitVec 64) (i : Nat) : Nat → Out
  | 0 => o
  | n+1 => putLow (putU8 o (UInt8.ofNat ((last >>> (8 * i)).toNat % 256))) last (i + 1) n

/-- bitmask.cpp:116-147 `to_wire(Buffer&, const BitMask&)` -/
def toWire (m : BitMask) (o : Out) : Out :=
  let (nwords, extra) := trim m.words m.words.length
  let nbytes := nwords * 8 + extra
  let o := putSize o nbytes
  let o := putWords o (m.words.take nwords)
  if extra ≠ 0 then putLow o (m.words.getD nwords 0#64) 0 extra else o

/-- bitmask.cpp:162-164 -/
def getWords : Nat → Dec (List (BitVec 64))
  | 0 => fun i => ([], i)
  | n+1 => fun i =>
    let (v, i) := getInt 8 i
    let (ws, i) := getWords n i
    (BitVec.ofNat 64 v :: ws, i)

/-- bitmask.cpp:167-171 -/
def getLow (k : Nat) (acc : BitVec 64) : Nat → Dec (BitVec 64)
  | 0 => fun i => (acc, i)
  | n+1 => fun i =>
    let (b, i) := getU8 i
    getLow (k + 1) (acc ||| (BitVec.ofNat 64 b.toNat <<< (8 * k))) n i

/-- bitmask.cpp:165-172 -/
def getTail (extra : Nat) : Dec (List (BitVec 64)) := fun i =>
  if extra ≠ 0 then
    let (l, i) := getLow 0 0#64 extra i
    ([l], i)
  else ([], i)

/-- bitmask.cpp:150-173 `from_wire(Buffer&, BitMask&)` into a fresh mask (every caller passes one).
`nbytes > size_t(-1)/8` cannot happen for a decoded Size (< 2^32).  Memory exhaustion is not modelled. -/
def fromWire : Dec BitMask := fun i =>
  let (nbytes, i) := getSize false i
  if i.err then (empty, i)
  else
    let (ws, i) := getWords (nbytes / 8) i
    let (tail, i) := getTail (nbytes % 8) i
    (⟨ws ++ tail, (8 * nbytes) % 2^16⟩, i)

end BitMask
end Pvxs
