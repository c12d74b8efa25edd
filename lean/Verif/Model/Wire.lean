/-
Model of the primitive (de)serialisation layer: /repo/src/pvaproto.h and the SockAddr codec of
/repo/src/evhelper.cpp.

Conventions of the model
* a byte is `UInt8`; an unsigned machine integer of N bytes is a `Nat` (callers guarantee `< 256^N`; C++ casts
  to a narrower type are written as explicit `% 256^N`), floats/doubles are their bit patterns.
* an output buffer is the list of bytes written so far, an input buffer the list of bytes not yet consumed.
  A `FixedBuf` has a finite remaining capacity (`room = some n`), `VectorOutBuf`/`EvOutBuf` grow (`room = none`;
  allocation failure is not modelled).
* the C++ decoders leave the destination variable unchanged when the buffer is in the fault state; the model
  returns a default value instead.  Callers of the C++ test `good()` before using a result.
-/
namespace Pvxs.Wire

abbrev Byte := UInt8

/-- src/pvaproto.h:33-97 `struct Buffer` used for output (FixedBuf :100-111, VectorOutBuf :114-129,
EvOutBuf :132-146).  `room = some n`: n bytes may still be written (FixedBuf::refill :103 returns false);
`room = none`: refill() always succeeds (evhelper.cpp:943-986). -/
structure Out where
  be   : Bool
  err  : Bool := false
  room : Option Nat := none
  data : List Byte := []
deriving Repr, DecidableEq

/-- src/pvaproto.h:70-72 `Buffer::ensure` -/
def Out.ensure (o : Out) (n : Nat) : Bool :=
  !o.err && (match o.room with
    | none => true
    | some r => decide (n ≤ r))

/-- src/pvaproto.h:59-64 `Buffer::fault`.  File/line of the first fault are not modelled. -/
def Out.fault (o : Out) : Out := { o with err := true }

/-- storing bytes at `pos` and advancing (`push`, `buf[i]=`, `_skip`), src/pvaproto.h:89-93.
Precondition in the C++: a preceding successful `ensure`. -/
def Out.put (o : Out) (bs : List Byte) : Out :=
  { o with data := o.data ++ bs, room := o.room.map (· - bs.length) }

/-- the pattern "if(!buf.ensure(n)) fault else store n bytes" used by every primitive encoder -/
def Out.write (o : Out) (bs : List Byte) : Out :=
  if o.ensure bs.length then o.put bs else o.fault

/-- src/pvaproto.h:33-97 `struct Buffer` used for input from a contiguous block (FixedBuf); `rest` = [pos, limit).
The segmented `EvInBuf` is modelled separately (`EvIn` below) and related to this one by a refinement theorem. -/
structure In where
  be   : Bool
  err  : Bool := false
  rest : List Byte
deriving Repr, DecidableEq

/-- src/pvaproto.h:70-72 with FixedBuf::refill (:103) returning false -/
def In.ensure (i : In) (n : Nat) : Bool := !i.err && decide (n ≤ i.rest.length)

/-- src/pvaproto.h:59-64 -/
def In.fault (i : In) : In := { i with err := true }

/-- src/pvaproto.h:73-83 `Buffer::skip` for a FixedBuf: note that it does not test the fault flag. -/
def In.skip (i : In) (n : Nat) : In :=
  if n ≤ i.rest.length then { i with rest := i.rest.drop n }
  else { i with rest := [], err := true }

/-- A decoder: consumes bytes of the buffer and yields a result. -/
def Dec (α : Type) := In → α × In

namespace Dec
def run (d : Dec α) (i : In) : α × In := d i
instance : Monad Dec where
  pure a := fun i => (a, i)
  bind d f := fun i => let r := d i; f r.1 r.2
@[simp] theorem pure_apply (a : α) (i : In) : (pure a : Dec α) i = (a, i) := rfl
@[simp] theorem bind_apply (d : Dec α) (f : α → Dec β) (i : In) : (d >>= f) i = f (d i).1 (d i).2 := rfl
/-- `buf.good()`, src/pvaproto.h:65 -/
def good : Dec Bool := fun i => (!i.err, i)
/-- `buf.fault(..)` src/pvaproto.h:59 -/
def fault : Dec Unit := fun i => ((), i.fault)
end Dec

/-! ### fixed width integers -/

/-- memory image of an N byte unsigned integer on a little-endian host (language semantics of the union pun,
src/pvaproto.h:215-219) -/
def leBytes : Nat → Nat → List Byte
  | 0, _ => []
  | n+1, v => UInt8.ofNat (v % 256) :: leBytes n (v / 256)

/-- integer with the given little-endian memory image -/
def leVal : List Byte → Nat
  | [] => 0
  | b :: bs => b.toNat + 256 * leVal bs

/-- memory image on a host of the given byte order -/
def memBytes (hostBE : Bool) (n v : Nat) : List Byte :=
  if hostBE then (leBytes n v).reverse else leBytes n v

/-- inverse of `memBytes`: value of the union member `v` -/
def memVal (hostBE : Bool) (m : List Byte) : Nat :=
  if hostBE then leVal m.reverse else leVal m

/-- src/pvaproto.h:167-185 `_to_wire<N>(buf, mem, reverse)` -/
def toWireMem (o : Out) (mem : List Byte) (reverse : Bool) : Out :=
  if !o.ensure mem.length then o.fault
  else if reverse then o.put mem.reverse
  else o.put mem

/-- src/pvaproto.h:212-221 `to_wire(Buffer&, const T&)` with sizeof(T)=n>=2 -/
def toWireHost (hostBE : Bool) (o : Out) (n v : Nat) : Out :=
  toWireMem o (memBytes hostBE n v) (o.be ^^ hostBE)

/-- src/pvaproto.h:187-205 `_from_wire<N>(buf, mem, reverse)`; `none` = fault, memory not written -/
def fromWireMem (i : In) (n : Nat) (reverse : Bool) : Option (List Byte) × In :=
  if !i.ensure n then (none, i.fault)
  else
    let b := i.rest.take n
    (some (if reverse then b.reverse else b), { i with rest := i.rest.drop n })

/-- src/pvaproto.h:239-249 `from_wire(Buffer&, T&)` -/
def fromWireHost (hostBE : Bool) (n : Nat) : Dec Nat := fun i =>
  match fromWireMem i n (i.be ^^ hostBE) with
  | (some m, i') => (memVal hostBE m, i')
  | (none, i') => (0, i')

/-- bytes of an integer in wire order.  The rest of the model uses `putInt`/`getInt`, which theorem
`C02_host_independent` relates to the code above for either host byte order. -/
def wireBytes (be : Bool) (n v : Nat) : List Byte :=
  if be then (leBytes n v).reverse else leBytes n v

/-- src/pvaproto.h:212-231 `to_wire(Buffer&, const T&)` -/
def putInt (o : Out) (n v : Nat) : Out := o.write (wireBytes o.be n v)

/-- src/pvaproto.h:239-249 `from_wire(Buffer&, T&)` -/
def getInt (n : Nat) : Dec Nat := fun i =>
  if !i.ensure n then (0, i.fault)
  else
    let b := i.rest.take n
    (leVal (if i.be then b.reverse else b), { i with rest := i.rest.drop n })

/-- src/pvaproto.h:223-231, one byte -/
def putU8 (o : Out) (b : Byte) : Out := o.write [b]

/-- src/pvaproto.h:239-249 with sizeof(T)==1 -/
def getU8 : Dec Byte := fun i =>
  if !i.ensure 1 then (0, i.fault)
  else match i.rest with
    | [] => (0, i.fault)     -- unreachable: ensure(1) succeeded
    | b :: r => (b, { i with rest := r })

/-! ### Size, Selector -/

/-- `size_t(-1)` on a 64 bit host: the null string marker, src/pvaproto.h:300 -/
def nullSize : Nat := 2^64 - 1

/-- src/pvaproto.h:264-280 `to_wire(Buffer&, const Size&)` -/
def putSize (o : Out) (n : Nat) : Out :=
  if !o.ensure 1 then o.fault
  else if n < 254 then o.put [UInt8.ofNat n]
  else if n ≤ 0xffffffff then putInt (o.put [254]) 4 n
  else o.fault

/-- src/pvaproto.h:282-305 `from_wire(Buffer&, Size&, bool allow_null)`; the caller's Size is initialised to 0 -/
def getSize (allowNull : Bool) : Dec Nat := fun i =>
  if !i.ensure 1 then (0, i.fault)
  else
    let (s, i) := getU8 i
    if s < 254 then (s.toNat, i)
    else if s = 254 then getInt 4 i
    else if s = 255 && allowNull then (nullSize, i)
    else (0, i.fault)

/-- src/pvaproto.h:316-336 `to_wire(Buffer&, const Selector&)` -/
def putSel (o : Out) (s : Int) : Out :=
  if !o.ensure 1 then o.fault
  else if s ≤ -1 then o.put [255]
  else if s < 254 then o.put [UInt8.ofNat s.toNat]
  else if s ≤ 0xffffffff then putInt (o.put [254]) 4 s.toNat
  else o.fault

/-- src/pvaproto.h:338-362 `from_wire(Buffer&, Selector&)` -/
def getSel : Dec Int := fun i =>
  if !i.ensure 1 then (-1, i.fault)
  else
    let (s, i) := getU8 i
    if s < 254 then (s.toNat, i)
    else if s = 254 then
      let (n, i) := getInt 4 i
      (n, i)
    else if s = 255 then (-1, i)
    else (-1, i.fault)       -- unreachable for a byte

/-! ### strings, status -/

/-- src/pvaproto.h:364-377 `to_wire_str`, :385-388 `to_wire(Buffer&, const std::string&)` -/
def putStr (o : Out) (s : List Byte) : Out :=
  (putSize o s.length).write s

/-- `strlen` prefix: what `std::string(s.c_str())` keeps (src/pvaproto.h:379-383) -/
def cstr (s : List Byte) : List Byte := s.takeWhile (· != 0)

/-- src/pvaproto.h:390-405 `from_wire(Buffer&, std::string&)` -/
def getStr : Dec (List Byte) := fun i =>
  let (n, i) := getSize true i
  if n = nullSize then ([], i)
  else if !i.ensure n then ([], i.fault)
  else (i.rest.take n, { i with rest := i.rest.drop n })

/-- src/pvaproto.h:421-437 `struct Status`; the code is kept as a byte because the decoder accepts any (:468) -/
structure Status where
  code  : Byte
  msg   : List Byte
  trace : List Byte
deriving Repr, DecidableEq

/-- src/pvaproto.h:431 `Status::isSuccess` -/
def Status.isSuccess (s : Status) : Bool := s.code == 0 || s.code == 1

/-- src/pvaproto.h:439-453 `to_wire(Buffer&, const Status&)`: message and trace go through `c_str()` -/
def putStatus (o : Out) (s : Status) : Out :=
  if !o.ensure 1 then o.fault
  else if s.code = 0 && s.msg.isEmpty && s.trace.isEmpty then o.put [255]
  else putStr (putStr (o.put [s.code]) (cstr s.msg)) (cstr s.trace)

/-- src/pvaproto.h:455-472 `from_wire(Buffer&, Status&)` -/
def getStatus : Dec Status := fun i =>
  if !i.ensure 1 then (⟨0, [], []⟩, i.fault)
  else
    let (c, i) := getU8 i
    if c = 255 then (⟨0, [], []⟩, i)
    else
      let (m, i) := getStr i
      let (t, i) := getStr i
      (⟨c, m, t⟩, i)

/-! ### arrays of scalars and strings -/

/-- src/pvaproto.h:474-520, `std::is_pod<C>` branch: count, then the elements in wire order.
Simplification: the block copy (:486-512) is written element by element. -/
def putPods (w : Nat) (o : Out) : List Nat → Out
  | [] => o
  | v :: vs => putPods w (putInt o w v) vs

def putPodArr (w : Nat) (o : Out) (vs : List Nat) : Out := putPods w (putSize o vs.length) vs

/-- src/pvaproto.h:535-561: stops at the first element which is not available -/
def getPods (w : Nat) : Nat → Dec (List Nat)
  | 0 => fun i => ([], i)
  | n+1 => fun i =>
    if !i.ensure w then ([], i.fault)
    else
      let (v, i) := getInt w i
      let (vs, i) := getPods w n i
      (v :: vs, i)

/-- src/pvaproto.h:522-571 POD branch -/
def getPodArr (w : Nat) : Dec (List Nat) := fun i =>
  let (n, i) := getSize false i
  getPods w n i

/-- src/pvaproto.h:514-519 `C=std::string` -/
def putStrs (o : Out) : List (List Byte) → Out
  | [] => o
  | s :: ss => putStrs (putStr o s) ss

def putStrArr (o : Out) (ss : List (List Byte)) : Out := putStrs (putSize o ss.length) ss

/-- src/pvaproto.h:563-569.  The C++ keeps iterating after a fault; every further step then leaves the buffer
unchanged, which is also what this recursion does. -/
def getStrs : Nat → Dec (List (List Byte))
  | 0 => fun i => ([], i)
  | n+1 => fun i =>
    let (s, i) := getStr i
    if i.err then ([s], i) else
    let (ss, i) := getStrs n i
    (s :: ss, i)

def getStrArr : Dec (List (List Byte)) := fun i =>
  let (n, i) := getSize false i
  getStrs n i

/-! ### message header -/

/-- src/pvaproto.h:653-661 `struct Header` -/
structure Header where
  cmd : Byte
  flags : Byte
  version : Byte := 0
  len : Nat
deriving Repr, DecidableEq

def flagControl : Byte := 0x01
def flagSegMask : Byte := 0x30
def flagServer : Byte := 0x40
def flagMSB : Byte := 0x80

/-- src/pvaproto.h:663-679 `to_wire(Buf&, const Header&)`; versions :580-585 are both 2 -/
def putHeader (o : Out) (h : Header) : Out :=
  if !o.ensure 8 then o.fault
  else
    let ver : Byte := if h.flags &&& flagServer ≠ 0 then 2 else 2
    let fl : Byte := if o.be then h.flags ||| flagMSB else h.flags
    putInt (o.put [0xca, ver, fl, h.cmd]) 4 h.len

/-- src/pvaproto.h:683-698 `from_wire(Buf&, Header&)`: switches the byte order of the buffer -/
def getHeader : Dec Header := fun i =>
  if !i.ensure 8 then (⟨0, 0, 0, 0⟩, i.fault)
  else match i.rest with
    | m :: v :: f :: c :: _ =>
      if m ≠ 0xca || v = 0 then (⟨0, 0, 0, 0⟩, i.fault)
      else
        let i := { i with be := f &&& flagMSB ≠ 0 }
        let i := i.skip 4
        let (l, i) := getInt 4 i
        (⟨c, f, v, l⟩, i)
    | _ => (⟨0, 0, 0, 0⟩, i.fault)   -- unreachable: ensure(8) succeeded

/-! ### socket addresses -/

/-- src/pvxs/netcommon.h, src/util.cpp:371-388 `SockAddr`, reduced to the address bytes (in network order) that
are carried on the wire; port, scope and flow info are not encoded -/
inductive Addr where
  | unspec
  | v4 (a b c d : Byte)
  | v6 (bytes : List Byte)      -- 16 bytes
deriving Repr, DecidableEq

def v4prefix : List Byte := List.replicate 10 0 ++ [0xff, 0xff]

/-- src/evhelper.cpp:887-905 `to_wire(Buffer&, const SockAddr&)`.  For AF_UNSPEC the 16 bytes are skipped without
being written: `junk` is whatever the buffer held. -/
def putAddr (junk : List Byte) (o : Out) (a : Addr) : Out :=
  if !o.ensure 16 then o.fault
  else match a with
    | .v4 a b c d => o.put (v4prefix ++ [a, b, c, d])
    | .v6 bs => o.put bs
    | .unspec => o.put junk

/-- src/evhelper.cpp:907-934 `from_wire(Buffer&, SockAddr&)` -/
def getAddr : Dec Addr := fun i =>
  if !i.ensure 16 then (.unspec, i.fault)
  else
    let b := i.rest.take 16
    let i' := { i with rest := i.rest.drop 16 }
    if b.take 12 = v4prefix then
      match b.drop 12 with
      | [p, q, r, s] => (.v4 p q r s, i')
      | _ => (.unspec, i')             -- unreachable: b has 16 bytes
    else (.v6 b, i')

/-! ### segmented input -/

/-- src/pvaproto.h:149-164 `EvInBuf` over an evbuffer: `slice` = [pos, limit), `more` = bytes of the evbuffer after
the current slice -/
structure EvIn where
  be    : Bool
  err   : Bool := false
  slice : List Byte
  more  : List Byte
deriving Repr, DecidableEq

/-- src/evhelper.cpp:990-1036 `EvInBuf::refill(needed)` with needed>0.  The unconsumed slice and the rest of the
evbuffer are re-sliced.  `cut` is the length of the first contiguous chunk libevent presents after
`evbuffer_pullup(requesting)`: at least `requesting` (libevent's contract).  Returns false when the new slice is
too short. -/
def EvIn.refill (cut : Nat) (e : EvIn) (needed : Nat) : Bool × EvIn :=
  if e.err then (false, e)
  else
    let all := e.slice ++ e.more
    let requesting := min (max needed 1024) all.length
    let n := max cut requesting
    let e' := { e with slice := all.take n, more := all.drop n }
    if all.isEmpty then (false, { e' with slice := [], more := [] })
    else (decide (needed ≤ e'.slice.length), e')

/-- src/pvaproto.h:70-72 `ensure` -/
def EvIn.ensure (cut : Nat) (e : EvIn) (n : Nat) : Bool × EvIn :=
  if e.err then (false, e)
  else if n ≤ e.slice.length then (true, e)
  else e.refill cut n

/-- src/pvaproto.h:93 `_skip`, after a successful ensure -/
def EvIn.advance (e : EvIn) (n : Nat) : EvIn := { e with slice := e.slice.drop n }

/-- src/pvaproto.h:73-83 `Buffer::skip` on an EvInBuf.  `pos = limit` is executed before `i -= size()`, so that
`size()` is 0 and the count is not reduced by what was consumed.  `fuel` bounds the do/while loop;
each iteration that does not return needs a successful refill, after which `i<=size()` holds, so 2 suffice. -/
def EvIn.skip (cut : Nat) : Nat → EvIn → Nat → EvIn
  | 0, e, _ => { e with err := true }
  | fuel+1, e, i =>
    if i ≤ e.slice.length then { e with slice := e.slice.drop i }
    else
      let e := { e with slice := [] }
      let i := i - e.slice.length
      match e.refill cut i with
      | (true, e) => EvIn.skip cut fuel e i
      | (false, e) => { e with err := true }

end Pvxs.Wire
