import Verif.Model.Wire
/-
Model of the receive side of a TCP connection, /repo/src/conn.cpp:167-300 (`ConnBase::bevRead`), and of libevent calling it.
-/
namespace Pvxs
open Wire

/-- what a handler gets to see: command, byte order and version of the (last) header, body -/
structure Msg where
  cmd : Byte
  be : Bool
  version : Byte
  body : List Byte
deriving DecidableEq

/-- the receive state of `ConnBase` (src/conn.h:30-75).  `rx`: the bufferevent's input; `lowat`: its low watermark;
`app`: everything the handlers work on.  After `bev.reset()`, `isOpen` is false and the input is gone. -/
structure Rx (σ : Type) where
  isClient : Bool
  rx : List Byte := []
  segBuf : List Byte := []
  expectSeg : Bool := false
  segCmd : Byte := 0xff
  peerBE : Bool := true
  peerVersion : Byte := 0
  sendBE : Bool := false
  isOpen : Bool := true
  lowat : Nat := 8
  app : σ

/-- handle_XXX(): acts on one message; false: the handler closed the connection, or threw (:266-271).
The `default:` of the switch (:240) is a handler which does nothing. -/
abbrev Handler (σ : Type) := σ → Msg → σ × Bool

/-- :216-219, 4 bytes in the byte order `be` -/
def u32 (be : Bool) (a b c d : Byte) : Nat :=
  if be then ((a.toNat * 256 + b.toNat) * 256 + c.toNat) * 256 + d.toNat
  else ((d.toNat * 256 + c.toNat) * 256 + b.toNat) * 256 + a.toNat

/-- `bev.reset()`; with it go the input buffer and the watermark -/
def Rx.close (s : Rx σ) : Rx σ := { s with isOpen := false, rx := [], lowat := 8 }

/-- :175-176, the header is not acceptable -/
def badHeader (isClient : Bool) (h0 h1 h2 : Byte) : Bool :=
  h0 != 0xca || h1 == 0 || (isClient ^^ ((h2 &&& 0x40) != 0))

/-- :233-287: a complete payload has been moved to segBuf -/
def segment (h : Handler σ) (s : Rx σ) (flags cmd : Byte) : Rx σ :=
  let seg := flags &&& 0x30
  let continuation := (seg &&& 0x20) != 0
  if (continuation ^^ s.expectSeg) || (continuation && cmd != s.segCmd) then s.close
  else
    let s := if seg = 0 ∨ seg = 0x10 then { s with expectSeg := true, segCmd := cmd } else s
    if seg = 0 ∨ seg = 0x20 then
      let r := h s.app ⟨s.segCmd, s.peerBE, s.peerVersion, s.segBuf⟩
      let s := { s with expectSeg := false, app := r.1 }
      if r.2 then { s with segBuf := [] } else s.close
    else s

/-- one round of the loop :171-288; `none`: the loop ends, or returns at :228.
The watermark is only looked at once the callback has returned; it is reset here for convenience. -/
def rxStep (h : Handler σ) (s : Rx σ) : Option (Rx σ) :=
  if !s.isOpen then none
  else match s.rx with
  | h0 :: h1 :: h2 :: h3 :: l0 :: l1 :: l2 :: l3 :: rest =>
    if badHeader s.isClient h0 h1 h2 then some s.close
    else if (h2 &&& 1) != 0 then
      some { s with rx := rest, lowat := 8, sendBE := if h3 = 2 then (h2 &&& 0x80) != 0 else s.sendBE }
    else
      let be := (h2 &&& 0x80) != 0
      let len := u32 be l0 l1 l2 l3
      if rest.length < len then none
      else some (segment h { s with rx := rest.drop len, lowat := 8, peerBE := be, peerVersion := h1,
                                    segBuf := s.segBuf ++ rest.take len } h2 h3)
  | _ => none

/-- how the callback leaves the connection: :221-229, waiting for a payload (`8 + len` is computed in 32 bits), or :290-296 -/
def settle (s : Rx σ) : Rx σ :=
  if !s.isOpen then s
  else match s.rx with
  | h0 :: h1 :: h2 :: _ :: l0 :: l1 :: l2 :: l3 :: _ =>
    if badHeader s.isClient h0 h1 h2 || (h2 &&& 1) != 0 then s        -- unreachable
    else
      let be := (h2 &&& 0x80) != 0
      { s with peerBE := be, peerVersion := h1, lowat := (8 + u32 be l0 l1 l2 l3) % 2 ^ 32 }
  | _ => { s with lowat := 8 }

/-- the loop; the first argument bounds the number of rounds (each consumes at least a header) -/
def rxLoop (h : Handler σ) : Nat → Rx σ → Rx σ
  | 0, s => s
  | n+1, s => match rxStep h s with
    | none => s
    | some s' => rxLoop h n s'

/-- src/conn.cpp:167-300 `ConnBase::bevRead` -/
def bevRead (h : Handler σ) (s : Rx σ) : Rx σ := settle (rxLoop h (s.rx.length + 1) s)

/-- libevent has read some more bytes from the socket: it calls `bevRead` when the low watermark is reached -/
def receive (h : Handler σ) (s : Rx σ) (chunk : List Byte) : Rx σ :=
  if !s.isOpen then s
  else
    let s := { s with rx := s.rx ++ chunk }
    if s.lowat ≤ s.rx.length then bevRead h s else s

def receiveAll (h : Handler σ) (s : Rx σ) (chunks : List (List Byte)) : Rx σ := chunks.foldl (receive h) s

/-- src/conn.cpp:29-46 the constructor, and :57-90 `ConnBase::connect` -/
def newRx (isClient sendBE : Bool) (app : σ) : Rx σ := { isClient := isClient, sendBE := sendBE, app := app }

end Pvxs
