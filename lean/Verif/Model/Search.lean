import Verif.Model.Udp
import Verif.Model.SMap
/-
When a client searches for which channels, and the packets: src/client.cpp:44-51,150-225,370-385,1011-1225, src/clientconn.cpp:345-395.

Simplifications: all of this is on one thread; a channel is referred to by a number, std::weak_ptr by this and whether it is still there;
errors of sendto() are left out; the state of a channel is changed only as by `Op`.
-/
namespace Pvxs.Search
open Wire

/-- src/client.cpp:44 -/
def nBuckets : Nat := 30

/-- src/client.cpp:51 -/
def maxSearchPayload : Nat := 1400

/-- src/clientimpl.h:180-186 -/
inductive St where
  | searching | connecting | creating | active
deriving DecidableEq, Repr

/-- src/clientimpl.h:174-200 `Channel` -/
structure Chan where
  cid : Nat
  name : Str
  alive : Bool := true
  st : St := .searching
  /-- there is a `forcedServer` -/
  forced : Bool := false
  nSearch : Nat := 0
deriving DecidableEq, Repr

def Chan.wanted (c : Chan) : Bool := c.alive && c.st == .searching

/-- src/clientimpl.h:290-300 -/
structure Ctx where
  cur : Nat := 0
  buckets : Nat → List Nat := fun _ => []
  initial : List Nat := []
  chans : Nat → Option Chan := fun _ => none
  /-- an assert() failed -/
  aborted : Bool := false

def Ctx.push (c : Ctx) (b n : Nat) : Ctx := { c with buckets := fun i => if i = b then c.buckets i ++ [n] else c.buckets i }

def Ctx.setChan (c : Ctx) (n : Nat) (ch : Chan) : Ctx := { c with chans := fun i => if i = n then some ch else c.chans i }

inductive Kind where
  | discover | initial | check
deriving DecidableEq, Repr

/-- src/client.cpp:1041-1071: the packet up to the names, into a buffer of 0x10000 bytes; the header and the count are left blank -/
def start (kind : Kind) (port : Nat) : Out :=
  let o : Out := { be := true, room := some 0x10000 }
  let o := o.write (List.replicate 8 0)
  let o := putInt o 4 0x66696e64
  let o := putU8 o (if kind = .discover then 1 else 0)
  let o := putU8 o 0
  let o := putInt o 2 0
  let o := putInt (putInt (putInt (putInt o 4 0) 4 0) 4 0) 4 0
  let o := putInt o 2 port
  let o := if kind = .discover then putU8 o 0 else putStr (putU8 o 1) [0x74, 0x63, 0x70]
  o.write [0, 0]

/-- src/client.cpp:1111-1130: which bucket is next -/
def next (c : Ctx) (idx ninc : Nat) : Nat :=
  let n := (idx + ninc) % nBuckets
  let nn := (n + 1) % nBuckets
  let a := (c.buckets n).length
  let b := (c.buckets nn).length
  if a > b ∧ a - b > 100 then nn else n

/-- src/client.cpp:1111-1130 -/
def place (kind : Kind) (poked : Bool) (idx n : Nat) (ch : Chan) (c : Ctx) : Ctx :=
  if kind = .check ∧ poked = false then
    let ninc := min nBuckets (ch.nSearch + 1)
    (c.setChan n { ch with nSearch := ninc }).push (next c idx ninc) n
  else c.push (next c idx 0) n

structure Fill where
  out : Out
  count : Nat
  left : List Nat
  ctx : Ctx

/-- src/client.cpp:1074-1135: as many names as fit.  `count` is not zero where `payload` is true. -/
def fill (kind : Kind) (poked : Bool) (idx : Nat) : List Nat → Out → Nat → Ctx → Fill
  | [], o, count, c => ⟨o, count, [], c⟩
  | n :: rest, o, count, c =>
    match c.chans n with
    | none => fill kind poked idx rest o count c
    | some ch =>
      if ch.wanted = false then fill kind poked idx rest o count c
      else
        let o' := putStr (putInt o 4 ch.cid) ch.name
        if o'.err then fill kind poked idx rest o' count c
        else if o'.data.length > maxSearchPayload ∧ count ≠ 0 then ⟨o, count, n :: rest, c⟩
        else fill kind poked idx rest o' (count + 1) (place kind poked idx n ch c)

/-- src/client.cpp:1069 `pcount` -/
def countAt (kind : Kind) : Nat := if kind = .discover then 35 else 39

/-- src/client.cpp:1141-1149: header and count are filled in -/
def finish (kind : Kind) (o : Out) (count : Nat) : List Byte :=
  (putHeader { be := true } ⟨3, 0, 0, o.data.length - 8⟩).data ++ (o.data.drop 8).take (countAt kind - 8) ++ wireBytes true 2 count ++
    o.data.drop (countAt kind + 2)

/-- src/client.cpp:1035-1205: the packets.  The first argument limits the number of rounds. -/
def loop (kind : Kind) (poked : Bool) (port idx : Nat) : Nat → List Nat → Ctx → List (List Byte) × Ctx
  | 0, _, c => ([], c)
  | f+1, bucket, c =>
    if bucket = [] ∧ kind ≠ .discover then ([], c)
    else
      let r := fill kind poked idx bucket (start kind port) 0 c
      if r.out.err then ([], { r.ctx with aborted := true })
      else if r.count = 0 ∧ kind ≠ .discover then ([], r.ctx)
      else
        let pkt := finish kind r.out r.count
        if kind = .discover then ([pkt], r.ctx)
        else
          let l := loop kind poked port idx f r.left r.ctx
          (pkt :: l.1, l.2)

/-- src/client.cpp:1011-1206 `tickSearch` -/
def tickSearch (kind : Kind) (poked : Bool) (port : Nat) (c : Ctx) : List (List Byte) × Ctx :=
  let idx := c.cur
  match kind with
  | .discover => loop kind poked port idx 1 [] c
  | .initial => loop kind poked port idx (c.initial.length + 1) c.initial { c with initial := [] }
  | .check => loop kind poked port idx ((c.buckets idx).length + 1) (c.buckets idx)
      { c with cur := (c.cur + 1) % nBuckets, buckets := fun i => if i = idx then [] else c.buckets i }

/-- src/client.cpp:1151-1158: as sent to one destination -/
def udpBytes (ucast : Bool) (pkt : List Byte) : List Byte :=
  pkt.take 12 ++ ((pkt.drop 12).take 1).map (fun b => if ucast then b ||| 0x80 else b &&& 0x7f) ++ pkt.drop 13

/-- src/client.cpp:1182-1202: as sent to a name server, after it was sent by UDP -/
def tcpBytes (pkt : List Byte) : List Byte :=
  pkt.take 12 ++ ((pkt.drop 12).take 1).map (fun b => b ||| 0x80) ++ (pkt.drop 13).take 19 ++ [0, 0] ++ pkt.drop 34

inductive Op where
  /-- src/client.cpp:351-393 `Channel::build`, which is not in the cache -/
  | build (n cid : Nat) (name : Str) (forced : Bool)
  /-- tickSearch() -/
  | tick (poked : Bool)
  | initial
  | discover
  /-- src/client.cpp:890-905: a reply to the search -/
  | found (n : Nat)
  /-- src/clientconn.cpp:82-120 `createChannels` -/
  | request (n : Nat)
  /-- src/clientconn.cpp:373-400: a reply of the server -/
  | accepted (n : Nat)
  | refused (n : Nat)
  /-- src/client.cpp:150-225 `Channel::disconnect`: the connection is lost, the server closes the channel, or cacheClear() with `Disconnect` -/
  | detach (n : Nat)
  /-- the last reference is gone -/
  | drop (n : Nat)
deriving DecidableEq, Repr

/-- the state of one channel, if it is still there, is changed -/
def Ctx.move (c : Ctx) (n : Nat) (f : Chan → Option St) : Ctx := match c.chans n with
  | none => c
  | some ch => if ch.alive = false then c else match f ch with
    | none => c
    | some s => c.setChan n { ch with st := s }

/-- one event, and the packets -/
def step (port : Nat) (c : Ctx) : Op → List (List Byte) × Ctx
  | .build n cid name forced =>
    if (c.chans n).isSome then ([], c)
    else if forced then ([], c.setChan n { cid := cid, name := name, forced := true, st := .connecting })
    else ([], { c.setChan n { cid := cid, name := name } with initial := c.initial ++ [n] })
  | .tick poked => tickSearch .check poked port c
  | .initial => tickSearch .initial false port c
  | .discover => tickSearch .discover false port c
  | .found n => ([], c.move n fun ch => if ch.st = .searching then some .connecting else none)
  | .request n => ([], c.move n fun ch => if ch.st = .connecting then some .creating else none)
  | .accepted n => ([], c.move n fun ch => if ch.st = .creating then some .active else none)
  | .refused n => match c.chans n with
    | none => ([], c)
    | some ch => if ch.alive && ch.st == .creating then ([], (c.setChan n { ch with st := .searching }).push c.cur n) else ([], c)
  | .detach n => match c.chans n with
    | none => ([], c)
    | some ch =>
      if ch.alive = false then ([], c)
      else if ch.forced then ([], c.setChan n { ch with st := .connecting })
      else ([], (c.setChan n { ch with st := .searching }).push ((c.cur + if ch.st = .connecting then 10 else 0) % nBuckets) n)
  | .drop n => match c.chans n with
    | none => ([], c)
    | some ch => ([], c.setChan n { ch with alive := false })

/-- after an assert() fails nothing happens any more -/
def run (port : Nat) : List Op → Ctx → List (List Byte) × Ctx
  | [], c => ([], c)
  | o :: l, c =>
    if c.aborted then ([], c)
    else
      let r := step port c o
      let r' := run port l r.2
      (r.1 ++ r'.1, r'.2)

end Pvxs.Search
