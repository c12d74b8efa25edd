import Verif.Model.Udp
import Verif.Model.SMap
/-
Which servers a client knows from beacons: src/client.cpp:58-66,705-830,1208-1228,1241-1275, src/clientdiscover.cpp:23-115.

Simplifications: times are whole nanoseconds, and the clock can always be read; `beaconTrack` is a list with one entry for each key and events of one
sweep come in its order, which need not be that of std::map; beacons and timers, which come from two threads, take turns as by `pokeLock`; so do
starting and ending to listen, which in the code happens without this lock; callbacks return.
-/
namespace Pvxs.Beacon
open Wire Udp

/-- src/client.cpp:62 `beaconTrackLimit` -/
def trackLimit : Nat := 20000

def second : Int := 1000000000

/-- src/client.cpp:65 `beaconCleanInterval` -/
def cleanInterval : Int := 180 * second

/-- src/client.cpp:60 `pokeHoldoff` -/
def holdoff : Int := 30 * second

/-- src/udp_collector.h:31-42 `UDPManager::Beacon` -/
structure Msg where
  src : Ep
  server : Ep
  proto : Str
  guid : List Byte
  version : Byte
deriving DecidableEq, Repr

abbrev Key := Ep × Str

def Msg.key (m : Msg) : Key := (m.server, m.proto)

/-- src/clientimpl.h:280-285 `BeaconInfo`; the sender is not used -/
structure Info where
  guid : List Byte
  version : Byte
  time : Int
deriving DecidableEq, Repr

/-- src/pvxs/client.h:956-975 `Discovered` -/
structure Event where
  online : Bool
  version : Byte
  /-- none is "" -/
  peer : Option Ep
  key : Key
  guid : List Byte
  time : Int
deriving DecidableEq, Repr

structure St where
  track : List (Key × Info) := []
  nPoked : Nat := 0
  lastPoke : Int := 0
  listeners : List Nat := []
deriving DecidableEq, Repr

/-- src/client.cpp:705-728 `poke`; whether the search timer is to fire at once -/
def poke (now : Int) (s : St) : Bool × St :=
  if s.nPoked ≠ 0 then (false, s)
  else if now - s.lastPoke < holdoff then (false, s)
  else (true, { s with lastPoke := now, nPoked := 30 })

def lookup (k : Key) (l : List (Key × Info)) : Option Info := (l.find? fun x => x.1 = k).map (·.2)

def update (k : Key) (i : Info) (l : List (Key × Info)) : List (Key × Info) := l.map fun x => if x.1 = k then (k, i) else x

/-- src/client.cpp:742-823 `onBeacon`; the events, and whether the search timer is to fire at once -/
def onBeacon (now : Int) (m : Msg) (s : St) : List Event × Bool × St :=
  let up : Event := { online := true, version := m.version, peer := some m.src, key := m.key, guid := m.guid, time := now }
  let i : Info := { guid := m.guid, version := m.version, time := now }
  match lookup m.key s.track with
  | none =>
    if s.track.length ≥ trackLimit then ([], false, s)
    else
      let p := poke now { s with track := s.track ++ [(m.key, i)] }
      ([up], p.1, p.2)
  | some cur =>
    let s' := { s with track := update m.key i s.track }
    if cur.guid ≠ m.guid ∨ cur.version ≠ m.version then
      let p := poke now s'
      ([{ online := false, version := cur.version, peer := some m.src, key := m.key, guid := cur.guid, time := now }, up], p.1, p.2)
    else ([], false, s')

/-- src/client.cpp:1253-1255 -/
def lost (now : Int) (i : Info) : Bool := decide (now - i.time < -(15 * second)) || decide (now - i.time > 2 * cleanInterval)

/-- src/client.cpp:1241-1275 `tickBeaconClean` -/
def clean (now : Int) (s : St) : List Event × St :=
  ((s.track.filter fun x => lost now x.2).map fun x =>
    { online := false, version := x.2.version, peer := none, key := x.1, guid := x.2.guid, time := now },
   { s with track := s.track.filter fun x => !lost now x.2 })

inductive Op where
  | beacon (now : Int) (m : Msg)
  | clean (now : Int)
  /-- `Context::hurryUp` -/
  | hurryUp (now : Int)
  /-- src/client.cpp:1208-1220 `tickSearchS`, as far as it is about poke() -/
  | tick
  /-- src/clientdiscover.cpp:70-90 -/
  | listen (n : Nat)
  /-- src/clientdiscover.cpp:30-48,62-72 -/
  | unlisten (n : Nat)
deriving DecidableEq, Repr

structure Eff where
  events : List Event := []
  /-- src/client.cpp:96-115 `serverEvent`: who gets which event -/
  heard : List (Nat × Event) := []
  /-- the search timer is to fire at once -/
  atOnce : Bool := false
  /-- this tick searches for all of the bucket without delaying the next, which follows in 0.2 instead of 1 second -/
  fast : Bool := false
deriving Repr

def tell (s : St) (l : List Event) : List (Nat × Event) := l.flatMap fun e => s.listeners.map fun n => (n, e)

def step (s : St) : Op → Eff × St
  | .beacon now m => let r := onBeacon now m s; ({ events := r.1, heard := tell s r.1, atOnce := r.2.1 }, r.2.2)
  | .clean now => let r := clean now s; ({ events := r.1, heard := tell s r.1 }, r.2)
  | .hurryUp now => let r := poke now s; ({ atOnce := r.1 }, r.2)
  | .tick => ({ fast := decide (s.nPoked ≠ 0) }, { s with nPoked := s.nPoked - 1 })
  | .listen n => ({}, { s with listeners := if n ∈ s.listeners then s.listeners else s.listeners ++ [n] })
  | .unlisten n => ({}, { s with listeners := s.listeners.filter (· ≠ n) })

def run : List Op → St → List Eff × St
  | [], s => ([], s)
  | o :: l, s =>
    let r := step s o
    let r' := run l r.2
    (r.1 :: r'.1, r'.2)

end Pvxs.Beacon
