import Verif.Model.Beacon
/-
What discovery is to report.
-/
namespace Pvxs.Spec.Beacon
open Wire Udp Pvxs.Beacon

/-- identity of a server process, and the version it speaks -/
abbrev Who := List Byte × Byte

/-- online and offline in turns, each time the same which was online goes offline.  First is which is online now. -/
def Story : Option Who → List Event → Prop
  | _, [] => True
  | none, e :: l => e.online = true ∧ Story (some (e.guid, e.version)) l
  | some w, e :: l => e.online = false ∧ (e.guid, e.version) = w ∧ Story none l

/-- which is online after these events -/
def status : Option Who → List Event → Option Who
  | w, [] => w
  | _, e :: l => status (if e.online then some (e.guid, e.version) else none) l

/-- about this server and protocol -/
def About (k : Key) (l : List Event) : List Event := l.filter fun e => e.key = k

/-- when the beacon came, if it is one of this server -/
def heardAt (k : Key) : Op → Option Int
  | .beacon now m => if (m.server, m.proto) = k then some now else none
  | _ => none

/-- when a beacon of this server came most recently; the latest is last -/
def lastHeard (k : Key) : List Op → Option Int
  | [] => none
  | o :: l => match lastHeard k l with
    | some t => some t
    | none => heardAt k o

def events (r : List Eff × St) : List Event := r.1.flatMap (·.events)

/-- what this listener was told -/
def heardBy (n : Nat) (r : List Eff × St) : List Event := (r.1.flatMap (·.heard)).filterMap fun x => if x.1 = n then some x.2 else none

/-- silent for too long, or the clock was set back -/
def Silent (now last : Int) : Prop := now - last > 360 * 1000000000 ∨ now - last < -15 * 1000000000

/-- so many servers are online that no more are looked at -/
def Full (evs : List Event) : Prop := ∃ ks : List Key, ks.Nodup ∧ 20000 ≤ ks.length ∧ ∀ k ∈ ks, (status none (About k evs)).isSome = true

/-! ### quick searching -/

/-- when this happens, if it can be a reason for quick searching -/
def pokeTime : Op → Option Int
  | .beacon now _ => some now
  | .hurryUp now => some now
  | _ => none

def isTick : Op → Bool
  | .tick => true
  | _ => false

/-- these start no quick searching -/
def Quiet (r : List Eff × St) : Prop := ∀ e ∈ r.1, e.atOnce = false

end Pvxs.Spec.Beacon
