import Verif.Lemmas.Config
import Verif.Lemmas.SMap
/-
C45 address lists, C46 timeouts and ports, C64 addresses as text, C65 configuration as text.
-/
namespace Pvxs.Props.Cfg
open Pvxs.Cfg Spec.Cfg Spec.Scl
open Wire (Byte)
open Props.Scl (C58_text_unsigned C58_text_roundtrip_unsigned says_unique)

/-! ### C45 -/

/-- Each (address, interface) is kept once, where it first occurs, with the largest time to live. -/
theorem C45_merge (l : List Endpoint) : Merged l (removeDups l) := by
  have := dedupLoop_merged l [] [] [] ⟨by simp, by simp⟩ ⟨by simp [firsts], by simp⟩
  simpa [removeDups] using this

/-- That says everything about the result. -/
theorem C45_merge_unique (l r r' : List Endpoint) (h : Merged l r) (h' : Merged l r') : r = r' := by
  have hk : r.map key = r'.map key := h.1.trans h'.1.symm
  have hlen : r.length = r'.length := by simpa using congrArg List.length hk
  apply List.ext_getElem? 
  intro i
  have hki : (r[i]?).map key = (r'[i]?).map key := by rw [← List.getElem?_map, ← List.getElem?_map, hk]
  cases hr : r[i]? with
  | none =>
    cases hr' : r'[i]? with
    | none => rfl
    | some y => rw [hr, hr'] at hki; cases hki
  | some x =>
    cases hr' : r'[i]? with
    | none => rw [hr, hr'] at hki; cases hki
    | some y =>
      rw [hr, hr'] at hki
      injection hki with hki
      have hx := h.2 x (List.mem_of_getElem? hr)
      have hy := h'.2 y (List.mem_of_getElem? hr')
      obtain ⟨⟨a, ha, ha1, ha2⟩, hxm⟩ := hx
      obtain ⟨⟨b, hb, hb1, hb2⟩, hym⟩ := hy
      have e1 := hxm b hb (by rw [hb1, hki])
      have e2 := hym a ha (by rw [ha1, hki])
      have e3 : x.ttl = y.ttl := by omega
      cases x; cases y
      simp only [key, Prod.mk.injEq] at hki
      simp only at e3
      rw [hki.1, hki.2, e3]

/-- The search destinations of a client: those given, followed by the broadcast addresses if these were asked for, merged. -/
theorem C45_client (net : Net) (c c' : Client) (h : c.expand net = some c') :
    ∃ extra r, (c.auto = false → extra = []) ∧ (∀ e ∈ extra, ∃ m, ∃ b ∈ net.broadcasts m, e.addr = atPort 0 b) ∧
      Merged (c.addressList.filterMap (parseEndpoint net · 0) ++ extra) r ∧ c'.addressList = r.map (showEndpoint net) := by
  unfold Client.expand at h
  split at h
  · cases h
  · simp only at h
    generalize (if parseAddresses net c.interfaces = [] then [({ addr := .v4 0 0 } : Endpoint)] else parseAddresses net c.interfaces) = ifs at h
    cases ha : c.auto with
    | false =>
      rw [ha] at h
      injection h with h
      exact ⟨[], removeDups (parseAddresses net c.addressList), fun _ => rfl, by simp,
        by simpa [parseAddresses] using C45_merge (parseAddresses net c.addressList), by rw [← h]; rfl⟩
    | true =>
      rw [ha] at h
      injection h with h
      refine ⟨(ifs.flatMap (bcastOf net)).map fun a => { addr := (a.setPort 0).getD a }, removeDups (expandAddrList net ifs (parseAddresses net c.addressList)),
        by simp, ?_, ?_, by rw [← h]; rfl⟩
      · intro e he
        obtain ⟨b, hb, rfl⟩ := List.mem_map.mp he
        obtain ⟨i, _, hi⟩ := List.mem_flatMap.mp hb
        have : ∃ m, b ∈ net.broadcasts m := by
          unfold bcastOf at hi
          split at hi
          · exact ⟨_, hi⟩
          · split at hi
            · exact ⟨_, hi⟩
            · cases hi
          · cases hi
        obtain ⟨m, hm⟩ := this
        exact ⟨m, b, hm, by cases b <;> rfl⟩
      · exact C45_merge _

/-- The beacon destinations of a server, likewise. -/
theorem C45_server (net : Net) (c : Server) :
    ∃ extra r, (c.auto = false → extra = []) ∧ (∀ e ∈ extra, ∃ m, ∃ b ∈ net.broadcasts m, e.addr = atPort 0 b) ∧
      Merged (c.beaconDestinations.filterMap (parseEndpoint net · 0) ++ extra) r ∧
      (c.expand net).beaconDestinations = r.map (showEndpoint net) := by
  unfold Server.expand
  simp only
  generalize groupIfaces net (if parseAddresses net c.interfaces = [] then [({ addr := .v4 0 0 } : Endpoint)] else parseAddresses net c.interfaces) = ifs
  cases ha : c.auto with
  | false =>
    exact ⟨[], removeDups (parseAddresses net c.beaconDestinations), fun _ => rfl, by simp,
      by simpa [parseAddresses] using C45_merge (parseAddresses net c.beaconDestinations), rfl⟩
  | true =>
    refine ⟨(ifs.flatMap (bcastOf net)).map fun a => { addr := (a.setPort 0).getD a }, removeDups (expandAddrList net ifs (parseAddresses net c.beaconDestinations)),
      by simp, ?_, C45_merge _, rfl⟩
    intro e he
    obtain ⟨b, hb, rfl⟩ := List.mem_map.mp he
    obtain ⟨i, _, hi⟩ := List.mem_flatMap.mp hb
    have : ∃ m, b ∈ net.broadcasts m := by
      unfold bcastOf at hi
      split at hi
      · exact ⟨_, hi⟩
      · split at hi
        · exact ⟨_, hi⟩
        · cases hi
      · cases hi
    obtain ⟨m, hm⟩ := this
    exact ⟨m, b, hm, by cases b <;> rfl⟩

/-- 224.0.0.1,1 then 10.0.0.1 then 224.0.0.1,5 then 10.0.0.1: the first two remain, with a time to live of five -/
example : removeDups [⟨.v4 0xe0000001 0, 1, []⟩, ⟨.v4 0x0a000001 0, -1, []⟩, ⟨.v4 0xe0000001 0, 5, []⟩, ⟨.v4 0x0a000001 0, -1, []⟩] =
    [⟨.v4 0xe0000001 0, 5, []⟩, ⟨.v4 0x0a000001 0, -1, []⟩] := by decide

/-! ### C46 -/

theorem enforce_usable (t : Dbl) : Usable (enforceTimeout t) ∧ (Usable t → enforceTimeout t = t) := by
  constructor
  · unfold enforceTimeout
    have h40 : Usable (.fin 40) := ⟨40, rfl, by decide, by decide⟩
    split
    · exact h40
    · exact h40
    · rename_i q
      split
      · exact h40
      · rename_i h
        split
        · exact ⟨2, rfl, by decide, by decide⟩
        · rename_i h2
          refine ⟨q, rfl, Rat.not_lt.mp h2, Rat.not_le.mp fun hx => h (Or.inr hx)⟩
  · rintro ⟨q, rfl, h1, h2⟩
    unfold enforceTimeout
    simp only
    rw [if_neg, if_neg (Rat.not_lt.mpr h1)]
    rintro (h | h)
    · exact absurd (Rat.le_trans h1 h) (by decide)
    · exact absurd h (Rat.not_le.mpr h2)

/-- The timeout in effect is finite, at least two seconds and fits time_t; one which already was is not changed. -/
theorem C46_timeout (net : Net) :
    (∀ c : Server, Usable (c.expand net).tcpTimeout ∧ (Usable c.tcpTimeout → (c.expand net).tcpTimeout = c.tcpTimeout)) ∧
    (∀ c c' : Client, c.expand net = some c' → Usable c'.tcpTimeout ∧ (Usable c.tcpTimeout → c'.tcpTimeout = c.tcpTimeout)) := by
  refine ⟨fun c => enforce_usable c.tcpTimeout, fun c c' h => ?_⟩
  unfold Client.expand at h
  split at h
  · cases h
  · injection h with h
    subst h
    exact enforce_usable c.tcpTimeout

example : enforceTimeout .nan = .fin 40 ∧ enforceTimeout (.fin (-1)) = .fin 40 ∧ enforceTimeout (.fin 1) = .fin 2 ∧
    enforceTimeout (.fin 7) = .fin 7 := by decide

theorem pickOne_two (defs : Defs) (a b : Name) (v : Str) : pickOne defs [a, b] = some v ↔ Setting defs a b v := by
  unfold Setting
  simp only [pickOne]
  cases defs a with
  | some x => simp
  | none => cases defs b <;> simp

theorem applyPort_says (dest : Nat) (v : Str) (p : Nat) (h : SaysPort v p) : applyPort dest (some v) = p := by
  obtain ⟨h1, h2⟩ := h
  have : parseU64 v = some p := (C58_text_unsigned v p).mpr ⟨false, p, h1, by omega, rfl⟩
  simp only [applyPort, this]
  omega

theorem applyPort_nothing (dest : Nat) (v : Str) (h : SaysNothing v) : applyPort dest (some v) = dest := by
  have : parseU64 v = none := by
    cases hp : parseU64 v with
    | none => rfl
    | some n =>
      obtain ⟨neg, m, h1, h2, _⟩ := (C58_text_unsigned v n).mp hp
      have := h neg m h1
      omega
  simp only [applyPort, this]

/-- A port number below 65536 is used as given, one which is no number leaves the port as it was, and so does not setting it.
The full claim fails for greater numbers: `C46_wrap`. -/
theorem C46_server_ports_partial (net : Net) (flt : Flt) (self c : Server) (defs : Defs) (h : self.fromDefs net flt defs = some c) :
    (∀ v p, Setting defs .pvasServerPort .pvaServerPort v → SaysPort v p → c.tcpPort = p) ∧
    (∀ v p, Setting defs .pvasBroadcastPort .pvaBroadcastPort v → SaysPort v p → c.udpPort = p) ∧
    (∀ v, Setting defs .pvasServerPort .pvaServerPort v → SaysNothing v → c.tcpPort = self.tcpPort) ∧
    (∀ v, Setting defs .pvasBroadcastPort .pvaBroadcastPort v → SaysNothing v → c.udpPort = self.udpPort) ∧
    (defs .pvasServerPort = none → defs .pvaServerPort = none → c.tcpPort = self.tcpPort) ∧
    (defs .pvasBroadcastPort = none → defs .pvaBroadcastPort = none → c.udpPort = self.udpPort) := by
  have hc : c.tcpPort = applyPort self.tcpPort (pickOne defs [.pvasServerPort, .pvaServerPort]) ∧
      c.udpPort = applyPort self.udpPort (pickOne defs [.pvasBroadcastPort, .pvaBroadcastPort]) := by
    unfold Server.fromDefs at h
    simp only [Option.bind_eq_some_iff, Option.map_eq_some_iff] at h
    obtain ⟨_, _, _, _, _, _, rfl⟩ := h
    exact ⟨rfl, rfl⟩
  rw [hc.1, hc.2]
  refine ⟨?_, ?_, ?_, ?_, ?_, ?_⟩
  · intro v p h1 h2; rw [(pickOne_two _ _ _ _).mpr h1]; exact applyPort_says _ _ _ h2
  · intro v p h1 h2; rw [(pickOne_two _ _ _ _).mpr h1]; exact applyPort_says _ _ _ h2
  · intro v h1 h2; rw [(pickOne_two _ _ _ _).mpr h1]; exact applyPort_nothing _ _ h2
  · intro v h1 h2; rw [(pickOne_two _ _ _ _).mpr h1]; exact applyPort_nothing _ _ h2
  · intro h1 h2; simp [pickOne, h1, h2, applyPort]
  · intro h1 h2; simp [pickOne, h1, h2, applyPort]

/-- A client: likewise, except that the search port is never 0, nor is the server port when name servers are known. -/
theorem C46_client_ports_partial (net : Net) (flt : Flt) (self : Client) (defs : Defs) :
    let c := self.fromDefs net flt defs
    (∀ v p, defs .pvaBroadcastPort = some v → SaysPort v p → c.udpPort = if p = 0 then 5076 else p) ∧
    (∀ v p, Setting defs .pvaServerPort .pvasServerPort v → SaysPort v p →
      c.tcpPort = if p = 0 ∧ self.nameServers ≠ [] then 5075 else p) ∧
    (∀ v, defs .pvaBroadcastPort = some v → SaysNothing v → c.udpPort = if self.udpPort = 0 then 5076 else self.udpPort) ∧
    (∀ v, Setting defs .pvaServerPort .pvasServerPort v → SaysNothing v →
      c.tcpPort = if self.tcpPort = 0 ∧ self.nameServers ≠ [] then 5075 else self.tcpPort) ∧
    c.udpPort ≠ 0 ∧ ∀ c', c.expand net = some c' → c'.tcpPort ≠ 0 ∧ c'.udpPort = c.udpPort ∧ (c.tcpPort ≠ 0 → c'.tcpPort = c.tcpPort) := by
  refine ⟨?_, ?_, ?_, ?_, ?_, ?_⟩
  · intro v p h1 h2
    have : pickOne defs [.pvaBroadcastPort] = some v := by simp [pickOne, h1]
    simp only [Client.fromDefs, this, applyPort_says _ _ _ h2]
  · intro v p h1 h2
    simp only [Client.fromDefs, (pickOne_two _ _ _ _).mpr h1, applyPort_says _ _ _ h2]
  · intro v h1 h2
    have : pickOne defs [.pvaBroadcastPort] = some v := by simp [pickOne, h1]
    simp only [Client.fromDefs, this, applyPort_nothing _ _ h2]
  · intro v h1 h2
    simp only [Client.fromDefs, (pickOne_two _ _ _ _).mpr h1, applyPort_nothing _ _ h2]
  · simp only [Client.fromDefs]
    split
    · decide
    · assumption
  · generalize self.fromDefs net flt defs = c
    intro c' h
    unfold Client.expand at h
    split at h
    · cases h
    · injection h with h
      subst h
      refine ⟨?_, rfl, ?_⟩
      · simp only; split
        · decide
        · assumption
      · intro h; simp only; rw [if_neg h]

/-- A server told to use port 70000 uses port 4464; told to use port -1 it uses port 65535. -/
theorem C46_wrap (net : Net) (flt : Flt) :
    Says [0x37, 0x30, 0x30, 0x30, 0x30] false 70000 ∧
    (({} : Server).fromDefs net flt fun n => if n = .pvaServerPort then some [0x37, 0x30, 0x30, 0x30, 0x30] else none).map (·.tcpPort) = some 4464 ∧
    (({} : Server).fromDefs net flt fun n => if n = .pvaServerPort then some [0x2d, 0x31] else none).map (·.tcpPort) = some 65535 := by
  refine ⟨?_, rfl, rfl⟩
  have : showNat 70000 = [0x37, 0x30, 0x30, 0x30, 0x30] := by simp [showNat]
  rw [← this]
  exact showNat_says 70000

/-! ### C64 -/

/-- An endpoint whose interface, if any, has a name which is not itself an address, nor contains a comma. -/
def Named (net : Net) (e : Endpoint) : Prop :=
  (0x2c : Byte) ∉ e.iface ∧ net.pton4 e.iface = none

theorem fixIface_named {net : Net} {e : Endpoint} (h : net.pton4 e.iface = none) : fixIface net e = e := by
  unfold fixIface
  split
  · split
    · rw [h]
    · rfl
  · rfl

theorem fixIface_named' {net : Net} {a : SockAddr} {t : Int} {i : Str} (h : net.pton4 i = none) :
    fixIface net { addr := a, ttl := t, iface := i } = { addr := a, ttl := t, iface := i } := fixIface_named h

theorem fixIface_nil (net : Net) (a : SockAddr) (t : Int) : fixIface net { addr := a, ttl := t, iface := [] } = { addr := a, ttl := t, iface := [] } := by
  unfold fixIface
  split
  · rw [if_neg (by simp)]
  · rfl

theorem multicast_atPort (p : Nat) (a : SockAddr) : (atPort p a).isMCast = a.isMCast := by
  cases a <;> rfl

/-- An address as it is printed is accepted, and packets go to the same place; without a port it gets the default port.
The full claim fails for a time to live of 0: `C64_ttl_zero`. -/
theorem C64_partial (net : Net) (hn : Standard net) (e : Endpoint) (hv : Valid e.addr) (hi : Named net e)
    (ht : Multicast e.addr → -2 ^ 31 ≤ e.ttl ∧ e.ttl < 2 ^ 31 ∧ e.ttl ≠ 0) (d : Nat) :
    ∃ e', parseEndpoint net (showEndpoint net e) d = some e' ∧
      SameDest { e with addr := if e.addr.port = 0 then atPort d e.addr else e.addr } e' := by
  have hm := mcast_iff e.addr hv
  have h := parseEndpoint_show hn e hv (fun hx => ⟨(ht (hm.mp hx)).1, (ht (hm.mp hx)).2.1⟩) (fun _ => hi.1) d
  refine ⟨_, h, ?_⟩
  have hmm : Multicast (if e.addr.port = 0 then atPort d e.addr else e.addr) → Multicast e.addr := by
    split
    · intro hx; cases ha : e.addr <;> rw [ha] at hx <;> exact hx
    · exact id
  cases hb : e.addr.isMCast with
  | true =>
    simp only [true_and, if_true]
    rw [if_pos (ht (hm.mp hb)).2.2, fixIface_named' hi.2]
    exact ⟨rfl, fun _ => ⟨rfl, rfl⟩⟩
  | false =>
    have hno : ¬ Multicast e.addr := fun hx => by rw [hm.mpr hx] at hb; cases hb
    simp only [Bool.false_eq_true, false_and, if_false]
    refine ⟨?_, fun hx => absurd (hmm hx) hno⟩
    rw [fixIface_nil]

/-- For any multicast address, a time to live of 0 is lost: it is read back as -1. -/
theorem C64_ttl_zero (net : Net) (hn : Standard net) (e : Endpoint) (hv : Valid e.addr) (hi : Named net e) (hm : Multicast e.addr)
    (h0 : e.ttl = 0) : ∃ e', parseEndpoint net (showEndpoint net e) 0 = some e' ∧ e'.ttl = -1 ∧ ¬ SameDest e e' := by
  have hb := (mcast_iff e.addr hv).mpr hm
  have h := parseEndpoint_show hn e hv (fun _ => by rw [h0]; decide) (fun _ => hi.1) 0
  refine ⟨_, h, ?_⟩
  simp only [hb, true_and, if_true, h0, ne_eq, not_true_eq_false, if_false]
  rw [fixIface_named' hi.2]
  refine ⟨rfl, fun hs => ?_⟩
  have := (hs.2 hm).1
  rw [h0] at this
  cases this

/-- A host name without an IPv4 address means 0.0.0.0. -/
theorem C64_host_v6 (net : Net) (name : Str) (d ip p : Nat) (hc : (0x3a : Byte) ∉ name) (ho : (0x5b : Byte) ∉ name) (hb : (0x5d : Byte) ∉ name)
    (hp : net.pton4 name = none) (hr : net.resolve name = some [.v6 ip p]) : setAddress net name d = some (.v4 0 d) := by
  have hb' : name.contains 0x5d = false := by rw [Bool.eq_false_iff, ne_eq, List.contains_iff_mem]; exact hb
  simp [setAddress, splitFirst_none.mpr ho, splitFirst_none.mpr hc, hb', hb, lookupAddr, hp, hr, pick, withPort, SockAddr.setPort]

/-- A host name with an IPv4 address means the first of these. -/
theorem C64_host (net : Net) (name : Str) (d ip p : Nat) (before after : List SockAddr) (hc : (0x3a : Byte) ∉ name)
    (ho : (0x5b : Byte) ∉ name) (hb : (0x5d : Byte) ∉ name) (hp : net.pton4 name = none)
    (hn : ∀ a ∈ before, ∀ i q, a ≠ .v4 i q) (hr : net.resolve name = some (before ++ .v4 ip p :: after)) :
    setAddress net name d = some (.v4 ip d) := by
  have hb' : name.contains 0x5d = false := by rw [Bool.eq_false_iff, ne_eq, List.contains_iff_mem]; exact hb
  have hpick : ∀ temp : SockAddr, pick temp (before ++ .v4 ip p :: after) = .v4 ip p := by
    clear hr
    induction before with
    | nil => intro temp; rfl
    | cons a l ih =>
      intro temp
      have ih := ih (fun x hx => hn x (List.mem_cons_of_mem _ hx))
      cases a with
      | unspec => rw [List.cons_append, pick]; exact ih _
      | v4 i q => exact absurd rfl (hn _ (List.mem_cons_self ..) i q)
      | v6 i q =>
        rw [List.cons_append, pick]
        split <;> exact ih _
  simp [setAddress, splitFirst_none.mpr ho, splitFirst_none.mpr hc, hb', hb, lookupAddr, hp, hr, hpick, withPort, SockAddr.setPort]

/-- IPv4 addresses as four numbers and three dots -/
def quad (a : Nat) : Str :=
  showNat (a / 2 ^ 24 % 256) ++ 0x2e :: (showNat (a / 2 ^ 16 % 256) ++ 0x2e :: (showNat (a / 2 ^ 8 % 256) ++ 0x2e :: showNat (a % 256)))

def octet (s : Str) : Option Nat := (parseU64 s).bind fun n => if n < 256 then some n else none

def unquad (s : Str) : Option Nat :=
  (splitFirst 0x2e s).bind fun a => (splitFirst 0x2e a.2).bind fun b => (splitFirst 0x2e b.2).bind fun c =>
    (octet a.1).bind fun w => (octet b.1).bind fun x => (octet c.1).bind fun y => (octet c.2).map fun z =>
      w * 2 ^ 24 + x * 2 ^ 16 + y * 2 ^ 8 + z

theorem octet_show (n : Nat) : octet (showNat (n % 256)) = some (n % 256) := by
  unfold octet
  rw [C58_text_roundtrip_unsigned _ (by omega), Option.bind_some, if_pos (by omega)]

theorem unquad_quad (a : Nat) (h : a < 2 ^ 32) : unquad (quad a) = some a := by
  have hd : ∀ n, (0x2e : Byte) ∉ showNat n := fun n => byte_ne (p := fun n => 0x30 ≤ n ∧ n ≤ 0x39) (showNat_chars n) 0x2e (by decide)
  unfold unquad quad
  rw [splitFirst_mid _ (hd _), Option.bind_some]
  simp only
  rw [splitFirst_mid _ (hd _), Option.bind_some]
  simp only
  rw [splitFirst_mid _ (hd _), Option.bind_some]
  simp only [octet_show, Option.bind_some, Option.map_some]
  congr 1
  omega

theorem showNat_len (n : Nat) (k : Nat) (h : n < 10 ^ (k + 1)) : (showNat n).length ≤ k + 1 := by
  induction k generalizing n with
  | zero => rw [showNat, if_pos (by omega)]; simp
  | succ k ih =>
    rw [showNat]
    split
    · simp
    · rw [List.length_append, List.length_singleton]
      have := ih (n / 10) (by rw [Nat.pow_succ] at h; omega)
      omega

/-- an operating system with one network interface eth0, and a host name "a" which has only an IPv6 address.  IPv6 addresses are
written as one number, for simplicity. -/
def demo : Net where
  pton4 := unquad
  ntop4 := quad
  pton6 := fun s => if showNat (digitsVal 10 s) = s then some (digitsVal 10 s) else none
  ntop6 := showNat
  resolve := fun s => if s = [0x61] then some [.v6 1 0] else none
  nameOf := fun _ => []
  addressOf := fun _ => .unspec
  externals := [[0x65, 0x74, 0x68, 0x30]]
  broadcasts := fun _ => [.v4 0x0a0000ff 0]

theorem demo_standard : Standard demo where
  back4 := unquad_quad
  back6 := by
    intro a _
    have := ((digits_iff (by omega) _ _).mp (showNat_digits a)).2.2
    simp [demo, this]
  chars4 := by
    intro a c hc
    have h := fun n => showNat_chars n c
    simp only [demo, quad, List.mem_append, List.mem_cons] at hc
    rcases hc with hc | rfl | hc | rfl | hc | rfl | hc
    · have := h _ hc; omega
    · decide
    · have := h _ hc; omega
    · decide
    · have := h _ hc; omega
    · decide
    · have := h _ hc; omega
  chars6 := by
    intro a c hc
    have := showNat_chars a c hc
    omega
  size4 := by
    intro a _
    have h : ∀ n, (showNat (n % 256)).length ≤ 3 := fun n => showNat_len _ 2 (by omega)
    have h1 := h (a / 2 ^ 24); have h2 := h (a / 2 ^ 16); have h3 := h (a / 2 ^ 8); have h4 := h a
    refine ⟨?_, ?_⟩
    · simp only [demo, quad]
      exact fun h => by simp at h
    · simp only [demo, quad, List.length_append, List.length_cons]
      omega
  size6 := by
    intro a ha
    have := showNat_len a 44 (by omega)
    simpa [demo] using this

example : Named demo ⟨.v4 0xe0000001 5076, 3, [0x65, 0x74, 0x68, 0x30]⟩ ∧ Valid (.v4 0xe0000001 5076) ∧ Multicast (.v4 0xe0000001 5076) := by
  refine ⟨⟨by decide, by decide⟩, by simp [Valid], by simp [Multicast]⟩

example : setAddress demo [0x61] 5075 = some (.v4 0 5075) :=
  C64_host_v6 demo _ _ 1 0 (by decide) (by decide) (by decide) (by decide) (by decide)

/-! ### C65 -/

theorem insertU_mem (a b : Str) (l : List Str) : b ∈ insertU a l ↔ b = a ∨ b ∈ l := by
  induction l with
  | nil => simp [insertU]
  | cons x l ih =>
    unfold insertU
    split
    · rename_i h; subst h; simp
    · split
      · simp
      · simp only [List.mem_cons, ih]; constructor <;> (rintro (h | h | h) <;> simp [h])

theorem insertU_sorted (a : Str) (l : List Str) (h : l.Pairwise (strLt · · = true)) : (insertU a l).Pairwise (strLt · · = true) := by
  induction l with
  | nil => simp [insertU]
  | cons x l ih =>
    rw [List.pairwise_cons] at h
    unfold insertU
    split
    · exact List.pairwise_cons.mpr h
    · split
      · rename_i hlt
        refine List.pairwise_cons.mpr ⟨?_, List.pairwise_cons.mpr h⟩
        intro b hb
        rcases List.mem_cons.mp hb with rfl | hb
        · exact hlt
        · exact strLt_trans hlt (h.1 b hb)
      · rename_i hne hlt
        refine List.pairwise_cons.mpr ⟨?_, ih h.2⟩
        intro b hb
        rcases (insertU_mem a b l).mp hb with rfl | hb
        · exact (strLt_total hne).resolve_left hlt
        · exact h.1 b hb

theorem sortU_spec (l : List Str) : (∀ a, a ∈ sortU l ↔ a ∈ l) ∧ (sortU l).Pairwise (strLt · · = true) := by
  induction l with
  | nil => exact ⟨by simp [sortU], by simp [sortU]⟩
  | cons a l ih =>
    refine ⟨fun b => ?_, insertU_sorted a _ ih.2⟩
    show b ∈ insertU a (sortU l) ↔ _
    rw [insertU_mem, ih.1, List.mem_cons]

theorem plain_sep {w : Str} (h : Plain w) : ∀ c ∈ w, isSep c = false := by
  intro c hc
  have := h.2 c hc
  unfold isSep
  have hne : ∀ n : Byte, c.toNat ≠ n.toNat → (c == n) = false := by
    intro n hx; rw [beq_eq_false_iff_ne]; exact fun hy => hx (by rw [hy])
  rw [hne 0x20 this.1, hne 9 this.2.1, hne 13 this.2.2.2, hne 10 this.2.2.1]
  rfl

/-- a word followed by nothing or by a blank -/
theorem words_cons (w s : Str) (hne : w ≠ []) (hw : ∀ c ∈ w, isSep c = false) (hs : s = [] ∨ ∃ c r, s = c :: r ∧ isSep c = true) :
    words (w ++ s) = w :: words s := by
  induction w with
  | nil => exact absurd rfl hne
  | cons c w ih =>
    have hc := hw c (List.mem_cons_self ..)
    rw [List.cons_append, words, hc, if_neg (by decide)]
    cases w with
    | nil =>
      rcases hs with rfl | ⟨d, r, rfl, hd⟩
      · rfl
      · simp only [List.nil_append, atSep, hd, addChar]
    | cons d w =>
      have hd := hw d (List.mem_cons_of_mem _ (List.mem_cons_self ..))
      have ih := ih (by simp) (fun x hx => hw x (List.mem_cons_of_mem _ hx))
      rw [ih]
      simp only [List.cons_append, atSep, hd, addChar]

theorem words_join (l : List Str) (h : ∀ w ∈ l, Plain w) : words (joinAddr l) = l := by
  induction l with
  | nil => rfl
  | cons a l ih =>
    have ha := h a (List.mem_cons_self ..)
    have ih := ih (fun w hw => h w (List.mem_cons_of_mem _ hw))
    cases l with
    | nil =>
      have := words_cons a [] ha.1 (plain_sep ha) (Or.inl rfl)
      simpa [joinAddr, words] using this
    | cons b l =>
      show words (a ++ [0x20] ++ joinAddr (b :: l)) = _
      rw [List.append_assoc, List.singleton_append, words_cons a _ ha.1 (plain_sep ha) (Or.inr ⟨0x20, _, rfl, by decide⟩)]
      rw [words, if_pos (by decide), ih]

theorem atPort_self (a : SockAddr) (h : a.port = 0) : atPort 0 a = a := by
  cases a with
  | unspec => rfl
  | v4 ip p => simp only [SockAddr.port] at h; subst h; rfl
  | v6 ip p => simp only [SockAddr.port] at h; subst h; rfl

theorem setPort_valid (d : Nat) (a : SockAddr) (h : Valid a) : a.setPort d = some (atPort d a) := by
  cases a with
  | unspec => exact absurd h (by simp [Valid])
  | v4 ip p => rfl
  | v6 ip p => rfl

theorem showEndpoint_congr (net : Net) (a : SockAddr) (t t' : Int) (i i' : Str)
    (h : a.isMCast = true → t = t' ∧ i = i') : showEndpoint net ⟨a, t, i⟩ = showEndpoint net ⟨a, t', i'⟩ := by
  unfold showEndpoint
  cases hm : a.isMCast with
  | false => simp
  | true =>
    obtain ⟨rfl, rfl⟩ := h hm
    rfl

theorem normalize_show {net : Net} (hn : Standard net) {e : Endpoint} (h : Steady net e) (d : Nat) :
    normalize net d (showEndpoint net e) = some (showEndpoint net (orPort d e)) := by
  have hm := mcast_iff e.addr h.valid
  have hp := parseEndpoint_show hn e h.valid (fun hx => ⟨(h.ttl (hm.mp hx)).1, (h.ttl (hm.mp hx)).2.1⟩) (fun _ => h.comma) 0
  have ha : (if e.addr.port = 0 then atPort 0 e.addr else e.addr) = e.addr := by
    split
    · exact atPort_self _ (by assumption)
    · rfl
  rw [ha] at hp
  have hf : fixIface net { addr := e.addr, ttl := if e.addr.isMCast ∧ e.ttl ≠ 0 then e.ttl else -1, iface := if e.addr.isMCast then e.iface else [] } =
      { addr := e.addr, ttl := if e.addr.isMCast ∧ e.ttl ≠ 0 then e.ttl else -1, iface := if e.addr.isMCast then e.iface else [] } := by
    cases hb : e.addr.isMCast with
    | true => simp only [if_true]; exact fixIface_named' h.named
    | false => simp only [Bool.false_eq_true, if_false]; exact fixIface_nil ..
  rw [hf] at hp
  have hcong : ∀ a : SockAddr, a.isMCast = e.addr.isMCast →
      showEndpoint net { addr := a, ttl := if e.addr.isMCast ∧ e.ttl ≠ 0 then e.ttl else -1, iface := if e.addr.isMCast then e.iface else [] } =
      showEndpoint net { e with addr := a } := by
    intro a hae
    apply showEndpoint_congr
    intro hb
    rw [hae] at hb
    rw [if_pos ⟨hb, (h.ttl (hm.mp hb)).2.2⟩, if_pos hb]
    exact ⟨rfl, rfl⟩
  unfold normalize orPort
  rw [hp, Option.bind_some]
  simp only
  split
  · rw [setPort_valid d _ h.valid, Option.map_some, hcong _ (multicast_atPort d e.addr)]
  · rw [hcong _ rfl]

theorem show_plain {net : Net} (hn : Standard net) {e : Endpoint} (h : Steady net e) : Plain (showEndpoint net e) := by
  have hch := showAddr_chars hn e.addr
  have hne : showAddr net e.addr ≠ [] := by
    have hv := h.valid
    cases ha : e.addr with
    | unspec => rw [ha] at hv; exact absurd hv (by simp [Valid])
    | v4 ip p => rw [ha] at hv; simp [showAddr, (hn.size4 ip hv.1).1]
    | v6 ip p => simp [showAddr]
  refine ⟨?_, ?_⟩
  · unfold showEndpoint; simp [hne]
  · intro c hc
    unfold showEndpoint at hc
    rcases List.mem_append.mp hc with hc | hc
    · have := hch c hc; omega
    · split at hc
      · rcases List.mem_append.mp hc with hc | hc
        · split at hc
          · rcases List.mem_cons.mp hc with rfl | hc
            · decide
            · have := showInt_chars _ c hc; omega
          · cases hc
        · split at hc
          · rcases List.mem_cons.mp hc with rfl | hc
            · decide
            · exact h.blank c hc
          · cases hc
      · cases hc

theorem split_listed {net : Net} (hn : Standard net) (es : List Endpoint) (h : ∀ e ∈ es, Steady net e) (d : Nat) (req : Bool) :
    ∃ l, splitAddrInto net [] (joinAddr (es.map (showEndpoint net))) d req = some l ∧
      ∀ w, w ∈ l ↔ ∃ e ∈ es, w = showEndpoint net (orPort d e) := by
  have hw : words (joinAddr (es.map (showEndpoint net))) = es.map (showEndpoint net) := by
    apply words_join
    intro w hw
    obtain ⟨e, he, rfl⟩ := List.mem_map.mp hw
    exact show_plain hn (h e he)
  have hmap : (es.map (showEndpoint net)).map (normalize net d) = es.map fun e => some (showEndpoint net (orPort d e)) := by
    rw [List.map_map]
    apply List.map_congr_left
    intro e he
    exact normalize_show hn (h e he) d
  refine ⟨sortU (es.map fun e => showEndpoint net (orPort d e)), ?_, ?_⟩
  · unfold splitAddrInto
    simp only [hw, hmap]
    have hno : (es.map fun e => some (showEndpoint net (orPort d e))).contains none = false := by
      rw [Bool.eq_false_iff, ne_eq, List.contains_iff_mem, List.mem_map]
      rintro ⟨_, _, hx⟩
      cases hx
    rw [hno, Bool.and_false, if_neg (by decide)]
    simp [List.filterMap_map, Function.comp_def]
  · intro w
    rw [(sortU_spec _).1, List.mem_map]
    constructor <;> (rintro ⟨e, he, hx⟩; exact ⟨e, he, hx.symm⟩)

theorem applyPort_show (dest p : Nat) (h : p < 65536) : applyPort dest (some (showNat p)) = p :=
  applyPort_says dest _ p ⟨showNat_says p, h⟩

theorem applyBool_yesNo (dest b : Bool) : applyBool dest (some (yesNo b)) = b := by
  cases b <;> cases dest <;> decide

theorem orPort_zero (e : Endpoint) : orPort 0 e = e := by
  unfold orPort
  split
  · rw [atPort_self _ (by assumption)]
  · rfl

/-- The configuration of a server, written out and applied to another, gives that the same ports, the same flag and the same addresses
(where no port was given, the default port is added).  The order of the addresses is not kept: `C65_order`. -/
theorem C65_server_partial (net : Net) (hn : Standard net) (flt : Flt) (c self : Server) (defs : Defs) (is ig bs : List Endpoint)
    (hi : ∀ e ∈ is, Steady net e) (hg : ∀ e ∈ ig, Steady net e) (hb : ∀ e ∈ bs, Steady net e)
    (h1 : c.interfaces = is.map (showEndpoint net)) (h2 : c.ignoreAddrs = ig.map (showEndpoint net))
    (h3 : c.beaconDestinations = bs.map (showEndpoint net)) (ht : c.tcpPort < 65536) (hu : c.udpPort < 65536)
    (hs : self.interfaces = [] ∧ self.ignoreAddrs = [] ∧ self.beaconDestinations = []) :
    ∃ c', self.fromDefs net flt (c.updateDefs flt defs) = some c' ∧ c'.tcpPort = c.tcpPort ∧ c'.udpPort = c.udpPort ∧ c'.auto = c.auto ∧
      (∀ w, w ∈ c'.interfaces ↔ ∃ e ∈ is, w = showEndpoint net (orPort c.tcpPort e)) ∧
      (∀ w, w ∈ c'.ignoreAddrs ↔ w ∈ c.ignoreAddrs) ∧
      (∀ w, w ∈ c'.beaconDestinations ↔ ∃ e ∈ bs, w = showEndpoint net (orPort c.udpPort e)) := by
  obtain ⟨l1, e1, m1⟩ := split_listed hn is hi c.tcpPort true
  obtain ⟨l2, e2, m2⟩ := split_listed hn ig hg 0 true
  obtain ⟨l3, e3, m3⟩ := split_listed hn bs hb c.udpPort false
  refine ⟨{ interfaces := l1, ignoreAddrs := l2, beaconDestinations := l3, tcpPort := c.tcpPort, udpPort := c.udpPort, auto := c.auto,
            tcpTimeout := applyTimeout flt self.tcpTimeout (some (flt.print (flt.unscale c.tcpTimeout))) }, ?_, rfl, rfl, rfl, m1, ?_, m3⟩
  · unfold Server.fromDefs
    simp only [pickOne, Server.updateDefs, applyPort_show _ _ ht, applyPort_show _ _ hu, applyBool_yesNo, applyAddrs, h1, h2, h3,
      hs.1, hs.2.1, hs.2.2, e1, e2, e3, Option.bind_some, Option.map_some]
  · intro w
    rw [m2, h2, List.mem_map]
    constructor
    · rintro ⟨e, he, rfl⟩; exact ⟨e, he, by rw [orPort_zero]⟩
    · rintro ⟨e, he, rfl⟩; exact ⟨e, he, by rw [orPort_zero]⟩

/-- The configuration of a client, likewise. -/
theorem C65_client_partial (net : Net) (hn : Standard net) (flt : Flt) (c self : Client) (defs : Defs) (as is ns : List Endpoint)
    (ha : ∀ e ∈ as, Steady net e) (hi : ∀ e ∈ is, Steady net e) (hv : ∀ e ∈ ns, Steady net e)
    (h1 : c.addressList = as.map (showEndpoint net)) (h2 : c.interfaces = is.map (showEndpoint net))
    (h3 : c.nameServers = ns.map (showEndpoint net)) (ht : c.tcpPort < 65536) (hu : c.udpPort < 65536) (hu0 : c.udpPort ≠ 0)
    (hs : self.addressList = [] ∧ self.interfaces = [] ∧ self.nameServers = []) :
    let c' := self.fromDefs net flt (c.updateDefs flt defs)
    c'.tcpPort = c.tcpPort ∧ c'.udpPort = c.udpPort ∧ c'.auto = c.auto ∧
      (∀ w, w ∈ c'.addressList ↔ ∃ e ∈ as, w = showEndpoint net (orPort c.udpPort e)) ∧
      (∀ w, w ∈ c'.interfaces ↔ w ∈ c.interfaces) ∧
      (∀ w, w ∈ c'.nameServers ↔ ∃ e ∈ ns, w = showEndpoint net (orPort c.tcpPort e)) := by
  obtain ⟨l1, e1, m1⟩ := split_listed hn as ha c.udpPort false
  obtain ⟨l2, e2, m2⟩ := split_listed hn is hi 0 false
  obtain ⟨l3, e3, m3⟩ := split_listed hn ns hv c.tcpPort false
  have hc : self.fromDefs net flt (c.updateDefs flt defs) =
      { addressList := l1, interfaces := l2, nameServers := l3, tcpPort := c.tcpPort, udpPort := c.udpPort, auto := c.auto,
        tcpTimeout := applyTimeout flt self.tcpTimeout (some (flt.print (flt.unscale c.tcpTimeout))) } := by
    unfold Client.fromDefs
    simp only [pickOne, Client.updateDefs, applyPort_show _ _ ht, applyPort_show _ _ hu, applyBool_yesNo, applyAddrs, h1, h2, h3,
      hs.1, hs.2.1, hs.2.2, if_neg hu0, ne_eq, not_true_eq_false, and_false, if_false, e1, e2, e3, Option.getD_some]
  rw [hc]
  refine ⟨rfl, rfl, rfl, m1, ?_, m3⟩
  intro w
  simp only
  rw [m2, h2, List.mem_map]
  constructor
  · rintro ⟨e, he, rfl⟩; exact ⟨e, he, by rw [orPort_zero]⟩
  · rintro ⟨e, he, rfl⟩; exact ⟨e, he, by rw [orPort_zero]⟩

/-- The addresses of a list given as text are put in alphabetical order, whatever order they were given in. -/
theorem C65_order (net : Net) (out l : List Str) (inp : Str) (d : Nat) (req : Bool) (h : splitAddrInto net out inp d req = some l) :
    l.Pairwise (strLt · · = true) := by
  unfold splitAddrInto at h
  simp only at h
  split at h
  · cases h
  · injection h with h
    rw [← h]
    exact (sortU_spec _).2

example : Steady demo ⟨.v4 0xe0000001 5076, 3, [0x65, 0x74, 0x68, 0x30]⟩ :=
  ⟨by simp [Valid], by decide, by decide, by decide, fun _ => by decide⟩

end Pvxs.Props.Cfg
