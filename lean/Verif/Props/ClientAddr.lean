import Verif.Props.Config
import Verif.Spec.ClientAddr
/-
C104 where a client searches, and where it listens.
-/
namespace Pvxs.Props.CliAddr
open Pvxs.Cfg Pvxs.CliAddr Spec.Cfg Spec.CliAddr
open Props.Cfg (multicast_atPort fixIface_named' fixIface_nil C45_client C45_merge)
open Wire (Byte)

theorem merged_mem {l r : List Endpoint} (h : Merged l r) {e : Endpoint} (he : e ∈ r) : e ∈ l := by
  obtain ⟨⟨x, hx, hk, ht⟩, _⟩ := h.2 e he
  cases x; cases e
  simp only [key, Prod.mk.injEq] at hk ht
  obtain ⟨rfl, rfl⟩ := hk
  subst ht
  exact hx

theorem mc_orPort (d : Nat) (e : Endpoint) : Multicast (orPort d e).addr ↔ Multicast e.addr := by
  unfold orPort
  split
  · cases ha : e.addr <;> simp [atPort, Multicast]
  · exact Iff.rfl

/-- an endpoint which keeps its meaning is read back -/
theorem back {net : Net} (hn : Standard net) {e : Endpoint} (h : Kept net e) (d : Nat) :
    ∃ e', parseEndpoint net (showEndpoint net e) d = some e' ∧ SameDest (orPort d e) e' := by
  have hm := mcast_iff e.addr h.1
  have hp := parseEndpoint_show hn e h.1 (fun hx => ⟨(h.2 (hm.mp hx)).1, (h.2 (hm.mp hx)).2.1⟩) (fun hx => (h.2 (hm.mp hx)).2.2.2.1) d
  refine ⟨_, hp, ?_⟩
  have ha : (orPort d e).addr = if e.addr.port = 0 then atPort d e.addr else e.addr := by unfold orPort; split <;> rfl
  have ht : (orPort d e).ttl = e.ttl ∧ (orPort d e).iface = e.iface := by unfold orPort; split <;> exact ⟨rfl, rfl⟩
  cases hb : e.addr.isMCast with
  | true =>
    have hk := h.2 (hm.mp hb)
    simp only [true_and, if_true]
    rw [if_pos hk.2.2.1, fixIface_named' hk.2.2.2.2]
    exact ⟨ha, fun _ => ht⟩
  | false =>
    simp only [Bool.false_eq_true, false_and, if_false]
    rw [fixIface_nil]
    refine ⟨ha, fun hx => ?_⟩
    rw [hm.mpr ((mc_orPort d e).mp hx)] at hb
    cases hb

theorem bcast_iff (net : Net) (ip p : Nat) : (net.broadcasts none).any (sameAddr (.v4 ip p)) = true ↔ Broadcast net (.v4 ip p) := by
  rw [List.any_eq_true]
  constructor
  · rintro ⟨b, hb, hs⟩
    cases b with
    | v4 ip' p' =>
      simp only [sameAddr, beq_iff_eq] at hs
      subst hs
      exact ⟨p', hb⟩
    | unspec => cases hs
    | v6 _ _ => cases hs
  · rintro ⟨p', hb⟩
    exact ⟨_, hb, by simp [sameAddr]⟩

theorem ucast_iff (net : Net) (e : Endpoint) (hv : Valid e.addr) : isUcast net e = true ↔ OneHost net e.addr := by
  have hm := mcast_iff e.addr hv
  unfold isUcast OneHost
  cases ha : e.addr with
  | unspec => rw [ha] at hv; exact absurd hv (by simp [Valid])
  | v4 ip p =>
    rw [ha] at hm
    have hb := bcast_iff net ip p
    simp only [Bool.and_eq_true, Bool.not_eq_true', ← hm, ← hb, Bool.not_eq_true]
  | v6 ip p =>
    rw [ha] at hm
    simp only [Bool.not_eq_true', ← hm, Bool.not_eq_true, Broadcast, not_false_eq_true, and_true]

theorem oneHost_orPort (net : Net) (d : Nat) (e : Endpoint) : OneHost net (orPort d e).addr ↔ OneHost net e.addr := by
  have hm := mc_orPort d e
  have hb : Broadcast net (orPort d e).addr ↔ Broadcast net e.addr := by
    unfold orPort
    split
    · cases ha : e.addr <;> simp [atPort, Broadcast]
    · exact Iff.rfl
  simp only [OneHost, hm, hb]

theorem valid_orPort {d : Nat} (hd : d < 2 ^ 16) {e : Endpoint} (h : Valid e.addr) : Valid (orPort d e).addr := by
  unfold orPort
  split
  · cases ha : e.addr with
    | unspec => rw [ha] at h; exact absurd h (by simp [Valid])
    | v4 _ _ => rw [ha] at h; exact ⟨h.1, hd⟩
    | v6 _ _ => rw [ha] at h; exact ⟨h.1, hd⟩
  · exact h

theorem dests_of {net : Net} (hn : Standard net) {d : Nat} (hd : d < 2 ^ 16) : ∀ r : List Endpoint, (∀ e ∈ r, Kept net e) →
    Paired (fun e x => SameDest (orPort d e) x.1 ∧ (x.2 = true ↔ OneHost net e.addr)) r (searchDest net d (r.map (showEndpoint net)))
  | [], _ => trivial
  | e :: r, h => by
    obtain ⟨e', hp, hs⟩ := back hn (h e (List.mem_cons_self ..)) d
    have hv : Valid e'.addr := hs.1 ▸ valid_orPort hd (h e (List.mem_cons_self ..)).1
    have : searchDest net d ((e :: r).map (showEndpoint net)) = (e', isUcast net e') :: searchDest net d (r.map (showEndpoint net)) := by
      simp [searchDest, hp]
    rw [this]
    exact ⟨⟨hs, by rw [ucast_iff net e' hv, ← hs.1, oneHost_orPort]⟩, dests_of hn hd r fun x hx => h x (List.mem_cons_of_mem _ hx)⟩

theorem build_parts {net : Net} {can : SockAddr → Bool} {c : Cfg.Client} {x : Ctx} (h : newContext net can c = .ok x) :
    ∃ eff, c.expand net = some eff ∧ beaconRx net eff.udpPort eff.interfaces = .ok x.beaconRx ∧ x.effective = eff ∧
      x.dests = searchDest net eff.udpPort eff.addressList ∧ x.nameServers = nsList net eff.tcpPort eff.nameServers ∧ x.nameServers.all can = true := by
  unfold newContext construct at h
  cases he : c.expand net with
  | none => rw [he] at h; cases h
  | some eff =>
    rw [he] at h
    simp only at h
    cases hb : beaconRx net eff.udpPort eff.interfaces with
    | throws w => rw [hb] at h; cases h
    | ub => rw [hb] at h; cases h
    | ok rx =>
      rw [hb] at h
      simp only [Res.bind_ok, startNS] at h
      split at h
      · cases h
        exact ⟨eff, rfl, hb, rfl, rfl, rfl, by assumption⟩
      · cases h

theorem expand_keeps {net : Net} {c eff : Cfg.Client} (h : c.expand net = some eff) :
    c.udpPort ≠ 0 ∧ eff.udpPort = c.udpPort ∧ eff.nameServers = c.nameServers ∧ eff.tcpPort = if c.tcpPort = 0 then 5075 else c.tcpPort := by
  unfold Client.expand at h
  split at h
  · cases h
  · simp only at h
    cases ha : c.auto <;> rw [ha] at h <;> (cases h; exact ⟨by assumption, rfl, rfl, rfl⟩)

/-- The destinations of searches are the entries of the address list, in order, with the UDP port of the configuration where none is given, and each is marked as unicast just
if it is neither a multicast group nor one of the broadcast addresses of this host.  Those which can not be read are left out.
Missing: entries which do not keep their meaning as text, which C64 has. -/
theorem C104_dests_partial (net : Net) (hn : Standard net) (can : SockAddr → Bool) (c : Cfg.Client) (x : Ctx) (h : newContext net can c = .ok x) (hu : c.udpPort < 2 ^ 16)
    (hl : AllKept net c.addressList) (hb : Ordinary net) :
    ∃ r, Wanted net c r ∧ Paired (fun e d => SameDest (orPort c.udpPort e) d.1 ∧ (d.2 = true ↔ OneHost net e.addr)) r x.dests := by
  obtain ⟨eff, he, _, _, hd, _, _⟩ := build_parts h
  obtain ⟨extra, r, h1, h2, h3, h4⟩ := C45_client net c eff he
  refine ⟨r, ⟨extra, h1, h2, h3⟩, ?_⟩
  rw [hd, h4, (expand_keeps he).2.1]
  apply dests_of hn hu
  intro e hm
  rcases List.mem_append.mp (merged_mem h3 hm) with hm | hm
  · obtain ⟨s, hs, hp⟩ := List.mem_filterMap.mp hm
    exact hl s hs e hp
  · obtain ⟨m, b, hbm, ha⟩ := h2 e hm
    obtain ⟨hv, hnm⟩ := hb m b hbm
    refine ⟨?_, ?_⟩
    · rw [ha]
      cases b with
      | unspec => exact absurd hv (by simp [Valid])
      | v4 _ _ => exact ⟨hv.1, by decide⟩
      | v6 _ _ => exact ⟨hv.1, by decide⟩
    · intro hx
      rw [ha] at hx
      exact absurd (by cases b <;> exact hx) hnm

theorem bit7 (b : Byte) : (b ||| 0x80).toNat ≥ 128 ∧ (b &&& 0x7f).toNat < 128 ∧ (b ||| 0x80).toNat % 128 = b.toNat % 128 ∧ (b &&& 0x7f).toNat % 128 = b.toNat % 128 := by
  have h : ∀ n : Fin 256, ((UInt8.ofNat n.val ||| 0x80).toNat ≥ 128 ∧ (UInt8.ofNat n.val &&& 0x7f).toNat < 128 ∧
      (UInt8.ofNat n.val ||| 0x80).toNat % 128 = (UInt8.ofNat n.val).toNat % 128 ∧ (UInt8.ofNat n.val &&& 0x7f).toNat % 128 = (UInt8.ofNat n.val).toNat % 128) := by
    decide +kernel
  have := h ⟨b.toNat, b.toNat_lt⟩
  simpa using this

theorem marked (u : Bool) (p : List Byte) (h : 12 < p.length) : Marked u p (Search.udpBytes u p) := by
  obtain ⟨l, g, r, rfl, hl⟩ : ∃ l g r, p = l ++ g :: r ∧ l.length = 12 :=
    ⟨p.take 12, p[12], p.drop 13, by rw [List.getElem_cons_drop, List.take_append_drop], by rw [List.length_take]; omega⟩
  have e : Search.udpBytes u (l ++ g :: r) = l ++ (if u then g ||| 0x80 else g &&& 0x7f) :: r := by
    unfold Search.udpBytes
    have t2 : (l ++ g :: r).drop 12 = g :: r := List.drop_left' hl
    have t3 : (l ++ g :: r).drop 13 = r := by rw [show (13 : Nat) = 12 + 1 from rfl, ← List.drop_drop, t2]; rfl
    rw [List.take_left' hl, t2, t3]
    simp
  rw [e]
  refine ⟨by simp, ?_, ?_⟩
  · intro i hi
    by_cases h1 : i < l.length
    · rw [List.getElem?_append_left h1, List.getElem?_append_left h1]
    · rw [List.getElem?_append_right (by omega), List.getElem?_append_right (by omega)]
      obtain ⟨k, hk⟩ : ∃ k, i - l.length = k + 1 := ⟨i - l.length - 1, by omega⟩
      rw [hk, List.getElem?_cons_succ, List.getElem?_cons_succ]
  · intro f hf
    have hb := bit7 g
    rw [List.getElem?_append_right (by omega), hl, Nat.sub_self, List.getElem?_cons_zero] at hf
    injection hf with hf
    subst hf
    refine ⟨?_, ?_⟩
    · cases u
      · have := hb.2.1
        simp only [Bool.false_eq_true, if_false, iff_false]
        omega
      · exact ⟨fun _ => rfl, fun _ => hb.1⟩
    · intro g' hg
      rw [List.getElem?_append_right (by omega), hl, Nat.sub_self, List.getElem?_cons_zero] at hg
      injection hg with hg
      subst hg
      cases u
      · exact hb.2.2.2
      · exact hb.2.2.1

/-- Every search packet is sent once to each destination, with the unicast bit of this destination, and once to each name server to which there is a connection on which not much waits. -/
theorem C104_send (c : Ctx) (ns : List Ns) (p : List Byte) (h : 12 < p.length) :
    Paired (fun d s => s.1 = d.1 ∧ Marked d.2 p s.2) c.dests (send c ns p).1 ∧
    (∀ s ∈ (send c ns p).2, ∃ n ∈ ns, n.ready = true ∧ n.queued ≤ 65536 ∧ s = (n.addr, Search.tcpBytes p)) ∧
    ∀ n ∈ ns, n.ready = true → n.queued ≤ 65536 → (n.addr, Search.tcpBytes p) ∈ (send c ns p).2 := by
  refine ⟨?_, ?_, ?_⟩
  · simp only [send]
    induction c.dests with
    | nil => trivial
    | cons d l ih => exact ⟨⟨rfl, marked d.2 p h⟩, ih⟩
  · intro s hs
    simp only [send, List.mem_map, List.mem_filter, Bool.and_eq_true, Bool.not_eq_true', decide_eq_false_iff_not] at hs
    obtain ⟨n, ⟨hn, hr, hq⟩, rfl⟩ := hs
    exact ⟨n, hn, hr, by omega, rfl⟩
  · intro n hn hr hq
    simp only [send, List.mem_map, List.mem_filter, Bool.and_eq_true, Bool.not_eq_true', decide_eq_false_iff_not]
    exact ⟨n, ⟨hn, hr, by omega⟩, rfl⟩

/-- Name servers which can all be read: exactly these are used, with the TCP port of the configuration where none is given. -/
theorem C104_servers_partial (net : Net) (can : SockAddr → Bool) (c : Cfg.Client) (x : Ctx) (h : newContext net can c = .ok x)
    (hr : ∀ s ∈ c.nameServers, ∀ d, setAddress net s d ≠ none) :
    Paired (fun s a => setAddress net s (if c.tcpPort = 0 then 5075 else c.tcpPort) = some a) c.nameServers x.nameServers := by
  obtain ⟨eff, he, _, _, _, hns, _⟩ := build_parts h
  obtain ⟨_, _, h3, h4⟩ := expand_keeps he
  rw [hns, h3, h4]
  generalize (if c.tcpPort = 0 then 5075 else c.tcpPort) = d
  clear hns h3 he
  generalize c.nameServers = l at hr
  induction l with
  | nil => trivial
  | cons s l ih =>
    refine ⟨?_, ih fun x hx => hr x (List.mem_cons_of_mem _ hx)⟩
    cases hs : setAddress net s d with
    | none => exact absurd hs (hr s (List.mem_cons_self ..) d)
    | some a =>
      show _ = some ((setAddress net s d).getD .unspec)
      rw [hs]; rfl

/-- A name server which can not be read is said to be ignored.  It is not: no socket can be made for it, and there is no context. -/
theorem C104_servers_malformed (net : Net) (can : SockAddr → Bool) (hc : can .unspec = false) (c : Cfg.Client) (s : Str) (hs : s ∈ c.nameServers)
    (hb : ∀ d, setAddress net s d = none) (x : Ctx) : newContext net can c ≠ .ok x := by
  intro h
  obtain ⟨eff, he, _, _, _, hns, hall⟩ := build_parts h
  obtain ⟨_, _, h3, _⟩ := expand_keeps he
  rw [hns, h3] at hall
  have := List.all_eq_true.mp hall .unspec (by
    rw [nsList, List.mem_map]
    exact ⟨s, hs, by rw [hb]; rfl⟩)
  rw [hc] at this
  cases this

theorem rx_mem {net : Net} {d : Nat} : ∀ {l : List Str} {rx : List Endpoint}, beaconRx net d l = .ok rx → ∀ s ∈ l, ∃ e, parseEndpoint net s d = some e ∧ ∀ y ∈ rxOf e, y ∈ rx
  | [], _, _, s, hs => by cases hs
  | i :: more, rx, h, s, hs => by
    simp only [beaconRx] at h
    cases hp : parseEndpoint net i d with
    | none => rw [hp] at h; cases h
    | some e =>
      rw [hp] at h
      simp only at h
      cases hb : beaconRx net d more with
      | throws w => rw [hb] at h; cases h
      | ub => rw [hb] at h; cases h
      | ok r =>
        rw [hb] at h
        cases h
        rcases List.mem_cons.mp hs with rfl | hs
        · exact ⟨e, hp, fun y hy => List.mem_append_left _ hy⟩
        · obtain ⟨e', h1, h2⟩ := rx_mem hb s hs
          exact ⟨e', h1, fun y hy => List.mem_append_right _ (h2 y hy)⟩

theorem rxOf_self (e : Endpoint) : e ∈ rxOf e := by
  unfold rxOf
  split
  · split <;> simp
  · simp

theorem ifaces_of {net : Net} {c eff : Cfg.Client} (h : c.expand net = some eff) :
    ∃ l : List Endpoint, eff.interfaces = l.map (showEndpoint net) ∧ (∀ e ∈ c.interfaces.filterMap (parseEndpoint net · 0), e ∈ l) ∧
      (c.interfaces.filterMap (parseEndpoint net · 0) = [] → ({ addr := .v4 0 0 } : Endpoint) ∈ l) := by
  unfold Client.expand at h
  split at h
  · cases h
  · simp only at h
    have key : ∀ m : List Endpoint, (∀ e ∈ parseAddresses net c.interfaces, e ∈ (if parseAddresses net c.interfaces = [] then [({ addr := .v4 0 0 } : Endpoint)] else
        parseAddresses net c.interfaces) ++ m) ∧ (parseAddresses net c.interfaces = [] → ({ addr := .v4 0 0 } : Endpoint) ∈
        (if parseAddresses net c.interfaces = [] then [({ addr := .v4 0 0 } : Endpoint)] else parseAddresses net c.interfaces) ++ m) := by
      intro m
      refine ⟨fun e he => ?_, fun he => ?_⟩
      · rw [if_neg (fun hn => by rw [hn] at he; cases he)]
        exact List.mem_append_left _ he
      · rw [if_pos he]; simp
    cases ha : c.auto with
    | false =>
      rw [ha] at h
      cases h
      exact ⟨_, rfl, by simpa [parseAddresses] using (key []).1, by simpa [parseAddresses] using (key []).2⟩
    | true =>
      rw [ha] at h
      cases h
      exact ⟨_, rfl, (key _).1, (key _).2⟩

/-- Beacons are listened for on every interface of the list which can be read, or on all interfaces if there is none, at the UDP port of the configuration where none is given. -/
theorem C104_beacons_partial (net : Net) (hn : Standard net) (can : SockAddr → Bool) (c : Cfg.Client) (x : Ctx) (h : newContext net can c = .ok x)
    (hl : AllKept net c.interfaces) :
    (∀ s ∈ c.interfaces, ∀ e, parseEndpoint net s 0 = some e → ∃ y ∈ x.beaconRx, SameDest (orPort c.udpPort e) y) ∧
    ((∀ s ∈ c.interfaces, parseEndpoint net s 0 = none) → ∃ y ∈ x.beaconRx, y.addr = .v4 0 c.udpPort) := by
  obtain ⟨eff, he, hrx, _, _, _, _⟩ := build_parts h
  obtain ⟨l, h1, h2, h3⟩ := ifaces_of he
  rw [(expand_keeps he).2.1] at hrx
  have key : ∀ e ∈ l, Kept net e → ∃ y ∈ x.beaconRx, SameDest (orPort c.udpPort e) y := by
    intro e hm hk
    obtain ⟨e', hp, hs⟩ := back hn hk c.udpPort
    obtain ⟨e2, hp2, hall⟩ := rx_mem hrx (showEndpoint net e) (by rw [h1]; exact List.mem_map_of_mem hm)
    rw [hp] at hp2
    injection hp2 with hp2
    subst hp2
    exact ⟨e', hall e' (rxOf_self e'), hs⟩
  refine ⟨fun s hs e hp => key e (h2 e (List.mem_filterMap.mpr ⟨s, hs, hp⟩)) (hl s hs e hp), fun hno => ?_⟩
  have hnil : c.interfaces.filterMap (parseEndpoint net · 0) = [] := by
    rw [List.filterMap_eq_nil_iff]; exact hno
  obtain ⟨y, hy, hs⟩ := key _ (h3 hnil) ⟨by simp [Valid], by simp [Multicast]⟩
  exact ⟨y, hy, hs.1.symm⟩

/-- A listener for all IPv4 addresses comes with one for all IPv6 addresses, which has port zero: a port which no server sends beacons to. -/
theorem C104_beacons_v6 (net : Net) (can : SockAddr → Bool) (c : Cfg.Client) (x : Ctx) (h : newContext net can c = .ok x) (s : Str) (hs : s ∈ x.effective.interfaces)
    (p : Nat) (e : Endpoint) (hp : parseEndpoint net s c.udpPort = some e) (ha : e.addr = .v4 0 p) : { e with addr := .v6 0 0 } ∈ x.beaconRx := by
  obtain ⟨eff, he, hrx, hx, _, _, _⟩ := build_parts h
  rw [(expand_keeps he).2.1] at hrx
  rw [hx] at hs
  obtain ⟨e2, hp2, hall⟩ := rx_mem hrx s hs
  rw [hp] at hp2
  injection hp2 with hp2
  subst hp2
  apply hall
  unfold rxOf
  rw [ha]
  simp

theorem rx_ok {net : Net} (hn : Standard net) (d : Nat) : ∀ l : List Endpoint, (∀ e ∈ l, Kept net e) → ∃ rx, beaconRx net d (l.map (showEndpoint net)) = .ok rx
  | [], _ => ⟨[], rfl⟩
  | e :: l, h => by
    obtain ⟨e', hp, _⟩ := back hn (h e (List.mem_cons_self ..)) d
    obtain ⟨rx, hr⟩ := rx_ok hn d l fun x hx => h x (List.mem_cons_of_mem _ hx)
    exact ⟨rxOf e' ++ rx, by simp only [List.map_cons, beaconRx, hp, hr]; rfl⟩

/-- There is a context whatever the address list, and whatever else can not be read, if there is a UDP port and each name server can be tried. -/
theorem C104_builds_partial (net : Net) (hn : Standard net) (can : SockAddr → Bool) (c : Cfg.Client) (hu : c.udpPort ≠ 0) (ha : c.auto = false) (hl : AllKept net c.interfaces)
    (hs : ∀ s ∈ c.nameServers, ∃ a, setAddress net s (if c.tcpPort = 0 then 5075 else c.tcpPort) = some a ∧ can a = true) : ∃ x, newContext net can c = .ok x := by
  have hk : ∀ e ∈ (if parseAddresses net c.interfaces = [] then [({ addr := .v4 0 0 } : Endpoint)] else parseAddresses net c.interfaces), Kept net e := by
    intro e he
    split at he
    · rcases List.mem_singleton.mp he with rfl
      exact ⟨by simp [Valid], by simp [Multicast]⟩
    · obtain ⟨s, hs, hp⟩ := List.mem_filterMap.mp he
      exact hl s hs e hp
  obtain ⟨rx, hr⟩ := rx_ok hn c.udpPort _ hk
  have hall : (nsList net (if c.tcpPort = 0 then 5075 else c.tcpPort) c.nameServers).all can = true := by
    rw [List.all_eq_true]
    intro a hm
    obtain ⟨s, hsm, rfl⟩ := List.mem_map.mp hm
    obtain ⟨a, h1, h2⟩ := hs s hsm
    rw [h1]
    exact h2
  unfold newContext construct Client.expand
  rw [if_neg hu, ha]
  simp only [Bool.false_eq_true, if_false]
  rw [hr]
  simp only [Res.bind_ok, startNS, hall, if_true]
  exact ⟨_, rfl⟩

/-- 255.255.255.255 reaches all hosts of the network.  It is none of the broadcast addresses of the interfaces, and is marked as unicast: each host which receives it sends it on. -/
theorem C104_limited (net : Net) (ttl : Int) (i : Str) (p : Nat) (h : ∀ q, SockAddr.v4 0xffffffff q ∉ net.broadcasts none) :
    isUcast net ⟨.v4 0xffffffff p, ttl, i⟩ = true := by
  have hb : ¬ (net.broadcasts none).any (sameAddr (.v4 0xffffffff p)) = true := by
    rw [bcast_iff]
    exact fun ⟨q, hq⟩ => h q hq
  simp only [isUcast, SockAddr.isMCast, Bool.not_eq_true] at hb ⊢
  rw [hb]
  decide

def runs (can : SockAddr → Bool) (c : Cfg.Client) (P : Ctx → Prop) [DecidablePred P] : Bool := match newContext Props.Cfg.demo can c with
  | .ok x => decide (P x)
  | _ => false

theorem shown {can : SockAddr → Bool} {c : Cfg.Client} {P : Ctx → Prop} [DecidablePred P] (h : runs can c P = true) :
    ∃ x, newContext Props.Cfg.demo can c = .ok x ∧ P x := by
  unfold runs at h
  split at h
  · exact ⟨_, by assumption, of_decide_eq_true h⟩
  · cases h

/-- 10.0.0.1 and 10.0.0.1:5076 are the same when the port is 5076: each search is sent twice. -/
theorem C104_twice : ∃ x : Ctx, newContext Props.Cfg.demo (fun _ => true) { addressList := [Props.Cfg.quad 0x0a000001, Props.Cfg.quad 0x0a000001 ++ [0x3a, 0x35, 0x30, 0x37, 0x36]], auto := false } = .ok x ∧
    x.dests = [(⟨.v4 0x0a000001 5076, -1, []⟩, true), (⟨.v4 0x0a000001 5076, -1, []⟩, true)] :=
  let ⟨x, h, hx⟩ := shown (c := { addressList := [Props.Cfg.quad 0x0a000001, Props.Cfg.quad 0x0a000001 ++ [0x3a, 0x35, 0x30, 0x37, 0x36]], auto := false }) (can := fun _ => true)
    (P := fun x => x.dests = [(⟨.v4 0x0a000001 5076, -1, []⟩, true), (⟨.v4 0x0a000001 5076, -1, []⟩, true)]) (by decide +kernel)
  ⟨x, h, hx⟩

/-- 10.0.0.255, which is the broadcast address, 224.0.0.1 and a text which is no address -/
example : ∃ x, newContext Props.Cfg.demo (fun a => a != .unspec) { addressList := [Props.Cfg.quad 0x0a0000ff, Props.Cfg.quad 0xe0000001, [0x78]], auto := false, nameServers := [Props.Cfg.quad 0x0a000001] } = .ok x ∧
    x.dests = [(⟨.v4 0x0a0000ff 5076, -1, []⟩, false), (⟨.v4 0xe0000001 5076, -1, []⟩, false)] ∧ x.nameServers = [.v4 0x0a000001 5075] ∧
    x.beaconRx = [⟨.v4 0 5076, -1, []⟩, ⟨.v6 0 0, -1, []⟩] :=
  let ⟨x, h, hx⟩ := shown (c := { addressList := [Props.Cfg.quad 0x0a0000ff, Props.Cfg.quad 0xe0000001, [0x78]], auto := false, nameServers := [Props.Cfg.quad 0x0a000001] })
    (can := fun a => a != .unspec)
    (P := fun x => x.dests = [(⟨.v4 0x0a0000ff 5076, -1, []⟩, false), (⟨.v4 0xe0000001 5076, -1, []⟩, false)] ∧ x.nameServers = [.v4 0x0a000001 5075] ∧
      x.beaconRx = [⟨.v4 0 5076, -1, []⟩, ⟨.v6 0 0, -1, []⟩]) (by decide +kernel)
  ⟨x, h, hx⟩

/-- the hypotheses are met -/
example : AllKept Props.Cfg.demo [Props.Cfg.quad 0x0a0000ff, Props.Cfg.quad 0x0a000001] ∧ Ordinary Props.Cfg.demo ∧ Standard Props.Cfg.demo := by
  refine ⟨?_, ?_, Props.Cfg.demo_standard⟩
  · intro s hs e he
    rcases List.mem_cons.mp hs with rfl | hs
    · rw [show parseEndpoint Props.Cfg.demo (Props.Cfg.quad 0x0a0000ff) 0 = some ⟨.v4 0x0a0000ff 0, -1, []⟩ by decide +kernel] at he
      cases he
      exact ⟨by simp [Valid], by simp [Multicast]⟩
    · rcases List.mem_singleton.mp hs with rfl
      rw [show parseEndpoint Props.Cfg.demo (Props.Cfg.quad 0x0a000001) 0 = some ⟨.v4 0x0a000001 0, -1, []⟩ by decide +kernel] at he
      cases he
      exact ⟨by simp [Valid], by simp [Multicast]⟩
  · intro m b hb
    rcases List.mem_singleton.mp hb with rfl
    exact ⟨by simp [Valid], by simp [Multicast]⟩

/-- a name server which can not be read -/
example (x : Ctx) : newContext Props.Cfg.demo (fun a => a != .unspec) { nameServers := [Props.Cfg.quad 0x0a000001, [0x78]], auto := false } ≠ .ok x :=
  C104_servers_malformed Props.Cfg.demo _ rfl _ [0x78] (by simp) (fun d => by simp [setAddress, splitFirst, lookupAddr, Props.Cfg.demo, show Props.Cfg.unquad [0x78] = none by decide]) x

end Pvxs.Props.CliAddr
