import Verif.Spec.ServAddr
import Verif.Lemmas.TypeDesc
/-
C101: where a server can be reached.
-/
namespace Pvxs.Props.SrvAddr
open Pvxs Cfg Pvxs.SrvAddr Pvxs.Spec.SrvAddr

theorem setPort_port {a b : SockAddr} {p : Nat} (h : a.setPort p = some b) : b.port = p := by
  cases a <;> simp [SockAddr.setPort] at h <;> subst h <;> rfl

theorem setPort_covers {a b c : SockAddr} {p : Nat} (h : a.setPort p = some b) : Covers b c ↔ Covers a c := by
  cases a <;> simp [SockAddr.setPort] at h <;> subst h <;> cases c <;> exact Iff.rfl

theorem bind_at {h : Host} {a b : SockAddr} (hb : h.bind a = .at b) :
    (a.port = 0 ∧ a.setPort (h.free h.used a) = some b) ∨ (a.port ≠ 0 ∧ b = a ∧ Free h a) := by
  unfold Host.bind at hb
  split at hb
  · cases hb
  · split at hb
    · rename_i h0
      split at hb
      · rename_i c hc
        injection hb with hb
        subst hb
        exact .inl ⟨h0, hc⟩
      · cases hb
    · rename_i h0
      split at hb
      · cases hb
      · rename_i hu
        injection hb with hb
        refine .inr ⟨h0, hb.symm, fun u hu' hp => ?_⟩
        simp only [List.any_eq_true, not_exists, not_and, Bool.and_eq_true, beq_iff_eq] at hu
        exact Bool.eq_false_iff.mpr (hu u hu' hp)

/-- what ServIface binds -/
theorem serv_spec {h : Host} (ho : HostOK h) {a b : SockAddr} {f : Bool} (hs : servIface h a f = .ok b) :
    b.port ≠ 0 ∧ (∀ c, Covers b c ↔ Covers a c) ∧ (a.port ≠ 0 → f = false → b = a) ∧ (a.port ≠ 0 → Free h a → b = a) := by
  unfold servIface at hs
  cases hb : h.bind a with
  | «at» x =>
    rw [hb] at hs
    injection hs with hs
    subst hs
    rcases bind_at hb with ⟨h0, h1⟩ | ⟨h0, h1, _⟩
    · refine ⟨?_, fun c => setPort_covers h1, fun h => absurd h0 h, fun h => absurd h0 h⟩
      rw [setPort_port h1]
      exact Nat.ne_of_gt (ho.1 _ _).1
    · subst h1
      exact ⟨h0, fun _ => Iff.rfl, fun _ _ => rfl, fun _ _ => rfl⟩
  | error => rw [hb] at hs; cases hs
  | inUse =>
    rw [hb] at hs
    simp only at hs
    cases f with
    | false => cases hs
    | true =>
      rw [if_pos rfl] at hs
      cases h0 : a.setPort 0 with
      | none => rw [h0] at hs; cases hs
      | some a0 =>
        rw [h0] at hs
        simp only at hs
        cases hb0 : h.bind a0 with
        | error => rw [hb0] at hs; cases hs
        | inUse => rw [hb0] at hs; cases hs
        | «at» x =>
          rw [hb0] at hs
          injection hs with hs
          subst hs
          rcases bind_at hb0 with ⟨_, h1⟩ | ⟨h1, _⟩
          · refine ⟨?_, fun c => (setPort_covers h1).trans (setPort_covers h0), fun _ h => (nomatch h), fun hp hf => ?_⟩
            · rw [setPort_port h1]
              exact Nat.ne_of_gt (ho.1 _ _).1
            · exfalso
              unfold Host.bind at hb
              split at hb
              · cases hb
              · split at hb
                · rename_i hu
                  obtain ⟨u, hu1, hu2⟩ := List.any_eq_true.mp hu
                  simp only [Bool.and_eq_true, beq_iff_eq] at hu2
                  rw [hf u hu1 hu2.1] at hu2
                  exact nomatch hu2.2
                · cases hb
          · exact absurd (setPort_port h0) h1

theorem host_listen {h : Host} (ho : HostOK h) (a : SockAddr) : HostOK (h.listen a) := ho

/-- the listeners after the first -/
theorem rest_spec : ∀ (l : List SockAddr) (h : Host) (p : Nat) (r : List SockAddr × Nat), HostOK h → p ≠ 0 → (∀ a ∈ l, a.port = 0) →
    bindAll h p false l = .ok r → r.2 = p ∧ (∀ b ∈ r.1, b.port = p) ∧ ∀ a ∈ l, ∃ b ∈ r.1, ∀ c, Covers b c ↔ Covers a c
  | [], h, p, r, _, _, _, hr => by
    injection hr with hr
    subst hr
    exact ⟨rfl, by simp, by simp⟩
  | a :: l, h, p, r, ho, hp, hl, hr => by
    unfold bindAll orPort at hr
    rw [if_pos (hl a (by simp))] at hr
    cases ha : a.setPort p with
    | none => rw [ha] at hr; cases hr
    | some a' =>
      rw [ha] at hr
      obtain ⟨b, hb, hr⟩ := Res.bind_eq_ok hr
      obtain ⟨s1, s2, s3, _⟩ := serv_spec ho hb
      have hpa := setPort_port ha
      have hba := s3 (by omega) rfl
      rw [if_neg (by simp [hp])] at hr
      obtain ⟨q, hq, hr⟩ := Res.bind_eq_ok hr
      injection hr with hr
      subst hr
      obtain ⟨q1, q2, q3⟩ := rest_spec l _ p q (host_listen ho b) hp (fun x hx => hl x (by simp [hx])) hq
      refine ⟨q1, ?_, ?_⟩
      · intro x hx
        rcases List.mem_cons.mp hx with rfl | hx
        · rw [hba]; exact hpa
        · exact q2 x hx
      · intro x hx
        rcases List.mem_cons.mp hx with rfl | hx
        · exact ⟨b, by simp, fun c => (s2 c).trans (setPort_covers ha)⟩
        · obtain ⟨y, hy, hyc⟩ := q3 x hx
          exact ⟨y, by simp [hy], hyc⟩

/-- all of them -/
theorem all_spec {l : List SockAddr} {h : Host} {p : Nat} {r : List SockAddr × Nat} (ho : HostOK h) (hne : l ≠ []) (hl : ∀ a ∈ l.tail, a.port = 0)
    (hr : bindAll h p true l = .ok r) : r.2 ≠ 0 ∧ (∀ b ∈ r.1, b.port = r.2) ∧ (∀ a ∈ l, ∃ b ∈ r.1, ∀ c, Covers b c ↔ Covers a c) ∧
      (∀ a a', l.head? = some a → orPort p a = some a' → a'.port ≠ 0 → Free h a' → r.2 = a'.port) := by
  cases l with
  | nil => exact absurd rfl hne
  | cons a l =>
    unfold bindAll at hr
    cases ha : orPort p a with
    | none => rw [ha] at hr; cases hr
    | some a' =>
      rw [ha] at hr
      obtain ⟨b, hb, hr⟩ := Res.bind_eq_ok hr
      obtain ⟨s1, s2, _, s4⟩ := serv_spec ho hb
      rw [if_pos (by simp)] at hr
      obtain ⟨q, hq, hr⟩ := Res.bind_eq_ok hr
      injection hr with hr
      subst hr
      obtain ⟨q1, q2, q3⟩ := rest_spec l _ _ q (host_listen ho b) s1 hl hq
      have hcov : ∀ c, Covers a' c ↔ Covers a c := by
        unfold orPort at ha
        split at ha
        · intro c; exact setPort_covers ha
        · injection ha with ha; subst ha; exact fun _ => Iff.rfl
      refine ⟨by rw [q1]; exact s1, ?_, ?_, ?_⟩
      · intro x hx
        simp only
        rw [q1]
        rcases List.mem_cons.mp hx with rfl | hx
        · rfl
        · exact q2 x hx
      · intro x hx
        rcases List.mem_cons.mp hx with rfl | hx
        · exact ⟨b, by simp, fun c => (s2 c).trans (hcov c)⟩
        · obtain ⟨y, hy, hyc⟩ := q3 x hx
          exact ⟨y, by simp [hy], hyc⟩
      · intro x x' hx hx' hp hf
        simp only [List.head?_cons, Option.some.injEq] at hx
        subst hx
        rw [ha] at hx'
        injection hx' with hx'
        subst hx'
        simp only
        rw [q1, s4 hp hf]

theorem parse_mem (net : Net) : ∀ (l : List Str) (eps : List Endpoint), parseAll net l = .ok eps → ∀ e, (e ∈ eps ↔ ∃ x ∈ l, parseEndpoint net x 0 = some e)
  | [], eps, h, e => by
    injection h with h
    subst h
    simp
  | s :: l, eps, h, e => by
    unfold parseAll at h
    cases hs : parseEndpoint net s 0 with
    | none => rw [hs] at h; cases h
    | some e0 =>
      rw [hs] at h
      obtain ⟨r, hr, h⟩ := Res.bind_eq_ok h
      injection h with h
      subst h
      rw [List.mem_cons, parse_mem net l r hr e]
      constructor
      · rintro (rfl | ⟨x, hx, h⟩)
        · exact ⟨s, by simp, hs⟩
        · exact ⟨x, by simp [hx], h⟩
      · rintro ⟨x, hx, h⟩
        rcases List.mem_cons.mp hx with rfl | hx
        · rw [hs] at h; injection h with h; exact .inl h.symm
        · exact .inr ⟨x, hx, h⟩

theorem udp_spec (net : Net) (h : Host) (ho : HostOK h) : ∀ (l : List Endpoint) (p : Nat), (∀ a ∈ (udpAll net h p l).1, a.port = (udpAll net h p l).2) ∧
    (p ≠ 0 → (udpAll net h p l).2 = p) ∧ (l ≠ [] → (udpAll net h p l).2 ≠ 0)
  | [], p => ⟨by simp [udpAll], fun _ => rfl, fun h => absurd rfl h⟩
  | e :: l, p => by
    let q := if p = 0 then h.freeUdp else p
    have hq : q ≠ 0 := by
      show (if p = 0 then h.freeUdp else p) ≠ 0
      split
      · exact Nat.ne_of_gt ho.2.1
      · assumption
    obtain ⟨h1, h2, h3⟩ := udp_spec net h ho l q
    have hp : (udpAll net h p (e :: l)).2 = q := h2 hq
    refine ⟨fun a ha => ?_, fun hp0 => ?_, fun _ => by rw [hp]; exact hq⟩
    · rw [hp]
      have ha' : a ∈ (e.addr.setPort q).toList ++ (match e.addr with
        | .v4 ip _ => if e.addr.isAny || e.addr.isMCast then [] else (net.broadcasts (some (.v4 ip q))).filterMap (SockAddr.setPort q)
        | _ => []) ++ (udpAll net h q l).1 := ha
      rcases List.mem_append.mp ha' with ha' | ha'
      · rcases List.mem_append.mp ha' with ha' | ha'
        · rw [Option.mem_toList] at ha'
          exact setPort_port ha'
        · split at ha'
          · split at ha'
            · exact nomatch ha'
            · obtain ⟨x, _, hx⟩ := List.mem_filterMap.mp ha'
              exact setPort_port hx
          · exact nomatch ha'
      · rw [h1 a ha', h2 hq]
    · rw [hp]
      exact if_neg hp0

theorem setup_parts {net : Net} {h : Host} {dual one : Bool} {c : Cfg.Server} {s : Srv} (hs : setup net h dual one c = .ok s) :
    ∃ eps, parseAll net (c.expand net).interfaces = .ok eps ∧ s.effective.interfaces = (c.expand net).interfaces ∧
      bindAll h c.tcpPort true (tcpIfaces dual one eps) = .ok (s.tcp, s.effective.tcpPort) ∧ s.udp = (udpAll net h c.udpPort eps).1 ∧
      s.effective.udpPort = (udpAll net h c.udpPort eps).2 := by
  unfold setup at hs
  obtain ⟨eps, he, hs⟩ := Res.bind_eq_ok hs
  obtain ⟨r, hr, hs⟩ := Res.bind_eq_ok hs
  injection hs with hs
  subst hs
  exact ⟨eps, he, rfl, hr, rfl, rfl⟩

theorem tcp_ports {dual one : Bool} {eps : List Endpoint} (hp : ∀ e ∈ eps, e.addr.isMCast = false → e.addr.isAny = false → e.addr.port = 0) :
    ∀ a ∈ tcpIfaces dual one eps, a.port = 0 := by
  intro a ha
  unfold tcpIfaces at ha
  rcases List.mem_append.mp ha with ha | ha
  · obtain ⟨ha, hf⟩ := List.mem_filter.mp ha
    obtain ⟨e, he, rfl⟩ := List.mem_map.mp ha
    simp only [Bool.and_eq_true, Bool.not_eq_true'] at hf
    exact hp e he hf.2 hf.1
  · revert ha
    split
    · split
      · split
        · simp; rintro rfl; rfl
        · simp; rintro (rfl | rfl) <;> rfl
      · simp; rintro rfl; rfl
    · simp

theorem tcp_cover {dual one : Bool} {eps : List Endpoint} {e : Endpoint} (he : e ∈ eps) (hm : e.addr.isMCast = false) {a : SockAddr} (hf : StandsFor e.addr a)
    (hd : dual = true ∨ ∃ x p, e.addr = .v4 x p) : ∃ b ∈ tcpIfaces dual one eps, Covers b a := by
  unfold tcpIfaces
  cases hany : e.addr.isAny with
  | false =>
    refine ⟨e.addr, List.mem_append_left _ (List.mem_filter.mpr ⟨List.mem_map.mpr ⟨e, he, rfl⟩, by simp [hany, hm]⟩), ?_⟩
    revert hf
    cases e.addr <;> cases a <;> simp [StandsFor, Covers]
  | true =>
    have ha : eps.any (·.addr.isAny) = true := List.any_eq_true.mpr ⟨e, he, hany⟩
    rw [ha, if_pos rfl]
    revert hf
    rcases hd with rfl | ⟨x, p, hx⟩
    · rw [if_pos rfl]
      cases one with
      | true =>
        rw [if_pos rfl]
        intro hf
        refine ⟨.v6 0 0, by simp, ?_⟩
        revert hf
        cases e.addr <;> cases a <;> simp [StandsFor, Covers]
      | false =>
        rw [if_neg (by simp)]
        intro hf
        refine ⟨.v6 0 0, by simp, ?_⟩
        revert hf
        cases e.addr <;> cases a <;> simp [StandsFor, Covers]
    · intro hf
      rw [hx] at hf
      cases a with
      | v4 y q =>
        split
        · split
          · exact ⟨.v6 0 0, by simp, rfl⟩
          · exact ⟨.v6 0 0, by simp, rfl⟩
        · exact ⟨.v4 0 0, by simp, .inr rfl⟩
      | v6 y q => exact hf.elim
      | unspec => exact hf.elim

/-! ### C101 -/

/-- If no ports are given with the interfaces then a server which could be started accepts connections on every address on which it answers searches, with the port it names in the answers and
in `Server::config()`.
Missing: a port with an interface (C101_port); interfaces from the environment, which always have one (C101_second, C101_half). -/
theorem C101_reachable_partial (net : Net) (h : Host) (ho : HostOK h) (dual one : Bool) (c : Cfg.Server) (s : Srv) (hs : setup net h dual one c = .ok s)
    (hp : ∀ e, Listed net s e → e.addr.isAny = false → e.addr.port = 0) :
    (∀ b ∈ s.tcp, b.port = s.effective.tcpPort) ∧
    ∀ e, Listed net s e → ∀ a, StandsFor e.addr a → (dual = true ∨ ∃ x p, e.addr = .v4 x p) → s.effective.tcpPort ≠ 0 ∧ Accepts s a s.effective.tcpPort := by
  obtain ⟨eps, he, hi, hb, _, _⟩ := setup_parts hs
  have hl : ∀ e, e ∈ eps → e.addr.isMCast = false → Listed net s e := by
    intro e hm hc
    obtain ⟨x, hx, hx'⟩ := (parse_mem net _ eps he e).mp hm
    exact ⟨x, by rw [hi]; exact hx, hx', hc⟩
  have hports := tcp_ports (dual := dual) (one := one) fun e hm hc ha => hp e (hl e hm hc) ha
  by_cases hne : tcpIfaces dual one eps = []
  · refine ⟨fun b hb' => ?_, fun e hle a hf hd => ?_⟩
    · rw [hne] at hb
      injection hb with hb
      have h0 : [] = s.tcp := congrArg Prod.fst hb
      rw [← h0] at hb'
      exact nomatch hb'
    · obtain ⟨x, hx, hx', hc⟩ := hle
      rw [hi] at hx
      obtain ⟨b, hb1, _⟩ := tcp_cover (one := one) ((parse_mem net _ eps he e).mpr ⟨x, hx, hx'⟩) hc hf hd
      rw [hne] at hb1
      exact nomatch hb1
  · obtain ⟨a1, a2, a3, _⟩ := all_spec ho hne (fun a ha => hports a (List.mem_of_mem_tail ha)) hb
    refine ⟨a2, fun e hle a hf hd => ⟨a1, ?_⟩⟩
    obtain ⟨x, hx, hx', hc⟩ := hle
    rw [hi] at hx
    obtain ⟨b, hb1, hb2⟩ := tcp_cover (one := one) ((parse_mem net _ eps he e).mpr ⟨x, hx, hx'⟩) hc hf hd
    obtain ⟨b', hb3, hb4⟩ := a3 b hb1
    exact ⟨b', hb3, a2 b' hb3, (hb4 a).mpr hb2⟩

/-- The UDP port in the configuration in effect is that of all sockets for searches, it is the one which was asked for unless that is zero, and is not zero. -/
theorem C101_udp (net : Net) (h : Host) (ho : HostOK h) (dual one : Bool) (c : Cfg.Server) (s : Srv) (hs : setup net h dual one c = .ok s) :
    (∀ a ∈ s.udp, a.port = s.effective.udpPort) ∧ (c.udpPort ≠ 0 → s.effective.udpPort = c.udpPort) ∧ (s.effective.interfaces ≠ [] → s.effective.udpPort ≠ 0) := by
  obtain ⟨eps, he, hi, _, hu, hup⟩ := setup_parts hs
  obtain ⟨h1, h2, h3⟩ := udp_spec net h ho eps c.udpPort
  refine ⟨fun a ha => ?_, fun hc => ?_, fun hne => ?_⟩
  · rw [hu] at ha; rw [hup]; exact h1 a ha
  · rw [hup]; exact h2 hc
  · rw [hup]
    refine h3 fun hempty => hne ?_
    rw [hi]
    subst hempty
    cases hx : (c.expand net).interfaces with
    | nil => rfl
    | cons y l =>
      rw [hx] at he
      unfold parseAll at he
      cases hy : parseEndpoint net y 0 with
      | none => rw [hy] at he; cases he
      | some e =>
        rw [hy] at he
        obtain ⟨r, _, he⟩ := Res.bind_eq_ok he
        cases he

/-- The TCP port which was asked for is used if it is free at the first address. -/
theorem C101_preferred (net : Net) (h : Host) (ho : HostOK h) (dual one : Bool) (c : Cfg.Server) (s : Srv) (hs : setup net h dual one c = .ok s)
    (hp : ∀ e, Listed net s e → e.addr.isAny = false → e.addr.port = 0) (hne : s.tcp ≠ []) (hc : c.tcpPort ≠ 0)
    (hf : ∀ a, a.port = c.tcpPort → Free h a) : s.effective.tcpPort = c.tcpPort := by
  obtain ⟨eps, he, hi, hb, _, _⟩ := setup_parts hs
  have hl : ∀ e, e ∈ eps → e.addr.isMCast = false → Listed net s e := by
    intro e hm hc
    obtain ⟨x, hx, hx'⟩ := (parse_mem net _ eps he e).mp hm
    exact ⟨x, by rw [hi]; exact hx, hx', hc⟩
  have hports := tcp_ports (dual := dual) (one := one) fun e hm hc ha => hp e (hl e hm hc) ha
  cases hL : tcpIfaces dual one eps with
  | nil =>
    rw [hL] at hb
    injection hb with hb
    exact absurd (congrArg Prod.fst hb).symm hne
  | cons a l =>
    rw [hL] at hb hports
    obtain ⟨_, _, _, a4⟩ := all_spec ho (by simp) (fun a ha => hports a (List.mem_of_mem_tail ha)) hb
    have ho : ∃ a', orPort c.tcpPort a = some a' ∧ a'.port = c.tcpPort := by
      have h0 := hports a (by simp)
      cases ha : orPort c.tcpPort a with
      | none =>
        unfold bindAll at hb
        rw [ha] at hb
        cases hb
      | some a' =>
        refine ⟨a', rfl, ?_⟩
        unfold orPort at ha
        rw [if_pos h0] at ha
        exact setPort_port ha
    obtain ⟨a', ha1, ha2⟩ := ho
    have := a4 a a' rfl ha1 (by rw [ha2]; exact hc) (hf a' ha2)
    rw [ha2] at this
    exact this

theorem bind_zero {h : Host} {a : SockAddr} (hl : h.local? a = true) (h0 : a.port = 0) (hu : a ≠ .unspec) : ∃ b, h.bind a = .at b := by
  unfold Host.bind
  rw [hl, if_neg (by simp), if_pos h0]
  cases a with
  | unspec => exact absurd rfl hu
  | v4 ip p => exact ⟨_, rfl⟩
  | v6 ip p => exact ⟨_, rfl⟩

theorem serv_ok {h : Host} (ho : HostOK h) {a : SockAddr} (hl : h.local? a = true) (hu : a ≠ .unspec) : ∃ b, servIface h a true = .ok b := by
  unfold servIface
  cases hb : h.bind a with
  | «at» b => exact ⟨b, rfl⟩
  | error =>
    exfalso
    unfold Host.bind at hb
    rw [hl, if_neg (by simp)] at hb
    cases a with
    | unspec => exact hu rfl
    | v4 ip p =>
      split at hb
      · cases hb
      · split at hb <;> cases hb
    | v6 ip p =>
      split at hb
      · cases hb
      · split at hb <;> cases hb
  | inUse =>
    simp only [if_true]
    have : ∃ a0, a.setPort 0 = some a0 ∧ a0 ≠ .unspec := by
      cases a with
      | unspec => exact absurd rfl hu
      | v4 ip p => exact ⟨_, rfl, fun h => nomatch h⟩
      | v6 ip p => exact ⟨_, rfl, fun h => nomatch h⟩
    obtain ⟨a0, h0, hu0⟩ := this
    obtain ⟨b, hb⟩ := bind_zero (ho.2.2.2 a a0 0 hl h0) (setPort_port h0) hu0
    rw [h0]
    simp only
    rw [hb]
    exact ⟨b, rfl⟩

/-- With one interface the server can always be started: if the port is taken then another one is used, and it is the one which is then named. -/
theorem C101_fallback (net : Net) (h : Host) (ho : HostOK h) (dual one : Bool) (c : Cfg.Server) (x : Str) (e : Endpoint) (hx : (c.expand net).interfaces = [x])
    (he : parseEndpoint net x 0 = some e) (hm : e.addr.isMCast = false) (hu : e.addr ≠ .unspec) (hl : h.local? e.addr = true)
    (hw : e.addr.isAny = true → (dual = true → one = true) ∧ h.local? (.v6 0 c.tcpPort) = true ∧ h.local? (.v4 0 c.tcpPort) = true) :
    ∃ s, setup net h dual one c = .ok s ∧ ∃ b, s.tcp = [b] ∧ s.effective.tcpPort = b.port ∧ b.port ≠ 0 := by
  have hparse : parseAll net (c.expand net).interfaces = .ok [e] := by
    rw [hx]
    unfold parseAll
    rw [he]
    rfl
  have hsingle : ∃ a a', tcpIfaces dual one [e] = [a] ∧ orPort c.tcpPort a = some a' ∧ h.local? a' = true ∧ a' ≠ .unspec := by
    unfold tcpIfaces
    cases ha : e.addr.isAny with
    | false =>
      refine ⟨e.addr, ?_⟩
      unfold orPort
      by_cases h0 : e.addr.port = 0
      · rw [if_pos h0]
        cases hb : e.addr.setPort c.tcpPort with
        | none =>
          cases hc : e.addr with
          | unspec => exact absurd hc hu
          | v4 ip p => rw [hc] at hb; cases hb
          | v6 ip p => rw [hc] at hb; cases hb
        | some b =>
          refine ⟨b, by simp [ha, hm], rfl, ho.2.2.2 _ _ _ hl hb, ?_⟩
          intro hbu
          subst hbu
          cases hc : e.addr <;> rw [hc] at hb <;> cases hb
      · rw [if_neg h0]
        exact ⟨e.addr, by simp [ha, hm], rfl, hl, hu⟩
    | true =>
      obtain ⟨h1, h2, h3⟩ := hw ha
      cases dual with
      | false => exact ⟨.v4 0 0, .v4 0 c.tcpPort, by simp [ha], rfl, h3, fun h => nomatch h⟩
      | true => exact ⟨.v6 0 0, .v6 0 c.tcpPort, by simp [ha, h1 rfl], rfl, h2, fun h => nomatch h⟩
  obtain ⟨a, a', hL, ha, hla, hua⟩ := hsingle
  obtain ⟨b, hb⟩ := serv_ok ho hla hua
  have hall : bindAll h c.tcpPort true [a] = .ok ([b], b.port) := by
    simp only [bindAll, ha, hb, Res.bind_ok, Bool.true_or, if_true]
  refine ⟨{ effective := { c.expand net with tcpPort := b.port, udpPort := (udpAll net h c.udpPort [e]).2 }, tcp := [b], udp := (udpAll net h c.udpPort [e]).1 }, ?_, b, rfl, rfl,
    (serv_spec ho hb).1⟩
  · unfold setup
    simp only [hparse, Res.bind_ok, hL]
    rw [show (c.expand net).tcpPort = c.tcpPort from rfl, hall]
    rfl

/-- The configuration for a client which is made from a server has the ports and the interfaces at which the server listens. -/
theorem C101_client (net : Net) (h : Host) (ho : HostOK h) (dual one : Bool) (c : Cfg.Server) (s : Srv) (hs : setup net h dual one c = .ok s)
    (hp : ∀ e, Listed net s e → e.addr.isAny = false → e.addr.port = 0) :
    (∀ b ∈ s.tcp, b.port = (clientConfig s).tcpPort) ∧ (∀ b ∈ s.udp, b.port = (clientConfig s).udpPort) ∧ (clientConfig s).auto = false ∧
    ∀ x, x ∈ (clientConfig s).addressList ↔ x ∈ s.effective.interfaces :=
  ⟨(C101_reachable_partial net h ho dual one c s hs hp).1, (C101_udp net h ho dual one c s hs).1, rfl, fun _ => Iff.rfl⟩

/-! What is missing. -/

/-- a host with the interfaces `A` and `B`; `Z` is the wildcard -/
def wNet : Net where
  pton4 := fun s => if s = [0x41] then some 1 else if s = [0x42] then some 2 else if s = [0x5a] then some 0 else none
  pton6 := fun _ => none
  ntop4 := fun ip => if ip = 1 then [0x41] else if ip = 2 then [0x42] else [0x5a]
  ntop6 := fun _ => []
  resolve := fun _ => none
  nameOf := fun _ => []
  addressOf := fun _ => .unspec
  externals := []
  broadcasts := fun _ => []

/-- two sockets can not listen with the same address, nor with a wildcard and some other address -/
def wClash : SockAddr → SockAddr → Bool
  | .v4 a _, .v4 b _ => a == b || a == 0 || b == 0
  | .v6 a _, .v6 b _ => a == b || a == 0 || b == 0
  | .v6 a _, .v4 _ _ => a == 0
  | .v4 _ _, .v6 b _ => b == 0
  | _, _ => false

def wHost (used : List SockAddr) : Host := { used := used, clash := wClash, local? := fun _ => true, free := fun _ _ => 40000, freeUdp := 40001 }

theorem wHost_ok (used : List SockAddr) : HostOK (wHost used) :=
  ⟨fun _ _ => ⟨by show 0 < 40000; omega, by show 40000 < 2 ^ 16; omega⟩, by show 0 < 40001; omega, by show 40001 < 2 ^ 16; omega, fun _ _ _ _ _ => rfl⟩

def wFlt : Flt := { read := fun _ => none, print := fun _ => [], scale := fun r => .fin r, unscale := fun d => d }

theorem n5075 : showNat 5075 = [0x35, 0x30, 0x37, 0x35] := by simp [showNat]
theorem n6000 : showNat 6000 = [0x36, 0x30, 0x30, 0x30] := by simp [showNat]

/-- `EPICS_PVAS_INTF_ADDR_LIST="A B"` and nothing else -/
def wDefs : Defs := fun n => if n = .pvasIntf then some [0x41, 0x20, 0x42] else none

def wConf : Cfg.Server := { interfaces := [[0x41, 0x3a, 0x35, 0x30, 0x37, 0x35], [0x42, 0x3a, 0x35, 0x30, 0x37, 0x35]] }

/-- each interface from the environment has the port -/
theorem wConf_defs : ({} : Cfg.Server).fromDefs wNet wFlt wDefs = some wConf := by
  have ha : normalize wNet 5075 [0x41] = some [0x41, 0x3a, 0x35, 0x30, 0x37, 0x35] := by
    show some ([0x41] ++ (0x3a :: showNat 5075) ++ []) = _
    rw [n5075]
    rfl
  have hb : normalize wNet 5075 [0x42] = some [0x42, 0x3a, 0x35, 0x30, 0x37, 0x35] := by
    show some ([0x42] ++ (0x3a :: showNat 5075) ++ []) = _
    rw [n5075]
    rfl
  have hi : splitAddrInto wNet [] [0x41, 0x20, 0x42] 5075 true = some wConf.interfaces := by
    unfold splitAddrInto
    rw [show words [0x41, 0x20, 0x42] = [[0x41], [0x42]] from rfl]
    simp only [List.map_cons, List.map_nil, ha, hb]
    rfl
  unfold Cfg.Server.fromDefs
  simp only [pickOne, wDefs, List.findSome?_cons, List.findSome?_nil, applyPort, applyAddrs, applyBool, applyTimeout]
  simp only [reduceCtorEq, if_false, if_true, hi, Option.bind_some]
  rfl

theorem wConf_expand : (wConf.expand wNet).interfaces = wConf.interfaces := by
  show [[0x41] ++ (0x3a :: showNat 5075) ++ [], [0x42] ++ (0x3a :: showNat 5075) ++ []] = wConf.interfaces
  rw [n5075]
  rfl

theorem wConf_port : (wConf.expand wNet).tcpPort = 5075 ∧ (wConf.expand wNet).udpPort = 5076 := ⟨rfl, rfl⟩

/-- "If already in use then a random port will be chosen" does not hold of a server with two interfaces from the environment when there is another server on the host: the
constructor throws. -/
theorem C101_second : ∃ c, ({} : Cfg.Server).fromDefs wNet wFlt wDefs = some c ∧ c.tcpPort = 5075 ∧
    setup wNet (wHost [.v4 0 5075]) true true c = .throws "system_error" ∧ ∃ s, setup wNet (wHost []) true true c = .ok s := by
  refine ⟨wConf, wConf_defs, rfl, ?_, { effective := { (wConf.expand wNet) with tcpPort := 5075, udpPort := 5076 }, tcp := [.v4 1 5075, .v4 2 5075], udp := [.v4 1 5076, .v4 2 5076] }, ?_⟩
  · unfold setup
    simp only [wConf_expand]
    rfl
  · unfold setup
    simp only [wConf_expand]
    rfl

/-- If the port is taken on the first of two interfaces only, then the server listens with two ports and names that of the first: no client can connect through the second, though its
searches are answered there. -/
theorem C101_half : ∃ c s, ({} : Cfg.Server).fromDefs wNet wFlt wDefs = some c ∧ setup wNet (wHost [.v4 1 5075]) true true c = .ok s ∧
    s.effective.tcpPort = 40000 ∧ Listed wNet s { addr := .v4 2 5075 } ∧ ¬ Accepts s (.v4 2 0) s.effective.tcpPort ∧ Accepts s (.v4 2 0) 5075 := by
  refine ⟨wConf, { effective := { (wConf.expand wNet) with tcpPort := 40000, udpPort := 5076 }, tcp := [.v4 1 40000, .v4 2 5075], udp := [.v4 1 5076, .v4 2 5076] }, wConf_defs, ?_, rfl,
    ⟨[0x42, 0x3a, 0x35, 0x30, 0x37, 0x35], ?_, rfl, rfl⟩, ?_, ⟨.v4 2 5075, by simp, rfl, .inl rfl⟩⟩
  · unfold setup
    simp only [wConf_expand]
    rfl
  · show _ ∈ (wConf.expand wNet).interfaces
    rw [wConf_expand]
    simp [wConf]
  · rintro ⟨b, hb, hp, hc⟩
    simp only [List.mem_cons, List.not_mem_nil, or_false] at hb
    rcases hb with rfl | rfl
    · rcases hc with hc | hc <;> exact absurd hc (by decide)
    · exact absurd hp (by decide)

/-- The manual says of the interface list that port numbers are ignored.  They are not: a port with the second interface makes it unreachable. -/
theorem C101_port : ∃ c : Cfg.Server, c.interfaces = [[0x41], [0x42, 0x3a, 0x36, 0x30, 0x30, 0x30]] ∧ ∃ s, setup wNet (wHost []) true true c = .ok s ∧
    s.effective.tcpPort = 5075 ∧ Listed wNet s { addr := .v4 2 6000 } ∧ ¬ Accepts s (.v4 2 0) s.effective.tcpPort := by
  have hx : (({ interfaces := [[0x41], [0x42, 0x3a, 0x36, 0x30, 0x30, 0x30]] } : Cfg.Server).expand wNet).interfaces = [[0x41], [0x42, 0x3a, 0x36, 0x30, 0x30, 0x30]] := by
    show [[0x41], [0x42] ++ (0x3a :: showNat 6000) ++ []] = _
    rw [n6000]
    rfl
  refine ⟨{ interfaces := [[0x41], [0x42, 0x3a, 0x36, 0x30, 0x30, 0x30]] }, rfl,
    { effective := { (({ interfaces := [[0x41], [0x42, 0x3a, 0x36, 0x30, 0x30, 0x30]] } : Cfg.Server).expand wNet) with tcpPort := 5075, udpPort := 5076 },
      tcp := [.v4 1 5075, .v4 2 6000], udp := [.v4 1 5076, .v4 2 5076] }, ?_, rfl, ⟨[0x42, 0x3a, 0x36, 0x30, 0x30, 0x30], ?_, rfl, rfl⟩, ?_⟩
  · unfold setup
    simp only [hx]
    rfl
  · show _ ∈ (Cfg.Server.expand wNet { interfaces := [[0x41], [0x42, 0x3a, 0x36, 0x30, 0x30, 0x30]] }).interfaces
    rw [hx]
    simp
  · rintro ⟨b, hb, hp, hc⟩
    simp only [List.mem_cons, List.not_mem_nil, or_false] at hb
    rcases hb with rfl | rfl
    · rcases hc with hc | hc <;> exact absurd hc (by decide)
    · exact absurd hp (by decide)

/-- An interface together with the wildcard: the server can not be started, also when nothing else runs on the host. -/
theorem C101_overlap : setup wNet (wHost []) true true { interfaces := [[0x41], [0x5a]] } = .throws "system_error" := rfl

/-- An interface list of which no entry can be used is the same as none: the server listens on all interfaces. -/
theorem C101_typo : ∃ s, setup wNet (wHost []) true true { interfaces := [[0x51]] } = .ok s ∧ s.tcp = [.v6 0 5075] ∧ ∀ a, (∃ x p, a = .v4 x p) → Accepts s a 5075 :=
  ⟨_, rfl, rfl, fun a ⟨x, p, ha⟩ => ⟨.v6 0 5075, List.mem_singleton.mpr rfl, rfl, by subst ha; rfl⟩⟩

/-! Examples: the hypotheses are met -/

/-- two interfaces without ports, the port is taken on both -/
example : ∃ s, setup wNet (wHost [.v4 0 5075]) true true { interfaces := [[0x41], [0x42]] } = .ok s ∧ s.tcp = [.v4 1 40000, .v4 2 40000] ∧ s.effective.tcpPort = 40000 ∧
    s.effective.interfaces = [[0x41], [0x42]] ∧ s.udp = [.v4 1 5076, .v4 2 5076] := ⟨_, rfl, rfl, rfl, rfl, rfl⟩
example : ∀ e, (parseEndpoint wNet [0x41] 0 = some e ∨ parseEndpoint wNet [0x42] 0 = some e) → e.addr.port = 0 := by
  rintro e (h | h) <;> (injection h with h; subst h; rfl)
example : HostOK (wHost [.v4 0 5075]) := wHost_ok _
example : ∀ a : SockAddr, a.port = 5075 → Free (wHost [.v4 0 6000]) a := by
  intro a ha u hu hp
  have : u = .v4 0 6000 := List.mem_singleton.mp hu
  subst this
  rw [ha] at hp
  exact absurd hp (by decide)
/-- C101_fallback -/
example : (({ interfaces := [[0x41]] } : Cfg.Server).expand wNet).interfaces = [[0x41]] := rfl
example : (({ } : Cfg.Server).expand wNet).interfaces = [[0x5a]] := rfl

end Pvxs.Props.SrvAddr
