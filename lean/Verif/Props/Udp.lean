import Verif.Lemmas.Udp
/-
C47: UDP packets.
-/
namespace Pvxs.Props.Udp
open Wire Pvxs.Udp Spec.Udp Spec.Packet

/-! ### addresses -/

theorem isAny_iff (a : Addr) : isAny a = true ↔ IsAnyAddr a := by
  cases a with
  | unspec => simp [isAny, IsAnyAddr]
  | v4 p q r s => simp [isAny, IsAnyAddr]
  | v6 bs => simp [isAny, IsAnyAddr]

theorem isMCast_iff (a : Addr) : isMCast a = true ↔ IsGroup a := by
  cases a with
  | unspec => simp [isMCast, IsGroup]
  | v4 p q r s =>
    simp only [isMCast, IsGroup]
    have h : ∀ p : Byte, (p &&& 0xf0 == 0xe0) = true ↔ 224 ≤ p ∧ p < 240 := by
      intro p
      have h : ∀ n : Fin 256, (UInt8.ofNat n.val &&& 0xf0 == 0xe0) = true ↔ 224 ≤ UInt8.ofNat n.val ∧ UInt8.ofNat n.val < 240 := by decide +kernel
      have := h ⟨p.toNat, p.toNat_lt⟩
      simpa using this
    rw [h]
    simp
  | v6 bs =>
    cases bs <;> simp [isMCast, IsGroup]

theorem sameAddr_lo (a : Addr) : sameAddr a lo = true ↔ a = .v4 224 0 0 128 := by
  simp only [sameAddr, lo]
  constructor
  · intro h
    simp only [Bool.and_eq_true, beq_iff_eq] at h
    exact h.1
  · rintro rfl; decide

theorem outside_iff (dest : Ep) :
    (isV4 dest.addr && !sameAddr dest.addr lo) = true ↔ Outside dest := by
  simp only [Bool.and_eq_true, Bool.not_eq_true']
  rw [← Bool.not_eq_true, sameAddr_lo]
  unfold Outside isV4
  cases dest.addr with
  | unspec => simp
  | v6 bs => simp
  | v4 a b c d =>
    simp only [true_and, Addr.v4.injEq, ne_eq, Prod.mk.injEq]
    constructor
    · intro h; exact ⟨a, b, c, d, ⟨rfl, rfl, rfl, rfl⟩, h⟩
    · rintro ⟨_, _, _, _, ⟨rfl, rfl, rfl, rfl⟩, h⟩; exact h

/-! ### the body of a search -/

/-- the server as it is shown -/
theorem shows_iff (src : Ep) (q : Query) (s : Search) (tcp : Bool) : (Shows src q s ∧ ShowsNames tcp q s) ↔
    s = { server := ⟨if isAny q.addr then src.addr else q.addr, q.port⟩, searchID := q.id, mustReply := q.flags &&& 1 != 0,
          peerVersion := q.version, tcp := tcp || decide (tcpName ∈ q.protos),
          otherproto := q.protos.filter fun p => decide (p ≠ [] ∧ p ≠ tcpName),
          names := if tcp || decide (tcpName ∈ q.protos) then q.names.map fun y => (cstr y.1, y.2) else [] } := by
  have hn : shownNames q = q.names.map fun y => (cstr y.1, y.2) := by
    unfold shownNames cstr
    congr 1
    funext x
    congr 2
    funext b
    by_cases hb : b = 0 <;> simp [hb]
  constructor
  · rintro ⟨⟨h1, h2, h3, h4, h5, h6, h7⟩, h8, h9, h10⟩
    obtain ⟨⟨sa, sp⟩, sid, smr, spv, stcp, sop, sn⟩ := s
    simp only at *
    have e1 : smr = (q.flags &&& 1 != 0) := by
      rw [Bool.eq_iff_iff, h3]; simp [Query.mustReply]
    have e2 : stcp = (tcp || decide (tcpName ∈ q.protos)) := by
      rw [Bool.eq_iff_iff, h8]; simp [Query.viaTcp]
    have e3 : sa = if isAny q.addr then src.addr else q.addr := by
      split
      · rename_i h; exact h5 ((isAny_iff _).mp h)
      · rename_i h; exact h6 (fun h' => h ((isAny_iff _).mpr h'))
    have e4 : sn = if tcp || decide (tcpName ∈ q.protos) then q.names.map fun y => (cstr y.1, y.2) else [] := by
      rw [← e2, ← hn]
      cases stcp
      · exact h10 rfl
      · exact h9 rfl
    rw [e1, ← e2, e3, h1, h2, h4, h7]
    rw [← e2] at e4
    rw [e4]
  · rintro rfl
    refine ⟨⟨rfl, rfl, by simp [Query.mustReply], rfl, ?_, ?_, rfl⟩, by simp [Query.viaTcp], ?_, ?_⟩
    · intro h; simp [(isAny_iff _).mpr h]
    · intro h
      have : ¬(isAny q.addr = true) := fun h' => h ((isAny_iff _).mp h')
      simp [this]
    · intro h
      simp only at h
      rw [hn]
      simp only [h, if_true]
    · intro h
      simp only at h
      simp [h]

theorem onSearch_err (origin : Origin) (src dest : Ep) (pkt : List Byte) (version : Byte) (i : In) (tcp : Bool)
    (h : (getHead i).2.err = true) : (onSearch origin src dest pkt version i tcp).2 = [] := by
  unfold onSearch
  generalize getHead i = x at *
  obtain ⟨⟨id, flags, addr, port⟩, j⟩ := x
  simp only at h ⊢
  have hb := (reads_getBody tcp).err j h
  by_cases h1 : (isAny addr && origin == .tag) = true
  · rw [if_pos h1]
  · rw [if_neg h1]
    simp [h, hb]

theorem onSearch_ok (origin : Origin) (src dest : Ep) (pkt : List Byte) (version : Byte) (be : Bool) (body r : List Byte) (tcp : Bool)
    (id : Nat) (flags : Byte) (addr : Addr) (port : Nat) (h : getHead ⟨be, false, body⟩ = ((id, flags, addr, port), ⟨be, false, r⟩)) :
    ((origin = .tag ∧ IsAnyAddr addr) ∧ (onSearch origin src dest pkt version ⟨be, false, body⟩ tcp).2 = []) ∨
    (¬(origin = .tag ∧ IsAnyAddr addr) ∧ (flags &&& 0x80 ≠ 0 ∧ Outside dest) ∧ (onSearch origin src dest pkt version ⟨be, false, body⟩ tcp).2 =
      [if origin = .tag then .abort else .forward (forwarded be dest (if isAny addr then src.addr else addr) pkt)]) ∨
    (¬(origin = .tag ∧ IsAnyAddr addr) ∧ ¬(flags &&& 0x80 ≠ 0 ∧ Outside dest) ∧ (onSearch origin src dest pkt version ⟨be, false, body⟩ tcp).2 =
      if (getBody tcp ⟨be, false, r⟩).2.err then []
        else [.search dest ⟨⟨if isAny addr then src.addr else addr, port⟩, id, flags &&& 1 != 0, version, (getBody tcp ⟨be, false, r⟩).1.1.1,
          (getBody tcp ⟨be, false, r⟩).1.1.2, (getBody tcp ⟨be, false, r⟩).1.2⟩]) := by
  unfold onSearch
  rw [h]
  dsimp only
  generalize getBody tcp ⟨be, false, r⟩ = b
  have ha := isAny_iff addr
  have ho := outside_iff dest
  by_cases h1 : (isAny addr && origin == .tag) = true
  · left
    rw [if_pos h1]
    simp only [Bool.and_eq_true, beq_iff_eq] at h1
    exact ⟨⟨h1.2, ha.mp h1.1⟩, rfl⟩
  · rw [if_neg h1]
    right
    have h1' : ¬(origin = .tag ∧ IsAnyAddr addr) := by
      rintro ⟨h2, h3⟩
      apply h1
      simp [h2, ha.mpr h3]
    by_cases h2 : (!false && flags &&& 0x80 != 0 && isV4 dest.addr && !sameAddr dest.addr lo) = true
    · left
      rw [if_pos h2]
      rw [Bool.and_assoc, Bool.and_eq_true, ho] at h2
      refine ⟨h1', ⟨by simpa using h2.1, h2.2⟩, ?_⟩
      by_cases h3 : origin = .tag
      · simp [h3]
      · simp [h3]
    · right
      rw [if_neg h2]
      rw [Bool.and_assoc, Bool.and_eq_true, ho] at h2
      refine ⟨h1', fun ⟨h3, h4⟩ => h2 ⟨by simpa using h3, h4⟩, rfl⟩

/-- what is delivered -/
theorem onSearch_search (origin : Origin) (src dest : Ep) (pkt : List Byte) (version : Byte) (be : Bool) (body : List Byte) (tcp : Bool)
    (d : Ep) (s : Search) : Act.search d s ∈ (onSearch origin src dest pkt version ⟨be, false, body⟩ tcp).2 ↔
      d = dest ∧ ∃ q h b rest, q.version = version ∧ body = h ++ (b ++ rest) ∧ IsSearchHead be q.id q.flags q.addr q.port h ∧
        IsSearchBody be q.protos q.names b ∧ ¬(q.unicast ∧ Outside dest) ∧ ¬(origin = .tag ∧ IsAnyAddr q.addr) ∧
        Shows src q s ∧ ShowsNames tcp q s := by
  constructor
  · intro hs
    cases he : (getHead ⟨be, false, body⟩).2.err with
    | true => rw [onSearch_err _ _ _ _ _ _ _ he] at hs; cases hs
    | false =>
      have e := reads_getHead.ok he
      obtain ⟨h, hh, hG⟩ := (reads_getHead.exact _ _ _ _).mp e
      generalize (getHead ⟨be, false, body⟩).1 = x at *
      generalize (getHead ⟨be, false, body⟩).2.rest = r at *
      obtain ⟨id, flags, addr, port⟩ := x
      rcases onSearch_ok origin src dest pkt version be body r tcp id flags addr port e with ⟨_, h1⟩ | ⟨_, _, h1⟩ | ⟨hn, hu, h1⟩
      · rw [h1] at hs; cases hs
      · rw [h1] at hs
        split at hs <;> simp at hs
      · rw [h1] at hs
        cases hb : (getBody tcp ⟨be, false, r⟩).2.err with
        | true => simp [hb] at hs
        | false =>
          have eb := (reads_getBody tcp).ok hb
          obtain ⟨b, hr, protos, names, hB, hv⟩ := ((reads_getBody tcp).exact _ _ _ _).mp eb
          rw [hb, hv] at hs
          simp only [Bool.false_eq_true, if_false, List.mem_singleton, Act.search.injEq] at hs
          refine ⟨hs.1, ⟨version, id, flags, addr, port, protos, names⟩, h, b, _, rfl, by rw [hh, hr], hG, hB, hu, hn, ?_⟩
          rw [shows_iff]
          exact hs.2
  · rintro ⟨rfl, q, h, b, rest, rfl, rfl, hG, hB, hu, hn, hs⟩
    have e := (reads_getHead.exact be (h ++ (b ++ rest)) (q.id, q.flags, q.addr, q.port) (b ++ rest)).mpr ⟨h, rfl, hG⟩
    have eb := ((reads_getBody tcp).exact be (b ++ rest) _ rest).mpr ⟨b, rfl, q.protos, q.names, hB, rfl⟩
    rcases onSearch_ok origin src d pkt q.version be _ _ tcp _ _ _ _ e with ⟨h0, h1⟩ | ⟨_, h0, h1⟩ | ⟨_, _, h1⟩
    · exact absurd h0 hn
    · exact absurd h0 hu
    · rw [h1, eb]
      simp only [Bool.false_eq_true, if_false, List.mem_singleton, Act.search.injEq, true_and]
      exact (shows_iff src q s tcp).mp hs

/-- what is passed on, and when an assertion fails -/
theorem onSearch_other (origin : Origin) (src dest : Ep) (pkt : List Byte) (version : Byte) (be : Bool) (body : List Byte) (tcp : Bool)
    (a : Act) (ha : ∀ d s, a ≠ .search d s) : a ∈ (onSearch origin src dest pkt version ⟨be, false, body⟩ tcp).2 ↔
      ∃ id flags addr port h rest, body = h ++ rest ∧ IsSearchHead be id flags addr port h ∧ flags &&& 0x80 ≠ 0 ∧ Outside dest ∧
        ¬(origin = .tag ∧ IsAnyAddr addr) ∧
        a = if origin = .tag then .abort else .forward (forwarded be dest (if isAny addr then src.addr else addr) pkt) := by
  constructor
  · intro hs
    cases he : (getHead ⟨be, false, body⟩).2.err with
    | true => rw [onSearch_err _ _ _ _ _ _ _ he] at hs; cases hs
    | false =>
      have e := reads_getHead.ok he
      obtain ⟨h, hh, hG⟩ := (reads_getHead.exact _ _ _ _).mp e
      generalize (getHead ⟨be, false, body⟩).1 = x at *
      generalize (getHead ⟨be, false, body⟩).2.rest = r at *
      obtain ⟨id, flags, addr, port⟩ := x
      rcases onSearch_ok origin src dest pkt version be body r tcp id flags addr port e with ⟨_, h1⟩ | ⟨hn, hu, h1⟩ | ⟨hn, hu, h1⟩
      · rw [h1] at hs; cases hs
      · rw [h1] at hs
        exact ⟨id, flags, addr, port, h, r, hh, hG, hu.1, hu.2, hn, List.mem_singleton.mp hs⟩
      · rw [h1] at hs
        split at hs
        · cases hs
        · exact absurd (List.mem_singleton.mp hs) (ha _ _)
  · rintro ⟨id, flags, addr, port, h, rest, rfl, hG, hu, ho, hn, rfl⟩
    have e := (reads_getHead.exact be (h ++ rest) (id, flags, addr, port) rest).mpr ⟨h, rfl, hG⟩
    rcases onSearch_ok origin src dest pkt version be _ _ tcp _ _ _ _ e with ⟨h0, h1⟩ | ⟨_, h0, h1⟩ | ⟨_, h0, h1⟩
    · exact absurd h0 hn
    · rw [h1]; exact List.mem_singleton.mpr rfl
    · exact absurd ⟨hu, ho⟩ h0

/-! ### packets -/

theorem processWith_msg {pkt : List Byte} {be : Bool} {cmd version : Byte} {len : Nat} {body : List Byte} (hm : IsMessage pkt be cmd version len body)
    (nested : Ep → List Byte → Bool → Bool × List Act) (bindPort : Nat) (origin : Origin) (src dest : Ep) (tcp : Bool) :
    processWith nested bindPort origin src dest pkt tcp =
      if cmd = 3 then onSearch origin src dest pkt version ⟨be, false, body⟩ tcp
      else if cmd = 0 then (tcp, onBeacon src dest version ⟨be, false, body⟩)
      else if cmd = 22 then
        if !((getAddr ⟨be, false, body⟩).2.skip ((len + 2 ^ 32 - 16) % 2 ^ 32)).err && origin == .local_ && sameAddr dest.addr lo then
          nested ⟨(getAddr ⟨be, false, body⟩).1, bindPort⟩ ((getAddr ⟨be, false, body⟩).2.skip ((len + 2 ^ 32 - 16) % 2 ^ 32)).rest tcp
        else (tcp, [])
      else (tcp, []) := by
  obtain ⟨⟨flags, h, hh, hf, rfl⟩, hl⟩ := hm
  have e := ((header_iff true (h ++ body) ⟨cmd, flags, version, len⟩ ⟨be, false, body⟩).mpr ⟨rfl, h, rfl, hh⟩).1
  unfold processWith
  rw [e]
  dsimp only
  have hf' : (false || flags &&& (flagControl ||| flagSegMask) != 0) = false := by
    have : flagControl ||| flagSegMask = (0x31 : Byte) := by decide
    rw [this, hf]; rfl
  rw [hf', if_neg (by decide), if_neg (by omega)]

theorem processWith_none {pkt : List Byte} (hm : ¬∃ be cmd version len body, IsMessage pkt be cmd version len body)
    (nested : Ep → List Byte → Bool → Bool × List Act) (bindPort : Nat) (origin : Origin) (src dest : Ep) (tcp : Bool) :
    processWith nested bindPort origin src dest pkt tcp = (tcp, []) := by
  unfold processWith
  cases he : (getHeader ⟨true, false, pkt⟩).2.err with
  | true => simp [he]
  | false =>
    obtain ⟨_, h, hp, hh⟩ := (header_iff true pkt (getHeader ⟨true, false, pkt⟩).1 (getHeader ⟨true, false, pkt⟩).2).mp ⟨rfl, he⟩
    generalize getHeader ⟨true, false, pkt⟩ = x at *
    by_cases hf : x.1.flags &&& (flagControl ||| flagSegMask) = 0
    · by_cases hl : x.1.len > x.2.rest.length
      · simp only [he, hf, hl]; simp
      · exact absurd ⟨x.2.be, x.1.cmd, x.1.version, x.1.len, x.2.rest, ⟨x.1.flags, h, hh, hf, hp⟩, by omega⟩ hm
    · rw [if_pos (by simp [hf])]

/-- a packet without its envelope -/
def Direct (origin : Origin) (src dest : Ep) (pkt : List Byte) (tcp : Bool) (a : Act) : Prop :=
  ∃ be cmd version len body, IsMessage pkt be cmd version len body ∧
    ((cmd = 3 ∧ a ∈ (onSearch origin src dest pkt version ⟨be, false, body⟩ tcp).2) ∨
     (cmd = 0 ∧ a ∈ onBeacon src dest version ⟨be, false, body⟩))

theorem processTag_iff (bindPort : Nat) (src dest : Ep) (pkt : List Byte) (tcp : Bool) (a : Act) :
    a ∈ (processTag bindPort src dest pkt tcp).2 ↔ Direct .tag src dest pkt tcp a := by
  unfold processTag
  by_cases hm : ∃ be cmd version len body, IsMessage pkt be cmd version len body
  · constructor
    · obtain ⟨be, cmd, version, len, body, hm⟩ := hm
      rw [processWith_msg hm]
      intro ha
      refine ⟨be, cmd, version, len, body, hm, ?_⟩
      split at ha
      · rename_i h; exact Or.inl ⟨h, ha⟩
      · split at ha
        · rename_i h; exact Or.inr ⟨h, ha⟩
        · split at ha
          · split at ha <;> cases ha
          · cases ha
    · rintro ⟨be, cmd, version, len, body, hm, ⟨rfl, ha⟩ | ⟨rfl, ha⟩⟩
      · rw [processWith_msg hm]; exact ha
      · rw [processWith_msg hm]; exact ha
  · rw [processWith_none hm]
    constructor
    · intro h; cases h
    · rintro ⟨be, cmd, version, len, body, h, _⟩
      exact absurd ⟨be, cmd, version, len, body, h⟩ hm

theorem reads_tag (n : Nat) : Reads (fun i => ((getAddr i).1, (getAddr i).2.skip n))
    (fun _ a bs => ∃ u v, bs = u ++ v ∧ IsAddr a u ∧ v.length = n) := by
  have h := reads_getAddr.bind fun x => (reads_skip n).bind fun _ => Reads.pure x
  refine Reads.imp (d := fun i => ((getAddr i).1, (getAddr i).2.skip n)) h ?_
  intro be a bs
  constructor
  · rintro ⟨x, u, v, rfl, hu, _, u', v', rfl, hv, rfl, rfl⟩; exact ⟨u, u', by simp, hu, hv⟩
  · rintro ⟨u, v, rfl, hu, hv⟩; exact ⟨a, u, v, rfl, hu, (), v, [], by simp, hv, rfl, rfl⟩

theorem tagged_iff (be : Bool) (len : Nat) (body : List Byte) (hl : len ≤ body.length) (hb : body.length ≤ 0x10000) (a : Addr) (inner : List Byte) :
    (((getAddr ⟨be, false, body⟩).2.skip ((len + 2 ^ 32 - 16) % 2 ^ 32)).err = false ∧ (getAddr ⟨be, false, body⟩).1 = a ∧
      ((getAddr ⟨be, false, body⟩).2.skip ((len + 2 ^ 32 - 16) % 2 ^ 32)).rest = inner) ↔
    ∃ b more, body = b ++ (more ++ inner) ∧ IsAddr a b ∧ len = 16 + more.length := by
  have hR := reads_tag ((len + 2 ^ 32 - 16) % 2 ^ 32)
  have hB := hR.be ⟨be, false, body⟩
  have h := hR.exact be body a inner
  have h1 : (((getAddr ⟨be, false, body⟩).2.skip ((len + 2 ^ 32 - 16) % 2 ^ 32)).err = false ∧ (getAddr ⟨be, false, body⟩).1 = a ∧
      ((getAddr ⟨be, false, body⟩).2.skip ((len + 2 ^ 32 - 16) % 2 ^ 32)).rest = inner) ↔
      ((getAddr ⟨be, false, body⟩).1, (getAddr ⟨be, false, body⟩).2.skip ((len + 2 ^ 32 - 16) % 2 ^ 32)) = (a, ⟨be, false, inner⟩) := by
    simp only at hB
    generalize (getAddr ⟨be, false, body⟩).2.skip ((len + 2 ^ 32 - 16) % 2 ^ 32) = y at *
    obtain ⟨yb, ye, yr⟩ := y
    simp only at hB
    subst hB
    simp only [Prod.mk.injEq, In.mk.injEq, true_and]
    exact ⟨fun ⟨a, b, c⟩ => ⟨b, a, c⟩, fun ⟨b, a, c⟩ => ⟨a, b, c⟩⟩
  rw [h1]
  refine h.trans ?_
  constructor
  · rintro ⟨bs, rfl, u, v, rfl, hu, hv⟩
    refine ⟨u, v, by simp, hu, ?_⟩
    simp only [List.length_append] at hl hb
    by_cases h16 : 16 ≤ len
    · have : (len + 2 ^ 32 - 16) % 2 ^ 32 = len - 16 := by omega
      omega
    · exfalso
      have : (len + 2 ^ 32 - 16) % 2 ^ 32 = len + 2 ^ 32 - 16 := Nat.mod_eq_of_lt (by omega)
      omega
  · rintro ⟨b, more, rfl, ha, hlen⟩
    refine ⟨b ++ more, by simp, b, more, rfl, ha, ?_⟩
    simp only [List.length_append] at hl hb
    omega

theorem process_iff (bindPort : Nat) (origin : Origin) (ho : origin ≠ .tag) (src dest : Ep) (pkt : List Byte) (hl : pkt.length ≤ 0x10000) (tcp : Bool) (a : Act) :
    a ∈ (process bindPort origin src dest pkt tcp).2 ↔ Direct origin src dest pkt tcp a ∨
      (origin = .local_ ∧ dest.addr = .v4 224 0 0 128 ∧ ∃ x inner, IsTagged pkt x inner ∧ Direct .tag src ⟨x, bindPort⟩ inner tcp a) := by
  unfold process
  by_cases hm : ∃ be cmd version len body, IsMessage pkt be cmd version len body
  · constructor
    · obtain ⟨be, cmd, version, len, body, hm⟩ := hm
      have hb : body.length ≤ 0x10000 := by
        obtain ⟨⟨_, h, _, _, rfl⟩, _⟩ := hm
        rw [List.length_append] at hl
        omega
      rw [processWith_msg hm]
      intro ha
      split at ha
      · rename_i h; exact Or.inl ⟨be, cmd, version, len, body, hm, Or.inl ⟨h, ha⟩⟩
      · split at ha
        · rename_i h; exact Or.inl ⟨be, cmd, version, len, body, hm, Or.inr ⟨h, ha⟩⟩
        · split at ha
          · rename_i hc
            subst hc
            split at ha
            · rename_i h
              simp only [Bool.and_eq_true, Bool.not_eq_true', beq_iff_eq, sameAddr_lo] at h
              obtain ⟨⟨h1, h2⟩, h3⟩ := h
              right
              obtain ⟨b, more, hbody, h4, h5⟩ := (tagged_iff be len body hm.complete hb _ _).mp ⟨h1, rfl, rfl⟩
              exact ⟨h2, h3, _, _, ⟨be, version, len, b, more, hbody ▸ hm, h4, h5⟩, (processTag_iff _ _ _ _ _ _).mp ha⟩
            · cases ha
          · cases ha
    · rintro (⟨be, cmd, version, len, body, hm, ⟨rfl, ha⟩ | ⟨rfl, ha⟩⟩ | ⟨rfl, h2, x, inner, ⟨be, version, len, b, more, hm, h3, h4⟩, hd⟩)
      · rw [processWith_msg hm]; exact ha
      · rw [processWith_msg hm]; exact ha
      · rw [processWith_msg hm]
        have hb : (b ++ (more ++ inner)).length ≤ 0x10000 := by
          obtain ⟨⟨_, h, _, _, rfl⟩, _⟩ := hm
          rw [List.length_append] at hl
          omega
        obtain ⟨h5, h6, h7⟩ := (tagged_iff be len _ hm.complete hb x inner).mpr ⟨b, more, rfl, h3, h4⟩
        rw [if_neg (by decide), if_neg (by decide), if_pos rfl, h5, h6, h7, if_pos]
        · exact (processTag_iff _ _ _ _ _ _).mpr hd
        · simp [sameAddr_lo, h2]
  · rw [processWith_none hm]
    constructor
    · intro h; cases h
    · rintro (⟨be, cmd, version, len, body, h, _⟩ | ⟨_, _, x, inner, ⟨be, version, len, b, more, h, _⟩, _⟩)
      · exact absurd ⟨be, cmd, version, len, body, h⟩ hm
      · exact absurd ⟨be, _, version, len, _, h⟩ hm

/-- a search, without its envelope -/
theorem direct_search (origin : Origin) (src dest : Ep) (pkt : List Byte) (tcp : Bool) (d : Ep) (s : Search) :
    Direct origin src dest pkt tcp (.search d s) ↔ d = dest ∧ ∃ q, IsQuery pkt q ∧ ¬(q.unicast ∧ Outside dest) ∧
      ¬(origin = .tag ∧ IsAnyAddr q.addr) ∧ Shows src q s ∧ ShowsNames tcp q s := by
  constructor
  · rintro ⟨be, cmd, version, len, body, hm, ⟨rfl, ha⟩ | ⟨rfl, ha⟩⟩
    · rw [onSearch_search] at ha
      obtain ⟨hd, q, h, b, rest, rfl, rfl, h1, h2, h3, h4, h5⟩ := ha
      exact ⟨hd, q, ⟨be, b, rest, ⟨len, h, hm, h1⟩, h2⟩, h3, h4, h5⟩
    · unfold onBeacon at ha
      simp only at ha
      split at ha
      · cases ha
      · simp at ha
  · rintro ⟨hd, q, ⟨be, b, rest, ⟨len, h, hm, h1⟩, h2⟩, h3, h4, h5⟩
    refine ⟨be, 3, q.version, len, _, hm, Or.inl ⟨rfl, ?_⟩⟩
    rw [onSearch_search]
    exact ⟨hd, q, h, b, rest, rfl, rfl, h1, h2, h3, h4, h5⟩

theorem direct_other (origin : Origin) (src dest : Ep) (pkt : List Byte) (tcp : Bool) (a : Act) (ha : ∀ d s, a ≠ .search d s) (hb : ∀ d b, a ≠ .beacon d b) :
    Direct origin src dest pkt tcp a ↔ ∃ version id flags addr port be rest, BeginsQuery pkt version id flags addr port be rest ∧
      flags &&& 0x80 ≠ 0 ∧ Outside dest ∧ ¬(origin = .tag ∧ IsAnyAddr addr) ∧
      a = if origin = .tag then .abort else .forward (forwarded be dest (if isAny addr then src.addr else addr) pkt) := by
  constructor
  · rintro ⟨be, cmd, version, len, body, hm, ⟨rfl, h⟩ | ⟨rfl, h⟩⟩
    · rw [onSearch_other _ _ _ _ _ _ _ _ _ ha] at h
      obtain ⟨id, flags, addr, port, hh, rest, rfl, h1, h2, h3, h4, h5⟩ := h
      exact ⟨version, id, flags, addr, port, be, rest, ⟨len, hh, hm, h1⟩, h2, h3, h4, h5⟩
    · unfold onBeacon at h
      simp only at h
      split at h
      · cases h
      · exact absurd (List.mem_singleton.mp h) (hb _ _)
  · rintro ⟨version, id, flags, addr, port, be, rest, ⟨len, hh, hm, h1⟩, h2, h3, h4, h5⟩
    refine ⟨be, 3, version, len, _, hm, Or.inl ⟨rfl, ?_⟩⟩
    rw [onSearch_other _ _ _ _ _ _ _ _ _ ha]
    exact ⟨id, flags, addr, port, hh, rest, rfl, h1, h2, h3, h4, h5⟩

theorem onSearch_one (origin : Origin) (src dest : Ep) (pkt : List Byte) (version : Byte) (i : In) (tcp : Bool) :
    (onSearch origin src dest pkt version i tcp).2.length ≤ 1 := by
  unfold onSearch
  generalize getHead i = x
  obtain ⟨⟨id, flags, addr, port⟩, j⟩ := x
  dsimp only
  generalize getBody tcp j = b
  split
  · simp
  · split
    · split <;> simp
    · dsimp only
      split <;> simp

theorem onBeacon_one (src dest : Ep) (version : Byte) (i : In) : (onBeacon src dest version i).length ≤ 1 := by
  unfold onBeacon
  dsimp only
  split <;> simp

theorem processWith_one {nested : Ep → List Byte → Bool → Bool × List Act} (hn : ∀ d p t, (nested d p t).2.length ≤ 1) (bindPort : Nat)
    (origin : Origin) (src dest : Ep) (pkt : List Byte) (tcp : Bool) : (processWith nested bindPort origin src dest pkt tcp).2.length ≤ 1 := by
  unfold processWith
  generalize getHeader ⟨true, false, pkt⟩ = h
  dsimp only
  split
  · simp
  · split
    · simp
    · split
      · exact onSearch_one ..
      · split
        · exact onBeacon_one ..
        · split
          · split
            · exact hn ..
            · simp
          · simp

/-- C47, one act for each packet -/
theorem receive_one (isLocal : Addr → Bool) (bindPort : Nat) (src dest : Ep) (pkt : List Byte) (tcp : Bool) :
    (receive isLocal bindPort src dest pkt tcp).2.length ≤ 1 := by
  unfold receive
  split
  · simp
  · exact processWith_one (fun d p t => processWith_one (fun _ _ _ => by simp) ..) ..

theorem receive_iff (isLocal : Addr → Bool) (bindPort : Nat) (src dest : Ep) (pkt : List Byte) (hl : pkt.length ≤ 0x10000) (tcp : Bool) (a : Act) :
    a ∈ (receive isLocal bindPort src dest pkt tcp).2 ↔ ¬IsGroup src.addr ∧
      (Direct (if isLocal src.addr then .local_ else .remote) src ⟨dest.addr, bindPort⟩ pkt tcp a ∨
        (isLocal src.addr = true ∧ dest.addr = .v4 224 0 0 128 ∧ ∃ x inner, IsTagged pkt x inner ∧ Direct .tag src ⟨x, bindPort⟩ inner tcp a)) := by
  unfold receive
  by_cases hg : isMCast src.addr = true
  · rw [if_pos hg]
    have := (isMCast_iff _).mp hg
    simp [this]
  · rw [if_neg hg, process_iff _ _ (by split <;> simp) _ _ _ hl]
    rw [isMCast_iff] at hg
    simp only [hg, not_false_eq_true, true_and]
    cases isLocal src.addr <;> simp

/-- C47: a search is delivered exactly when the packet holds one which is not to be passed on first, either by itself, or after the original
destination if it comes from this host through the local group (and only one level deep, as what follows must be a search); what is delivered
is what is in the packet.  A packet is no longer than the buffer. -/
theorem C47_search (isLocal : Addr → Bool) (bindPort : Nat) (src dest : Ep) (pkt : List Byte) (hl : pkt.length ≤ 0x10000) (tcp : Bool)
    (d : Ep) (s : Search) :
    .search d s ∈ (receive isLocal bindPort src dest pkt tcp).2 ↔ ¬IsGroup src.addr ∧
      ((d = ⟨dest.addr, bindPort⟩ ∧ ∃ q, IsQuery pkt q ∧ ¬(q.unicast ∧ Outside dest) ∧ Shows src q s ∧ ShowsNames tcp q s) ∨
        (isLocal src.addr = true ∧ dest.addr = .v4 224 0 0 128 ∧ ∃ a inner q, IsTagged pkt a inner ∧ d = ⟨a, bindPort⟩ ∧ IsQuery inner q ∧
          ¬IsAnyAddr q.addr ∧ ¬(q.unicast ∧ Outside d) ∧ Shows src q s ∧ ShowsNames tcp q s)) := by
  rw [receive_iff _ _ _ _ _ hl]
  refine and_congr Iff.rfl (or_congr ?_ (and_congr Iff.rfl (and_congr Iff.rfl ?_)))
  · rw [direct_search]
    have : (if isLocal src.addr then Origin.local_ else .remote) ≠ .tag := by split <;> simp
    simp only [this, false_and, not_false_eq_true, true_and]
    rfl
  · constructor
    · rintro ⟨x, inner, ht, hd⟩
      rw [direct_search] at hd
      obtain ⟨rfl, q, h1, h2, h3, h4⟩ := hd
      exact ⟨x, inner, q, ht, rfl, h1, fun h => h3 ⟨rfl, h⟩, h2, h4⟩
    · rintro ⟨x, inner, q, ht, rfl, h1, h3, h2, h4⟩
      exact ⟨x, inner, ht, (direct_search ..).mpr ⟨rfl, q, h1, h2, fun h => h3 h.2, h4⟩⟩

theorem reads_beacon : Reads (fun i => (((fromWireMem i 12 false).1, (getAddr ((fromWireMem i 12 false).2.skip 4)).1,
      (getInt 2 (getAddr ((fromWireMem i 12 false).2.skip 4)).2).1, (getStr (getInt 2 (getAddr ((fromWireMem i 12 false).2.skip 4)).2).2).1),
      (getStr (getInt 2 (getAddr ((fromWireMem i 12 false).2.skip 4)).2).2).2))
    (fun be x bs => ∃ g f a p s, bs = g ++ (f ++ (a ++ (p ++ s))) ∧ g.length = 12 ∧ x.1 = some g ∧ f.length = 4 ∧ IsAddr x.2.1 a ∧ IsNum be 2 x.2.2.1 p ∧
      IsStr be x.2.2.2 s) := by
  have h := (Reads.take 12 (fun _ bs => some bs) none).bind fun g => (reads_skip 4).bind fun _ => reads_getAddr.bind fun a => (reads_getInt 2).bind fun p =>
    reads_getStr.bind fun s => Reads.pure (g, a, p, s)
  have e : (fun i => fromWireMem i 12 false) = fun i => if !i.ensure 12 then (none, i.fault) else (some (i.rest.take 12), { i with rest := i.rest.drop 12 }) := by
    funext i
    simp [fromWireMem]
  rw [← e] at h
  refine Reads.imp (d := _) h ?_
  rintro be ⟨g, a, p, s⟩ bs
  constructor
  · rintro ⟨g', u1, v1, rfl, ⟨h1, rfl⟩, _, u2, v2, rfl, h2, a', u3, v3, rfl, h3, p', u4, v4, rfl, h4, s', u5, v5, rfl, h5, h6, rfl⟩
    simp only [Prod.mk.injEq] at h6
    obtain ⟨rfl, rfl, rfl, rfl⟩ := h6
    exact ⟨u1, u2, u3, u4, u5, by simp, h1, rfl, h2, h3, h4, h5⟩
  · rintro ⟨u1, u2, u3, u4, u5, rfl, h1, h0, h2, h3, h4, h5⟩
    simp only at h0 h3 h4 h5
    subst h0
    exact ⟨_, u1, _, rfl, ⟨h1, rfl⟩, (), u2, _, rfl, h2, a, u3, _, rfl, h3, p, u4, _, rfl, h4, s, u5, [], by simp, h5, rfl, rfl⟩

theorem showsBeacon_iff (src : Ep) (x : Announce) (b : Beacon) : ShowsBeacon src x b ↔
    b = ⟨src, x.guid, ⟨if isAny x.addr then src.addr else x.addr, x.port⟩, x.proto, x.version⟩ := by
  have ha := isAny_iff x.addr
  constructor
  · rintro ⟨h1, h2, h3, h4, h5, h6, h7⟩
    obtain ⟨bs, bg, ⟨ba, bp⟩, bpr, bv⟩ := b
    simp only at *
    subst h1 h2 h3 h4 h5
    congr 2
    split
    · rename_i h; exact h6 (ha.mp h)
    · rename_i h; exact h7 (fun h' => h (ha.mpr h'))
  · rintro rfl
    refine ⟨rfl, rfl, rfl, rfl, rfl, fun h => by simp [ha.mpr h], fun h => ?_⟩
    have : ¬(isAny x.addr = true) := fun h' => h (ha.mp h')
    simp [this]

theorem direct_beacon (origin : Origin) (src dest : Ep) (pkt : List Byte) (tcp : Bool) (d : Ep) (b : Beacon) :
    Direct origin src dest pkt tcp (.beacon d b) ↔ d = dest ∧ ∃ x, IsAnnounce pkt x ∧ ShowsBeacon src x b := by
  constructor
  · rintro ⟨be, cmd, version, len, body, hm, ⟨rfl, ha⟩ | ⟨rfl, ha⟩⟩
    · exfalso
      have hone := onSearch_one origin src dest pkt version ⟨be, false, body⟩ tcp
      have hx := (onSearch_other origin src dest pkt version be body tcp (.beacon d b) (by simp)).mp ha
      obtain ⟨_, _, _, _, _, _, _, _, _, _, _, h⟩ := hx
      split at h <;> cases h
    · unfold onBeacon at ha
      dsimp only at ha
      split at ha
      · cases ha
      · rename_i he
        have he := Bool.not_eq_true _ ▸ he
        obtain ⟨rest, hok⟩ := (⟨_, reads_beacon.ok (be := be) (l := body) he⟩ : ∃ r, _ = (_, In.mk be false r))
        obtain ⟨bs, hb, g, f, a, p, s, rfl, h1, h2, h3, h4, h5, h6⟩ := (reads_beacon.exact _ _ _ _).mp hok
        simp only at h2 h4 h5 h6 hb
        simp only [List.mem_singleton, Act.beacon.injEq] at ha
        refine ⟨ha.1, ⟨version, g, _, _, _⟩, ⟨be, len, f, a, p, s, rest, ?_, h1, h3, h4, h5, h6⟩, ?_⟩
        · rw [hb] at hm
          simpa using hm
        · rw [showsBeacon_iff, ha.2, h2]
          rfl
  · rintro ⟨rfl, x, ⟨be, len, f, a, p, s, rest, hm, h1, h2, h3, h4, h5⟩, hs⟩
    refine ⟨be, 0, x.version, len, _, hm, Or.inr ⟨rfl, ?_⟩⟩
    have e := (reads_beacon.exact be (x.guid ++ (f ++ (a ++ (p ++ (s ++ rest))))) (some x.guid, x.addr, x.port, x.proto) rest).mpr
      ⟨_, by simp, x.guid, f, a, p, s, rfl, h1, rfl, h2, h3, h4, h5⟩
    simp only [Prod.mk.injEq] at e
    obtain ⟨⟨e1, e2, e3, e4⟩, e5⟩ := e
    unfold onBeacon
    dsimp only
    rw [e1, e2, e3, e4, e5]
    simp only [Bool.false_eq_true, if_false, List.mem_singleton, Act.beacon.injEq, true_and]
    exact (showsBeacon_iff _ _ _).mp hs

/-- C47, beacons: delivered as they are in the packet -/
theorem C47_beacon (isLocal : Addr → Bool) (bindPort : Nat) (src dest : Ep) (pkt : List Byte) (hl : pkt.length ≤ 0x10000) (tcp : Bool)
    (d : Ep) (b : Beacon) :
    .beacon d b ∈ (receive isLocal bindPort src dest pkt tcp).2 ↔ ¬IsGroup src.addr ∧
      ((d = ⟨dest.addr, bindPort⟩ ∧ ∃ x, IsAnnounce pkt x ∧ ShowsBeacon src x b) ∨
        (isLocal src.addr = true ∧ dest.addr = .v4 224 0 0 128 ∧ ∃ a inner x, IsTagged pkt a inner ∧ d = ⟨a, bindPort⟩ ∧ IsAnnounce inner x ∧
          ShowsBeacon src x b)) := by
  rw [receive_iff _ _ _ _ _ hl]
  refine and_congr Iff.rfl (or_congr (direct_beacon ..) (and_congr Iff.rfl (and_congr Iff.rfl ?_)))
  constructor
  · rintro ⟨a, inner, ht, hd⟩
    obtain ⟨rfl, x, h1, h2⟩ := (direct_beacon ..).mp hd
    exact ⟨a, inner, x, ht, rfl, h1, h2⟩
  · rintro ⟨a, inner, x, ht, rfl, h1, h2⟩
    exact ⟨a, inner, ht, (direct_beacon ..).mpr ⟨rfl, x, h1, h2⟩⟩

/-! ### passing on -/

theorem num_length {be : Bool} {n v : Nat} {bs : List Byte} (h : IsNum be n v bs) : bs.length = n := ((num_iff be n v bs).mpr h).1

theorem addr_length {a : Addr} {bs : List Byte} (h : IsAddr a bs) : bs.length = 16 := by
  rcases h with ⟨p, q, r, s, _, rfl⟩ | ⟨_, h, _⟩
  · rfl
  · exact h

theorem header_length {be : Bool} {cmd flags version : Byte} {len : Nat} {bs : List Byte} (h : IsHeader be cmd flags version len bs) :
    bs.length = 8 := by
  obtain ⟨d, hd, rfl⟩ := h.bytes
  simp [num_length hd]

theorem putAddr_addr {a : Addr} {bs : List Byte} (h : IsAddr a bs) (o : Out) (ho : o.err = false) (hr : o.room = none) :
    putAddr [] o a = { o with data := o.data ++ bs } := by
  have he : o.ensure 16 = true := by simp [Out.ensure, ho, hr]
  rcases h with ⟨p, q, r, s, rfl, rfl⟩ | ⟨rfl, h, _⟩
  · simp [putAddr, he, Out.put, hr, v4prefix]
  · simp [putAddr, he, Out.put, hr]

/-- the destination, before the packet -/
def tagBytes : List Byte := [0xca, 2, 0x80, 22, 0, 0, 0, 16]

theorem tag_header : IsHeader true 22 0x80 2 16 tagBytes :=
  ⟨rfl, by decide, [0, 0, 0, 16], ⟨by decide, by decide⟩, rfl⟩

theorem forwarded_eq (be : Bool) (dest : Ep) (reply : Addr) {h i r a t d a' : List Byte} {flags : Byte} (hh : h.length = 8) (hi : i.length = 4)
    (hr : r.length = 3) (ha : a.length = 16) (hd : IsAddr dest.addr d) (ha' : IsAddr reply a') :
    forwarded be dest reply (h ++ (i ++ (flags :: (r ++ (a ++ t))))) = tagBytes ++ (d ++ (h ++ (i ++ ((flags &&& 0x7f) :: (r ++ (a' ++ t)))))) := by
  have e12 : (h ++ (i ++ (flags :: (r ++ (a ++ t))))).take 12 = h ++ i := by
    rw [← List.append_assoc]; exact List.take_left' (by simp [hh, hi])
  have d12 : (h ++ (i ++ (flags :: (r ++ (a ++ t))))).drop 12 = flags :: (r ++ (a ++ t)) := by
    rw [← List.append_assoc]; exact List.drop_left' (by simp [hh, hi])
  have d13 : (h ++ (i ++ (flags :: (r ++ (a ++ t))))).drop 13 = r ++ (a ++ t) := by
    have : h ++ (i ++ (flags :: (r ++ (a ++ t)))) = (h ++ (i ++ [flags])) ++ (r ++ (a ++ t)) := by simp
    rw [this]; exact List.drop_left' (by simp [hh, hi])
  have d32 : (h ++ (i ++ (flags :: (r ++ (a ++ t))))).drop 32 = t := by
    have : h ++ (i ++ (flags :: (r ++ (a ++ t)))) = (h ++ (i ++ ([flags] ++ (r ++ a)))) ++ t := by simp
    rw [this]; exact List.drop_left' (by simp [hh, hi, hr, ha])
  have t3 : (r ++ (a ++ t)).take 3 = r := List.take_left' hr
  have hp : putHeader { be := true } ⟨22, 0, 0, 16⟩ = { be := true, data := tagBytes } := by decide
  unfold forwarded
  dsimp only
  rw [e12, d12, d13, d32, t3, hp, putAddr_addr hd _ rfl rfl, putAddr_addr ha' _ rfl rfl]
  simp

/-- C47, passing on: only from outside of the local group; with the address to reply to -/
theorem C47_forward (isLocal : Addr → Bool) (bindPort : Nat) (src dest : Ep) (pkt : List Byte) (hl : pkt.length ≤ 0x10000) (tcp : Bool)
    (hsrc : ∃ bs, IsAddr src.addr bs) (bytes : List Byte) (h : .forward bytes ∈ (receive isLocal bindPort src dest pkt tcp).2) :
    ¬IsGroup src.addr ∧ Outside dest ∧ ∃ version id flags addr port be rest, BeginsQuery pkt version id flags addr port be rest ∧ flags &&& 0x80 ≠ 0 ∧
      ∃ reply, (IsAnyAddr addr → reply = src.addr) ∧ (¬IsAnyAddr addr → reply = addr) ∧ IsForward dest.addr reply pkt bytes := by
  rw [receive_iff _ _ _ _ _ hl] at h
  obtain ⟨hg, h | ⟨_, _, x, inner, _, h⟩⟩ := h
  · rw [direct_other _ _ _ _ _ _ (by simp) (by simp)] at h
    obtain ⟨version, id, flags, addr, port, be, rest, hq, hu, ho, _, hb⟩ := h
    have hne : (if isLocal src.addr then Origin.local_ else .remote) ≠ .tag := by split <;> simp
    rw [if_neg hne] at hb
    injection hb with hb
    refine ⟨hg, ho, version, id, flags, addr, port, be, rest, hq, hu, if isAny addr then src.addr else addr, ?_, ?_, ?_⟩
    · intro h; simp [(isAny_iff addr).mpr h]
    · intro h
      have : ¬(isAny addr = true) := fun h' => h ((isAny_iff addr).mp h')
      simp [this]
    · obtain ⟨len, hd, ⟨⟨hf, hdr, hh, _, rfl⟩, _⟩, ⟨i, r, a, p, h1, h2, h3, h4, rfl⟩⟩ := hq
      obtain ⟨w, x, y, z, hda, _⟩ := ho
      simp only at hda
      have hd : IsAddr dest.addr _ := Or.inl ⟨w, x, y, z, hda, rfl⟩
      obtain ⟨a', ha'⟩ : ∃ bs, IsAddr (if isAny addr then src.addr else addr) bs := by
        split
        · exact hsrc
        · exact ⟨a, h3⟩
      refine ⟨hdr, i, flags, r, a, p ++ rest, tagBytes, _, a', header_length hh, num_length h1, h2, addr_length h3, by simp, tag_header, hd, ha', ?_⟩
      rw [hb, ← forwarded_eq be ⟨dest.addr, bindPort⟩ _ (header_length hh) (num_length h1) h2 (addr_length h3) hd ha']
      simp
  · rw [direct_other _ _ _ _ _ _ (by simp) (by simp)] at h
    obtain ⟨_, _, _, _, _, _, _, _, _, _, _, hb⟩ := h
    rw [if_pos rfl] at hb
    cases hb

/-- C47: what was passed on reaches the listeners of the original destination in the processes of the same host, complete -/
theorem C47_passed_on (dest reply : Addr) (pkt bytes : List Byte) (q : Query) (hq : IsQuery pkt q) (hf : IsForward dest reply pkt bytes)
    (src : Ep) (hr : ¬IsAnyAddr reply) (hreply : (IsAnyAddr q.addr → reply = src.addr) ∧ (¬IsAnyAddr q.addr → reply = q.addr))
    (isLocal : Addr → Bool) (port : Nat) (src' : Ep) (hl : isLocal src'.addr = true) (hg : ¬IsGroup src'.addr) (p : Nat) (tcp : Bool)
    (hlen : bytes.length ≤ 0x10000) :
    ∃ s, Shows src q s ∧ ShowsNames tcp q s ∧ (receive isLocal port src' ⟨.v4 224 0 0 128, p⟩ bytes tcp).2 = [.search ⟨dest, port⟩ s] := by
  obtain ⟨h, i, flags, r, a, t, tag, d, a', hh, hi, hr3, ha, rfl, htag, hd, ha', rfl⟩ := hf
  obtain ⟨be, b, rest, ⟨len, hd0, ⟨⟨hfl, hdr, hhdr, hseg, hpkt⟩, hcomp⟩, ⟨i0, r0, a0, p0, h1, h2, h3, h4, rfl⟩⟩, hB⟩ := hq
  -- the two ways to look at the packet agree
  obtain ⟨e1, hpkt⟩ := List.append_inj hpkt (by rw [hh, header_length hhdr])
  have hpkt : i ++ (flags :: (r ++ (a ++ t))) = i0 ++ (q.flags :: (r0 ++ (a0 ++ (p0 ++ (b ++ rest))))) := by simpa using hpkt
  obtain ⟨e2, hpkt⟩ := List.append_inj hpkt (by rw [hi, num_length h1])
  injection hpkt with e3 hpkt
  obtain ⟨e4, hpkt⟩ := List.append_inj hpkt (by rw [hr3, h2])
  obtain ⟨e5, e6⟩ := List.append_inj hpkt (by rw [ha, addr_length h3])
  subst e1 e2 e3 e4 e5 e6
  -- the search inside
  let q' : Query := { q with flags := q.flags &&& 0x7f, addr := reply }
  have hq' : IsQuery (h ++ (i ++ ((q.flags &&& 0x7f) :: (r ++ (a' ++ (p0 ++ (b ++ rest))))))) q' := by
    refine ⟨be, b, rest, ⟨len, i ++ ([q.flags &&& 0x7f] ++ (r ++ (a' ++ p0))), ⟨⟨hfl, h, hhdr, hseg, by simp⟩, ?_⟩, ⟨i, r, a', p0, h1, h2, ha', h4, rfl⟩⟩, hB⟩
    refine Nat.le_trans hcomp (Nat.le_of_eq ?_)
    simp [addr_length h3, addr_length ha']
  have ht : IsTagged (tag ++ (d ++ (h ++ (i ++ ((q.flags &&& 0x7f) :: (r ++ (a' ++ (p0 ++ (b ++ rest)))))))))
      dest (h ++ (i ++ ((q.flags &&& 0x7f) :: (r ++ (a' ++ (p0 ++ (b ++ rest))))))) := by
    refine ⟨true, 2, 16, d, [], ⟨⟨0x80, tag, htag, by decide, by simp⟩, ?_⟩, hd, rfl⟩
    simp [addr_length hd]
  have hu : ¬q'.unicast := by
    show ¬((q.flags &&& 0x7f) &&& 0x80 ≠ 0)
    rw [UInt8.and_assoc]
    have : (0x7f : Byte) &&& 0x80 = 0 := by decide
    rw [this]; simp
  -- what is shown
  let s : Search := ⟨⟨reply, q.port⟩, q.id, q.flags &&& 1 != 0, q.version, tcp || decide (tcpName ∈ q.protos),
    q.protos.filter fun p => decide (p ≠ [] ∧ p ≠ tcpName), if tcp || decide (tcpName ∈ q.protos) then q.names.map fun y => (cstr y.1, y.2) else []⟩
  have hs : Shows src q s ∧ ShowsNames tcp q s := by
    rw [shows_iff]
    have e : (if isAny q.addr then src.addr else q.addr) = reply := by
      split
      · rename_i h; exact (hreply.1 ((isAny_iff _).mp h)).symm
      · rename_i h; exact (hreply.2 (fun h' => h ((isAny_iff _).mpr h'))).symm
    rw [e]
  have hs' : Shows src' q' s ∧ ShowsNames tcp q' s := by
    rw [shows_iff]
    have e1 : (isAny q'.addr) = false := by
      rw [← Bool.not_eq_true, isAny_iff]; exact hr
    have e2 : q'.flags &&& 1 = q.flags &&& 1 := by
      show (q.flags &&& 0x7f) &&& 1 = _
      rw [UInt8.and_assoc]
      have : (0x7f : Byte) &&& 1 = 1 := by decide
      rw [this]
    rw [e1, e2]
    rfl
  refine ⟨s, hs.1, hs.2, ?_⟩
  have hmem := (C47_search isLocal port src' ⟨.v4 224 0 0 128, p⟩ _ hlen tcp ⟨dest, port⟩ s).mpr
    ⟨hg, Or.inr ⟨hl, rfl, dest, _, q', ht, rfl, hq', hr, fun h => hu h.1, hs'⟩⟩
  have hone := receive_one isLocal port src' ⟨.v4 224 0 0 128, p⟩ (tag ++ (d ++ (h ++ (i ++ ((q.flags &&& 0x7f) :: (r ++ (a' ++ (p0 ++ (b ++ rest))))))))) tcp
  generalize (receive isLocal port src' ⟨.v4 224 0 0 128, p⟩ (tag ++ (d ++ (h ++ (i ++ ((q.flags &&& 0x7f) :: (r ++ (a' ++ (p0 ++ (b ++ rest))))))))) tcp).2 = l at hmem hone
  match l, hone with
  | [x], _ => rw [List.mem_singleton.mp hmem]
  | [], _ => cases hmem

/-- C47 does not hold: an assertion fails for a search which is marked both "unicast" and as passed on, from any process on this host.  This is
the only such case. -/
theorem C47_abort_iff (isLocal : Addr → Bool) (bindPort : Nat) (src dest : Ep) (pkt : List Byte) (hl : pkt.length ≤ 0x10000) (tcp : Bool) :
    .abort ∈ (receive isLocal bindPort src dest pkt tcp).2 ↔ ¬IsGroup src.addr ∧ isLocal src.addr = true ∧ dest.addr = .v4 224 0 0 128 ∧
      ∃ a inner version id flags addr port be rest, IsTagged pkt a inner ∧ BeginsQuery inner version id flags addr port be rest ∧
        flags &&& 0x80 ≠ 0 ∧ Outside ⟨a, bindPort⟩ ∧ ¬IsAnyAddr addr := by
  rw [receive_iff _ _ _ _ _ hl]
  refine and_congr Iff.rfl ?_
  constructor
  · rintro (h | ⟨h1, h2, a, inner, ht, h⟩)
    · rw [direct_other _ _ _ _ _ _ (by simp) (by simp)] at h
      obtain ⟨_, _, _, _, _, _, _, _, _, _, _, hb⟩ := h
      have hne : (if isLocal src.addr then Origin.local_ else .remote) ≠ .tag := by split <;> simp
      rw [if_neg hne] at hb
      cases hb
    · rw [direct_other _ _ _ _ _ _ (by simp) (by simp)] at h
      obtain ⟨version, id, flags, addr, port, be, rest, hq, hu, ho, ha, _⟩ := h
      exact ⟨h1, h2, a, inner, version, id, flags, addr, port, be, rest, ht, hq, hu, ho, fun h => ha ⟨rfl, h⟩⟩
  · rintro ⟨h1, h2, a, inner, version, id, flags, addr, port, be, rest, ht, hq, hu, ho, ha⟩
    refine Or.inr ⟨h1, h2, a, inner, ht, ?_⟩
    rw [direct_other _ _ _ _ _ _ (by simp) (by simp)]
    exact ⟨version, id, flags, addr, port, be, rest, hq, hu, ho, fun h => ha h.2, rfl⟩

/-- a search for "x" through "tcp", to be replied to at 127.0.0.1, port 5076; `flags`: 0x80 for unicast -/
def example_ (flags : Byte) : List Byte :=
  [0xca, 2, 0x80, 3, 0, 0, 0, 39] ++ [0, 0, 0, 7, flags, 0, 0, 0] ++ [0, 0, 0, 0, 0, 0, 0, 0, 0, 0, 255, 255, 127, 0, 0, 1] ++ [0x13, 0xd4]
    ++ [1, 3, 0x74, 0x63, 0x70] ++ [0, 1, 0, 0, 0, 9, 1, 0x78]

/-- the same without "tcp" -/
def example_other : List Byte :=
  [0xca, 2, 0x80, 3, 0, 0, 0, 35] ++ [0, 0, 0, 7, 0, 0, 0, 0] ++ [0, 0, 0, 0, 0, 0, 0, 0, 0, 0, 255, 255, 127, 0, 0, 1] ++ [0x13, 0xd4]
    ++ [0] ++ [0, 1, 0, 0, 0, 9, 1, 0x78]

/-- as originally sent to 127.0.0.1 -/
def example_tagged (flags : Byte) : List Byte :=
  [0xca, 2, 0x80, 22, 0, 0, 0, 16] ++ [0, 0, 0, 0, 0, 0, 0, 0, 0, 0, 255, 255, 127, 0, 0, 1] ++ example_ flags

def here : Ep := ⟨.v4 127 0 0 1, 40000⟩

/-- delivered directly, or as passed on; not from elsewhere, nor not through the local group, nor two levels deep -/
example : (receive (fun _ => true) 5076 here ⟨.v4 127 0 0 1, 0⟩ (example_ 0) false).2 =
    [.search ⟨.v4 127 0 0 1, 5076⟩ ⟨⟨.v4 127 0 0 1, 5076⟩, 7, false, 2, true, [], [([0x78], 9)]⟩] := by decide
example : (receive (fun _ => true) 5076 here ⟨.v4 224 0 0 128, 0⟩ (example_tagged 0) false).2 =
    [.search ⟨.v4 127 0 0 1, 5076⟩ ⟨⟨.v4 127 0 0 1, 5076⟩, 7, false, 2, true, [], [([0x78], 9)]⟩] := by decide
example : (receive (fun _ => false) 5076 here ⟨.v4 224 0 0 128, 0⟩ (example_tagged 0) false).2 = [] := by decide
example : (receive (fun _ => true) 5076 here ⟨.v4 127 0 0 1, 0⟩ (example_tagged 0) false).2 = [] := by decide
example : (receive (fun _ => true) 5076 here ⟨.v4 224 0 0 128, 0⟩ (tagBytes ++ (example_tagged 0).drop 8 |>.take 24 |> (· ++ example_tagged 0)) false).2 = [] := by
  decide
example : (receive (fun _ => true) 5076 here ⟨.v4 127 0 0 1, 0⟩ (example_ 0x80) false).2 = [.forward (example_tagged 0)] := by decide

/-- C47 does not hold: the server is ended by this packet -/
theorem C47_aborts : .abort ∈ (receive (fun _ => true) 5076 here ⟨.v4 224 0 0 128, 0⟩ (example_tagged 0x80) false).2 := by decide

/-- C47 does not hold: a search which does not allow for "tcp" is answered after one which did.  The names are hidden only as long as no search
with "tcp" was received. -/
theorem C47_sticky : (receive (fun _ => true) 5076 here ⟨.v4 127 0 0 1, 0⟩ (example_ 0) false).1 = true ∧
    (receive (fun _ => true) 5076 here ⟨.v4 127 0 0 1, 0⟩ example_other true).2 =
      [.search ⟨.v4 127 0 0 1, 5076⟩ ⟨⟨.v4 127 0 0 1, 5076⟩, 7, false, 2, true, [], [([0x78], 9)]⟩] ∧
    (receive (fun _ => true) 5076 here ⟨.v4 127 0 0 1, 0⟩ example_other false).2 =
      [.search ⟨.v4 127 0 0 1, 5076⟩ ⟨⟨.v4 127 0 0 1, 5076⟩, 7, false, 2, false, [], []⟩] := by decide

/-! ### the listeners -/

theorem isAny_iff' (a : Addr) : isAny a = true ↔ IsAnyAddr a := by
  cases a <;> simp [isAny, IsAnyAddr, and_assoc]

theorem sameEp_iff (a b : Ep) : sameEp a b = true ↔ a = b ∧ a.addr ≠ .unspec := by
  cases a; cases b
  simp only [sameEp, sameAddr, Bool.and_eq_true, beq_iff_eq, bne_iff_ne, ne_eq, Ep.mk.injEq]
  constructor
  · rintro ⟨⟨h1, h2⟩, h3⟩; exact ⟨⟨h1, h3⟩, h2⟩
  · rintro ⟨⟨h1, h3⟩, h2⟩; exact ⟨⟨h1, h2⟩, h3⟩

theorem wants_iff (l d : Ep) : wants l d = true ↔ ListensTo l d := by
  simp only [wants, Bool.or_eq_true, isAny_iff', sameEp_iff, ListensTo]

/-- C47: a listener for searches is called with those, and only those, which were sent to (or, passed on, originally sent to) the address it is for, on its port, or
all if it is for any address; for beacons likewise. -/
theorem C47_delivered (ls : List Listener) (isLocal : Addr → Bool) (bindPort : Nat) (src dest : Ep) (pkt : List Byte) (tcp : Bool) (l : Listener) (a : Act) :
    (l, a) ∈ deliver ls isLocal bindPort src dest pkt tcp ↔ l ∈ ls ∧ a ∈ (receive isLocal bindPort src dest pkt tcp).2 ∧
      ((∃ d s, a = .search d s ∧ l.searchCB = true ∧ ListensTo l.dest d) ∨ (∃ d b, a = .beacon d b ∧ l.beaconCB = true ∧ ListensTo l.dest d)) := by
  simp only [deliver, List.mem_flatMap]
  constructor
  · rintro ⟨x, hx, h⟩
    cases x with
    | search d s =>
      simp only [called, List.mem_map, List.mem_filter, Bool.and_eq_true, wants_iff, Prod.mk.injEq] at h
      obtain ⟨l', ⟨h1, h2, h3⟩, rfl, rfl⟩ := h
      exact ⟨h1, hx, Or.inl ⟨d, s, rfl, h2, h3⟩⟩
    | beacon d b =>
      simp only [called, List.mem_map, List.mem_filter, Bool.and_eq_true, wants_iff, Prod.mk.injEq] at h
      obtain ⟨l', ⟨h1, h2, h3⟩, rfl, rfl⟩ := h
      exact ⟨h1, hx, Or.inr ⟨d, b, rfl, h2, h3⟩⟩
    | forward bs => simp [called] at h
    | abort => simp [called] at h
  · rintro ⟨h1, hx, ⟨d, s, rfl, h2, h3⟩ | ⟨d, b, rfl, h2, h3⟩⟩
    · refine ⟨_, hx, ?_⟩
      simp only [called, List.mem_map, List.mem_filter, Bool.and_eq_true, wants_iff]
      exact ⟨l, ⟨h1, h2, h3⟩, rfl⟩
    · refine ⟨_, hx, ?_⟩
      simp only [called, List.mem_map, List.mem_filter, Bool.and_eq_true, wants_iff]
      exact ⟨l, ⟨h1, h2, h3⟩, rfl⟩

/-- C47: each listener is called at most once for a packet. -/
theorem C47_once (ls : List Listener) (hn : ls.Nodup) (isLocal : Addr → Bool) (bindPort : Nat) (src dest : Ep) (pkt : List Byte) (tcp : Bool) :
    ((deliver ls isLocal bindPort src dest pkt tcp).map Prod.fst).Nodup := by
  have h1 := receive_one isLocal bindPort src dest pkt tcp
  unfold deliver
  generalize (receive isLocal bindPort src dest pkt tcp).2 = acts at h1
  match acts, h1 with
  | [], _ => simp
  | [x], _ =>
    cases x <;> simp only [List.flatMap_cons, List.flatMap_nil, List.append_nil, called, List.map_map, Function.comp_def, List.map_id', List.map_nil]
    · exact hn.filter _
    · exact hn.filter _
    · simp
    · simp
  | _ :: _ :: _, h => simp at h

example : (deliver [⟨⟨.v4 0 0 0 0, 5076⟩, true, false⟩, ⟨⟨.v4 127 0 0 1, 5076⟩, true, false⟩, ⟨⟨.v4 10 0 0 1, 5076⟩, true, false⟩, ⟨⟨.v4 0 0 0 0, 5076⟩, false, true⟩]
    (fun _ => true) 5076 here ⟨.v4 127 0 0 1, 0⟩ (example_ 0) false).map (fun x => x.1.dest.addr) = [.v4 0 0 0 0, .v4 127 0 0 1] := by decide

end Pvxs.Props.Udp
