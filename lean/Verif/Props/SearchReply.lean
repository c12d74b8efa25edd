import Verif.Props.Source
import Verif.Props.Udp
/-
C41: replies to searches; and the bytes of replies, for C40.
-/
namespace Pvxs.Props.Src
open Wire Pvxs.Source Spec.Source Spec.Packet

/-! ### bytes -/

theorem isNum_wire (be : Bool) (n v : Nat) (h : v < 256 ^ n) : IsNum be n v (wireBytes be n v) := ⟨h, wireBytes_digits be n v⟩

theorem isSize_size (be : Bool) (n : Nat) (h : n ≤ 0xffffffff) : IsSize be n (sizeBytes be n) := by
  unfold sizeBytes
  split
  · exact Or.inl ⟨by assumption, rfl⟩
  · exact Or.inr ⟨_, isNum_wire be 4 n (by omega), rfl⟩

theorem isStr_str (be : Bool) (s : List Byte) (h : s.length ≤ 0xffffffff) : IsStr be s (strBytes be s) := Or.inr ⟨_, isSize_size be _ h, rfl⟩

theorem isMessage_message (be : Bool) (cmd : Byte) (body : List Byte) (h : body.length < 2 ^ 32) : IsServerMessage be cmd body (message be cmd body) := by
  have e := emits_putHeader be ⟨cmd, 0x40, 0, body.length⟩ { be := be } rfl rfl rfl
  refine ⟨if be then 0xc0 else 0x40, headerBytes be ⟨cmd, 0x40, 0, body.length⟩, by cases be <;> decide, by cases be <;> decide, ?_, ?_⟩
  · refine ⟨by cases be <;> decide, by decide, wireBytes be 4 body.length, isNum_wire be 4 _ (by omega), ?_⟩
    have h1 : (0x40 : Byte) ||| flagMSB = 0xc0 := by decide
    unfold headerBytes
    dsimp only
    rw [h1]
  · unfold message
    dsimp only at e
    rw [e]
    rfl

theorem isSeq_nums (be : Bool) (ids : List Nat) (h : ∀ v ∈ ids, v < 2 ^ 32) : IsSeq (IsNum be 4) ids (ids.flatMap (wireBytes be 4)) := by
  induction ids with
  | nil => exact IsSeq.nil
  | cons a l ih =>
    rw [List.flatMap_cons]
    exact IsSeq.cons (isNum_wire be 4 a (by have := h a (List.mem_cons_self ..); omega)) (ih fun v hv => h v (List.mem_cons_of_mem _ hv))

theorem nums_length (be : Bool) (ids : List Nat) : (ids.flatMap (wireBytes be 4)).length = 4 * ids.length := by
  induction ids with
  | nil => rfl
  | cons a l ih => rw [List.flatMap_cons, List.length_append, ih, wireBytes_length, List.length_cons]; omega

theorem isSearchReply_reply (be : Bool) (guid : List Byte) (id port : Nat) (ids : List Nat) (hg : guid.length = 12) (hid : id < 2 ^ 32)
    (hp : port < 65536) (hl : ids.length < 65536) (hv : ∀ v ∈ ids, v < 2 ^ 32) :
    IsSearchReply be guid id port ids (message be 4 (replyBody be guid id port ids)) := by
  have e : replyBody be guid id port ids = guid ++ (wireBytes be 4 id ++ (addrBytes (.v4 0 0 0 0) ++ (wireBytes be 2 port ++ ([3, 0x74, 0x63, 0x70] ++
      ([if ids = [] then 0 else 1] ++ (wireBytes be 2 ids.length ++ ids.flatMap (wireBytes be 4))))))) := by
    have := ((((((emits_putInt be 4 id).comp (emits_putAddr be [] (.v4 0 0 0 0) (by simp))).comp (emits_putInt be 2 port)).comp
      (emits_putStr be [0x74, 0x63, 0x70] (by decide))).comp (emits_putU8 be (if ids.length ≠ 0 then 1 else 0))).comp (emits_putInt be 2 ids.length)).comp
      (emits_putPods be 4 ids) { be := be, data := guid } rfl rfl rfl
    unfold replyBody
    dsimp only at this ⊢
    rw [this]
    have e2 : strBytes be [0x74, 0x63, 0x70] = [3, 0x74, 0x63, 0x70] := by cases be <;> rfl
    rw [e2]
    have e3 : (if ids.length ≠ 0 then (1 : Byte) else 0) = if ids = [] then 0 else 1 := by cases ids <;> rfl
    rw [e3]
    simp only [List.append_assoc]
  refine ⟨_, wireBytes be 4 id, addrBytes (.v4 0 0 0 0), wireBytes be 2 port, wireBytes be 2 ids.length, ids.flatMap (wireBytes be 4),
    isMessage_message be 4 _ ?_, isNum_wire be 4 _ (by omega), Or.inl ⟨0, 0, 0, 0, rfl, rfl⟩, isNum_wire be 2 _ (by omega),
    isNum_wire be 2 _ (by omega), isSeq_nums be ids hv, e⟩
  rw [e]
  simp only [List.length_append, List.length_cons, List.length_nil, wireBytes_length, nums_length, hg]
  have : (addrBytes (.v4 0 0 0 0)).length = 16 := rfl
  omega

/-- C40, bytes: the answer is a message of the server with the number given by the client, the number of the channel, and the status -/
theorem C40_bytes (be : Bool) (r : Reply) (hc : r.cid < 2 ^ 32) (hs : r.sid < 2 ^ 32)
    (hst : r.status = ⟨0, [], []⟩ ∨ r.status = refused ∨ r.status = tooMany) :
    IsCreateReply be r.cid r.sid r.status (replyBytes be r) := by
  have hlen : r.status.msg.length ≤ 100 ∧ r.status.trace.length ≤ 100 := by
    rcases hst with h | h | h <;> rw [h] <;> decide
  have e : (putStatus (putInt (putInt { be := be } 4 r.cid) 4 r.sid) r.status).data =
      wireBytes be 4 r.cid ++ (wireBytes be 4 r.sid ++ statusBytes be r.status) := by
    have := ((emits_putInt be 4 r.cid).comp (emits_putInt be 4 r.sid)).comp (emits_putStatus be r.status (by omega) (by omega)) { be := be } rfl rfl rfl
    dsimp only at this ⊢
    rw [this]
    simp
  have hsl : IsStatus be r.status (statusBytes be r.status) ∧ (statusBytes be r.status).length < 300 := by
    rcases hst with h | h | h <;> rw [h]
    · exact ⟨Or.inl ⟨rfl, rfl⟩, by cases be <;> decide⟩
    · refine ⟨Or.inr ⟨strBytes be refused.msg, strBytes be refused.trace, isStr_str be _ (by decide), isStr_str be _ (by decide), ?_⟩, ?_⟩
      · cases be <;> decide
      · cases be <;> decide
    · refine ⟨Or.inr ⟨strBytes be tooMany.msg, strBytes be tooMany.trace, isStr_str be _ (by decide), isStr_str be _ (by decide), ?_⟩, ?_⟩
      · cases be <;> decide
      · cases be <;> decide
  refine ⟨_, wireBytes be 4 r.cid, wireBytes be 4 r.sid, statusBytes be r.status, isMessage_message be 7 _ ?_, isNum_wire be 4 _ (by omega),
    isNum_wire be 4 _ (by omega), hsl.1, e⟩
  rw [e]
  simp only [List.length_append, wireBytes_length]
  omega

/-! ### names -/

theorem claims_eq (srcs : List Claims) (names : List Str) :
    claims srcs names = names.mapIdx fun i _ => srcs.any fun src => src names i := by
  have key : ∀ (srcs : List Claims) (f : Nat → Bool), srcs.foldl (claimStep names) (names.mapIdx fun i _ => f i) =
      names.mapIdx fun i _ => f i || srcs.any fun src => src names i := by
    intro srcs
    induction srcs with
    | nil => intro f; simp
    | cons a l ih =>
      intro f
      rw [List.foldl_cons]
      have : claimStep names (names.mapIdx fun i _ => f i) a = names.mapIdx fun i _ => f i || a names i := by
        unfold claimStep
        rw [List.mapIdx_mapIdx]
        rfl
      rw [this, ih]
      simp [Bool.or_assoc]
  have := key srcs fun _ => false
  unfold claims
  have h0 : (names.map fun _ => false) = names.mapIdx fun _ _ => false := by
    rw [List.mapIdx_eq_zipIdx_map]
    apply List.ext_getElem <;> simp
  rw [h0, this]
  simp

theorem claimed_iff (srcs : List Claims) (names : List (Str × Nat)) (ids : List Nat) :
    ids = claimedIds (claims srcs (names.map (·.1))) (names.map (·.2)) ↔ Claimed srcs names ids := by
  unfold Claimed
  have e : claimedIds (claims srcs (names.map (·.1))) (names.map (·.2)) =
      (names.zipIdx.filter fun x => srcs.any fun src => src (names.map (·.1)) x.2).map fun x => x.1.2 := by
    rw [claims_eq]
    unfold claimedIds
    have : ∀ (f : Nat → Bool) (l : List (Str × Nat)), ((((l.map (·.1)).mapIdx fun i _ => f i).zip (l.map (·.2))).filter (·.1)).map (·.2) =
        (l.zipIdx.filter fun x => f x.2).map fun x => x.1.2 := by
      intro f l
      have hz : ((l.map (·.1)).mapIdx fun i _ => f i).zip (l.map (·.2)) = l.zipIdx.map fun x => (f x.2, x.1.2) := by
        apply List.ext_getElem <;> simp
      rw [hz, List.filter_map, List.map_map]
      rfl
    exact this _ _
  rw [e]

theorem claimed_sub {srcs : List Claims} {names : List (Str × Nat)} {ids : List Nat} (h : Claimed srcs names ids) :
    ids.length ≤ names.length ∧ ∀ v ∈ ids, ∃ x ∈ names, x.2 = v := by
  unfold Claimed at h
  subst h
  constructor
  · rw [List.length_map]
    exact Nat.le_trans (List.length_filter_le _ _) (by simp)
  · intro v hv
    obtain ⟨x, hx, rfl⟩ := List.mem_map.mp hv
    have := (List.mem_filter.mp hx).1
    exact ⟨x.1, List.fst_mem_of_mem_zipIdx this, rfl⟩

/-! ### the list of addresses to be ignored -/

theorem ignores_listed {l : List Udp.Ep} {src : Udp.Ep} (h : Listed l src) : ignores l src = true := by
  obtain ⟨a, ha, h1, h2⟩ := h
  unfold ignores
  rw [List.any_eq_true]
  refine ⟨a, ha, ?_⟩
  rw [← h1]
  have h3 : (a.port == 0 || src.port == a.port) = true := by
    rcases h2 with h | h
    · simp [h]
    · simp [h]
  rw [h3, Bool.and_true]
  cases a.addr <;> simp

theorem ignores_iff {l : List Udp.Ep} {src : Udp.Ep} (h : ∀ a ∈ l, V4 a.addr) : ignores l src = true ↔ Listed l src := by
  constructor
  · unfold ignores
    rw [List.any_eq_true]
    rintro ⟨a, ha, hb⟩
    obtain ⟨p, q, r, s, e⟩ := h a ha
    rw [e] at hb
    cases hs : src.addr with
    | unspec => rw [hs] at hb; simp at hb
    | v6 bs => rw [hs] at hb; simp at hb
    | v4 p' q' r' s' =>
      rw [hs] at hb
      simp only [Bool.and_eq_true, beq_iff_eq, List.cons.injEq, and_true, Bool.or_eq_true] at hb
      obtain ⟨⟨rfl, rfl, rfl, rfl⟩, hp⟩ := hb
      exact ⟨a, ha, by rw [e, hs], by rcases hp with h | h; exact Or.inl h; exact Or.inr h.symm⟩
  · exact ignores_listed

/-! ### UDP -/

theorem onSearch_spec (cfg : Config) (srcs : List Claims) (m : Udp.Search) :
    (onSearch cfg srcs m = none ↔ ignores cfg.ignoreList m.server = true ∨ (Claimed srcs m.names [] ∧ m.mustReply = false)) ∧
    ∀ bytes, onSearch cfg srcs m = some bytes → ∃ ids, Claimed srcs m.names ids ∧
      bytes = message true 4 (replyBody true cfg.guid m.searchID cfg.tcpPort ids) := by
  unfold onSearch
  have hc := (claimed_iff srcs m.names (claimedIds (claims srcs (m.names.map (·.1))) (m.names.map (·.2)))).mp rfl
  have hc0 := claimed_iff srcs m.names []
  generalize claimedIds (claims srcs (m.names.map (·.1))) (m.names.map (·.2)) = ids at hc hc0
  cases ignores cfg.ignoreList m.server with
  | true => simp
  | false =>
    simp only [Bool.false_eq_true, if_false, false_or]
    rw [← hc0]
    cases hm : m.mustReply with
    | true =>
      simp only [Bool.not_true, Bool.and_false, Bool.false_eq_true, if_false, and_false]
      exact ⟨by simp, fun b hb => ⟨ids, hc, by simpa using hb.symm⟩⟩
    | false =>
      simp only [Bool.not_false, Bool.and_true, decide_eq_true_eq, and_true]
      by_cases hl : ids.length = 0
      · rw [if_pos hl]
        exact ⟨by simp [List.length_eq_zero_iff.mp hl], fun b hb => by cases hb⟩
      · rw [if_neg hl]
        refine ⟨?_, fun b hb => ⟨ids, hc, by simpa using hb.symm⟩⟩
        simp only [reduceCtorEq, false_iff]
        intro h
        exact hl (by rw [← h]; rfl)

theorem query_bounds {pkt : List Byte} {q : Spec.Udp.Query} (h : Spec.Udp.IsQuery pkt q) :
    q.id < 2 ^ 32 ∧ q.names.length < 65536 ∧ ∀ x ∈ q.names, x.2 < 2 ^ 32 := by
  obtain ⟨be, b, rest, ⟨len, h', hm, ⟨i, r, a, p, hi, _⟩⟩, ⟨z, p', n, x, _, _, hn, hx, e⟩⟩ := h
  refine ⟨by have := hi.1; omega, by have := hn.1; omega, ?_⟩
  clear hn e
  generalize q.names = l at hx
  induction hx with
  | nil => simp
  | cons h hs ih =>
    intro y hy
    rcases List.mem_cons.mp hy with rfl | hy
    · obtain ⟨i, z, hi, _⟩ := h
      have := hi.1; omega
    · exact ih y hy

/-- what this server answers to the packet, and to whom -/
def answers (isLocal : Addr → Bool) (bindPort : Nat) (cfg : Config) (srcs : List Claims) (src dest : Udp.Ep) (pkt : List Byte) (tcp : Bool) :
    List (Udp.Ep × List Byte) :=
  (Udp.receive isLocal bindPort src dest pkt tcp).2.filterMap fun a => match a with
    | .search _ s => (onSearch cfg srcs s).map fun b => (s.server, b)
    | _ => none

/-- the search in this packet which is for this host, and where the answer is to go -/
def Delivered (isLocal : Addr → Bool) (src dest : Udp.Ep) (pkt : List Byte) (q : Spec.Udp.Query) (to : Udp.Ep) : Prop :=
  ¬Spec.Udp.IsGroup src.addr ∧ to.port = q.port ∧ (Spec.Udp.IsAnyAddr q.addr → to.addr = src.addr) ∧ (¬Spec.Udp.IsAnyAddr q.addr → to.addr = q.addr) ∧
    ((Spec.Udp.IsQuery pkt q ∧ ¬(q.unicast ∧ Spec.Udp.Outside dest)) ∨
      (isLocal src.addr = true ∧ dest.addr = .v4 224 0 0 128 ∧ ∃ a inner, Spec.Udp.IsTagged pkt a inner ∧ Spec.Udp.IsQuery inner q ∧
        ¬Spec.Udp.IsAnyAddr q.addr ∧ ¬(q.unicast ∧ Spec.Udp.Outside ⟨a, 0⟩)))

theorem search_delivered (isLocal : Addr → Bool) (bindPort : Nat) (src dest : Udp.Ep) (pkt : List Byte) (hl : pkt.length ≤ 0x10000) (tcp : Bool)
    (s : Udp.Search) : (∃ d, .search d s ∈ (Udp.receive isLocal bindPort src dest pkt tcp).2) ↔
      ∃ q, Delivered isLocal src dest pkt q s.server ∧ Spec.Udp.Shows src q s ∧ Spec.Udp.ShowsNames tcp q s := by
  constructor
  · rintro ⟨d, hd⟩
    rw [Udp.C47_search _ _ _ _ _ hl] at hd
    obtain ⟨hg, h | h⟩ := hd
    · obtain ⟨_, q, h1, h2, h3, h4⟩ := h
      exact ⟨q, ⟨hg, h3.port, h3.toSender, h3.toOther, Or.inl ⟨h1, h2⟩⟩, h3, h4⟩
    · obtain ⟨h1, h2, a, inner, q, h3, rfl, h4, h5, h6, h7, h8⟩ := h
      exact ⟨q, ⟨hg, h7.port, h7.toSender, h7.toOther, Or.inr ⟨h1, h2, a, inner, h3, h4, h5, h6⟩⟩, h7, h8⟩
  · rintro ⟨q, ⟨hg, _, _, _, h⟩, h7, h8⟩
    rcases h with ⟨h1, h2⟩ | ⟨h1, h2, a, inner, h3, h4, h5, h6⟩
    · exact ⟨⟨dest.addr, bindPort⟩, (Udp.C47_search _ _ _ _ _ hl _ _ _).mpr ⟨hg, Or.inl ⟨rfl, q, h1, h2, h7, h8⟩⟩⟩
    · exact ⟨⟨a, bindPort⟩, (Udp.C47_search _ _ _ _ _ hl _ _ _).mpr ⟨hg, Or.inr ⟨h1, h2, a, inner, q, h3, rfl, h4, h5, h6, h7, h8⟩⟩⟩

theorem shown_wanted {tcp : Bool} {q : Spec.Udp.Query} {s : Udp.Search} (h : Spec.Udp.ShowsNames tcp q s) : s.names = wanted tcp q.protos q.names := by
  unfold wanted
  have e := h.tcp
  unfold Spec.Udp.Query.viaTcp Spec.Udp.tcpName at e
  by_cases ht : s.tcp = true
  · rw [if_pos (e.mp ht), h.shown ht]; rfl
  · rw [if_neg fun h => ht (e.mpr h), h.hidden (by simpa using ht)]

/-- C41, UDP: each answer to a packet is sent to the place given in it, which is not to be ignored, and holds, in order, the identifiers of
exactly those names which are claimed by some source -/
theorem C41_udp_sound (isLocal : Addr → Bool) (bindPort : Nat) (cfg : Config) (hg : cfg.guid.length = 12) (hp : cfg.tcpPort < 65536)
    (srcs : List Claims) (src dest : Udp.Ep) (pkt : List Byte) (hl : pkt.length ≤ 0x10000) (tcp : Bool) (to : Udp.Ep) (bytes : List Byte)
    (h : (to, bytes) ∈ answers isLocal bindPort cfg srcs src dest pkt tcp) :
    ∃ q ids, Delivered isLocal src dest pkt q to ∧ ¬Listed cfg.ignoreList to ∧ Claimed srcs (wanted tcp q.protos q.names) ids ∧
      (ids ≠ [] ∨ q.mustReply) ∧ IsSearchReply true cfg.guid q.id cfg.tcpPort ids bytes := by
  unfold answers at h
  obtain ⟨a, ha, hb⟩ := List.mem_filterMap.mp h
  cases a with
  | search d s =>
    dsimp only at hb
    obtain ⟨b, hb1, hb2⟩ := Option.map_eq_some_iff.mp hb
    cases hb2
    obtain ⟨q, hd, hs, hn⟩ := (search_delivered _ _ _ _ _ hl _ _).mp ⟨d, ha⟩
    obtain ⟨o1, o2⟩ := onSearch_spec cfg srcs s
    obtain ⟨ids, hc, rfl⟩ := o2 _ hb1
    have o1' : ¬(ignores cfg.ignoreList s.server = true ∨ (Claimed srcs s.names [] ∧ s.mustReply = false)) := by
      rw [← o1, hb1]; simp
    have hw := shown_wanted hn
    rw [hw] at hc o1'
    have hb : q.id < 2 ^ 32 ∧ q.names.length < 65536 ∧ ∀ x ∈ q.names, x.2 < 2 ^ 32 := by
      rcases hd.2.2.2.2 with h | ⟨_, _, _, _, _, h, _⟩
      · exact query_bounds h.1
      · exact query_bounds h
    have hsub := claimed_sub hc
    have hwl : (wanted tcp q.protos q.names).length ≤ q.names.length ∧ ∀ x ∈ wanted tcp q.protos q.names, x.2 < 2 ^ 32 := by
      unfold wanted
      split
      · refine ⟨by simp, fun x hx => ?_⟩
        obtain ⟨y, hy, rfl⟩ := List.mem_map.mp hx
        exact hb.2.2 y hy
      · simp
    refine ⟨q, ids, hd, fun hli => o1' (Or.inl (ignores_listed hli)), hc, ?_, ?_⟩
    · refine Classical.byContradiction fun hn => ?_
      have h1 : ids = [] := Classical.byContradiction fun h => hn (Or.inl h)
      subst h1
      refine o1' (Or.inr ⟨hc, ?_⟩)
      rw [← Bool.not_eq_true, hs.mustReply]
      exact fun h => hn (Or.inr h)
    · rw [hs.id]
      refine isSearchReply_reply true _ _ _ _ hg hb.1 hp (by omega) fun v hv => ?_
      obtain ⟨x, hx, rfl⟩ := hsub.2 v hv
      exact hwl.2 x hx
  | _ => simp at hb

/-- C41, UDP: there is one answer if the search is for this host, and some name is claimed or an answer is demanded.  This is as long as no IPv6
addresses are to be ignored. -/
theorem C41_udp_complete_partial (isLocal : Addr → Bool) (bindPort : Nat) (cfg : Config) (hi : ∀ a ∈ cfg.ignoreList, V4 a.addr)
    (srcs : List Claims) (src dest : Udp.Ep) (pkt : List Byte) (hl : pkt.length ≤ 0x10000) (tcp : Bool) (to : Udp.Ep)
    (q : Spec.Udp.Query) (hd : Delivered isLocal src dest pkt q to) (ho : ¬Listed cfg.ignoreList to)
    (hc : ¬Claimed srcs (wanted tcp q.protos q.names) [] ∨ q.mustReply) :
    ∃ bytes, answers isLocal bindPort cfg srcs src dest pkt tcp = [(to, bytes)] := by
  obtain ⟨s, hs, hn, hto⟩ : ∃ s : Udp.Search, Spec.Udp.Shows src q s ∧ Spec.Udp.ShowsNames tcp q s ∧ s.server = to := by
    obtain ⟨_, h1, h2, h3, _⟩ := hd
    have := (Udp.shows_iff src q _ tcp).mpr rfl
    refine ⟨_, this.1, this.2, ?_⟩
    have e1 := this.1.port
    have e2 := this.1.toSender
    have e3 := this.1.toOther
    dsimp only at e1 e2 e3 ⊢
    obtain ⟨ta, tp⟩ := to
    simp only [Udp.Ep.mk.injEq]
    dsimp only at h1 h2 h3
    by_cases ha : Spec.Udp.IsAnyAddr q.addr
    · exact ⟨by rw [h2 ha]; exact e2 ha, h1.symm⟩
    · exact ⟨by rw [h3 ha]; exact e3 ha, h1.symm⟩
  subst hto
  obtain ⟨d, hm⟩ := (search_delivered isLocal bindPort src dest pkt hl tcp s).mpr ⟨q, hd, hs, hn⟩
  have h1 := Udp.receive_one isLocal bindPort src dest pkt tcp
  have hr : (Udp.receive isLocal bindPort src dest pkt tcp).2 = [.search d s] := by
    generalize (Udp.receive isLocal bindPort src dest pkt tcp).2 = l at h1 hm
    match l, h1, hm with
    | [a], _, hm => rw [List.mem_singleton.mp hm]
    | _ :: _ :: _, h1, _ => simp at h1
  unfold answers
  rw [hr]
  have o1 := (onSearch_spec cfg srcs s).1
  cases hons : onSearch cfg srcs s with
  | some b => exact ⟨b, by simp [hons]⟩
  | none =>
    exfalso
    rcases o1.mp hons with h | ⟨h, h'⟩
    · exact ho ((ignores_iff hi).mp h)
    · rw [shown_wanted hn] at h
      rcases hc with hc | hc
      · exact hc h
      · rw [hs.mustReply.mpr hc] at h'; cases h'

/-- C41 does not hold: with any IPv6 address to be ignored, all of them are -/
theorem C41_ignore_v6 (cfg : Config) (a : Udp.Ep) (ha : a ∈ cfg.ignoreList) (b : List Byte) (h6 : a.addr = .v6 b) (hp : a.port = 0)
    (srcs : List Claims) (m : Udp.Search) (bs : List Byte) (hm : m.server.addr = .v6 bs) : onSearch cfg srcs m = none := by
  have : ignores cfg.ignoreList m.server = true := by
    unfold ignores
    rw [List.any_eq_true]
    exact ⟨a, ha, by rw [h6, hm, hp]; rfl⟩
  unfold onSearch
  rw [this]
  rfl

/-! ### through a connection -/

theorem getTcp_ok {be : Bool} {protos : List (List Byte)} {p : List Byte} (hp : IsSeq (IsStr be) protos p) (ht : [0x74, 0x63, 0x70] ∉ protos.dropLast)
    (rest : List Byte) : (getTcp protos.length ⟨be, false, p ++ rest⟩).2 = ⟨be, false, rest⟩ := by
  induction hp with
  | nil => rfl
  | @cons a l bs bs' h hs ih =>
    rw [List.length_cons, getTcp]
    dsimp only
    rw [if_neg (by decide), List.append_assoc, (reads_getStr.exact be (bs ++ (bs' ++ rest)) a (bs' ++ rest)).mpr ⟨bs, rfl, h⟩]
    dsimp only
    by_cases ha : a = [0x74, 0x63, 0x70]
    · rw [if_pos ha]
      cases hs with
      | nil => rfl
      | cons h' hs' => simp [ha] at ht
    · rw [if_neg ha]
      refine ih fun hm => ht ?_
      cases l with
      | nil => simp at hm
      | cons y l => rw [List.dropLast_cons_cons]; exact List.mem_cons_of_mem _ hm

theorem getNames_ok {be : Bool} {names : List (Nat × Str)} {x : List Byte} (hx : IsSeq (IsItem be) names x) (rest : List Byte) :
    getNames names.length ⟨be, false, x ++ rest⟩ = (names.map fun y => (y.2, y.1), ⟨be, false, rest⟩) := by
  induction hx with
  | nil => rfl
  | @cons a l bs bs' h hs ih =>
    obtain ⟨i, s, hi, hstr, rfl⟩ := h
    rw [List.length_cons, getNames]
    simp only [List.append_assoc]
    rw [((reads_getInt 4).exact be (i ++ (s ++ (bs' ++ rest))) a.1 (s ++ (bs' ++ rest))).mpr ⟨i, rfl, hi⟩]
    dsimp only
    rw [(reads_getStr.exact be (s ++ (bs' ++ rest)) a.2 (bs' ++ rest)).mpr ⟨s, rfl, hstr⟩]
    dsimp only
    rw [ih]
    rfl

theorem getSearch_ok {be : Bool} {id : Nat} {flags : Byte} {protos : List (List Byte)} {names : List (Nat × Str)} {bs : List Byte}
    (h : IsSearch be id flags protos names bs) (ht : [0x74, 0x63, 0x70] ∉ protos.dropLast) (rest : List Byte) :
    getSearch ⟨be, false, bs ++ rest⟩ = ((id, flags, names.map fun y => (y.2, y.1)), ⟨be, false, rest⟩) := by
  obtain ⟨i, r, z, p, n, x, hi, hr, hz, hp, hn, hx, rfl⟩ := h
  unfold getSearch
  simp only [List.append_assoc]
  rw [((reads_getInt 4).exact be (i ++ ([flags] ++ (r ++ (z ++ (p ++ (n ++ (x ++ rest))))))) id _).mpr ⟨i, rfl, hi⟩]
  dsimp only
  rw [(reads_getU8.exact be ([flags] ++ (r ++ (z ++ (p ++ (n ++ (x ++ rest)))))) flags _).mpr ⟨[flags], rfl, rfl⟩]
  dsimp only
  have e := ((reads_skip 21).exact be (r ++ (z ++ (p ++ (n ++ (x ++ rest))))) () _).mpr ⟨r, rfl, hr⟩
  rw [(Prod.mk.inj e).2]
  rw [(reads_getSize.exact be (z ++ (p ++ (n ++ (x ++ rest)))) protos.length _).mpr ⟨z, rfl, hz⟩]
  dsimp only
  rw [getTcp_ok hp ht]
  rw [((reads_getInt 2).exact be (n ++ (x ++ rest)) names.length _).mpr ⟨n, rfl, hn⟩]
  dsimp only
  rw [getNames_ok hx]

theorem items_bound {be : Bool} {names : List (Nat × Str)} {x : List Byte} (hx : IsSeq (IsItem be) names x) : ∀ y ∈ names, y.1 < 2 ^ 32 := by
  induction hx with
  | nil => simp
  | cons h hs ih =>
    intro y hy
    rcases List.mem_cons.mp hy with rfl | hy
    · obtain ⟨i, s, hi, _⟩ := h
      have := hi.1; omega
    · exact ih y hy

/-- C41, through a connection: as long as no protocol follows "tcp", the answer holds, in order, the identifiers of exactly those names which
are claimed by some source; there is none if there are no such, unless it is demanded -/
theorem C41_tcp_partial (sendBE be : Bool) (guid : List Byte) (hg : guid.length = 12) (port : Nat) (hport : port < 65536) (srcs : List Claims)
    (id : Nat) (flags : Byte) (protos : List (List Byte)) (names : List (Nat × Str)) (bs rest : List Byte) (h : IsSearch be id flags protos names bs)
    (ht : [0x74, 0x63, 0x70] ∉ protos.dropLast) :
    ∃ ids, Claimed srcs (names.map fun y => (y.2.takeWhile (· ≠ 0), y.1)) ids ∧
      ((ids = [] ∧ flags &&& 1 = 0 ∧ handleSearch sendBE guid port srcs ⟨be, false, bs ++ rest⟩ = .silent) ∨
        ((ids ≠ [] ∨ flags &&& 1 ≠ 0) ∧ ∃ bytes, handleSearch sendBE guid port srcs ⟨be, false, bs ++ rest⟩ = .reply bytes ∧
          IsSearchReply sendBE guid id port ids bytes)) := by
  have hm := getSearch_ok h ht rest
  unfold handleSearch
  dsimp only
  rw [hm]
  dsimp only
  rw [if_neg (by decide)]
  have e1 : ((names.map fun y => (y.2, y.1)).map fun n => cstr n.1) = (names.map fun y => (y.2.takeWhile (· ≠ 0), y.1)).map (·.1) := by
    rw [List.map_map, List.map_map]
    refine List.map_congr_left fun y _ => ?_
    simp only [Function.comp_apply, cstr]
    congr 1
    funext x
    by_cases hx : x = 0 <;> simp [hx]
  have e2 : ((names.map fun y => (y.2, y.1)).map (·.2)) = (names.map fun y => (y.2.takeWhile (· ≠ 0), y.1)).map (·.2) := by
    rw [List.map_map, List.map_map]; rfl
  rw [e1, e2]
  have hc := (claimed_iff srcs (names.map fun y => (y.2.takeWhile (· ≠ 0), y.1)) _).mp rfl
  generalize claimedIds (claims srcs ((names.map fun y => (y.2.takeWhile (· ≠ 0), y.1)).map (·.1))) ((names.map fun y => (y.2.takeWhile (· ≠ 0), y.1)).map (·.2)) = ids at hc
  refine ⟨ids, hc, ?_⟩
  obtain ⟨i, r, z, p, n, x, hi, hr, hz, hp, hn, hx, rfl⟩ := h
  have hsub := claimed_sub hc
  rw [List.length_map] at hsub
  by_cases hs : ids = [] ∧ flags &&& 1 = 0
  · refine Or.inl ⟨hs.1, hs.2, ?_⟩
    rw [hs.1, hs.2]
    rfl
  · have hs' : ids ≠ [] ∨ flags &&& 1 ≠ 0 := by
      refine Classical.byContradiction fun hn => hs ⟨?_, ?_⟩
      · exact Classical.byContradiction fun h => hn (Or.inl h)
      · exact Classical.byContradiction fun h => hn (Or.inr h)
    refine Or.inr ⟨hs', _, if_neg ?_, ?_⟩
    · rcases hs' with h | h
      · have : ids.length ≠ 0 := fun h0 => h (List.length_eq_zero_iff.mp h0)
        simp [this]
      · simp [h]
    · refine isSearchReply_reply sendBE guid _ port _ hg (by have := hi.1; omega) hport (by have := hn.1; omega) fun v hv => ?_
      obtain ⟨y, hy, rfl⟩ := hsub.2 v hv
      obtain ⟨y', hy', rfl⟩ := List.mem_map.mp hy
      exact items_bound hx y' hy'

/-! ### cases -/

/-- "a" (1) and "b" (2) -/
def example_create : List Byte := [0, 2] ++ [0, 0, 0, 1, 1, 0x61] ++ [0, 0, 0, 2, 1, 0x62]

example : IsCreate true [(1, [0x61]), (2, [0x62])] example_create :=
  ⟨[0, 2], [0, 0, 0, 1, 1, 0x61] ++ ([0, 0, 0, 2, 1, 0x62] ++ []), ⟨by decide, by decide⟩,
    IsSeq.cons ⟨[0, 0, 0, 1], [1, 0x61], ⟨by decide, by decide⟩, Or.inr ⟨[1], Or.inl ⟨by decide, rfl⟩, rfl⟩, rfl⟩
      (IsSeq.cons ⟨[0, 0, 0, 2], [1, 0x62], ⟨by decide, by decide⟩, Or.inr ⟨[1], Or.inl ⟨by decide, rfl⟩, rfl⟩, rfl⟩ IsSeq.nil), by decide⟩

/-- "b" is accepted by the second of two sources; the message comes twice -/
example : (connRun [(fun n => [⟨[], true⟩, ⟨if n = [0x62] then [.onOp] else [], false⟩], ⟨true, false, example_create⟩),
      (fun n => [⟨[], true⟩, ⟨if n = [0x62] then [.onOp] else [], false⟩], ⟨true, false, example_create⟩)]).replies =
    [⟨1, 0xffffffff, refused⟩, ⟨2, 0x07050302, ⟨0, [], []⟩⟩, ⟨1, 0xffffffff, refused⟩, ⟨2, 0x07050304, ⟨0, [], []⟩⟩] := by decide +kernel

/-- a search for "a" (1) and "b" (2), with protocols "tcp" (and then "tls") -/
def example_search (more : Bool) : List Byte :=
  [0, 0, 0, 7] ++ [0] ++ List.replicate 21 0 ++ (if more then [2, 3, 0x74, 0x63, 0x70, 3, 0x74, 0x6c, 0x73] else [1, 3, 0x74, 0x63, 0x70]) ++
    [0, 2] ++ [0, 0, 0, 1, 1, 0x61] ++ [0, 0, 0, 2, 1, 0x62]

example : IsSearch true 7 0 [[0x74, 0x63, 0x70]] [(1, [0x61]), (2, [0x62])] (example_search false) :=
  ⟨[0, 0, 0, 7], List.replicate 21 0, [1], [3, 0x74, 0x63, 0x70] ++ [], [0, 2], [0, 0, 0, 1, 1, 0x61] ++ ([0, 0, 0, 2, 1, 0x62] ++ []),
    ⟨by decide, by decide⟩, by decide, Or.inl ⟨by decide, rfl⟩,
    IsSeq.cons (Or.inr ⟨[3], Or.inl ⟨by decide, rfl⟩, rfl⟩) IsSeq.nil, ⟨by decide, by decide⟩,
    IsSeq.cons ⟨[0, 0, 0, 1], [1, 0x61], ⟨by decide, by decide⟩, Or.inr ⟨[1], Or.inl ⟨by decide, rfl⟩, rfl⟩, rfl⟩
      (IsSeq.cons ⟨[0, 0, 0, 2], [1, 0x62], ⟨by decide, by decide⟩, Or.inr ⟨[1], Or.inl ⟨by decide, rfl⟩, rfl⟩, rfl⟩ IsSeq.nil), by decide⟩

/-- it has "b" -/
def example_source : Claims := fun names i => names[i]? == some [0x62]

example : Claimed [example_source, fun _ _ => false] [([0x61], 1), ([0x62], 2)] [2] := by unfold Claimed; decide

example : handleSearch true (List.replicate 12 9) 5075 [example_source] ⟨true, false, example_search false⟩ =
    .reply ([0xca, 2, 0xc0, 4, 0, 0, 0, 45] ++ List.replicate 12 9 ++ [0, 0, 0, 7] ++ [0, 0, 0, 0, 0, 0, 0, 0, 0, 0, 255, 255, 0, 0, 0, 0] ++ [0x13, 0xd3] ++
      [3, 0x74, 0x63, 0x70] ++ [1] ++ [0, 1] ++ [0, 0, 0, 2]) := by decide

theorem getNames_needs (n : Nat) : ∀ (be : Bool) (l : List Byte), (getNames n ⟨be, false, l⟩).2.err = false → n ≤ l.length := by
  induction n with
  | zero => intros; omega
  | succ n ih =>
    intro be l h
    rw [getNames] at h
    dsimp only at h
    have key : ∀ (n : Nat) (i : In), i.err = true → (getNames n i).2.err = true := by
      intro n
      induction n with
      | zero => intro i h; exact h
      | succ n ih => intro i h; rw [getNames]; exact ih _ (good_getStr.err_true _ ((good_getInt 4).err_true _ h))
    have h1 : (getStr (getInt 4 ⟨be, false, l⟩).2).2.err = false := by
      rw [← Bool.not_eq_true]; intro hn; rw [key n _ hn] at h; cases h
    have h2 := good_getStr.err_false _ h1
    obtain ⟨r, hr⟩ := (⟨_, (reads_getInt 4).ok h2⟩ : ∃ r, getInt 4 ⟨be, false, l⟩ = (_, In.mk be false r))
    obtain ⟨bs, e, hn⟩ := ((reads_getInt 4).exact be l _ r).mp hr
    rw [hr] at h1 h
    obtain ⟨r', hr'⟩ := (⟨_, reads_getStr.ok h1⟩ : ∃ r', getStr ⟨be, false, r⟩ = (_, In.mk be false r'))
    obtain ⟨bs', e', _⟩ := (reads_getStr.exact be r _ r').mp hr'
    rw [hr'] at h
    have := ih _ _ h
    have h4 := Udp.num_length hn
    rw [e, List.length_append, e', List.length_append]
    omega

theorem getNames_few (n : Nat) (be : Bool) (l : List Byte) (x : Nat × In) (hx : x = (n, ⟨be, false, l⟩)) (hl : l.length < n) :
    (getNames x.1 x.2).2.err = true := by
  subst hx
  rw [← Bool.not_eq_false]
  intro h
  have := getNames_needs _ _ _ h
  omega

theorem handleSearch_few (sendBE : Bool) (guid : List Byte) (port : Nat) (srcs : List Claims) (i : In) (n : Nat) (be : Bool) (l : List Byte)
    (hx : getInt 2 (getTcp (getSize false ((getU8 (getInt 4 i).2).2.skip (3 + 16 + 2))).1
        (getSize false ((getU8 (getInt 4 i).2).2.skip (3 + 16 + 2))).2).2 = (n, ⟨be, false, l⟩)) (hl : l.length < n) :
    handleSearch sendBE guid port srcs i = .closed := by
  unfold handleSearch
  dsimp only
  rw [if_pos]
  exact getNames_few n be l _ hx hl

/-- C41 does not hold: with a protocol after "tcp", the connection is closed -/
theorem C41_tcp_protocols : IsSearch true 7 0 [[0x74, 0x63, 0x70], [0x74, 0x6c, 0x73]] [(1, [0x61]), (2, [0x62])] (example_search true) ∧
    handleSearch true (List.replicate 12 9) 5075 [example_source] ⟨true, false, example_search true⟩ = .closed :=
  ⟨⟨[0, 0, 0, 7], List.replicate 21 0, [2], [3, 0x74, 0x63, 0x70] ++ ([3, 0x74, 0x6c, 0x73] ++ []), [0, 2], [0, 0, 0, 1, 1, 0x61] ++ ([0, 0, 0, 2, 1, 0x62] ++ []),
    ⟨by decide, by decide⟩, by decide, Or.inl ⟨by decide, rfl⟩,
    IsSeq.cons (Or.inr ⟨[3], Or.inl ⟨by decide, rfl⟩, rfl⟩) (IsSeq.cons (Or.inr ⟨[3], Or.inl ⟨by decide, rfl⟩, rfl⟩) IsSeq.nil), ⟨by decide, by decide⟩,
    IsSeq.cons ⟨[0, 0, 0, 1], [1, 0x61], ⟨by decide, by decide⟩, Or.inr ⟨[1], Or.inl ⟨by decide, rfl⟩, rfl⟩, rfl⟩
      (IsSeq.cons ⟨[0, 0, 0, 2], [1, 0x62], ⟨by decide, by decide⟩, Or.inr ⟨[1], Or.inl ⟨by decide, rfl⟩, rfl⟩, rfl⟩ IsSeq.nil), by decide⟩, by
    refine handleSearch_few _ _ _ _ _ 884 true [0x6c, 0x73, 0, 2, 0, 0, 0, 1, 1, 0x61, 0, 0, 0, 2, 1, 0x62] ?_ (by decide)
    decide⟩

/-- the same packet as in C47, to a server which has "x" -/
example : (answers (fun _ => true) 5076 ⟨List.replicate 12 9, 5075, []⟩ [fun names i => names[i]? == some [0x78]] Udp.here ⟨.v4 127 0 0 1, 0⟩ (Udp.example_ 0) false).length = 1 ∧
    (answers (fun _ => true) 5076 ⟨List.replicate 12 9, 5075, [⟨.v4 127 0 0 1, 0⟩]⟩ [fun names i => names[i]? == some [0x78]] Udp.here ⟨.v4 127 0 0 1, 0⟩ (Udp.example_ 0) false) = [] := by
  decide

end Pvxs.Props.Src
