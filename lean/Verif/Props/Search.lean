import Verif.Lemmas.Search
import Verif.Spec.Search
import Verif.Props.SearchReply
/-
C42: searching.
-/
namespace Pvxs.Props.Sea
open Wire Pvxs.Search Spec.Search Spec.Udp Spec.Packet

/-! ### packets -/

theorem isSeq_items (l : List (Str × Nat)) (h : ∀ x ∈ l, x.1.length ≤ 32738 ∧ x.2 < 2 ^ 32) : IsSeq (IsName true) l (l.flatMap itemBytes) := by
  induction l with
  | nil => exact IsSeq.nil
  | cons a l ih =>
    rw [List.flatMap_cons]
    have ha := h a (List.mem_cons_self ..)
    refine IsSeq.cons ⟨wireBytes true 4 a.2, sizeBytes true a.1.length, Src.isNum_wire true 4 _ (by omega), Src.isSize_size true _ (by omega), ?_⟩
      (ih fun x hx => h x (List.mem_cons_of_mem _ hx))
    rfl

theorem pktBytes_eq (kind : Kind) (hk : kind ≠ .discover) (port : Nat) (g : List (Str × Nat)) :
    pktBytes kind port g = headerBytes true ⟨3, 0, 0, 33 + (g.flatMap itemBytes).length⟩ ++ (wireBytes true 4 0x66696e64 ++ ([0] ++ ([0, 0, 0] ++ (List.replicate 16 0 ++
      wireBytes true 2 port)))) ++ ([1] ++ ([3, 0x74, 0x63, 0x70] ++ (wireBytes true 2 g.length ++ g.flatMap itemBytes))) := by
  unfold pktBytes finish buf
  dsimp only
  have hcount : countAt kind = 39 := by simp [countAt, hk]
  have e := emits_putHeader true ⟨3, 0, 0, (preBytes port ++ g.flatMap itemBytes).length - 8⟩ { be := true } rfl rfl rfl
  dsimp only at e
  rw [e, hcount]
  simp only [List.nil_append]
  have hlen : (preBytes port ++ g.flatMap itemBytes).length - 8 = 33 + (g.flatMap itemBytes).length := by
    rw [List.length_append, preBytes_length]; omega
  rw [hlen]
  have hpre : preBytes port = List.replicate 8 0 ++ ((wireBytes true 4 0x66696e64 ++ ([0] ++ ([0, 0, 0] ++ (List.replicate 16 0 ++ wireBytes true 2 port))) ++
      ([1] ++ [3, 0x74, 0x63, 0x70])) ++ [0, 0]) := by
    unfold preBytes
    have h2 : wireBytes true 2 0 = [0, 0] := by decide
    have h4 : wireBytes true 4 0 = [0, 0, 0, 0] := by decide
    have hs : strBytes true [0x74, 0x63, 0x70] = [3, 0x74, 0x63, 0x70] := by decide
    rw [h2, h4, hs]
    simp [List.replicate]
  have hmid : (wireBytes true 4 0x66696e64 ++ ([0] ++ ([0, 0, 0] ++ (List.replicate 16 0 ++ wireBytes true 2 port))) ++
      ([1] ++ [3, 0x74, 0x63, 0x70])).length = 31 := by
    simp only [List.length_append, wireBytes_length, List.length_replicate, List.length_cons, List.length_nil]
  have h1 : ((preBytes port ++ g.flatMap itemBytes).drop 8).take (39 - 8) = wireBytes true 4 0x66696e64 ++ ([0] ++ ([0, 0, 0] ++ (List.replicate 16 0 ++
      wireBytes true 2 port))) ++ ([1] ++ [3, 0x74, 0x63, 0x70]) := by
    rw [hpre, List.append_assoc, List.drop_left' (by simp)]
    rw [List.append_assoc]
    exact List.take_left' hmid
  have h2 : (preBytes port ++ g.flatMap itemBytes).drop (39 + 2) = g.flatMap itemBytes := by
    exact List.drop_left' (by rw [preBytes_length])
  rw [h1, h2]
  simp only [List.append_assoc]


theorem flatMap_length_le (l : List (Str × Nat)) (h : ∀ x ∈ l, x.1.length ≤ 32738) (pre : List Byte) (hp : pre.length ≤ 41) (hb : Bound pre l) :
    l.length < 65536 ∧ (l.flatMap itemBytes).length < 2 ^ 31 := by
  have hl : ∀ l : List (Str × Nat), l.length ≤ (l.flatMap itemBytes).length := by
    intro l
    induction l with
    | nil => simp
    | cons a l ih =>
      have := itemBytes_length a
      rw [List.flatMap_cons, List.length_append, List.length_cons]; omega
  have := hl l
  rcases hb with hb | hb
  · match l, hb with
    | [], _ => simp
    | [x], _ =>
      have h1 := h x (by simp)
      have h2 := itemBytes_length x
      simp; omega
  · rw [List.length_append] at hb
    unfold maxSearchPayload at hb
    omega

theorem pkt_query (kind : Kind) (hk : kind ≠ .discover) (port : Nat) (hp : port < 65536) (g : List (Str × Nat)) (hg : ∀ x ∈ g, x.1.length ≤ 32738 ∧ x.2 < 2 ^ 32)
    (hb : Bound (preBytes port) g) (u : Bool) : SearchFor (udpBytes u (pktBytes kind port g)) u port g := by
  obtain ⟨hl1, hl2⟩ := flatMap_length_le g (fun x hx => (hg x hx).1) _ (by rw [preBytes_length]; omega) hb
  have e : udpBytes u (pktBytes kind port g) = headerBytes true ⟨3, 0, 0, 33 + (g.flatMap itemBytes).length⟩ ++ (((wireBytes true 4 0x66696e64 ++ ([if u then 0x80 else 0] ++
      ([0, 0, 0] ++ (List.replicate 16 0 ++ wireBytes true 2 port)))) ++ (([1] ++ ([3, 0x74, 0x63, 0x70] ++ (wireBytes true 2 g.length ++ g.flatMap itemBytes))) ++ []))) := by
    rw [pktBytes_eq kind hk]
    have hh : (headerBytes true ⟨3, 0, 0, 33 + (g.flatMap itemBytes).length⟩ ++ wireBytes true 4 0x66696e64).length = 12 := by
      rw [List.length_append, wireBytes_length]; unfold headerBytes; rw [List.length_append, wireBytes_length]; rfl
    generalize headerBytes true ⟨3, 0, 0, 33 + (g.flatMap itemBytes).length⟩ = h at hh ⊢
    generalize wireBytes true 4 0x66696e64 = i at hh ⊢
    generalize [1] ++ ([3, 0x74, 0x63, 0x70] ++ (wireBytes true 2 g.length ++ g.flatMap itemBytes)) = b
    generalize List.replicate 16 (0 : Byte) ++ wireBytes true 2 port = z
    have e0 : h ++ (i ++ ([0] ++ ([0, 0, 0] ++ z))) ++ b = (h ++ i) ++ (0 :: ([0, 0, 0] ++ z ++ b)) := by simp
    rw [e0]
    unfold udpBytes
    have t1 : ((h ++ i) ++ (0 :: ([0, 0, 0] ++ z ++ b))).take 12 = h ++ i := List.take_left' hh
    have t2 : ((h ++ i) ++ (0 :: ([0, 0, 0] ++ z ++ b))).drop 12 = 0 :: ([0, 0, 0] ++ z ++ b) := List.drop_left' hh
    have t3 : ((h ++ i) ++ (0 :: ([0, 0, 0] ++ z ++ b))).drop 13 = [0, 0, 0] ++ z ++ b := by
      rw [show (13 : Nat) = 12 + 1 from rfl, ← List.drop_drop, t2]; rfl
    rw [t1, t2, t3]
    cases u <;> simp
  have hh : headerBytes true ⟨3, 0, 0, 33 + (g.flatMap itemBytes).length⟩ = [0xca, 2, 0x80, 3] ++ wireBytes true 4 (33 + (g.flatMap itemBytes).length) := by
    have h1 : (0 : Byte) ||| flagMSB = 0x80 := by decide
    unfold headerBytes
    dsimp only
    rw [h1]
    rfl
  rw [e, hh]
  have hhead : IsSearchHead true 0x66696e64 (if u then 0x80 else 0) (.v6 (List.replicate 16 0)) port
      (wireBytes true 4 0x66696e64 ++ ([if u then 0x80 else 0] ++ ([0, 0, 0] ++ (List.replicate 16 0 ++ wireBytes true 2 port)))) :=
    ⟨wireBytes true 4 0x66696e64, [0, 0, 0], List.replicate 16 0, wireBytes true 2 port, Src.isNum_wire true 4 _ (by decide), rfl,
      Or.inr ⟨rfl, by decide, by decide⟩, Src.isNum_wire true 2 _ (by omega), rfl⟩
  have hbody : IsSearchBody true [tcpName] g ([1] ++ ([3, 0x74, 0x63, 0x70] ++ (wireBytes true 2 g.length ++ g.flatMap itemBytes))) :=
    ⟨[1], [3, 0x74, 0x63, 0x70] ++ [], wireBytes true 2 g.length, g.flatMap itemBytes, Or.inl ⟨by decide, rfl⟩,
      IsSeq.cons (Or.inr ⟨[3], Or.inl ⟨by decide, rfl⟩, rfl⟩) IsSeq.nil, Src.isNum_wire true 2 _ (by omega), isSeq_items g hg, by simp⟩
  have hhdr : IsHeader true 3 0x80 2 (33 + (g.flatMap itemBytes).length) ([0xca, 2, 0x80, 3] ++ wireBytes true 4 (33 + (g.flatMap itemBytes).length)) :=
    ⟨by decide, by decide, _, Src.isNum_wire true 4 _ (by omega), rfl⟩
  refine ⟨true, _, [], ⟨33 + (g.flatMap itemBytes).length, _, ⟨⟨0x80, _, hhdr, by decide, rfl⟩, ?_⟩, hhead⟩, hbody⟩
  simp only [List.length_append, wireBytes_length, List.length_replicate, List.length_cons, List.length_nil]
  omega

/-- a name server is sent what would be sent by unicast, without a port for the answer -/
theorem tcp_eq {port : Nat} {h i b : List Byte} {f : Byte} (hh : (h ++ i).length = 12) :
    tcpBytes (h ++ (i ++ ([f] ++ ([0, 0, 0] ++ (List.replicate 16 0 ++ wireBytes true 2 port)))) ++ b) =
      h ++ (i ++ ([f ||| 0x80] ++ ([0, 0, 0] ++ (List.replicate 16 0 ++ wireBytes true 2 0)))) ++ b := by
  have hw : (wireBytes true 2 port).length = 2 := wireBytes_length ..
  generalize wireBytes true 2 port = w at hw ⊢
  have h2 : wireBytes true 2 0 = [0, 0] := by decide
  rw [h2]
  have e0 : h ++ (i ++ ([f] ++ ([0, 0, 0] ++ (List.replicate 16 0 ++ w)))) ++ b = (h ++ i) ++ (f :: (List.replicate 19 0 ++ (w ++ b))) := by
    simp [List.replicate]
  rw [e0]
  unfold tcpBytes
  have t1 : ((h ++ i) ++ (f :: (List.replicate 19 0 ++ (w ++ b)))).take 12 = h ++ i := List.take_left' hh
  have t2 : ((h ++ i) ++ (f :: (List.replicate 19 0 ++ (w ++ b)))).drop 12 = f :: (List.replicate 19 0 ++ (w ++ b)) := List.drop_left' hh
  have t3 : ((h ++ i) ++ (f :: (List.replicate 19 0 ++ (w ++ b)))).drop 13 = List.replicate 19 0 ++ (w ++ b) := by
    rw [show (13 : Nat) = 12 + 1 from rfl, ← List.drop_drop, t2]; rfl
  have t4 : ((h ++ i) ++ (f :: (List.replicate 19 0 ++ (w ++ b)))).drop 34 = b := by
    rw [show (34 : Nat) = 13 + (19 + 2) from rfl, ← List.drop_drop, t3, ← List.drop_drop, List.drop_left' (by simp), List.drop_left' hw]
  rw [t1, t2, t3, t4, List.take_left' (by simp)]
  simp [List.replicate]

theorem pkt_tcp (kind : Kind) (hk : kind ≠ .discover) (port : Nat) (g : List (Str × Nat)) (hg : ∀ x ∈ g, x.1.length ≤ 32738 ∧ x.2 < 2 ^ 32)
    (hb : Bound (preBytes port) g) : SearchFor (tcpBytes (pktBytes kind port g)) true 0 g := by
  have hh : (headerBytes true ⟨3, 0, 0, 33 + (g.flatMap itemBytes).length⟩ ++ wireBytes true 4 0x66696e64).length = 12 := by
    rw [List.length_append, wireBytes_length]; unfold headerBytes; rw [List.length_append, wireBytes_length]; rfl
  have e := pkt_query kind hk 0 (by decide) g hg (by
    rcases hb with hb | hb
    · exact Or.inl hb
    · right; rw [List.length_append, preBytes_length] at hb ⊢; exact hb) true
  have e2 : tcpBytes (pktBytes kind port g) = udpBytes true (pktBytes kind 0 g) := by
    rw [pktBytes_eq kind hk, pktBytes_eq kind hk, tcp_eq hh]
    generalize headerBytes true ⟨3, 0, 0, 33 + (g.flatMap itemBytes).length⟩ = h at hh ⊢
    generalize wireBytes true 4 0x66696e64 = i at hh ⊢
    generalize [1] ++ ([3, 0x74, 0x63, 0x70] ++ (wireBytes true 2 g.length ++ g.flatMap itemBytes)) = b
    generalize List.replicate 16 (0 : Byte) ++ wireBytes true 2 0 = z
    have e0 : h ++ (i ++ ([0] ++ ([0, 0, 0] ++ z))) ++ b = (h ++ i) ++ (0 :: ([0, 0, 0] ++ z ++ b)) := by simp
    rw [e0]
    unfold udpBytes
    have t1 : ((h ++ i) ++ (0 :: ([0, 0, 0] ++ z ++ b))).take 12 = h ++ i := List.take_left' hh
    have t2 : ((h ++ i) ++ (0 :: ([0, 0, 0] ++ z ++ b))).drop 12 = 0 :: ([0, 0, 0] ++ z ++ b) := List.drop_left' hh
    have t3 : ((h ++ i) ++ (0 :: ([0, 0, 0] ++ z ++ b))).drop 13 = [0, 0, 0] ++ z ++ b := by
      rw [show (13 : Nat) = 12 + 1 from rfl, ← List.drop_drop, t2]; rfl
    rw [t1, t2, t3]
    simp
  rw [e2]
  exact e

theorem udpBytes_length (u : Bool) (pkt : List Byte) (h : 13 ≤ pkt.length) : (udpBytes u pkt).length = pkt.length := by
  unfold udpBytes
  simp only [List.length_append, List.length_map, List.length_take, List.length_drop]
  omega

theorem pktBytes_length (kind : Kind) (hk : kind ≠ .discover) (port : Nat) (g : List (Str × Nat)) :
    (pktBytes kind port g).length = (preBytes port ++ g.flatMap itemBytes).length := by
  rw [pktBytes_eq kind hk]
  unfold headerBytes
  simp only [List.length_append, wireBytes_length, preBytes_length, List.length_replicate, List.length_cons, List.length_nil]
  omega

/-! ### buckets -/

/-- all but `nSearch` -/
def face (c : Ctx) (n : Nat) : Option (Nat × Str × Bool × St × Bool) := (c.chans n).map fun ch => (ch.cid, ch.name, ch.alive, ch.st, ch.forced)

/-- nothing but the buckets, which get more entries, and `nSearch` are changed -/
structure Grows (c c' : Ctx) : Prop where
  cur : c'.cur = c.cur
  initial : c'.initial = c.initial
  aborted : c'.aborted = c.aborted
  face : ∀ n, face c' n = face c n
  more : ∀ n b, n ∈ c.buckets b → n ∈ c'.buckets b

theorem Grows.refl (c : Ctx) : Grows c c := ⟨rfl, rfl, rfl, fun _ => rfl, fun _ _ h => h⟩

theorem Grows.trans {a b c : Ctx} (h : Grows a b) (g : Grows b c) : Grows a c :=
  ⟨g.cur.trans h.cur, g.initial.trans h.initial, g.aborted.trans h.aborted, fun n => (g.face n).trans (h.face n), fun n i hn => g.more n i (h.more n i hn)⟩

theorem mem_push (c : Ctx) (b n m i : Nat) : m ∈ (c.push b n).buckets i ↔ m ∈ c.buckets i ∨ (i = b ∧ m = n) := by
  unfold Ctx.push
  dsimp only
  split
  · rename_i h; simp [h]
  · rename_i h; simp [h]

theorem next_lt (c : Ctx) (idx ninc : Nat) : next c idx ninc < 30 := by
  unfold next nBuckets
  dsimp only
  split <;> omega

theorem grows_place (kind : Kind) (poked : Bool) (idx n : Nat) (ch : Chan) (c : Ctx) (h : c.chans n = some ch) :
    Grows c (place kind poked idx n ch c) ∧ ∃ b < 30, n ∈ (place kind poked idx n ch c).buckets b := by
  unfold place
  split
  · refine ⟨⟨rfl, rfl, rfl, fun m => ?_, fun m b hm => (mem_push ..).mpr (Or.inl hm)⟩, _, next_lt .., (mem_push ..).mpr (Or.inr ⟨rfl, rfl⟩)⟩
    unfold face Ctx.push Ctx.setChan
    dsimp only
    split
    · rename_i e; rw [e, h]; rfl
    · rfl
  · exact ⟨⟨rfl, rfl, rfl, fun m => rfl, fun m b hm => (mem_push ..).mpr (Or.inl hm)⟩, _, next_lt .., (mem_push ..).mpr (Or.inr ⟨rfl, rfl⟩)⟩

theorem grows_placeOne (kind : Kind) (poked : Bool) (idx : Nat) (c : Ctx) (n : Nat) :
    Grows c (placeOne kind poked idx c n) ∧ ((item c n).isSome → ∃ b < 30, n ∈ (placeOne kind poked idx c n).buckets b) := by
  unfold placeOne item
  split
  · rename_i h; exact ⟨Grows.refl c, by simp⟩
  · rename_i ch h
    split
    · exact ⟨Grows.refl c, by simp⟩
    · exact ⟨(grows_place _ _ _ _ _ _ h).1, fun _ => (grows_place _ _ _ _ _ _ h).2⟩

theorem grows_placeAll (kind : Kind) (poked : Bool) (idx : Nat) (l : List Nat) (c : Ctx) :
    Grows c (l.foldl (placeOne kind poked idx) c) ∧ ∀ n ∈ l, (item c n).isSome → ∃ b < 30, n ∈ (l.foldl (placeOne kind poked idx) c).buckets b := by
  induction l generalizing c with
  | nil => exact ⟨Grows.refl c, by simp⟩
  | cons a l ih =>
    rw [List.foldl_cons]
    obtain ⟨g1, g2⟩ := grows_placeOne kind poked idx c a
    obtain ⟨i1, i2⟩ := ih (placeOne kind poked idx c a)
    refine ⟨g1.trans i1, fun n hn hi => ?_⟩
    rcases List.mem_cons.mp hn with rfl | hn
    · obtain ⟨b, hb, h⟩ := g2 hi
      exact ⟨b, hb, i1.more _ _ h⟩
    · exact i2 n hn (by rw [item_placeOne]; exact hi)

theorem unresolved_face {c c' : Ctx} {n : Nat} (h : face c' n = face c n) : Unresolved c' n ↔ Unresolved c n := by
  have key : ∀ c : Ctx, Unresolved c n ↔ ∃ x, face c n = some x ∧ x.2.2.1 = true ∧ x.2.2.2.1 = .searching := by
    intro c
    unfold Unresolved face
    constructor
    · rintro ⟨ch, h1, h2, h3⟩
      exact ⟨_, by rw [h1]; rfl, h2, h3⟩
    · rintro ⟨x, h1, h2, h3⟩
      cases hc : c.chans n with
      | none => rw [hc] at h1; cases h1
      | some ch => rw [hc] at h1; cases h1; exact ⟨ch, rfl, h2, h3⟩
  rw [key, key, h]

theorem item_unresolved {c : Ctx} {n : Nat} (h : Unresolved c n) : ∃ x, item c n = some x ∧ Item c n x := by
  obtain ⟨ch, h1, h2, h3⟩ := h
  refine ⟨(ch.name, ch.cid), ?_, ch, h1, rfl⟩
  unfold item Chan.wanted
  rw [h1]
  simp [h2, h3]

theorem item_some {c : Ctx} {n : Nat} {x : Str × Nat} (h : item c n = some x) : Unresolved c n ∧ Item c n x := by
  unfold item Chan.wanted at h
  cases hc : c.chans n with
  | none => rw [hc] at h; cases h
  | some ch =>
    rw [hc] at h
    dsimp only at h
    split at h
    · cases h
    · rename_i hw
      simp only [Bool.not_eq_false, Bool.and_eq_true, beq_iff_eq] at hw
      cases h
      exact ⟨⟨ch, hc, hw⟩, ch, hc, rfl⟩

/-! ### the invariant -/

structure Inv (c : Ctx) : Prop where
  cur : c.cur < 30
  sched : ∀ n, Unresolved c n → Scheduled c n
  short : ∀ n x, face c n = some x → x.2.1.length ≤ 32738 ∧ x.1 < 2 ^ 32
  ok : c.aborted = false

theorem Inv.item {c : Ctx} (h : Inv c) {n : Nat} {x : Str × Nat} (hx : item c n = some x) : x.1.length ≤ 32738 ∧ x.2 < 2 ^ 32 := by
  obtain ⟨_, ch, h1, rfl⟩ := item_some hx
  exact h.short n (ch.cid, ch.name, ch.alive, ch.st, ch.forced) (by unfold face; rw [h1]; rfl)

/-- what a tick does: packets with the names of these channels, which are put into buckets again -/
structure Ticks (kind : Kind) (port : Nat) (bucket : List Nat) (c0 : Ctx) (r : List (List Byte) × Ctx) : Prop where
  pkts : ∃ groups : List (List (Str × Nat)), r.1 = groups.map (pktBytes kind port) ∧ groups.flatten = bucket.filterMap (item c0) ∧
    ∀ g ∈ groups, g ≠ [] ∧ Bound (preBytes port) g
  grows : Grows c0 r.2
  again : ∀ n ∈ bucket, (item c0 n).isSome → ∃ b < 30, n ∈ r.2.buckets b

theorem ticks_loop (kind : Kind) (hk : kind ≠ .discover) (poked : Bool) (port idx : Nat) (f : Nat) (bucket : List Nat) (hf : bucket.length < f) (c : Ctx)
    (hs : ∀ n ∈ bucket, ∀ x, item c n = some x → x.1.length ≤ 32738) : Ticks kind port bucket c (loop kind poked port idx f bucket c) := by
  obtain ⟨gs, h1, h2, h3, h4⟩ := loop_ok kind hk poked port idx f bucket hf c hs
  have := grows_placeAll kind poked idx bucket c
  rw [← h4] at this
  exact ⟨⟨gs, h1, h2, h3⟩, this.1, this.2⟩

/-- the bucket is taken out -/
def takeOut (c : Ctx) : Ctx := { c with cur := (c.cur + 1) % 30, buckets := fun i => if i = c.cur then [] else c.buckets i }

theorem check_ticks (poked : Bool) (port : Nat) (c : Ctx) (hc : Inv c) :
    Ticks .check port (c.buckets c.cur) (takeOut c) (tickSearch .check poked port c) :=
  ticks_loop .check (by decide) poked port c.cur _ _ (Nat.lt_succ_self _) (takeOut c) fun _ _ _ hx => (hc.item hx).1

theorem initial_ticks (port : Nat) (c : Ctx) (hc : Inv c) :
    Ticks .initial port c.initial { c with initial := [] } (tickSearch .initial false port c) :=
  ticks_loop .initial (by decide) false port c.cur _ _ (Nat.lt_succ_self _) { c with initial := [] } fun _ _ _ hx => (hc.item hx).1

theorem discover_tick (port : Nat) (c : Ctx) : ∃ pkt, tickSearch .discover false port c = ([pkt], c) ∧ pkt = finish .discover (start .discover port) 0 := by
  have h := (((((((((((fits_write true (List.replicate 8 0)).comp (fits_putInt true 4 0x66696e64)).comp (fits_putU8 true 1)).comp (fits_putU8 true 0)).comp
    (fits_putInt true 2 0)).comp (fits_putInt true 4 0)).comp (fits_putInt true 4 0)).comp (fits_putInt true 4 0)).comp (fits_putInt true 4 0)).comp
    (fits_putInt true 2 port)).comp (fits_putU8 true 0)).comp (fits_write true [0, 0])
  have := h.ok [] 0x10000 (by
    simp only [List.length_append, wireBytes_length, List.length_replicate, List.length_cons, List.length_nil]
    decide)
  have he : (start .discover port).err = false := by
    unfold start
    simp only [if_true]
    rw [this]
  refine ⟨_, ?_, rfl⟩
  unfold tickSearch
  dsimp only
  rw [loop, if_neg (by simp)]
  simp only [fill]
  rw [if_neg (by rw [he]; decide)]
  simp

theorem inv_check {c : Ctx} (hc : Inv c) (poked : Bool) (port : Nat) : Inv (tickSearch .check poked port c).2 := by
  obtain ⟨_, g, ag⟩ := check_ticks poked port c hc
  refine ⟨?_, fun n hn => ?_, fun n x hx => ?_, ?_⟩
  · rw [g.cur]; exact Nat.mod_lt _ (by decide)
  · have hn' : Unresolved c n := (unresolved_face (c := takeOut c) (g.face n)).mp hn
    rcases hc.sched n hn' with h | ⟨b, hb, h⟩
    · exact Or.inl (by rw [g.initial]; exact h)
    · right
      by_cases e : b = c.cur
      · subst e
        obtain ⟨x, hx, _⟩ := item_unresolved hn'
        exact ag n h (by show (item c n).isSome = true; rw [hx]; rfl)
      · exact ⟨b, hb, g.more n b (by show n ∈ (if b = c.cur then [] else c.buckets b); rw [if_neg e]; exact h)⟩
  · exact hc.short n x (by rw [g.face n] at hx; exact hx)
  · rw [g.aborted]; exact hc.ok

theorem inv_initial {c : Ctx} (hc : Inv c) (port : Nat) : Inv (tickSearch .initial false port c).2 := by
  obtain ⟨_, g, ag⟩ := initial_ticks port c hc
  refine ⟨?_, fun n hn => ?_, fun n x hx => ?_, ?_⟩
  · rw [g.cur]; exact hc.cur
  · have hn' : Unresolved c n := (unresolved_face (c := { c with initial := [] }) (g.face n)).mp hn
    right
    rcases hc.sched n hn' with h | ⟨b, hb, h⟩
    · obtain ⟨x, hx, _⟩ := item_unresolved hn'
      exact ag n h (by show (item c n).isSome = true; rw [hx]; rfl)
    · exact ⟨b, hb, g.more n b h⟩
  · exact hc.short n x (by rw [g.face n] at hx; exact hx)
  · rw [g.aborted]; exact hc.ok

theorem inv_setChan {c : Ctx} (hc : Inv c) {n : Nat} {ch : Chan} (hs : ch.name.length ≤ 32738 ∧ ch.cid < 2 ^ 32)
    (hu : ch.alive = true → ch.st = .searching → Scheduled c n) : Inv (c.setChan n ch) := by
  refine ⟨hc.cur, fun m hm => ?_, fun m x hx => ?_, hc.ok⟩
  · by_cases e : m = n
    · subst e
      obtain ⟨ch', h1, h2, h3⟩ := hm
      simp only [Ctx.setChan, if_true, Option.some.injEq] at h1
      subst h1
      exact hu h2 h3
    · refine hc.sched m ?_
      obtain ⟨ch', h1, h2⟩ := hm
      simp only [Ctx.setChan, e, if_false] at h1
      exact ⟨ch', h1, h2⟩
  · unfold face Ctx.setChan at hx
    dsimp only at hx
    split at hx
    · cases hx; exact hs
    · exact hc.short m x hx

theorem inv_short {c : Ctx} (hc : Inv c) {n : Nat} {ch : Chan} (h : c.chans n = some ch) : ch.name.length ≤ 32738 ∧ ch.cid < 2 ^ 32 :=
  hc.short n (ch.cid, ch.name, ch.alive, ch.st, ch.forced) (by unfold face; rw [h]; rfl)

theorem inv_move {c : Ctx} (hc : Inv c) (n : Nat) (f : Chan → Option St) (hf : ∀ ch, f ch ≠ some .searching) : Inv (c.move n f) := by
  unfold Ctx.move
  split
  · exact hc
  · rename_i ch h
    split
    · exact hc
    · split
      · exact hc
      · rename_i s hs
        exact inv_setChan hc (by have hs' := inv_short hc h; exact hs') fun _ h2 => by dsimp only at h2; subst h2; exact absurd hs (hf ch)

theorem inv_setPush {c : Ctx} (hc : Inv c) {n : Nat} {ch : Chan} (hs : ch.name.length ≤ 32738 ∧ ch.cid < 2 ^ 32) (b : Nat) (hb : b < 30) :
    Inv ((c.setChan n ch).push b n) := by
  have h1 : Inv (c.push b n) := by
    refine ⟨hc.cur, fun m hm => ?_, hc.short, hc.ok⟩
    rcases hc.sched m hm with h | ⟨i, hi, h⟩
    · exact Or.inl h
    · exact Or.inr ⟨i, hi, (mem_push ..).mpr (Or.inl h)⟩
  exact inv_setChan (c := c.push b n) h1 hs fun _ _ => Or.inr ⟨b, hb, (mem_push ..).mpr (Or.inr ⟨rfl, rfl⟩)⟩

theorem inv_step {c : Ctx} (hc : Inv c) (port : Nat) (op : Op) (ho : ∀ n cid name forced, op = .build n cid name forced → name.length ≤ 32738 ∧ cid < 2 ^ 32) :
    Inv (step port c op).2 := by
  cases op with
  | build n cid name forced =>
    have hs := ho n cid name forced rfl
    simp only [step]
    split
    · exact hc
    · split
      · exact inv_setChan hc hs fun _ h => by cases h
      · have h1 : Inv { c with initial := c.initial ++ [n] } := by
          refine ⟨hc.cur, fun m hm => ?_, hc.short, hc.ok⟩
          rcases hc.sched m hm with h | h
          · exact Or.inl (List.mem_append_left _ h)
          · exact Or.inr h
        exact inv_setChan (c := { c with initial := c.initial ++ [n] }) h1 hs fun _ _ => Or.inl (by simp)
  | tick poked => exact inv_check hc poked port
  | initial => exact inv_initial hc port
  | discover =>
    obtain ⟨pkt, h, _⟩ := discover_tick port c
    simp only [step, h]
    exact hc
  | found n => exact inv_move hc n _ fun ch => by split <;> simp
  | request n => exact inv_move hc n _ fun ch => by split <;> simp
  | accepted n => exact inv_move hc n _ fun ch => by split <;> simp
  | refused n =>
    simp only [step]
    split
    · exact hc
    · rename_i ch h
      split
      · exact inv_setPush (ch := { ch with st := .searching }) hc (by have hs' := inv_short hc h; exact hs') _ hc.cur
      · exact hc
  | detach n =>
    simp only [step]
    split
    · exact hc
    · rename_i ch h
      split
      · exact hc
      · split
        · exact inv_setChan hc (by have hs' := inv_short hc h; exact hs') fun _ h => by cases h
        · exact inv_setPush (ch := { ch with st := .searching }) hc (by have hs' := inv_short hc h; exact hs') _ (Nat.mod_lt _ (by decide))
  | drop n =>
    simp only [step]
    split
    · exact hc
    · rename_i ch h
      exact inv_setChan hc (by have hs' := inv_short hc h; exact hs') fun h _ => by cases h

theorem inv_run (port : Nat) (ops : List Op) (hs : Short ops) (c : Ctx) (hc : Inv c) : Inv (run port ops c).2 := by
  induction ops generalizing c with
  | nil => exact hc
  | cons o l ih =>
    rw [run, if_neg (by rw [hc.ok]; decide)]
    exact ih (fun n cid name forced h => hs n cid name forced (List.mem_cons_of_mem _ h)) _
      (inv_step hc port o fun n cid name forced h => hs n cid name forced (by rw [← h]; exact List.mem_cons_self ..))

theorem inv_init : Inv {} where
  cur := by decide
  sched := fun n h => by obtain ⟨_, h, _⟩ := h; cases h
  short := fun n x h => by simp [face] at h
  ok := rfl

/-! ### the property -/

/-- C42: whatever happens, a channel for which no server is known will be searched for: it is to be searched for the first time, or again -/
theorem C42_scheduled (port : Nat) (ops : List Op) (hs : Short ops) (n : Nat) (hu : Unresolved (run port ops {}).2 n) : Scheduled (run port ops {}).2 n :=
  (inv_run port ops hs {} inv_init).sched n hu

/-- no assert() fails -/
theorem C42_alive (port : Nat) (ops : List Op) (hs : Short ops) : (run port ops {}).2.aborted = false := (inv_run port ops hs {} inv_init).ok

/-- these packets, as they are sent by UDP and to name servers, are searches for these, and not longer than what is allowed unless for only one name -/
def Packets (port : Nat) (pkts : List (List Byte)) (groups : List (List (Str × Nat))) : Prop :=
  pkts.length = groups.length ∧ ∀ i (h : i < pkts.length) (h' : i < groups.length), groups[i] ≠ [] ∧ (∀ u, SearchFor (udpBytes u pkts[i]) u port groups[i]) ∧
    SearchFor (tcpBytes pkts[i]) true 0 groups[i] ∧
    ∀ u, (udpBytes u pkts[i]).length ≤ 1400 ∨ groups[i].length = 1

theorem ticks_packets {kind : Kind} (hk : kind ≠ .discover) {port : Nat} (hp : port < 65536) {bucket : List Nat} {c : Ctx} {r : List (List Byte) × Ctx}
    (h : Ticks kind port bucket c r) (hs : ∀ n x, item c n = some x → x.1.length ≤ 32738 ∧ x.2 < 2 ^ 32) :
    ∃ groups, Packets port r.1 groups ∧ groups.flatten = bucket.filterMap (item c) := by
  obtain ⟨⟨gs, h1, h2, h3⟩, _, _⟩ := h
  refine ⟨gs, ⟨by rw [h1, List.length_map], fun i hi hi' => ?_⟩, h2⟩
  have hm := List.getElem_mem hi'
  have hg : ∀ x ∈ gs[i], x.1.length ≤ 32738 ∧ x.2 < 2 ^ 32 := by
    intro x hx
    have : x ∈ gs.flatten := List.mem_flatten.mpr ⟨_, hm, hx⟩
    rw [h2] at this
    obtain ⟨n, _, hn⟩ := List.mem_filterMap.mp this
    exact hs n x hn
  have e : r.1[i] = pktBytes kind port gs[i] := by simp [h1]
  obtain ⟨hne, hb⟩ := h3 _ hm
  refine ⟨hne, fun u => by rw [e]; exact pkt_query kind hk port hp _ hg hb u, by rw [e]; exact pkt_tcp kind hk port _ hg hb, fun u => ?_⟩
  have hl := pktBytes_length kind hk port gs[i]
  rw [e, udpBytes_length u _ (by rw [hl, List.length_append, preBytes_length]; omega), hl]
  rcases hb with hb | hb
  · right
    have : gs[i].length ≠ 0 := fun h => hne (List.length_eq_zero_iff.mp h)
    omega
  · exact Or.inl hb

/-- C42, packets: at each tick, the packets are searches for exactly those channels in the bucket whose turn it is for which no server is known -/
theorem C42_tick (port : Nat) (hp : port < 65536) (ops : List Op) (hs : Short ops) (poked : Bool) :
    ∃ groups, Packets port (step port (run port ops {}).2 (.tick poked)).1 groups ∧
      ∀ x, x ∈ groups.flatten ↔ ∃ n ∈ (run port ops {}).2.buckets (run port ops {}).2.cur, Unresolved (run port ops {}).2 n ∧ Item (run port ops {}).2 n x := by
  have hc := inv_run port ops hs {} inv_init
  generalize (run port ops {}).2 = c at hc
  obtain ⟨gs, h1, h2⟩ := ticks_packets (by decide) hp (check_ticks poked port c hc) fun n x hx => hc.item hx
  refine ⟨gs, h1, fun x => ?_⟩
  rw [h2, List.mem_filterMap]
  constructor
  · rintro ⟨n, hn, hx⟩
    have : item c n = some x := hx
    exact ⟨n, hn, item_some this⟩
  · rintro ⟨n, hn, hu, hi⟩
    obtain ⟨y, hy, ch, h3, rfl⟩ := item_unresolved hu
    obtain ⟨ch', h4, rfl⟩ := hi
    rw [h3] at h4; cases h4
    exact ⟨n, hn, hy⟩

/-- C42, packets: the first search is for exactly the new channels -/
theorem C42_initial (port : Nat) (hp : port < 65536) (ops : List Op) (hs : Short ops) :
    ∃ groups, Packets port (step port (run port ops {}).2 .initial).1 groups ∧
      ∀ x, x ∈ groups.flatten ↔ ∃ n ∈ (run port ops {}).2.initial, Unresolved (run port ops {}).2 n ∧ Item (run port ops {}).2 n x := by
  have hc := inv_run port ops hs {} inv_init
  generalize (run port ops {}).2 = c at hc
  obtain ⟨gs, h1, h2⟩ := ticks_packets (by decide) hp (initial_ticks port c hc) fun n x hx => hc.item hx
  refine ⟨gs, h1, fun x => ?_⟩
  rw [h2, List.mem_filterMap]
  constructor
  · rintro ⟨n, hn, hx⟩
    have : item c n = some x := hx
    exact ⟨n, hn, item_some this⟩
  · rintro ⟨n, hn, hu, hi⟩
    obtain ⟨y, hy, ch, h3, rfl⟩ := item_unresolved hu
    obtain ⟨ch', h4, rfl⟩ := hi
    rw [h3] at h4; cases h4
    exact ⟨n, hn, hy⟩

/-! ### again and again -/

def isTick : Op → Bool
  | .tick _ => true
  | _ => false

theorem item_setChan {c : Ctx} {n : Nat} {x : Str × Nat} (hi : Item c n x) {m : Nat} {ch ch' : Chan} (h : c.chans m = some ch) (h1 : ch'.name = ch.name)
    (h2 : ch'.cid = ch.cid) : Item (c.setChan m ch') n x := by
  obtain ⟨ch0, h3, rfl⟩ := hi
  unfold Item Ctx.setChan
  dsimp only
  split
  · rename_i e
    subst e
    rw [h] at h3; cases h3
    exact ⟨ch', rfl, by rw [h1, h2]⟩
  · exact ⟨ch0, h3, rfl⟩

theorem item_grows {c c' : Ctx} (h : ∀ n, face c' n = face c n) {n : Nat} {x : Str × Nat} (hi : Item c n x) : Item c' n x := by
  obtain ⟨ch, h1, rfl⟩ := hi
  have := h n
  unfold face at this
  rw [h1] at this
  cases hc : c'.chans n with
  | none => rw [hc] at this; cases this
  | some ch' =>
    rw [hc] at this
    simp only [Option.map_some, Option.some.injEq, Prod.mk.injEq] at this
    exact ⟨ch', hc, by rw [this.1, this.2.1]⟩

theorem item_step {c : Ctx} (hc : Inv c) (port : Nat) (op : Op) {n : Nat} {x : Str × Nat} (hi : Item c n x) : Item (step port c op).2 n x := by
  have hmove : ∀ m f, Item (c.move m f) n x := by
    intro m f
    unfold Ctx.move
    split
    · exact hi
    · rename_i ch h
      split
      · exact hi
      · split
        · exact hi
        · exact item_setChan hi h rfl rfl
  cases op with
  | build m cid name forced =>
    simp only [step]
    split
    · exact hi
    · rename_i hn
      have hne : n ≠ m := by
        rintro rfl
        obtain ⟨ch, h, _⟩ := hi
        rw [h] at hn; exact hn rfl
      obtain ⟨ch, h, rfl⟩ := hi
      split
      · exact ⟨ch, by simp [Ctx.setChan, hne, h], rfl⟩
      · exact ⟨ch, by simp [Ctx.setChan, hne, h], rfl⟩
  | tick poked => exact item_grows (check_ticks poked port c hc).grows.face hi
  | initial => exact item_grows (initial_ticks port c hc).grows.face hi
  | discover =>
    obtain ⟨pkt, h, _⟩ := discover_tick port c
    simp only [step, h]
    exact hi
  | found m => exact hmove _ _
  | request m => exact hmove _ _
  | accepted m => exact hmove _ _
  | refused m =>
    simp only [step]
    split
    · exact hi
    · rename_i ch h
      split
      · exact item_setChan (ch' := { ch with st := .searching }) hi h rfl rfl
      · exact hi
  | detach m =>
    simp only [step]
    split
    · exact hi
    · rename_i ch h
      split
      · exact hi
      · split
        · exact item_setChan (ch' := { ch with st := .connecting }) hi h rfl rfl
        · exact item_setChan (ch' := { ch with st := .searching }) hi h rfl rfl
  | drop m =>
    simp only [step]
    split
    · exact hi
    · rename_i ch h
      exact item_setChan (ch' := { ch with alive := false }) hi h rfl rfl

theorem step_keeps {c : Ctx} (hc : Inv c) (port : Nat) (op : Op) (ho : isTick op = false) :
    (step port c op).2.cur = c.cur ∧ ∀ n b, n ∈ c.buckets b → n ∈ (step port c op).2.buckets b := by
  have hmove : ∀ m f, (c.move m f).cur = c.cur ∧ ∀ n b, n ∈ c.buckets b → n ∈ (c.move m f).buckets b := by
    intro m f
    unfold Ctx.move
    split
    · exact ⟨rfl, fun _ _ h => h⟩
    · split
      · exact ⟨rfl, fun _ _ h => h⟩
      · split <;> exact ⟨rfl, fun _ _ h => h⟩
  cases op with
  | build m cid name forced =>
    simp only [step]
    split
    · exact ⟨rfl, fun _ _ h => h⟩
    · split <;> exact ⟨rfl, fun _ _ h => h⟩
  | tick poked => cases ho
  | initial =>
    have g := (initial_ticks port c hc).grows
    exact ⟨g.cur, g.more⟩
  | discover =>
    obtain ⟨pkt, h, _⟩ := discover_tick port c
    simp only [step, h]
    exact ⟨trivial, fun _ _ h => h⟩
  | found m => exact hmove _ _
  | request m => exact hmove _ _
  | accepted m => exact hmove _ _
  | refused m =>
    simp only [step]
    split
    · exact ⟨rfl, fun _ _ h => h⟩
    · split
      · exact ⟨rfl, fun _ _ h => (mem_push ..).mpr (Or.inl h)⟩
      · exact ⟨rfl, fun _ _ h => h⟩
  | detach m =>
    simp only [step]
    split
    · exact ⟨rfl, fun _ _ h => h⟩
    · split
      · exact ⟨rfl, fun _ _ h => h⟩
      · split
        · exact ⟨rfl, fun _ _ h => h⟩
        · exact ⟨rfl, fun _ _ h => (mem_push ..).mpr (Or.inl h)⟩
  | drop m =>
    simp only [step]
    split <;> exact ⟨rfl, fun _ _ h => h⟩

theorem again (port : Nat) (hp : port < 65536) (n : Nat) (x : Str × Nat) (l : List Op) : ∀ (c : Ctx), Inv c → Short l → Item c n x → ∀ b < 30, n ∈ c.buckets b →
    (∀ p, p <+: l → Unresolved (run port p c).2 n) → (b + 30 - c.cur) % 30 < l.countP isTick →
    ∃ pkt ∈ (run port l c).1, ∃ items, x ∈ items ∧ ∀ u, SearchFor (udpBytes u pkt) u port items := by
  induction l with
  | nil => intro c _ _ _ b _ _ _ h; simp at h
  | cons o l ih =>
    intro c hc hs hi b hb hn hu ht
    have hs' : Short l := fun n cid name forced h => hs n cid name forced (List.mem_cons_of_mem _ h)
    have hc' := inv_step hc port o fun n cid name forced h => hs n cid name forced (by rw [← h]; exact List.mem_cons_self ..)
    have hi' := item_step hc port o hi
    have hrun : ∀ p, run port (o :: p) c = ((step port c o).1 ++ (run port p (step port c o).2).1, (run port p (step port c o).2).2) := by
      intro p
      rw [run, if_neg (by rw [hc.ok]; decide)]
    have hu' : ∀ p, p <+: l → Unresolved (run port p (step port c o).2).2 n := by
      intro p hpl
      have := hu (o :: p) (by rw [List.cons_prefix_cons]; exact ⟨rfl, hpl⟩)
      rw [hrun] at this
      exact this
    have hcont : ∀ b' < 30, n ∈ (step port c o).2.buckets b' → (b' + 30 - (step port c o).2.cur) % 30 < l.countP isTick →
        ∃ pkt ∈ (run port (o :: l) c).1, ∃ items, x ∈ items ∧ ∀ u, SearchFor (udpBytes u pkt) u port items := by
      intro b' hb' hn' ht'
      obtain ⟨pkt, h1, h2⟩ := ih _ hc' hs' hi' b' hb' hn' hu' ht'
      exact ⟨pkt, by rw [hrun]; exact List.mem_append_right _ h1, h2⟩
    by_cases ho : isTick o = true
    · cases o with
      | tick poked =>
        by_cases e : b = c.cur
        · subst e
          obtain ⟨y, hy, ch, h3, rfl⟩ := item_unresolved (hu [] (by simp))
          obtain ⟨ch', h4, rfl⟩ := hi
          have h3 : c.chans n = some ch := h3
          rw [h4] at h3; cases h3
          obtain ⟨gs, h1, h2⟩ := ticks_packets (by decide) hp (check_ticks poked port c hc) fun n x hx => hc.item hx
          have hm : (ch.name, ch.cid) ∈ gs.flatten := by rw [h2]; exact List.mem_filterMap.mpr ⟨n, hn, hy⟩
          obtain ⟨g, hg, hx⟩ := List.mem_flatten.mp hm
          obtain ⟨i, hi, rfl⟩ := List.mem_iff_getElem.mp hg
          have hi2 : i < (step port c (.tick poked)).1.length := by
            show i < (tickSearch .check poked port c).1.length
            rw [h1.1]; exact hi
          refine ⟨(step port c (.tick poked)).1[i], by rw [hrun]; exact List.mem_append_left _ (List.getElem_mem hi2), gs[i], hx, (h1.2 i hi2 hi).2.1⟩
        · have g := (check_ticks poked port c hc).grows
          have hcur : (step port c (.tick poked)).2.cur = (c.cur + 1) % 30 := g.cur
          refine hcont b hb (g.more n b (by show n ∈ (if b = c.cur then [] else c.buckets b); rw [if_neg e]; exact hn)) ?_
          rw [hcur]
          have h1 : (Op.tick poked :: l).countP isTick = l.countP isTick + 1 := List.countP_cons_of_pos rfl
          rw [h1] at ht
          have := hc.cur
          omega
      | _ => cases ho
    · have ho' : isTick o = false := by simpa using ho
      obtain ⟨k1, k2⟩ := step_keeps hc port o ho'
      refine hcont b hb (k2 n b hn) ?_
      rw [k1]
      have h1 : (o :: l).countP isTick = l.countP isTick := by simp [ho']
      rw [h1] at ht
      exact ht

theorem run_append (port : Nat) (a b : List Op) (c : Ctx) : (run port (a ++ b) c).2 = (run port b (run port a c).2).2 := by
  induction a generalizing c with
  | nil => rfl
  | cons o a ih =>
    rw [List.cons_append, run, run]
    split
    · rename_i h
      cases b with
      | nil => rfl
      | cons p b => rw [run, if_pos h]
    · exact ih _

/-- C42: as long as no server is known for a channel which was searched for once (is in some bucket), there is, whatever else happens, a
packet with its name and identifier among those sent by any thirty ticks -/
theorem C42_again (port : Nat) (hp : port < 65536) (ops l : List Op) (hs : Short (ops ++ l)) (n : Nat) (x : Str × Nat) (hx : Item (run port ops {}).2 n x)
    (hn : ∃ b < 30, n ∈ (run port ops {}).2.buckets b) (hu : ∀ p, p <+: l → Unresolved (run port (ops ++ p) {}).2 n) (ht : 30 ≤ l.countP isTick) :
    ∃ pkt ∈ (run port l (run port ops {}).2).1, ∃ items, x ∈ items ∧ ∀ u, SearchFor (udpBytes u pkt) u port items := by
  obtain ⟨b, hb, hn⟩ := hn
  refine again port hp n x l _ (inv_run port ops (fun n cid name forced h => hs n cid name forced (List.mem_append_left _ h)) {} inv_init)
    (fun n cid name forced h => hs n cid name forced (List.mem_append_right _ h)) hx b hb hn ?_ ?_
  · intro p hpl
    rw [← run_append]
    exact hu p hpl
  · exact Nat.lt_of_lt_of_le (Nat.mod_lt _ (by decide)) ht

/-! ### other packets -/

/-- the packet for discovery -/
theorem discover_eq (port : Nat) : finish .discover (start .discover port) 0 = [0xca, 2, 0x80, 3] ++ wireBytes true 4 29 ++ (wireBytes true 4 0x66696e64 ++ (1 ::
    ([0, 0, 0] ++ (List.replicate 16 0 ++ wireBytes true 2 port)) ++ [0, 0, 0])) := by
  have h := (((((((((((fits_write true (List.replicate 8 0)).comp (fits_putInt true 4 0x66696e64)).comp (fits_putU8 true 1)).comp (fits_putU8 true 0)).comp
    (fits_putInt true 2 0)).comp (fits_putInt true 4 0)).comp (fits_putInt true 4 0)).comp (fits_putInt true 4 0)).comp (fits_putInt true 4 0)).comp
    (fits_putInt true 2 port)).comp (fits_putU8 true 0)).comp (fits_write true [0, 0])
  have := h.ok [] 0x10000 (by
    simp only [List.length_append, wireBytes_length, List.length_replicate, List.length_cons, List.length_nil]
    decide)
  unfold finish start
  simp only [if_true]
  rw [this]
  dsimp only
  have hc : countAt .discover = 35 := rfl
  rw [hc]
  have h2 : wireBytes true 2 0 = [0, 0] := by decide
  have h4 : wireBytes true 4 0 = [0, 0, 0, 0] := by decide
  have hi : wireBytes true 4 0x66696e64 = [0x66, 0x69, 0x6e, 0x64] := by decide
  have hp : ∃ a b, wireBytes true 2 port = [a, b] := by
    have := wireBytes_length true 2 port
    match hw : wireBytes true 2 port, this with
    | [a, b], _ => exact ⟨a, b, rfl⟩
  obtain ⟨a, b, hp⟩ := hp
  rw [h2, h4, hi, hp]
  have e := emits_putHeader true ⟨3, 0, 0, 29⟩ { be := true } rfl rfl rfl
  have h1 : (0 : Byte) ||| flagMSB = 0x80 := by decide
  have hh : headerBytes true ⟨3, 0, 0, 29⟩ = [0xca, 2, 0x80, 3] ++ wireBytes true 4 29 := by
    unfold headerBytes
    dsimp only
    rw [h1]
    rfl
  rw [hh] at e
  dsimp only at e
  simp only [List.replicate, List.nil_append, List.cons_append, List.length_cons, List.length_nil, List.drop_succ_cons, List.drop_zero, List.take_succ_cons,
    List.take_zero, Nat.reduceAdd, Nat.reduceSub]
  rw [e]
  simp

/-- C42: discovery is one packet, to which all servers reply -/
theorem C42_discover (port : Nat) (hp : port < 65536) (c : Ctx) (u : Bool) : ∃ pkt, step port c .discover = ([pkt], c) ∧ SearchAny (udpBytes u pkt) u port := by
  obtain ⟨pkt, h1, h2⟩ := discover_tick port c
  refine ⟨pkt, h1, ?_⟩
  rw [h2, discover_eq]
  have e : udpBytes u ([0xca, 2, 0x80, 3] ++ wireBytes true 4 29 ++ (wireBytes true 4 0x66696e64 ++ (1 :: ([0, 0, 0] ++ (List.replicate 16 0 ++ wireBytes true 2 port)) ++ [0, 0, 0])))
      = ([0xca, 2, 0x80, 3] ++ wireBytes true 4 29) ++ ((wireBytes true 4 0x66696e64 ++ ([if u then 0x81 else 1] ++ ([0, 0, 0] ++ (List.replicate 16 0 ++ wireBytes true 2 port)))) ++
        ([0, 0, 0] ++ [])) := by
    have hh : ([0xca, 2, 0x80, 3] ++ wireBytes true 4 29 ++ wireBytes true 4 0x66696e64).length = 12 := by decide
    generalize [0xca, 2, 0x80, 3] ++ wireBytes true 4 29 = h at hh ⊢
    generalize wireBytes true 4 0x66696e64 = i at hh ⊢
    generalize List.replicate 16 (0 : Byte) ++ wireBytes true 2 port = z
    have e0 : h ++ (i ++ (1 :: ([0, 0, 0] ++ z) ++ [0, 0, 0])) = (h ++ i) ++ (1 :: ([0, 0, 0] ++ z ++ [0, 0, 0])) := by simp
    rw [e0]
    unfold udpBytes
    have t1 : ((h ++ i) ++ (1 :: ([0, 0, 0] ++ z ++ [0, 0, 0]))).take 12 = h ++ i := List.take_left' hh
    have t2 : ((h ++ i) ++ (1 :: ([0, 0, 0] ++ z ++ [0, 0, 0]))).drop 12 = 1 :: ([0, 0, 0] ++ z ++ [0, 0, 0]) := List.drop_left' hh
    have t3 : ((h ++ i) ++ (1 :: ([0, 0, 0] ++ z ++ [0, 0, 0]))).drop 13 = [0, 0, 0] ++ z ++ [0, 0, 0] := by
      rw [show (13 : Nat) = 12 + 1 from rfl, ← List.drop_drop, t2]; rfl
    rw [t1, t2, t3]
    have b1 : (1 : Byte) &&& 0x7f = 1 := by decide
    have b2 : (1 : Byte) ||| 0x80 = 0x81 := by decide
    cases u <;> simp [b1, b2]
  rw [e]
  refine ⟨true, [0, 0, 0], [], ⟨29, _, ⟨⟨0x80, _, ⟨by decide, (by show (2 : Byte) ≠ 0; decide), _, Src.isNum_wire true 4 29 (by decide), rfl⟩, by decide, rfl⟩, ?_⟩,
    ⟨_, [0, 0, 0], List.replicate 16 0, wireBytes true 2 port, Src.isNum_wire true 4 0x66696e64 (by decide), rfl,
      Or.inr ⟨rfl, by decide, by decide⟩, Src.isNum_wire true 2 _ (by omega), rfl⟩⟩,
    ⟨[0], [], [0, 0], [], Or.inl ⟨(by show 0 < 254; decide), rfl⟩, IsSeq.nil, (by have := Src.isNum_wire true 2 0 (by decide); exact this), IsSeq.nil, rfl⟩⟩
  simp only [List.length_append, wireBytes_length, List.length_replicate, List.length_cons, List.length_nil]
  omega

/-! ### where this is not so -/

theorem start_full (x : Str × Nat) (kind : Kind) (hk : kind ≠ .discover) (port : Nat) (done : List (Str × Nat)) (hx : x.1.length ≤ 0xffffffff)
    (hd : ((done.flatMap itemBytes).length) ≤ 65495) (h : 65495 < (done.flatMap itemBytes).length + (itemBytes x).length) :
    (putStr (putInt (buf (preBytes port) done) 4 x.2) x.1).err = true := by
  refine (fits_item x hx).full _ _ ?_
  rw [List.length_append, preBytes_length]
  omega

theorem itemBytes_long (x : Str × Nat) (h : 254 ≤ x.1.length) : (itemBytes x).length = x.1.length + 9 := by
  unfold itemBytes strBytes sizeBytes
  rw [if_neg (by omega)]
  simp only [List.length_append, wireBytes_length, List.length_cons]
  omega

theorem fill_over {kind : Kind} {poked : Bool} {idx n : Nat} {rest : List Nat} {o : Out} {count : Nat} {c : Ctx} {ch : Chan} (h : c.chans n = some ch)
    (hw : ch.wanted = true) (he : (putStr (putInt o 4 ch.cid) ch.name).err = true) :
    fill kind poked idx (n :: rest) o count c = fill kind poked idx rest (putStr (putInt o 4 ch.cid) ch.name) count c := by
  rw [fill, h]
  simp only [hw, he, Bool.true_eq_false, if_false, if_true]

theorem fill_first {kind : Kind} {poked : Bool} {idx n : Nat} {rest : List Nat} {o : Out} {c : Ctx} {ch : Chan} (h : c.chans n = some ch)
    (hw : ch.wanted = true) (he : (putStr (putInt o 4 ch.cid) ch.name).err = false) :
    fill kind poked idx (n :: rest) o 0 c = fill kind poked idx rest (putStr (putInt o 4 ch.cid) ch.name) 1 (place kind poked idx n ch c) := by
  rw [fill, h]
  simp only [hw, he, Bool.true_eq_false, Bool.false_eq_true, if_false, ne_eq, not_true_eq_false, and_false]

theorem loop_abort {kind : Kind} (hk : kind ≠ .discover) {poked : Bool} {port idx f : Nat} {bucket : List Nat} {c : Ctx} (hb : bucket ≠ [])
    (he : (fill kind poked idx bucket (buf (preBytes port) []) 0 c).out.err = true) : (loop kind poked port idx (f+1) bucket c).2.aborted = true := by
  rw [loop, if_neg fun h => hb h.1, start_eq kind hk]
  simp only [he, if_true]

theorem run_initial (port cur : Nat) (buckets : Nat → List Nat) (initial : List Nat) (chans : Nat → Option Chan) :
    (run port [.initial] ⟨cur, buckets, initial, chans, false⟩).2 = (loop .initial false port cur (initial.length + 1) initial ⟨cur, buckets, [], chans, false⟩).2 := rfl

/-- with a name of 65487 bytes or more, an assertion fails: dropping it from the packet does not undo that it did not fit -/
theorem C42_long (port : Nat) (name : Str) (h : 65487 ≤ name.length) (h' : name.length ≤ 0xffffffff) : (run port [.build 0 0 name false, .initial] {}).2.aborted = true := by
  have e := start_full (name, 0) .initial (by decide) port [] h' (by simp) (by rw [itemBytes_long _ (by show 254 ≤ name.length; omega)]; simp; omega)
  have hc : (run port [.build 0 0 name false] {}).2 = ⟨0, fun _ => [], [0], fun i => if i = 0 then some { cid := 0, name := name } else none, false⟩ := rfl
  rw [show [Op.build 0 0 name false, .initial] = [.build 0 0 name false] ++ [.initial] from rfl, run_append, hc, run_initial]
  refine loop_abort (by decide) (by simp) ?_
  rw [fill_over (ch := { cid := 0, name := name }) rfl rfl e]
  exact e

/-- so it does with two names which are each short enough, but not together -/
theorem C42_long_two (port : Nat) (a b : Str) (ha : 254 ≤ a.length) (hb : 254 ≤ b.length) (ha' : a.length ≤ 65486) (hb' : b.length ≤ 65486)
    (h : 65478 ≤ a.length + b.length) : (run port [.build 0 0 a false, .build 1 1 b false, .initial] {}).2.aborted = true := by
  have la := itemBytes_long (a, 0) ha
  have lb := itemBytes_long (b, 1) hb
  dsimp only at la lb
  have e := start_full (b, 1) .initial (by decide) port [(a, 0)] (by dsimp only; omega) (by simp; omega) (by simp; omega)
  have ea : putStr (putInt (buf (preBytes port) []) 4 0) a = buf (preBytes port) [(a, 0)] := by
    have := (fits_item (a, 0) (by dsimp only; omega)).ok (preBytes port ++ List.flatMap itemBytes []) (0x10000 - (preBytes port ++ List.flatMap itemBytes []).length) (by
      rw [List.length_append, preBytes_length]; show _ ≤ 65536 - (41 + 0); omega)
    unfold buf
    dsimp only at this ⊢
    rw [this]
    simp only [List.flatMap_cons, List.flatMap_nil, List.append_nil, List.length_append, Out.mk.injEq, Option.some.injEq, true_and, and_true]
    omega
  have hc : (run port [.build 0 0 a false, .build 1 1 b false] {}).2 = ⟨0, fun _ => [], [0, 1], fun i => if i = 1 then some { cid := 1, name := b }
    else if i = 0 then some { cid := 0, name := a } else none, false⟩ := rfl
  rw [show [Op.build 0 0 a false, .build 1 1 b false, .initial] = [.build 0 0 a false, .build 1 1 b false] ++ [.initial] from rfl, run_append, hc, run_initial]
  refine loop_abort (by decide) (by simp) ?_
  rw [fill_first (ch := { cid := 0, name := a }) rfl rfl (by dsimp only; rw [ea]; rfl)]
  dsimp only
  rw [ea, fill_over (ch := { cid := 1, name := b }) rfl rfl e]
  exact e

/-- a channel can be in two buckets, and is then searched for twice as often: it is found, then the connection is lost before its turn comes again -/
theorem C42_twice : ∃ ops, Short ops ∧ (run 5076 ops {}).2.aborted = false ∧ ∃ b b', b ≠ b' ∧ 0 ∈ (run 5076 ops {}).2.buckets b ∧ 0 ∈ (run 5076 ops {}).2.buckets b' := by
  refine ⟨[.build 0 7 [0x61] false, .initial, .found 0, .detach 0], ?_, by decide +kernel, 0, 10, by decide, by decide +kernel, by decide +kernel⟩
  intro n cid name forced h
  simp only [List.mem_cons, Op.build.injEq, reduceCtorEq, List.not_mem_nil, or_false] at h
  obtain ⟨_, rfl, rfl, _⟩ := h
  exact ⟨by decide, by decide⟩

/-- a channel of which the user gave the server, and which that server refuses, is searched for -/
theorem C42_forced_searched : ∃ ops, (∀ n cid name, .build n cid name false ∉ ops) ∧ Short ops ∧ (run 5076 ops {}).1.length = 1 := by
  refine ⟨[.build 0 7 [0x61] true, .request 0, .refused 0, .tick false], ?_, ?_, by decide +kernel⟩
  · intro n cid name h
    simp at h
  · intro n cid name forced h
    simp only [List.mem_cons, Op.build.injEq, reduceCtorEq, List.not_mem_nil, or_false] at h
    obtain ⟨_, rfl, rfl, _⟩ := h
    exact ⟨by decide, by decide⟩

/-! ### examples -/

/-- two channels: the second is found, the first has been searched for once -/
def exampleOps : List Op := [.build 0 7 [0x61] false, .build 1 8 [0x62] false, .initial, .found 1, .request 1, .accepted 1]

theorem example_short : Short exampleOps := by
  intro n cid name forced h
  simp only [exampleOps, List.mem_cons, Op.build.injEq, reduceCtorEq, List.not_mem_nil, or_false] at h
  rcases h with ⟨_, rfl, rfl, _⟩ | ⟨_, rfl, rfl, _⟩ <;> exact ⟨by decide, by decide⟩

example : Unresolved (run 5076 exampleOps {}).2 0 := ⟨{ cid := 7, name := [0x61] }, by decide +kernel, rfl, rfl⟩
example : ¬Unresolved (run 5076 exampleOps {}).2 1 := by
  rintro ⟨ch, h, _, h2⟩
  have : (run 5076 exampleOps {}).2.chans 1 = some { cid := 8, name := [0x62], st := .active } := by decide +kernel
  rw [this] at h
  cases h
  cases h2
example : Scheduled (run 5076 exampleOps {}).2 0 := C42_scheduled 5076 exampleOps example_short 0 ⟨{ cid := 7, name := [0x61] }, by decide +kernel, rfl, rfl⟩
/-- the first search is one packet with both, later only the first is searched for; when its connection is lost the second is again,
and twice in the same packet as it is twice in that bucket -/
example : (run 5076 exampleOps {}).1.map (·.length) = [53] := by decide +kernel
example : (run 5076 (exampleOps ++ [.tick false]) {}).1.map (·.length) = [53, 47] := by decide +kernel
example : (run 5076 (exampleOps ++ [.detach 1, .tick false]) {}).1.map (·.length) = [53, 59] := by decide +kernel
example : 0 ∈ (run 5076 exampleOps {}).2.buckets 0 := by decide +kernel

theorem ticks_unresolved (port : Nat) (l : List Op) (hl : ∀ o ∈ l, o = .tick false) (c : Ctx) (hc : Inv c) (n : Nat) (hu : Unresolved c n) : Unresolved (run port l c).2 n := by
  induction l generalizing c with
  | nil => exact hu
  | cons o l ih =>
    rw [run, if_neg (by rw [hc.ok]; decide)]
    have := hl o (List.mem_cons_self ..)
    subst this
    exact ih (fun o h => hl o (List.mem_cons_of_mem _ h)) _ (inv_check hc false port)
      ((unresolved_face (c := takeOut c) ((check_ticks false port c hc).grows.face n)).mpr hu)

/-- thirty ticks without a reply -/
example : ∃ pkt ∈ (run 5076 (List.replicate 30 (.tick false)) (run 5076 exampleOps {}).2).1, ∃ items, ([0x61], 7) ∈ items ∧
    ∀ u, SearchFor (udpBytes u pkt) u 5076 items := by
  refine C42_again 5076 (by decide) exampleOps _ ?_ 0 _ ⟨{ cid := 7, name := [0x61] }, by decide +kernel, rfl⟩ ⟨0, by decide, by decide +kernel⟩ ?_ (by decide)
  · intro n cid name forced h
    rcases List.mem_append.mp h with h | h
    · exact example_short _ _ _ _ h
    · have := List.eq_of_mem_replicate h
      cases this
  · intro p hp
    rw [run_append]
    exact ticks_unresolved _ p (fun o ho => List.eq_of_mem_replicate (hp.subset ho)) _ (inv_run _ _ example_short _ inv_init) 0
      ⟨{ cid := 7, name := [0x61] }, by decide +kernel, rfl, rfl⟩

end Pvxs.Props.Sea
