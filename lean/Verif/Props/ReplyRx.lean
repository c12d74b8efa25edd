import Verif.Props.Udp
import Verif.Spec.ReplyRx
/-
C127: replies to searches.
-/
namespace Pvxs.Props.ReplyRx
open Wire Pvxs.Udp Pvxs.ReplyRx Spec.ReplyRx Spec.Udp Spec.Packet

/-! ### what is read -/

theorem reads_getHead : Reads ReplyRx.getHead (fun be h bs => ∃ q a p t n, bs = h.guid ++ (q ++ (a ++ (p ++ (t ++ ([h.found] ++ n))))) ∧ h.guid.length = 12 ∧
    IsNum be 4 h.seq q ∧ IsAddr h.addr a ∧ IsNum be 2 h.port p ∧ IsStr be h.proto t ∧ IsNum be 2 h.count n) := by
  have h := (Reads.take 12 (fun _ bs => some bs) none).bind fun g => (reads_getInt 4).bind fun q => reads_getAddr.bind fun a => (reads_getInt 2).bind fun p =>
    reads_getStr.bind fun t => reads_getU8.bind fun f => (reads_getInt 2).bind fun n => Reads.pure (⟨g.getD [], q, a, p, t, f, n⟩ : Head)
  have e : (fun i => fromWireMem i 12 false) = fun i => if !i.ensure 12 then (none, i.fault) else (some (i.rest.take 12), { i with rest := i.rest.drop 12 }) := by
    funext i
    simp [fromWireMem]
  rw [← e] at h
  refine Reads.imp (d := _) h ?_
  rintro be ⟨g, q, a, p, t, f, n⟩ bs
  constructor
  · rintro ⟨g', u1, v1, rfl, ⟨h1, rfl⟩, q', u2, v2, rfl, h2, a', u3, v3, rfl, h3, p', u4, v4, rfl, h4, t', u5, v5, rfl, h5, f', u6, v6, rfl, h6, n', u7, v7, rfl, h7, h8, rfl⟩
    simp only [Head.mk.injEq, Option.getD_some] at h8
    obtain ⟨rfl, rfl, rfl, rfl, rfl, rfl, rfl⟩ := h8
    subst h6
    exact ⟨u2, u3, u4, u5, u7, by simp, h1, h2, h3, h4, h5, h7⟩
  · rintro ⟨u2, u3, u4, u5, u7, rfl, h1, h2, h3, h4, h5, h7⟩
    exact ⟨some g, g, _, rfl, ⟨h1, rfl⟩, q, u2, _, rfl, h2, a, u3, _, rfl, h3, p, u4, _, rfl, h4, t, u5, _, rfl, h5, f, [f], _, rfl, rfl, n, u7, [], by simp, h7, rfl, rfl⟩

/-- all of them -/
def answerAll (guid : List Byte) (serv : Ep) : List Nat → Chans → Chans × List ReplyRx.Out
  | [], s => (s, [])
  | id :: l, s => ((answerAll guid serv l (answer guid serv id s).1).1, (answer guid serv id s).2 ++ (answerAll guid serv l (answer guid serv id s).1).2)

/-- the identifiers which are there, and nothing else, are answered -/
theorem answers_eq (guid : List Byte) (serv : Ep) {be : Bool} {ids : List Nat} {x : List Byte} (hx : IsSeq (IsNum be 4) ids x) :
    ∀ (n : Nat) (rest : List Byte) (s : Chans), (ids.length = n ∨ (ids.length < n ∧ rest.length < 4)) →
      (answers guid serv n ⟨be, false, x ++ rest⟩ s).1 = answerAll guid serv ids s ∧
      ((answers guid serv n ⟨be, false, x ++ rest⟩ s).2.err = false ↔ ids.length = n) := by
  induction hx with
  | nil =>
    intro n rest s h
    match n with
    | 0 => exact ⟨rfl, by simp [answers]⟩
    | n+1 =>
      have hr : rest.length < 4 := by
        rcases h with h | h
        · simp at h
        · exact h.2
      have he : (getInt 4 ⟨be, false, [] ++ rest⟩).2.err = true := by
        have : In.ensure ⟨be, false, [] ++ rest⟩ 4 = false := by simp [In.ensure]; omega
        unfold getInt
        rw [this]
        rfl
      unfold answers
      dsimp only
      rw [if_pos he]
      exact ⟨rfl, by rw [he]; simp⟩
  | @cons id l bs bs' hid hs ih =>
    intro n rest s h
    match n with
    | 0 => simp at h
    | n+1 =>
      have e := ((reads_getInt 4).exact be (bs ++ bs' ++ rest) id (bs' ++ rest)).mpr ⟨bs, by simp, hid⟩
      have := ih n rest (answer guid serv id s).1 (by simp at h; omega)
      unfold answers
      rw [e]
      simp only [Bool.false_eq_true, if_false]
      rw [this.1, this.2]
      exact ⟨rfl, by simp⟩

/-- what is there -/
theorem ids_exist (be : Bool) : ∀ (n : Nat) (l : List Byte), ∃ ids x rest, l = x ++ rest ∧ IsSeq (IsNum be 4) ids x ∧
    (ids.length = n ∨ (ids.length < n ∧ rest.length < 4))
  | 0, l => ⟨[], [], l, rfl, .nil, Or.inl rfl⟩
  | n+1, l => by
    by_cases h : l.length < 4
    · exact ⟨[], [], l, rfl, .nil, Or.inr ⟨by simp, h⟩⟩
    · have he : (getInt 4 ⟨be, false, l⟩).2.err = false := by
        simp [getInt, In.ensure, In.fault]
        split <;> simp_all
      obtain ⟨bs, hb, hn⟩ := ((reads_getInt 4).exact _ _ _ _).mp ((reads_getInt 4).ok he)
      obtain ⟨ids, x, rest, h1, h2, h3⟩ := ids_exist be n (getInt 4 ⟨be, false, l⟩).2.rest
      refine ⟨_ :: ids, bs ++ x, rest, ?_, .cons hn h2, by simp; omega⟩
      rw [List.append_assoc, ← h1]
      exact hb

theorem answer_at (guid : List Byte) (serv : Ep) (id : Nat) (s : Chans) (y : Nat) :
    (answer guid serv id s).1 y = if y = id ∧ (s id).any (·.searching) = true then some ⟨false, guid, serv⟩ else s y := by
  unfold answer
  cases h : s id with
  | none => simp
  | some c =>
    cases hc : c.searching
    · by_cases hg : c.guid = guid <;> simp [hc, hg]
    · simp [hc]

theorem answerAll_at (guid : List Byte) (serv : Ep) (ids : List Nat) : ∀ (s : Chans) (y : Nat),
    (answerAll guid serv ids s).1 y = if y ∈ ids ∧ (s y).any (·.searching) = true then some ⟨false, guid, serv⟩ else s y := by
  induction ids with
  | nil => intro s y; simp [answerAll]
  | cons id l ih =>
    intro s y
    rw [answerAll, ih, answer_at]
    by_cases hy : y = id
    · subst hy
      by_cases hs : (s y).any (·.searching) = true
      · simp [hs]
      · simp [hs]
    · simp [hy]

theorem at_serverOf (src : Ep) (istcp : Bool) (h : Head) (r : Reply) (ha : h.addr = r.addr) (hp : h.port = r.port) : At src istcp r (serverOf src istcp h) := by
  have hi := Props.Udp.isAny_iff r.addr
  refine ⟨fun g => ?_, fun g => ?_, fun g => ?_, fun g1 g2 => ?_⟩
  · simp [serverOf, ha, hi.mpr g]
  · have : ¬(isAny r.addr = true) := fun h' => g (hi.mp h')
    simp [serverOf, ha, this]
  · simp only [serverOf, hp]
    split
    · rename_i h; simp at h; exact absurd h g
    · rfl
  · simp [serverOf, hp, g1, g2]

theorem at_unique {src : Ep} {istcp : Bool} {r : Reply} {e e' : Ep} (h : At src istcp r e) (h' : At src istcp r e') : e = e' := by
  obtain ⟨a, p⟩ := e
  obtain ⟨a', p'⟩ := e'
  congr 1
  · by_cases g : IsAnyAddr r.addr
    · exact (h.sender g).trans (h'.sender g).symm
    · exact (h.other g).trans (h'.other g).symm
  · by_cases g : istcp = true ∧ r.port = 0
    · exact (h.noPort g.1 g.2).trans (h'.noPort g.1 g.2).symm
    · exact (h.port g).trans (h'.port g).symm

/-! ### one reply -/

def headOf (r : Reply) : Head := ⟨r.guid, r.seq, r.addr, r.port, r.proto, r.found, r.count⟩

def pong (src : Ep) (version : Byte) (istcp discovering : Bool) (r : Reply) : List ReplyRx.Out :=
  if isPong istcp discovering (headOf r) then [.discovered ⟨src, r.guid, serverOf src istcp (headOf r), r.proto, version⟩] else []

theorem proc_says {be : Bool} {body : List Byte} {r : Reply} (hr : Says be body r) (ignored : List (List Byte)) (discovering : Bool) (src : Ep) (version : Byte)
    (istcp : Bool) (s : Chans) :
    (procSearchReply ignored discovering src version istcp ⟨be, false, body⟩ s).1 =
      (if r.guid ∈ ignored then (s, [])
       else if r.found = 0 ∨ r.proto ≠ tcpName then (s, pong src version istcp discovering r)
       else ((answerAll r.guid (serverOf src istcp (headOf r)) r.ids s).1,
         pong src version istcp discovering r ++ (answerAll r.guid (serverOf src istcp (headOf r)) r.ids s).2)) ∧
    ((procSearchReply ignored discovering src version istcp ⟨be, false, body⟩ s).2.err = true ↔ r.Usable ignored ∧ ¬r.Complete) := by
  obtain ⟨q, a, p, t, n, x, rest, rfl, h1, h2, h3, h4, h5, h6, h7, h8⟩ := hr
  have e := (reads_getHead.exact be (r.guid ++ (q ++ (a ++ (p ++ (t ++ ([r.found] ++ (n ++ (x ++ rest)))))))) (headOf r) (x ++ rest)).mpr
    ⟨_, by simp [headOf], q, a, p, t, n, rfl, h1, h2, h3, h4, h5, h6⟩
  unfold procSearchReply
  rw [e]
  simp only [Bool.false_eq_true, if_false]
  have hc : ignored.contains (headOf r).guid = true ↔ r.guid ∈ ignored := by simp [headOf]
  by_cases hg : r.guid ∈ ignored
  · rw [if_pos (hc.mpr hg), if_pos hg]
    exact ⟨rfl, by simp [Reply.Usable, hg]⟩
  · rw [if_neg (fun h => hg (hc.mp h)), if_neg hg]
    have hu : ((headOf r).found == 0 || (headOf r).proto != [0x74, 0x63, 0x70]) = true ↔ r.found = 0 ∨ r.proto ≠ tcpName := by simp [headOf, tcpName]
    by_cases hf : r.found = 0 ∨ r.proto ≠ tcpName
    · rw [if_pos (hu.mpr hf), if_pos hf]
      refine ⟨rfl, ?_⟩
      simp only [Bool.false_eq_true, false_iff]
      rintro ⟨⟨_, g1, g2⟩, _⟩
      rcases hf with hf | hf
      · exact g1 hf
      · exact hf g2
    · rw [if_neg (fun h => hf (hu.mp h)), if_neg hf]
      obtain ⟨k1, k2⟩ := answers_eq r.guid (serverOf src istcp (headOf r)) h7 r.count rest s h8
      have k1' : (answers (headOf r).guid (serverOf src istcp (headOf r)) (headOf r).count ⟨be, false, x ++ rest⟩ s).1 =
        answerAll r.guid (serverOf src istcp (headOf r)) r.ids s := k1
      refine ⟨?_, ?_⟩
      · simp only [k1']
        rfl
      · have k2' : (answers (headOf r).guid (serverOf src istcp (headOf r)) (headOf r).count ⟨be, false, x ++ rest⟩ s).2.err = false ↔ r.ids.length = r.count := k2
        rw [← Bool.not_eq_false, k2']
        have : r.Usable ignored := ⟨hg, fun h => hf (Or.inl h), Classical.byContradiction fun h => hf (Or.inr h)⟩
        exact ⟨fun h => ⟨this, h⟩, fun h => h.2⟩

theorem proc_none {be : Bool} {body : List Byte} (hr : ¬∃ r, Says be body r) (ignored : List (List Byte)) (discovering : Bool) (src : Ep) (version : Byte)
    (istcp : Bool) (s : Chans) :
    (procSearchReply ignored discovering src version istcp ⟨be, false, body⟩ s).1 = (s, []) ∧
    (procSearchReply ignored discovering src version istcp ⟨be, false, body⟩ s).2.err = true := by
  cases he : (ReplyRx.getHead ⟨be, false, body⟩).2.err with
  | true =>
    unfold procSearchReply
    simp [he]
  | false =>
    exfalso
    obtain ⟨bs, hb, q, a, p, t, n, h0, h1, h2, h3, h4, h5, h6⟩ := (reads_getHead.exact _ _ _ _).mp (reads_getHead.ok he)
    generalize (ReplyRx.getHead ⟨be, false, body⟩).2.rest = l at hb
    generalize (ReplyRx.getHead ⟨be, false, body⟩).1 = h at *
    obtain ⟨ids, x, rest, k1, k2, k3⟩ := ids_exist be h.count l
    refine hr ⟨⟨h.guid, h.seq, h.addr, h.port, h.proto, h.found, h.count, ids⟩, q, a, p, t, n, x, rest, ?_, h1, h2, h3, h4, h5, h6, k2, k3⟩
    rw [hb, h0, k1]
    simp

theorem datagram_msg {pkt : List Byte} {be : Bool} {cmd version : Byte} {len : Nat} {body : List Byte} (hm : IsMessage pkt be cmd version len body)
    (ignored : List (List Byte)) (discovering : Bool) (src : Ep) (s : Chans) :
    onDatagram ignored discovering src pkt s =
      if cmd = 4 then (procSearchReply ignored discovering src version false ⟨be, false, body⟩ s).1 else (s, []) := by
  obtain ⟨⟨flags, h, hh, hf, rfl⟩, hl⟩ := hm
  have e := ((header_iff true (h ++ body) ⟨cmd, flags, version, len⟩ ⟨be, false, body⟩).mpr ⟨rfl, h, rfl, hh⟩).1
  unfold onDatagram
  rw [e]
  dsimp only
  have hf' : (false || flags &&& (flagControl ||| flagSegMask) != 0) = false := by
    have : flagControl ||| flagSegMask = (0x31 : Byte) := by decide
    rw [this, hf]; rfl
  rw [hf', if_neg (by decide), if_neg (by omega)]

theorem datagram_none {pkt : List Byte} (hm : ¬∃ be cmd version len body, IsMessage pkt be cmd version len body)
    (ignored : List (List Byte)) (discovering : Bool) (src : Ep) (s : Chans) : onDatagram ignored discovering src pkt s = (s, []) := by
  unfold onDatagram
  cases he : (getHeader ⟨true, false, pkt⟩).2.err with
  | true => simp [he]
  | false =>
    obtain ⟨_, h, hp, hh⟩ := (header_iff true pkt (getHeader ⟨true, false, pkt⟩).1 (getHeader ⟨true, false, pkt⟩).2).mp ⟨rfl, he⟩
    generalize getHeader ⟨true, false, pkt⟩ = x at *
    by_cases hf : x.1.flags &&& (flagControl ||| flagSegMask) = 0
    · by_cases hl : x.1.len > x.2.rest.length
      · simp only [he, hf, hl]; simp
      · exact absurd ⟨x.2.be, x.1.cmd, x.1.version, x.1.len, x.2.rest, ⟨x.1.flags, h, hh, hf, hp⟩, by omega⟩ hm
    · rw [if_pos (by simp [hf])]

theorem follows_proc {be : Bool} {body : List Byte} {r : Reply} (hr : Says be body r) (ignored : List (List Byte)) (discovering : Bool) (src : Ep) (version : Byte)
    (istcp : Bool) (s : Chans) (e : Ep) (he : At src istcp r e) :
    Follows ignored r e s (procSearchReply ignored discovering src version istcp ⟨be, false, body⟩ s).1.1 := by
  have hs : e = serverOf src istcp (headOf r) := at_unique he (at_serverOf src istcp (headOf r) r rfl rfl)
  intro id
  have hany : (s id).any (·.searching) = true ↔ ∃ c, s id = some c ∧ c.searching = true := by
    cases s id <;> simp
  rw [(proc_says hr ignored discovering src version istcp s).1, ← hs]
  by_cases hg : r.guid ∈ ignored
  · rw [if_pos hg]
    exact ⟨fun h => absurd hg h.2.1.1, fun _ => rfl⟩
  · rw [if_neg hg]
    by_cases hf : r.found = 0 ∨ r.proto ≠ tcpName
    · rw [if_pos hf]
      refine ⟨fun h => ?_, fun _ => rfl⟩
      rcases hf with hf | hf
      · exact absurd hf h.2.1.2.1
      · exact absurd h.2.1.2.2 hf
    · rw [if_neg hf]
      have hu : r.Usable ignored := ⟨hg, fun h => hf (Or.inl h), Classical.byContradiction fun h => hf (Or.inr h)⟩
      rw [answerAll_at, ← hany]
      refine ⟨fun h => if_pos ⟨h.2.2, h.1⟩, fun h => if_neg fun h' => h ⟨h'.2, hu, h'.1⟩⟩

/-- C127, datagrams: of the channels exactly those which search, and which a usable reply names, go to the server of that reply; whatever else a datagram holds
changes no channel.  Missing: a reply of which a part is cut off should change nothing (`C127_truncated`). -/
theorem C127_datagram_partial (ignored : List (List Byte)) (discovering : Bool) (src : Ep) (pkt : List Byte) (s : Chans) :
    (∀ version r e, IsReply pkt version r → At src false r e → Follows ignored r e s (onDatagram ignored discovering src pkt s).1) ∧
    ((¬∃ version r, IsReply pkt version r) → onDatagram ignored discovering src pkt s = (s, [])) := by
  refine ⟨?_, fun h => ?_⟩
  · rintro version r e ⟨be, len, body, hm, hr⟩ he
    rw [datagram_msg hm, if_pos rfl]
    exact follows_proc hr ignored discovering src version false s e he
  · by_cases hm : ∃ be cmd version len body, IsMessage pkt be cmd version len body
    · obtain ⟨be, cmd, version, len, body, hm⟩ := hm
      rw [datagram_msg hm]
      split
      · rename_i hc
        subst hc
        exact (proc_none (fun ⟨r, hr⟩ => h ⟨version, r, be, len, body, hm, hr⟩) ignored discovering src version false s).1
      · rfl
    · exact datagram_none hm ignored discovering src s

/-- C127, replies over TCP: the same, and the connection is closed exactly when the reply is not well-formed (those which need not be read are not looked at) -/
theorem C127_message_partial (ignored : List (List Byte)) (discovering : Bool) (peer : Ep) (version : Byte) (be : Bool) (body : List Byte) (s : Chans) :
    (∀ r e, Says be body r → At peer true r e → Follows ignored r e s (onMessage ignored discovering peer version be body s).1.1 ∧
      ((onMessage ignored discovering peer version be body s).2 = true ↔ r.Usable ignored ∧ ¬r.Complete)) ∧
    ((¬∃ r, Says be body r) → onMessage ignored discovering peer version be body s = ((s, []), true)) := by
  refine ⟨fun r e hr he => ⟨follows_proc hr ignored discovering peer version true s e he, (proc_says hr ignored discovering peer version true s).2⟩, fun h => ?_⟩
  have := proc_none h ignored discovering peer version true s
  exact Prod.ext this.1 this.2

/-! ### what else is done -/

theorem connect_answer (guid : List Byte) (serv : Ep) (id : Nat) (s : Chans) (y : Nat) (e : Ep) :
    .connect y e ∈ (answer guid serv id s).2 ↔ y = id ∧ e = serv ∧ (s id).any (·.searching) = true := by
  unfold answer
  cases h : s id with
  | none => simp
  | some c =>
    cases hc : c.searching
    · by_cases hg : c.guid = guid <;> simp [hc, hg]
    · simp [hc]

theorem connect_answerAll (guid : List Byte) (serv : Ep) (ids : List Nat) : ∀ (s : Chans) (y : Nat) (e : Ep),
    .connect y e ∈ (answerAll guid serv ids s).2 ↔ y ∈ ids ∧ e = serv ∧ (s y).any (·.searching) = true := by
  induction ids with
  | nil => intro s y e; simp [answerAll]
  | cons id l ih =>
    intro s y e
    rw [answerAll, List.mem_append, ih, connect_answer, answer_at]
    by_cases hy : y = id
    · subst hy
      by_cases hs : (s y).any (·.searching) = true
      · simp [hs]
      · simp [hs]
    · simp [hy]

theorem dup_answer (guid : List Byte) (serv : Ep) (id : Nat) (s : Chans) (y : Nat) :
    .duplicate y ∈ (answer guid serv id s).2 ↔ y = id ∧ ∃ c, s id = some c ∧ c.searching = false ∧ c.guid ≠ guid := by
  unfold answer
  cases h : s id with
  | none => simp
  | some c =>
    cases hc : c.searching
    · by_cases hg : c.guid = guid <;> simp [hc, hg]
    · simp [hc]

theorem dup_answerAll (guid : List Byte) (serv : Ep) (ids : List Nat) : ∀ (s : Chans) (y : Nat),
    .duplicate y ∈ (answerAll guid serv ids s).2 ↔ y ∈ ids ∧ ∃ c, s y = some c ∧ c.searching = false ∧ c.guid ≠ guid := by
  induction ids with
  | nil => intro s y; simp [answerAll]
  | cons id l ih =>
    intro s y
    rw [answerAll, List.mem_append, ih, dup_answer, answer_at]
    by_cases hy : y = id
    · subst hy
      cases h : s y with
      | none => simp
      | some c => cases hc : c.searching <;> simp [hc]
    · simp [hy]

theorem not_pong_connect (src : Ep) (version : Byte) (istcp discovering : Bool) (r : Reply) (y : Nat) (e : Ep) :
    .connect y e ∉ pong src version istcp discovering r ∧ .duplicate y ∉ pong src version istcp discovering r := by
  unfold pong
  split <;> simp

/-- C127: a channel is asked for, at the server of the reply, exactly if it searches and a usable reply names it; the log tells of a duplicate exactly if a usable
reply names one which was told of another server before -/
theorem C127_done (ignored : List (List Byte)) (discovering : Bool) (src : Ep) (pkt : List Byte) (s : Chans) (version : Byte) (r : Reply)
    (hr : IsReply pkt version r) (e : Ep) (he : At src false r e) (y : Nat) :
    (∀ e', .connect y e' ∈ (onDatagram ignored discovering src pkt s).2 ↔
      e' = e ∧ r.Usable ignored ∧ y ∈ r.ids ∧ ∃ c, s y = some c ∧ c.searching = true) ∧
    (.duplicate y ∈ (onDatagram ignored discovering src pkt s).2 ↔
      r.Usable ignored ∧ y ∈ r.ids ∧ ∃ c, s y = some c ∧ c.searching = false ∧ c.guid ≠ r.guid) := by
  obtain ⟨be, len, body, hm, hr⟩ := hr
  have hs : e = serverOf src false (headOf r) := at_unique he (at_serverOf src false (headOf r) r rfl rfl)
  have hany : (s y).any (·.searching) = true ↔ ∃ c, s y = some c ∧ c.searching = true := by
    cases s y <;> simp
  have hp := fun e => (not_pong_connect src version false discovering r y e).1
  have hq := (not_pong_connect src version false discovering r y e).2
  rw [datagram_msg hm, if_pos rfl, (proc_says hr ignored discovering src version false s).1, ← hs]
  by_cases hg : r.guid ∈ ignored
  · rw [if_pos hg]
    simp [Reply.Usable, hg]
  · rw [if_neg hg]
    by_cases hf : r.found = 0 ∨ r.proto ≠ tcpName
    · rw [if_pos hf]
      have hu : ¬r.Usable ignored := by
        rintro ⟨_, g1, g2⟩
        rcases hf with hf | hf
        · exact g1 hf
        · exact hf g2
      simp [hu, hp, hq]
    · rw [if_neg hf]
      have hu : r.Usable ignored := ⟨hg, fun h => hf (Or.inl h), Classical.byContradiction fun h => hf (Or.inr h)⟩
      simp only [List.mem_append, hp, hq, false_or, connect_answerAll, dup_answerAll, hany, hu, true_and]
      exact ⟨fun e' => ⟨fun h => ⟨h.2.1, h.1, h.2.2⟩, fun h => ⟨h.2.1, h.1, h.2.2⟩⟩, trivial⟩

/-- C127: a server is reported to those who discover servers exactly by an answer to a ping, which is a reply with the sequence number of searches, that finds
nothing and names nothing -/
theorem C127_pong (ignored : List (List Byte)) (discovering : Bool) (src : Ep) (pkt : List Byte) (s : Chans) (version : Byte) (r : Reply)
    (hr : IsReply pkt version r) (e : Ep) (he : At src false r e) (b : Beacon) :
    .discovered b ∈ (onDatagram ignored discovering src pkt s).2 ↔
      discovering = true ∧ r.guid ∉ ignored ∧ r.seq = 0x66696e64 ∧ r.count = 0 ∧ r.found = 0 ∧ b = ⟨src, r.guid, e, r.proto, version⟩ := by
  obtain ⟨be, len, body, hm, hr⟩ := hr
  have hs : e = serverOf src false (headOf r) := at_unique he (at_serverOf src false (headOf r) r rfl rfl)
  have hp : .discovered b ∈ pong src version false discovering r ↔
      discovering = true ∧ r.seq = 0x66696e64 ∧ r.count = 0 ∧ r.found = 0 ∧ b = ⟨src, r.guid, e, r.proto, version⟩ := by
    have hi : isPong false discovering (headOf r) = true ↔ discovering = true ∧ r.seq = 0x66696e64 ∧ r.count = 0 ∧ r.found = 0 := by
      simp only [isPong, headOf, Bool.not_false, Bool.true_and, Bool.and_eq_true, beq_iff_eq]
      exact ⟨fun ⟨⟨⟨h1, h2⟩, h3⟩, h4⟩ => ⟨h4, h1, h2, h3⟩, fun ⟨h4, h1, h2, h3⟩ => ⟨⟨⟨h1, h2⟩, h3⟩, h4⟩⟩
    unfold pong
    split
    · rename_i h
      obtain ⟨h1, h2, h3, h4⟩ := hi.mp h
      simp [h1, h2, h3, h4, ← hs]
    · rename_i h
      have h' := fun g => h (hi.mpr g)
      constructor
      · intro g; cases g
      · rintro ⟨h1, h2, h3, h4, _⟩
        exact absurd ⟨h1, h2, h3, h4⟩ h'
  have hn : ∀ (guid : List Byte) (serv : Ep) (ids : List Nat) (s : Chans), ReplyRx.Out.discovered b ∉ (answerAll guid serv ids s).2 := by
    intro guid serv ids
    induction ids with
    | nil => intro s; simp [answerAll]
    | cons id l ih =>
      intro s
      rw [answerAll, List.mem_append]
      rintro (h | h)
      · unfold answer at h
        cases hc : s id with
        | none => simp [hc] at h
        | some c =>
          simp only [hc] at h
          split at h
          · simp at h
          · split at h <;> simp at h
      · exact ih _ h
  rw [datagram_msg hm, if_pos rfl, (proc_says hr ignored discovering src version false s).1]
  by_cases hg : r.guid ∈ ignored
  · rw [if_pos hg]
    simp [hg]
  · rw [if_neg hg]
    split
    · rw [hp]; simp [hg]
    · rw [List.mem_append, hp]; simp [hg, hn]

/-! ### histories -/

theorem serverOf_exists (src : Ep) (istcp : Bool) (r : Reply) : ∃ e, At src istcp r e := ⟨_, at_serverOf src istcp (headOf r) r rfl rfl⟩

theorem run_snoc (ignored : List (List Byte)) (discovering : Bool) (l : List Step) (x : Step) :
    run ignored discovering (l ++ [x]) = step ignored discovering (run ignored discovering l) x := by
  simp [run]

theorem follows_or {ignored : List (List Byte)} {r : Reply} {e : Ep} {s s' : Chans} (h : Follows ignored r e s s') (id : Nat) :
    s' id = s id ∨ (r.Usable ignored ∧ id ∈ r.ids ∧ s' id = some ⟨false, r.guid, e⟩) := by
  by_cases hc : (∃ c, s id = some c ∧ c.searching = true) ∧ r.Usable ignored ∧ id ∈ r.ids
  · exact Or.inr ⟨hc.2.1, hc.2.2, (h id).1 hc⟩
  · exact Or.inl ((h id).2 hc)

/-- C127, over all histories: a channel which does not search is at a server which said, in a reply that names this channel, that it has it, at the address it
gave; it is never one which is to be ignored -/
theorem C127_history (ignored : List (List Byte)) (discovering : Bool) (l : List Step) (id : Nat) (c : Chan)
    (h : run ignored discovering l id = some c) (hc : c.searching = false) :
    ∃ x ∈ l, ∃ src istcp r, Carries src istcp r x ∧ r.Usable ignored ∧ id ∈ r.ids ∧ c.guid = r.guid ∧ At src istcp r c.server := by
  suffices hs : ∀ n (l : List Step), l.length = n → ∀ c, run ignored discovering l id = some c → c.searching = false →
      ∃ x ∈ l, ∃ src istcp r, Carries src istcp r x ∧ r.Usable ignored ∧ id ∈ r.ids ∧ c.guid = r.guid ∧ At src istcp r c.server from hs _ l rfl c h hc
  clear h hc c l
  intro n
  induction n with
  | zero =>
    intro l hl c h _
    cases l with
    | nil => simp [run] at h
    | cons => simp at hl
  | succ n ih =>
    intro l hl c h hc
    rcases List.eq_nil_or_concat l with rfl | ⟨l', x, rfl⟩
    · simp at hl
    · rw [List.concat_eq_append] at h hl ⊢
      have hl' : l'.length = n := by simpa using hl
      rw [run_snoc] at h
      have old : ∀ c, run ignored discovering l' id = some c → c.searching = false → ∃ y ∈ l' ++ [x], ∃ src istcp r, Carries src istcp r y ∧ r.Usable ignored ∧
          id ∈ r.ids ∧ c.guid = r.guid ∧ At src istcp r c.server := by
        intro c h hc
        obtain ⟨y, hy, hh⟩ := ih l' hl' c h hc
        exact ⟨y, by simp [hy], hh⟩
      cases x with
      | datagram src pkt =>
        simp only [step] at h
        obtain ⟨h1, h2⟩ := C127_datagram_partial ignored discovering src pkt (run ignored discovering l')
        by_cases hr : ∃ version r, IsReply pkt version r
        · obtain ⟨version, r, hr⟩ := hr
          obtain ⟨e, he⟩ := serverOf_exists src false r
          rcases follows_or (h1 version r e hr he) id with k | ⟨k1, k2, k3⟩
          · exact old c (k ▸ h) hc
          · rw [k3] at h
            cases h
            exact ⟨.datagram src pkt, by simp, src, false, r, ⟨rfl, rfl, version, hr⟩, k1, k2, rfl, he⟩
        · rw [h2 hr] at h
          exact old c h hc
      | message peer version be body =>
        simp only [step] at h
        obtain ⟨h1, h2⟩ := C127_message_partial ignored discovering peer version be body (run ignored discovering l')
        by_cases hr : ∃ r, Says be body r
        · obtain ⟨r, hr⟩ := hr
          obtain ⟨e, he⟩ := serverOf_exists peer true r
          rcases follows_or (h1 r e hr he).1 id with k | ⟨k1, k2, k3⟩
          · exact old c (k ▸ h) hc
          · rw [k3] at h
            cases h
            exact ⟨.message peer version be body, by simp, peer, true, r, ⟨rfl, rfl, hr⟩, k1, k2, rfl, he⟩
        · rw [h2 hr] at h
          exact old c h hc
      | made cid =>
        simp only [step] at h
        split at h
        · cases h; cases hc
        · exact old c h hc
      | lost cid =>
        simp only [step] at h
        split at h
        · cases hq : run ignored discovering l' id with
          | none => simp [hq] at h
          | some c' => simp [hq] at h; subst h; cases hc
        · exact old c h hc
      | gone cid =>
        simp only [step] at h
        split at h
        · cases h
        · exact old c h hc

/-! ### examples -/

/-- a reply with one identifier, 7, of two announced ones -/
def cut (count : Byte) : List Byte :=
  [0xca, 2, 0xc0, 4, 0, 0, 0, 45] ++ ([1, 2, 3, 4, 5, 6, 7, 8, 9, 10, 11, 12] ++ ([0, 0, 0, 1] ++ ([0, 0, 0, 0, 0, 0, 0, 0, 0, 0, 255, 255, 0, 0, 0, 0] ++ ([0x13, 0xd3] ++
    ([3, 0x74, 0x63, 0x70] ++ ([1] ++ ([0, count] ++ ([0, 0, 0, 7] ++ []))))))))

def cutReply (count : Nat) : Reply := ⟨[1, 2, 3, 4, 5, 6, 7, 8, 9, 10, 11, 12], 1, .v4 0 0 0 0, 0x13d3, tcpName, 1, count, [7]⟩

def there : Ep := ⟨.v4 10 0 0 1, 5076⟩

theorem cut_says (count : Byte) (hc : count = 1 ∨ count = 2) : IsReply (cut count) 2 (cutReply count.toNat) := by
  have h7 : IsSeq (IsNum true 4) [7] ([0, 0, 0, 7] : List Byte) := .cons (bs := [0, 0, 0, 7]) (bs' := []) (by unfold IsNum; decide) .nil
  have h4 : IsNum true 4 1 [0, 0, 0, 1] := by unfold IsNum; decide
  have h2 : IsNum true 2 0x13d3 [0x13, 0xd3] := by unfold IsNum; decide
  have ht : IsStr true tcpName [3, 0x74, 0x63, 0x70] := Or.inr ⟨[3], Or.inl ⟨by decide, rfl⟩, rfl⟩
  rcases hc with rfl | rfl
  · exact ⟨true, 45, _, ⟨⟨0xc0, [0xca, 2, 0xc0, 4, 0, 0, 0, 45], ⟨by decide, by decide, [0, 0, 0, 45], by unfold IsNum; decide, rfl⟩, by decide, rfl⟩, by decide⟩,
      [0, 0, 0, 1], [0, 0, 0, 0, 0, 0, 0, 0, 0, 0, 255, 255, 0, 0, 0, 0], [0x13, 0xd3], [3, 0x74, 0x63, 0x70], [0, 1], [0, 0, 0, 7], [], rfl, rfl,
      h4, Or.inl ⟨0, 0, 0, 0, rfl, rfl⟩, h2, ht, by unfold IsNum; decide, h7, Or.inl rfl⟩
  · exact ⟨true, 45, _, ⟨⟨0xc0, [0xca, 2, 0xc0, 4, 0, 0, 0, 45], ⟨by decide, by decide, [0, 0, 0, 45], by unfold IsNum; decide, rfl⟩, by decide, rfl⟩, by decide⟩,
      [0, 0, 0, 1], [0, 0, 0, 0, 0, 0, 0, 0, 0, 0, 255, 255, 0, 0, 0, 0], [0x13, 0xd3], [3, 0x74, 0x63, 0x70], [0, 2], [0, 0, 0, 7], [], rfl, rfl,
      h4, Or.inl ⟨0, 0, 0, 0, rfl, rfl⟩, h2, ht, by unfold IsNum; decide, h7, Or.inr ⟨by decide, by decide⟩⟩

def one : Chans := fun x => if x = 7 then some { searching := true } else none

/-- a complete one takes channel 7, which searches, to its sender, at the port which is given -/
example : (onDatagram [] false there (cut 1) one).1 7 = some ⟨false, [1, 2, 3, 4, 5, 6, 7, 8, 9, 10, 11, 12], ⟨.v4 10 0 0 1, 5075⟩⟩ ∧
    (onDatagram [] false there (cut 1) one).2 = [.connect 7 ⟨.v4 10 0 0 1, 5075⟩] := by decide

example : IsReply (cut 1) 2 (cutReply 1) ∧ (cutReply 1).Usable [] ∧ (cutReply 1).Complete ∧ At there false (cutReply 1) ⟨.v4 10 0 0 1, 5075⟩ := by
  refine ⟨cut_says 1 (by decide), ⟨by simp, by decide, rfl⟩, rfl, ⟨fun _ => rfl, fun h => absurd (Or.inl rfl) h, fun _ => rfl, fun h => by cases h⟩⟩

/-- it is ignored if it is from a server to ignore -/
example : (onDatagram [[1, 2, 3, 4, 5, 6, 7, 8, 9, 10, 11, 12]] false there (cut 1) one) = (one, []) := by
  have := cut_says 1 (by decide)
  obtain ⟨be, len, body, hm, hr⟩ := this
  rw [datagram_msg hm, if_pos rfl, (proc_says hr _ _ _ _ _ _).1, if_pos (by simp [cutReply])]

/-- a history in which the channel is made and found, lost and found again -/
example : (run [] false [.made 7, .datagram there (cut 1), .lost 7, .datagram there (cut 1)] 7).map (·.searching) = some false := by decide

/-- C127: a reply of which the second identifier is cut off is acted upon nevertheless -/
theorem C127_truncated : ∃ r, IsReply (cut 2) 2 r ∧ ¬r.Complete ∧ one 7 = some { searching := true } ∧
    (onDatagram [] false there (cut 2) one).2 = [.connect 7 ⟨.v4 10 0 0 1, 5075⟩] :=
  ⟨_, cut_says 2 (by decide), by unfold Reply.Complete; decide, rfl, by decide⟩

/-- C127: so are bytes after the end of the message: this one is, by its header, empty -/
theorem C127_beyond : ∃ body, IsMessage ([0xca, 2, 0xc0, 4, 0, 0, 0, 0] ++ (cut 1).drop 8) true 4 2 0 body ∧
    (onDatagram [] false there ([0xca, 2, 0xc0, 4, 0, 0, 0, 0] ++ (cut 1).drop 8) one).2 = [.connect 7 ⟨.v4 10 0 0 1, 5075⟩] :=
  ⟨_, ⟨⟨0xc0, [0xca, 2, 0xc0, 4, 0, 0, 0, 0], ⟨by decide, by decide, [0, 0, 0, 0], by unfold IsNum; decide, rfl⟩, by decide, rfl⟩, Nat.zero_le _⟩, by decide⟩

end Pvxs.Props.ReplyRx
