import Verif.Lemmas.ClientChan2
/-
More of what holds after each event of Verif.Model.ClientChan: one connection for each server, and what becomes of name servers.
-/
namespace Pvxs.ClientChan
open Pvxs.Spec.ClientChan

/-- connections are as they were, and channels let go of them, if anything -/
structure Sh (er : List Nat) (s t : Ctx) : Prop where
  conns : ∀ k, (t.conns k).alive = (s.conns k).alive ∧ (t.conns k).addr = (s.conns k).addr
  chans : ∀ c, ((t.chans c).alive = true → (s.chans c).alive = true) ∧ ((t.chans c).conn = (s.chans c).conn ∨ (t.chans c).conn = none) ∧ (t.chans c).forced = (s.chans c).forced
  plain : ∀ c, ((s.chans c).st = .searching → (s.chans c).conn = none) → (t.chans c).st = .searching → (t.chans c).conn = none
  byAddr : ∀ p ∈ s.byAddr, p ∈ t.byAddr ∨ p.1 ∈ er
  ns : t.ns = s.ns
  nchan : t.nchan = s.nchan

theorem Sh.rfl' (s : Ctx) : Sh [] s s := ⟨fun _ => ⟨rfl, rfl⟩, fun _ => ⟨id, .inl rfl, rfl⟩, fun _ h => h, fun _ h => .inl h, rfl, rfl⟩

theorem Sh.weak {s t : Ctx} (h : Sh [] s t) (er : List Nat) : Sh er s t := { h with byAddr := fun p hp => .inl ((h.byAddr p hp).resolve_right (fun e => nomatch e)) }

theorem Sh.trans {er : List Nat} {s t u : Ctx} (h : Sh er s t) (h' : Sh er t u) : Sh er s u where
  conns k := ⟨(h'.conns k).1.trans (h.conns k).1, (h'.conns k).2.trans (h.conns k).2⟩
  chans c := by
    obtain ⟨a1, a2, a3⟩ := h.chans c
    obtain ⟨b1, b2, b3⟩ := h'.chans c
    refine ⟨fun x => a1 (b1 x), ?_, b3.trans a3⟩
    rcases b2 with b2 | b2
    · rw [b2]; exact a2
    · exact .inr b2
  plain c hp := h'.plain c (h.plain c hp)
  byAddr p hp := by
    rcases h.byAddr p hp with q | q
    · exact h'.byAddr p q
    · exact .inr q
  ns := h'.ns.trans h.ns
  nchan := h'.nchan.trans h.nchan

theorem sh_setConn (s : Ctx) (k : Nat) (f : Conn → Conn) (h1 : (f (s.conns k)).alive = (s.conns k).alive) (h2 : (f (s.conns k)).addr = (s.conns k).addr) : Sh [] s (s.setConn k f) := by
  refine { Sh.rfl' s with conns := fun k' => ?_ }
  simp only [Ctx.setConn]; split
  · rename_i e; subst e; exact ⟨h1, h2⟩
  · exact ⟨rfl, rfl⟩

theorem sh_setChan (s : Ctx) (c : Nat) (f : Chan → Chan) (h1 : (f (s.chans c)).alive = true → (s.chans c).alive = true)
    (h2 : (f (s.chans c)).conn = (s.chans c).conn ∨ (f (s.chans c)).conn = none) (h3 : (f (s.chans c)).forced = (s.chans c).forced)
    (h4 : ((s.chans c).st = .searching → (s.chans c).conn = none) → (f (s.chans c)).st = .searching → (f (s.chans c)).conn = none) : Sh [] s (s.setChan c f) := by
  refine { Sh.rfl' s with chans := fun c' => ?_, plain := fun c' hp => ?_ }
  · simp only [Ctx.setChan]; split
    · rename_i e; subst e; exact ⟨h1, h2, h3⟩
    · exact ⟨id, .inl rfl, rfl⟩
  · simp only [Ctx.setChan]; split
    · rename_i e; subst e; exact h4 hp
    · exact hp

theorem sh_foldl {α : Type} {er : List Nat} (f : Ctx → α → Ctx) (hf : ∀ s a, Sh [] s (f s a)) : ∀ (l : List α) (s : Ctx), Sh er s (l.foldl f s)
  | [], s => (Sh.rfl' s).weak er
  | a :: l, s => ((hf s a).weak er).trans (sh_foldl f hf l (f s a))

theorem sh_createOne (k : Nat) (s : Ctx) (c : Nat) : Sh [] s (createOne k s c) := by
  unfold createOne
  split
  · have h1 : Sh [] s (s.send (.create k c)) := { Sh.rfl' s with }
    exact (h1.trans (sh_setConn _ k _ rfl rfl)).trans (sh_setChan _ c _ id (.inl rfl) rfl (fun _ e => by cases e))
  · exact Sh.rfl' s

theorem sh_createChannels (k : Nat) (s : Ctx) : Sh [] s (createChannels k s) := by
  unfold createChannels
  split
  · exact Sh.rfl' s
  · exact (sh_setConn s k _ rfl rfl).trans (sh_foldl _ (fun s a => sh_createOne k s a) _ _)

theorem sh_detach (c : Nat) (s : Ctx) : Sh [] s (detach c s) := by
  have hl : ∀ s : Ctx, Sh [] s (s.setChan c loose) := fun s => sh_setChan s c loose id (.inr rfl) rfl (fun _ _ => rfl)
  unfold detach
  split
  · split
    · exact hl s
    · exact { hl s with }
  · rename_i k _
    have h1 : Sh [] s (tellGone k c (s.chans c) s) := by
      unfold tellGone; split
      · exact { Sh.rfl' s with }
      · exact Sh.rfl' s
    exact (h1.trans (hl _)).trans (sh_setConn _ k _ rfl rfl)

theorem sh_disconnect {s : Ctx} {c : Nat} (hf : (s.chans c).forced = none) : Sh [] s (disconnect s c) := by
  have h := sh_detach c s
  unfold disconnect
  generalize detach c s = t at *
  simp only []
  rw [(h.chans c).2.2, hf]
  exact { h with }

theorem sh_fold : ∀ (l : List Nat) {s : Ctx}, (∀ c, (s.chans c).forced = none) → Sh [] s (l.foldl disconnect s)
  | [], s, _ => Sh.rfl' s
  | c :: l, s, hf => by
    have h := sh_disconnect (hf c)
    exact h.trans (sh_fold l (fun c' => (h.chans c').2.2.trans (hf c')))

theorem sh_cleanup {s : Ctx} {k : Nat} (hf : ∀ c, (s.chans c).forced = none) : Sh [(s.conns k).addr] s (cleanup k s) := by
  have h0 : Sh [(s.conns k).addr] s (shut k s) := by
    have h := (sh_setConn s k (fun x => { x with ready := false, bev := false, timer := false }) rfl rfl).weak [(s.conns k).addr]
    refine { h with byAddr := fun p hp => ?_ }
    by_cases e : p.1 = (s.conns k).addr
    · exact .inr (by simp [e])
    · exact .inl (mem_eraseKey.2 ⟨hp, e⟩)
  have h1 := h0.trans ((sh_fold (ofConn k (shut k s)) (s := shut k s) (fun c => hf c)).weak _)
  unfold cleanup cleared
  generalize (ofConn k (shut k s)).foldl disconnect (shut k s) = t at *
  simp only []
  refine h1.trans (Sh.weak ?_ _)
  split
  · exact sh_setConn _ k _ rfl rfl
  · have h2 : Sh [] t { t with crashed := true } := { Sh.rfl' t with }
    exact h2.trans (sh_setConn _ k _ rfl rfl)

theorem sh_startAll {c k : Nat} (w : List Nat) (s : Ctx) : Sh [] s (w.foldl (startOne c k) s) := by
  refine sh_foldl _ (fun s op => ?_) w s
  unfold startOne
  have h1 : ∀ m, Sh [] s (s.send m) := fun m => { Sh.rfl' s with }
  exact ((h1 _).trans (sh_setConn _ k _ rfl rfl)).trans (sh_setChan _ c _ id (.inl rfl) rfl (fun h => h))

theorem sh_createOperations (c : Nat) (s : Ctx) : Sh [] s (createOperations c s) := by
  unfold createOperations
  split
  · exact Sh.rfl' s
  · split
    · exact { Sh.rfl' s with }
    · exact (sh_setChan s c _ id (.inl rfl) rfl (fun h => h)).trans (sh_startAll _ _)

theorem Sh.used {er : List Nat} {s t : Ctx} (h : Sh er s t) {k : Nat} (hu : used t k = true) : used s k = true := by
  unfold ClientChan.used at *
  rw [h.ns, h.nchan] at hu
  rw [Bool.or_eq_true] at hu ⊢
  refine hu.imp (fun hu => ?_) id
  obtain ⟨c, hc, hh⟩ := List.any_eq_true.1 hu
  refine List.any_eq_true.2 ⟨c, hc, ?_⟩
  simp only [Bool.and_eq_true, beq_iff_eq] at hh ⊢
  refine ⟨(h.chans c).1 hh.1, ?_⟩
  rcases (h.chans c).2.1 with e | e
  · rw [← e]; exact hh.2
  · rw [e] at hh; cases hh.2

/-- one connection for each server, when none is left behind -/
structure One (s : Ctx) : Prop where
  uniq : ∀ k k', (s.conns k).alive = true → (s.conns k').alive = true → (s.conns k).addr = (s.conns k').addr → k = k'
  own : ∀ k, (s.conns k).alive = true → used s k = true → ((s.conns k).addr, k) ∈ s.byAddr
  plain : ∀ c, (s.chans c).st = .searching → (s.chans c).conn = none
  forced : ∀ c, (s.chans c).forced = none
  ns : s.ns = []

theorem One.sh {er : List Nat} {s t : Ctx} (h : One s) (hs : Sh er s t) (he : ∀ k, (t.conns k).alive = true → used t k = true → (t.conns k).addr ∉ er) : One t where
  uniq k k' a a' e := by
    rw [(hs.conns k).1] at a; rw [(hs.conns k').1] at a'; rw [(hs.conns k).2, (hs.conns k').2] at e
    exact h.uniq k k' a a' e
  own k a u := by
    have hn := he k a u
    rw [(hs.conns k).1] at a; rw [(hs.conns k).2] at hn ⊢
    exact (hs.byAddr _ (h.own k a (hs.used u))).resolve_right hn
  plain c := hs.plain c (h.plain c)
  forced c := (hs.chans c).2.2.trans (h.forced c)
  ns := hs.ns.trans h.ns

theorem One.sh' {s t : Ctx} (h : One s) (hs : Sh [] s t) : One t := h.sh hs (fun _ _ _ e => nomatch e)

theorem one_cleanup {s : Ctx} {k : Nat} (h : One s) (hi : Inv none [] none none s) (ha : (s.conns k).alive = true) : One (cleanup k s) := by
  have hs := sh_cleanup (k := k) h.forced
  have hc := inv_cleanup hi ha
  refine h.sh hs (fun k' a u e => ?_)
  have e := List.mem_singleton.1 e
  rw [(hs.conns k').1] at a; rw [(hs.conns k').2] at e
  have ek := h.uniq k' k a ha e
  subst ek
  unfold used at u
  rw [hs.ns, h.ns] at u
  rw [List.any_nil, Bool.or_false] at u
  obtain ⟨c, _, hh⟩ := List.any_eq_true.1 u
  simp only [Bool.and_eq_true, beq_iff_eq] at hh
  by_cases hst : ((cleanup k' s).chans c).st = .searching
  · rw [hs.plain c (h.plain c) hst] at hh; cases hh.2
  · obtain ⟨k'', q1, _, q3, _⟩ := hc.conn c hh.1 hst
    rw [hh.2] at q1; cases q1
    rcases q3 with q3 | q3
    · exact q3.2 rfl
    · cases q3.2

theorem one_stepRaw {s : Ctx} {e : Ev} (h : One s) (hall : ∀ k, (s.conns k).alive = true → used s k = true) (hi : Inv none [] none none s) (hf : Fair s e) (hn : NoTrace e) :
    One (stepRaw s e) := by
  cases e with
  | close => exact hf.elim
  | newChan o e =>
    cases o with
    | some a => exact hn.elim
    | none =>
      show One (newChan none e s)
      unfold newChan
      rw [if_neg (by rw [hi.running]; exact fun e => (by cases e))]
      simp only []
      have hd := hi.dead
      refine ⟨h.uniq, fun k a u => h.own k a (hall k a), fun c => ?_, fun c => ?_, h.ns⟩
      · simp only [Ctx.setChan]; split
        · exact fun _ => rfl
        · exact h.plain c
      · simp only [Ctx.setChan]; split
        · rfl
        · exact h.forced c
  | reply c a e =>
    show One (reply c a e s)
    unfold reply; split
    · rename_i hc
      have fin : ∀ {k : Nat} {t : Ctx}, (∀ k k', (t.conns k).alive = true → (t.conns k').alive = true → (t.conns k).addr = (t.conns k').addr → k = k') →
          (∀ k, (t.conns k).alive = true → ((t.conns k).addr, k) ∈ t.byAddr) → t.chans = s.chans → t.ns = s.ns → One (attach c k t) := by
        intro k t h1 h2 h3 h4
        have ht : One (((t.setChan c fun x => { x with conn := some k, st := .connecting }).setConn k fun x => { x with pending := c :: eraseCid c x.pending })) := by
          have hco : ∀ k', ((((t.setChan c fun x => { x with conn := some k, st := .connecting }).setConn k fun x => { x with pending := c :: eraseCid c x.pending })).conns k').alive = (t.conns k').alive ∧
              ((((t.setChan c fun x => { x with conn := some k, st := .connecting }).setConn k fun x => { x with pending := c :: eraseCid c x.pending })).conns k').addr = (t.conns k').addr :=
            (sh_setConn (t.setChan c fun x => { x with conn := some k, st := .connecting }) k (fun x => { x with pending := c :: eraseCid c x.pending }) rfl rfl).conns
          refine ⟨fun k1 k2 a1 a2 e => ?_, fun k1 a1 _ => ?_, fun c' => ?_, fun c' => ?_, h4.trans h.ns⟩
          · rw [(hco k1).1] at a1; rw [(hco k2).1] at a2; rw [(hco k1).2, (hco k2).2] at e; exact h1 k1 k2 a1 a2 e
          · rw [(hco k1).1] at a1; rw [(hco k1).2]; exact h2 k1 a1
          · simp only [Ctx.setChan, Ctx.setConn, h3]; split
            · exact fun e => (by cases e)
            · exact h.plain c'
          · simp only [Ctx.setChan, Ctx.setConn, h3]; split
            · rename_i e; subst e; exact h.forced _
            · exact h.forced c'
        exact ht.sh' (sh_createChannels k _)
      have own' : ∀ k, (s.conns k).alive = true → ((s.conns k).addr, k) ∈ s.byAddr := fun k a => h.own k a (hall k a)
      unfold build
      cases hk : s.known a with
      | some k => exact fin h.uniq own' rfl rfl
      | none =>
        have hno : ∀ k, (s.conns k).alive = true → (s.conns k).addr ≠ a := by
          intro k ha e
          have := own' k ha
          unfold Ctx.known at hk
          rw [Option.map_eq_none_iff, List.find?_eq_none] at hk
          exact hk _ this (by simp [e, ha])
        simp only []
        cases hc : decide ((False ∧ False) ∨ e = true) with
        | true =>
          rw [if_pos (by simpa using hc)]; exact h
        | false =>
          rw [if_neg (by simpa using hc)]
          refine fin ?_ ?_ rfl rfl
          · intro k k'
            show (if k = s.nconn then newConn a false else s.conns k).alive = true → (if k' = s.nconn then newConn a false else s.conns k').alive = true →
              (if k = s.nconn then newConn a false else s.conns k).addr = (if k' = s.nconn then newConn a false else s.conns k').addr → k = k'
            have na := (newConn_spec a false).2.2.1
            by_cases e1 : k = s.nconn
            · by_cases e2 : k' = s.nconn
              · intro _ _ _; rw [e1, e2]
              · rw [if_pos e1, if_neg e2, na]; intro _ a2 e; exact absurd e.symm (hno k' a2)
            · by_cases e2 : k' = s.nconn
              · rw [if_neg e1, if_pos e2, na]; intro a1 _ e; exact absurd e (hno k a1)
              · rw [if_neg e1, if_neg e2]; exact h.uniq k k'
          · intro k
            show (if k = s.nconn then newConn a false else s.conns k).alive = true → ((if k = s.nconn then newConn a false else s.conns k).addr, k) ∈ insertKey a s.nconn s.byAddr
            by_cases e1 : k = s.nconn
            · rw [if_pos e1, (newConn_spec a false).2.2.1, e1]; exact fun _ => mem_insertKey.2 (.inl rfl)
            · rw [if_neg e1]; exact fun a1 => mem_insertKey.2 (.inr ⟨own' k a1, hno k a1⟩)
    · exact h
  | connected k =>
    simp only [stepRaw]; split
    · exact h.sh' (sh_setConn s k _ rfl rfl)
    · exact h
  | validated k =>
    simp only [stepRaw]; split
    · exact h.sh' ((sh_setConn s k _ rfl rfl).trans (sh_createChannels k _))
    · exact h
  | created k c sid ok =>
    cases ok with
    | false => exact hn.elim
    | true =>
      show One (created k c sid true s)
      unfold created; split
      · exact h
      · have h1 := sh_setConn s k (fun x => { x with creating := eraseCid c x.creating }) rfl rfl
        split
        · simp only []
          exact h.sh' (h1.trans { Sh.rfl' _ with })
        · simp only []
          exact h.sh' (h1.trans ((sh_setChan _ c (fun x => { x with st := .active, sid := sid }) id (.inl rfl) rfl (fun _ e => by cases e)).trans
            ((sh_setConn _ k _ rfl rfl).trans (sh_createOperations c _))))
  | destroyed k sid =>
    show One (destroyed k sid s)
    unfold destroyed; split
    · exact h
    · split
      · split
        · exact h.sh' ((sh_setConn s k _ rfl rfl).trans (sh_disconnect (h.forced _)))
        · exact h
      · exact h
  | lost k =>
    simp only [stepRaw]; split
    · rename_i ho
      have ⟨o1, o2⟩ := open_spec ho
      refine one_cleanup (h.sh' (sh_setConn s k _ rfl rfl)) (inv_tweak hi rfl rfl rfl rfl rfl rfl rfl (fun _ => ⟨o1, .inl o2⟩) (.inl rfl)) ?_
      simpa [Ctx.setConn] using o1
    · exact h
  | violation k =>
    simp only [stepRaw]; split
    · rename_i ho; exact one_cleanup h hi (open_spec ho).1
    · exact h
  | retry k e =>
    simp only [stepRaw, retry]; split
    · refine h.sh' (sh_setConn s k _ ?_ ?_) <;> split <;> rfl
    · exact h
  | start c op =>
    simp only [stepRaw]; split
    · exact h.sh' ((sh_setChan s c _ id (.inl rfl) rfl (fun h => h)).trans (sh_createOperations c _))
    · exact h
  | finish c op =>
    simp only [stepRaw]; split
    · have h1 := sh_setChan s c (fun x => { x with waiting := x.waiting.filter fun o => o ≠ op, ops := x.ops.filter fun p => p.1 ≠ op }) id (.inl rfl) rfl (fun h => h)
      split
      · exact h.sh' (h1.trans (sh_setConn _ _ _ rfl rfl))
      · exact h.sh' h1
    · exact h
  | kick c =>
    simp only [stepRaw]; split
    · exact h.sh' (sh_disconnect (h.forced c))
    · exact h
  | drop c =>
    simp only [stepRaw]; split
    · exact h.sh' ((sh_detach c s).trans (sh_setChan _ c _ (fun e => by cases e) (.inl rfl) rfl (fun h => h)))
    · exact h
  | tick => exact h.sh' { Sh.rfl' s with }
  | nsCheck e =>
    simp only [stepRaw]
    rw [if_pos hi.running, h.ns]
    exact ⟨h.uniq, fun k a u => h.own k a (hall k a), h.plain, h.forced, rfl⟩

theorem one_reap {s : Ctx} (h : One s) (hi : Inv none [] none none s) : One (reap s) ∧ ∀ k, ((reap s).conns k).alive = true → used (reap s) k = true := by
  obtain ⟨b1, b2, b3, b4, b5, b6, b7, b8, b9, b10⟩ := reap_frame hi
  have hu : ∀ k, used (reap s) k = used s k := used_congr b1 b3 b4
  refine ⟨⟨fun k k' a a' e => ?_, fun k a u => ?_, fun c => by rw [b1]; exact h.plain c, fun c => by rw [b1]; exact h.forced c, b3.trans h.ns⟩, fun k a => by rw [hu]; exact b8 k a⟩
  · have e1 := b9 k a; have e2 := b9 k' a'
    rw [e1] at a e; rw [e2] at a' e
    exact h.uniq k k' a a' e
  · have e1 := b9 k a
    rw [e1] at a ⊢
    rw [hu] at u
    refine b10 _ _ (h.own k a u) (fun k' a' u' e => ?_)
    have := h.uniq k' k a' a e
    subst this
    rw [u] at u'; cases u'

theorem one_run : ∀ (es : List Ev) {s : Ctx}, Inv none [] none none s → One s → (∀ k, (s.conns k).alive = true → used s k = true) → Usual es s → (∀ e ∈ es, NoTrace e) →
    One (run es s) ∧ (∀ k, ((run es s).conns k).alive = true → used (run es s) k = true)
  | [], _, _, h, ha, _, _ => ⟨h, ha⟩
  | e :: es, s, hi, h, ha, hu, hn => by
    obtain ⟨hf, hu⟩ := fair_of hi hu
    have h1 := one_reap (one_stepRaw h ha hi hf (hn e (by simp))) (inv_stepRaw hi hf)
    exact one_run es (inv_step hi hf) h1.1 h1.2 hu (fun x hx => hn x (by simp [hx]))

theorem one_init : One {} := ⟨fun _ _ h => (by cases h), fun _ h => (by cases h), fun _ _ => rfl, fun _ => rfl, rfl⟩

/-! ### the end -/

/-- no connection is opened -/
structure Dn (s t : Ctx) : Prop where
  conns : ∀ k, ((t.conns k).alive = true → (s.conns k).alive = true) ∧ ((s.conns k).bev = false → (t.conns k).bev = false) ∧ ((s.conns k).timer = false → (t.conns k).timer = false)
  forced : ∀ c, (t.chans c).forced = (s.chans c).forced

theorem Dn.rfl' (s : Ctx) : Dn s s := ⟨fun _ => ⟨id, id, id⟩, fun _ => rfl⟩

theorem Dn.trans {s t u : Ctx} (h : Dn s t) (h' : Dn t u) : Dn s u :=
  ⟨fun k => ⟨fun x => (h.conns k).1 ((h'.conns k).1 x), fun x => (h'.conns k).2.1 ((h.conns k).2.1 x), fun x => (h'.conns k).2.2 ((h.conns k).2.2 x)⟩,
   fun c => (h'.forced c).trans (h.forced c)⟩

theorem dn_setConn (s : Ctx) (k : Nat) (f : Conn → Conn) (h1 : (f (s.conns k)).alive = true → (s.conns k).alive = true) (h2 : (s.conns k).bev = false → (f (s.conns k)).bev = false)
    (h3 : (s.conns k).timer = false → (f (s.conns k)).timer = false) : Dn s (s.setConn k f) := by
  refine ⟨fun k' => ?_, fun _ => rfl⟩
  simp only [Ctx.setConn]; split
  · rename_i e; subst e; exact ⟨h1, h2, h3⟩
  · exact ⟨id, id, id⟩

theorem dn_detach (c : Nat) (s : Ctx) : Dn s (detach c s) := by
  have hl : ∀ s : Ctx, Dn s (s.setChan c loose) := fun s => ⟨fun _ => ⟨id, id, id⟩, fun c' => by
    simp only [Ctx.setChan]; split
    · rename_i e; subst e; rfl
    · rfl⟩
  unfold detach
  split
  · split
    · exact hl s
    · exact ⟨(hl s).conns, (hl s).forced⟩
  · rename_i k _
    have h1 : Dn s (tellGone k c (s.chans c) s) := by
      unfold tellGone; split
      · exact ⟨fun _ => ⟨id, id, id⟩, fun _ => rfl⟩
      · exact Dn.rfl' s
    exact (h1.trans (hl _)).trans (dn_setConn _ k _ id id id)

theorem dn_disconnect {s : Ctx} {c : Nat} (hf : (s.chans c).forced = none) : Dn s (disconnect s c) := by
  have h := dn_detach c s
  unfold disconnect
  generalize detach c s = t at *
  simp only []
  rw [h.forced c, hf]
  exact ⟨h.conns, h.forced⟩

theorem dn_fold : ∀ (l : List Nat) {s : Ctx}, (∀ c, (s.chans c).forced = none) → Dn s (l.foldl disconnect s)
  | [], s, _ => Dn.rfl' s
  | c :: l, s, hf => by
    have h := dn_disconnect (hf c)
    exact h.trans (dn_fold l (fun c' => (h.forced c').trans (hf c')))

theorem dn_cleared (k : Nat) (s : Ctx) : Dn s (cleared k s) := by
  unfold cleared
  simp only []
  split
  · exact dn_setConn _ k _ id id id
  · have h2 : Dn s { s with crashed := true } := ⟨fun _ => ⟨id, id, id⟩, fun _ => rfl⟩
    exact h2.trans (dn_setConn _ k _ id id id)

theorem dn_cleanup {s : Ctx} {k : Nat} (hf : ∀ c, (s.chans c).forced = none) : Dn s (cleanup k s) ∧ ((cleanup k s).conns k).bev = false ∧ ((cleanup k s).conns k).timer = false := by
  have h0 : Dn s (shut k s) := by
    have := dn_setConn s k (fun x => { x with ready := false, bev := false, timer := false }) id (fun _ => rfl) (fun _ => rfl)
    exact ⟨this.conns, this.forced⟩
  have h1 := (dn_fold (ofConn k (shut k s)) (s := shut k s) (fun c => hf c)).trans (dn_cleared k _)
  have h2 : ((shut k s).conns k).bev = false ∧ ((shut k s).conns k).timer = false := by simp [shut, Ctx.setConn]
  exact ⟨h0.trans h1, (h1.conns k).2.1 h2.1, (h1.conns k).2.2 h2.2⟩

theorem dn_cleanups : ∀ (l : List Nat) {s : Ctx}, (∀ c, (s.chans c).forced = none) → Dn s (l.foldl (fun s k => cleanup k s) s) ∧
    ∀ k ∈ l, ((l.foldl (fun s k => cleanup k s) s).conns k).bev = false ∧ ((l.foldl (fun s k => cleanup k s) s).conns k).timer = false
  | [], s, _ => ⟨Dn.rfl' s, fun _ h => nomatch h⟩
  | k :: l, s, hf => by
    obtain ⟨h1, h2, h3⟩ := dn_cleanup (k := k) hf
    obtain ⟨g1, g2⟩ := dn_cleanups l (s := cleanup k s) (fun c' => (h1.forced c').trans (hf c'))
    refine ⟨h1.trans g1, fun k' hk' => ?_⟩
    rcases List.mem_cons.1 hk' with e | hk'
    · subst e; exact ⟨(g1.conns k').2.1 h2, (g1.conns k').2.2 h3⟩
    · exact g2 k' hk'

theorem dn_reap {s : Ctx} (hf : ∀ c, (s.chans c).forced = none) : Dn s (reap s) := by
  unfold reap
  generalize List.range s.nconn = l
  induction l generalizing s with
  | nil => exact Dn.rfl' s
  | cons k l ih =>
    have h1 : Dn s (reapOne s k) := by
      unfold reapOne
      split
      · exact (dn_cleanup hf).1.trans (dn_setConn _ k _ (fun e => by cases e) id id)
      · exact Dn.rfl' s
    exact h1.trans (ih (fun c => (h1.forced c).trans (hf c)))

theorem one_close {s : Ctx} (h : One s) (ha : ∀ k, (s.conns k).alive = true → used s k = true) (hr : s.running = true) (k : Nat) :
    ¬Open (step s .close) k ∧ ¬Soon (step s .close) k := by
  have e : stepRaw s .close = close s := rfl
  have h1 : Dn s (stepRaw s .close) ∧ ∀ k, (s.conns k).alive = true → ((stepRaw s .close).conns k).bev = false ∧ ((stepRaw s .close).conns k).timer = false := by
    rw [e]; unfold close
    rw [if_neg (by rw [hr]; exact fun e => (by cases e))]
    simp only []
    obtain ⟨g1, g2⟩ := dn_cleanups ((s.byAddr.map (·.2)).filter fun k => (s.conns k).alive) (s := { s with running := false, byAddr := [] }) h.forced
    refine ⟨⟨g1.conns, g1.forced⟩, fun k hk => g2 k ?_⟩
    exact List.mem_filter.2 ⟨List.mem_map.2 ⟨_, h.own k hk (ha k hk), rfl⟩, hk⟩
  have h2 := dn_reap (s := stepRaw s .close) (fun c => (h1.1.forced c).trans (h.forced c))
  refine ⟨fun ho => ?_, fun ho => ?_⟩
  · have a1 := (h1.1.conns k).1 ((h2.conns k).1 ho.1)
    have := (h2.conns k).2.1 (h1.2 k a1).1
    have hb : ((reap (stepRaw s .close)).conns k).bev = true := ho.2
    rw [this] at hb; cases hb
  · have a1 := (h1.1.conns k).1 ((h2.conns k).1 ho.1)
    have := (h2.conns k).2.2 (h1.2 k a1).2
    have hb : ((reap (stepRaw s .close)).conns k).timer = true := ho.2.2
    rw [this] at hb; cases hb

/-! ### name servers -/

/-- what an event which does not concern a connection leaves -/
def Still (x y : Conn) : Prop := y.alive = x.alive ∧ y.addr = x.addr ∧ y.ph = x.ph ∧ y.bev = x.bev ∧ y.timer = x.timer

structure Rel (b : Option Nat) (s t : Ctx) : Prop where
  nconn : s.nconn ≤ t.nconn
  ns : t.ns = s.ns
  conns : ∀ k, k < s.nconn → b ≠ some k → Still (s.conns k) (t.conns k)

theorem Still.rfl' (x : Conn) : Still x x := ⟨rfl, rfl, rfl, rfl, rfl⟩

theorem Rel.rfl' {b : Option Nat} (s : Ctx) : Rel b s s := ⟨Nat.le_refl _, rfl, fun _ _ _ => Still.rfl' _⟩

theorem Rel.trans {b : Option Nat} {s t u : Ctx} (h : Rel b s t) (h' : Rel b t u) : Rel b s u :=
  ⟨Nat.le_trans h.nconn h'.nconn, h'.ns.trans h.ns, fun k hk hb => by
    obtain ⟨a1, a2, a3, a4, a5⟩ := h.conns k hk hb
    obtain ⟨b1, b2, b3, b4, b5⟩ := h'.conns k (Nat.lt_of_lt_of_le hk h.nconn) hb
    exact ⟨b1.trans a1, b2.trans a2, b3.trans a3, b4.trans a4, b5.trans a5⟩⟩

theorem rel_setConn {b : Option Nat} (s : Ctx) (k : Nat) (f : Conn → Conn) (h : b = some k ∨ Still (s.conns k) (f (s.conns k))) : Rel b s (s.setConn k f) := by
  refine ⟨Nat.le_refl _, rfl, fun k' _ hb => ?_⟩
  simp only [Ctx.setConn]; split
  · rename_i e; subst e; exact h.resolve_left hb
  · exact Still.rfl' _

theorem rel_same {b : Option Nat} {s t : Ctx} (h1 : t.conns = s.conns) (h2 : t.nconn = s.nconn) (h3 : t.ns = s.ns) : Rel b s t :=
  ⟨Nat.le_of_eq h2.symm, h3, fun k _ _ => by rw [h1]; exact Still.rfl' _⟩

theorem Rel.setConn {b : Option Nat} {s t : Ctx} {k : Nat} {f : Conn → Conn} (h : Rel b s t) (hf : ∀ x, Still x (f x)) : Rel b s (t.setConn k f) :=
  h.trans (rel_setConn t k f (.inr (hf _)))

theorem Rel.setChan {b : Option Nat} {s t : Ctx} {c : Nat} {f : Chan → Chan} (h : Rel b s t) : Rel b s (t.setChan c f) := h.trans (rel_same rfl rfl rfl)

theorem Rel.send {b : Option Nat} {s t : Ctx} {m : Msg} (h : Rel b s t) : Rel b s (t.send m) := h.trans (rel_same rfl rfl rfl)

theorem rel_foldl {b : Option Nat} {α : Type} (f : Ctx → α → Ctx) (hf : ∀ s a, Rel b s (f s a)) : ∀ (l : List α) (s : Ctx), Rel b s (l.foldl f s)
  | [], s => Rel.rfl' s
  | a :: l, s => (hf s a).trans (rel_foldl f hf l (f s a))

theorem rel_createOne {b : Option Nat} (k : Nat) (s : Ctx) (c : Nat) : Rel b s (createOne k s c) := by
  unfold createOne
  split
  · exact Rel.setChan (Rel.setConn (Rel.send (Rel.rfl' s)) (fun _ => ⟨rfl, rfl, rfl, rfl, rfl⟩))
  · exact Rel.rfl' s

theorem rel_createChannels {b : Option Nat} (k : Nat) (s : Ctx) : Rel b s (createChannels k s) := by
  unfold createChannels
  split
  · exact Rel.rfl' s
  · exact (rel_setConn s k _ (.inr ⟨rfl, rfl, rfl, rfl, rfl⟩)).trans (rel_foldl _ (fun s a => rel_createOne k s a) _ _)

theorem rel_attach {b : Option Nat} (c k : Nat) (s : Ctx) : Rel b s (attach c k s) := by
  unfold attach
  refine Rel.trans ?_ (rel_createChannels k _)
  exact Rel.setConn (Rel.setChan (Rel.rfl' s)) (fun _ => ⟨rfl, rfl, rfl, rfl, rfl⟩)

theorem rel_detach {b : Option Nat} (c : Nat) (s : Ctx) : Rel b s (detach c s) := by
  unfold detach
  split
  · split
    · exact rel_same rfl rfl rfl
    · exact rel_same rfl rfl rfl
  · rename_i k _
    have h1 : Rel b s (tellGone k c (s.chans c) s) := by
      unfold tellGone; split
      · exact rel_same rfl rfl rfl
      · exact Rel.rfl' s
    refine (h1.trans (rel_same (t := (tellGone k c (s.chans c) s).setChan c loose) rfl rfl rfl)).trans (rel_setConn _ k _ (.inr ⟨rfl, rfl, rfl, rfl, rfl⟩))

theorem rel_build {b : Option Nat} {a : Nat} {r e : Bool} {s t : Ctx} {o : Option Nat} (he : build a r e s = (o, t)) : Rel b s t := by
  unfold build at he
  split at he
  · cases he; exact Rel.rfl' s
  · split at he
    · cases he; exact Rel.rfl' s
    · cases he
      refine ⟨Nat.le_succ _, rfl, fun k hk _ => ?_⟩
      show Still (s.conns k) (if k = s.nconn then newConn a r else s.conns k)
      rw [if_neg (Nat.ne_of_lt hk)]; exact Still.rfl' _

theorem rel_disconnect {b : Option Nat} (s : Ctx) (c : Nat) : Rel b s (disconnect s c) := by
  have h := rel_detach (b := b) c s
  unfold disconnect
  generalize detach c s = t at *
  simp only []
  split
  · exact h.trans (rel_same rfl rfl rfl)
  · rename_i a _
    split
    · cases hb : build a true false t with
      | mk o u =>
        cases o with
        | none => exact h.trans (rel_build hb)
        | some k => exact (h.trans (rel_build hb)).trans (rel_attach c k u)
    · exact h

theorem rel_cleared {b : Option Nat} (k : Nat) (s : Ctx) : Rel b s (cleared k s) := by
  unfold cleared
  simp only []
  split
  · exact rel_setConn _ k _ (.inr ⟨rfl, rfl, rfl, rfl, rfl⟩)
  · exact Rel.setConn (rel_same rfl rfl rfl) (fun _ => ⟨rfl, rfl, rfl, rfl, rfl⟩)

/-- closing a connection concerns just that one, which keeps its state -/
theorem rel_cleanup {s : Ctx} (k : Nat) : Rel (some k) s (cleanup k s) ∧ (k < s.nconn → ((cleanup k s).conns k).alive = (s.conns k).alive ∧
    ((cleanup k s).conns k).addr = (s.conns k).addr ∧ ((cleanup k s).conns k).ph = (s.conns k).ph ∧ ((cleanup k s).conns k).bev = false ∧ ((cleanup k s).conns k).timer = false) := by
  have h0 : Rel (some k) s (shut k s) := by
    refine ⟨Nat.le_refl _, rfl, fun k' _ hb => ?_⟩
    simp only [shut, Ctx.setConn]
    split
    · rename_i e; exact absurd (by rw [e]) hb
    · exact Still.rfl' _
  have h1 : ∀ b, Rel b (shut k s) (cleanup k s) := fun b =>
    (rel_foldl disconnect (fun s c => rel_disconnect s c) (ofConn k (shut k s)) (shut k s)).trans (rel_cleared k _)
  refine ⟨h0.trans (h1 _), fun hk => ?_⟩
  obtain ⟨a1, a2, a3, a4, a5⟩ := (h1 none).conns k hk (fun e => by cases e)
  have e : (shut k s).conns k = { s.conns k with ready := false, bev := false, timer := false } := by simp [shut, Ctx.setConn]
  rw [e] at a1 a2 a3 a4 a5
  exact ⟨a1, a2, a3, a4, a5⟩

theorem rel_createOperations {b : Option Nat} (c : Nat) (s : Ctx) : Rel b s (createOperations c s) := by
  unfold createOperations
  split
  · exact Rel.rfl' s
  · split
    · exact rel_same rfl rfl rfl
    · rename_i k _
      refine (Rel.setChan (Rel.rfl' s)).trans (rel_foldl _ (fun s op => ?_) _ _)
      unfold startOne
      exact Rel.setChan (Rel.setConn (Rel.send (Rel.rfl' s)) (fun _ => ⟨rfl, rfl, rfl, rfl, rfl⟩))

/-- the connection an event is about, when it is one about a connection's own state -/
def about : Ev → Option Nat
  | .connected k => some k
  | .lost k => some k
  | .violation k => some k
  | .retry k _ => some k
  | _ => none

theorem rel_nsLoop {b : Option Nat} (e : Bool) : ∀ (l : List (Nat × Option Nat)) (s : Ctx), Rel b s (nsLoop e l s).2
  | [], s => Rel.rfl' s
  | (a, o) :: l, s => by
    unfold nsLoop
    split
    · exact rel_nsLoop e l s
    · cases hb : build a false e s with
      | mk o t =>
        cases o with
        | none => exact rel_build hb
        | some k => exact (rel_build hb).trans (rel_nsLoop e l t)

theorem rel_stepRaw {s : Ctx} {e : Ev} (h1 : e ≠ .close) (h2 : ∀ f, e ≠ .nsCheck f) : Rel (about e) s (stepRaw s e) := by
  cases e with
  | close => exact absurd rfl h1
  | nsCheck f => exact absurd rfl (h2 f)
  | newChan o e =>
    show Rel none s (newChan o e s)
    unfold newChan
    split
    · exact Rel.rfl' s
    · cases o with
      | none => exact rel_same rfl rfl rfl
      | some a =>
        simp only []
        have h0 : Rel none s ({ (s.setChan s.nchan fun _ => { alive := true, forced := some a }) with nchan := s.nchan + 1 } : Ctx) := rel_same rfl rfl rfl
        cases hb : build a false e ({ (s.setChan s.nchan fun _ => { alive := true, forced := some a }) with nchan := s.nchan + 1 } : Ctx) with
        | mk o u =>
          cases o with
          | none => exact h0.trans (rel_build hb)
          | some k => exact (h0.trans (rel_build hb)).trans (rel_attach _ k u)
  | reply c a e =>
    show Rel none s (reply c a e s)
    unfold reply; split
    · cases hb : build a false e s with
      | mk o t =>
        cases o with
        | none => exact rel_build hb
        | some k => exact (rel_build hb).trans (rel_attach c k t)
    · exact Rel.rfl' s
  | connected k =>
    simp only [stepRaw]; split
    · exact rel_setConn s k _ (.inl rfl)
    · exact Rel.rfl' s
  | validated k =>
    simp only [stepRaw]; split
    · exact (rel_setConn s k _ (.inr ⟨rfl, rfl, rfl, rfl, rfl⟩)).trans (rel_createChannels k _)
    · exact Rel.rfl' s
  | created k c sid ok =>
    show Rel none s (created k c sid ok s)
    unfold created; split
    · exact Rel.rfl' s
    · have h0 : Rel none s (s.setConn k fun x => { x with creating := eraseCid c x.creating }) := rel_setConn s k _ (.inr ⟨rfl, rfl, rfl, rfl, rfl⟩)
      split
      · simp only []; split
        · exact h0.trans (rel_same rfl rfl rfl)
        · exact h0
      · simp only []; split
        · refine ((h0.trans (rel_same (t := (s.setConn k fun x => { x with creating := eraseCid c x.creating }).setChan c fun x => { x with st := .active, sid := sid }) rfl rfl rfl)).trans
            (rel_setConn _ k _ (.inr ⟨rfl, rfl, rfl, rfl, rfl⟩))).trans (rel_createOperations c _)
        · exact h0.trans (rel_same rfl rfl rfl)
  | destroyed k sid =>
    show Rel none s (destroyed k sid s)
    unfold destroyed; split
    · exact Rel.rfl' s
    · split
      · split
        · exact (rel_setConn s k _ (.inr ⟨rfl, rfl, rfl, rfl, rfl⟩)).trans (rel_disconnect _ _)
        · exact Rel.rfl' s
      · exact Rel.rfl' s
  | lost k =>
    simp only [stepRaw]; split
    · exact (rel_setConn s k _ (.inl rfl)).trans (rel_cleanup k).1
    · exact Rel.rfl' s
  | violation k =>
    simp only [stepRaw]; split
    · exact (rel_cleanup k).1
    · exact Rel.rfl' s
  | retry k e =>
    simp only [stepRaw, retry]; split
    · exact rel_setConn s k _ (.inl rfl)
    · exact Rel.rfl' s
  | start c op =>
    simp only [stepRaw]; split
    · exact (Rel.setChan (Rel.rfl' s)).trans (rel_createOperations c _)
    · exact Rel.rfl' s
  | finish c op =>
    simp only [stepRaw]; split
    · have h0 : Rel none s (s.setChan c fun x => { x with waiting := x.waiting.filter fun o => o ≠ op, ops := x.ops.filter fun p => p.1 ≠ op }) := rel_same rfl rfl rfl
      split
      · exact h0.trans (rel_setConn _ _ _ (.inr ⟨rfl, rfl, rfl, rfl, rfl⟩))
      · exact h0
    · exact Rel.rfl' s
  | kick c =>
    simp only [stepRaw]; split
    · exact rel_disconnect s c
    · exact Rel.rfl' s
  | drop c =>
    simp only [stepRaw]; split
    · exact (rel_detach c s).trans (rel_same rfl rfl rfl)
    · exact Rel.rfl' s
  | tick => exact rel_same rfl rfl rfl

/-- an object which a name server's entry refers to stays -/
theorem rel_reap {s : Ctx} {k a : Nat} (hm : (a, some k) ∈ s.ns) (hk : k < s.nconn) : (reap s).ns = s.ns ∧ s.nconn ≤ (reap s).nconn ∧ Still (s.conns k) ((reap s).conns k) := by
  unfold reap
  generalize List.range s.nconn = l
  induction l generalizing s with
  | nil => exact ⟨rfl, Nat.le_refl _, Still.rfl' _⟩
  | cons j l ih =>
    have h1 : (reapOne s j).ns = s.ns ∧ s.nconn ≤ (reapOne s j).nconn ∧ Still (s.conns k) ((reapOne s j).conns k) := by
      unfold reapOne
      split
      · rename_i hc
        have hu : used s k = true := by
          unfold used; rw [Bool.or_eq_true]
          exact .inr (List.any_eq_true.2 ⟨_, hm, by simp⟩)
        have hj : j ≠ k := fun e => by rw [e, hu] at hc; cases hc.2
        have h2 := (rel_cleanup (s := s) j).1.trans (rel_setConn (cleanup j s) j (fun x => { x with alive := false }) (.inl rfl))
        exact ⟨h2.ns, h2.nconn, h2.conns k hk (fun e => hj (Option.some.inj e))⟩
      · exact ⟨rfl, Nat.le_refl _, Still.rfl' _⟩
    obtain ⟨b1, b2, b3⟩ := ih (s := reapOne s j) (by rw [h1.1]; exact hm) (Nat.lt_of_lt_of_le hk h1.2.1)
    refine ⟨b1.trans h1.1, Nat.le_trans h1.2.1 b2, ?_⟩
    obtain ⟨c1, c2, c3, c4, c5⟩ := h1.2.2
    obtain ⟨d1, d2, d3, d4, d5⟩ := b3
    exact ⟨d1.trans c1, d2.trans c2, d3.trans c3, d4.trans c4, d5.trans c5⟩

/-- a name server whose connection was closed by the client itself -/
structure Dropped (a k : Nat) (s : Ctx) : Prop where
  mem : (a, some k) ∈ s.ns
  bound : k < s.nconn
  ph : (s.conns k).ph = .connected
  bev : (s.conns k).bev = false
  timer : (s.conns k).timer = false

theorem nsLoop_keeps {a k : Nat} (e : Bool) : ∀ (l : List (Nat × Option Nat)) {s : Ctx}, (a, some k) ∈ l → k < s.nconn → (s.conns k).ph ≠ .disconnected → (a, some k) ∈ (nsLoop e l s).1
  | (b, o) :: l, s, hm, hk, hp => by
    unfold nsLoop
    split
    · rcases List.mem_cons.1 hm with e | hm
      · rw [e]; exact List.mem_cons_self
      · exact List.mem_cons_of_mem _ (nsLoop_keeps e l hm hk hp)
    · rename_i hn
      have hne : (a, some k) ≠ (b, o) := by
        intro e; cases e
        exact hn (by simpa [nsKept] using hp)
      cases hb : build b false e s with
      | mk o' t =>
        cases o' with
        | none => exact hm
        | some k' =>
          have hr := rel_build (b := none) hb
          refine List.mem_cons_of_mem _ (nsLoop_keeps e l ((List.mem_cons.1 hm).resolve_left hne) (Nat.lt_of_lt_of_le hk hr.nconn) ?_)
          rw [(hr.conns k hk (fun e => by cases e)).2.2.1]; exact hp

theorem dropped_step {a k : Nat} {s : Ctx} {e : Ev} (h : Dropped a k s) (he : e ≠ .close) : Dropped a k (step s e) := by
  have main : Dropped a k (stepRaw s e) := by
    by_cases hn : ∃ f, e = .nsCheck f
    · obtain ⟨f, rfl⟩ := hn
      simp only [stepRaw]
      split
      · have hr := rel_nsLoop (b := none) f s.ns s
        obtain ⟨b1, b2, b3, b4, b5⟩ := hr.conns k h.bound (fun e => by cases e)
        exact ⟨nsLoop_keeps f s.ns h.mem h.bound (by rw [h.ph]; exact fun e => (by cases e)), Nat.lt_of_lt_of_le h.bound hr.nconn, b3.trans h.ph, b4.trans h.bev, b5.trans h.timer⟩
      · exact h
    · have hr := rel_stepRaw (s := s) he (fun f e => hn ⟨f, e⟩)
      by_cases hb : about e = some k
      · have : stepRaw s e = s := by
          cases e with
          | connected k' => cases hb; simp [stepRaw, open_, h.bev]
          | lost k' => cases hb; simp [stepRaw, open_, h.bev]
          | violation k' => cases hb; simp [stepRaw, open_, h.bev]
          | retry k' f => cases hb; simp [stepRaw, retry, h.timer]
          | _ => cases hb
        rw [this]; exact h
      · obtain ⟨b1, b2, b3, b4, b5⟩ := hr.conns k h.bound hb
        exact ⟨by rw [hr.ns]; exact h.mem, Nat.lt_of_lt_of_le h.bound hr.nconn, b3.trans h.ph, b4.trans h.bev, b5.trans h.timer⟩
  obtain ⟨c1, c2, d1, d2, d3, d4, d5⟩ := rel_reap main.mem main.bound
  exact ⟨by show (a, some k) ∈ (reap _).ns; rw [c1]; exact main.mem, Nat.lt_of_lt_of_le main.bound c2, d3.trans main.ph, d4.trans main.bev, d5.trans main.timer⟩

theorem dropped_run {a k : Nat} : ∀ (es : List Ev) {s : Ctx}, Dropped a k s → (∀ e ∈ es, e ≠ .close) → Dropped a k (run es s)
  | [], _, h, _ => h
  | e :: es, _, h, hc => dropped_run es (dropped_step h (hc e (by simp))) (fun x hx => hc x (by simp [hx]))

/-- what an entry for a name server refers to -/
structure Entry (s : Ctx) (a k : Nat) : Prop where
  bound : k < s.nconn
  alive : (s.conns k).alive = true
  addr : (s.conns k).addr = a
  going : Going (s.conns k) ∨ (s.conns k).ph = .disconnected

theorem Still.going {x y : Conn} (h : Still x y) (hg : Going x) : Going y := by
  obtain ⟨a1, a2, a3, a4, a5⟩ := h
  unfold Going at *
  rw [a1, a3, a4, a5]; exact hg

theorem Entry.still {s t : Ctx} {a k : Nat} (h : Entry s a k) (hn : s.nconn ≤ t.nconn) (hs : Still (s.conns k) (t.conns k)) : Entry t a k :=
  ⟨Nat.lt_of_lt_of_le h.bound hn, hs.1.trans h.alive, hs.2.1.trans h.addr, h.going.imp hs.going (fun e => hs.2.2.1.trans e)⟩

theorem build_entry {s t : Ctx} {a k : Nat} {r e : Bool} (h : Inv none [] none none s) (hb : build a r e s = (some k, t)) : Entry t a k ∧ Going (t.conns k) := by
  obtain ⟨i1, i2, _⟩ := inv_build h (fun k hk => by cases hk) hb
  have ha : (t.conns k).alive = true := i2.1
  refine ⟨⟨i1.kbound k ha, ha, ?_, .inl i2⟩, i2⟩
  unfold build at hb
  cases hk : s.known a with
  | some k' =>
    rw [hk] at hb; cases hb
    obtain ⟨h1, h2⟩ := known_spec hk
    exact (h.addr a k h1 h2).2.2
  | none =>
    rw [hk] at hb
    simp only [] at hb
    split at hb
    · cases hb
    · cases hb
      simp [(newConn_spec a r).2.2.1]

theorem nsLoop_entries (e : Bool) : ∀ (l : List (Nat × Option Nat)) {s : Ctx}, Inv none [] none none s → (∀ a k, (a, some k) ∈ l → Entry s a k) →
    (∀ a k, (a, some k) ∈ (nsLoop e l s).1 → Entry (nsLoop e l s).2 a k) ∧ (nsLoop e l s).1.map (·.1) = l.map (·.1) ∧
    (e = false → ∀ a o, (a, o) ∈ (nsLoop e l s).1 → ∃ k, o = some k ∧ Entry (nsLoop e l s).2 a k ∧ Going ((nsLoop e l s).2.conns k))
  | [], s, _, _ => ⟨fun _ _ h => absurd h List.not_mem_nil, rfl, fun _ _ _ h => absurd h List.not_mem_nil⟩
  | (b, o) :: l, s, h, hl => by
    have hl' : ∀ a k, (a, some k) ∈ l → Entry s a k := fun a k hm => hl a k (List.mem_cons_of_mem _ hm)
    unfold nsLoop
    split
    · rename_i hkept
      obtain ⟨g1, g2, g3⟩ := nsLoop_entries e l h hl'
      have hr := rel_nsLoop (b := none) e l s
      simp only []
      refine ⟨fun a k hm => ?_, by rw [List.map_cons, List.map_cons, g2], fun he a o' hm => ?_⟩
      · rcases List.mem_cons.1 hm with q | hm
        · cases q
          have he := hl b k List.mem_cons_self
          exact he.still hr.nconn (hr.conns k he.bound (fun e => by cases e))
        · exact g1 a k hm
      · rcases List.mem_cons.1 hm with q | hm
        · cases q
          cases o with
          | none => cases hkept
          | some k =>
            have he := hl b k List.mem_cons_self
            have hst := hr.conns k he.bound (fun e => by cases e)
            refine ⟨k, rfl, he.still hr.nconn hst, ?_⟩
            rcases he.going with g | g
            · exact hst.going g
            · simp [nsKept, g] at hkept
        · exact g3 he a o' hm
    · cases hb : build b false e s with
      | mk o' t =>
        cases o' with
        | none =>
          simp only []
          have ht := build_fail hb
          subst ht
          refine ⟨hl, trivial, fun he => ?_⟩
          subst he
          obtain ⟨k, u, hh⟩ := build_ok b t
          rw [hh] at hb; cases hb
        | some k =>
          simp only []
          obtain ⟨e1, e2⟩ := build_entry h hb
          have hrb := rel_build (b := none) hb
          obtain ⟨g1, g2, g3⟩ := nsLoop_entries e l (s := t) (inv_build h (fun k hk => by cases hk) hb).1
            (fun a k hm => (hl' a k hm).still hrb.nconn (hrb.conns k (hl' a k hm).bound (fun e => by cases e)))
          have hr := rel_nsLoop (b := none) e l t
          have hst := hr.conns k e1.bound (fun e => by cases e)
          refine ⟨fun a k' hm => ?_, by rw [List.map_cons, List.map_cons, g2], fun he a o' hm => ?_⟩
          · rcases List.mem_cons.1 hm with q | hm
            · cases q; exact e1.still hr.nconn hst
            · exact g1 a k' hm
          · rcases List.mem_cons.1 hm with q | hm
            · cases q; exact ⟨k, rfl, e1.still hr.nconn hst, hst.going e2⟩
            · exact g3 he a o' hm

theorem entries_stepRaw {s : Ctx} {e : Ev} {es : List Ev} (h : Inv none [] none none s) (hf : Fair s e) (hc : Clean (e :: es) s) (hl : ∀ a k, (a, some k) ∈ s.ns → Entry s a k) :
    (∀ a k, (a, some k) ∈ (stepRaw s e).ns → Entry (stepRaw s e) a k) ∧ (stepRaw s e).ns.map (·.1) = s.ns.map (·.1) := by
  by_cases hn : ∃ f, e = .nsCheck f
  · obtain ⟨f, rfl⟩ := hn
    simp only [stepRaw]
    split
    · obtain ⟨g1, g2, _⟩ := nsLoop_entries f s.ns h hl
      exact ⟨fun a k hm => ⟨(g1 a k hm).bound, (g1 a k hm).alive, (g1 a k hm).addr, (g1 a k hm).going⟩, g2⟩
    · exact ⟨hl, rfl⟩
  · have hne : e ≠ .close := fun e' => by subst e'; exact hf
    have hr := rel_stepRaw (s := s) hne (fun f e => hn ⟨f, e⟩)
    refine ⟨fun a k hm => ?_, by rw [hr.ns]⟩
    rw [hr.ns] at hm
    have he := hl a k hm
    by_cases hb : about e = some k
    · cases e with
      | connected k' =>
        cases hb
        simp only [stepRaw]; split
        · rename_i ho
          have ⟨o1, o2⟩ := open_spec ho
          exact ⟨he.bound, by simpa [Ctx.setConn] using he.alive, by simpa [Ctx.setConn] using he.addr, .inl (by simp [Ctx.setConn, Going, o1, o2])⟩
        · exact he
      | lost k' =>
        cases hb
        simp only [stepRaw]; split
        · have h1 := rel_setConn (b := some k) s k (fun x => { x with ph := .disconnected }) (.inl rfl)
          obtain ⟨c1, c2, c3, c4, c5⟩ := (rel_cleanup (s := s.setConn k fun x => { x with ph := .disconnected }) k).2 he.bound
          refine ⟨Nat.lt_of_lt_of_le he.bound (h1.trans (rel_cleanup k).1).nconn, c1.trans ?_, c2.trans ?_, .inr (c3.trans ?_)⟩
          · simpa [Ctx.setConn] using he.alive
          · simpa [Ctx.setConn] using he.addr
          · simp [Ctx.setConn]
        · exact he
      | violation k' =>
        cases hb
        exact absurd hm (hc.1 a)
      | retry k' f =>
        cases hb
        have hf : f = false := hf
        subst hf
        simp only [stepRaw, retry]; split
        · refine ⟨he.bound, by simpa [Ctx.setConn] using he.alive, by simpa [Ctx.setConn] using he.addr, .inl ?_⟩
          have := he.alive
          simp [Ctx.setConn, Going, this]
        · exact he
      | _ => cases hb
    · exact he.still hr.nconn (hr.conns k he.bound hb)

theorem entries_reap {s : Ctx} (h : ∀ a k, (a, some k) ∈ s.ns → Entry s a k) (hi : Inv none [] none none s) :
    (∀ a k, (a, some k) ∈ (reap s).ns → Entry (reap s) a k) ∧ (reap s).ns = s.ns := by
  have hns := (reap_frame hi).2.2.1
  refine ⟨fun a k hm => ?_, hns⟩
  rw [hns] at hm
  obtain ⟨c1, c2, c3⟩ := rel_reap hm (h a k hm).bound
  exact (h a k hm).still c2 c3

theorem entries_run : ∀ (es : List Ev) {s : Ctx}, Inv none [] none none s → (∀ a k, (a, some k) ∈ s.ns → Entry s a k) → Usual es s → Clean es s →
    Inv none [] none none (run es s) ∧ (∀ a k, (a, some k) ∈ (run es s).ns → Entry (run es s) a k) ∧ (run es s).ns.map (·.1) = s.ns.map (·.1)
  | [], _, hi, h, _, _ => ⟨hi, h, rfl⟩
  | e :: es, s, hi, h, hu, hc => by
    obtain ⟨hf, hu⟩ := fair_of hi hu
    obtain ⟨g1, g2⟩ := entries_stepRaw hi hf hc h
    obtain ⟨g3, g4⟩ := entries_reap g1 (inv_stepRaw hi hf)
    obtain ⟨r1, r2, r3⟩ := entries_run es (s := step s e) (inv_step hi hf) g3 hu hc.2
    refine ⟨r1, r2, r3.trans ?_⟩
    show (reap (stepRaw s e)).ns.map (·.1) = _
    rw [g4, g2]

theorem served {s : Ctx} (hi : Inv none [] none none s) (h : ∀ a k, (a, some k) ∈ s.ns → Entry s a k) :
    (step s (.nsCheck false)).ns.map (·.1) = s.ns.map (·.1) ∧ ∀ a o, (a, o) ∈ (step s (.nsCheck false)).ns → Served (step s (.nsCheck false)) a o := by
  have hir : Inv none [] none none (stepRaw s (.nsCheck false)) := inv_stepRaw hi trivial
  obtain ⟨g1, g2, g3⟩ := nsLoop_entries false s.ns hi h
  have e : stepRaw s (.nsCheck false) = { (nsLoop false s.ns s).2 with ns := (nsLoop false s.ns s).1 } := by
    simp only [stepRaw]; rw [if_pos hi.running]
  have hns : (step s (.nsCheck false)).ns = (stepRaw s (.nsCheck false)).ns := (reap_frame hir).2.2.1
  refine ⟨by rw [hns, e]; exact g2, fun a o hm => ?_⟩
  rw [hns] at hm
  have hm' := hm
  rw [e] at hm'
  obtain ⟨k, rfl, e1, e2⟩ := g3 rfl a o hm'
  have hb : k < (stepRaw s (.nsCheck false)).nconn := by rw [e]; exact e1.bound
  obtain ⟨_, _, c3⟩ := rel_reap hm hb
  have hg : Going ((stepRaw s (.nsCheck false)).conns k) := by rw [e]; exact e2
  have ha : ((stepRaw s (.nsCheck false)).conns k).addr = a := by rw [e]; exact e1.addr
  have hg' := c3.going hg
  refine ⟨k, rfl, c3.2.1.trans ha, ?_⟩
  rcases hg'.2 with q | q
  · exact .inl ⟨hg'.1, q⟩
  · exact .inr ⟨hg'.1, q⟩

end Pvxs.ClientChan
