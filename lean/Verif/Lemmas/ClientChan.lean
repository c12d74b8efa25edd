import Verif.Model.ClientChan
/-
What holds after each event of Verif.Model.ClientChan.
-/
namespace Pvxs.ClientChan

/-- the connection is open, or will be when the timer expires -/
def Going (x : Conn) : Prop := x.alive = true ∧ (x.bev = true ∨ (x.ph = .holdoff ∧ x.timer = true))

/-- how a connection lists a channel -/
def Listed (rk : Option Nat) (c k : Nat) (s : Ctx) : Prop := match (s.chans c).st with
  | .searching => True
  | .connecting => c ∈ (s.conns k).pending ∧ ((s.conns k).ready = false ∨ rk = some k)
  | .creating => c ∈ (s.conns k).creating ∧ Msg.create k c ∈ s.sent
  | .active => ((s.chans c).sid, c) ∈ (s.conns k).active ∧ Msg.create k c ∈ s.sent

/-- `b`: the connection which is being closed, and `l` its channels which remain to be disconnected; `ex`: a channel which is about to be put
somewhere; `rk`: a connection which is about to create its channels. -/
structure Inv (b : Option Nat) (l : List Nat) (ex rk : Option Nat) (s : Ctx) : Prop where
  running : s.running = true
  fine : s.crashed = false
  cbound : ∀ c, (s.chans c).alive = true → c < s.nchan
  kbound : ∀ k, (s.conns k).alive = true → k < s.nconn
  srch : ∀ c, (s.chans c).alive = true → (s.chans c).st = .searching → c ∈ s.ring ∨ ex = some c
  conn : ∀ c, (s.chans c).alive = true → (s.chans c).st ≠ .searching →
    ∃ k, (s.chans c).conn = some k ∧ (s.conns k).alive = true ∧ ((Going (s.conns k) ∧ b ≠ some k) ∨ (b = some k ∧ c ∈ l)) ∧ Listed rk c k s
  pend : ∀ c k, c ∈ (s.conns k).pending → (s.chans c).alive = true ∧ (s.chans c).st = .connecting ∧ (s.chans c).conn = some k
  crea : ∀ c k, c ∈ (s.conns k).creating → (s.chans c).alive = true ∧ (s.chans c).st = .creating ∧ (s.chans c).conn = some k
  acti : ∀ i c k, (i, c) ∈ (s.conns k).active → (s.chans c).alive = true ∧ (s.chans c).st = .active ∧ (s.chans c).conn = some k ∧ (s.chans c).sid = i
  actU : ∀ i c c' k, (i, c) ∈ (s.conns k).active → (i, c') ∈ (s.conns k).active → c = c'
  pnd : ∀ k, (s.conns k).pending.Nodup
  opsN : ∀ c, (s.chans c).alive = true → (s.chans c).st ≠ .active → (s.chans c).ops = []
  opsA : ∀ c op i, (s.chans c).alive = true → (op, i) ∈ (s.chans c).ops →
    ∃ k, (s.chans c).conn = some k ∧ (i, op) ∈ (s.conns k).ops ∧ Msg.init k (s.chans c).sid i op ∈ s.sent
  opsK : ∀ i op k, (i, op) ∈ (s.conns k).ops → i < (s.conns k).nextIoid ∧
    ∃ c, (s.chans c).alive = true ∧ (s.chans c).st = .active ∧ (s.chans c).conn = some k ∧ (op, i) ∈ (s.chans c).ops
  opsU : ∀ c c' op op' i k, (s.chans c).alive = true → (s.chans c').alive = true → (s.chans c).conn = some k → (s.chans c').conn = some k →
    (op, i) ∈ (s.chans c).ops → (op', i) ∈ (s.chans c').ops → c = c' ∧ op = op'
  wait : ∀ c, (s.chans c).alive = true → (s.chans c).st = .active → (s.chans c).waiting = []
  addr : ∀ a k, (a, k) ∈ s.byAddr → (s.conns k).alive = true → Going (s.conns k) ∧ b ≠ some k ∧ (s.conns k).addr = a
  old : ∀ a k, (a, k) ∈ s.byAddr → k < s.nconn

theorem inv_init : Inv none [] none none {} := by
  constructor <;> simp

theorem mem_eraseCid {c x : Nat} {l : List Nat} : x ∈ eraseCid c l ↔ x ∈ l ∧ x ≠ c := by simp [eraseCid]

theorem mem_eraseKey {x : Nat} {p : Nat × Nat} {l : List (Nat × Nat)} : p ∈ eraseKey x l ↔ p ∈ l ∧ p.1 ≠ x := by simp [eraseKey]

theorem mem_insertKey {x y : Nat} {p : Nat × Nat} {l : List (Nat × Nat)} : p ∈ insertKey x y l ↔ p = (x, y) ∨ p ∈ l ∧ p.1 ≠ x := by
  simp [insertKey, mem_eraseKey]

/-- the state after a connection has created all its channels -/
def allCreated (k : Nat) (p : List Nat) (X : List Nat) (m : List Msg) (s : Ctx) : Ctx :=
  { s with chans := fun i => if i ∈ p then { s.chans i with st := .creating } else s.chans i,
           conns := fun i => if i = k then { s.conns k with creating := X } else s.conns i,
           sent := s.sent ++ m }

theorem fold_createOne (k : Nat) : ∀ (p : List Nat) (s : Ctx), p.Nodup →
    (∀ c ∈ p, (s.chans c).alive = true ∧ (s.chans c).st = .connecting) →
    ∃ X m, p.foldl (createOne k) s = allCreated k p X m s ∧ (∀ c, c ∈ X ↔ c ∈ p ∨ c ∈ (s.conns k).creating) ∧ (∀ c ∈ p, Msg.create k c ∈ m)
  | [], s, _, _ => by
    refine ⟨(s.conns k).creating, [], ?_, by simp, by simp⟩
    simp only [List.foldl_nil, allCreated, List.not_mem_nil, if_false, List.append_nil]
    have : (fun i => if i = k then s.conns k else s.conns i) = s.conns := by funext i; split <;> simp_all
    rw [this]
  | c :: p, s, hn, h => by
    have hc := h c (by simp)
    have hne : ∀ i ∈ p, i ≠ c := fun i hi e => (List.nodup_cons.1 hn).1 (e ▸ hi)
    have e1 : createOne k s c = allCreated k [c] (c :: eraseCid c (s.conns k).creating) [.create k c] s := by
      simp only [createOne, hc, and_self, if_true, Ctx.send, Ctx.setConn, Ctx.setChan, allCreated, List.mem_singleton]
      congr 1
      funext i; split <;> simp_all
    obtain ⟨X, m, hX, hm, hs⟩ := fold_createOne k p (createOne k s c) (List.nodup_cons.1 hn).2 (fun i hi => by
      rw [e1]; simp only [allCreated, List.mem_singleton, if_neg (hne i hi)]
      exact h i (by simp [hi]))
    refine ⟨X, [.create k c] ++ m, ?_, ?_, ?_⟩
    · rw [List.foldl_cons, hX, e1]
      simp only [allCreated, List.mem_singleton, List.mem_cons, List.append_assoc, if_true]
      congr 1
      · funext i
        by_cases hi : i ∈ p
        · have := hne i hi
          simp [hi, this]
        · by_cases hic : i = c <;> simp [hi, hic]
      · funext i; split <;> rfl
    · intro i
      rw [hm i, e1]
      simp only [allCreated, if_true, List.mem_cons, mem_eraseCid]
      by_cases hi : i = c <;> simp [hi]
    · intro i hi
      rcases List.mem_cons.1 hi with e | hi
      · subst e; simp
      · simp [hs i hi]

theorem Listed.mono {rk rk' : Option Nat} {c k : Nat} {s : Ctx} (h : Listed rk c k s) (hr : (s.conns k).ready = false ∨ rk = some k → (s.conns k).ready = false ∨ rk' = some k) :
    Listed rk' c k s := by
  unfold Listed at *
  split at h <;> simp_all

theorem inv_createChannels {b : Option Nat} {l : List Nat} {ex : Option Nat} {k : Nat} {s : Ctx} (h : Inv b l ex (some k) s) :
    Inv b l ex none (createChannels k s) := by
  unfold createChannels
  by_cases hr : (s.conns k).ready = false
  · rw [if_pos hr]
    refine { h with conn := fun c ha hs => ?_ }
    obtain ⟨k', h1, h2, h3, h4⟩ := h.conn c ha hs
    refine ⟨k', h1, h2, h3, h4.mono fun hh => Or.inl ?_⟩
    rcases hh with hh | hh
    · exact hh
    · cases hh; exact hr
  · rw [if_neg hr]
    obtain ⟨X, m, e, hX, hm⟩ := fold_createOne k (s.conns k).pending (s.setConn k fun x => { x with pending := [] }) (h.pnd k) (fun c hc => by
      have := h.pend c k hc; exact ⟨this.1, this.2.1⟩)
    rw [e]
    generalize hp : (s.conns k).pending = p at *
    have hP : ∀ c, c ∈ p → (s.chans c).alive = true ∧ (s.chans c).st = .connecting ∧ (s.chans c).conn = some k := fun c hc => h.pend c k (hp ▸ hc)
    have hX' : ∀ c, c ∈ X ↔ c ∈ p ∨ c ∈ (s.conns k).creating := fun c => by rw [hX c]; simp [Ctx.setConn]
    have gk : ∀ k', ((allCreated k p X m (s.setConn k fun x => { x with pending := [] })).conns k') =
        if k' = k then { s.conns k with pending := [], creating := X } else s.conns k' := by
      intro k'; simp only [allCreated, Ctx.setConn]; split <;> simp_all
    have gc : ∀ c, ((allCreated k p X m (s.setConn k fun x => { x with pending := [] })).chans c) =
        if c ∈ p then { s.chans c with st := .creating } else s.chans c := by
      intro c; simp only [allCreated, Ctx.setConn]
    have gs : (allCreated k p X m (s.setConn k fun x => { x with pending := [] })).sent = s.sent ++ m := rfl
    have galive : ∀ k', ((allCreated k p X m (s.setConn k fun x => { x with pending := [] })).conns k').alive = (s.conns k').alive := by
      intro k'; rw [gk]; split <;> simp_all
    have ggo : ∀ k', Going ((allCreated k p X m (s.setConn k fun x => { x with pending := [] })).conns k') ↔ Going (s.conns k') := by
      intro k'; rw [gk]; split <;> simp_all [Going]
    have gops : ∀ k', ((allCreated k p X m (s.setConn k fun x => { x with pending := [] })).conns k').ops = (s.conns k').ops := by
      intro k'; rw [gk]; split <;> simp_all
    have gnext : ∀ k', ((allCreated k p X m (s.setConn k fun x => { x with pending := [] })).conns k').nextIoid = (s.conns k').nextIoid := by
      intro k'; rw [gk]; split <;> simp_all
    have gadr : ∀ k', ((allCreated k p X m (s.setConn k fun x => { x with pending := [] })).conns k').addr = (s.conns k').addr := by
      intro k'; rw [gk]; split <;> simp_all
    have hac : ∀ c, ((allCreated k p X m (s.setConn k fun x => { x with pending := [] })).chans c).alive = (s.chans c).alive := by
      intro c; rw [gc]; split <;> rfl
    have hco : ∀ c, ((allCreated k p X m (s.setConn k fun x => { x with pending := [] })).chans c).conn = (s.chans c).conn := by
      intro c; rw [gc]; split <;> rfl
    have hop : ∀ c, ((allCreated k p X m (s.setConn k fun x => { x with pending := [] })).chans c).ops = (s.chans c).ops := by
      intro c; rw [gc]; split <;> rfl
    have hsid : ∀ c, ((allCreated k p X m (s.setConn k fun x => { x with pending := [] })).chans c).sid = (s.chans c).sid := by
      intro c; rw [gc]; split <;> rfl
    have hw : ∀ c, ((allCreated k p X m (s.setConn k fun x => { x with pending := [] })).chans c).waiting = (s.chans c).waiting := by
      intro c; rw [gc]; split <;> rfl
    have hst : ∀ c, ((allCreated k p X m (s.setConn k fun x => { x with pending := [] })).chans c).st = if c ∈ p then .creating else (s.chans c).st := by
      intro c; rw [gc]; split <;> rfl
    have hring : (allCreated k p X m (s.setConn k fun x => { x with pending := [] })).ring = s.ring := rfl
    have hba : (allCreated k p X m (s.setConn k fun x => { x with pending := [] })).byAddr = s.byAddr := rfl
    have h1 : (allCreated k p X m (s.setConn k fun x => { x with pending := [] })).running = s.running := rfl
    have h2 : (allCreated k p X m (s.setConn k fun x => { x with pending := [] })).crashed = s.crashed := rfl
    have h3 : (allCreated k p X m (s.setConn k fun x => { x with pending := [] })).nchan = s.nchan := rfl
    have h4 : (allCreated k p X m (s.setConn k fun x => { x with pending := [] })).nconn = s.nconn := rfl
    generalize allCreated k p X m (s.setConn k fun x => { x with pending := [] }) = t at *
    refine { running := h1 ▸ h.running, fine := h2 ▸ h.fine, cbound := ?_, kbound := ?_, srch := ?_, conn := ?_, pend := ?_, crea := ?_, acti := ?_, actU := ?_, pnd := ?_,
             opsN := ?_, opsA := ?_, opsK := ?_, opsU := ?_, wait := ?_, addr := ?_, old := fun a k' hm' => h4 ▸ h.old a k' (hba ▸ hm') }
    · intro c hc; rw [h3]; exact h.cbound c (hac c ▸ hc)
    · intro c hc; rw [h4]; exact h.kbound c (galive c ▸ hc)
    · intro c hc hs
      rw [hac] at hc; rw [hst] at hs
      split at hs
      · cases hs
      · rw [hring]; exact h.srch c hc hs
    · intro c hc hs
      rw [hac] at hc; rw [hst] at hs
      rw [hco]
      by_cases hcp : c ∈ p
      · obtain ⟨k', q1, q2, q3, q4⟩ := h.conn c hc (by rw [(hP c hcp).2.1]; exact fun e => (by cases e))
        have : k' = k := by have := (hP c hcp).2.2; rw [q1] at this; exact (Option.some.inj this)
        subst this
        refine ⟨k', q1, galive k' ▸ q2, ?_, ?_⟩
        · rw [ggo]; exact q3
        · unfold Listed
          rw [hst, if_pos hcp]
          refine ⟨?_, ?_⟩
          · rw [gk, if_pos rfl]; exact (hX' c).2 (.inl hcp)
          · rw [gs]; exact List.mem_append_right _ (hm c hcp)
      · rw [if_neg hcp] at hs
        obtain ⟨k', q1, q2, q3, q4⟩ := h.conn c hc hs
        refine ⟨k', q1, galive k' ▸ q2, ?_, ?_⟩
        · rw [ggo]; exact q3
        · unfold Listed at q4 ⊢
          rw [hst, if_neg hcp]
          split
          · trivial
          · rename_i e
            rw [e] at q4
            have hk : k' ≠ k := fun e' => hcp (by rw [← hp, ← e']; exact q4.1)
            rw [gk, if_neg hk]
            exact ⟨q4.1, q4.2.imp id (fun e => absurd (Option.some.inj e).symm hk)⟩
          · rename_i e
            rw [e] at q4
            refine ⟨?_, gs ▸ List.mem_append_left _ q4.2⟩
            rw [gk]; split
            · rename_i ek; subst ek; exact (hX' c).2 (.inr q4.1)
            · exact q4.1
          · rename_i e
            rw [e] at q4
            refine ⟨?_, gs ▸ List.mem_append_left _ q4.2⟩
            rw [gk, hsid]; split
            · rename_i ek; subst ek; exact q4.1
            · exact q4.1
    · intro c k' hc
      rw [gk] at hc
      split at hc
      · cases hc
      · rename_i hk
        obtain ⟨r1, r2, r3⟩ := h.pend c k' hc
        have : c ∉ p := fun hcp => hk (by have := (hP c hcp).2.2; rw [r3] at this; exact Option.some.inj this)
        rw [hac, hst, hco, if_neg this]; exact ⟨r1, r2, r3⟩
    · intro c k' hc
      rw [gk] at hc
      split at hc
      · rename_i hk; subst hk
        rw [hac, hst, hco]
        by_cases hcp : c ∈ p
        · rw [if_pos hcp]; exact ⟨(hP c hcp).1, rfl, (hP c hcp).2.2⟩
        · rw [if_neg hcp]
          exact h.crea c k' (((hX' c).1 hc).resolve_left hcp)
      · obtain ⟨r1, r2, r3⟩ := h.crea c k' hc
        have : c ∉ p := fun hcp => by have := (hP c hcp).2.1; rw [r2] at this; cases this
        rw [hac, hst, hco, if_neg this]; exact ⟨r1, r2, r3⟩
    · intro i c k' hc
      have hc' : (i, c) ∈ (s.conns k').active := by
        rw [gk] at hc; split at hc
        · rename_i hk; subst hk; exact hc
        · exact hc
      obtain ⟨r1, r2, r3, r4⟩ := h.acti i c k' hc'
      have : c ∉ p := fun hcp => by have := (hP c hcp).2.1; rw [r2] at this; cases this
      rw [hac, hst, hco, hsid, if_neg this]; exact ⟨r1, r2, r3, r4⟩
    · intro i c1 c2 k' q1 q2
      have ga : (t.conns k').active = (s.conns k').active := by rw [gk]; split <;> simp_all
      rw [ga] at q1 q2; exact h.actU i c1 c2 k' q1 q2
    · intro k'; rw [gk]; split
      · exact List.nodup_nil
      · exact h.pnd k'
    · intro c hc hs
      rw [hop]
      rw [hac] at hc; rw [hst] at hs
      by_cases hcp : c ∈ p
      · exact h.opsN c hc (by rw [(hP c hcp).2.1]; exact fun e => (by cases e))
      · exact h.opsN c hc (by rwa [if_neg hcp] at hs)
    · intro c op i hc ho
      rw [hac] at hc; rw [hop] at ho
      obtain ⟨k', q1, q2, q3⟩ := h.opsA c op i hc ho
      exact ⟨k', hco c ▸ q1, gops k' ▸ q2, by rw [gs, hsid]; exact List.mem_append_left _ q3⟩
    · intro i op k' ho
      rw [gops] at ho; rw [gnext]
      obtain ⟨r0, c, r1, r2, r3, r4⟩ := h.opsK i op k' ho
      have : c ∉ p := fun hcp => by have := (hP c hcp).2.1; rw [r2] at this; cases this
      exact ⟨r0, c, hac c ▸ r1, by rw [hst, if_neg this]; exact r2, hco c ▸ r3, hop c ▸ r4⟩
    · intro c c' op op' i k' q1 q2 q3 q4 q5 q6
      rw [hac] at q1 q2; rw [hco] at q3 q4; rw [hop] at q5 q6
      exact h.opsU c c' op op' i k' q1 q2 q3 q4 q5 q6
    · intro c hc hs
      rw [hac] at hc; rw [hst] at hs
      split at hs
      · cases hs
      · rw [hw]; exact h.wait c hc hs
    · intro a k' hm' ha
      rw [hba] at hm'; rw [galive] at ha
      rw [ggo, gadr]; exact h.addr a k' hm' ha

/-- what `detach` leaves of a connection -/
structure Less (c : Nat) (xs : List (Nat × Nat)) (x y : Conn) : Prop where
  alive : y.alive = x.alive
  addr : y.addr = x.addr
  going : Going y ↔ Going x
  ready : y.ready = x.ready
  next : y.nextIoid = x.nextIoid
  pend : ∀ c', c' ∈ y.pending ↔ c' ∈ x.pending ∧ c' ≠ c
  crea : ∀ c', c' ∈ y.creating ↔ c' ∈ x.creating ∧ c' ≠ c
  acti : ∀ p, p ∈ y.active ↔ p ∈ x.active ∧ p.2 ≠ c
  nodup : x.pending.Nodup → y.pending.Nodup
  ops : ∀ p, p ∈ y.ops ↔ p ∈ x.ops ∧ p.1 ∉ xs.map (·.2)

theorem nodup_eraseCid {c : Nat} {l : List Nat} (h : l.Nodup) : (eraseCid c l).Nodup := List.Pairwise.filter _ h

structure Detached (c : Nat) (s t : Ctx) : Prop where
  running : t.running = s.running
  fine : t.crashed = s.crashed
  nchan : t.nchan = s.nchan
  nconn : t.nconn = s.nconn
  ring : t.ring = s.ring
  byAddr : t.byAddr = s.byAddr
  sent : ∀ m ∈ s.sent, m ∈ t.sent
  other : ∀ c', c' ≠ c → t.chans c' = s.chans c'
  this : t.chans c = { s.chans c with conn := none, st := .searching, sid := 0xdeadbeef, ops := [], waiting := (s.chans c).waiting ++ (s.chans c).ops.map (·.1) }
  same : ∀ k, (s.chans c).conn ≠ some k → t.conns k = s.conns k
  less : ∀ k, (s.chans c).conn = some k → Less c (s.chans c).ops (s.conns k) (t.conns k)

theorem detached {b : Option Nat} {l : List Nat} {ex rk : Option Nat} {s : Ctx} (h : Inv b l ex rk s) (c : Nat) (ha : (s.chans c).alive = true) : Detached c s (detach c s) := by
  have hsrch : (s.chans c).conn = none → (s.chans c).st = .searching ∧ (s.chans c).ops = [] := by
    intro hn
    have : (s.chans c).st = .searching := Classical.byContradiction fun hs => by
      obtain ⟨k, q, _⟩ := h.conn c ha hs; rw [hn] at q; cases q
    exact ⟨this, h.opsN c ha (by rw [this]; exact fun e => (by cases e))⟩
  have hnp : (s.chans c).st ≠ .connecting → ∀ k, c ∉ (s.conns k).pending := fun hs k hc => hs (h.pend c k hc).2.1
  have hnc : (s.chans c).st ≠ .creating → ∀ k, c ∉ (s.conns k).creating := fun hs k hc => hs (h.crea c k hc).2.1
  have hna : (s.chans c).st ≠ .active → ∀ i k, (i, c) ∉ (s.conns k).active := fun hs i k hc => hs (h.acti i c k hc).2.1
  have hsent : (∀ k, (tellGone k c (s.chans c) s).chans = s.chans) ∧ (∀ k, (tellGone k c (s.chans c) s).conns = s.conns) ∧
      (∀ k, (tellGone k c (s.chans c) s).running = s.running) ∧ (∀ k, (tellGone k c (s.chans c) s).crashed = s.crashed) ∧
      (∀ k, (tellGone k c (s.chans c) s).nchan = s.nchan) ∧ (∀ k, (tellGone k c (s.chans c) s).nconn = s.nconn) ∧
      (∀ k, (tellGone k c (s.chans c) s).ring = s.ring) ∧ (∀ k, (tellGone k c (s.chans c) s).byAddr = s.byAddr) ∧
      (∀ k, ∀ x ∈ s.sent, x ∈ (tellGone k c (s.chans c) s).sent) := by
    refine ⟨?_, ?_, ?_, ?_, ?_, ?_, ?_, ?_, ?_⟩ <;> intro k <;> unfold tellGone <;> split <;> first | rfl | (intro x hx; first | exact hx | exact List.mem_append_left _ hx)
  unfold detach
  cases hk : (s.chans c).conn with
  | none =>
    simp only [if_pos (hsrch hk)]
    refine { running := rfl, fine := rfl, nchan := rfl, nconn := rfl, ring := rfl, byAddr := rfl, sent := fun m hm => hm, other := ?_, this := ?_, same := ?_, less := ?_ }
    · intro c' hc'; simp [Ctx.setChan, hc']
    · simp [Ctx.setChan, loose]
    · intro k _; rfl
    · intro k e; rw [hk] at e; cases e
  | some k =>
    obtain ⟨a1, a2, a3, a4, a5, a6, a7, a8, a9⟩ := hsent
    simp only []
    refine { running := a3 k, fine := a4 k, nchan := a5 k, nconn := a6 k, ring := a7 k, byAddr := a8 k, sent := fun m hm => a9 k m hm, other := ?_, this := ?_, same := ?_, less := ?_ }
    · intro c' hc'
      simp only [Ctx.setChan, Ctx.setConn, if_neg hc', a1]
    · simp only [Ctx.setChan, Ctx.setConn, if_true, a1, loose]
    · intro k' e
      have : k' ≠ k := fun e' => e (by rw [hk, e'])
      simp only [Ctx.setConn, if_neg this, a2, Ctx.setChan]
    · intro k' e
      rw [hk] at e
      have e' : k = k' := Option.some.inj e
      subst e'
      simp only [Ctx.setConn, if_true, a2, Ctx.setChan]
      refine { alive := rfl, addr := rfl, going := Iff.rfl, ready := rfl, next := rfl, pend := ?_, crea := ?_, acti := ?_, nodup := ?_, ops := fun p => by simp [forget] }
      · intro c'; simp only [forget]; split
        · exact mem_eraseCid
        · rename_i hst; exact ⟨fun hh => ⟨hh, fun e => hnp hst k (e ▸ hh)⟩, fun hh => hh.1⟩
      · intro c'; simp only [forget]; split
        · exact mem_eraseCid
        · rename_i hst; exact ⟨fun hh => ⟨hh, fun e => hnc hst k (e ▸ hh)⟩, fun hh => hh.1⟩
      · intro p; simp only [forget]; split
        · rename_i hst
          rw [mem_eraseKey]
          refine and_congr_right fun hp => not_congr ⟨fun e => ?_, fun e => ?_⟩
          · obtain ⟨k', q1, q2, q3, q4⟩ := h.conn c ha (by rw [hst]; exact fun e => (by cases e))
            rw [hk] at q1; cases q1
            unfold Listed at q4; rw [hst] at q4
            exact h.actU _ _ _ k (by rw [← e]; exact hp) q4.1
          · have := h.acti p.1 p.2 k hp
            rw [e] at this; exact this.2.2.2.symm
        · rename_i hst; exact ⟨fun hh => ⟨hh, fun e => hna hst p.1 k (e ▸ hh)⟩, fun hh => hh.1⟩
      · intro hn; simp only [forget]; split
        · exact nodup_eraseCid hn
        · exact hn

theorem inv_detach {b : Option Nat} {l : List Nat} {s : Ctx} {c : Nat} (h : Inv b (c :: l) none none s) (ha : (s.chans c).alive = true) :
    Inv b l (some c) none (detach c s) := by
  have d := detached h c ha
  generalize detach c s = t at *
  have hother : ∀ c', (t.chans c').alive = (s.chans c').alive := fun c' => by
    by_cases e : c' = c
    · subst e; rw [d.this]
    · rw [d.other c' e]
  have hk : ∀ k, (t.conns k).alive = (s.conns k).alive ∧ (t.conns k).addr = (s.conns k).addr ∧ (Going (t.conns k) ↔ Going (s.conns k)) ∧
      (t.conns k).ready = (s.conns k).ready ∧ (t.conns k).nextIoid = (s.conns k).nextIoid ∧ (t.conns k).pending.Nodup := by
    intro k
    by_cases e : (s.chans c).conn = some k
    · have := d.less k e; exact ⟨this.alive, this.addr, this.going, this.ready, this.next, this.nodup (h.pnd k)⟩
    · rw [d.same k e]; exact ⟨rfl, rfl, Iff.rfl, rfl, rfl, h.pnd k⟩
  have hp : ∀ c' k, c' ∈ (t.conns k).pending ↔ c' ∈ (s.conns k).pending ∧ c' ≠ c := by
    intro c' k
    by_cases e : (s.chans c).conn = some k
    · exact (d.less k e).pend c'
    · rw [d.same k e]; exact ⟨fun hh => ⟨hh, fun e' => e (e' ▸ (h.pend c' k hh).2.2)⟩, fun hh => hh.1⟩
  have hcr : ∀ c' k, c' ∈ (t.conns k).creating ↔ c' ∈ (s.conns k).creating ∧ c' ≠ c := by
    intro c' k
    by_cases e : (s.chans c).conn = some k
    · exact (d.less k e).crea c'
    · rw [d.same k e]; exact ⟨fun hh => ⟨hh, fun e' => e (e' ▸ (h.crea c' k hh).2.2)⟩, fun hh => hh.1⟩
  have hac : ∀ p k, p ∈ (t.conns k).active ↔ p ∈ (s.conns k).active ∧ p.2 ≠ c := by
    intro p k
    by_cases e : (s.chans c).conn = some k
    · exact (d.less k e).acti p
    · rw [d.same k e]; exact ⟨fun hh => ⟨hh, fun e' => e (by rw [← e']; exact (h.acti p.1 p.2 k hh).2.2.1)⟩, fun hh => hh.1⟩
  have hop : ∀ i op k, (i, op) ∈ (t.conns k).ops ↔ (i, op) ∈ (s.conns k).ops ∧ ((s.chans c).conn = some k → i ∉ (s.chans c).ops.map (·.2)) := by
    intro i op k
    by_cases e : (s.chans c).conn = some k
    · rw [(d.less k e).ops]; simp [e]
    · rw [d.same k e]; simp [e]
  have tc : (t.chans c).st = .searching ∧ (t.chans c).ops = [] ∧ (t.chans c).conn = none := by rw [d.this]; exact ⟨rfl, rfl, rfl⟩
  refine { running := d.running ▸ h.running, fine := d.fine ▸ h.fine, cbound := ?_, kbound := ?_, srch := ?_, conn := ?_, pend := ?_, crea := ?_, acti := ?_, actU := ?_,
           pnd := fun k => (hk k).2.2.2.2.2, opsN := ?_, opsA := ?_, opsK := ?_, opsU := ?_, wait := ?_, addr := ?_, old := fun a k hm => d.nconn ▸ h.old a k (d.byAddr ▸ hm) }
  · intro c' hc; rw [d.nchan]; exact h.cbound c' (hother c' ▸ hc)
  · intro k hc; rw [d.nconn]; exact h.kbound k ((hk k).1 ▸ hc)
  · intro c' hc hs
    by_cases e : c' = c
    · exact .inr (by rw [e])
    · rw [d.other c' e] at hc hs
      rw [d.ring]
      exact (h.srch c' hc hs).imp id (fun q => by cases q)
  · intro c' hc hs
    have e : c' ≠ c := fun e => hs (by rw [e]; exact tc.1)
    rw [d.other c' e] at hc hs ⊢
    obtain ⟨k, q1, q2, q3, q4⟩ := h.conn c' hc hs
    refine ⟨k, q1, (hk k).1 ▸ q2, ?_, ?_⟩
    · rw [(hk k).2.2.1]
      rcases q3 with q3 | q3
      · exact .inl q3
      · exact .inr ⟨q3.1, (List.mem_cons.1 q3.2).resolve_left e⟩
    · unfold Listed at q4 ⊢
      rw [d.other c' e]
      split
      · trivial
      · rename_i e'; rw [e'] at q4
        exact ⟨(hp c' k).2 ⟨q4.1, e⟩, (hk k).2.2.2.1 ▸ q4.2⟩
      · rename_i e'; rw [e'] at q4
        exact ⟨(hcr c' k).2 ⟨q4.1, e⟩, d.sent _ q4.2⟩
      · rename_i e'; rw [e'] at q4
        exact ⟨(hac _ k).2 ⟨q4.1, e⟩, d.sent _ q4.2⟩
  · intro c' k hc
    rw [hp] at hc; rw [d.other c' hc.2]; exact h.pend c' k hc.1
  · intro c' k hc
    rw [hcr] at hc; rw [d.other c' hc.2]; exact h.crea c' k hc.1
  · intro i c' k hc
    rw [hac] at hc; rw [d.other c' hc.2]; exact h.acti i c' k hc.1
  · intro i c1 c2 k q1 q2
    exact h.actU i c1 c2 k ((hac _ k).1 q1).1 ((hac _ k).1 q2).1
  · intro c' hc hs
    by_cases e : c' = c
    · rw [e]; exact tc.2.1
    · rw [d.other c' e] at hc hs ⊢; exact h.opsN c' hc hs
  · intro c' op i hc ho
    have e : c' ≠ c := fun e => by rw [e, tc.2.1] at ho; cases ho
    rw [d.other c' e] at hc ho ⊢
    obtain ⟨k, q1, q2, q3⟩ := h.opsA c' op i hc ho
    refine ⟨k, q1, (hop i op k).2 ⟨q2, fun hck hi => ?_⟩, d.sent _ q3⟩
    obtain ⟨⟨op', i'⟩, hm, rfl⟩ := List.mem_map.1 hi
    exact e (h.opsU c' c op op' _ k hc ha q1 hck ho hm).1
  · intro i op k ho
    rw [hop] at ho
    obtain ⟨r0, c', r1, r2, r3, r4⟩ := h.opsK i op k ho.1
    have e : c' ≠ c := fun e => ho.2 (e ▸ r3) (List.mem_map.2 ⟨(op, i), e ▸ r4, rfl⟩)
    refine ⟨(hk k).2.2.2.2.1 ▸ r0, c', ?_⟩
    rw [d.other c' e]; exact ⟨r1, r2, r3, r4⟩
  · intro c1 c2 op op' i k q1 q2 q3 q4 q5 q6
    have e1 : c1 ≠ c := fun e => by rw [e, tc.2.1] at q5; cases q5
    have e2 : c2 ≠ c := fun e => by rw [e, tc.2.1] at q6; cases q6
    rw [d.other c1 e1] at q1 q3 q5; rw [d.other c2 e2] at q2 q4 q6
    exact h.opsU c1 c2 op op' i k q1 q2 q3 q4 q5 q6
  · intro c' hc hs
    have e : c' ≠ c := fun e => by rw [e, tc.1] at hs; cases hs
    rw [d.other c' e] at hc hs ⊢; exact h.wait c' hc hs
  · intro a k hm hal
    rw [d.byAddr] at hm; rw [(hk k).1] at hal
    rw [(hk k).2.2.1, (hk k).2.1]; exact h.addr a k hm hal

theorem newConn_spec (a : Nat) (r : Bool) : (newConn a r).alive = true ∧ Going (newConn a r) ∧ (newConn a r).addr = a ∧ (newConn a r).pending = [] ∧
    (newConn a r).creating = [] ∧ (newConn a r).active = [] ∧ (newConn a r).ops = [] := by
  unfold newConn; split <;> simp [Going]

theorem known_spec {s : Ctx} {a k : Nat} (h : s.known a = some k) : (a, k) ∈ s.byAddr ∧ (s.conns k).alive = true := by
  unfold Ctx.known at h
  obtain ⟨p, hp, rfl⟩ := Option.map_eq_some_iff.1 h
  have h1 := List.mem_of_find?_eq_some hp
  have h2 := List.find?_some hp
  simp at h2
  exact ⟨by rw [← h2.1]; exact h1, h2.2⟩

theorem inv_build {b : Option Nat} {l : List Nat} {ex : Option Nat} {s t : Ctx} {a k : Nat} {r e : Bool} (h : Inv b l ex none s)
    (hb : ∀ k, b = some k → k < s.nconn) (he : build a r e s = (some k, t)) :
    Inv b l ex none t ∧ Going (t.conns k) ∧ b ≠ some k ∧ t.chans = s.chans ∧ s.nconn ≤ t.nconn ∧ t.nchan = s.nchan := by
  unfold build at he
  cases hk : s.known a with
  | some k' =>
    rw [hk] at he; cases he
    obtain ⟨h1, h2⟩ := known_spec hk
    have := h.addr a k h1 h2
    exact ⟨h, this.1, this.2.1, rfl, Nat.le_refl _, rfl⟩
  | none =>
    rw [hk] at he
    simp only [] at he
    split at he
    · cases he
    · cases he
      obtain ⟨n1, n2, n3, n4, n5, n6, n7⟩ := newConn_spec a r
      have hdead : (s.conns s.nconn).alive = false := by
        cases hd : (s.conns s.nconn).alive with
        | false => rfl
        | true => exact absurd (h.kbound _ hd) (Nat.lt_irrefl _)
      have hne : ∀ k, (s.conns k).alive = true → k ≠ s.nconn := fun k hk e => by rw [e, hdead] at hk; cases hk
      refine ⟨?_, ?_, fun e => ?_, rfl, Nat.le_succ _, rfl⟩
      · refine { h with kbound := ?_, conn := ?_, pend := ?_, crea := ?_, acti := ?_, actU := ?_, pnd := ?_, opsA := ?_, opsK := ?_, addr := ?_, old := ?_ }
        · intro k hk
          dsimp only at hk ⊢
          split at hk
          · omega
          · exact Nat.lt_succ_of_lt (h.kbound k hk)
        · intro c hc hs
          obtain ⟨k, q1, q2, q3, q4⟩ := h.conn c hc hs
          refine ⟨k, q1, ?_, ?_, ?_⟩
          · dsimp only; rw [if_neg (hne k q2)]; exact q2
          · dsimp only; rw [if_neg (hne k q2)]; exact q3
          · unfold Listed at q4 ⊢; dsimp only; rw [if_neg (hne k q2)]; exact q4
        · intro c k hc
          dsimp only at hc ⊢
          split at hc
          · rw [n4] at hc; cases hc
          · exact h.pend c k hc
        · intro c k hc
          dsimp only at hc ⊢
          split at hc
          · rw [n5] at hc; cases hc
          · exact h.crea c k hc
        · intro i c k hc
          dsimp only at hc ⊢
          split at hc
          · rw [n6] at hc; cases hc
          · exact h.acti i c k hc
        · intro i c c' k hc hc'
          dsimp only at hc hc'
          split at hc
          · rw [n6] at hc; cases hc
          · rename_i e; rw [if_neg e] at hc'; exact h.actU i c c' k hc hc'
        · intro k
          dsimp only
          split
          · rw [n4]; exact List.nodup_nil
          · exact h.pnd k
        · intro c op i hc ho
          obtain ⟨k, q1, q2, q3⟩ := h.opsA c op i hc ho
          refine ⟨k, q1, ?_, q3⟩
          have hs : (s.chans c).st ≠ .searching := fun e => by
            have := h.opsN c hc (by rw [e]; exact fun e => (by cases e))
            dsimp only at ho
            rw [this] at ho; cases ho
          obtain ⟨k', r1, r2, _⟩ := h.conn c hc hs
          rw [r1] at q1; cases q1
          dsimp only; rw [if_neg (hne _ r2)]; exact q2
        · intro i op k ho
          dsimp only at ho ⊢
          split at ho
          · rw [n7] at ho; cases ho
          · rename_i e; rw [if_neg e]; exact h.opsK i op k ho
        · intro a' k hm hal
          dsimp only at hm hal ⊢
          rw [mem_insertKey] at hm
          rcases hm with hm | hm
          · cases hm; rw [if_pos rfl]
            exact ⟨n2, fun e => absurd (hb _ e) (Nat.lt_irrefl _), n3⟩
          · split
            · rename_i e
              refine ⟨n2, fun e' => absurd (hb _ (by rw [e', e])) (Nat.lt_irrefl _), ?_⟩
              -- an old entry of a number not yet used
              exact absurd (h.old _ _ hm.1) (by omega)
            · rename_i e; rw [if_neg e] at hal; exact h.addr a' k hm.1 hal
        · intro a' k hm
          dsimp only at hm ⊢
          rw [mem_insertKey] at hm
          rcases hm with hm | hm
          · cases hm; exact Nat.lt_succ_self _
          · exact Nat.lt_succ_of_lt (h.old _ _ hm.1)
      · show Going (if s.nconn = s.nconn then _ else _)
        rw [if_pos rfl]; exact n2
      · exact absurd (hb _ e) (Nat.lt_irrefl _)

theorem inv_attach {b : Option Nat} {l : List Nat} {ex : Option Nat} {s : Ctx} {c k : Nat} (h : Inv b l ex none s) (hex : ex = none ∨ ex = some c)
    (ha : (s.chans c).alive = true) (hs : (s.chans c).st = .searching) (hg : Going (s.conns k)) (hb : b ≠ some k) : Inv b l none none (attach c k s) := by
  apply inv_createChannels
  have hops : (s.chans c).ops = [] := h.opsN c ha (by rw [hs]; exact fun e => (by cases e))
  have np : ∀ k, c ∉ (s.conns k).pending := fun k hc => by have := (h.pend c k hc).2.1; rw [hs] at this; cases this
  have nc : ∀ k, c ∉ (s.conns k).creating := fun k hc => by have := (h.crea c k hc).2.1; rw [hs] at this; cases this
  have na : ∀ i k, (i, c) ∉ (s.conns k).active := fun i k hc => by have := (h.acti i c k hc).2.1; rw [hs] at this; cases this
  have hch : ∀ c', ((s.setChan c fun x => { x with conn := some k, st := .connecting }).setConn k fun x => { x with pending := c :: eraseCid c x.pending }).chans c' =
    if c' = c then { s.chans c with conn := some k, st := .connecting } else s.chans c' := fun c' => rfl
  have hco : ∀ k', ((s.setChan c fun x => { x with conn := some k, st := .connecting }).setConn k fun x => { x with pending := c :: eraseCid c x.pending }).conns k' =
    if k' = k then { s.conns k with pending := c :: eraseCid c (s.conns k).pending } else s.conns k' := fun k' => rfl
  generalize ht : (s.setChan c fun x => { x with conn := some k, st := .connecting }).setConn k (fun x => { x with pending := c :: eraseCid c x.pending }) = t at *
  have e1 : t.running = s.running := by rw [← ht]; rfl
  have e2 : t.crashed = s.crashed := by rw [← ht]; rfl
  have e3 : t.nchan = s.nchan := by rw [← ht]; rfl
  have e4 : t.nconn = s.nconn := by rw [← ht]; rfl
  have e5 : t.ring = s.ring := by rw [← ht]; rfl
  have e6 : t.byAddr = s.byAddr := by rw [← ht]; rfl
  have e7 : t.sent = s.sent := by rw [← ht]; rfl
  have hal : ∀ c', (t.chans c').alive = (s.chans c').alive := fun c' => by rw [hch]; split <;> simp_all
  have hcon : ∀ k', (t.conns k').alive = (s.conns k').alive ∧ (t.conns k').addr = (s.conns k').addr ∧ (Going (t.conns k') ↔ Going (s.conns k')) ∧
      (t.conns k').ready = (s.conns k').ready ∧ (t.conns k').nextIoid = (s.conns k').nextIoid ∧ (t.conns k').creating = (s.conns k').creating ∧
      (t.conns k').active = (s.conns k').active ∧ (t.conns k').ops = (s.conns k').ops := by
    intro k'; rw [hco]; split
    · rename_i e; subst e; exact ⟨rfl, rfl, Iff.rfl, rfl, rfl, rfl, rfl, rfl⟩
    · exact ⟨rfl, rfl, Iff.rfl, rfl, rfl, rfl, rfl, rfl⟩
  have hpe : ∀ c' k', c' ∈ (t.conns k').pending ↔ (c' = c ∧ k' = k) ∨ c' ∈ (s.conns k').pending := by
    intro c' k'; rw [hco]; split
    · rename_i e; subst e
      simp only [List.mem_cons, mem_eraseCid, and_true]
      by_cases e : c' = c
      · subst e; simp
      · simp [e]
    · rename_i e; simp [e]
  have oth : ∀ c', c' ≠ c → t.chans c' = s.chans c' := fun c' e => by rw [hch, if_neg e]
  have thi : t.chans c = { s.chans c with conn := some k, st := .connecting } := by rw [hch, if_pos rfl]
  refine { running := e1 ▸ h.running, fine := e2 ▸ h.fine, cbound := ?_, kbound := ?_, srch := ?_, conn := ?_, pend := ?_, crea := ?_, acti := ?_, actU := ?_,
           pnd := ?_, opsN := ?_, opsA := ?_, opsK := ?_, opsU := ?_, wait := ?_, addr := ?_, old := ?_ }
  · intro c' hc; rw [e3]; exact h.cbound c' (hal c' ▸ hc)
  · intro k' hc; rw [e4]; exact h.kbound k' ((hcon k').1 ▸ hc)
  · intro c' hc hst
    by_cases e : c' = c
    · subst e; rw [thi] at hst; cases hst
    · rw [oth c' e] at hc hst
      rw [e5]
      refine Or.inl ((h.srch c' hc hst).resolve_right fun q => ?_)
      rcases hex with x | x
      · rw [x] at q; cases q
      · rw [x] at q; exact e (Option.some.inj q).symm
  · intro c' hc hst
    by_cases e : c' = c
    · subst e
      refine ⟨k, by rw [thi], (hcon k).1 ▸ hg.1, Or.inl ⟨(hcon k).2.2.1.2 hg, hb⟩, ?_⟩
      unfold Listed; rw [thi]
      exact ⟨(hpe _ _).2 (.inl ⟨rfl, rfl⟩), .inr rfl⟩
    · rw [oth c' e] at hc hst ⊢
      obtain ⟨k', q1, q2, q3, q4⟩ := h.conn c' hc hst
      refine ⟨k', q1, (hcon k').1 ▸ q2, ?_, ?_⟩
      · rw [(hcon k').2.2.1]; exact q3
      · unfold Listed at q4 ⊢
        rw [oth c' e]
        split
        · trivial
        · rename_i e'; rw [e'] at q4
          refine ⟨(hpe _ _).2 (.inr q4.1), .inl ?_⟩
          rw [(hcon k').2.2.2.1]; exact q4.2.resolve_right fun q => by cases q
        · rename_i e'; rw [e'] at q4
          rw [(hcon k').2.2.2.2.2.1, e7]; exact q4
        · rename_i e'; rw [e'] at q4
          rw [(hcon k').2.2.2.2.2.2.1, e7]; exact q4
  · intro c' k' hc
    rcases (hpe _ _).1 hc with ⟨rfl, rfl⟩ | hc
    · rw [thi]; exact ⟨ha, rfl, rfl⟩
    · have e : c' ≠ c := fun e => np k' (e ▸ hc)
      rw [oth c' e]; exact h.pend c' k' hc
  · intro c' k' hc
    rw [(hcon k').2.2.2.2.2.1] at hc
    have e : c' ≠ c := fun e => nc k' (e ▸ hc)
    rw [oth c' e]; exact h.crea c' k' hc
  · intro i c' k' hc
    rw [(hcon k').2.2.2.2.2.2.1] at hc
    have e : c' ≠ c := fun e => na i k' (e ▸ hc)
    rw [oth c' e]; exact h.acti i c' k' hc
  · intro i c1 c2 k' q1 q2
    rw [(hcon k').2.2.2.2.2.2.1] at q1 q2; exact h.actU i c1 c2 k' q1 q2
  · intro k'; rw [hco]; split
    · refine List.nodup_cons.2 ⟨fun hh => (mem_eraseCid.1 hh).2 rfl, nodup_eraseCid (h.pnd k)⟩
    · exact h.pnd k'
  · intro c' hc hst
    by_cases e : c' = c
    · subst e; rw [thi]; exact hops
    · rw [oth c' e] at hc hst ⊢; exact h.opsN c' hc hst
  · intro c' op i hc ho
    have e : c' ≠ c := fun e => by subst e; rw [thi] at ho; rw [hops] at ho; cases ho
    rw [oth c' e] at hc ho ⊢
    obtain ⟨k', q1, q2, q3⟩ := h.opsA c' op i hc ho
    exact ⟨k', q1, (hcon k').2.2.2.2.2.2.2 ▸ q2, e7 ▸ q3⟩
  · intro i op k' ho
    rw [(hcon k').2.2.2.2.2.2.2] at ho
    obtain ⟨r0, c', r1, r2, r3, r4⟩ := h.opsK i op k' ho
    have e : c' ≠ c := fun e => by rw [e, hs] at r2; cases r2
    refine ⟨(hcon k').2.2.2.2.1 ▸ r0, c', ?_⟩
    rw [oth c' e]; exact ⟨r1, r2, r3, r4⟩
  · intro c1 c2 op op' i k' q1 q2 q3 q4 q5 q6
    have e1 : c1 ≠ c := fun e => by subst e; rw [thi] at q5; rw [hops] at q5; cases q5
    have e2 : c2 ≠ c := fun e => by subst e; rw [thi] at q6; rw [hops] at q6; cases q6
    rw [oth c1 e1] at q1 q3 q5; rw [oth c2 e2] at q2 q4 q6
    exact h.opsU c1 c2 op op' i k' q1 q2 q3 q4 q5 q6
  · intro c' hc hst
    have e : c' ≠ c := fun e => by subst e; rw [thi] at hst; cases hst
    rw [oth c' e] at hc hst ⊢; exact h.wait c' hc hst
  · intro a k' hm hal'
    rw [e6] at hm; rw [(hcon k').1] at hal'
    rw [(hcon k').2.2.1, (hcon k').2.1]; exact h.addr a k' hm hal'
  · intro a k' hm; rw [e4]; exact h.old a k' (e6 ▸ hm)

/-- the operation waits, or has been started -/
def Owes (s : Ctx) (c op : Nat) : Prop := op ∈ (s.chans c).waiting ∨ op ∈ (s.chans c).ops.map (·.1)

/-- no channel is lost, and no operation -/
structure Keeps (s t : Ctx) : Prop where
  alive : ∀ c, (t.chans c).alive = (s.chans c).alive
  owes : ∀ c op, Owes s c op → Owes t c op
  nchan : t.nchan = s.nchan
  nconn : s.nconn ≤ t.nconn

theorem Keeps.rfl' (s : Ctx) : Keeps s s := ⟨fun _ => rfl, fun _ _ h => h, rfl, Nat.le_refl _⟩

theorem Keeps.trans {s t u : Ctx} (h : Keeps s t) (h' : Keeps t u) : Keeps s u :=
  ⟨fun c => (h'.alive c).trans (h.alive c), fun c op x => h'.owes c op (h.owes c op x), h'.nchan.trans h.nchan, Nat.le_trans h.nconn h'.nconn⟩

theorem keeps_setConn (s : Ctx) (k : Nat) (f : Conn → Conn) : Keeps s (s.setConn k f) := ⟨fun _ => rfl, fun _ _ h => h, rfl, Nat.le_refl _⟩

theorem keeps_send (s : Ctx) (m : Msg) : Keeps s (s.send m) := ⟨fun _ => rfl, fun _ _ h => h, rfl, Nat.le_refl _⟩

theorem keeps_setChan (s : Ctx) (c : Nat) (f : Chan → Chan) (ha : (f (s.chans c)).alive = (s.chans c).alive)
    (ho : ∀ op, op ∈ (s.chans c).waiting ∨ op ∈ (s.chans c).ops.map (·.1) → op ∈ (f (s.chans c)).waiting ∨ op ∈ (f (s.chans c)).ops.map (·.1)) : Keeps s (s.setChan c f) := by
  refine ⟨fun c' => ?_, fun c' op h => ?_, rfl, Nat.le_refl _⟩
  · simp only [Ctx.setChan]; split
    · rename_i e; subst e; exact ha
    · rfl
  · unfold Owes at *; simp only [Ctx.setChan]; split
    · rename_i e; subst e; exact ho op h
    · exact h

theorem keeps_foldl {α : Type} (f : Ctx → α → Ctx) (hf : ∀ s a, Keeps s (f s a)) : ∀ (l : List α) (s : Ctx), Keeps s (l.foldl f s)
  | [], s => Keeps.rfl' s
  | a :: l, s => (hf s a).trans (keeps_foldl f hf l (f s a))

theorem keeps_createOne (k : Nat) (s : Ctx) (c : Nat) : Keeps s (createOne k s c) := by
  unfold createOne; split
  · exact ((keeps_send s _).trans (keeps_setConn _ _ _)).trans (keeps_setChan _ _ _ rfl fun _ h => h)
  · exact Keeps.rfl' s

theorem keeps_createChannels (k : Nat) (s : Ctx) : Keeps s (createChannels k s) := by
  unfold createChannels; split
  · exact Keeps.rfl' s
  · exact (keeps_setConn _ _ _).trans (keeps_foldl _ (keeps_createOne k) _ _)

theorem keeps_attach (c k : Nat) (s : Ctx) : Keeps s (attach c k s) :=
  ((keeps_setChan s c (fun x => { x with conn := some k, st := .connecting }) rfl fun _ h => h).trans (keeps_setConn _ _ _)).trans (keeps_createChannels _ _)

theorem keeps_loose (c : Nat) (s : Ctx) : Keeps s (s.setChan c loose) :=
  keeps_setChan s c loose rfl fun op h => .inl (by
    simp only [loose, List.mem_append]; exact h)

theorem keeps_crash (s : Ctx) : Keeps s { s with crashed := true } := ⟨fun _ => rfl, fun _ _ h => h, rfl, Nat.le_refl _⟩

theorem keeps_detach (c : Nat) (s : Ctx) : Keeps s (detach c s) := by
  unfold detach
  split
  · split
    · exact keeps_loose c s
    · exact (keeps_loose c s).trans (keeps_crash _)
  · rename_i k _
    have : Keeps s (tellGone k c (s.chans c) s) := by
      unfold tellGone; split
      · exact keeps_send _ _
      · exact Keeps.rfl' s
    exact (this.trans (keeps_loose c _)).trans (keeps_setConn _ _ _)

theorem keeps_build {a k : Nat} {r e : Bool} {s t : Ctx} {o : Option Nat} (h : build a r e s = (o, t)) : Keeps s t := by
  unfold build at h
  split at h
  · cases h; exact Keeps.rfl' s
  · split at h
    · cases h; exact Keeps.rfl' s
    · cases h; exact ⟨fun _ => rfl, fun _ _ h => h, rfl, Nat.le_succ _⟩

theorem keeps_disconnect (s : Ctx) (c : Nat) : Keeps s (disconnect s c) := by
  unfold disconnect
  have hd := keeps_detach c s
  generalize detach c s = t at *
  simp only []
  split
  · exact hd.trans ⟨fun _ => rfl, fun _ _ h => h, rfl, Nat.le_refl _⟩
  · split
    · split
      · rename_i heq
        exact (hd.trans (keeps_build (k := 0) heq)).trans (keeps_attach _ _ _)
      · rename_i heq
        exact hd.trans (keeps_build (k := 0) heq)
    · exact hd

theorem keeps_cleanup (k : Nat) (s : Ctx) : Keeps s (cleanup k s) := by
  unfold cleanup
  have h1 : Keeps s (shut k s) := ⟨fun _ => rfl, fun _ _ h => h, rfl, Nat.le_refl _⟩
  refine (h1.trans (keeps_foldl disconnect keeps_disconnect (ofConn k (shut k s)) _)).trans ?_
  generalize (ofConn k (shut k s)).foldl disconnect (shut k s) = t
  unfold cleared
  simp only []
  split
  · exact keeps_setConn _ _ _
  · exact (keeps_crash _).trans (keeps_setConn _ _ _)

theorem keeps_reap (s : Ctx) : Keeps s (reap s) := by
  unfold reap
  refine keeps_foldl _ (fun s k => ?_) _ _
  unfold reapOne; split
  · exact (keeps_cleanup k s).trans (keeps_setConn _ _ _)
  · exact Keeps.rfl' s

theorem build_reconn (a : Nat) (s : Ctx) : ∃ k t, build a true false s = (some k, t) := by
  unfold build
  split
  · exact ⟨_, _, rfl⟩
  · exact ⟨_, _, rfl⟩

theorem inv_disconnect {b : Option Nat} {l : List Nat} {s : Ctx} {c : Nat} (h : Inv b (c :: l) none none s) (ha : (s.chans c).alive = true)
    (hb : ∀ k, b = some k → k < s.nconn) : Inv b l none none (disconnect s c) := by
  have hd := inv_detach h ha
  have dd := detached h c ha
  unfold disconnect
  generalize detach c s = t at *
  simp only []
  have hal : (t.chans c).alive = true := by rw [dd.this]; exact ha
  have hst : (t.chans c).st = .searching := by rw [dd.this]
  split
  · refine { hd with srch := fun c' hc hs => ?_ }
    rcases hd.srch c' hc hs with q | q
    · exact .inl (List.mem_append_left _ q)
    · cases q; exact .inl (List.mem_append_right _ (by simp))
  · rename_i a _
    rw [if_pos hd.running]
    obtain ⟨k, u, e⟩ := build_reconn a t
    rw [e]
    simp only []
    obtain ⟨i1, i2, i3, i4, i5, i6⟩ := inv_build hd (fun k hk => dd.nconn ▸ hb k hk) e
    exact inv_attach i1 (.inr rfl) (by rw [i4]; exact hal) (by rw [i4]; exact hst) i2 i3

theorem inv_fold {b : Option Nat} : ∀ {l : List Nat} {s : Ctx}, Inv b l none none s → (∀ c ∈ l, (s.chans c).alive = true) →
    (∀ k, b = some k → k < s.nconn) → Inv b [] none none (l.foldl disconnect s)
  | [], _, h, _, _ => h
  | c :: l, s, h, ha, hb => by
    have hk := keeps_disconnect s c
    show Inv b [] none none (l.foldl disconnect (disconnect s c))
    exact inv_fold (inv_disconnect h (ha c (by simp)) hb) (fun c' hc' => by rw [hk.alive]; exact ha c' (by simp [hc'])) (fun k e => Nat.lt_of_lt_of_le (hb k e) hk.nconn)

/-- nothing is left of a connection which is closed -/
theorem Inv.gone {k : Nat} {s : Ctx} (h : Inv (some k) [] none none s) :
    (s.conns k).pending = [] ∧ (s.conns k).creating = [] ∧ (s.conns k).active = [] ∧ (s.conns k).ops = [] := by
  have hno : ∀ c, (s.chans c).alive = true → (s.chans c).st ≠ .searching → (s.chans c).conn = some k → False := by
    intro c ha hs hc
    obtain ⟨k', q1, _, q3, _⟩ := h.conn c ha hs
    rw [hc] at q1; cases q1
    rcases q3 with q3 | q3
    · exact q3.2 rfl
    · cases q3.2
  refine ⟨?_, ?_, ?_, ?_⟩
  · refine List.eq_nil_iff_forall_not_mem.2 fun c hc => ?_
    have := h.pend c k hc
    exact hno c this.1 (by rw [this.2.1]; exact fun e => (by cases e)) this.2.2
  · refine List.eq_nil_iff_forall_not_mem.2 fun c hc => ?_
    have := h.crea c k hc
    exact hno c this.1 (by rw [this.2.1]; exact fun e => (by cases e)) this.2.2
  · refine List.eq_nil_iff_forall_not_mem.2 fun ⟨i, c⟩ hc => ?_
    have := h.acti i c k hc
    exact hno c this.1 (by rw [this.2.1]; exact fun e => (by cases e)) this.2.2.1
  · refine List.eq_nil_iff_forall_not_mem.2 fun ⟨i, op⟩ hc => ?_
    obtain ⟨_, c, r1, r2, r3, _⟩ := h.opsK i op k hc
    exact hno c r1 (by rw [r2]; exact fun e => (by cases e)) r3

theorem inv_shut {s : Ctx} {k : Nat} (h : Inv none [] none none s) (ha : (s.conns k).alive = true) : Inv (some k) (ofConn k (shut k s)) none none (shut k s) := by
  have hco : ∀ k', (shut k s).conns k' = if k' = k then { s.conns k with ready := false, bev := false, timer := false } else s.conns k' := fun k' => rfl
  have hof : ∀ c, c ∈ ofConn k (shut k s) ↔ c < s.nchan ∧ (s.chans c).alive = true ∧
      (c ∈ (s.conns k).pending ∨ c ∈ (s.conns k).creating ∨ ∃ i, (i, c) ∈ (s.conns k).active) := by
    intro c
    have e : (shut k s).conns k = { s.conns k with ready := false, bev := false, timer := false } := by rw [hco, if_pos rfl]
    simp only [ofConn, List.mem_filter, List.mem_range, e, List.any_eq_true, decide_eq_true_eq]
    have : (shut k s).chans = s.chans := rfl
    rw [this]
    have : (shut k s).nchan = s.nchan := rfl
    rw [this]
    simp
  have hsame : ∀ k', ((shut k s).conns k').alive = (s.conns k').alive ∧ ((shut k s).conns k').addr = (s.conns k').addr ∧
      ((shut k s).conns k').pending = (s.conns k').pending ∧ ((shut k s).conns k').creating = (s.conns k').creating ∧
      ((shut k s).conns k').active = (s.conns k').active ∧ ((shut k s).conns k').ops = (s.conns k').ops ∧ ((shut k s).conns k').nextIoid = (s.conns k').nextIoid ∧
      ((s.conns k').ready = false → ((shut k s).conns k').ready = false) := by
    intro k'; rw [hco]; split
    · rename_i e; subst e; exact ⟨rfl, rfl, rfl, rfl, rfl, rfl, rfl, fun _ => rfl⟩
    · exact ⟨rfl, rfl, rfl, rfl, rfl, rfl, rfl, fun h => h⟩
  have e1 : (shut k s).chans = s.chans := rfl
  have e2 : (shut k s).nchan = s.nchan := rfl
  have e3 : (shut k s).nconn = s.nconn := rfl
  have e4 : (shut k s).ring = s.ring := rfl
  have e5 : (shut k s).sent = s.sent := rfl
  have e6 : (shut k s).running = s.running := rfl
  have e7 : (shut k s).crashed = s.crashed := rfl
  have e8 : (shut k s).byAddr = eraseKey (s.conns k).addr s.byAddr := rfl
  generalize ofConn k (shut k s) = l at *
  generalize shut k s = t at *
  refine { running := e6 ▸ h.running, fine := e7 ▸ h.fine, cbound := ?_, kbound := ?_, srch := ?_, conn := ?_, pend := ?_, crea := ?_, acti := ?_, actU := ?_,
           pnd := ?_, opsN := ?_, opsA := ?_, opsK := ?_, opsU := ?_, wait := ?_, addr := ?_, old := ?_ }
  · intro c hc; rw [e2]; exact h.cbound c (by rw [← e1]; exact hc)
  · intro k' hc; rw [e3]; exact h.kbound k' ((hsame k').1 ▸ hc)
  · rw [e1, e4]; exact h.srch
  · rw [e1]
    intro c hc hs
    obtain ⟨k', q1, q2, q3, q4⟩ := h.conn c hc hs
    refine ⟨k', q1, (hsame k').1 ▸ q2, ?_, ?_⟩
    · by_cases e : k' = k
      · subst e
        refine .inr ⟨rfl, (hof c).2 ⟨h.cbound c hc, hc, ?_⟩⟩
        unfold Listed at q4
        split at q4
        · rename_i e; exact absurd e hs
        · exact .inl q4.1
        · exact .inr (.inl q4.1)
        · exact .inr (.inr ⟨_, q4.1⟩)
      · refine .inl ⟨?_, fun e' => e (Option.some.inj e').symm⟩
        rw [hco, if_neg e]
        rcases q3 with q3 | q3
        · exact q3.1
        · cases q3.1
    · unfold Listed at q4 ⊢
      rw [e1, (hsame k').2.2.1, (hsame k').2.2.2.1, (hsame k').2.2.2.2.1, e5]
      split
      · trivial
      · rename_i e'; rw [e'] at q4
        exact ⟨q4.1, .inl ((hsame k').2.2.2.2.2.2.2 (q4.2.resolve_right fun q => by cases q))⟩
      · rename_i e'; rw [e'] at q4; exact q4
      · rename_i e'; rw [e'] at q4; exact q4
  · rw [e1]; intro c k' hc; exact h.pend c k' ((hsame k').2.2.1 ▸ hc)
  · rw [e1]; intro c k' hc; exact h.crea c k' ((hsame k').2.2.2.1 ▸ hc)
  · rw [e1]; intro i c k' hc; exact h.acti i c k' ((hsame k').2.2.2.2.1 ▸ hc)
  · intro i c1 c2 k' q1 q2
    rw [(hsame k').2.2.2.2.1] at q1 q2; exact h.actU i c1 c2 k' q1 q2
  · intro k'; rw [(hsame k').2.2.1]; exact h.pnd k'
  · rw [e1]; exact h.opsN
  · rw [e1, e5]; intro c op i hc ho
    obtain ⟨k', q1, q2, q3⟩ := h.opsA c op i hc ho
    exact ⟨k', q1, (hsame k').2.2.2.2.2.1 ▸ q2, q3⟩
  · rw [e1]; intro i op k' ho
    rw [(hsame k').2.2.2.2.2.1] at ho; rw [(hsame k').2.2.2.2.2.2.1]
    exact h.opsK i op k' ho
  · rw [e1]; exact h.opsU
  · rw [e1]; exact h.wait
  · intro a k' hm hal
    rw [e8, mem_eraseKey] at hm; rw [(hsame k').1] at hal
    obtain ⟨g1, _, g3⟩ := h.addr a k' hm.1 hal
    have e : k' ≠ k := fun e => hm.2 (by rw [← e, g3])
    refine ⟨?_, fun e' => e (Option.some.inj e').symm, (hsame k').2.1.trans g3⟩
    rw [hco, if_neg e]; exact g1
  · intro a k' hm
    rw [e8, mem_eraseKey] at hm; rw [e3]; exact h.old a k' hm.1

/-- a connection is closed: each of its channels is found again, or waits for a new connection -/
theorem inv_cleanup {s : Ctx} {k : Nat} (h : Inv none [] none none s) (ha : (s.conns k).alive = true) :
    Inv (some k) [] none none (cleanup k s) := by
  have hb : k < (shut k s).nconn := h.kbound k ha
  have hf := inv_fold (inv_shut h ha) (fun c hc => by
    simp only [ofConn, List.mem_filter, decide_eq_true_eq] at hc; exact hc.2.1) (fun k' e => by cases e; exact hb)
  unfold cleanup
  generalize (ofConn k (shut k s)).foldl disconnect (shut k s) = t at *
  obtain ⟨g1, g2, g3, g4⟩ := hf.gone
  have : cleared k t = t := by
    unfold cleared
    rw [if_pos g4]
    have : (fun i => if i = k then { t.conns k with pending := [], active := [] } else t.conns i) = t.conns := by
      funext i; split
      · rename_i e; subst e
        calc _ = { t.conns i with pending := (t.conns i).pending, active := (t.conns i).active } := by rw [g1, g3]
          _ = t.conns i := rfl
      · rfl
    simp only [Ctx.setConn, this]
  rw [this]; exact hf

/-- which is all there is to know when its object remains -/
theorem Inv.close {s : Ctx} {b : Option Nat} (h : Inv b [] none none s) : Inv none [] none none s := by
  refine { h with conn := fun c ha hs => ?_, addr := fun a k hm hal => ?_ }
  · obtain ⟨k, q1, q2, q3, q4⟩ := h.conn c ha hs
    refine ⟨k, q1, q2, .inl ?_, q4⟩
    rcases q3 with q3 | q3
    · exact ⟨q3.1, fun e => (by cases e)⟩
    · cases q3.2
  · obtain ⟨g1, g2, g3⟩ := h.addr a k hm hal
    exact ⟨g1, fun e => (by cases e), g3⟩

theorem used_spec {s : Ctx} {k c : Nat} (hu : used s k = false) (hc : c < s.nchan) (ha : (s.chans c).alive = true) : (s.chans c).conn ≠ some k := by
  intro e
  simp only [used, Bool.or_eq_false_iff] at hu
  have h1 : (List.range s.nchan).any (fun c => (s.chans c).alive && (s.chans c).conn == some k) = true :=
    List.any_eq_true.2 ⟨c, List.mem_range.2 hc, by simp [ha, e]⟩
  rw [h1] at hu; cases hu.1

theorem ofConn_nil {s : Ctx} {k : Nat} (h : Inv none [] none none s) (hu : used s k = false) : ofConn k (shut k s) = [] := by
  refine List.eq_nil_iff_forall_not_mem.2 fun c hc => ?_
  have hl : (s.chans c).alive = true ∧ (s.chans c).conn = some k := by
    simp only [ofConn, List.mem_filter, decide_eq_true_eq] at hc
    obtain ⟨_, ha, hh⟩ := hc
    have e : (shut k s).conns k = { s.conns k with ready := false, bev := false, timer := false } := by simp [shut, Ctx.setConn]
    rw [e] at hh
    rcases hh with hh | hh | hh
    · have := h.pend c k hh; exact ⟨this.1, this.2.2⟩
    · have := h.crea c k hh; exact ⟨this.1, this.2.2⟩
    · obtain ⟨p, hp, e⟩ := List.any_eq_true.1 hh
      have e : p.2 = c := of_decide_eq_true e
      have := h.acti p.1 p.2 k hp
      rw [e] at this; exact ⟨this.1, this.2.2.1⟩
  exact used_spec hu (h.cbound c hl.1) hl.1 hl.2

theorem inv_reapOne {s : Ctx} (k : Nat) (h : Inv none [] none none s) : Inv none [] none none (reapOne s k) := by
  unfold reapOne
  split
  · rename_i hc
    have hi := inv_cleanup h hc.1
    have hg := hi.gone
    generalize cleanup k s = t at *
    have hch : (t.setConn k fun x => { x with alive := false }).chans = t.chans := rfl
    have hco : ∀ k', (t.setConn k fun x => { x with alive := false }).conns k' = if k' = k then { t.conns k with alive := false } else t.conns k' := fun _ => rfl
    refine { hi with kbound := ?_, conn := ?_, pend := ?_, crea := ?_, acti := ?_, actU := ?_, pnd := ?_, opsA := ?_, opsK := ?_, addr := ?_ }
    · intro k' hk'; rw [hco] at hk'; split at hk'
      · cases hk'
      · exact hi.kbound k' hk'
    · intro c ha hs
      obtain ⟨k', q1, q2, q3, q4⟩ := hi.conn c ha hs
      have q3' : Going (t.conns k') ∧ some k ≠ some k' := by
        rcases q3 with q3 | q3
        · exact q3
        · cases q3.2
      have e : k' ≠ k := fun e => q3'.2 (by rw [e])
      refine ⟨k', q1, ?_, ?_, ?_⟩
      · rw [hco, if_neg e]; exact q2
      · rw [hco, if_neg e]; exact .inl ⟨q3'.1, fun e => (by cases e)⟩
      · unfold Listed at q4 ⊢; rw [hco, if_neg e]; exact q4
    · intro c k' hc; rw [hco] at hc; split at hc
      · rename_i e; rw [hg.1] at hc; cases hc
      · exact hi.pend c k' hc
    · intro c k' hc; rw [hco] at hc; split at hc
      · rename_i e; rw [hg.2.1] at hc; cases hc
      · exact hi.crea c k' hc
    · intro i c k' hc; rw [hco] at hc; split at hc
      · rename_i e; rw [hg.2.2.1] at hc; cases hc
      · exact hi.acti i c k' hc
    · intro i c c' k' hc hc'; rw [hco] at hc hc'; split at hc
      · rename_i e; rw [hg.2.2.1] at hc; cases hc
      · rename_i e; rw [if_neg e] at hc'; exact hi.actU i c c' k' hc hc'
    · intro k'; rw [hco]; split
      · rw [hg.1]; exact List.nodup_nil
      · exact hi.pnd k'
    · intro c op i ha ho
      obtain ⟨k', q1, q2, q3⟩ := hi.opsA c op i ha ho
      refine ⟨k', q1, ?_, q3⟩
      rw [hco]; split
      · rename_i e; subst e; exact q2
      · exact q2
    · intro i op k' ho; rw [hco] at ho; split at ho
      · rw [hg.2.2.2] at ho; cases ho
      · rename_i e; rw [hco, if_neg e]; exact hi.opsK i op k' ho
    · intro a k' hm hal
      rw [hco] at hal ⊢
      split at hal
      · cases hal
      · rename_i e; rw [if_neg e]
        obtain ⟨g1, g2, g3⟩ := hi.addr a k' hm hal
        exact ⟨g1, fun e => (by cases e), g3⟩
  · exact h

theorem inv_reap {s : Ctx} (h : Inv none [] none none s) : Inv none [] none none (reap s) := by
  unfold reap
  generalize List.range s.nconn = l
  induction l generalizing s with
  | nil => exact h
  | cons k l ih => exact ih (inv_reapOne k h)

theorem Inv.more {s : Ctx} {ex rk : Option Nat} (h : Inv none [] ex rk s) (l : List Nat) : Inv none l ex rk s := by
  refine { h with conn := fun c ha hs => ?_ }
  obtain ⟨k, q1, q2, q3, q4⟩ := h.conn c ha hs
  exact ⟨k, q1, q2, q3.imp id (fun q => by cases q.1), q4⟩

/-- a change of a connection which concerns no channel -/
theorem inv_tweak {s : Ctx} {k : Nat} {f : Conn → Conn} {rk : Option Nat} (h : Inv none [] none none s) (h1 : (f (s.conns k)).alive = (s.conns k).alive)
    (h2 : (f (s.conns k)).addr = (s.conns k).addr) (h3 : (f (s.conns k)).pending = (s.conns k).pending) (h4 : (f (s.conns k)).creating = (s.conns k).creating)
    (h5 : (f (s.conns k)).active = (s.conns k).active) (h6 : (f (s.conns k)).ops = (s.conns k).ops) (h7 : (f (s.conns k)).nextIoid = (s.conns k).nextIoid)
    (h8 : Going (s.conns k) → Going (f (s.conns k))) (h9 : (f (s.conns k)).ready = (s.conns k).ready ∨ rk = some k) :
    Inv none [] none rk (s.setConn k f) := by
  have hco : ∀ k', ((s.setConn k f).conns k').alive = (s.conns k').alive ∧ ((s.setConn k f).conns k').addr = (s.conns k').addr ∧
      ((s.setConn k f).conns k').pending = (s.conns k').pending ∧ ((s.setConn k f).conns k').creating = (s.conns k').creating ∧
      ((s.setConn k f).conns k').active = (s.conns k').active ∧ ((s.setConn k f).conns k').ops = (s.conns k').ops ∧
      ((s.setConn k f).conns k').nextIoid = (s.conns k').nextIoid ∧ (Going (s.conns k') → Going ((s.setConn k f).conns k')) ∧
      ((s.conns k').ready = false → ((s.setConn k f).conns k').ready = false ∨ rk = some k') := by
    intro k'
    simp only [Ctx.setConn]
    split
    · rename_i e; subst e
      exact ⟨h1, h2, h3, h4, h5, h6, h7, h8, fun hr => h9.imp (fun e => e.trans hr) id⟩
    · exact ⟨rfl, rfl, rfl, rfl, rfl, rfl, rfl, fun h => h, fun h => .inl h⟩
  have e1 : (s.setConn k f).chans = s.chans := rfl
  have e2 : (s.setConn k f).nchan = s.nchan := rfl
  have e3 : (s.setConn k f).nconn = s.nconn := rfl
  have e4 : (s.setConn k f).ring = s.ring := rfl
  have e5 : (s.setConn k f).sent = s.sent := rfl
  have e6 : (s.setConn k f).running = s.running := rfl
  have e7 : (s.setConn k f).crashed = s.crashed := rfl
  have e8 : (s.setConn k f).byAddr = s.byAddr := rfl
  generalize s.setConn k f = t at *
  refine { running := e6 ▸ h.running, fine := e7 ▸ h.fine, cbound := by rw [e1, e2]; exact h.cbound, kbound := ?_, srch := by rw [e1, e4]; exact h.srch,
           conn := ?_, pend := ?_, crea := ?_, acti := ?_, actU := ?_,
           pnd := ?_, opsN := by rw [e1]; exact h.opsN, opsA := ?_, opsK := ?_, opsU := by rw [e1]; exact h.opsU, wait := by rw [e1]; exact h.wait, addr := ?_,
           old := by rw [e8, e3]; exact h.old }
  · intro k' hk; rw [e3]; exact h.kbound k' ((hco k').1 ▸ hk)
  · rw [e1]; intro c ha hs
    obtain ⟨k', q1, q2, q3, q4⟩ := h.conn c ha hs
    refine ⟨k', q1, (hco k').1 ▸ q2, ?_, ?_⟩
    · rcases q3 with q3 | q3
      · exact .inl ⟨(hco k').2.2.2.2.2.2.2.1 q3.1, q3.2⟩
      · exact .inr q3
    · unfold Listed at q4 ⊢
      rw [e1, (hco k').2.2.1, (hco k').2.2.2.1, (hco k').2.2.2.2.1, e5]
      split
      · trivial
      · rename_i e; rw [e] at q4; exact ⟨q4.1, (hco k').2.2.2.2.2.2.2.2 (q4.2.resolve_right fun q => by cases q)⟩
      · rename_i e; rw [e] at q4; exact q4
      · rename_i e; rw [e] at q4; exact q4
  · rw [e1]; intro c k' hc; exact h.pend c k' ((hco k').2.2.1 ▸ hc)
  · rw [e1]; intro c k' hc; exact h.crea c k' ((hco k').2.2.2.1 ▸ hc)
  · rw [e1]; intro i c k' hc; exact h.acti i c k' ((hco k').2.2.2.2.1 ▸ hc)
  · intro i c1 c2 k' q1 q2
    rw [(hco k').2.2.2.2.1] at q1 q2; exact h.actU i c1 c2 k' q1 q2
  · intro k'; rw [(hco k').2.2.1]; exact h.pnd k'
  · rw [e1, e5]; intro c op i hc ho
    obtain ⟨k', q1, q2, q3⟩ := h.opsA c op i hc ho
    exact ⟨k', q1, (hco k').2.2.2.2.2.1 ▸ q2, q3⟩
  · rw [e1]; intro i op k' ho
    rw [(hco k').2.2.2.2.2.1] at ho; rw [(hco k').2.2.2.2.2.2.1]
    exact h.opsK i op k' ho
  · intro a k' hm hal
    rw [e8] at hm; rw [(hco k').1] at hal
    obtain ⟨g1, g2, g3⟩ := h.addr a k' hm hal
    exact ⟨(hco k').2.2.2.2.2.2.2.1 g1, g2, (hco k').2.1.trans g3⟩

/-- a change of a channel which concerns no connection -/
theorem inv_chan {s : Ctx} {c : Nat} {f : Chan → Chan} (h : Inv none [] none none s) (h1 : (f (s.chans c)).alive = (s.chans c).alive)
    (h2 : (f (s.chans c)).st = (s.chans c).st) (h3 : (f (s.chans c)).conn = (s.chans c).conn) (h4 : (f (s.chans c)).sid = (s.chans c).sid)
    (h5 : (f (s.chans c)).ops = (s.chans c).ops) (h6 : (s.chans c).alive = true → (s.chans c).st = .active → (f (s.chans c)).waiting = []) :
    Inv none [] none none (s.setChan c f) := by
  have hc : ∀ c', ((s.setChan c f).chans c').alive = (s.chans c').alive ∧ ((s.setChan c f).chans c').st = (s.chans c').st ∧
      ((s.setChan c f).chans c').conn = (s.chans c').conn ∧ ((s.setChan c f).chans c').sid = (s.chans c').sid ∧ ((s.setChan c f).chans c').ops = (s.chans c').ops ∧
      ((s.chans c').alive = true → (s.chans c').st = .active → ((s.setChan c f).chans c').waiting = []) := by
    intro c'
    simp only [Ctx.setChan]
    split
    · rename_i e; subst e; exact ⟨h1, h2, h3, h4, h5, h6⟩
    · exact ⟨rfl, rfl, rfl, rfl, rfl, fun a b => h.wait c' a b⟩
  have e1 : (s.setChan c f).conns = s.conns := rfl
  have e2 : (s.setChan c f).nchan = s.nchan := rfl
  have e3 : (s.setChan c f).nconn = s.nconn := rfl
  have e4 : (s.setChan c f).ring = s.ring := rfl
  have e5 : (s.setChan c f).sent = s.sent := rfl
  have e6 : (s.setChan c f).running = s.running := rfl
  have e7 : (s.setChan c f).crashed = s.crashed := rfl
  have e8 : (s.setChan c f).byAddr = s.byAddr := rfl
  generalize s.setChan c f = t at *
  refine { running := e6 ▸ h.running, fine := e7 ▸ h.fine, cbound := ?_, kbound := by rw [e1, e3]; exact h.kbound, srch := ?_, conn := ?_, pend := ?_, crea := ?_, acti := ?_,
           actU := by rw [e1]; exact h.actU, pnd := by rw [e1]; exact h.pnd, opsN := ?_, opsA := ?_, opsK := ?_, opsU := ?_, wait := ?_,
           addr := by rw [e8, e1]; exact h.addr, old := by rw [e8, e3]; exact h.old }
  · intro c' ha; rw [e2]; exact h.cbound c' ((hc c').1 ▸ ha)
  · intro c' ha hs
    rw [(hc c').1] at ha; rw [(hc c').2.1] at hs; rw [e4]; exact h.srch c' ha hs
  · intro c' ha hs
    rw [(hc c').1] at ha; rw [(hc c').2.1] at hs; rw [(hc c').2.2.1, e1]
    obtain ⟨k, q1, q2, q3, q4⟩ := h.conn c' ha hs
    refine ⟨k, q1, q2, q3, ?_⟩
    unfold Listed at q4 ⊢; rw [(hc c').2.1, (hc c').2.2.2.1, e1, e5]; exact q4
  · rw [e1]; intro c' k hh; rw [(hc c').1, (hc c').2.1, (hc c').2.2.1]; exact h.pend c' k hh
  · rw [e1]; intro c' k hh; rw [(hc c').1, (hc c').2.1, (hc c').2.2.1]; exact h.crea c' k hh
  · rw [e1]; intro i c' k hh; rw [(hc c').1, (hc c').2.1, (hc c').2.2.1, (hc c').2.2.2.1]; exact h.acti i c' k hh
  · intro c' ha hs
    rw [(hc c').1] at ha; rw [(hc c').2.1] at hs; rw [(hc c').2.2.2.2.1]; exact h.opsN c' ha hs
  · intro c' op i ha ho
    rw [(hc c').1] at ha; rw [(hc c').2.2.2.2.1] at ho; rw [(hc c').2.2.1, (hc c').2.2.2.1, e1, e5]
    exact h.opsA c' op i ha ho
  · rw [e1]; intro i op k ho
    obtain ⟨r0, c', r1, r2, r3, r4⟩ := h.opsK i op k ho
    exact ⟨r0, c', (hc c').1 ▸ r1, (hc c').2.1 ▸ r2, (hc c').2.2.1 ▸ r3, (hc c').2.2.2.2.1 ▸ r4⟩
  · intro c1 c2 op op' i k q1 q2 q3 q4 q5 q6
    rw [(hc c1).1] at q1; rw [(hc c2).1] at q2; rw [(hc c1).2.2.1] at q3; rw [(hc c2).2.2.1] at q4
    rw [(hc c1).2.2.2.2.1] at q5; rw [(hc c2).2.2.2.2.1] at q6
    exact h.opsU c1 c2 op op' i k q1 q2 q3 q4 q5 q6
  · intro c' ha hs
    rw [(hc c').1] at ha; rw [(hc c').2.1] at hs; exact (hc c').2.2.2.2.2 ha hs

theorem inv_startOne {s : Ctx} {c k op : Nat} (h : Inv none [] none none s) (ha : (s.chans c).alive = true) (hs : (s.chans c).st = .active)
    (hk : (s.chans c).conn = some k) : Inv none [] none none (startOne c k s op) ∧ ((startOne c k s op).chans c).alive = true ∧
    ((startOne c k s op).chans c).st = .active ∧ ((startOne c k s op).chans c).conn = some k := by
  have hco : ∀ k', (startOne c k s op).conns k' = if k' = k then { s.conns k with ops := (s.conns k).ops ++ [((s.conns k).nextIoid, op)], nextIoid := (s.conns k).nextIoid + 1 }
      else s.conns k' := fun _ => rfl
  have hch : ∀ c', (startOne c k s op).chans c' = if c' = c then { s.chans c with ops := (s.chans c).ops ++ [(op, (s.conns k).nextIoid)] } else s.chans c' := fun _ => rfl
  have e2 : (startOne c k s op).nchan = s.nchan := rfl
  have e3 : (startOne c k s op).nconn = s.nconn := rfl
  have e4 : (startOne c k s op).ring = s.ring := rfl
  have e5 : (startOne c k s op).sent = s.sent ++ [.init k (s.chans c).sid (s.conns k).nextIoid op] := rfl
  have e6 : (startOne c k s op).running = s.running := rfl
  have e7 : (startOne c k s op).crashed = s.crashed := rfl
  have e8 : (startOne c k s op).byAddr = s.byAddr := rfl
  generalize startOne c k s op = t at *
  have hcs : ∀ c', (t.chans c').alive = (s.chans c').alive ∧ (t.chans c').st = (s.chans c').st ∧ (t.chans c').conn = (s.chans c').conn ∧
      (t.chans c').sid = (s.chans c').sid ∧ (t.chans c').waiting = (s.chans c').waiting := by
    intro c'; rw [hch]; split
    · rename_i e; subst e; exact ⟨rfl, rfl, rfl, rfl, rfl⟩
    · exact ⟨rfl, rfl, rfl, rfl, rfl⟩
  have hks : ∀ k', (t.conns k').alive = (s.conns k').alive ∧ (t.conns k').addr = (s.conns k').addr ∧ (t.conns k').pending = (s.conns k').pending ∧
      (t.conns k').creating = (s.conns k').creating ∧ (t.conns k').active = (s.conns k').active ∧ (Going (t.conns k') ↔ Going (s.conns k')) ∧ (t.conns k').ready = (s.conns k').ready := by
    intro k'; rw [hco]; split
    · rename_i e; subst e; exact ⟨rfl, rfl, rfl, rfl, rfl, Iff.rfl, rfl⟩
    · exact ⟨rfl, rfl, rfl, rfl, rfl, Iff.rfl, rfl⟩
  have ho : ∀ c' op' i, (op', i) ∈ (t.chans c').ops ↔ (c' = c ∧ op' = op ∧ i = (s.conns k).nextIoid) ∨ (op', i) ∈ (s.chans c').ops := by
    intro c' op' i; rw [hch]; split
    · rename_i e; subst e; simp [or_comm]
    · rename_i e; simp [e]
  have hko : ∀ i op' k', (i, op') ∈ (t.conns k').ops ↔ (k' = k ∧ op' = op ∧ i = (s.conns k).nextIoid) ∨ (i, op') ∈ (s.conns k').ops := by
    intro i op' k'; rw [hco]; split
    · rename_i e; subst e; simp [or_comm, and_comm]
    · rename_i e; simp [e]
  refine ⟨?_, (hcs c).1 ▸ ha, (hcs c).2.1 ▸ hs, (hcs c).2.2.1 ▸ hk⟩
  refine { running := e6 ▸ h.running, fine := e7 ▸ h.fine, cbound := ?_, kbound := ?_, srch := ?_, conn := ?_, pend := ?_, crea := ?_, acti := ?_,
           actU := ?_, pnd := ?_, opsN := ?_, opsA := ?_, opsK := ?_, opsU := ?_, wait := ?_,
           addr := ?_, old := by rw [e8, e3]; exact h.old }
  · intro c' ha; rw [e2]; exact h.cbound c' ((hcs c').1 ▸ ha)
  · intro k' hk; rw [e3]; exact h.kbound k' ((hks k').1 ▸ hk)
  · intro c' ha hs
    rw [(hcs c').1] at ha; rw [(hcs c').2.1] at hs; rw [e4]; exact h.srch c' ha hs
  · intro c' ha hs
    rw [(hcs c').1] at ha; rw [(hcs c').2.1] at hs; rw [(hcs c').2.2.1]
    obtain ⟨k', q1, q2, q3, q4⟩ := h.conn c' ha hs
    refine ⟨k', q1, (hks k').1 ▸ q2, ?_, ?_⟩
    · rw [(hks k').2.2.2.2.2.1]; exact q3
    · unfold Listed at q4 ⊢
      rw [(hcs c').2.1, (hcs c').2.2.2.1, (hks k').2.2.1, (hks k').2.2.2.1, (hks k').2.2.2.2.1, (hks k').2.2.2.2.2.2, e5]
      split
      · trivial
      · rename_i e; rw [e] at q4; exact q4
      · rename_i e; rw [e] at q4; exact ⟨q4.1, List.mem_append_left _ q4.2⟩
      · rename_i e; rw [e] at q4; exact ⟨q4.1, List.mem_append_left _ q4.2⟩
  · intro c' k' hh; rw [(hks k').2.2.1] at hh; rw [(hcs c').1, (hcs c').2.1, (hcs c').2.2.1]; exact h.pend c' k' hh
  · intro c' k' hh; rw [(hks k').2.2.2.1] at hh; rw [(hcs c').1, (hcs c').2.1, (hcs c').2.2.1]; exact h.crea c' k' hh
  · intro i c' k' hh; rw [(hks k').2.2.2.2.1] at hh; rw [(hcs c').1, (hcs c').2.1, (hcs c').2.2.1, (hcs c').2.2.2.1]; exact h.acti i c' k' hh
  · intro i c1 c2 k' q1 q2; rw [(hks k').2.2.2.2.1] at q1 q2; exact h.actU i c1 c2 k' q1 q2
  · intro k'; rw [(hks k').2.2.1]; exact h.pnd k'
  · intro c' ha' hs'
    rw [(hcs c').1] at ha'; rw [(hcs c').2.1] at hs'
    have e : c' ≠ c := fun e => hs' (e ▸ hs)
    rw [hch, if_neg e]; exact h.opsN c' ha' hs'
  · intro c' op' i ha' ho'
    rw [(hcs c').1] at ha'; rw [(hcs c').2.2.1, (hcs c').2.2.2.1]
    rcases (ho _ _ _).1 ho' with ⟨rfl, rfl, rfl⟩ | ho'
    · exact ⟨k, hk, (hko _ _ _).2 (.inl ⟨rfl, rfl, rfl⟩), by rw [e5]; simp⟩
    · obtain ⟨k', q1, q2, q3⟩ := h.opsA c' op' i ha' ho'
      exact ⟨k', q1, (hko _ _ _).2 (.inr q2), by rw [e5]; exact List.mem_append_left _ q3⟩
  · intro i op' k' ho'
    rcases (hko _ _ _).1 ho' with ⟨rfl, rfl, rfl⟩ | ho'
    · refine ⟨?_, c, (hcs c).1 ▸ ha, (hcs c).2.1 ▸ hs, (hcs c).2.2.1 ▸ hk, (ho _ _ _).2 (.inl ⟨rfl, rfl, rfl⟩)⟩
      rw [hco, if_pos rfl]; exact Nat.lt_succ_self _
    · obtain ⟨r0, c', r1, r2, r3, r4⟩ := h.opsK i op' k' ho'
      refine ⟨?_, c', (hcs c').1 ▸ r1, (hcs c').2.1 ▸ r2, (hcs c').2.2.1 ▸ r3, (ho _ _ _).2 (.inr r4)⟩
      rw [hco]; split
      · rename_i e; subst e; exact Nat.lt_succ_of_lt r0
      · exact r0
  · intro c1 c2 op1 op2 i k' q1 q2 q3 q4 q5 q6
    rw [(hcs c1).1] at q1; rw [(hcs c2).1] at q2; rw [(hcs c1).2.2.1] at q3; rw [(hcs c2).2.2.1] at q4
    have fresh : ∀ c' op', (s.chans c').alive = true → (s.chans c').conn = some k → (op', (s.conns k).nextIoid) ∉ (s.chans c').ops := by
      intro c' op' a1 a2 a3
      obtain ⟨k'', b1, b2, _⟩ := h.opsA c' op' _ a1 a3
      rw [a2] at b1; cases b1
      exact absurd (h.opsK _ _ _ b2).1 (Nat.lt_irrefl _)
    rcases (ho _ _ _).1 q5 with ⟨rfl, rfl, rfl⟩ | q5
    · rcases (ho _ _ _).1 q6 with ⟨rfl, rfl, _⟩ | q6
      · exact ⟨rfl, rfl⟩
      · rw [hk] at q3; cases q3
        exact absurd q6 (fresh c2 op2 q2 q4)
    · rcases (ho _ _ _).1 q6 with ⟨rfl, rfl, rfl⟩ | q6
      · rw [hk] at q4; cases q4
        exact absurd q5 (fresh c1 op1 q1 q3)
      · exact h.opsU c1 c2 op1 op2 i k' q1 q2 q3 q4 q5 q6
  · intro c' ha hs
    rw [(hcs c').1] at ha; rw [(hcs c').2.1] at hs; rw [(hcs c').2.2.2.2]; exact h.wait c' ha hs
  · intro a k' hm hal
    rw [e8] at hm; rw [(hks k').1] at hal
    obtain ⟨g1, g2, g3⟩ := h.addr a k' hm hal
    exact ⟨(hks k').2.2.2.2.2.1.2 g1, g2, (hks k').2.1.trans g3⟩

theorem inv_startAll {c k : Nat} : ∀ (w : List Nat) {s : Ctx}, Inv none [] none none s → (s.chans c).alive = true → (s.chans c).st = .active → (s.chans c).conn = some k →
    Inv none [] none none (w.foldl (startOne c k) s)
  | [], _, h, _, _, _ => h
  | op :: w, s, h, ha, hs, hk => by
    obtain ⟨h1, h2, h3, h4⟩ := inv_startOne (op := op) h ha hs hk
    show Inv none [] none none (w.foldl (startOne c k) (startOne c k s op))
    exact inv_startAll w h1 h2 h3 h4

theorem Inv.dead {s : Ctx} {ex : Option Nat} (h : Inv none [] ex none s) : (s.chans s.nchan).alive = false := by
  cases hd : (s.chans s.nchan).alive with
  | false => rfl
  | true => exact absurd (h.cbound _ hd) (Nat.lt_irrefl _)

theorem inv_new {s : Ctx} (o : Option Nat) (h : Inv none [] none none s) :
    Inv none [] (some s.nchan) none { (s.setChan s.nchan fun _ => { alive := true, forced := o }) with nchan := s.nchan + 1 } := by
  have hd := h.dead
  have hch : ∀ c', ({ (s.setChan s.nchan fun _ => { alive := true, forced := o }) with nchan := s.nchan + 1 } : Ctx).chans c' =
      if c' = s.nchan then { alive := true, forced := o } else s.chans c' := fun _ => rfl
  have oth : ∀ c', (s.chans c').alive = true → c' ≠ s.nchan := fun c' ha e => by rw [e, hd] at ha; cases ha
  have e1 : ({ (s.setChan s.nchan fun _ => { alive := true, forced := o }) with nchan := s.nchan + 1 } : Ctx).conns = s.conns := rfl
  have e2 : ({ (s.setChan s.nchan fun _ => { alive := true, forced := o }) with nchan := s.nchan + 1 } : Ctx).nchan = s.nchan + 1 := rfl
  have e3 : ({ (s.setChan s.nchan fun _ => { alive := true, forced := o }) with nchan := s.nchan + 1 } : Ctx).nconn = s.nconn := rfl
  have e4 : ({ (s.setChan s.nchan fun _ => { alive := true, forced := o }) with nchan := s.nchan + 1 } : Ctx).ring = s.ring := rfl
  have e5 : ({ (s.setChan s.nchan fun _ => { alive := true, forced := o }) with nchan := s.nchan + 1 } : Ctx).sent = s.sent := rfl
  have e6 : ({ (s.setChan s.nchan fun _ => { alive := true, forced := o }) with nchan := s.nchan + 1 } : Ctx).running = s.running := rfl
  have e7 : ({ (s.setChan s.nchan fun _ => { alive := true, forced := o }) with nchan := s.nchan + 1 } : Ctx).crashed = s.crashed := rfl
  have e8 : ({ (s.setChan s.nchan fun _ => { alive := true, forced := o }) with nchan := s.nchan + 1 } : Ctx).byAddr = s.byAddr := rfl
  generalize ({ (s.setChan s.nchan fun _ => { alive := true, forced := o }) with nchan := s.nchan + 1 } : Ctx) = t at *
  have thi : t.chans s.nchan = { alive := true, forced := o } := by rw [hch, if_pos rfl]
  have ot : ∀ c', c' ≠ s.nchan → t.chans c' = s.chans c' := fun c' e => by rw [hch, if_neg e]
  refine { running := e6 ▸ h.running, fine := e7 ▸ h.fine, cbound := ?_, kbound := by rw [e1, e3]; exact h.kbound, srch := ?_, conn := ?_, pend := ?_, crea := ?_, acti := ?_,
           actU := by rw [e1]; exact h.actU, pnd := by rw [e1]; exact h.pnd, opsN := ?_, opsA := ?_, opsK := ?_, opsU := ?_, wait := ?_,
           addr := by rw [e8, e1]; exact h.addr, old := by rw [e8, e3]; exact h.old }
  · intro c' ha; rw [e2]
    by_cases e : c' = s.nchan
    · omega
    · rw [ot c' e] at ha; exact Nat.lt_succ_of_lt (h.cbound c' ha)
  · intro c' ha hs
    by_cases e : c' = s.nchan
    · exact .inr (by rw [e])
    · rw [ot c' e] at ha hs; rw [e4]; exact .inl ((h.srch c' ha hs).resolve_right fun q => by cases q)
  · intro c' ha hs
    have e : c' ≠ s.nchan := fun e => hs (by rw [e, thi])
    rw [ot c' e] at ha hs ⊢
    obtain ⟨k, q1, q2, q3, q4⟩ := h.conn c' ha hs
    rw [e1]
    refine ⟨k, q1, q2, q3, ?_⟩
    unfold Listed at q4 ⊢; rw [ot c' e, e1, e5]; exact q4
  · rw [e1]; intro c' k hh
    have := h.pend c' k hh; rw [ot c' (oth c' this.1)]; exact this
  · rw [e1]; intro c' k hh
    have := h.crea c' k hh; rw [ot c' (oth c' this.1)]; exact this
  · rw [e1]; intro i c' k hh
    have := h.acti i c' k hh; rw [ot c' (oth c' this.1)]; exact this
  · intro c' ha hs
    by_cases e : c' = s.nchan
    · rw [e, thi]
    · rw [ot c' e] at ha hs ⊢; exact h.opsN c' ha hs
  · intro c' op i ha ho
    have e : c' ≠ s.nchan := fun e => by rw [e, thi] at ho; cases ho
    rw [ot c' e] at ha ho ⊢; rw [e1, e5]; exact h.opsA c' op i ha ho
  · rw [e1]; intro i op k ho
    obtain ⟨r0, c', r1, r2, r3, r4⟩ := h.opsK i op k ho
    have e := oth c' r1
    exact ⟨r0, c', by rw [ot c' e]; exact ⟨r1, r2, r3, r4⟩⟩
  · intro c1 c2 op op' i k q1 q2 q3 q4 q5 q6
    have e1' : c1 ≠ s.nchan := fun e => by rw [e, thi] at q5; cases q5
    have e2' : c2 ≠ s.nchan := fun e => by rw [e, thi] at q6; cases q6
    rw [ot c1 e1'] at q1 q3 q5; rw [ot c2 e2'] at q2 q4 q6
    exact h.opsU c1 c2 op op' i k q1 q2 q3 q4 q5 q6
  · intro c' ha hs
    have e : c' ≠ s.nchan := fun e => by rw [e, thi] at hs; cases hs
    rw [ot c' e] at ha hs ⊢; exact h.wait c' ha hs

theorem inv_push {s : Ctx} {c : Nat} (h : Inv none [] (some c) none s) : Inv none [] none none { s with ring := s.ring ++ [c] } := by
  refine { h with srch := fun c' ha hs => ?_ }
  rcases h.srch c' ha hs with q | q
  · exact .inl (List.mem_append_left _ q)
  · cases q; exact .inl (List.mem_append_right _ (by simp))

theorem build_ok (a : Nat) (s : Ctx) : ∃ k t, build a false false s = (some k, t) := by
  unfold build
  split
  · exact ⟨_, _, rfl⟩
  · exact ⟨_, _, rfl⟩

theorem build_fail {a : Nat} {r e : Bool} {s t : Ctx} (h : build a r e s = (none, t)) : t = s := by
  unfold build at h
  split at h
  · cases h
  · split at h
    · cases h; rfl
    · cases h

theorem inv_newChan {s : Ctx} {o : Option Nat} {e : Bool} (h : Inv none [] none none s) (ho : o ≠ none → e = false) : Inv none [] none none (newChan o e s) := by
  unfold newChan
  rw [if_neg (by rw [h.running]; exact fun e => (by cases e))]
  have hn := inv_new o h
  have hal : (({ (s.setChan s.nchan fun _ => { alive := true, forced := o }) with nchan := s.nchan + 1 } : Ctx).chans s.nchan) = { alive := true, forced := o } := by
    simp [Ctx.setChan]
  cases o with
  | none => exact inv_push hn
  | some a =>
    simp only []
    generalize ({ (s.setChan s.nchan fun _ => { alive := true, forced := some a }) with nchan := s.nchan + 1 } : Ctx) = t at *
    rw [ho (fun e => (by cases e))]
    obtain ⟨k, u, e⟩ := build_ok a t
    simp only [e]
    obtain ⟨i1, i2, i3, i4, i5, i6⟩ := inv_build hn (fun k hk => by cases hk) e
    exact inv_attach i1 (.inr rfl) (by rw [i4, hal]) (by rw [i4, hal]) i2 i3

theorem inv_reply {s : Ctx} {c a : Nat} {e : Bool} (h : Inv none [] none none s) : Inv none [] none none (reply c a e s) := by
  unfold reply
  split
  · rename_i hc
    cases hb : build a false e s with
    | mk o t =>
      cases o with
      | none => rw [build_fail hb]; exact h
      | some k =>
        obtain ⟨i1, i2, i3, i4, i5, i6⟩ := inv_build h (fun k hk => by cases hk) hb
        exact inv_attach i1 (.inl rfl) (by rw [i4]; exact hc.2.1) (by rw [i4]; exact hc.2.2) i2 i3
  · exact h

theorem inv_nsLoop (e : Bool) : ∀ (l : List (Nat × Option Nat)) {s : Ctx}, Inv none [] none none s → Inv none [] none none (nsLoop e l s).2
  | [], _, h => h
  | (a, o) :: l, s, h => by
    unfold nsLoop
    split
    · exact inv_nsLoop e l h
    · cases hb : build a false e s with
      | mk o t =>
        cases o with
        | none => simp only []; rw [build_fail hb]; exact h
        | some k => exact inv_nsLoop e l (inv_build h (fun k hk => by cases hk) hb).1

theorem open_spec {s : Ctx} {k : Nat} (h : open_ s k = true) : (s.conns k).alive = true ∧ (s.conns k).bev = true := by
  simpa [open_] using h

/-- the reply that a channel is created -/
theorem inv_active {s : Ctx} {k c sid : Nat} (h : Inv none [] none none s) (hc : c ∈ (s.conns k).creating) (hf : ∀ c', (sid, c') ∉ (s.conns k).active) :
    Inv none [] none none (((s.setConn k fun x => { x with creating := eraseCid c x.creating, active := insertKey sid c x.active }).setChan c fun x =>
      { x with st := .active, sid := sid, waiting := [] })) := by
  obtain ⟨ha, hs, hk⟩ := h.crea c k hc
  have hops : (s.chans c).ops = [] := h.opsN c ha (by rw [hs]; exact fun e => (by cases e))
  have np : ∀ k, c ∉ (s.conns k).pending := fun k hc => by have := (h.pend c k hc).2.1; rw [hs] at this; cases this
  have na : ∀ i k, (i, c) ∉ (s.conns k).active := fun i k hc => by have := (h.acti i c k hc).2.1; rw [hs] at this; cases this
  generalize ht : ((s.setConn k fun x => { x with creating := eraseCid c x.creating, active := insertKey sid c x.active }).setChan c fun x =>
      { x with st := .active, sid := sid, waiting := [] }) = t
  have hch : ∀ c', t.chans c' = if c' = c then { s.chans c with st := .active, sid := sid, waiting := [] } else s.chans c' := fun c' => by rw [← ht]; rfl
  have hco : ∀ k', t.conns k' = if k' = k then { s.conns k with creating := eraseCid c (s.conns k).creating, active := insertKey sid c (s.conns k).active }
      else s.conns k' := fun k' => by rw [← ht]; rfl
  have e2 : t.nchan = s.nchan := by rw [← ht]; rfl
  have e3 : t.nconn = s.nconn := by rw [← ht]; rfl
  have e4 : t.ring = s.ring := by rw [← ht]; rfl
  have e5 : t.sent = s.sent := by rw [← ht]; rfl
  have e6 : t.running = s.running := by rw [← ht]; rfl
  have e7 : t.crashed = s.crashed := by rw [← ht]; rfl
  have e8 : t.byAddr = s.byAddr := by rw [← ht]; rfl
  have hks : ∀ k', (t.conns k').alive = (s.conns k').alive ∧ (t.conns k').addr = (s.conns k').addr ∧ (t.conns k').pending = (s.conns k').pending ∧
      (t.conns k').ops = (s.conns k').ops ∧ (t.conns k').nextIoid = (s.conns k').nextIoid ∧ (Going (t.conns k') ↔ Going (s.conns k')) ∧ (t.conns k').ready = (s.conns k').ready := by
    intro k'; rw [hco]; split
    · rename_i e; subst e; exact ⟨rfl, rfl, rfl, rfl, rfl, Iff.rfl, rfl⟩
    · exact ⟨rfl, rfl, rfl, rfl, rfl, Iff.rfl, rfl⟩
  have hcr : ∀ c' k', c' ∈ (t.conns k').creating ↔ c' ∈ (s.conns k').creating ∧ c' ≠ c := by
    intro c' k'; rw [hco]; split
    · rename_i e; subst e; exact mem_eraseCid
    · rename_i e
      exact ⟨fun hh => ⟨hh, fun e' => e (by have := (h.crea c' k' hh).2.2; rw [e', hk] at this; exact (Option.some.inj this).symm)⟩, fun hh => hh.1⟩
  have hac : ∀ i c' k', (i, c') ∈ (t.conns k').active ↔ (i = sid ∧ c' = c ∧ k' = k) ∨ (i, c') ∈ (s.conns k').active := by
    intro i c' k'; rw [hco]; split
    · rename_i e; subst e
      simp only [mem_insertKey, Prod.mk.injEq, and_true]
      refine or_congr Iff.rfl ⟨fun hh => hh.1, fun hh => ⟨hh, fun e => hf c' (e ▸ hh)⟩⟩
    · rename_i e; simp [e]
  have thi : t.chans c = { s.chans c with st := .active, sid := sid, waiting := [] } := by rw [hch, if_pos rfl]
  have ot : ∀ c', c' ≠ c → t.chans c' = s.chans c' := fun c' e => by rw [hch, if_neg e]
  clear ht hch hco
  refine { running := e6 ▸ h.running, fine := e7 ▸ h.fine, cbound := ?_, kbound := ?_, srch := ?_, conn := ?_, pend := ?_, crea := ?_, acti := ?_,
           actU := ?_, pnd := ?_, opsN := ?_, opsA := ?_, opsK := ?_, opsU := ?_, wait := ?_,
           addr := ?_, old := by rw [e8, e3]; exact h.old }
  · intro c' ha'; rw [e2]
    by_cases e : c' = c
    · rw [e]; exact h.cbound c ha
    · rw [ot c' e] at ha'; exact h.cbound c' ha'
  · intro k' hk'; rw [e3]; exact h.kbound k' ((hks k').1 ▸ hk')
  · intro c' ha' hs'
    have e : c' ≠ c := fun e => by rw [e, thi] at hs'; cases hs'
    rw [ot c' e] at ha' hs'; rw [e4]; exact h.srch c' ha' hs'
  · intro c' ha' hs'
    by_cases e : c' = c
    · subst e
      obtain ⟨k', q1, q2, q3, q4⟩ := h.conn c' ha (by rw [hs]; exact fun e => (by cases e))
      rw [hk] at q1; cases q1
      refine ⟨k, by rw [thi]; exact hk, (hks k).1 ▸ q2, ?_, ?_⟩
      · rw [(hks k).2.2.2.2.2.1]; exact q3
      · unfold Listed at q4 ⊢
        rw [hs] at q4; rw [thi]
        exact ⟨(hac _ _ _).2 (.inl ⟨rfl, rfl, rfl⟩), e5 ▸ q4.2⟩
    · rw [ot c' e] at ha' hs' ⊢
      obtain ⟨k', q1, q2, q3, q4⟩ := h.conn c' ha' hs'
      refine ⟨k', q1, (hks k').1 ▸ q2, ?_, ?_⟩
      · rw [(hks k').2.2.2.2.2.1]; exact q3
      · unfold Listed at q4 ⊢
        rw [ot c' e, (hks k').2.2.1, (hks k').2.2.2.2.2.2, e5]
        split
        · trivial
        · rename_i e'; rw [e'] at q4; exact q4
        · rename_i e'; rw [e'] at q4; exact ⟨(hcr c' k').2 ⟨q4.1, e⟩, q4.2⟩
        · rename_i e'; rw [e'] at q4; exact ⟨(hac _ _ _).2 (.inr q4.1), q4.2⟩
  · intro c' k' hh
    rw [(hks k').2.2.1] at hh
    rw [ot c' (fun e => np k' (e ▸ hh))]; exact h.pend c' k' hh
  · intro c' k' hh
    rw [hcr] at hh
    rw [ot c' hh.2]; exact h.crea c' k' hh.1
  · intro i c' k' hh
    rcases (hac _ _ _).1 hh with ⟨rfl, rfl, rfl⟩ | hh
    · rw [thi]; exact ⟨ha, rfl, hk, rfl⟩
    · rw [ot c' (fun e => na i k' (e ▸ hh))]; exact h.acti i c' k' hh
  · intro i c1 c2 k' q1 q2
    rcases (hac _ _ _).1 q1 with ⟨rfl, rfl, rfl⟩ | q1
    · rcases (hac _ _ _).1 q2 with ⟨_, rfl, _⟩ | q2
      · rfl
      · exact absurd q2 (hf c2)
    · rcases (hac _ _ _).1 q2 with ⟨rfl, rfl, rfl⟩ | q2
      · exact absurd q1 (hf c1)
      · exact h.actU i c1 c2 k' q1 q2
  · intro k'; rw [(hks k').2.2.1]; exact h.pnd k'
  · intro c' ha' hs'
    have e : c' ≠ c := fun e => hs' (by rw [e, thi])
    rw [ot c' e] at ha' hs' ⊢; exact h.opsN c' ha' hs'
  · intro c' op i ha' ho
    have e : c' ≠ c := fun e => by rw [e, thi] at ho; rw [hops] at ho; cases ho
    rw [ot c' e] at ha' ho ⊢; rw [e5]
    obtain ⟨k', q1, q2, q3⟩ := h.opsA c' op i ha' ho
    exact ⟨k', q1, (hks k').2.2.2.1 ▸ q2, q3⟩
  · intro i op k' ho
    rw [(hks k').2.2.2.1] at ho; rw [(hks k').2.2.2.2.1]
    obtain ⟨r0, c', r1, r2, r3, r4⟩ := h.opsK i op k' ho
    have e : c' ≠ c := fun e => by rw [e, hs] at r2; cases r2
    exact ⟨r0, c', by rw [ot c' e]; exact ⟨r1, r2, r3, r4⟩⟩
  · intro c1 c2 op op' i k' q1 q2 q3 q4 q5 q6
    have e1' : c1 ≠ c := fun e => by rw [e, thi] at q5; rw [hops] at q5; cases q5
    have e2' : c2 ≠ c := fun e => by rw [e, thi] at q6; rw [hops] at q6; cases q6
    rw [ot c1 e1'] at q1 q3 q5; rw [ot c2 e2'] at q2 q4 q6
    exact h.opsU c1 c2 op op' i k' q1 q2 q3 q4 q5 q6
  · intro c' ha' hs'
    by_cases e : c' = c
    · rw [e, thi]
    · rw [ot c' e] at ha' hs' ⊢; exact h.wait c' ha' hs'
  · intro a k' hm hal
    rw [e8] at hm; rw [(hks k').1] at hal
    obtain ⟨g1, g2, g3⟩ := h.addr a k' hm hal
    exact ⟨(hks k').2.2.2.2.2.1.2 g1, g2, (hks k').2.1.trans g3⟩

theorem inv_send {s : Ctx} (m : Msg) (h : Inv none [] none none s) : Inv none [] none none (s.send m) := by
  refine { h with conn := fun c ha hs => ?_, opsA := fun c op i ha ho => ?_ }
  · obtain ⟨k, q1, q2, q3, q4⟩ := h.conn c ha hs
    refine ⟨k, q1, q2, q3, ?_⟩
    unfold Listed at q4 ⊢
    show match (s.chans c).st with
      | .searching => True
      | .connecting => c ∈ (s.conns k).pending ∧ ((s.conns k).ready = false ∨ none = some k)
      | .creating => c ∈ (s.conns k).creating ∧ Msg.create k c ∈ s.sent ++ [m]
      | .active => ((s.chans c).sid, c) ∈ (s.conns k).active ∧ Msg.create k c ∈ s.sent ++ [m]
    split
    · trivial
    · rename_i e; rw [e] at q4; exact q4
    · rename_i e; rw [e] at q4; exact ⟨q4.1, List.mem_append_left _ q4.2⟩
    · rename_i e; rw [e] at q4; exact ⟨q4.1, List.mem_append_left _ q4.2⟩
  · obtain ⟨k, q1, q2, q3⟩ := h.opsA c op i ha ho
    exact ⟨k, q1, q2, List.mem_append_left _ q3⟩

/-- the reply that a channel is not created -/
theorem inv_refused {s : Ctx} {k c : Nat} (h : Inv none [] none none s) (hc : c ∈ (s.conns k).creating) :
    Inv none [] none none { ((s.setConn k fun x => { x with creating := eraseCid c x.creating }).setChan c fun x => { x with st := .searching }) with ring := s.ring ++ [c] } := by
  obtain ⟨ha, hs, hk⟩ := h.crea c k hc
  have hops : (s.chans c).ops = [] := h.opsN c ha (by rw [hs]; exact fun e => (by cases e))
  have np : ∀ k, c ∉ (s.conns k).pending := fun k hc => by have := (h.pend c k hc).2.1; rw [hs] at this; cases this
  have na : ∀ i k, (i, c) ∉ (s.conns k).active := fun i k hc => by have := (h.acti i c k hc).2.1; rw [hs] at this; cases this
  generalize ht : ({ ((s.setConn k fun x => { x with creating := eraseCid c x.creating }).setChan c fun x => { x with st := .searching }) with ring := s.ring ++ [c] } : Ctx) = t
  have hch : ∀ c', t.chans c' = if c' = c then { s.chans c with st := .searching } else s.chans c' := fun c' => by rw [← ht]; rfl
  have hco : ∀ k', t.conns k' = if k' = k then { s.conns k with creating := eraseCid c (s.conns k).creating } else s.conns k' := fun k' => by rw [← ht]; rfl
  have e2 : t.nchan = s.nchan := by rw [← ht]; rfl
  have e3 : t.nconn = s.nconn := by rw [← ht]; rfl
  have e4 : t.ring = s.ring ++ [c] := by rw [← ht]
  have e5 : t.sent = s.sent := by rw [← ht]; rfl
  have e6 : t.running = s.running := by rw [← ht]; rfl
  have e7 : t.crashed = s.crashed := by rw [← ht]; rfl
  have e8 : t.byAddr = s.byAddr := by rw [← ht]; rfl
  have hks : ∀ k', (t.conns k').alive = (s.conns k').alive ∧ (t.conns k').addr = (s.conns k').addr ∧ (t.conns k').pending = (s.conns k').pending ∧
      (t.conns k').ops = (s.conns k').ops ∧ (t.conns k').nextIoid = (s.conns k').nextIoid ∧ (Going (t.conns k') ↔ Going (s.conns k')) ∧ (t.conns k').ready = (s.conns k').ready ∧
      (t.conns k').active = (s.conns k').active := by
    intro k'; rw [hco]; split
    · rename_i e; subst e; exact ⟨rfl, rfl, rfl, rfl, rfl, Iff.rfl, rfl, rfl⟩
    · exact ⟨rfl, rfl, rfl, rfl, rfl, Iff.rfl, rfl, rfl⟩
  have hcr : ∀ c' k', c' ∈ (t.conns k').creating ↔ c' ∈ (s.conns k').creating ∧ c' ≠ c := by
    intro c' k'; rw [hco]; split
    · rename_i e; subst e; exact mem_eraseCid
    · rename_i e
      exact ⟨fun hh => ⟨hh, fun e' => e (by have := (h.crea c' k' hh).2.2; rw [e', hk] at this; exact (Option.some.inj this).symm)⟩, fun hh => hh.1⟩
  have thi : t.chans c = { s.chans c with st := .searching } := by rw [hch, if_pos rfl]
  have ot : ∀ c', c' ≠ c → t.chans c' = s.chans c' := fun c' e => by rw [hch, if_neg e]
  clear ht hch hco
  refine { running := e6 ▸ h.running, fine := e7 ▸ h.fine, cbound := ?_, kbound := ?_, srch := ?_, conn := ?_, pend := ?_, crea := ?_, acti := ?_,
           actU := ?_, pnd := ?_, opsN := ?_, opsA := ?_, opsK := ?_, opsU := ?_, wait := ?_,
           addr := ?_, old := by rw [e8, e3]; exact h.old }
  · intro c' ha'; rw [e2]
    by_cases e : c' = c
    · rw [e]; exact h.cbound c ha
    · rw [ot c' e] at ha'; exact h.cbound c' ha'
  · intro k' hk'; rw [e3]; exact h.kbound k' ((hks k').1 ▸ hk')
  · intro c' ha' hs'
    rw [e4]
    by_cases e : c' = c
    · exact .inl (List.mem_append_right _ (by simp [e]))
    · rw [ot c' e] at ha' hs'
      exact (h.srch c' ha' hs').imp (fun q => List.mem_append_left _ q) id
  · intro c' ha' hs'
    by_cases e : c' = c
    · rw [e, thi] at hs'; exact absurd rfl hs'
    · rw [ot c' e] at ha' hs' ⊢
      obtain ⟨k', q1, q2, q3, q4⟩ := h.conn c' ha' hs'
      refine ⟨k', q1, (hks k').1 ▸ q2, ?_, ?_⟩
      · rw [(hks k').2.2.2.2.2.1]; exact q3
      · unfold Listed at q4 ⊢
        rw [ot c' e, (hks k').2.2.1, (hks k').2.2.2.2.2.2.1, (hks k').2.2.2.2.2.2.2, e5]
        split
        · trivial
        · rename_i e'; rw [e'] at q4; exact q4
        · rename_i e'; rw [e'] at q4; exact ⟨(hcr c' k').2 ⟨q4.1, e⟩, q4.2⟩
        · rename_i e'; rw [e'] at q4; exact q4
  · intro c' k' hh
    rw [(hks k').2.2.1] at hh
    rw [ot c' (fun e => np k' (e ▸ hh))]; exact h.pend c' k' hh
  · intro c' k' hh
    rw [hcr] at hh
    rw [ot c' hh.2]; exact h.crea c' k' hh.1
  · intro i c' k' hh
    rw [(hks k').2.2.2.2.2.2.2] at hh
    rw [ot c' (fun e => na i k' (e ▸ hh))]; exact h.acti i c' k' hh
  · intro i c1 c2 k' q1 q2
    rw [(hks k').2.2.2.2.2.2.2] at q1 q2
    exact h.actU i c1 c2 k' q1 q2
  · intro k'; rw [(hks k').2.2.1]; exact h.pnd k'
  · intro c' ha' hs'
    by_cases e : c' = c
    · rw [e, thi]; exact hops
    · rw [ot c' e] at ha' hs' ⊢; exact h.opsN c' ha' hs'
  · intro c' op i ha' ho
    have e : c' ≠ c := fun e => by rw [e, thi] at ho; rw [hops] at ho; cases ho
    rw [ot c' e] at ha' ho ⊢; rw [e5]
    obtain ⟨k', q1, q2, q3⟩ := h.opsA c' op i ha' ho
    exact ⟨k', q1, (hks k').2.2.2.1 ▸ q2, q3⟩
  · intro i op k' ho
    rw [(hks k').2.2.2.1] at ho; rw [(hks k').2.2.2.2.1]
    obtain ⟨r0, c', r1, r2, r3, r4⟩ := h.opsK i op k' ho
    have e : c' ≠ c := fun e => by rw [e, hs] at r2; cases r2
    exact ⟨r0, c', by rw [ot c' e]; exact ⟨r1, r2, r3, r4⟩⟩
  · intro c1 c2 op op' i k' q1 q2 q3 q4 q5 q6
    have e1' : c1 ≠ c := fun e => by rw [e, thi] at q5; rw [hops] at q5; cases q5
    have e2' : c2 ≠ c := fun e => by rw [e, thi] at q6; rw [hops] at q6; cases q6
    rw [ot c1 e1'] at q1 q3 q5; rw [ot c2 e2'] at q2 q4 q6
    exact h.opsU c1 c2 op op' i k' q1 q2 q3 q4 q5 q6
  · intro c' ha' hs'
    by_cases e : c' = c
    · rw [e, thi] at hs'; cases hs'
    · rw [ot c' e] at ha' hs' ⊢; exact h.wait c' ha' hs'
  · intro a k' hm hal
    rw [e8] at hm; rw [(hks k').1] at hal
    obtain ⟨g1, g2, g3⟩ := h.addr a k' hm hal
    exact ⟨(hks k').2.2.2.2.2.1.2 g1, g2, (hks k').2.1.trans g3⟩

theorem eraseCid_self {c : Nat} {l : List Nat} (h : c ∉ l) : eraseCid c l = l := by
  unfold eraseCid
  rw [List.filter_eq_self]
  intro x hx
  simp only [ne_eq, decide_not, Bool.not_eq_eq_eq_not, Bool.not_true, decide_eq_false_iff_not]
  exact fun e => h (e ▸ hx)

theorem createOperations_eq {c k : Nat} {s : Ctx} (hs : (s.chans c).st = .active) (hk : (s.chans c).conn = some k) :
    createOperations c s = (s.chans c).waiting.foldl (startOne c k) (s.setChan c fun x => { x with waiting := [] }) := by
  unfold createOperations
  rw [if_neg (by rw [hs]; exact fun h => h rfl), hk]

theorem inv_created {s : Ctx} {k c sid : Nat} {ok : Bool} (h : Inv none [] none none s) (hf : ok = true → ∀ c', (sid, c') ∉ (s.conns k).active) :
    Inv none [] none none (created k c sid ok s) := by
  unfold created
  split
  · exact h
  · split
    · rename_i hn
      have hno : c ∉ (s.conns k).creating := by
        rcases hn with hn | hn
        · exact hn
        · intro hc; rw [(h.crea c k hc).1] at hn; cases hn
      have := inv_tweak (k := k) (f := fun x => { x with creating := eraseCid c x.creating }) (rk := none) h rfl rfl rfl (eraseCid_self hno) rfl rfl rfl
        (fun g => g) (.inl rfl)
      simp only []
      split
      · exact inv_send _ this
      · exact this
    · rename_i hn
      have hc : c ∈ (s.conns k).creating := Classical.byContradiction fun e => hn (.inl e)
      simp only []
      split
      · rename_i hok
        obtain ⟨ha, hs, hk⟩ := h.crea c k hc
        rw [createOperations_eq (k := k) (by simp [Ctx.setChan, Ctx.setConn]) (by simpa [Ctx.setChan, Ctx.setConn] using hk)]
        have hh := inv_active h hc (hf hok)
        refine inv_startAll _ ?_ ?_ ?_ ?_
        · refine Eq.mp ?_ hh
          congr 1
          simp only [Ctx.setChan, Ctx.setConn, if_true]
          congr 1
          · funext i; split <;> simp_all
          · funext i; split <;> simp_all
        · simpa [Ctx.setChan, Ctx.setConn] using ha
        · simp [Ctx.setChan, Ctx.setConn]
        · simpa [Ctx.setChan, Ctx.setConn] using hk
      · exact inv_refused h hc

theorem inv_destroyed {s : Ctx} {k sid : Nat} (h : Inv none [] none none s) : Inv none [] none none (destroyed k sid s) := by
  unfold destroyed
  split
  · exact h
  · split
    · rename_i i c hfind
      have hm := List.mem_of_find?_eq_some hfind
      have hi : i = sid := by simpa using List.find?_some hfind
      subst hi
      obtain ⟨ha, hs, hk, hsid⟩ := h.acti i c k hm
      rw [if_pos ha]
      have : detach c (s.setConn k fun x => { x with active := eraseKey i x.active }) = detach c s := by
        have hk' : ((s.setConn k fun x => { x with active := eraseKey i x.active }).chans c).conn = some k := hk
        unfold detach
        rw [hk', hk]
        have e0 : (s.setConn k fun x => { x with active := eraseKey i x.active }).chans = s.chans := rfl
        simp only [e0]
        have e1 : ∀ x : Conn, forget c (s.chans c) { x with active := eraseKey i x.active } = forget c (s.chans c) x := by
          intro x
          simp [forget, hs, hsid, eraseKey, List.filter_filter]
        unfold tellGone
        have e2 : ((s.setConn k fun x => { x with active := eraseKey i x.active }).conns k).bev = (s.conns k).bev := by simp [Ctx.setConn]
        rw [e2]
        split
        · simp only [Ctx.send, Ctx.setChan, Ctx.setConn, if_true, e1]
          congr 1
          funext j; split <;> simp_all
        · simp only [Ctx.setChan, Ctx.setConn, if_true, e1]
          congr 1
          funext j; split <;> simp_all
      have e : disconnect (s.setConn k fun x => { x with active := eraseKey i x.active }) c = disconnect s c := by
        unfold disconnect; rw [this]
      rw [e]
      exact inv_disconnect (h.more [c]) ha (fun k e => by cases e)
    · exact h

theorem inv_finish {s : Ctx} {c k op : Nat} (h : Inv none [] none none s) (ha : (s.chans c).alive = true) (hk : (s.chans c).conn = some k) :
    Inv none [] none none ((s.setChan c fun x => { x with waiting := x.waiting.filter fun o => o ≠ op, ops := x.ops.filter fun p => p.1 ≠ op }).setConn k fun x =>
      { x with ops := x.ops.filter fun p => (op, p.1) ∉ (s.chans c).ops }) := by
  generalize ht : ((s.setChan c fun x => { x with waiting := x.waiting.filter fun o => o ≠ op, ops := x.ops.filter fun p => p.1 ≠ op }).setConn k fun x =>
      { x with ops := x.ops.filter fun p => (op, p.1) ∉ (s.chans c).ops }) = t
  have hch : ∀ c', t.chans c' = if c' = c then { s.chans c with waiting := (s.chans c).waiting.filter fun o => o ≠ op, ops := (s.chans c).ops.filter fun p => p.1 ≠ op }
      else s.chans c' := fun c' => by rw [← ht]; rfl
  have hco : ∀ k', t.conns k' = if k' = k then { s.conns k with ops := (s.conns k).ops.filter fun p => (op, p.1) ∉ (s.chans c).ops } else s.conns k' := fun k' => by rw [← ht]; rfl
  have e2 : t.nchan = s.nchan := by rw [← ht]; rfl
  have e3 : t.nconn = s.nconn := by rw [← ht]; rfl
  have e4 : t.ring = s.ring := by rw [← ht]; rfl
  have e5 : t.sent = s.sent := by rw [← ht]; rfl
  have e6 : t.running = s.running := by rw [← ht]; rfl
  have e7 : t.crashed = s.crashed := by rw [← ht]; rfl
  have e8 : t.byAddr = s.byAddr := by rw [← ht]; rfl
  clear ht
  have hcs : ∀ c', (t.chans c').alive = (s.chans c').alive ∧ (t.chans c').st = (s.chans c').st ∧ (t.chans c').conn = (s.chans c').conn ∧
      (t.chans c').sid = (s.chans c').sid := by
    intro c'; rw [hch]; split
    · rename_i e; subst e; exact ⟨rfl, rfl, rfl, rfl⟩
    · exact ⟨rfl, rfl, rfl, rfl⟩
  have hks : ∀ k', (t.conns k').alive = (s.conns k').alive ∧ (t.conns k').addr = (s.conns k').addr ∧ (t.conns k').pending = (s.conns k').pending ∧
      (t.conns k').creating = (s.conns k').creating ∧ (t.conns k').active = (s.conns k').active ∧ (Going (t.conns k') ↔ Going (s.conns k')) ∧ (t.conns k').ready = (s.conns k').ready ∧
      (t.conns k').nextIoid = (s.conns k').nextIoid := by
    intro k'; rw [hco]; split
    · rename_i e; subst e; exact ⟨rfl, rfl, rfl, rfl, rfl, Iff.rfl, rfl, rfl⟩
    · exact ⟨rfl, rfl, rfl, rfl, rfl, Iff.rfl, rfl, rfl⟩
  have ho : ∀ c' op' i, (op', i) ∈ (t.chans c').ops ↔ (op', i) ∈ (s.chans c').ops ∧ ¬(c' = c ∧ op' = op) := by
    intro c' op' i; rw [hch]; split
    · rename_i e; subst e; simp
    · rename_i e; simp [e]
  have hko : ∀ i op' k', (i, op') ∈ (t.conns k').ops ↔ (i, op') ∈ (s.conns k').ops ∧ ¬(k' = k ∧ (op, i) ∈ (s.chans c).ops) := by
    intro i op' k'; rw [hco]; split
    · rename_i e; subst e; simp
    · rename_i e; simp [e]
  refine { running := e6 ▸ h.running, fine := e7 ▸ h.fine, cbound := ?_, kbound := ?_, srch := ?_, conn := ?_, pend := ?_, crea := ?_, acti := ?_,
           actU := ?_, pnd := ?_, opsN := ?_, opsA := ?_, opsK := ?_, opsU := ?_, wait := ?_,
           addr := ?_, old := by rw [e8, e3]; exact h.old }
  · intro c' ha; rw [e2]; exact h.cbound c' ((hcs c').1 ▸ ha)
  · intro k' hk; rw [e3]; exact h.kbound k' ((hks k').1 ▸ hk)
  · intro c' ha hs
    rw [(hcs c').1] at ha; rw [(hcs c').2.1] at hs; rw [e4]; exact h.srch c' ha hs
  · intro c' ha hs
    rw [(hcs c').1] at ha; rw [(hcs c').2.1] at hs; rw [(hcs c').2.2.1]
    obtain ⟨k', q1, q2, q3, q4⟩ := h.conn c' ha hs
    refine ⟨k', q1, (hks k').1 ▸ q2, ?_, ?_⟩
    · rw [(hks k').2.2.2.2.2.1]; exact q3
    · unfold Listed at q4 ⊢
      rw [(hcs c').2.1, (hcs c').2.2.2, (hks k').2.2.1, (hks k').2.2.2.1, (hks k').2.2.2.2.1, (hks k').2.2.2.2.2.2.1, e5]
      exact q4
  · intro c' k' hh; rw [(hks k').2.2.1] at hh; rw [(hcs c').1, (hcs c').2.1, (hcs c').2.2.1]; exact h.pend c' k' hh
  · intro c' k' hh; rw [(hks k').2.2.2.1] at hh; rw [(hcs c').1, (hcs c').2.1, (hcs c').2.2.1]; exact h.crea c' k' hh
  · intro i c' k' hh; rw [(hks k').2.2.2.2.1] at hh; rw [(hcs c').1, (hcs c').2.1, (hcs c').2.2.1, (hcs c').2.2.2]; exact h.acti i c' k' hh
  · intro i c1 c2 k' q1 q2; rw [(hks k').2.2.2.2.1] at q1 q2; exact h.actU i c1 c2 k' q1 q2
  · intro k'; rw [(hks k').2.2.1]; exact h.pnd k'
  · intro c' ha' hs'
    rw [(hcs c').1] at ha'; rw [(hcs c').2.1] at hs'
    have := h.opsN c' ha' hs'
    apply List.eq_nil_iff_forall_not_mem.2
    intro x hx
    have := ((ho c' x.1 x.2).1 hx).1
    rw [h.opsN c' ha' hs'] at this; cases this
  · intro c' op' i ha' ho'
    rw [(hcs c').1] at ha'; rw [(hcs c').2.2.1, (hcs c').2.2.2, e5]
    obtain ⟨ho1, ho2⟩ := (ho _ _ _).1 ho'
    obtain ⟨k', q1, q2, q3⟩ := h.opsA c' op' i ha' ho1
    refine ⟨k', q1, (hko _ _ _).2 ⟨q2, fun hh => ?_⟩, q3⟩
    obtain ⟨rfl, hh⟩ := hh
    obtain ⟨e, e'⟩ := h.opsU c c' op op' i k' ha ha' hk q1 hh ho1
    exact ho2 ⟨e.symm, e'.symm⟩
  · intro i op' k' ho'
    obtain ⟨ho1, ho2⟩ := (hko _ _ _).1 ho'
    obtain ⟨r0, c', r1, r2, r3, r4⟩ := h.opsK i op' k' ho1
    refine ⟨by rw [(hks k').2.2.2.2.2.2.2]; exact r0, c', (hcs c').1 ▸ r1, (hcs c').2.1 ▸ r2, (hcs c').2.2.1 ▸ r3, (ho _ _ _).2 ⟨r4, fun hh => ?_⟩⟩
    obtain ⟨rfl, rfl⟩ := hh
    rw [hk] at r3; cases r3
    exact ho2 ⟨rfl, r4⟩
  · intro c1 c2 op1 op2 i k' q1 q2 q3 q4 q5 q6
    rw [(hcs c1).1] at q1; rw [(hcs c2).1] at q2; rw [(hcs c1).2.2.1] at q3; rw [(hcs c2).2.2.1] at q4
    exact h.opsU c1 c2 op1 op2 i k' q1 q2 q3 q4 ((ho _ _ _).1 q5).1 ((ho _ _ _).1 q6).1
  · intro c' ha hs
    rw [(hcs c').1] at ha; rw [(hcs c').2.1] at hs
    have := h.wait c' ha hs
    rw [hch]; split
    · rename_i e; subst e; simp only []; rw [this]; rfl
    · exact this
  · intro a k' hm hal
    rw [e8] at hm; rw [(hks k').1] at hal
    obtain ⟨g1, g2, g3⟩ := h.addr a k' hm hal
    exact ⟨(hks k').2.2.2.2.2.1.2 g1, g2, (hks k').2.1.trans g3⟩

/-- a channel without a connection goes -/
theorem inv_kill {s : Ctx} {c : Nat} (h : Inv none [] (some c) none s) (hs : (s.chans c).st = .searching) (ho : (s.chans c).ops = []) :
    Inv none [] none none (s.setChan c fun x => { x with alive := false, waiting := [] }) := by
  have hch : ∀ c', (s.setChan c fun x => { x with alive := false, waiting := [] }).chans c' =
      if c' = c then { s.chans c with alive := false, waiting := [] } else s.chans c' := fun _ => rfl
  have e1 : (s.setChan c fun x => { x with alive := false, waiting := [] }).conns = s.conns := rfl
  have e2 : (s.setChan c fun x => { x with alive := false, waiting := [] }).nchan = s.nchan := rfl
  have e3 : (s.setChan c fun x => { x with alive := false, waiting := [] }).nconn = s.nconn := rfl
  have e4 : (s.setChan c fun x => { x with alive := false, waiting := [] }).ring = s.ring := rfl
  have e5 : (s.setChan c fun x => { x with alive := false, waiting := [] }).sent = s.sent := rfl
  have e6 : (s.setChan c fun x => { x with alive := false, waiting := [] }).running = s.running := rfl
  have e7 : (s.setChan c fun x => { x with alive := false, waiting := [] }).crashed = s.crashed := rfl
  have e8 : (s.setChan c fun x => { x with alive := false, waiting := [] }).byAddr = s.byAddr := rfl
  generalize (s.setChan c fun x => { x with alive := false, waiting := [] }) = t at *
  have thi : (t.chans c).alive = false := by rw [hch, if_pos rfl]
  have ne : ∀ c', (t.chans c').alive = true → c' ≠ c := fun c' ha e => by rw [e, thi] at ha; cases ha
  have ne2 : ∀ c', (s.chans c').st ≠ .searching → c' ≠ c := fun c' ha e => ha (e ▸ hs)
  have ot : ∀ c', c' ≠ c → t.chans c' = s.chans c' := fun c' e => by rw [hch, if_neg e]
  refine { running := e6 ▸ h.running, fine := e7 ▸ h.fine, cbound := ?_, kbound := by rw [e1, e3]; exact h.kbound, srch := ?_, conn := ?_, pend := ?_, crea := ?_, acti := ?_,
           actU := by rw [e1]; exact h.actU, pnd := by rw [e1]; exact h.pnd, opsN := ?_, opsA := ?_, opsK := ?_, opsU := ?_, wait := ?_,
           addr := by rw [e8, e1]; exact h.addr, old := by rw [e8, e3]; exact h.old }
  · intro c' ha; rw [e2]; rw [ot c' (ne c' ha)] at ha; exact h.cbound c' ha
  · intro c' ha hs'
    have e := ne c' ha
    rw [ot c' e] at ha hs'; rw [e4]
    exact .inl ((h.srch c' ha hs').resolve_right fun q => e (by cases q; rfl))
  · intro c' ha hs'
    have e := ne c' ha
    rw [ot c' e] at ha hs' ⊢
    obtain ⟨k, q1, q2, q3, q4⟩ := h.conn c' ha hs'
    rw [e1]
    refine ⟨k, q1, q2, q3, ?_⟩
    unfold Listed at q4 ⊢; rw [ot c' e, e1, e5]; exact q4
  · rw [e1]; intro c' k hh
    have q := h.pend c' k hh
    rw [ot c' (ne2 c' (by rw [q.2.1]; exact fun e => (by cases e)))]; exact q
  · rw [e1]; intro c' k hh
    have q := h.crea c' k hh
    rw [ot c' (ne2 c' (by rw [q.2.1]; exact fun e => (by cases e)))]; exact q
  · rw [e1]; intro i c' k hh
    have q := h.acti i c' k hh
    rw [ot c' (ne2 c' (by rw [q.2.1]; exact fun e => (by cases e)))]; exact q
  · intro c' ha hs'
    have e := ne c' ha
    rw [ot c' e] at ha hs' ⊢; exact h.opsN c' ha hs'
  · intro c' op i ha ho'
    have e := ne c' ha
    rw [ot c' e] at ha ho' ⊢; rw [e1, e5]; exact h.opsA c' op i ha ho'
  · rw [e1]; intro i op k ho'
    obtain ⟨r0, c', r1, r2, r3, r4⟩ := h.opsK i op k ho'
    have e := ne2 c' (by rw [r2]; exact fun e => (by cases e))
    exact ⟨r0, c', by rw [ot c' e]; exact ⟨r1, r2, r3, r4⟩⟩
  · intro c1 c2 op op' i k q1 q2 q3 q4 q5 q6
    have a1 := ne c1 q1; have a2 := ne c2 q2
    rw [ot c1 a1] at q1 q3 q5; rw [ot c2 a2] at q2 q4 q6
    exact h.opsU c1 c2 op op' i k q1 q2 q3 q4 q5 q6
  · intro c' ha hs'
    have e := ne c' ha
    rw [ot c' e] at ha hs' ⊢; exact h.wait c' ha hs'

theorem inv_drop {s : Ctx} {c : Nat} (h : Inv none [] none none s) (ha : (s.chans c).alive = true) :
    Inv none [] none none ((detach c s).setChan c fun x => { x with alive := false, waiting := [] }) := by
  have d := detached h c ha
  exact inv_kill (inv_detach (h.more [c]) ha) (by rw [d.this]) (by rw [d.this])

/-- what is asked of an event: a server does not give an ID it has already given on this connection, and a connection is not refused before it is attempted, where
no search would find another -/
def Fair (s : Ctx) : Ev → Prop
  | .created k _ sid ok => ok = true → ∀ c, (sid, c) ∉ (s.conns k).active
  | .newChan o e => o ≠ none → e = false
  | .retry _ e => e = false
  | .close => False
  | _ => True

theorem inv_stepRaw {s : Ctx} {e : Ev} (h : Inv none [] none none s) (hf : Fair s e) : Inv none [] none none (stepRaw s e) := by
  cases e with
  | newChan o e => exact inv_newChan h hf
  | reply c a e => exact inv_reply h
  | connected k =>
    simp only [stepRaw]; split
    · rename_i ho
      have ⟨o1, o2⟩ := open_spec ho
      exact inv_tweak h rfl rfl rfl rfl rfl rfl rfl (fun _ => ⟨o1, .inl o2⟩) (.inl rfl)
    · exact h
  | validated k =>
    simp only [stepRaw]; split
    · rename_i ho
      have ⟨o1, o2⟩ := open_spec ho
      exact inv_createChannels (inv_tweak h rfl rfl rfl rfl rfl rfl rfl (fun _ => ⟨o1, .inl o2⟩) (.inr rfl))
    · exact h
  | created k c sid ok => exact inv_created h hf
  | destroyed k sid => exact inv_destroyed h
  | lost k =>
    simp only [stepRaw]; split
    · rename_i ho
      have ⟨o1, o2⟩ := open_spec ho
      refine (inv_cleanup (inv_tweak h rfl rfl rfl rfl rfl rfl rfl (fun _ => ⟨o1, .inl o2⟩) (.inl rfl)) ?_).close
      simpa [Ctx.setConn] using o1
    · exact h
  | violation k =>
    simp only [stepRaw]; split
    · rename_i ho
      exact (inv_cleanup h (open_spec ho).1).close
    · exact h
  | retry k e =>
    have hf : e = false := hf
    subst hf
    simp only [stepRaw, retry]; split
    · rename_i hc
      exact inv_tweak h rfl rfl rfl rfl rfl rfl rfl (fun _ => ⟨hc.1, .inl rfl⟩) (.inl rfl)
    · exact h
  | start c op =>
    simp only [stepRaw]; split
    · rename_i ha
      by_cases hs : (s.chans c).st = .active
      · obtain ⟨k, hk, _⟩ := h.conn c ha (by rw [hs]; exact fun e => (by cases e))
        rw [createOperations_eq (k := k) (by simpa [Ctx.setChan] using hs) (by simpa [Ctx.setChan] using hk)]
        refine inv_startAll _ ?_ (by simpa [Ctx.setChan] using ha) (by simpa [Ctx.setChan] using hs) (by simpa [Ctx.setChan] using hk)
        have : ((s.setChan c fun x => { x with waiting := x.waiting ++ [op] }).setChan c fun x => { x with waiting := [] }) = s.setChan c fun x => { x with waiting := [] } := by
          simp only [Ctx.setChan, if_true]
          congr 1
          funext i; split <;> simp_all
        rw [this]
        exact inv_chan h rfl rfl rfl rfl rfl (fun _ _ => rfl)
      · unfold createOperations
        rw [if_pos (by simpa [Ctx.setChan] using hs)]
        exact inv_chan h rfl rfl rfl rfl rfl (fun _ e => absurd e hs)
    · exact h
  | finish c op =>
    simp only [stepRaw]; split
    · rename_i ha
      split
      · rename_i k hk; exact inv_finish h ha hk
      · rename_i hk
        have hs : (s.chans c).st = .searching := Classical.byContradiction fun hs => by
          obtain ⟨k, q, _⟩ := h.conn c ha hs; rw [hk] at q; cases q
        have ho := h.opsN c ha (by rw [hs]; exact fun e => (by cases e))
        refine inv_chan h rfl rfl rfl rfl ?_ (fun _ e => by rw [hs] at e; cases e)
        simp [ho]
    · exact h
  | kick c =>
    simp only [stepRaw]; split
    · rename_i ha; exact inv_disconnect (h.more [c]) ha (fun k e => by cases e)
    · exact h
  | drop c =>
    simp only [stepRaw]; split
    · rename_i ha; exact inv_drop h ha
    · exact h
  | tick =>
    refine { h with srch := fun c ha hs => ?_ }
    refine .inl (List.mem_filter.2 ⟨(h.srch c ha hs).resolve_right (fun e => by cases e), ?_⟩)
    exact decide_eq_true (And.intro ha hs)
  | nsCheck e =>
    simp only [stepRaw]; split
    · have := inv_nsLoop e s.ns h
      generalize nsLoop e s.ns s = r at *
      exact { this with }
    · exact h
  | close => exact hf.elim

theorem inv_step {s : Ctx} {e : Ev} (h : Inv none [] none none s) (hf : Fair s e) : Inv none [] none none (step s e) := inv_reap (inv_stepRaw h hf)

end Pvxs.ClientChan
