import Verif.Spec.ServerMon
/-
What an event does to one subscription, and invariants of it.
-/
namespace Pvxs.Mon
open Pvxs.Server (OpState)
open Pvxs.Spec.Mon

/-- how an event changes subscription `i` -/
inductive Acts (i : Nat) (s : Sys) : Ev → Mon → Mon → Prop
  | same e m (h : ∀ n st d, e ≠ .ctl i n st d) (h2 : e ≠ .cancel i) (h3 : e ≠ .finish i) (h4 : ∀ c mb f, e = .post i c mb f → offer i s e = none ∨ m.state = .creating ∨ m.finished = true) : Acts i s e m m
  | setup ok m : Acts i s (.setup i ok) m (m.setup ok)
  | push c mb f m (h1 : m.state ≠ .creating) (h2 : m.finished = false) (h3 : testmask m.mask (content s.heap c) = true)
      (h4 : m.queue.length < m.limit ∨ f = true) :
      Acts i s (.post i c mb f) m ({ m with queue := m.queue ++ [some c] }).maybeReply
  | poke c mb f m (h1 : m.state ≠ .creating) (h2 : m.finished = false) (h3 : testmask m.mask (content s.heap c) = true)
      (h4 : m.limit ≤ m.queue.length) (h5 : f = false) :
      Acts i s (.post i c mb f) m m.maybeReply
  | finish m : Acts i s (.finish i) m m.finish
  | ctl a b d m : Acts i s (.ctl i a b d) m (m.ctl a b d)
  | cancel m : Acts i s (.cancel i) m m.cancel
  | close m : Acts i s (.close i) m m.cleanup
  | work m : Acts i s (.work i) m (m.runJob s.heap)

theorem modMon_get (s : Sys) (j i : Nat) (f : Mon → Mon) (m : Mon) (h : s.mons[i]? = some m) :
    (s.modMon j f).mons[i]? = some (if j = i then f m else m) := by
  simp only [Sys.modMon, List.getElem?_modify, h]
  split <;> simp [*]

theorem step_acts {s : Sys} {i : Nat} {m : Mon} (h : s.mons[i]? = some m) (e : Ev) :
    ∃ m', (step s e).mons[i]? = some m' ∧ Acts i s e m m' := by
  have other : ∀ (j : Nat) (f : Mon → Mon), j ≠ i → (s.modMon j f).mons[i]? = some m := fun j f hj => by
    rw [modMon_get s j i f m h, if_neg hj]
  have mine : ∀ (f : Mon → Mon), (s.modMon i f).mons[i]? = some (f m) := fun f => by
    rw [modMon_get s i i f m h, if_pos rfl]
  cases e with
  | value u => exact ⟨m, h, .same _ m (by simp) (by simp) (by simp) (by simp)⟩
  | subscribe p n q mask =>
    refine ⟨m, ?_, .same _ m (by simp) (by simp) (by simp) (by simp)⟩
    simp only [step]
    rw [List.getElem?_append_left (List.getElem?_eq_some_iff.1 h).1]
    exact h
  | setup j ok =>
    by_cases hj : j = i
    · subst hj; exact ⟨_, mine _, .setup ok m⟩
    · exact ⟨m, other j _ hj, .same _ m (by simp) (by simp) (by simp) (by simp)⟩
  | finish j =>
    by_cases hj : j = i
    · subst hj; exact ⟨_, mine _, .finish m⟩
    · exact ⟨m, other j _ hj, .same _ m (by simp) (by simp) (by simp [hj]) (by simp)⟩
  | ctl j a b d =>
    by_cases hj : j = i
    · subst hj; exact ⟨_, mine _, .ctl a b d m⟩
    · exact ⟨m, other j _ hj, .same _ m (by simp [hj]) (by simp) (by simp) (by simp)⟩
  | cancel j =>
    by_cases hj : j = i
    · subst hj; exact ⟨_, mine _, .cancel m⟩
    · exact ⟨m, other j _ hj, .same _ m (by simp) (by simp [hj]) (by simp) (by simp)⟩
  | close j =>
    by_cases hj : j = i
    · subst hj; exact ⟨_, mine _, .close m⟩
    · exact ⟨m, other j _ hj, .same _ m (by simp) (by simp) (by simp) (by simp)⟩
  | work j =>
    by_cases hj : j = i
    · subst hj; exact ⟨_, mine _, .work m⟩
    · exact ⟨m, other j _ hj, .same _ m (by simp) (by simp) (by simp) (by simp)⟩
  | post j c mb f =>
    simp only [step, postValue]
    by_cases hj : j = i
    · subst hj
      simp only [h]
      split
      · rename_i hc
        refine ⟨m, h, .same _ m (by simp) (by simp) (by simp) (fun c' mb' f' he => ?_)⟩
        cases he
        by_cases h1 : m.state = .creating
        · exact .inr (.inl h1)
        by_cases h2 : m.finished = true
        · exact .inr (.inr h2)
        refine .inl ?_
        have : testmask m.mask (content s.heap c) = false := by simpa [h1, h2] using hc
        simp [offer, h, this]
      · rename_i hc
        have h1 : m.state ≠ .creating := fun h => hc (.inl h)
        have h2 : m.finished = false := by
          cases e : m.finished
          · rfl
          · exact absurd (.inr (.inl e)) hc
        have h3 : testmask m.mask (content s.heap c) = true := by
          cases e : testmask m.mask (content s.heap c)
          · exact absurd (.inr (.inr (by simp [e]))) hc
          · rfl
        split
        · rename_i hq
          exact ⟨_, mine _, .push c mb f m h1 h2 h3 hq⟩
        · rename_i hq
          have h4 : m.limit ≤ m.queue.length := Nat.le_of_not_lt fun hl => hq (.inl hl)
          refine ⟨m.maybeReply, ?_, .poke c mb f m h1 h2 h3 h4 (by cases f; rfl; exact absurd (.inr rfl) hq)⟩
          split
          · split
            · have := modMon_get { s with heap := s.heap.modify (by assumption) fun u => merge u (content s.heap c) } j j Mon.maybeReply m h
              rw [this, if_pos rfl]
            · exact mine _
          · exact mine _
    · refine ⟨m, ?_, .same _ m (by simp) (by simp) (by simp) (by simp [hj])⟩
      split
      · exact h
      · split
        · exact h
        · split
          · exact other j _ hj
          · split
            · split
              · have := modMon_get { s with heap := s.heap.modify (by assumption) fun u => merge u (content s.heap c) } j i Mon.maybeReply m h
                rw [this, if_neg hj]
              · exact other j _ hj
            · exact other j _ hj

theorem modMon_len (s : Sys) (j : Nat) (f : Mon → Mon) : (s.modMon j f).mons.length = s.mons.length := by
  simp [Sys.modMon]

theorem step_len (s : Sys) (e : Ev) : (step s e).mons.length = s.mons.length + (match e with | .subscribe .. => 1 | _ => 0) := by
  cases e with
  | post j c mb f =>
    simp only [step, postValue]
    split
    · rfl
    · split
      · rfl
      · split
        · simp [modMon_len]
        · split
          · split <;> simp [modMon_len]
          · simp [modMon_len]
  | subscribe p n q mask => simp [step]
  | value u => rfl
  | _ => simp [step, modMon_len]

theorem run_snoc (s : Sys) (es : List Ev) (e : Ev) : run s (es ++ [e]) = step (run s es) e := by
  simp [run, List.foldl_append]

/-- induction over all executions, for one subscription -/
theorem run_ind (i : Nat) (P : List Ev → Mon → Prop)
    (hnew : ∀ es p n q mask, (run start es).mons.length = i → P (es ++ [.subscribe p n q mask]) (newMon p n q mask))
    (hstep : ∀ es e m m', (run start es).mons[i]? = some m → Acts i (run start es) e m m' → P es m → P (es ++ [e]) m') :
    ∀ es m, (run start es).mons[i]? = some m → P es m := by
  intro es
  induction h : es.length generalizing es with
  | zero =>
    intro m hm
    cases es with
    | nil => simp [run, start] at hm
    | cons => simp at h
  | succ n ih =>
    intro m hm
    rcases List.eq_nil_or_concat es with rfl | ⟨l, e, rfl⟩
    · simp at h
    simp only [List.concat_eq_append] at h hm ⊢
    have hl : l.length = n := by simpa using h
    rw [run_snoc] at hm
    cases h0 : (run start l).mons[i]? with
    | some m0 =>
      obtain ⟨m', h1, h2⟩ := step_acts h0 e
      rw [hm] at h1; cases h1
      exact hstep l e m0 m h0 h2 (ih l hl m0 h0)
    | none =>
      have hlt := (List.getElem?_eq_some_iff.1 hm).1
      rw [step_len] at hlt
      have hge := List.getElem?_eq_none_iff.1 h0
      cases e with
      | subscribe p w q mask =>
        have hi : (run start l).mons.length = i := by simp only at hlt; omega
        have : m = newMon p w q mask := by
          simp only [step] at hm
          rw [← hi] at hm
          simpa using hm.symm
        rw [this]
        exact hnew l p w q mask hi
      | _ => simp only at hlt; omega

/-! ### the job -/

structure Sched (m : Mon) : Prop where
  jobs : m.jobs = if m.scheduled then 1 else 0
  creating : m.state = .creating → m.scheduled = false ∧ m.queue = [] ∧ m.finished = false
  limit : 0 < m.limit
  window : m.state = .creating → m.sent = []

theorem maybeReply_cases (m : Mon) : m.maybeReply = m ∨ (m.scheduled = false ∧ m.state = .executing ∧ m.queue ≠ [] ∧
    (m.pipeline = true → m.window ≠ 0) ∧ m.maybeReply = { m with jobs := m.jobs + 1, scheduled := true }) := by
  unfold Mon.maybeReply
  split
  · rename_i h
    right
    simp only [Mon.canReply, Bool.and_eq_true, Bool.not_eq_true', beq_iff_eq, List.isEmpty_eq_false_iff, Bool.or_eq_true, bne_iff_ne] at h
    obtain ⟨⟨⟨h1, h2⟩, h3⟩, h4⟩ := h
    refine ⟨h1, h2, h3, fun hp => ?_, rfl⟩
    rcases h4 with h4 | h4
    · rw [hp] at h4; cases h4
    · exact h4
  · exact .inl rfl

theorem maybeReply_fields (m : Mon) : m.maybeReply.state = m.state ∧ m.maybeReply.queue = m.queue ∧ m.maybeReply.sent = m.sent
    ∧ m.maybeReply.window = m.window ∧ m.maybeReply.limit = m.limit ∧ m.maybeReply.finished = m.finished
    ∧ m.maybeReply.pipeline = m.pipeline ∧ m.maybeReply.mask = m.mask ∧ m.maybeReply.starts = m.starts ∧ m.maybeReply.closing = m.closing := by
  unfold Mon.maybeReply; split <;> simp

theorem maybeReply_jobs (m : Mon) (h : m.jobs = if m.scheduled then 1 else 0) :
    m.maybeReply.jobs = if m.maybeReply.scheduled then 1 else 0 := by
  rcases maybeReply_cases m with h' | ⟨h1, _, _, _, h'⟩
  · rw [h']; exact h
  · rw [h']; simp [h, h1]

/-- after maybeReply() a job is waiting if one may do something -/
theorem maybeReply_wakes (m : Mon) (h : m.jobs = if m.scheduled then 1 else 0) (h1 : m.state = .executing) (h2 : m.queue ≠ [])
    (h3 : m.pipeline = true → m.window ≠ 0) : m.maybeReply.jobs ≠ 0 := by
  unfold Mon.maybeReply
  split
  · simp
  · rename_i hn
    simp only [Mon.canReply, Bool.and_eq_true, Bool.not_eq_true', beq_iff_eq, List.isEmpty_eq_false_iff, Bool.or_eq_true, bne_iff_ne] at hn
    rw [h]
    cases e : m.scheduled
    · exfalso
      apply hn
      refine ⟨⟨⟨e, h1⟩, h2⟩, ?_⟩
      cases ep : m.pipeline
      · exact .inl rfl
      · exact .inr (h3 ep)
    · simp

theorem again_jobs (m : Mon) (h : m.jobs = if m.scheduled then 1 else 0) (hs : m.scheduled = false) :
    m.again.jobs = if m.again.scheduled then 1 else 0 := by
  unfold Mon.again; split <;> simp_all

theorem again_fields (m : Mon) : m.again.state = m.state ∧ m.again.queue = m.queue ∧ m.again.sent = m.sent
    ∧ m.again.window = m.window ∧ m.again.limit = m.limit ∧ m.again.finished = m.finished
    ∧ m.again.pipeline = m.pipeline ∧ m.again.mask = m.mask ∧ m.again.starts = m.starts ∧ m.again.closing = m.closing := by
  unfold Mon.again; split <;> simp

theorem consume_fields (m : Mon) : m.consume.state = m.state ∧ m.consume.queue = m.queue ∧ m.consume.sent = m.sent
    ∧ m.consume.jobs = m.jobs ∧ m.consume.scheduled = m.scheduled ∧ m.consume.limit = m.limit ∧ m.consume.finished = m.finished
    ∧ m.consume.pipeline = m.pipeline ∧ m.consume.mask = m.mask ∧ m.consume.starts = m.starts ∧ m.consume.closing = m.closing := by
  unfold Mon.consume; split <;> simp

/-- one update was sent -/
def Mon.popped (m : Mon) (heap : List Upd) (c : Nat) (q : List (Option Nat)) : Mon :=
  { m with scheduled := false, jobs := m.jobs - 1, queue := q, sent := m.sent ++ [Msg.data (restrict m.mask (content heap c))] }

theorem popped_fields (m : Mon) (heap : List Upd) (c : Nat) (q : List (Option Nat)) (hj : m.jobs = 1) :
    let m' := ((m.popped heap c q).consume).again
    m'.state = m.state ∧ m'.queue = q ∧ m'.sent = m.sent ++ [Msg.data (restrict m.mask (content heap c))]
    ∧ m'.window = (if m.state = .executing ∧ m.pipeline = true ∧ m.window ≠ 0 then m.window - 1 else m.window)
    ∧ m'.limit = m.limit ∧ m'.finished = m.finished ∧ m'.pipeline = m.pipeline ∧ m'.mask = m.mask ∧ m'.starts = m.starts
    ∧ m'.closing = m.closing
    ∧ m'.jobs = (if m.state = .executing ∧ q ≠ [] ∧ (m.pipeline = false ∨ m'.window ≠ 0 ∨ m.finished = true) then 1 else 0)
    ∧ m'.jobs = (if m'.scheduled then 1 else 0) := by
  obtain ⟨c1, c2, c3, c4, c5, c6, c7, c8, c9, c10, c11⟩ := consume_fields (m.popped heap c q)
  have cw : (m.popped heap c q).consume.window = (if m.state = .executing ∧ m.pipeline = true ∧ m.window ≠ 0 then m.window - 1 else m.window) := by
    have : ∀ n : Mon, n.consume.window = (if n.state = .executing ∧ n.pipeline = true ∧ n.window ≠ 0 then n.window - 1 else n.window) := by
      intro n; unfold Mon.consume; split <;> rfl
    exact this _
  generalize (m.popped heap c q).consume = m1 at *
  obtain ⟨a1, a2, a3, a4, a5, a6, a7, a8, a9, a10⟩ := again_fields m1
  have hj0 : m1.jobs = 0 := by rw [c4]; simp [Mon.popped, hj]
  have hs0 : m1.scheduled = false := c5
  refine ⟨a1.trans c1, a2.trans c2, a3.trans c3, a4.trans cw, a5.trans c6, a6.trans c7, a7.trans c8, a8.trans c9, a9.trans c10, a10.trans c11, ?_, ?_⟩
  · rw [a4]
    have e1 : m.state = m1.state := c1.symm
    have e2 : q = m1.queue := c2.symm
    have e3 : m.pipeline = m1.pipeline := c8.symm
    have e4 : m.finished = m1.finished := c7.symm
    rw [e1, e2, e3, e4]
    unfold Mon.again
    simp only [Bool.not_eq_true']
    split <;> simp [hj0]
  · exact again_jobs m1 (by simp [hj0, hs0]) hs0

/-- the things which doReply() may do -/
inductive Sends (heap : List Upd) (m m' : Mon) : Prop
  | nothing (h : m' = { m with scheduled := false, jobs := m.jobs - 1 })
      (hw : m.state = .executing → m.queue = [] ∨ (m.pipeline = true ∧ m.window = 0 ∧ m.finished = false))
      (hi : m.state ≠ .idle)
  | junk0 (h0 : m.state = .idle) (hq : m.queue = [])
      (h : m' = { m with scheduled := false, jobs := m.jobs - 1, sent := m.sent ++ [.junk] })
  | data (c : Nat) (q : List (Option Nat)) (hq : m.queue = some c :: q) (h0 : m.state = .idle ∨ m.state = .executing)
      (hw : m.state = .executing → m.pipeline = true → m.finished = false → m.window ≠ 0)
      (h : m' = ((m.popped heap c q).consume).again)
  | final (q : List (Option Nat)) (hq : m.queue = none :: q) (h0 : m.state = .executing)
      (h : m' = { m with scheduled := false, jobs := m.jobs - 1, queue := q, sent := m.sent ++ [.final], state := .dead })
  | junk (q : List (Option Nat)) (hq : m.queue = none :: q) (h0 : m.state = .idle)
      (h : m' = { m with scheduled := false, jobs := m.jobs - 1, queue := q, sent := m.sent ++ [.junk] })

theorem runJob_sends (heap : List Upd) (m : Mon) : m.runJob heap = m ∧ m.jobs = 0 ∨ m.jobs ≠ 0 ∧ Sends heap m (m.runJob heap) := by
  unfold Mon.runJob
  split
  · rename_i h; exact .inl ⟨rfl, h⟩
  · rename_i hj
    refine .inr ⟨hj, ?_⟩
    unfold Mon.doReply
    simp only
    split
    · rename_i h
      exact .nothing (by simp) (fun he => by rcases h with h | h <;> rw [he] at h <;> cases h) (fun he => by rcases h with h | h <;> rw [he] at h <;> cases h)
    · rename_i hs
      have hst : m.state = .idle ∨ m.state = .executing := by
        cases e : m.state <;> simp_all
      unfold Mon.send
      simp only
      split
      · rename_i hq
        split
        · rename_i he; exact .nothing rfl (fun _ => .inl hq) (by rw [he]; simp)
        · rename_i he
          exact .junk0 (hst.resolve_right he) hq rfl
      · rename_i ent q hq
        split
        · rename_i hc
          obtain ⟨a, b, c, d⟩ := hc
          exact .nothing rfl (fun _ => .inr ⟨b, c, by simpa using d⟩) (by rw [a]; simp)
        · rename_i hc
          cases ent with
          | some c =>
            refine .data c q hq hst (fun he hp hf hw => hc ⟨he, hp, hw, by simp [hf]⟩) rfl
          | none =>
            simp only
            split
            · rename_i he; exact .final q hq he rfl
            · rename_i he
              refine .junk q hq (hst.resolve_right he) ?_
              unfold Mon.again Mon.consume
              simp [he]

theorem ack_fields (m : Mon) (n : Option Nat) : (m.ack n).state = m.state ∧ (m.ack n).queue = m.queue ∧ (m.ack n).sent = m.sent
    ∧ (m.ack n).jobs = m.jobs ∧ (m.ack n).scheduled = m.scheduled ∧ (m.ack n).limit = m.limit ∧ (m.ack n).finished = m.finished
    ∧ (m.ack n).pipeline = m.pipeline ∧ (m.ack n).mask = m.mask ∧ (m.ack n).starts = m.starts ∧ (m.ack n).closing = m.closing := by
  unfold Mon.ack; cases n <;> simp; split <;> simp

theorem startStop_fields (m : Mon) (b : Option Bool) : (m.startStop b).queue = m.queue ∧ (m.startStop b).sent = m.sent
    ∧ (m.startStop b).window = m.window ∧ (m.startStop b).limit = m.limit ∧ (m.startStop b).finished = m.finished
    ∧ (m.startStop b).pipeline = m.pipeline ∧ (m.startStop b).mask = m.mask ∧ (m.startStop b).closing = m.closing
    ∧ (m.startStop b).state = (match b with | none => m.state | some true => .executing | some false => .idle) := by
  unfold Mon.startStop
  cases b with
  | none => simp
  | some b =>
    have := maybeReply_fields ({ m with state := if b then .executing else .idle, starts := m.starts ++ [b] })
    cases b <;> simp_all

theorem startStop_jobs (m : Mon) (b : Option Bool) (h : m.jobs = if m.scheduled then 1 else 0) :
    (m.startStop b).jobs = if (m.startStop b).scheduled then 1 else 0 := by
  unfold Mon.startStop
  cases b with
  | none => exact h
  | some b => exact maybeReply_jobs _ h

/-- the cases of a control message -/
theorem ctl_cases (m : Mon) (a : Option Nat) (b : Option Bool) (d : Bool) :
    (m.ctl a b d = m ∧ (m.state = .dead ∨ m.closing = true)) ∨ (m.state = .creating ∧ m.ctl a b d = m.cleanup)
    ∨ ((m.state = .idle ∨ m.state = .executing) ∧ ∃ c : Bool, m.ctl a b d = { (m.ack a).startStop b with closing := c }) := by
  unfold Mon.ctl
  split
  · rename_i h; exact .inl ⟨rfl, h⟩
  · rename_i h
    split
    · rename_i hc; exact .inr (.inl ⟨hc, rfl⟩)
    · rename_i hc
      refine .inr (.inr ⟨by cases e : m.state <;> simp_all, ?_⟩)
      cases d
      · refine ⟨((m.ack a).startStop b).closing, by simp⟩
      · exact ⟨true, by simp⟩

theorem run_sched (i : Nat) : ∀ es m, (run start es).mons[i]? = some m → Sched m := by
  apply run_ind i (fun _ m => Sched m)
  · intro es p n q mask _
    refine ⟨rfl, fun _ => ⟨rfl, rfl, rfl⟩, ?_, fun _ => rfl⟩
    simp only [newMon, limitFor]
    split <;> split <;> omega
  · intro es e m m' hm hact ih
    cases hact with
    | same => exact ih
    | setup ok =>
      unfold Mon.setup
      split
      · rename_i hc
        obtain ⟨a, b, c⟩ := ih.creating hc
        refine ⟨by simpa [a] using ih.jobs, ?_, ih.limit, ?_⟩ <;> (intro h; exfalso; revert h; cases ok <;> simp)
      · exact ih
    | push c mb f _ h1 h2 h3 h4 =>
      obtain ⟨f1, f2, f3, f4, f5, f6, f7⟩ := maybeReply_fields { m with queue := m.queue ++ [some c] }
      exact ⟨maybeReply_jobs _ ih.jobs, fun h => absurd (f1 ▸ h) h1, by rw [f5]; exact ih.limit, fun h => absurd (f1 ▸ h) h1⟩
    | poke c mb f _ h1 h2 h3 h4 h5 =>
      obtain ⟨f1, f2, f3, f4, f5, f6, f7⟩ := maybeReply_fields m
      exact ⟨maybeReply_jobs _ ih.jobs, fun h => absurd (f1 ▸ h) h1, by rw [f5]; exact ih.limit, fun h => absurd (f1 ▸ h) h1⟩
    | finish =>
      unfold Mon.finish
      split
      · exact ih
      · rename_i hc
        obtain ⟨f1, f2, f3, f4, f5, f6, f7⟩ := maybeReply_fields { m with finished := true, queue := m.queue ++ [none] }
        exact ⟨maybeReply_jobs _ ih.jobs, fun h => absurd (f1 ▸ h) (fun h => hc (.inl h)), by rw [f5]; exact ih.limit, fun h => absurd (f1 ▸ h) (fun h => hc (.inl h))⟩
    | ctl a b d =>
      rcases ctl_cases m a b d with ⟨h, _⟩ | ⟨hc, h⟩ | ⟨hs, c, h⟩
      · rw [h]; exact ih
      · rw [h]
        unfold Mon.cleanup
        rw [if_neg (by rw [hc]; simp)]
        exact ⟨ih.jobs, by simp, ih.limit, by simp⟩
      · rw [h]
        have a1 := ack_fields m a
        have a2 := startStop_fields (m.ack a) b
        have hne : ((m.ack a).startStop b).state ≠ .creating := by
          rw [a2.2.2.2.2.2.2.2.2]
          cases b with
          | none => simp only [a1.1]; rcases hs with hs | hs <;> simp [hs]
          | some b => cases b <;> simp
        refine ⟨startStop_jobs _ _ (by rw [a1.2.2.2.1, a1.2.2.2.2.1]; exact ih.jobs), fun h => absurd h hne, ?_, fun h => absurd h hne⟩
        show 0 < ((m.ack a).startStop b).limit
        rw [a2.2.2.2.1, a1.2.2.2.2.2.1]; exact ih.limit
    | cancel =>
      unfold Mon.cancel
      split
      · exact ⟨ih.jobs, by simp, ih.limit, by simp⟩
      · exact ih
    | close =>
      unfold Mon.cleanup
      split
      · exact ih
      · exact ⟨ih.jobs, by simp, ih.limit, by simp⟩
    | work =>
      rcases runJob_sends (run start es).heap m with ⟨h, _⟩ | ⟨hj, h⟩
      · rw [h]; exact ih
      · have hj1 : m.jobs = 1 := by have := ih.jobs; split at this <;> omega
        have hncr : m.state ≠ .creating := fun hc => by
          have := ih.jobs; rw [(ih.creating hc).1] at this; simp at this; exact hj this
        cases h with
        | nothing h => rw [h]; exact ⟨by simp [hj1], fun h => absurd h hncr, ih.limit, fun h => absurd h hncr⟩
        | junk0 h0 hq h => rw [h]; exact ⟨by simp [hj1], fun h => absurd h hncr, ih.limit, fun h => absurd h hncr⟩
        | data c q hq h0 hw h =>
          rw [h]
          obtain ⟨p1, p2, p3, p4, p5, p6, p7, p8, p9, p10, p11, p12⟩ := popped_fields m (run start es).heap c q hj1
          exact ⟨p12, fun h => absurd (p1 ▸ h) hncr, by rw [p5]; exact ih.limit, fun h => absurd (p1 ▸ h) hncr⟩
        | final q hq h0 h => rw [h]; exact ⟨by simp [hj1], by simp, ih.limit, by simp⟩
        | junk q hq h0 h => rw [h]; exact ⟨by simp [hj1], fun h => absurd h hncr, ih.limit, fun h => absurd h hncr⟩

end Pvxs.Mon
