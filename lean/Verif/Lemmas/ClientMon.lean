import Verif.Spec.ClientMon
/-
Invariants of client subscriptions.
-/
namespace Pvxs.ClientMon
open Spec.CMon

/-- where a subscription is registered, by state -/
structure Inv (o : Sub) : Prop where
  regc : o.reg = true → o.conn = true
  busy : o.state = .creating ∨ o.state = .idle ∨ o.state = .running → o.reg = true ∧ o.alive = true ∧ o.pending = false
  wait : o.state = .connecting → o.reg = false
  fl : o.state = .idle ∨ o.state = .running → o.fl = true
  dead : o.alive = false → o.state = .done

theorem mergeBack_none {u : Upd} : ∀ {q : List Entry}, mergeBack q u = none → q = [] ∨ ∃ p x, q = p ++ [.exc x]
  | [], _ => Or.inl rfl
  | [.data w], h => by simp [mergeBack] at h
  | [.exc x], _ => Or.inr ⟨[], x, rfl⟩
  | e :: e' :: q, h => by
    simp only [mergeBack, Option.map_eq_none_iff] at h
    rcases mergeBack_none h with h | ⟨p, x, h⟩
    · cases h
    · exact Or.inr ⟨e :: p, x, by rw [h]; rfl⟩

theorem mergeBack_some {u : Upd} : ∀ {q q' : List Entry}, mergeBack q u = some q' →
    ∃ p w, q = p ++ [.data w] ∧ q' = p ++ [.data (assign w u)]
  | [], _, h => by simp [mergeBack] at h
  | [.data w], q', h => by simp only [mergeBack, Option.some.injEq] at h; exact ⟨[], w, rfl, h.symm⟩
  | [.exc x], _, h => by simp [mergeBack] at h
  | e :: e' :: q, q', h => by
    simp only [mergeBack, Option.map_eq_some_iff] at h
    obtain ⟨q1, h1, h2⟩ := h
    obtain ⟨p, w, h3, h4⟩ := mergeBack_some h1
    exact ⟨e :: p, w, by rw [h3]; rfl, by rw [← h2, h4]; rfl⟩

/-- the ways an entry is added -/
inductive EnqEff (full : Bool) (q : List Entry) : Option Entry → List Entry × Nat → Prop where
  | none : EnqEff full q none (q, 0)
  | exc (x : Exc) : EnqEff full q (some (.exc x)) (q ++ [.exc x], 0)
  | data (u : Upd) (h : full = false ∨ q = [] ∨ ∃ p x, q = p ++ [.exc x]) : EnqEff full q (some (.data u)) (q ++ [.data u], 0)
  | merge (u w : Upd) (p : List Entry) (hf : full = true) (h : q = p ++ [.data w]) :
      EnqEff full q (some (.data u)) (p ++ [.data (assign w u)], 1)

theorem enqueue_eff (full : Bool) (q : List Entry) (e : Option Entry) : EnqEff full q e (enqueue full q e) := by
  unfold enqueue
  split
  · rename_i u
    cases full
    · exact .data u (Or.inl rfl)
    · simp only [if_true]
      rcases h : mergeBack q u with _ | q'
      · exact .data u (Or.inr (mergeBack_none h))
      · obtain ⟨p, w, h1, h2⟩ := mergeBack_some h
        subst h2
        exact .merge u w p rfl h1
  · exact .exc _
  · exact .none

theorem enqueue_ne {full : Bool} {q : List Entry} {e : Option Entry} (h : q ≠ []) : (enqueue full q e).1 ≠ [] := by
  have he := enqueue_eff full q e
  generalize enqueue full q e = x at he
  cases he <;> simp [h]

theorem queueAfter_ne {o : Sub} {r : Reply} {e : Option Entry} (h : o.queue ≠ []) : queueAfter o r e ≠ [] := by
  unfold queueAfter
  intro hn
  exact enqueue_ne h (List.append_eq_nil_iff.mp hn).1

/-- the flags after a message -/
theorem onUpdate_eq (o : Sub) (r : Reply) (e : Option Entry) :
    ∃ n w b c, onUpdate o r e = { o with queue := queueAfter o r e, nCliSquash := n, window := w, needNotify := b, owed := c } ∧
      w = (if o.pipeline then o.window - 1 else o.window) ∧
      (((queueAfter o r e = [] ↔ o.queue = []) ∧ b = o.needNotify ∧ c = o.owed) ∨
        (queueAfter o r e ≠ [] ∧ b = false ∧ c = (o.owed || o.needNotify))) := by
  have hne : o.queue ≠ [] → queueAfter o r e ≠ [] := queueAfter_ne
  unfold onUpdate
  simp only [List.isEmpty_iff, Bool.not_eq_true', List.isEmpty_eq_false_iff]
  split
  · rename_i h
    exact ⟨_, _, _, _, rfl, rfl, Or.inr ⟨h.2, rfl, rfl⟩⟩
  · rename_i h
    refine ⟨_, _, _, _, rfl, rfl, Or.inl ⟨⟨fun hq => ?_, fun hq => ?_⟩, rfl, rfl⟩⟩
    · exact Classical.byContradiction fun hn => hne hn hq
    · exact Classical.byContradiction fun hn => h ⟨hq, hn⟩

theorem inv_worker {o : Sub} (h : Inv o) (f : Sub → Sub × List Out) (hf : ∀ {o}, Inv o → Inv (f o).1) : Inv (settled o f).1 := by
  unfold settled doNotify
  apply hf
  split
  · exact ⟨h.regc, h.busy, h.wait, h.fl, h.dead⟩
  · exact h

theorem inv_push {o : Sub} (h : Inv o) (e : Entry) : Inv (push o e) := by
  obtain ⟨h1, h2, h3, h4, h5⟩ := h
  unfold push wantToNotify
  split <;> exact ⟨h1, h2, h3, h4, h5⟩

theorem push_eq (o : Sub) (e : Entry) : push o e = { o with
    queue := o.queue ++ [e]
    needNotify := o.needNotify && !o.queue.isEmpty
    owed := o.owed || (o.queue.isEmpty && o.needNotify) } := by
  unfold push wantToNotify
  cases h : o.queue.isEmpty <;> simp

/-- the outcomes of a channel becoming Active -/
inductive UpEff (o : Sub) : Sub → List Out → Prop where
  | none (h : o.pending = false) : UpEff o o []
  | dead (h : o.pending = true) (ha : o.alive = false) : UpEff o { o with pending := false } []
  | over (h : o.pending = true) (ha : o.alive = true) (hs : o.state ≠ .connecting) :
      UpEff o { o with pending := false, reg := true, fl := false } []
  | init (h : o.pending = true) (ha : o.alive = true) (hs : o.state = .connecting) (q : List Entry) (b c : Bool) (w : Nat)
      (hq : (o.maskConn = true ∧ q = o.queue ∧ b = o.needNotify ∧ c = o.owed) ∨
        (o.maskConn = false ∧ q = o.queue ++ [.exc .connected] ∧ b = (o.needNotify && !o.queue.isEmpty) ∧
          c = (o.owed || (o.queue.isEmpty && o.needNotify))))
      (hw : w = if o.pipeline then o.queueSize else o.window) :
      UpEff o { o with pending := false, reg := true, fl := false, state := .creating, queue := q, needNotify := b, owed := c, window := w }
        [.sent .init]

theorem up_eff (o : Sub) (hc : o.conn = true) : UpEff o (createOperations o).1 (createOperations o).2 := by
  unfold createOperations
  rw [if_neg (by simp [hc])]
  by_cases hp : o.pending = true
  rotate_left
  · rw [if_pos (by simp [hp])]; exact .none (by simpa using hp)
  rw [if_neg (by simp [hp])]
  by_cases ha : o.alive = true
  rotate_left
  · rw [if_pos (by simp [ha])]; exact .dead hp (by simpa using ha)
  rw [if_neg (by simp [ha])]
  unfold createOp
  by_cases hs : o.state = .connecting
  rotate_left
  · rw [if_pos hs]; exact .over hp ha hs
  rw [if_neg (by simpa using hs)]
  by_cases hm : o.maskConn = true <;> by_cases hpl : o.pipeline = true
  all_goals
    first
    | have := UpEff.init (o := o) hp ha hs _ _ _ _ (Or.inl ⟨hm, rfl, rfl, rfl⟩) rfl
      simpa [hm, hpl, push_eq] using this
    | have := UpEff.init (o := o) hp ha hs _ _ _ _ (Or.inr ⟨by simpa using hm, rfl, rfl, rfl⟩) rfl
      simpa [hm, hpl, push_eq] using this

/-- the outcomes of losing the channel -/
inductive DownEff (o : Sub) : Sub → Prop where
  | keep (h : o.reg = false ∨ o.alive = false ∨ o.state = .connecting ∨ o.state = .done) : DownEff o { o with conn := false, reg := false }
  | wait (h : o.reg = true) (ha : o.alive = true) (hs : o.state ≠ .connecting) (hd : o.state ≠ .done) (q : List Entry) (b c : Bool)
      (hq : (o.maskDiscon = true ∧ q = o.queue ∧ b = o.needNotify ∧ c = o.owed) ∨
        (o.maskDiscon = false ∧ q = o.queue ++ [.exc .disconnect] ∧ b = (o.needNotify && !o.queue.isEmpty) ∧
          c = (o.owed || (o.queue.isEmpty && o.needNotify)))) :
      DownEff o { o with conn := false, reg := false, pending := true, state := .connecting, queue := q, needNotify := b, owed := c }

theorem down_eff (o : Sub) : DownEff o (chanDown o) := by
  unfold chanDown
  by_cases hr : o.reg = true
  rotate_left
  · have hr' : o.reg = false := by simpa using hr
    have := DownEff.keep (o := o) (Or.inl hr')
    simpa [hr'] using this
  rw [if_pos hr]
  by_cases ha : o.alive = true
  rotate_left
  · rw [if_neg (by simpa using ha)]; exact .keep (Or.inr (Or.inl (by simpa using ha)))
  rw [if_pos ha]
  unfold disconnected
  by_cases hs : o.state = .connecting ∨ o.state = .done
  · rw [if_pos hs]; exact .keep (Or.inr (Or.inr hs))
  rw [if_neg hs]
  have h1 : o.state ≠ .connecting := fun h => hs (Or.inl h)
  have h2 : o.state ≠ .done := fun h => hs (Or.inr h)
  by_cases hm : o.maskDiscon = true
  · have := DownEff.wait (o := o) hr ha h1 h2 _ _ _ (Or.inl ⟨hm, rfl, rfl, rfl⟩)
    simpa [hm] using this
  · have := DownEff.wait (o := o) hr ha h1 h2 _ _ _ (Or.inr ⟨by simpa using hm, rfl, rfl, rfl⟩)
    simpa [hm, push_eq] using this

theorem inv_createOperations {o : Sub} (h : Inv o) (hc : o.conn = true) : Inv (createOperations o).1 := by
  obtain ⟨h1, h2, h3, h4, h5⟩ := h
  have he := up_eff o hc
  generalize (createOperations o).1 = o' at he ⊢
  generalize (createOperations o).2 = outs at he
  cases he <;> constructor <;> grind

theorem inv_chanDown {o : Sub} (h : Inv o) : Inv (chanDown o) := by
  obtain ⟨h1, h2, h3, h4, h5⟩ := h
  have he := down_eff o
  generalize chanDown o = o' at he ⊢
  cases he <;> constructor <;> grind

theorem inv_cancelImpl {o : Sub} (h : Inv o) : Inv (cancelImpl o).1 := by
  obtain ⟨h1, h2, h3, h4, h5⟩ := h
  simp only [cancelImpl]
  constructor <;> grind

theorem inv_tickAck {o : Sub} (h : Inv o) : Inv (tickAck o).1 := by
  obtain ⟨h1, h2, h3, h4, h5⟩ := h
  simp only [tickAck]
  constructor <;> grind

theorem inv_pause {o : Sub} (h : Inv o) (p : Bool) : Inv (pause o p).1 := by
  obtain ⟨h1, h2, h3, h4, h5⟩ := h
  simp only [pause]
  constructor <;> grind

theorem inv_popHead {o : Sub} (h : Inv o) (q : List Entry) : Inv (popHead o q) := by
  obtain ⟨h1, h2, h3, h4, h5⟩ := h
  unfold popHead
  split <;> exact ⟨h1, h2, h3, h4, h5⟩

theorem inv_popLoop (n : Nat) : ∀ (first : Bool) {o : Sub}, Inv o → Inv (popLoop n first o).1 := by
  induction n with
  | zero => intro first o h; exact h
  | succ n ih =>
    intro first o h
    unfold popLoop
    split
    · exact ⟨h.regc, h.busy, h.wait, h.fl, h.dead⟩
    · split
      · exact inv_popHead h _
      · exact h
    · exact ih _ (inv_popHead h _)

/-- what a message with an update, or the last one, puts in the queue, and what is remembered -/
inductive Body (o : Sub) (r : Reply) : Option Entry → (Nat → Nat) → Prop where
  | error (h : r.success = false) : Body o r (some (.exc .remote)) o.cache
  | data (h : r.carries = true) : Body o r (some (.data (sync o.cache r))) (sync o.cache r).content
  | none (h : r.success = true) (hc : r.carries = false) : Body o r none o.cache

/-- the outcomes of a message -/
inductive MsgEff (o : Sub) (r : Reply) (i : InitAct) : Sub → List Out → Prop where
  | ignore (h : o.reg = false ∨ (o.alive = false ∧ ¬ (r.carries = true ∧ o.fl = false))) : MsgEff o r i o []
  | crash (h : o.reg = true) (hc : r.carries = true) (hf : o.fl = false) : MsgEff o r i { o with crashed := true } []
  | close (h : o.reg = true) (ha : o.alive = true) (hc : ¬ (r.carries = true ∧ o.fl = false)) (hf : fits o r = false) :
      MsgEff o r i (chanDown o) [.closed]
  | ready (h : o.reg = true) (ha : o.alive = true) (hs : o.state = .creating) (hi : r.init = true) (hk : r.success = true)
      (hf : r.final = false) (hn : o.hasInit = false ∨ i = .ok) :
      MsgEff o r i { o with cache := fun _ => 0, fl := true, state := if o.autostart then .running else .idle }
        (if o.autostart then [.sent .start] else [])
  | readyFinal (h : o.reg = true) (ha : o.alive = true) (hs : o.state = .creating) (hi : r.init = true) (hk : r.success = true)
      (hf : r.final = true) (hn : o.hasInit = false ∨ i = .ok) :
      MsgEff o r i { o with cache := fun _ => 0, fl := true, state := .done, reg := false, timer := false }
        (if o.autostart then [.sent .start] else [])
  | initThrows (h : o.reg = true) (ha : o.alive = true) (hs : o.state = .creating) (hi : r.init = true) (hk : r.success = true)
      (hn : o.hasInit = true) (ht : i = .throws) :
      MsgEff o r i { o with cache := fun _ => 0, fl := true, state := .done, reg := false, timer := false }
        (if r.final then [] else [.sent .destroy])
  | initCancels (h : o.reg = true) (ha : o.alive = true) (hs : o.state = .creating) (hi : r.init = true) (hk : r.success = true)
      (hn : o.hasInit = true) (ht : i = .cancels) :
      MsgEff o r i { o with cache := fun _ => 0, fl := true, state := .done, reg := false, timer := false, hasEvent := false, freed := true }
        (.sent .destroy :: if r.final then [] else [.sent .destroy])
  | initError (h : o.reg = true) (ha : o.alive = true) (hs : o.state = .creating) (hi : r.init = true) (hk : r.success = false) :
      MsgEff o r i { o with state := .done, reg := false, timer := false, queue := o.queue ++ [.exc .remote], needNotify := false, owed := o.owed || o.needNotify }
        (if r.final then [] else [.sent .destroy])
  | update (h : o.reg = true) (ha : o.alive = true) (hs : o.state = .idle ∨ o.state = .running) (hi : r.init = false)
      (e : Option Entry) (cache : Nat → Nat) (hb : Body o r e cache) (n w : Nat) (b c : Bool) (st : St) (rg ap : Bool)
      (hw : w = if o.pipeline then o.window - 1 else o.window)
      (hbc : ((queueAfter o r e = [] ↔ o.queue = []) ∧ b = o.needNotify ∧ c = o.owed) ∨
        (queueAfter o r e ≠ [] ∧ b = false ∧ c = (o.owed || o.needNotify)))
      (hst : (r.final = true ∧ st = .done ∧ rg = false ∧ ap = false) ∨
        (r.final = false ∧ st = o.state ∧ rg = true ∧ ap = o.timer)) :
      MsgEff o r i { o with cache := cache, queue := queueAfter o r e, nCliSquash := n, window := w, needNotify := b, owed := c, state := st, reg := rg, timer := ap } []

theorem finishUp_live {o : Sub} {r : Reply} (h : o.state ≠ .done) (hr : o.reg = true) :
    ∃ st rg ap, finishUp o r = ({ o with state := st, reg := rg, timer := ap }, []) ∧
      ((r.final = true ∧ st = .done ∧ rg = false ∧ ap = false) ∨ (r.final = false ∧ st = o.state ∧ rg = true ∧ ap = o.timer)) := by
  unfold finishUp
  by_cases hf : r.final = true
  · rw [if_pos (Or.inr hf), if_pos hf]
    exact ⟨_, _, _, rfl, Or.inl ⟨hf, rfl, rfl, rfl⟩⟩
  · rw [if_neg (by simp [h, hf])]
    exact ⟨o.state, o.reg, o.timer, rfl, Or.inr ⟨by simpa using hf, rfl, hr, rfl⟩⟩

theorem success_final {r : Reply} (h : r.success = false) (hi : r.init = false) : r.final = true := by
  unfold Reply.success at h
  rw [hi] at h
  revert h
  cases r.final <;> simp

theorem msg_eff (o : Sub) (r : Reply) (i : InitAct) : MsgEff o r i (msg o r i).1 (msg o r i).2 := by
  unfold msg
  by_cases hreg : o.reg = true
  rotate_left
  · rw [if_pos (by simp [hreg])]; exact .ignore (Or.inl (by simpa using hreg))
  rw [if_neg (by simp [hreg])]
  split
  · rename_i h
    exact .crash hreg h.1 (by simpa using h.2)
  rename_i hc
  have hc' : ¬ (r.carries = true ∧ o.fl = false) := by simpa using hc
  by_cases hal : o.alive = true
  rotate_left
  · rw [if_pos (by simp [hal])]; exact .ignore (Or.inr ⟨by simpa using hal, hc'⟩)
  rw [if_neg (by simp [hal])]
  by_cases hfit : fits o r = true
  rotate_left
  · rw [if_pos (by simp [hfit])]; exact .close hreg hal hc' (by simpa using hfit)
  rw [if_neg (by simp [hfit])]
  by_cases hinit : r.init = true
  · have hs : o.state = .creating := by
      unfold fits at hfit; rw [hinit] at hfit
      revert hfit; cases o.state <;> simp
    rw [if_pos hinit]
    by_cases hk : r.success = true
    · rw [if_pos hk]
      by_cases hn : o.hasInit = true
      · cases i
        · by_cases ha : o.autostart = true <;> by_cases hf : r.final = true
          · have := MsgEff.readyFinal (o := o) (r := r) (i := .ok) hreg hal hs hinit hk hf (Or.inr rfl)
            simpa [onInitReply, pause, finishUp, hn, ha, hf] using this
          · have := MsgEff.ready (o := o) (r := r) (i := .ok) hreg hal hs hinit hk (by simpa using hf) (Or.inr rfl)
            simpa [onInitReply, pause, finishUp, hn, ha, hf] using this
          · have := MsgEff.readyFinal (o := o) (r := r) (i := .ok) hreg hal hs hinit hk hf (Or.inr rfl)
            simpa [onInitReply, pause, finishUp, hn, ha, hf] using this
          · have := MsgEff.ready (o := o) (r := r) (i := .ok) hreg hal hs hinit hk (by simpa using hf) (Or.inr rfl)
            simpa [onInitReply, pause, finishUp, hn, ha, hf] using this
        · have := MsgEff.initThrows (o := o) (r := r) (i := .throws) hreg hal hs hinit hk hn rfl
          simpa [onInitReply, finishUp, hn] using this
        · have := MsgEff.initCancels (o := o) (r := r) (i := .cancels) hreg hal hs hinit hk hn rfl
          simpa [onInitReply, finishUp, hn, cancel, cancelImpl] using this
      · have hn' : o.hasInit = false := by simpa using hn
        by_cases ha : o.autostart = true <;> by_cases hf : r.final = true
        · have := MsgEff.readyFinal (o := o) (r := r) (i := i) hreg hal hs hinit hk hf (Or.inl hn')
          simpa [onInitReply, pause, finishUp, hn, ha, hf] using this
        · have := MsgEff.ready (o := o) (r := r) (i := i) hreg hal hs hinit hk (by simpa using hf) (Or.inl hn')
          simpa [onInitReply, pause, finishUp, hn, ha, hf] using this
        · have := MsgEff.readyFinal (o := o) (r := r) (i := i) hreg hal hs hinit hk hf (Or.inl hn')
          simpa [onInitReply, pause, finishUp, hn, ha, hf] using this
        · have := MsgEff.ready (o := o) (r := r) (i := i) hreg hal hs hinit hk (by simpa using hf) (Or.inl hn')
          simpa [onInitReply, pause, finishUp, hn, ha, hf] using this
    · rw [if_neg hk]
      have := MsgEff.initError (o := o) (r := r) (i := i) hreg hal hs hinit (by simpa using hk)
      simpa [finishUp, wantToNotify] using this
  · have hinit' : r.init = false := by simpa using hinit
    have hs : o.state = .idle ∨ o.state = .running := by
      unfold fits at hfit; rw [hinit'] at hfit
      revert hfit; cases o.state <;> simp
    have hnd : o.state ≠ .done := by rcases hs with h | h <;> rw [h] <;> simp
    rw [if_neg hinit]
    by_cases hk : r.success = true
    · rw [if_neg (by simp [hk])]
      by_cases hcar : r.carries = true
      · rw [if_pos hcar]
        obtain ⟨n, w, b, c, he, hw, hbc⟩ := onUpdate_eq { o with cache := (sync o.cache r).content } r (some (.data (sync o.cache r)))
        simp only [he]
        obtain ⟨st, rg, ap, hfu, hst⟩ := finishUp_live (o := { o with cache := (sync o.cache r).content, queue := queueAfter { o with cache := (sync o.cache r).content } r (some (.data (sync o.cache r))), nCliSquash := n, window := w, needNotify := b, owed := c }) (r := r) hnd hreg
        rw [hfu]
        exact .update (o := o) hreg hal hs hinit' _ _ (.data hcar) n w b c _ _ _ hw hbc hst
      · rw [if_neg hcar]
        obtain ⟨n, w, b, c, he, hw, hbc⟩ := onUpdate_eq o r none
        rw [he]
        obtain ⟨st, rg, ap, hfu, hst⟩ := finishUp_live (o := { o with queue := queueAfter o r none, nCliSquash := n, window := w, needNotify := b, owed := c }) (r := r) hnd hreg
        rw [hfu]
        exact .update hreg hal hs hinit' _ _ (.none hk (by simpa using hcar)) n w b c _ _ _ hw hbc hst
    · have hk' : r.success = false := by simpa using hk
      have hf := success_final hk' hinit'
      rw [if_pos (by simp [hk])]
      obtain ⟨n, w, b, c, he, hw, hbc⟩ := onUpdate_eq { o with state := .done } r (some (.exc .remote))
      rw [he]
      simp only [finishUp, hf, or_true, if_true]
      exact MsgEff.update (o := o) (r := r) (i := i) hreg hal hs hinit' _ _ (.error hk') n w b c _ _ _ hw hbc (Or.inl ⟨hf, rfl, rfl, rfl⟩)

theorem inv_msg {o : Sub} (h : Inv o) (r : Reply) (i : InitAct) : Inv (msg o r i).1 := by
  have hd := inv_chanDown h
  obtain ⟨h1, h2, h3, h4, h5⟩ := h
  have he := msg_eff o r i
  generalize (msg o r i).1 = o' at he ⊢
  generalize (msg o r i).2 = outs at he
  cases he with
  | ignore _ => exact ⟨h1, h2, h3, h4, h5⟩
  | crash _ _ _ => exact ⟨h1, h2, h3, h4, h5⟩
  | close _ _ _ _ => exact hd
  | ready _ _ _ _ _ _ _ => constructor <;> grind
  | readyFinal _ _ _ _ _ _ _ => constructor <;> grind
  | initThrows _ _ _ _ _ _ _ => constructor <;> grind
  | initCancels _ _ _ _ _ _ _ => constructor <;> grind
  | initError _ _ _ _ _ => constructor <;> grind
  | update _ _ _ _ _ _ _ _ _ _ _ _ _ _ _ _ _ => constructor <;> grind

theorem inv_step {o : Sub} (h : Inv o) (e : Ev) : Inv (step o e).1 := by
  cases e with
  | up => exact inv_worker h _ fun {o} h => inv_createOperations (o := { o with conn := true }) ⟨fun _ => rfl, h.busy, h.wait, h.fl, h.dead⟩ rfl
  | down => exact inv_worker h _ fun h => inv_chanDown h
  | msg r i => exact inv_worker h _ fun h => inv_msg h r i
  | pause p => exact inv_worker h _ fun h => inv_pause h p
  | pop =>
    show Inv (pop o).1
    unfold pop
    split
    · exact ⟨h.regc, h.busy, h.wait, h.fl, h.dead⟩
    · exact inv_popHead h _
  | popN n => exact inv_popLoop _ _ h
  | cancel =>
    refine inv_worker h _ fun h => ?_
    have := inv_cancelImpl h
    exact ⟨this.regc, this.busy, this.wait, this.fl, this.dead⟩
  | drop =>
    refine inv_worker h _ fun {o} h => ?_
    obtain ⟨h1, h2, h3, h4, h5⟩ := inv_cancelImpl h
    have hs : (cancelImpl o).1.state = .done := by unfold cancelImpl; split <;> rfl
    refine ⟨h1, ?_, ?_, ?_, fun _ => hs⟩ <;> simp only [hs] <;> simp
  | tick => exact inv_worker h _ fun h => inv_tickAck h
  | deliver =>
    have := inv_worker h (fun o => (o, [])) (fun h => h)
    simpa [settled, step] using this

theorem inv_run {o : Sub} (h : Inv o) (es : List Ev) : Inv (run o es).1 := by
  induction es generalizing o with
  | nil => exact h
  | cons e es ih => exact ih (inv_step h e)

theorem inv_begin (p : Params) (fail up : Bool) : Inv (begin (fresh p) fail up).1 := by
  cases fail
  · cases up
    · constructor <;> simp [begin, fresh, createOperations]
    · refine inv_createOperations (o := { fresh p with conn := true, pending := true }) ?_ rfl
      constructor <;> simp [fresh]
  · constructor <;> simp [begin, fresh]

/-! ### C36 -/

theorem sinceEmpty_of_none {b : List Out} (h : b.any isEmpty = false) : sinceEmpty b = b := by
  cases b with
  | nil => rfl
  | cons x xs => simp only [sinceEmpty, h]; simp

theorem sinceEmpty_append (a b : List Out) : sinceEmpty (a ++ b) = if b.any isEmpty then sinceEmpty b else sinceEmpty a ++ b := by
  induction a with
  | nil =>
    cases h : b.any isEmpty
    · simp [sinceEmpty_of_none h, sinceEmpty]
    · simp
  | cons x xs ih =>
    have hx : (x :: (xs ++ b)).any isEmpty = ((x :: xs).any isEmpty || b.any isEmpty) := by simp [Bool.or_assoc]
    simp only [List.cons_append, sinceEmpty, ih]
    by_cases h : b.any isEmpty = true
    · rw [if_pos h, if_pos (by rw [hx, h]; simp)]; simp [h]
    · by_cases h1 : (x :: xs).any isEmpty = true
      · rw [if_pos h1, if_pos (by rw [hx, h1]; simp), if_neg h]
      · rw [if_neg h1, if_neg (by rw [hx, Bool.not_eq_true _ |>.mp h1]; simpa using h), if_neg h]; rfl

theorem calls_append (a b : List Out) : calls (a ++ b) = calls a + calls b := by simp [calls]
theorem empties_append (a b : List Out) : empties (a ++ b) = empties a + empties b := by simp [empties]

/-- the callback was called, or will be, since the queue was found empty -/
structure Notified (o : Sub) (outs : List Out) : Prop where
  told : o.hasEvent = true → o.needNotify = false → o.owed = true ∨ .called ∈ sinceEmpty outs
  ready : o.hasEvent = true → o.needNotify = true → o.queue = [] ∨ .called ∈ sinceEmpty outs
  count : calls outs + o.owed.toNat + o.needNotify.toNat ≤ empties outs + 1 ∨
    (o.owed = false ∧ o.pending = false ∧ o.reg = false ∧ calls outs ≤ 1 ∧ (o.state = .connecting ∨ o.state = .done))

/-- what the worker does to the queue and the flags -/
structure Quiet (o o' : Sub) (outs : List Out) : Prop where
  noEmpty : outs.any isEmpty = false
  noCall : .called ∉ outs
  ev : o'.hasEvent = true → o.hasEvent = true
  flags : ((o'.queue = [] ↔ o.queue = []) ∧ o'.needNotify = o.needNotify ∧ o'.owed = o.owed) ∨
    (o'.queue ≠ [] ∧ o'.needNotify = false ∧ o'.owed = (o.owed || o.needNotify) ∧ (o.pending = true ∨ o.reg = true))
  stuck : o.pending = false → o.reg = false → (o.state = .connecting ∨ o.state = .done) →
    o'.pending = false ∧ o'.reg = false ∧ (o'.state = .connecting ∨ o'.state = .done)

theorem quiet_up (o : Sub) : Quiet o (createOperations { o with conn := true }).1 (createOperations { o with conn := true }).2 := by
  have he := up_eff { o with conn := true } rfl
  generalize (createOperations { o with conn := true }).1 = o' at he ⊢
  generalize (createOperations { o with conn := true }).2 = outs at he ⊢
  cases he with
  | none _ => constructor <;> grind [isEmpty]
  | dead _ _ => constructor <;> grind [isEmpty]
  | over _ _ _ => constructor <;> grind [isEmpty]
  | init h ha hs q b c w hq hw =>
    simp only at h ha hs hq hw
    refine ⟨rfl, by simp, id, ?_, by simp [h]⟩
    simp only
    rcases hq with ⟨_, rfl, rfl, rfl⟩ | ⟨_, rfl, rfl, rfl⟩
    · exact Or.inl ⟨Iff.rfl, rfl, rfl⟩
    · cases hoq : o.queue <;> simp [h]

theorem quiet_down (o : Sub) : Quiet o (chanDown o) [] := by
  have he := down_eff o
  generalize chanDown o = o' at he ⊢
  cases he with
  | keep _ => constructor <;> grind [isEmpty]
  | wait h ha hs hd q b c hq =>
    refine ⟨rfl, by simp, id, ?_, by simp [h]⟩
    simp only
    rcases hq with ⟨_, rfl, rfl, rfl⟩ | ⟨_, rfl, rfl, rfl⟩
    · exact Or.inl ⟨Iff.rfl, rfl, rfl⟩
    · cases hoq : o.queue <;> simp [h]

theorem quiet_tick (o : Sub) : Quiet o (tickAck o).1 (tickAck o).2 := by
  simp only [tickAck]
  constructor <;> grind [isEmpty]

theorem quiet_pause (o : Sub) (p : Bool) : Quiet o (pause o p).1 (pause o p).2 := by
  simp only [pause]
  constructor <;> grind [isEmpty]

theorem quiet_cancel (o : Sub) : Quiet o (cancel o).1 (cancel o).2 := by
  simp only [cancel, cancelImpl]
  constructor <;> grind [isEmpty]

theorem quiet_drop (o : Sub) : Quiet o ({ (cancelImpl o).1 with alive := false }) (cancelImpl o).2 := by
  simp only [cancelImpl]
  constructor <;> grind [isEmpty]

theorem quiet_msg (o : Sub) (r : Reply) (i : InitAct) : Quiet o (msg o r i).1 (msg o r i).2 := by
  have hd := quiet_down o
  have he := msg_eff o r i
  generalize (msg o r i).1 = o' at he ⊢
  generalize (msg o r i).2 = outs at he ⊢
  cases he with
  | ignore _ => constructor <;> grind [isEmpty]
  | crash _ _ _ => constructor <;> grind [isEmpty]
  | close _ _ _ _ => obtain ⟨h1, h2, h3, h4, h5⟩ := hd; exact ⟨rfl, by simp, h3, h4, h5⟩
  | ready _ _ _ _ _ _ _ => constructor <;> grind [isEmpty]
  | readyFinal _ _ _ _ _ _ _ => constructor <;> grind [isEmpty]
  | initThrows _ _ _ _ _ _ _ => constructor <;> grind [isEmpty]
  | initCancels _ _ _ _ _ _ _ => constructor <;> grind [isEmpty]
  | initError h _ _ _ _ => exact ⟨by cases r.final <;> rfl, by cases r.final <;> simp, id, Or.inr ⟨by simp, rfl, rfl, Or.inr h⟩, by simp [h]⟩
  | update _ _ _ _ _ _ _ _ _ _ _ _ _ _ _ _ _ => constructor <;> grind [isEmpty]

theorem calls_zero {outs : List Out} (h : .called ∉ outs) : calls outs = 0 := by
  unfold calls
  rw [List.length_eq_zero_iff, List.filter_eq_nil_iff]
  intro x hx hc
  cases x <;> simp [isCall] at hc
  exact h hx

theorem notified_quiet {o o' : Sub} {outs outs' : List Out} (h : Notified o outs) (hq : Quiet o o' outs') : Notified o' (outs ++ outs') := by
  obtain ⟨q1, q2, q3, q4, q5⟩ := hq
  obtain ⟨t1, t2, t3⟩ := h
  have hs : sinceEmpty (outs ++ outs') = sinceEmpty outs ++ outs' := by
    rw [sinceEmpty_append, q1]; simp
  refine ⟨?_, ?_, ?_⟩
  · rw [hs, List.mem_append]; grind
  · rw [hs, List.mem_append]; grind
  · rw [calls_append, empties_append, calls_zero q2]
    rcases t3 with t3 | ⟨t3, t4, t5, t6, t7⟩
    · left
      rcases q4 with ⟨_, hb, hc⟩ | ⟨_, hb, hc, _⟩
      · rw [hb, hc]; omega
      · rw [hb, hc]
        revert t3; cases o.owed <;> cases o.needNotify <;> simp <;> omega
    · right
      obtain ⟨p1, p2, p3⟩ := q5 t4 t5 t7
      refine ⟨?_, p1, p2, by omega, p3⟩
      rcases q4 with ⟨_, hb, hc⟩ | ⟨_, hb, hc, hx⟩
      · rw [hc, t3]
      · rw [t4, t5] at hx; simp at hx

theorem notified_doNotify {o : Sub} {outs : List Out} (h : Notified o outs) : Notified (doNotify o).1 (outs ++ (doNotify o).2) := by
  unfold doNotify
  split
  · rename_i ho
    obtain ⟨t1, t2, t3⟩ := h
    cases hev : o.hasEvent
    · simp only [Bool.false_eq_true, if_false, List.append_nil]
      refine ⟨by simp [hev], by simp [hev], ?_⟩
      rcases t3 with t3 | ⟨t3, _⟩
      · left; rw [ho] at t3; simp at t3 ⊢; omega
      · rw [ho] at t3; cases t3
    · simp only [if_true]
      have hs : sinceEmpty (outs ++ [.called]) = sinceEmpty outs ++ [.called] := by
        rw [sinceEmpty_append]; rfl
      refine ⟨fun _ _ => Or.inr (by rw [hs]; simp), fun _ _ => Or.inr (by rw [hs]; simp), ?_⟩
      rcases t3 with t3 | ⟨t3, _⟩
      · left; rw [ho] at t3; rw [calls_append, empties_append, show calls [Out.called] = 1 from rfl, show empties [Out.called] = 0 from rfl]; simp at t3 ⊢; omega
      · rw [ho] at t3; cases t3
  · simpa using h

theorem notified_settled {o : Sub} {outs : List Out} (h : Notified o outs) (f : Sub → Sub × List Out)
    (hf : ∀ o, Quiet o (f o).1 (f o).2) : Notified (settled o f).1 (outs ++ (settled o f).2) := by
  unfold settled
  have := notified_quiet (notified_doNotify h) (hf (doNotify o).1)
  rw [List.append_assoc] at this
  exact this

theorem notified_empty {o : Sub} {outs : List Out} (h : Notified o outs) (hq : o.queue = []) :
    Notified { o with needNotify := true } (outs ++ [.empty]) := by
  obtain ⟨t1, t2, t3⟩ := h
  refine ⟨by simp, fun _ _ => Or.inl hq, ?_⟩
  rcases t3 with t3 | ⟨t3, t4, t5, t6, t7⟩
  · left; rw [calls_append, empties_append, show calls [Out.empty] = 0 from rfl, show empties [Out.empty] = 1 from rfl]; simp at t3 ⊢; omega
  · right; exact ⟨t3, t4, t5, by rw [calls_append]; simpa [calls, isCall] using t6, t7⟩

theorem notified_popped {o : Sub} {outs : List Out} (h : Notified o outs) {e : Entry} {q : List Entry} (hq : o.queue = e :: q) :
    Notified (popHead o q) (outs ++ [.popped e]) := by
  obtain ⟨t1, t2, t3⟩ := h
  have hs : sinceEmpty (outs ++ [.popped e]) = sinceEmpty outs ++ [.popped e] := by rw [sinceEmpty_append]; rfl
  have hc : calls (outs ++ [.popped e]) = calls outs := by rw [calls_append]; rfl
  have hem : empties (outs ++ [.popped e]) = empties outs := by rw [empties_append]; rfl
  rw [hq] at t2
  unfold popHead
  split
  all_goals
    refine ⟨by rw [hs, List.mem_append]; grind, by rw [hs, List.mem_append]; grind, ?_⟩
    rw [hc, hem]; exact t3

theorem notified_popLoop (n : Nat) : ∀ (first : Bool) {o : Sub} {outs : List Out}, Notified o outs →
    Notified (popLoop n first o).1 (outs ++ (popLoop n first o).2) := by
  induction n with
  | zero => intro first o outs h; simpa [popLoop] using h
  | succ n ih =>
    intro first o outs h
    unfold popLoop
    split
    · rename_i hq; exact notified_empty h hq
    · rename_i x rest hq
      split
      · exact notified_popped h hq
      · simpa using h
    · rename_i u rest hq
      have := ih false (notified_popped h hq)
      rw [List.append_assoc] at this
      exact this

theorem notified_ret {o : Sub} {outs : List Out} (h : Notified o outs) (b : Bool) : Notified o (outs ++ [.ret b]) := by
  obtain ⟨t1, t2, t3⟩ := h
  have hs : sinceEmpty (outs ++ [.ret b]) = sinceEmpty outs ++ [.ret b] := by rw [sinceEmpty_append]; rfl
  refine ⟨by rw [hs, List.mem_append]; grind, by rw [hs, List.mem_append]; grind, ?_⟩
  rw [calls_append, empties_append]
  exact t3

theorem notified_step {o : Sub} {outs : List Out} (h : Notified o outs) (e : Ev) : Notified (step o e).1 (outs ++ (step o e).2) := by
  cases e with
  | up => exact notified_settled h _ quiet_up
  | down => exact notified_settled h _ quiet_down
  | msg r i => exact notified_settled h _ fun o => quiet_msg o r i
  | pause p => exact notified_settled h _ fun o => quiet_pause o p
  | pop =>
    show Notified (pop o).1 (outs ++ (pop o).2)
    unfold pop
    split
    · rename_i hq; exact notified_empty h hq
    · rename_i hq; exact notified_popped h hq
  | popN n =>
    have := notified_ret (notified_popLoop (if n = 0 then o.queueSize else n) true h) (!(popLoop (if n = 0 then o.queueSize else n) true o).1.needNotify)
    rw [List.append_assoc] at this
    exact this
  | cancel => exact notified_settled h _ quiet_cancel
  | drop => exact notified_settled h _ quiet_drop
  | tick => exact notified_settled h _ quiet_tick
  | deliver => exact notified_doNotify h

theorem notified_run {o : Sub} {outs : List Out} (h : Notified o outs) (es : List Ev) : Notified (run o es).1 (outs ++ (run o es).2) := by
  induction es generalizing o outs with
  | nil => simpa [run] using h
  | cons e es ih =>
    have := ih (notified_step h e)
    rw [List.append_assoc] at this
    exact this

theorem notified_begin (p : Params) (fail up : Bool) : Notified (begin (fresh p) fail up).1 (begin (fresh p) fail up).2 := by
  cases fail
  · have h0 : Notified { fresh p with conn := up, pending := true } [] := by
      constructor <;> simp [fresh, calls, empties, sinceEmpty]
    have : Quiet { fresh p with conn := up, pending := true } (createOperations { fresh p with conn := up, pending := true }).1
        (createOperations { fresh p with conn := up, pending := true }).2 := by
      cases up
      · exact ⟨rfl, by simp [createOperations], id, Or.inl ⟨Iff.rfl, rfl, rfl⟩, fun h => by simp at h⟩
      · exact quiet_up _
    exact notified_quiet h0 this
  · exact ⟨fun _ _ => Or.inr (by simp [begin, fresh, sinceEmpty, isEmpty]), fun _ _ => Or.inr (by simp [begin, fresh, sinceEmpty, isEmpty]),
      Or.inr ⟨rfl, rfl, rfl, Nat.le_refl 1, Or.inl rfl⟩⟩

/-! ### C37 -/

theorem popped_append (a b : List Out) : popped (a ++ b) = popped a ++ popped b := by simp [popped]

theorem doNotify_eq (o : Sub) : ∃ c outs, doNotify o = ({ o with owed := c }, outs) ∧ (outs = [] ∨ outs = [.called]) := by
  unfold doNotify
  split
  · split
    · exact ⟨_, _, rfl, Or.inr rfl⟩
    · exact ⟨_, _, rfl, Or.inl rfl⟩
  · exact ⟨o.owed, [], rfl, Or.inl rfl⟩

/-- the stream is what was popped and what is queued, but for merged updates -/
structure Streamed (A P : List Entry) (latest : Nat → Nat) (o : Sub) : Prop where
  sq : Squashed A (P ++ o.queue)
  exact : o.pipeline = true → A = P ++ o.queue
  cache : o.state = .idle ∨ o.state = .running → o.cache = latest

theorem assign_merged (w u : Upd) : assign w u = merged w u := rfl

theorem squashed_enqueue {A P q : List Entry} (h : Squashed A (P ++ q)) (full : Bool) (e : Option Entry) :
    Squashed (A ++ e.toList) (P ++ (enqueue full q e).1) := by
  have he := enqueue_eff full q e
  generalize enqueue full q e = x at he
  cases he with
  | none => simpa using h
  | exc x => rw [← List.append_assoc]; exact .keep _ h
  | data u _ => rw [← List.append_assoc]; exact .keep _ h
  | merge u w p _ hq =>
    subst hq
    rw [← List.append_assoc] at h ⊢
    exact .merge h

theorem squashed_queueAfter {A P : List Entry} {o : Sub} (h : Squashed A (P ++ o.queue)) (r : Reply) (e : Option Entry) :
    Squashed (A ++ (e.toList ++ if r.final then [.exc .finished] else [])) (P ++ queueAfter o r e) := by
  have := squashed_enqueue h (decide (o.queueSize ≤ o.queue.length) && !o.pipeline) e
  unfold queueAfter
  by_cases hf : r.final = true
  · rw [if_pos hf, ← List.append_assoc, ← List.append_assoc]
    exact .keep _ this
  · rw [if_neg hf, List.append_nil, List.append_nil]; exact this

theorem exact_queueAfter {A P : List Entry} {o : Sub} (h : A = P ++ o.queue) (hp : o.pipeline = true) (r : Reply) (e : Option Entry) :
    A ++ (e.toList ++ if r.final then [.exc .finished] else []) = P ++ queueAfter o r e := by
  have he := enqueue_eff (decide (o.queueSize ≤ o.queue.length) && !o.pipeline) o.queue e
  unfold queueAfter
  rw [hp] at he ⊢
  generalize enqueue (decide (o.queueSize ≤ o.queue.length) && !true) o.queue e = x at he
  cases he <;> simp_all

theorem streamed_popHead {A P : List Entry} {latest : Nat → Nat} {o : Sub} (h : Streamed A P latest o) {e : Entry} {q : List Entry}
    (hq : o.queue = e :: q) : Streamed A (P ++ [e]) latest (popHead o q) := by
  obtain ⟨h1, h2, h3⟩ := h
  rw [hq] at h1 h2
  unfold popHead
  split <;> exact ⟨by simpa using h1, by simpa using h2, h3⟩

theorem streamed_popLoop (n : Nat) : ∀ (first : Bool) {A P : List Entry} {latest : Nat → Nat} {o : Sub}, Streamed A P latest o →
    Streamed A (P ++ popped (popLoop n first o).2) latest (popLoop n first o).1 := by
  induction n with
  | zero => intro first A P latest o h; simpa [popLoop, popped] using h
  | succ n ih =>
    intro first A P latest o h
    unfold popLoop
    split
    · simp only [popped, List.filterMap_cons, List.filterMap_nil, List.append_nil]
      exact ⟨h.sq, h.exact, h.cache⟩
    · rename_i x rest hq
      split
      · exact streamed_popHead h hq
      · simpa [popped] using h
    · rename_i u rest hq
      have := ih false (streamed_popHead h hq)
      rw [List.append_assoc] at this
      exact this

theorem popped_of_called {outs : List Out} (h : outs = [] ∨ outs = [.called]) : popped outs = [] := by rcases h with rfl | rfl <;> rfl

theorem streamed_settled {A P : List Entry} {latest latest' : Nat → Nat} {o : Sub} (h : Streamed A P latest o) (f : Sub → Sub × List Out)
    (B : List Entry)
    (hf : ∀ c, Streamed A P latest { o with owed := c } →
      popped (f { o with owed := c }).2 = [] ∧ Streamed (A ++ B) P latest' (f { o with owed := c }).1) :
    Streamed (A ++ B) (P ++ popped (settled o f).2) latest' (settled o f).1 := by
  obtain ⟨c, outs, he, ho⟩ := doNotify_eq o
  unfold settled
  rw [he]
  obtain ⟨h1, h2⟩ := hf c ⟨h.sq, h.exact, h.cache⟩
  simp only [popped_append, popped_of_called ho, h1, List.append_nil]
  exact h2

theorem streamed_down {A P : List Entry} {latest : Nat → Nat} {o : Sub} (h : Streamed A P latest o) :
    Streamed (A ++ if o.reg = true ∧ o.alive = true ∧ o.state ≠ .done ∧ o.state ≠ .connecting ∧ o.maskDiscon = false then [.exc .disconnect] else [])
      P latest (chanDown o) := by
  obtain ⟨h1, h2, h3⟩ := h
  have he := down_eff o
  generalize chanDown o = o' at he ⊢
  cases he with
  | keep hk =>
    have : ¬ (o.reg = true ∧ o.alive = true ∧ o.state ≠ .done ∧ o.state ≠ .connecting ∧ o.maskDiscon = false) := by
      rintro ⟨a, b, c, d, _⟩; rcases hk with h | h | h | h <;> simp_all
    rw [if_neg this, List.append_nil]
    exact ⟨h1, h2, h3⟩
  | wait hr ha hs hd q b c hq =>
    rcases hq with ⟨hm, rfl, rfl, rfl⟩ | ⟨hm, rfl, rfl, rfl⟩
    · rw [if_neg (by simp [hm]), List.append_nil]
      exact ⟨h1, h2, by simp⟩
    · rw [if_pos ⟨hr, ha, hd, hs, hm⟩]
      refine ⟨?_, ?_, by simp⟩
      · simp only; rw [← List.append_assoc]; exact .keep _ h1
      · simp only; rw [← List.append_assoc]; intro hp; rw [← h2 hp]

theorem streamed_up {A P : List Entry} {latest : Nat → Nat} {o : Sub} (h : Streamed A P latest o) (hc : o.conn = true) :
    Streamed (A ++ if o.state = .connecting ∧ o.pending = true ∧ o.alive = true ∧ o.maskConn = false then [.exc .connected] else [])
      P latest (createOperations o).1 := by
  obtain ⟨h1, h2, h3⟩ := h
  have he := up_eff o hc
  generalize (createOperations o).1 = o' at he ⊢
  generalize (createOperations o).2 = outs at he
  cases he with
  | none hk => rw [if_neg (by simp [hk]), List.append_nil]; exact ⟨h1, h2, h3⟩
  | dead _ hk => rw [if_neg (by simp [hk]), List.append_nil]; exact ⟨h1, h2, h3⟩
  | over _ _ hk => rw [if_neg (by simp [hk]), List.append_nil]; exact ⟨h1, h2, h3⟩
  | init hp ha hs q b c w hq _ =>
    rcases hq with ⟨hm, rfl, rfl, rfl⟩ | ⟨hm, rfl, rfl, rfl⟩
    · rw [if_neg (by simp [hm]), List.append_nil]
      exact ⟨h1, h2, by simp⟩
    · rw [if_pos ⟨hs, hp, ha, hm⟩]
      refine ⟨?_, ?_, by simp⟩
      · simp only; rw [← List.append_assoc]; exact .keep _ h1
      · simp only; rw [← List.append_assoc]; intro hp; rw [← h2 hp]

theorem up_sent (o : Sub) (hc : o.conn = true) : popped (createOperations o).2 = [] := by
  have he := up_eff o hc
  generalize (createOperations o).1 = o' at he
  generalize (createOperations o).2 = outs at he ⊢
  cases he <;> rfl

theorem msg_popped (o : Sub) (r : Reply) (i : InitAct) : popped (msg o r i).2 = [] := by
  have he := msg_eff o r i
  generalize (msg o r i).1 = o' at he
  generalize (msg o r i).2 = outs at he ⊢
  cases he <;> first | rfl | (split <;> rfl)

theorem carries_init {r : Reply} (h : r.carries = true) : r.init = false ∧ r.success = true := by
  unfold Reply.carries at h
  revert h
  cases r.init <;> cases r.success <;> simp

theorem fits_init {o : Sub} {r : Reply} (hs : o.state = .creating) (hi : r.init = true) : fits o r = true := by simp [fits, hs, hi]
theorem fits_update {o : Sub} {r : Reply} (hs : o.state = .idle ∨ o.state = .running) (hi : r.init = false) : fits o r = true := by
  rcases hs with hs | hs <;> simp [fits, hs, hi]

theorem fits_live {o : Sub} {r : Reply} (h : fits o r = true) (hi : r.init = false) : o.state = .idle ∨ o.state = .running := by
  unfold fits at h; rw [hi] at h; revert h; cases o.state <;> simp

theorem streamed_msg {A P : List Entry} {latest : Nat → Nat} {o : Sub} (hI : Inv o) (h : Streamed A P latest o) (r : Reply) (i : InitAct) :
    Streamed (A ++ arrives o latest (.msg r i)) P (latestAfter o latest (.msg r i)) (msg o r i).1 := by
  have hdn := streamed_down h
  obtain ⟨h1, h2, h3⟩ := h
  have he := msg_eff o r i
  generalize (msg o r i).1 = o' at he ⊢
  generalize (msg o r i).2 = outs at he
  simp only [arrives, latestAfter]
  cases he with
  | ignore hk =>
    have hT : Takes o = false := by unfold Takes; rcases hk with h | h <;> simp [h]
    simp only [hT, Bool.false_eq_true, false_and, if_false, List.append_nil]
    exact ⟨h1, h2, h3⟩
  | crash hr hc hf =>
    have hfit : fits o r = false := by
      cases hx : fits o r
      · rfl
      · have := hI.fl (fits_live hx (carries_init hc).1); rw [hf] at this; cases this
    simp only [hfit, hc, hf, Bool.false_eq_true, and_false, if_false, List.append_nil]
    simp only [Bool.not_false, and_self, decide_true, Bool.not_true, Bool.false_eq_true, false_and, and_false, if_false, List.append_nil]
    exact ⟨h1, h2, h3⟩
  | close hr ha hc hf =>
    have hT : Takes o = true := by simp [Takes, hr, ha]
    simp only [hf, Bool.false_eq_true, and_false, if_false]
    have heq : (Takes o = true ∧ (!decide (r.carries = true ∧ (!o.fl) = true)) = true ∧ o.state ≠ .done ∧ o.state ≠ .connecting ∧ (!o.maskDiscon) = true) ↔
        (o.reg = true ∧ o.alive = true ∧ o.state ≠ .done ∧ o.state ≠ .connecting ∧ o.maskDiscon = false) := by
      simp only [hT, hr, ha, true_and, Bool.not_eq_true', decide_eq_false_iff_not, hc, not_false_eq_true]
    simp only [heq]
    exact hdn
  | ready hr ha hs hi hk hf hn =>
    simp only [Takes, hr, ha, fits_init hs hi, hi, hk, Bool.and_self, and_self, if_true, List.append_nil]
    exact ⟨h1, h2, fun _ => rfl⟩
  | readyFinal hr ha hs hi hk hf hn =>
    simp only [Takes, hr, ha, fits_init hs hi, hi, hk, Bool.and_self, and_self, if_true, List.append_nil]
    exact ⟨h1, h2, fun _ => rfl⟩
  | initThrows hr ha hs hi hk hn ht =>
    simp only [Takes, hr, ha, fits_init hs hi, hi, hk, Bool.and_self, and_self, if_true, List.append_nil]
    exact ⟨h1, h2, fun _ => rfl⟩
  | initCancels hr ha hs hi hk hn ht =>
    simp only [Takes, hr, ha, fits_init hs hi, hi, hk, Bool.and_self, and_self, if_true, List.append_nil]
    exact ⟨h1, h2, fun _ => rfl⟩
  | initError hr ha hs hi hk =>
    simp only [Takes, hr, ha, fits_init hs hi, hi, hk, Bool.and_self, and_self, if_true, Bool.false_eq_true, if_false]
    refine ⟨?_, ?_, by simp⟩
    · simp only; rw [← List.append_assoc]; exact .keep _ h1
    · simp only; rw [← List.append_assoc]; intro hp; rw [← h2 hp]
  | update hr ha hs hi e cache hb n w b c st rg ap hw hbc hst =>
    have hca := h3 hs
    simp only [Takes, hr, ha, fits_update hs hi, hi, Bool.and_self, and_self, if_true, Bool.false_eq_true, if_false]
    have key : (if (!r.success) = true then [Entry.exc Exc.remote] else if r.carries = true then [Entry.data (sync latest r)] else []) = e.toList ∧
        (if r.carries = true then (sync latest r).content else latest) = cache := by
      cases hb with
      | error hk =>
        have hc : r.carries = false := by simp [Reply.carries, hk]
        simp [hk, hc, hca]
      | data hk => simp [hk, (carries_init hk).2, hca]
      | none hk hc => simp [hk, hc, hca]
    rw [key.1, key.2]
    exact ⟨squashed_queueAfter h1 r e, fun hp => exact_queueAfter (h2 hp) hp r e, fun _ => rfl⟩

theorem streamed_step {A P : List Entry} {latest : Nat → Nat} {o : Sub} (hI : Inv o) (h : Streamed A P latest o) (e : Ev) :
    Streamed (A ++ arrives o latest e) (P ++ popped (step o e).2) (latestAfter o latest e) (step o e).1 := by
  have nil : ∀ {f : Sub → Sub × List Out},
      (∀ c, Streamed A P latest { o with owed := c } → popped (f { o with owed := c }).2 = [] ∧ Streamed A P latest (f { o with owed := c }).1) →
      Streamed (A ++ []) (P ++ popped (settled o f).2) latest (settled o f).1 := fun hf =>
    streamed_settled h _ [] fun c hc => by rw [List.append_nil]; exact hf c hc
  cases e with
  | up =>
    refine streamed_settled h _ _ fun c hc => ?_
    have := streamed_up (o := { o with owed := c, conn := true }) ⟨hc.sq, hc.exact, hc.cache⟩ rfl
    refine ⟨up_sent _ rfl, ?_⟩
    simp only [arrives, Bool.not_eq_true']
    exact this
  | down =>
    refine streamed_settled h _ _ fun c hc => ?_
    have := streamed_down hc
    refine ⟨rfl, ?_⟩
    simp only [arrives, Bool.not_eq_true', Takes, Bool.and_eq_true, and_assoc]
    exact this
  | msg r i =>
    refine streamed_settled h _ _ fun c hc => ⟨msg_popped _ r i, ?_⟩
    exact streamed_msg (o := { o with owed := c }) ⟨hI.regc, hI.busy, hI.wait, hI.fl, hI.dead⟩ hc r i
  | pause p =>
    refine nil fun c hc => ?_
    simp only [pause]
    split
    · rename_i hk
      refine ⟨by cases p <;> rfl, hc.sq, hc.exact, fun _ => hc.cache ?_⟩
      rcases hk with hk | hk
      · exact Or.inl hk.1
      · exact Or.inr hk.1
    · exact ⟨rfl, hc⟩
  | pop =>
    show Streamed (A ++ []) (P ++ popped (pop o).2) latest (pop o).1
    rw [List.append_nil]
    unfold pop
    split
    · simp only [popped, List.filterMap_cons, List.filterMap_nil, List.append_nil]
      exact ⟨h.sq, h.exact, h.cache⟩
    · rename_i hq; exact streamed_popHead h hq
  | popN n =>
    have := streamed_popLoop (if n = 0 then o.queueSize else n) true h
    show Streamed (A ++ []) (P ++ popped ((popLoop (if n = 0 then o.queueSize else n) true o).2 ++ [.ret _])) latest (popLoop (if n = 0 then o.queueSize else n) true o).1
    rw [popped_append, List.append_nil]
    simpa [popped] using this
  | cancel =>
    refine nil fun c hc => ?_
    simp only [cancel, cancelImpl]
    split <;> exact ⟨rfl, hc.sq, hc.exact, by simp⟩
  | drop =>
    refine nil fun c hc => ?_
    simp only [cancelImpl]
    split <;> exact ⟨rfl, hc.sq, hc.exact, by simp⟩
  | tick =>
    refine nil fun c hc => ?_
    simp only [tickAck]
    split
    · exact ⟨rfl, hc⟩
    · split <;> exact ⟨rfl, hc.sq, hc.exact, hc.cache⟩
  | deliver =>
    have := nil (f := fun o => (o, [])) fun c hc => ⟨rfl, hc⟩
    simpa [settled, step, arrives, latestAfter] using this

theorem streamed_run {A P : List Entry} {latest : Nat → Nat} {o : Sub} (hI : Inv o) (h : Streamed A P latest o) (es : List Ev) :
    Streamed (A ++ stream o latest es) (P ++ popped (run o es).2) (latestOf o latest es) (run o es).1 := by
  induction es generalizing A P latest o with
  | nil => simpa [run, stream, popped, latestOf] using h
  | cons e es ih =>
    have := ih (inv_step hI e) (streamed_step hI h e)
    rw [List.append_assoc, List.append_assoc, ← popped_append] at this
    exact this

/-! the queue is bounded -/

/-- beyond the limit an update only follows an exception -/
def Limited (N : Nat) (q : List Entry) : Prop := ∀ a u b, q = a ++ .data u :: b → N ≤ a.length → ∃ a' x, a = a' ++ [.exc x]

theorem limited_nil (N : Nat) : Limited N [] := by intro a u b h; simp at h

theorem limited_exc {N : Nat} {q : List Entry} (h : Limited N q) (x : Exc) : Limited N (q ++ [.exc x]) := by
  intro a u b hq hl
  rcases List.eq_nil_or_concat b with rfl | ⟨b', y, rfl⟩
  · have := List.append_inj' hq rfl; simp at this
  · rw [List.concat_eq_append, ← List.cons_append, ← List.append_assoc] at hq
    have := List.append_inj' hq rfl
    exact h a u b' (by simpa using this.1) hl

theorem limited_data {N : Nat} {q : List Entry} (h : Limited N q) (u : Upd)
    (hd : q.length < N ∨ ∃ a' x, q = a' ++ [.exc x]) : Limited N (q ++ [.data u]) := by
  intro a v b hq hl
  rcases List.eq_nil_or_concat b with rfl | ⟨b', y, rfl⟩
  · have := List.append_inj' hq rfl
    obtain ⟨rfl, _⟩ := this
    rcases hd with hd | hd
    · omega
    · exact hd
  · rw [List.concat_eq_append, ← List.cons_append, ← List.append_assoc] at hq
    have := List.append_inj' hq rfl
    exact h a v b' (by simpa using this.1) hl

theorem limited_prefix {N : Nat} {q : List Entry} {e : Entry} (h : Limited N (q ++ [e])) : Limited N q := by
  intro a u b hq hl
  exact h a u (b ++ [e]) (by rw [hq]; simp) hl

theorem limited_replace {N : Nat} {q : List Entry} {w u : Upd} (h : Limited N (q ++ [.data w])) : Limited N (q ++ [.data u]) := by
  refine limited_data (limited_prefix h) u ?_
  by_cases hl : q.length < N
  · exact Or.inl hl
  · exact Or.inr (h q w [] rfl (by omega))

theorem limited_tail {N : Nat} (hN : 1 ≤ N) {q : List Entry} {e : Entry} (h : Limited N (e :: q)) : Limited N q := by
  intro a u b hq hl
  obtain ⟨a', x, ha⟩ := h (e :: a) u b (by rw [hq]; rfl) (by simp; omega)
  rcases List.eq_nil_or_concat a with rfl | ⟨a2, y, rfl⟩
  · simp at hl; omega
  · have : e :: (a2 ++ [y]) = (e :: a2) ++ [y] := rfl
    simp only [List.concat_eq_append] at ha
    rw [this] at ha
    have := List.append_inj' ha rfl
    simp at this
    exact ⟨a2, x, by rw [this.2]; simp⟩

theorem dataCount_data (q : List Entry) (u : Upd) : dataCount (q ++ [.data u]) = dataCount q + 1 := by
  unfold dataCount; rw [List.filter_append, List.length_append]; rfl
theorem dataCount_exc (q : List Entry) (x : Exc) : dataCount (q ++ [.exc x]) = dataCount q := by simp [dataCount, isData]
theorem excCount_data (q : List Entry) (u : Upd) : excCount (q ++ [.data u]) = excCount q := by simp [excCount, isData]
theorem excCount_exc (q : List Entry) (x : Exc) : excCount (q ++ [.exc x]) = excCount q + 1 := by simp [excCount, isData]

theorem limited_count {N : Nat} (n : Nat) : ∀ {q : List Entry}, q.length ≤ n → Limited N q → dataCount q ≤ N + excCount q := by
  induction n using Nat.strongRecOn with
  | ind n ih =>
    intro q hn h
    rcases List.eq_nil_or_concat q with rfl | ⟨p, e, rfl⟩
    · simp [dataCount]
    simp only [List.concat_eq_append] at h hn ⊢
    simp only [List.length_append, List.length_cons, List.length_nil] at hn
    have hp := ih p.length (by omega) (Nat.le_refl _) (limited_prefix h)
    cases e with
    | exc x =>
      rw [dataCount_exc, excCount_exc]; omega
    | data u =>
      by_cases hl : p.length < N
      · have : dataCount (p ++ [Entry.data u]) ≤ (p ++ [Entry.data u]).length := List.length_filter_le _ _
        simp only [List.length_append, List.length_cons, List.length_nil] at this
        omega
      · obtain ⟨p', x, rfl⟩ := h p u [] rfl (by omega)
        simp only [List.length_append, List.length_cons, List.length_nil] at hn
        have hp' := ih p'.length (by omega) (Nat.le_refl _) (limited_prefix (limited_prefix h))
        rw [dataCount_data, dataCount_exc, excCount_data, excCount_exc]; omega

theorem limited_queueAfter {o : Sub} (hp : o.pipeline = false) (hN : 1 ≤ o.queueSize) (h : Limited o.queueSize o.queue) (r : Reply) (e : Option Entry) :
    Limited o.queueSize (queueAfter o r e) := by
  have key : Limited o.queueSize (enqueue (decide (o.queueSize ≤ o.queue.length) && !o.pipeline) o.queue e).1 := by
    have he := enqueue_eff (decide (o.queueSize ≤ o.queue.length) && !o.pipeline) o.queue e
    generalize enqueue (decide (o.queueSize ≤ o.queue.length) && !o.pipeline) o.queue e = x at he
    cases he with
    | none => exact h
    | exc x => exact limited_exc h x
    | data u hd =>
      refine limited_data h u ?_
      rcases hd with hd | hd | hd
      · rw [hp] at hd; simp at hd; exact Or.inl hd
      · rw [hd]; exact Or.inl (by simp; omega)
      · exact Or.inr hd
    | merge u w p _ hq => rw [hq] at h; exact limited_replace h
  unfold queueAfter
  split
  · exact limited_exc key _
  · simpa using key

/-- the parameters never change -/
structure Same (o o' : Sub) : Prop where
  pipeline : o'.pipeline = o.pipeline
  queueSize : o'.queueSize = o.queueSize
  ackAt : o'.ackAt = o.ackAt
  maskConn : o'.maskConn = o.maskConn
  maskDiscon : o'.maskDiscon = o.maskDiscon
  hasInit : o'.hasInit = o.hasInit

theorem Same.rfl' (o : Sub) : Same o o := ⟨rfl, rfl, rfl, rfl, rfl, rfl⟩
theorem Same.trans {a b c : Sub} (h : Same a b) (h' : Same b c) : Same a c :=
  ⟨h'.1.trans h.1, h'.2.trans h.2, h'.3.trans h.3, h'.4.trans h.4, h'.5.trans h.5, h'.6.trans h.6⟩

theorem same_popLoop (n : Nat) : ∀ (first : Bool) (o : Sub), Same o (popLoop n first o).1 := by
  induction n with
  | zero => intro first o; exact .rfl' o
  | succ n ih =>
    intro first o
    have hh : ∀ q, Same o (popHead o q) := by
      intro q; unfold popHead; split <;> exact ⟨rfl, rfl, rfl, rfl, rfl, rfl⟩
    unfold popLoop
    split
    · exact ⟨rfl, rfl, rfl, rfl, rfl, rfl⟩
    · split
      · exact hh _
      · exact .rfl' o
    · exact (hh _).trans (ih _ _)

theorem same_down (o : Sub) : Same o (chanDown o) := by
  have he := down_eff o
  generalize chanDown o = o' at he ⊢
  cases he <;> exact ⟨rfl, rfl, rfl, rfl, rfl, rfl⟩

theorem same_settled (o : Sub) (f : Sub → Sub × List Out) (hf : ∀ o, Same o (f o).1) : Same o (settled o f).1 := by
  obtain ⟨c, outs, he, ho⟩ := doNotify_eq o
  unfold settled
  rw [he]
  exact Same.trans (b := { o with owed := c }) ⟨rfl, rfl, rfl, rfl, rfl, rfl⟩ (hf { o with owed := c })

theorem same_step (o : Sub) (e : Ev) : Same o (step o e).1 := by
  cases e with
  | up =>
    refine same_settled o _ fun o => ?_
    have he := up_eff { o with conn := true } rfl
    generalize (createOperations { o with conn := true }).1 = o' at he ⊢
    generalize (createOperations { o with conn := true }).2 = outs at he
    cases he <;> exact ⟨rfl, rfl, rfl, rfl, rfl, rfl⟩
  | down => exact same_settled o _ same_down
  | msg r i =>
    refine same_settled o _ fun o => ?_
    have hd := same_down o
    have he := msg_eff o r i
    generalize (msg o r i).1 = o' at he ⊢
    generalize (msg o r i).2 = outs at he
    cases he <;> first | exact ⟨rfl, rfl, rfl, rfl, rfl, rfl⟩ | exact hd
  | pause p =>
    refine same_settled o _ fun o => ?_
    simp only [pause]; split <;> exact ⟨rfl, rfl, rfl, rfl, rfl, rfl⟩
  | pop =>
    show Same o (pop o).1
    unfold pop popHead
    split
    · exact ⟨rfl, rfl, rfl, rfl, rfl, rfl⟩
    · split <;> exact ⟨rfl, rfl, rfl, rfl, rfl, rfl⟩
  | popN n => exact same_popLoop _ _ _
  | cancel =>
    refine same_settled o _ fun o => ?_
    simp only [cancel, cancelImpl]; split <;> exact ⟨rfl, rfl, rfl, rfl, rfl, rfl⟩
  | drop =>
    refine same_settled o _ fun o => ?_
    simp only [cancelImpl]; split <;> exact ⟨rfl, rfl, rfl, rfl, rfl, rfl⟩
  | tick =>
    refine same_settled o _ fun o => ?_
    simp only [tickAck]
    split
    · exact .rfl' o
    · split <;> exact ⟨rfl, rfl, rfl, rfl, rfl, rfl⟩
  | deliver =>
    obtain ⟨c, outs, he, ho⟩ := doNotify_eq o
    show Same o (doNotify o).1
    rw [he]; exact ⟨rfl, rfl, rfl, rfl, rfl, rfl⟩

theorem same_run (o : Sub) (es : List Ev) : Same o (run o es).1 := by
  induction es generalizing o with
  | nil => exact .rfl' o
  | cons e es ih => exact (same_step o e).trans (ih _)

theorem same_begin (p : Params) (fail up : Bool) : Same (fresh p) (begin (fresh p) fail up).1 := by
  cases fail
  · cases up
    · exact ⟨rfl, rfl, rfl, rfl, rfl, rfl⟩
    · have he := up_eff { fresh p with conn := true, pending := true } rfl
      show Same (fresh p) (createOperations { fresh p with conn := true, pending := true }).1
      generalize (createOperations { fresh p with conn := true, pending := true }).1 = o' at he ⊢
      generalize (createOperations { fresh p with conn := true, pending := true }).2 = outs at he
      cases he <;> exact ⟨rfl, rfl, rfl, rfl, rfl, rfl⟩
  · exact ⟨rfl, rfl, rfl, rfl, rfl, rfl⟩

theorem limited_popLoop (n : Nat) : ∀ (first : Bool) {o : Sub} {N : Nat}, 1 ≤ N → Limited N o.queue → Limited N (popLoop n first o).1.queue := by
  induction n with
  | zero => intro first o N _ h; exact h
  | succ n ih =>
    intro first o N hN h
    have hh : ∀ e q, o.queue = e :: q → Limited N (popHead o q).queue := by
      intro e q hq; rw [hq] at h
      unfold popHead; split <;> exact limited_tail hN h
    unfold popLoop
    split
    · exact h
    · rename_i hq
      split
      · exact hh _ _ hq
      · exact h
    · rename_i hq
      exact ih _ hN (hh _ _ hq)

theorem limited_down {o : Sub} {N : Nat} (h : Limited N o.queue) : Limited N (chanDown o).queue := by
  have he := down_eff o
  generalize chanDown o = o' at he ⊢
  cases he with
  | keep _ => exact h
  | wait _ _ _ _ q b c hq =>
    rcases hq with ⟨_, rfl, _⟩ | ⟨_, rfl, _⟩
    · exact h
    · exact limited_exc h _

theorem limited_settled {o : Sub} {N : Nat} (h : Limited N o.queue) (f : Sub → Sub × List Out)
    (hf : ∀ c, Limited N (f { o with owed := c }).1.queue) : Limited N (settled o f).1.queue := by
  obtain ⟨c, outs, he, ho⟩ := doNotify_eq o
  unfold settled
  rw [he]
  exact hf c

theorem limited_up {o : Sub} {N : Nat} (h : Limited N o.queue) (hc : o.conn = true) : Limited N (createOperations o).1.queue := by
  have he := up_eff o hc
  generalize (createOperations o).1 = o' at he ⊢
  generalize (createOperations o).2 = outs at he
  cases he with
  | none _ => exact h
  | dead _ _ => exact h
  | over _ _ _ => exact h
  | init _ _ _ q b c w hq _ =>
    rcases hq with ⟨_, rfl, _⟩ | ⟨_, rfl, _⟩
    · exact h
    · exact limited_exc h _

theorem limited_step {o : Sub} (hp : o.pipeline = false) (hN : 1 ≤ o.queueSize) (h : Limited o.queueSize o.queue) (e : Ev) :
    Limited o.queueSize (step o e).1.queue := by
  cases e with
  | up => exact limited_settled h _ fun c => limited_up (o := { o with owed := c, conn := true }) h rfl
  | down => exact limited_settled h _ fun c => limited_down (o := { o with owed := c }) h
  | msg r i =>
    refine limited_settled h _ fun c => ?_
    have hd := limited_down (o := { o with owed := c }) h
    have hq := limited_queueAfter (o := { o with owed := c }) hp hN h r
    have he := msg_eff { o with owed := c } r i
    generalize (msg { o with owed := c } r i).1 = o' at he ⊢
    generalize (msg { o with owed := c } r i).2 = outs at he
    cases he with
    | close _ _ _ _ => exact hd
    | initError _ _ _ _ _ => exact limited_exc h _
    | update _ _ _ _ e _ _ _ _ _ _ _ _ _ _ _ _ => exact hq e
    | _ => exact h
  | pause p =>
    refine limited_settled h _ fun c => ?_
    simp only [pause]; split <;> exact h
  | pop =>
    show Limited o.queueSize (pop o).1.queue
    unfold pop popHead
    split
    · exact h
    · rename_i hq
      rw [hq] at h
      split <;> exact limited_tail hN h
  | popN n => exact limited_popLoop _ _ hN h
  | cancel =>
    refine limited_settled h _ fun c => ?_
    simp only [cancel, cancelImpl]; split <;> exact h
  | drop =>
    refine limited_settled h _ fun c => ?_
    simp only [cancelImpl]; split <;> exact h
  | tick =>
    refine limited_settled h _ fun c => ?_
    simp only [tickAck]
    split
    · exact h
    · split <;> exact h
  | deliver =>
    obtain ⟨c, outs, he, ho⟩ := doNotify_eq o
    show Limited o.queueSize (doNotify o).1.queue
    rw [he]; exact h

theorem limited_run {o : Sub} (hp : o.pipeline = false) (hN : 1 ≤ o.queueSize) (h : Limited o.queueSize o.queue) (es : List Ev) :
    Limited o.queueSize (run o es).1.queue := by
  induction es generalizing o with
  | nil => exact h
  | cons e es ih =>
    have hs := same_step o e
    have := ih (hs.pipeline.trans hp) (by rw [hs.queueSize]; exact hN) (by rw [hs.queueSize]; exact limited_step hp hN h e)
    rw [hs.queueSize] at this
    exact this

/-! Finished is the last -/

theorem arrives_done {o : Sub} (h : o.state = .done) (latest : Nat → Nat) (e : Ev) : arrives o latest e = [] := by
  cases e with
  | msg r i => simp [arrives, fits, h]
  | _ => simp [arrives, h]

theorem done_popLoop (n : Nat) : ∀ (first : Bool) (o : Sub), (popLoop n first o).1.state = o.state := by
  induction n with
  | zero => intro first o; rfl
  | succ n ih =>
    intro first o
    have hh : ∀ q, (popHead o q).state = o.state := by intro q; unfold popHead; split <;> rfl
    unfold popLoop
    split
    · rfl
    · split
      · exact hh _
      · rfl
    · exact (ih _ _).trans (hh _)

theorem done_settled {o : Sub} (f : Sub → Sub × List Out) (hf : ∀ c, (f { o with owed := c }).1.state = .done) : (settled o f).1.state = .done := by
  obtain ⟨c, outs, he, ho⟩ := doNotify_eq o
  unfold settled
  rw [he]
  exact hf c

theorem done_step {o : Sub} (h : o.state = .done) (e : Ev) : (step o e).1.state = .done := by
  cases e with
  | up =>
    refine done_settled _ fun c => ?_
    have he := up_eff { o with owed := c, conn := true } rfl
    generalize (createOperations { o with owed := c, conn := true }).1 = o' at he ⊢
    generalize (createOperations { o with owed := c, conn := true }).2 = outs at he
    cases he with
    | init _ _ hs => simp [h] at hs
    | _ => exact h
  | down =>
    refine done_settled _ fun c => ?_
    have he := down_eff { o with owed := c }
    show (chanDown { o with owed := c }).state = _
    generalize chanDown { o with owed := c } = o' at he ⊢
    cases he with
    | keep _ => exact h
    | wait _ _ _ hd => exact absurd h hd
  | msg r i =>
    refine done_settled _ fun c => ?_
    have hd := down_eff { o with owed := c }
    have he := msg_eff { o with owed := c } r i
    generalize (msg { o with owed := c } r i).1 = o' at he ⊢
    generalize (msg { o with owed := c } r i).2 = outs at he
    cases he with
    | close _ _ _ _ =>
      generalize chanDown { o with owed := c } = o' at hd ⊢
      cases hd with
      | keep _ => exact h
      | wait _ _ _ hd => exact absurd h hd
    | ready _ _ hs => simp [h] at hs
    | update _ _ hs => simp [h] at hs
    | ignore _ => exact h
    | crash _ _ _ => exact h
    | _ => rfl
  | pause p =>
    refine done_settled _ fun c => ?_
    simp [pause, h]
  | pop =>
    show (pop o).1.state = _
    unfold pop popHead
    split
    · exact h
    · split <;> exact h
  | popN n => exact (done_popLoop _ _ _).trans h
  | cancel => exact done_settled _ fun c => by simp [cancel, cancelImpl, h]
  | drop => exact done_settled _ fun c => by simp [cancelImpl, h]
  | tick =>
    refine done_settled _ fun c => ?_
    simp only [tickAck]
    split
    · exact h
    · split <;> exact h
  | deliver =>
    obtain ⟨c, outs, he, ho⟩ := doNotify_eq o
    show (doNotify o).1.state = _
    rw [he]; exact h

theorem stream_done {o : Sub} (h : o.state = .done) (latest : Nat → Nat) (es : List Ev) : stream o latest es = [] := by
  induction es generalizing o latest with
  | nil => rfl
  | cons e es ih => simp only [stream, arrives_done h, ih (done_step h e), List.append_nil]

theorem finished_step {o : Sub} (hI : Inv o) (latest : Nat → Nat) (e : Ev) (h : .exc .finished ∈ arrives o latest e) : (step o e).1.state = .done := by
  cases e with
  | msg r i =>
    refine done_settled _ fun c => ?_
    have he := msg_eff { o with owed := c } r i
    simp only [arrives] at h
    split at h
    · rename_i hT
      obtain ⟨hT, hfit⟩ := hT
      simp only [Takes, Bool.and_eq_true] at hT
      split at h
      · split at h <;> simp at h
      · rename_i hi
        have hf : r.final = true := by
          cases hf : r.final
          · rw [hf] at h; revert h; cases r.success <;> cases r.carries <;> simp
          · rfl
        generalize (msg { o with owed := c } r i).1 = o' at he ⊢
        generalize (msg { o with owed := c } r i).2 = outs at he
        cases he with
        | ignore hk => rcases hk with hk | hk <;> simp [hT] at hk
        | crash _ hc hfl =>
          have := hI.fl (fits_live hfit (carries_init hc).1)
          rw [show o.fl = false from hfl] at this; cases this
        | close _ _ _ hn => rw [show fits { o with owed := c } r = fits o r from rfl, hfit] at hn; cases hn
        | ready _ _ _ hi' => exact absurd hi' hi
        | update _ _ _ _ _ _ _ _ _ _ _ _ _ _ _ _ hst =>
          rcases hst with hst | hst
          · exact hst.2.1
          · rw [hf] at hst; cases hst.1
        | _ => rfl
    · split at h <;> simp at h
  | up => simp only [arrives] at h; split at h <;> simp at h
  | down => simp only [arrives] at h; split at h <;> simp at h
  | _ => simp [arrives] at h

end Pvxs.ClientMon
