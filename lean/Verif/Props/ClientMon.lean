import Verif.Lemmas.ClientMon2
/-
C36 notification, C37 queue, C38 acknowledgement, C61 no stall, C62 end, C63 pointers, of client subscriptions.
-/
namespace Pvxs.Props.CMon
open ClientMon Spec Spec.CMon

/-! messages for the examples -/

/-- INIT succeeded -/
def rInit : Reply := { init := true, final := false, ok := true, hasData := false, marked := fun _ => false, val := fun _ => 0 }
/-- an update of one field -/
def rData (field v : Nat) : Reply :=
  { init := false, final := false, ok := true, hasData := true, marked := fun i => i == field, val := fun _ => v }
/-- the last message -/
def rLast : Reply := { init := false, final := true, ok := true, hasData := false, marked := fun _ => false, val := fun _ => 0 }

def plain : Params := { pipeline := false, autostart := true, maskConn := true, maskDiscon := false, hasInit := false, queueSize := 2, ackAt := 1 }
def piped : Params := { pipeline := true, autostart := true, maskConn := true, maskDiscon := true, hasInit := false, queueSize := 4, ackAt := 2 }

theorem hist_inv (p : Params) (fail up : Bool) (es : List Ev) : Inv (history p fail up es).1 := inv_run (inv_begin p fail up) es

theorem hist_notified (p : Params) (fail up : Bool) (es : List Ev) : Notified (history p fail up es).1 (history p fail up es).2 :=
  notified_run (notified_begin p fail up) es

theorem hist_same (p : Params) (fail up : Bool) (es : List Ev) : Same (fresh p) (history p fail up es).1 :=
  (same_begin p fail up).trans (same_run _ es)

theorem hist_streamed (p : Params) (fail up : Bool) (es : List Ev) :
    Streamed (streamOf p fail up es) (popped (history p fail up es).2) (latestOf (begin (fresh p) fail up).1 (fun _ => 0) es) (history p fail up es).1 := by
  have := streamed_run (inv_begin p fail up) (streamed_begin p fail up) es
  simp only [history, popped_append, popped_begin]
  exact this

/-! ### C36 -/

/-- Whatever happened: while an event waits, the callback has been called since the application last found the queue empty,
or is called as soon as the worker continues. -/
theorem C36_told (p : Params) (fail up : Bool) (es : List Ev) (e : Ev) (he : Worker e)
    (hev : (history p fail up es).1.hasEvent = true) (hq : (history p fail up es).1.queue ≠ []) :
    .called ∈ sinceEmpty ((history p fail up es).2 ++ (step (history p fail up es).1 e).2) := by
  have hN := hist_notified p fail up es
  generalize (history p fail up es).2 = outs at hN ⊢
  generalize (history p fail up es).1 = o at hN hev hq ⊢
  -- nothing the worker does is an empty pop
  have hstep : ∃ rest, (step o e).2 = (if o.owed then [.called] else []) ++ rest ∧ rest.any isEmpty = false := by
    have key : ∀ f : Sub → Sub × List Out, (∀ o, Quiet o (f o).1 (f o).2) →
        ∃ rest, (settled o f).2 = (if o.owed then [.called] else []) ++ rest ∧ rest.any isEmpty = false := by
      intro f hf
      refine ⟨(f (doNotify o).1).2, ?_, (hf _).noEmpty⟩
      unfold settled doNotify
      cases o.owed <;> simp [hev]
    cases e with
    | up => exact key _ quiet_up
    | down => exact key _ quiet_down
    | msg r i => exact key _ fun o => quiet_msg o r i
    | pause p => exact key _ fun o => quiet_pause o p
    | pop => exact he.elim
    | popN n => exact he.elim
    | cancel => exact key _ quiet_cancel
    | drop => exact key _ quiet_drop
    | tick => exact key _ quiet_tick
    | deliver =>
      refine ⟨[], ?_, rfl⟩
      show (doNotify o).2 = _
      unfold doNotify
      cases o.owed <;> simp [hev]
  obtain ⟨rest, h1, h2⟩ := hstep
  have hne : (step o e).2.any isEmpty = false := by
    rw [h1, List.any_append, h2]; cases o.owed <;> rfl
  rw [sinceEmpty_append, hne]
  simp only [Bool.false_eq_true, if_false, List.mem_append]
  cases hn : o.needNotify
  · rcases hN.told hev hn with h | h
    · right; rw [h1, h]; simp
    · exact Or.inl h
  · rcases hN.ready hev hn with h | h
    · exact absurd h hq
    · exact Or.inl h

example : Worker .deliver ∧ (history plain false true [.msg rInit .ok, .msg (rData 0 1) .ok]).1.hasEvent = true ∧
    (history plain false true [.msg rInit .ok, .msg (rData 0 1) .ok]).1.queue ≠ [] :=
  ⟨trivial, rfl, by simp [history, begin, fresh, plain, run, step, settled, doNotify, createOperations, createOp, msg, rInit, rData, fits, onInitReply, pause, finishUp, onUpdate, queueAfter, enqueue, wantToNotify, Reply.carries, Reply.success, push]⟩

/-- In all, it is called at most once more often than the queue was found empty. -/
theorem C36_count (p : Params) (fail up : Bool) (es : List Ev) : calls (history p fail up es).2 ≤ empties (history p fail up es).2 + 1 := by
  rcases (hist_notified p fail up es).count with h | ⟨_, _, _, h, _⟩ <;> omega

/-- If the application pops in the callback (or on the worker), the callback is not called again before the queue was found empty. -/
theorem C36_once_partial (p : Params) (fail up : Bool) (es : List Ev) (hp : Prompt (begin (fresh p) fail up).1 es) :
    calls (sinceEmpty (history p fail up es).2) ≤ 1 := by
  have : Once (history p fail up es).1 (history p fail up es).2 := once_run (once_begin p fail up) es hp
  rcases this with h | ⟨_, _, _, h, _⟩ <;> omega

example : Prompt (begin (fresh plain) false true).1 [.msg rInit .ok, .msg (rData 0 1) .ok, .deliver, .pop, .pop, .msg (rData 0 2) .ok] := by
  refine ⟨Or.inl trivial, Or.inl trivial, Or.inl trivial, Or.inr rfl, Or.inr rfl, Or.inl trivial, trivial⟩

/-- If it pops on another thread, it may be: the queue was emptied before the first call. -/
theorem C36_late : calls (sinceEmpty (history plain false true
      [.msg rInit .ok, .msg (rData 0 1) .ok, .pop, .pop, .deliver, .msg (rData 0 2) .ok, .deliver]).2) = 2 := by rfl

/-- The pop() of several updates says that there is no more only if the queue was emptied, and the callback will be called for the
next event. -/
theorem C36_more (p : Params) (up : Bool) (es : List Ev) (n : Nat) (h : Out.ret false ∈ (step (history p false up es).1 (.popN n)).2) :
    (step (history p false up es).1 (.popN n)).1.queue = [] ∧ (step (history p false up es).1 (.popN n)).1.needNotify = true := by
  have hD : Drained (history p false up es).1 := drained_run (drained_begin p up) es
  generalize (history p false up es).1 = o at h hD ⊢
  have hD' := drained_step hD (.popN n)
  have hno : ∀ (n : Nat) (first : Bool) (o : Sub) (b : Bool), Out.ret b ∉ (popLoop n first o).2 := by
    intro n
    induction n with
    | zero => intro first o b h; simp [popLoop] at h
    | succ n ih =>
      intro first o b h
      unfold popLoop at h
      split at h
      · simp at h
      · split at h <;> simp at h
      · simp only [List.mem_cons] at h
        rcases h with h | h
        · cases h
        · exact ih _ _ _ h
  have hn : (popLoop (if n = 0 then o.queueSize else n) true o).1.needNotify = true := by
    have : Out.ret false ∈ (popLoop (if n = 0 then o.queueSize else n) true o).2 ++ [.ret (!(popLoop (if n = 0 then o.queueSize else n) true o).1.needNotify)] := h
    rw [List.mem_append] at this
    rcases this with this | this
    · exact absurd this (hno _ _ _ _)
    · simpa using this
  exact ⟨hD' hn, hn⟩

example : Out.ret false ∈ (step (history plain false true [.msg rInit .ok, .msg (rData 0 1) .ok]).1 (.popN 0)).2 := by
  have : (step (history plain false true [.msg rInit .ok, .msg (rData 0 1) .ok]).1 (.popN 0)).2.getLast? = some (.ret false) := rfl
  exact List.mem_of_getLast? this

/-! ### C37 -/

/-- What is popped, followed by what waits, is the stream of the subscription in order, with some updates merged into their predecessor. -/
theorem C37_order (p : Params) (fail up : Bool) (es : List Ev) :
    Squashed (streamOf p fail up es) (popped (history p fail up es).2 ++ (history p fail up es).1.queue) :=
  (hist_streamed p fail up es).sq

/-- A pipeline merges nothing. -/
theorem C37_pipeline (p : Params) (hp : p.pipeline = true) (fail up : Bool) (es : List Ev) :
    streamOf p fail up es = popped (history p fail up es).2 ++ (history p fail up es).1.queue :=
  (hist_streamed p fail up es).exact ((hist_same p fail up es).pipeline.trans hp)

example : (streamOf piped false true [.msg rInit .ok, .msg (rData 0 1) .ok, .msg (rData 0 2) .ok, .pop]).length = 2 := rfl

/-- The newest entry, if it is an update, holds the latest content of every field: what the server last sent, on this connection. -/
theorem C37_latest_partial (p : Params) (hm : p.maskConn = false ∨ p.maskDiscon = false) (fail up : Bool) (es : List Ev)
    (hs : (history p fail up es).1.state = .idle ∨ (history p fail up es).1.state = .running) (u : Upd)
    (hu : (history p fail up es).1.queue.getLast? = some (.data u)) :
    u.content = latestOf (begin (fresh p) fail up).1 (fun _ => 0) es :=
  (cur_run (inv_begin p fail up) (streamed_begin p fail up) (cur_begin p hm fail up _)
    (by rw [(same_begin p fail up).maskConn, (same_begin p fail up).maskDiscon]; exact hm) es).now hs u hu

/-- three updates, one queue entry too many: merged -/
example : ∃ u, (history plain false true [.msg rInit .ok, .msg (rData 0 1) .ok, .msg (rData 1 7) .ok, .msg (rData 2 8) .ok]).1.queue.getLast? = some (.data u) ∧
    (u.content 0, u.content 1, u.content 2, u.content 3) = (1, 7, 8, 0) ∧ (u.marked 0, u.marked 1, u.marked 2, u.marked 3) = (false, true, true, false) :=
  ⟨_, rfl, rfl, rfl⟩

def masked : Params := { plain with maskDiscon := true }

/-- With both connection events masked, an update of a new connection is merged into one of the old connection, which keeps
the old content of the fields the new server never sent. -/
theorem C37_stale : ∃ u, (history masked false true [.msg rInit .ok, .msg (rData 0 1) .ok, .msg (rData 0 2) .ok, .down, .up, .msg rInit .ok,
      .msg (rData 1 9) .ok]).1.queue.getLast? = some (.data u) ∧ u.content 0 = 2 ∧
    latestOf (begin (fresh masked) false true).1 (fun _ => 0) [.msg rInit .ok, .msg (rData 0 1) .ok, .msg (rData 0 2) .ok, .down, .up, .msg rInit .ok,
      .msg (rData 1 9) .ok] 0 = 0 := ⟨_, rfl, rfl, rfl⟩

/-- The queue of a subscription which is not pipelined: one update more than queueSize for each other event in it, at most. -/
theorem C37_bound_partial (p : Params) (hp : p.pipeline = false) (hok : p.ok) (fail up : Bool) (es : List Ev) :
    dataCount (history p fail up es).1.queue ≤ p.queueSize + excCount (history p fail up es).1.queue := by
  have hs := same_begin p fail up
  have hl : Limited (begin (fresh p) fail up).1.queueSize (history p fail up es).1.queue :=
    limited_run (hs.pipeline.trans hp) (by rw [hs.queueSize]; exact Nat.le_trans (by decide) hok.1)
      (by rw [hs.queueSize]; exact limited_begin p hok.1 fail up) es
  rw [hs.queueSize] at hl
  exact limited_count _ (Nat.le_refl _) hl

example : plain.pipeline = false ∧ plain.ok := ⟨rfl, by decide, by decide, by decide⟩

/-- While no such event waits, it is bounded by queueSize. -/
theorem C37_bound_data (p : Params) (hp : p.pipeline = false) (hok : p.ok) (fail up : Bool) (es : List Ev)
    (hx : excCount (history p fail up es).1.queue = 0) : (history p fail up es).1.queue.length ≤ p.queueSize := by
  have hb := C37_bound_partial p hp hok fail up es
  have : ∀ q : List Entry, q.length = dataCount q + excCount q := by
    intro q
    induction q with
    | nil => rfl
    | cons e q ih =>
      cases e with
      | data u =>
        have h1 : dataCount (.data u :: q) = dataCount q + 1 := rfl
        have h2 : excCount (.data u :: q) = excCount q := rfl
        rw [h1, h2, List.length_cons, ih]; omega
      | exc x =>
        have h1 : dataCount (.exc x :: q) = dataCount q := rfl
        have h2 : excCount (.exc x :: q) = excCount q + 1 := rfl
        rw [h1, h2, List.length_cons, ih]; omega
  rw [this]
  omega

/-- It is not bounded by queueSize: after a reconnect there is room for one more. -/
theorem C37_exceeds : dataCount (history plain false true [.msg rInit .ok, .msg (rData 0 1) .ok, .msg (rData 0 2) .ok, .down, .up, .msg rInit .ok,
      .msg (rData 0 3) .ok]).1.queue = 3 ∧ plain.queueSize = 2 := ⟨rfl, rfl⟩

/-- A pop() of several yields updates only; or, as its first, an exception, which is then thrown: no update is lost with it. -/
theorem C37_batch (o : Sub) (n : Nat) : (∀ e ∈ popped (step o (.popN n)).2, isData e = true) ∨ ∃ x, popped (step o (.popN n)).2 = [.exc x] := by
  have rest : ∀ (n : Nat) (o : Sub), ∀ e ∈ popped (popLoop n false o).2, isData e = true := by
    intro n
    induction n with
    | zero => intro o e he; simp [popLoop, popped] at he
    | succ n ih =>
      intro o e he
      unfold popLoop at he
      split at he
      · simp [popped] at he
      · simp [popped] at he
      · rename_i u rest _
        have : popped (Out.popped (.data u) :: (popLoop n false (popHead o rest)).2) = .data u :: popped (popLoop n false (popHead o rest)).2 := rfl
        simp only [this, List.mem_cons] at he
        rcases he with rfl | he
        · rfl
        · exact ih _ _ he
  have hp : popped (step o (.popN n)).2 = popped (popLoop (if n = 0 then o.queueSize else n) true o).2 := by
    show popped ((popLoop (if n = 0 then o.queueSize else n) true o).2 ++ [.ret _]) = _
    rw [popped_append]; simp [popped]
  rw [hp]
  generalize (if n = 0 then o.queueSize else n) = k
  cases k with
  | zero => left; intro e he; simp [popLoop, popped] at he
  | succ k =>
    unfold popLoop
    split
    · left; intro e he; simp [popped] at he
    · rename_i x q _
      right; exact ⟨x, rfl⟩
    · rename_i u q _
      left
      intro e he
      have : popped (Out.popped (.data u) :: (popLoop k false (popHead o q)).2) = .data u :: popped (popLoop k false (popHead o q)).2 := rfl
      simp only [this, List.mem_cons] at he
      rcases he with rfl | he
      · rfl
      · exact rest _ _ _ he

/-- Finished is the end of the stream: nothing comes after it. -/
theorem C37_finished_last (p : Params) (fail up : Bool) (es : List Ev) : .exc .finished ∉ (streamOf p fail up es).dropLast := by
  have h := finished_last (inv_begin p fail up) (fun _ => 0) es
  have hb : .exc .finished ∉ begun p fail up := by unfold begun; split <;> (try split) <;> simp
  unfold streamOf
  intro hm
  rcases List.eq_nil_or_concat (stream (begin (fresh p) fail up).1 (fun _ => 0) es) with h' | ⟨l, x, h'⟩
  · rw [h', List.append_nil] at hm
    exact hb (List.dropLast_subset _ hm)
  · rw [h', List.concat_eq_append] at hm h
    rw [← List.append_assoc, List.dropLast_concat, List.mem_append] at hm
    rw [List.dropLast_concat] at h
    rcases hm with hm | hm
    · exact hb hm
    · exact h hm

example : ∃ l, streamOf plain false true [.msg rInit .ok, .msg (rData 0 1) .ok, .msg rLast .ok, .msg (rData 0 1) .ok, .down, .up] = l ++ [.exc .finished] :=
  ⟨[_], rfl⟩

/-! ### C38 -/

/-- No more is acknowledged than was popped. -/
theorem C38_popped (p : Params) (hp : p.pipeline = true) (fail up : Bool) (es : List Ev) :
    acked (history p fail up es).2 ≤ (popped (history p fail up es).2).length := by
  have h1 := bal_begin p fail up
  have h2 := bal_run ((same_begin p fail up).pipeline.trans hp) es
  unfold Bal at h1 h2
  simp only [history, acked_append, popped_append, List.length_append]
  have : (fresh p).unack = 0 := rfl
  omega

example : acked (history piped false true [.msg rInit .ok, .msg (rData 0 1) .ok, .msg (rData 0 2) .ok, .pop, .pop, .tick]).2 = 2 := rfl

/-- While one connection lasts, to a server which keeps to what it may send, and with the events for connections masked: what the server may
send and what waits in the queue do not exceed queueSize. -/
theorem C38_window_partial (p : Params) (hp : p.pipeline = true) (hok : p.ok) (hm : p.maskConn = true) (up : Bool) (es : List Ev)
    (hst : Steady es (history p false up es).2) (hw : WithinOf p up es) (hl : Live (history p false up es).1) :
    creditOf p up es + (history p false up es).1.queue.length ≤ p.queueSize := by
  have hs := same_begin p false up
  have hA : 1 ≤ (begin (fresh p) false up).1.ackAt := by rw [hs.ackAt]; exact hok.2.1
  have hL := led_begin p hp false up
  have hE := even_run (even_begin p hp hm up) hL (inv_begin p false up) (hs.pipeline.trans hp) hA (hs.maskConn.trans hm) es hst.1
    (fun h => hst.2 (by simp only [history]; exact List.mem_append_right _ h)) hw
  have hLr := led_run hL (inv_begin p false up) (hs.pipeline.trans hp) hA es
  have h1 := hLr.cred hl
  have h2 := hE.sum hl
  rw [(same_run _ es).queueSize, hs.queueSize] at h2
  have h3 : (fresh p).queueSize = p.queueSize := rfl
  show credit _ _ es + (run (begin (fresh p) false up).1 es).1.queue.length ≤ _
  omega

example : let es := [Ev.msg rInit .ok, .msg (rData 0 1) .ok, .msg (rData 0 2) .ok, .pop, .pop, .tick, .msg (rData 0 3) .ok]
    Steady es (history piped false true es).2 ∧ WithinOf piped true es ∧ Live (history piped false true es).1 ∧
      creditOf piped true es = 3 ∧ (history piped false true es).1.queue.length = 1 := by
  refine ⟨⟨by simp, ?_⟩, ?_, Or.inr (Or.inr rfl), rfl, rfl⟩
  · have : (history piped false true [Ev.msg rInit .ok, .msg (rData 0 1) .ok, .msg (rData 0 2) .ok, .pop, .pop, .tick, .msg (rData 0 3) .ok]).2 =
      [.sent .init, .sent .start, .called, .popped _, .popped _, .sent (.ack 2)] := rfl
    rw [this]; simp
  · exact ⟨by decide, by decide, by decide, by decide, by decide, by decide, by decide, trivial⟩

/-- Across a reconnect what was popped before is acknowledged to the new server: it may then send more than queueSize. -/
theorem C38_overack_reconnect :
    let es := [Ev.msg rInit .ok, .msg (rData 0 1) .ok, .pop, .down, .up, .msg rInit .ok, .msg (rData 0 2) .ok, .pop, .tick]
    WithinOf piped true es ∧ creditOf piped true es = 5 ∧ piped.queueSize = 4 :=
  ⟨⟨by decide, by decide, by decide, by decide, by decide, by decide, by decide, by decide, by decide, trivial⟩, rfl, rfl⟩

def verbose : Params := { piped with maskConn := false, ackAt := 1 }

/-- Popping the Connected event is acknowledged as if it was an update. -/
theorem C38_overack_event :
    let es := [Ev.msg rInit .ok, .pop, .tick]
    Steady es (history verbose false true es).2 ∧ creditOf verbose true es = 5 ∧ verbose.queueSize = 4 ∧
      acked (history verbose false true es).2 = 1 := by
  refine ⟨⟨by simp, ?_⟩, rfl, rfl, rfl⟩
  have : (history verbose false true [Ev.msg rInit .ok, .pop, .tick]).2 = [.sent .init, .called, .sent .start, .popped _, .sent (.ack 1)] := rfl
  rw [this]; simp

/-! ### C61 -/

/-- When the server has used up its window, and the application has emptied the queue, the client acknowledges: the subscription does not stall. -/
theorem C61_no_stall (p : Params) (hp : p.pipeline = true) (hok : p.ok) (up : Bool) (es : List Ev)
    (hs : (history p false up es).1.state = .idle ∨ (history p false up es).1.state = .running)
    (hc : creditOf p up es = 0) (hq : (history p false up es).1.queue = []) :
    ∃ n, 0 < n ∧ .sent (.ack n) ∈ (step (history p false up es).1 .tick).2 := by
  have hsame := same_begin p false up
  have hA : 1 ≤ (begin (fresh p) false up).1.ackAt := by rw [hsame.ackAt]; exact hok.2.1
  have hL : Led (creditOf p up es) (history p false up es).1 :=
    led_run (led_begin p hp false up) (inv_begin p false up) (hsame.pipeline.trans hp) hA es
  have hS := hist_same p false up es
  generalize (history p false up es).1 = o at hs hq hL hS ⊢
  have hl : o.state = .creating ∨ o.state = .idle ∨ o.state = .running := Or.inr hs
  have h1 := hL.cred hl
  have h3 := hL.low hl
  have h4 := hL.late hl
  have e1 : o.queueSize = p.queueSize := hS.queueSize
  have e2 : o.ackAt = p.ackAt := hS.ackAt
  have e3 : o.pipeline = true := hS.pipeline.trans hp
  obtain ⟨k1, k2, k3⟩ := hok
  rw [hq] at h3 h4
  simp only [List.length_nil] at h3 h4
  have hap : o.timer = true := by
    rcases h4 with h4 | h4 | h4
    · omega
    · exact h4
    · omega
  refine ⟨o.unack, by omega, ?_⟩
  obtain ⟨c, outs0, h0, he⟩ := settled_eq o tickAck
  show _ ∈ (settled o tickAck).2
  rw [he, List.mem_append]
  right
  simp only [tickAck]
  rw [if_neg (by simp [hap]), if_pos ⟨hs, e3, by omega⟩]
  simp

example : let es := [Ev.msg rInit .ok, .msg (rData 0 1) .ok, .msg (rData 0 2) .ok, .msg (rData 0 3) .ok, .msg (rData 0 4) .ok, .popN 0]
    piped.ok ∧ (history piped false true es).1.state = .running ∧ creditOf piped true es = 0 ∧ (history piped false true es).1.queue = [] :=
  ⟨⟨by decide, by decide, by decide⟩, rfl, rfl, rfl⟩

/-! ### C62 -/

/-- A subscription which is over, other than by the application, and where onInit() did not fail, has queued the reason as its last event. -/
theorem C62_told_partial (p : Params) (fail up : Bool) (es : List Ev) (hc : Calm es) (hd : (history p fail up es).1.state = .done) :
    ∃ l x, streamOf p fail up es = l ++ [.exc x] ∧ (x = .finished ∨ x = .remote) := by
  obtain ⟨l, x, h, hx⟩ := told_run (inv_begin p fail up) (begin_state p fail up) (fun _ => 0) es hc hd
  exact ⟨begun p fail up ++ l, x, by unfold streamOf; rw [h, List.append_assoc], hx⟩

example : Calm [.msg rInit .ok, .msg (rData 0 1) .ok, .msg rLast .ok] ∧
    (history plain false true [.msg rInit .ok, .msg (rData 0 1) .ok, .msg rLast .ok]).1.state = .done := by
  refine ⟨?_, rfl⟩
  intro e he
  simp at he
  rcases he with rfl | rfl | rfl <;> simp [rInit, rData, rLast]

/-- It is over: nothing more comes, whatever happens. -/
theorem C62_over (p : Params) (fail up : Bool) (es es' : List Ev) (hd : (history p fail up es).1.state = .done) (latest : Nat → Nat) :
    stream (history p fail up es).1 latest es' = [] := stream_done hd latest es'

def withInit : Params := { plain with hasInit := true }

/-- When onInit() throws, the subscription ends without any event. -/
theorem C62_silent : (history withInit false true [.msg rInit .throws, .deliver]).1.state = .done ∧
    streamOf withInit false true [.msg rInit .throws, .deliver] = [] ∧
    (history withInit false true [.msg rInit .throws, .deliver]).2 = [.sent .init, .sent .destroy] := ⟨rfl, rfl, rfl⟩

/-! ### C63 -/

/-- With a server which sends updates only after START, and unless onInit() cancels, no null or erased pointer is followed. -/
theorem C63_pointers_partial (p : Params) (fail up : Bool) (es : List Ev) (hP : PoliteOf p fail up es) (hc : ∀ r, .msg r .cancels ∉ es) :
    (history p fail up es).1.crashed = false ∧ (history p fail up es).1.freed = false :=
  ⟨pol_run (pol_begin p fail up) (inv_begin p fail up) es hP, freed_run (freed_begin p fail up) es hc⟩

example : let es := [Ev.msg rInit .ok, .msg (rData 0 1) .ok, .down, .up, .msg rInit .ok, .msg (rData 0 2) .ok]
    PoliteOf plain false true es ∧ ∀ r, .msg r .cancels ∉ es := by
  refine ⟨⟨?_, ?_, ?_, ?_, ?_, ?_, trivial⟩, by simp⟩
  all_goals
    intro r i h
    first
    | (intro _; rfl)
    | (cases h; intro hc; cases hc)
    | cases h

/-- An update before the reply to INIT crashes the client. -/
theorem C63_crash : (history plain false true [.msg (rData 0 1) .ok]).1.crashed = true := rfl

/-- So does cancel() in onInit(), which also sends DESTROY twice. -/
theorem C63_freed : (history withInit false true [.msg rInit .cancels]).1.freed = true ∧
    (history withInit false true [.msg rInit .cancels]).2 = [.sent .init, .sent .destroy, .sent .destroy] := ⟨rfl, rfl⟩

end Pvxs.Props.CMon
