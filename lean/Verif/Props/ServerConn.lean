import Verif.Lemmas.ServerTab
import Verif.Lemmas.ServerHandle
/-
C22: replies to executions.  C23: which execution a reply answers.  C24: close and cancel callbacks.  C54: destroyed channels.
An execution is a list of events (messages of the peer and actions of the application, in any order) from `Spec.start`.
-/
namespace Pvxs.Props
open Pvxs Server Spec

/-- number given to the first channel of a connection -/
def sid0 : Nat := 0x07050301

/-- a PUT which is executed twice, cancelled in between -/
def story : List Ev :=
  [.createChan 1 true true true true, .gprInit .put sid0 7 0x08, .setOnClose 0, .connect 0 (some 5) true,
   .gprExec .put 7 0 true, .setOnCancel 0, .cancel sid0 7, .gprExec .put 7 0 true]

/-! ### C22 -/

/-- C22: at any time, for any request, no more replies to executions have been sent than executions accepted; a cancelled
execution is not answered either. -/
theorem C22_replies (es : List Ev) (i : Nat) (pre : List Obs) (h : pre <+: (run start es).log) :
    execReplies i pre + cancels i pre ≤ execs i pre := by
  obtain ⟨x, hx⟩ := run_life es i
  obtain ⟨post, hp⟩ := h
  unfold lifeOf at hx
  rw [← hp] at hx
  obtain ⟨y, hy, _⟩ := lifeRun_split hx
  have := life_counts i pre _ y hy
  have e : b01 ((⟨Phase.fresh, false⟩ : Life).phase = Phase.busy) = 0 := by simp [b01]
  omega

example : execs 0 (run start (story ++ [.reply 1 none])).log = 2 ∧ execReplies 0 (run start (story ++ [.reply 1 none])).log = 1
    ∧ cancels 0 (run start (story ++ [.reply 1 none])).log = 1 := by decide

/-- replying twice -/
example : execReplies 0 (run start (story ++ [.reply 1 none, .reply 1 none, .error 1])).log = 1 := by decide

/-- C22: the request itself is answered at most once -/
theorem C22_setup (es : List Ev) (i : Nat) : setupReplies i (run start es).log ≤ 1 := by
  obtain ⟨x, hx⟩ := run_life es i
  have := life_setup i _ _ x hx
  have : b01 (x.phase ≠ .fresh ∧ x.phase ≠ .setup) ≤ 1 := by unfold b01; split <;> omega
  omega

example : setupReplies 0 (run start story).log = 1 := by decide

/-- C22: once a request is over nothing is sent for it, and the application is not called for it, except to say so. -/
theorem C22_silence (es : List Ev) (i : Nat) (w : End) (pre post : List Obs) (h : (run start es).log = pre ++ .ended i w :: post) :
    (∀ src ok, Obs.replied i src ok ∉ post) ∧ (∀ k c, Obs.exec i k c ∉ post) ∧ Obs.onCancel i ∉ post := by
  obtain ⟨x, hx⟩ := run_life es i
  unfold lifeOf at hx
  rw [h] at hx
  obtain ⟨y, h1, h2⟩ := lifeRun_split hx
  obtain ⟨z, h3, h4⟩ := lifeRun_cons h2
  have hz : z.phase = .over w := by
    simp only [lifeStep, Obs.about, beq_self_eq_true, if_true] at h3
    cases w <;> simp only [lifeObs] at h3 <;> split at h3 <;> cases h3 <;> rfl
  have := (life_over i post z x w h4 hz).1
  refine ⟨fun src ok hm => ?_, fun k c hm => ?_, fun hm => ?_⟩
  · have := this _ hm (by simp [Obs.about]); cases this
  · have := this _ hm (by simp [Obs.about]); cases this
  · have := this _ hm (by simp [Obs.about]); cases this

example : (run start (story ++ [.destroy sid0 7, .reply 1 none])).log
    = [.chanCreated 0, .created 0 0, .setClose 0, .replied 0 .setup true, .exec 0 0 .onPut, .onCancel 0, .cancelled 0,
       .exec 0 1 .onPut, .onCancel 0] ++ .ended 0 .teardown :: [.onClose 0] := by decide

/-- a live operation is over once it is Dead -/
theorem over_of_dead {es : List Ev} {i : Nat} {op : SOp} (h : (run start es).ops[i]? = some op) (hd : op.state = .dead) :
    isOver i (run start es).log := by
  obtain ⟨x, hx, hf⟩ := (run_lives es i).1 op h
  obtain ⟨w, hw, _⟩ := hf.dead hd
  exact ⟨w, life_over_ended i _ _ x w hx hw (by simp)⟩

theorem run_snoc (s : SConn) (es : List Ev) (e : Ev) : run s (es ++ [e]) = step (run s es) e := by
  simp [run, List.foldl_append]

/-- C22: DESTROY_REQUEST ends the request with this id, whatever else happened -/
theorem C22_destroy (es : List Ev) (sid ioid i : Nat) (ho : (run start es).isOpen = true) (ha : (run start es).aborted = false)
    (hi : Map.find? (run start es).opByIOID ioid = some i) (hc : ∃ op, (run start es).ops[i]? = some op) :
    isOver i (run start (es ++ [.destroy sid ioid])).log := by
  have hstep : run start (es ++ [.destroy sid ioid]) = destroyRequest (run start es) sid ioid := by
    rw [run_snoc]; simp [step, ho, ha]
  obtain ⟨op, hop⟩ : ∃ op, (run start (es ++ [.destroy sid ioid])).ops[i]? = some op := by
    rw [hstep]
    unfold destroyRequest
    simp only [hi]
    have hlen : ∀ u : SConn, u.ops = (run start es).ops → ∃ op, (cleanup u i).ops[i]? = some op := by
      intro u hu
      obtain ⟨op, hop⟩ := hc
      have := (cleanup_frame u i).1.nops
      exact ⟨_, List.getElem?_eq_getElem (by rw [this, hu]; exact (List.getElem?_eq_some_iff.1 hop).1)⟩
    apply hlen
    split <;> rfl
  refine over_of_dead hop ?_
  have h2 := hop
  rw [hstep] at h2
  unfold destroyRequest at h2
  simp only [hi] at h2
  exact (cleanup_frame _ i).2 op h2

example : (run start story).isOpen = true ∧ (run start story).aborted = false ∧ Map.find? (run start story).opByIOID 7 = some 0
    ∧ (run start story).ops.length = 1 := by decide

/-- C22: as long as an execution is outstanding, reporting an error for it reaches the client -/
theorem C22_answer (es : List Ev) (i k : Nat) (ho : (run start es).isOpen = true) (ha : (run start es).aborted = false)
    (hk : (run start es).handles[k]? = some i) (hout : outstanding i (run start es).log) (hno : ¬ isOver i (run start es).log) :
    execReplies i (run start (es ++ [.error k])).log = execReplies i (run start es).log + 1 := by
  obtain ⟨op, hop, hkind, hcr⟩ := ((run_micros es start start_hinv.ok).handlesOK start_hinv.ok) k i hk
  obtain ⟨x, hx, hf⟩ := (run_lives es i).1 op hop
  have hd : op.state ≠ .dead := fun hd => hno (over_of_dead hop hd)
  have hph := (hf.live hd).1
  have hnover : ∀ w, x.phase ≠ .over w := by
    intro w hw; rw [hph] at hw
    rcases live_phase op hd with h | h | h <;> rw [h] at hw <;> cases hw
  have hex := (life_exact i _ _ x hx hnover).2
  have hst : op.state = .executing := by
    refine Classical.byContradiction fun hne => ?_
    have hnb : x.phase ≠ .busy := by
      rw [hph]; unfold SOp.phase
      cases e : op.state <;> simp_all
    have e : b01 ((⟨Phase.fresh, false⟩ : Life).phase = Phase.busy) = 0 := by simp [b01]
    have e' : b01 (x.phase = .busy) = 0 := by simp [b01, hnb]
    unfold outstanding at hout
    omega
  rw [run_snoc]
  simp only [step, ha, useHandle, hk, hop, Bool.false_eq_true, if_false]
  split
  · rename_i hi
    simp [infoReply, hop, hi, hst, ho, forget, SConn.emit, SConn.modOp, execReplies]
  · simp [doReply, hop, hst, ho, SConn.emit, SConn.modOp, SConn.emitIf, replyState, execReplies]

example : (run start story).isOpen = true ∧ (run start story).aborted = false ∧ (run start story).handles[1]? = some 0
    ∧ outstanding 0 (run start story).log ∧ Obs.ended 0 .teardown ∉ (run start story).log
    ∧ Obs.ended 0 .reply ∉ (run start story).log := by unfold outstanding; decide

/-! ### C23 -/

/-- C23 is violated: the application was told to stop (onCancel) the first execution, answers it nevertheless, and the client
takes this for the answer to its second execution. -/
theorem C23_stale_reply : ∃ es i k k' c c' pre post,
    (run start es).log = pre ++ .exec i k c :: .onCancel i :: .cancelled i :: .exec i k' c' :: post
    ∧ k ≠ k' ∧ Obs.replied i (.handle k) true ∈ post :=
  ⟨story ++ [.reply 0 none], 0, 0, 1, .onPut, .onPut,
    [.chanCreated 0, .created 0 0, .setClose 0, .replied 0 .setup true], [.replied 0 (.handle 0) true], by decide, by decide, by decide⟩

/-- C23 is violated without any cancellation too: a second reply through the first handle answers the second execution. -/
theorem C23_second_reply : ∃ es i k k' c c' pre post,
    (run start es).log = pre ++ .exec i k c :: .replied i (.handle k) true :: .exec i k' c' :: post
    ∧ k ≠ k' ∧ Obs.replied i (.handle k) true ∈ post :=
  ⟨[.createChan 1 true true true true, .gprInit .put sid0 7 0x08, .connect 0 (some 5) true,
    .gprExec .put 7 0 true, .reply 0 none, .gprExec .put 7 0 true, .reply 0 none], 0, 0, 1, .onPut, .onPut,
    [.chanCreated 0, .created 0 0, .replied 0 .setup true], [.replied 0 (.handle 0) true], by decide, by decide, by decide⟩

/-- C23, for an application which uses each handle once and not after the cancellation of its execution (the second is out of
its control: the cancellation may arrive in between, that is what is missing here): each reply answers the execution
through whose handle it was made. -/
theorem C23_reply_partial (es : List Ev) (h : Careful [] start es) (pre post : List Obs) (i k : Nat) (ok : Bool)
    (hl : (run start es).log = pre ++ .replied i (.handle k) ok :: post) : lastExec i pre = some k :=
  careful_inv es [] start start_hinv h pre post i k ok hl

/-- an application which answers the execution which was not cancelled -/
example : Careful [] start (story ++ [.reply 1 none]) := by
  have h1 : ∀ k i c, CancelledSince k [Obs.chanCreated 0, .created 0 0, .setClose 0, .replied 0 .setup true, .exec 0 0 .onPut, .onCancel 0, .cancelled 0,
       .exec i 1 c] → k ≠ 1 := by
    rintro k i c ⟨j, c', a, b, d, h⟩ rfl
    match a, h with
    | [], h => simp at h
    | [_], h => simp at h
    | [_, _], h => simp at h
    | [_, _, _], h => simp at h
    | [_, _, _, _], h => simp at h
    | [_, _, _, _, _], h => simp at h
    | [_, _, _, _, _, _], h => simp at h
    | [_, _, _, _, _, _, _], h => simp at h
    | _ :: _ :: _ :: _ :: _ :: _ :: _ :: _ :: l, h => simp at h
  refine ⟨by simp [uses], by simp [uses], by simp [uses], by simp [uses], by simp [uses], by simp [uses], by simp [uses], by simp [uses], ?_, trivial⟩
  rintro k hk
  have : k = 1 := by simpa [uses] using hk.symm
  subst this
  refine ⟨by simp [uses], fun hc => ?_⟩
  exact h1 1 0 .onPut hc rfl

/-! ### C24 -/

/-- C24: the close callback of an operation runs at most once, and only once the operation is over -/
theorem C24_at_most_once (es : List Ev) (i : Nat) :
    closes i (run start es).log ≤ 1 ∧ (closes i (run start es).log = 1 → isOver i (run start es).log) := by
  obtain ⟨x, hx⟩ := run_life es i
  obtain ⟨a, b, _⟩ := life_closes i _ _ x hx
  refine ⟨a, fun h => ?_⟩
  have hp : x.phase = .over .teardown := Classical.byContradiction fun hne => by have := b hne; omega
  exact ⟨_, life_over_ended i _ _ x _ hx hp (by simp)⟩

/-- C24: when an operation is torn down (by the peer, with its channel, or with the connection) its close callback has run
exactly once, if it had been set. -/
theorem C24_teardown (es : List Ev) (i : Nat) (hset : Obs.setClose i ∈ (run start es).log)
    (hend : Obs.ended i .teardown ∈ (run start es).log) : closes i (run start es).log = 1 := by
  have hl := run_lives es i
  cases h : (run start es).ops[i]? with
  | none =>
    have hx := hl.2 h
    have := life_ended i _ _ _ _ hx hend
    cases this
  | some op =>
    obtain ⟨x, hx, hf⟩ := hl.1 op h
    have hp := life_ended i _ _ x _ hx hend
    have hreg : x.reg = false := by
      by_cases hd : op.state = .dead
      · obtain ⟨w, hw, hr⟩ := hf.dead hd
        rw [hp] at hw; cases hw; exact hr rfl
      · have := (hf.live hd).1
        rw [hp] at this
        rcases live_phase op hd with h | h | h <;> rw [h] at this <;> cases this
    exact (life_closes i _ _ x hx).2.2 hp hreg (.inr hset)

example : Obs.setClose 0 ∈ (run start (story ++ [.destroyChan sid0, .destroy sid0 7, .disconnect])).log
    ∧ Obs.ended 0 .teardown ∈ (run start (story ++ [.destroyChan sid0, .destroy sid0 7, .disconnect])).log := by decide

theorem created_op {es : List Ev} {i c : Nat} (h : Obs.created i c ∈ (run start es).log) :
    ∃ op, (run start es).ops[i]? = some op ∧ op.chan = c := run_createdOK es i c h

/-- C24: when the connection is gone every operation is over, and its close callback has run exactly once if it was set.
Missing: operations which ended by a reply (`C24_lost_close`), and the destruction of subscriptions by a MONITOR message
(`C24_reuse_abort`). -/
theorem C24_disconnect_partial (es : List Ev) (hp : ∀ e ∈ es, e.plain = true) (ho : (run start es).isOpen = false) (i c : Nat)
    (hc : Obs.created i c ∈ (run start es).log) :
    isOver i (run start es).log ∧ (Obs.setClose i ∈ (run start es).log → Obs.ended i .reply ∉ (run start es).log →
      closes i (run start es).log = 1) := by
  have hinv := run_inv es hp start_inv
  obtain ⟨op, hop, _⟩ := created_op hc
  have hd : op.state = .dead := Classical.byContradiction fun hne => hinv.closed ho i op ⟨hop, hne⟩
  have hover := over_of_dead hop hd
  refine ⟨hover, fun hs hr => ?_⟩
  obtain ⟨w, hw⟩ := hover
  cases w with
  | reply => exact absurd hw hr
  | teardown => exact C24_teardown es i hs hw

example : (∀ e ∈ story ++ [.disconnect], e.plain = true) ∧ (run start (story ++ [.disconnect])).isOpen = false
    ∧ Obs.created 0 0 ∈ (run start (story ++ [.disconnect])).log ∧ Obs.setClose 0 ∈ (run start (story ++ [.disconnect])).log
    ∧ Obs.ended 0 .reply ∉ (run start (story ++ [.disconnect])).log := by decide

/-- C24: when a channel is destroyed every operation on it is over, and its close callback has run, with the same
exceptions. -/
theorem C24_channel_partial (es : List Ev) (hp : ∀ e ∈ es, e.plain = true) (ho : (run start es).isOpen = true)
    (sid c : Nat) (ch : SChan) (hsid : Map.find? (run start es).chanBySID sid = some c) (hch : (run start es).chans[c]? = some ch)
    (hd : ch.destroyed = false) (i : Nat) (hc : Obs.created i c ∈ (run start (es ++ [.destroyChan sid])).log) :
    let l := (run start (es ++ [.destroyChan sid])).log
    isOver i l ∧ (Obs.setClose i ∈ l → Obs.ended i .reply ∉ l → closes i l = 1) := by
  have hinv := run_inv es hp start_inv
  have hstep : run start (es ++ [.destroyChan sid]) = chanCleanup (run start es) c := by
    rw [run_snoc]; simp [step, ho, hinv.aborted, destroyChan, hsid]
  obtain ⟨op, hop, hoc⟩ := created_op hc
  have hdead : op.state = .dead := by
    rw [hstep] at hop
    exact chanCleanup_dead (hinv.opened ho).1 hch hd i op hop hoc
  have hover := over_of_dead hop hdead
  refine ⟨hover, fun hs hr => ?_⟩
  obtain ⟨w, hw⟩ := hover
  cases w with
  | reply => exact absurd hw hr
  | teardown => exact C24_teardown _ i hs hw

example : (run start story).isOpen = true ∧ Map.find? (run start story).chanBySID sid0 = some 0
    ∧ ((run start story).chans[0]?).map (·.destroyed) = some false
    ∧ Obs.created 0 0 ∈ (run start (story ++ [.destroyChan sid0])).log := by decide

/-- C24: onCancel runs only while an execution is outstanding -/
theorem C24_cancel (es : List Ev) (i : Nat) (pre post : List Obs) (h : (run start es).log = pre ++ .onCancel i :: post) :
    outstanding i pre := by
  obtain ⟨x, hx⟩ := run_life es i
  unfold lifeOf at hx
  rw [h] at hx
  obtain ⟨y, h1, h2⟩ := lifeRun_split hx
  obtain ⟨z, h3, _⟩ := lifeRun_cons h2
  have hy : y.phase = .busy := by
    simp only [lifeStep, Obs.about, beq_self_eq_true, if_true, lifeObs] at h3
    split at h3
    · assumption
    · cases h3
  have := life_counts i pre _ y h1
  have e : b01 ((⟨Phase.fresh, false⟩ : Life).phase = Phase.busy) = 0 := by simp [b01]
  have e' : b01 (y.phase = .busy) = 1 := by simp [b01, hy]
  unfold outstanding
  omega

/-- C24 is violated: a client executes a request with the flag which says that this is the last time (0x10), and is answered.
The operation is over, the close callback was set, and never runs, not even when the connection is closed. -/
theorem C24_lost_close : ∃ es i, Obs.setClose i ∈ (run start es).log ∧ isOver i (run start es).log
    ∧ (run start es).isOpen = false ∧ closes i (run start es).log = 0 :=
  ⟨[.createChan 1 true true true true, .gprInit .put sid0 7 0x08, .setOnClose 0, .connect 0 (some 5) true,
    .gprExec .put 7 0x10 true, .reply 0 none, .destroy sid0 7, .destroyChan sid0, .disconnect], 0,
    by decide, ⟨.reply, by decide⟩, by decide, by decide⟩

/-- ... likewise a request for which connect() reports an error, -/
theorem C24_lost_close_error : ∃ es i, Obs.setClose i ∈ (run start es).log ∧ Obs.replied i .setup false ∈ (run start es).log
    ∧ (run start es).isOpen = false ∧ closes i (run start es).log = 0 :=
  ⟨[.createChan 1 true true true true, .gprInit .get sid0 7 0x08, .setOnClose 0, .setupError 0, .disconnect], 0,
    by decide, by decide, by decide, by decide⟩

/-- ... a finished subscription, -/
theorem C24_lost_close_monitor : ∃ es i, Obs.setClose i ∈ (run start es).log ∧ isOver i (run start es).log
    ∧ (run start es).isOpen = false ∧ closes i (run start es).log = 0 :=
  ⟨[.createChan 1 true true true true, .monInit sid0 7, .setOnClose 0, .monReply 0 true, .monCtl sid0 7 (some true) false,
    .monFinish 0, .disconnect], 0, by decide, ⟨.reply, by decide⟩, by decide, by decide⟩

/-- ... and a GET_FIELD which was answered. -/
theorem C24_lost_close_info : ∃ es i, Obs.setClose i ∈ (run start es).log ∧ isOver i (run start es).log
    ∧ (run start es).isOpen = false ∧ closes i (run start es).log = 0 :=
  ⟨[.createChan 1 true true true true, .getField sid0 7, .setOnClose 0, .reply 0 none, .disconnect], 0,
    by decide, ⟨.reply, by decide⟩, by decide, by decide⟩

/-- A request which has ended with its last execution still occupies its id: a client which uses the id again, as it may, is
disconnected. -/
theorem C24_id_not_released : ∃ es ioid i, isOver i (run start es).log ∧ (run start es).isOpen = true
    ∧ Map.find? (run start es).opByIOID ioid = some i
    ∧ (run start (es ++ [.gprInit .put sid0 ioid 0x08])).isOpen = false :=
  ⟨[.createChan 1 true true true true, .gprInit .put sid0 7 0x08, .connect 0 (some 5) true,
    .gprExec .put 7 0x10 true, .reply 0 none], 7, 0, ⟨.reply, by decide⟩, by decide, by decide, by decide⟩

/-- A client which destroys a subscription by a MONITOR message and at once uses the same id for another one makes an
assert() of the server fail, which ends the process. -/
theorem C24_reuse_abort : ∃ es, (run start es).aborted = true :=
  ⟨[.createChan 1 true true true true, .monInit sid0 7, .monReply 0 true, .monCtl sid0 7 none true, .monInit sid0 7, .runPending],
    by decide⟩

/-! ### C54 -/

/-- C54 is violated: the id of a destroyed channel stays usable.  A new request is accepted and handed to the application,
which has already been told that the channel is closed. -/
theorem C54_still_usable : ∃ es pre post i c, (run start es).log = pre ++ .chanClosed c :: post
    ∧ Obs.created i c ∈ post ∧ (∃ k, Obs.exec i k .onGet ∈ post) ∧ Obs.replied i .setup true ∈ post :=
  ⟨[.createChan 1 true true true true, .destroyChan sid0, .gprInit .get sid0 7 0x08, .connect 0 (some 5) true,
    .gprExec .get 7 0 true], [.chanCreated 0, .chanGone 0],
    [.created 0 0, .replied 0 .setup true, .exec 0 0 .onGet], 0, 0, by decide, by decide, ⟨0, by decide⟩, by decide⟩

/-- C54 is violated: it is not released either.  However many channels are created and destroyed, every one of them stays. -/
theorem C54_not_released : ∃ es sid c, Obs.chanGone c ∈ (run start es).log ∧ Map.find? (run start es).chanBySID sid = some c :=
  ⟨[.createChan 1 true true true true, .destroyChan sid0], sid0, 0, by decide, by decide⟩

end Pvxs.Props
