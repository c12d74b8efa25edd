import Verif.Lemmas.ServerMonIndep
/-
C25: queue of a subscription.  C26: its end.  C27: flow control.  C28: no stall.  C29: independence.  C59: onStart.
An execution is a list of events (messages of the peer, calls of the application, turns of the event loop) in any order.
-/
namespace Pvxs.Props
open Pvxs.Mon Pvxs.Spec.Mon
open Pvxs.Server (OpState)

/-! ### C25 -/

/-- C25: an application which does not post the same Value twice.  What was sent, followed by what is waiting in the queue, is
everything posted (which contains something the subscriber asked for) before finish(), in order, where some consecutive
updates have been merged.  Missing: an application which posts the same Value again (`C25_reposted`). -/
theorem C25_order_partial (es : List Ev) (h : PostedOnce es) (i : Nat) (m : Mon) (hm : (run start es).mons[i]? = some m) :
    ∃ out n, Squashed (accepted i false start es) out ∧ dataOf m.sent = (out.take n).map (restrict m.mask)
      ∧ queued (run start es) m = out.drop n := by
  obtain ⟨_, _, gs1, gs2, a, b, c, d⟩ := run_groups i es m hm (calm_of_once h i)
  refine ⟨(gs1 ++ gs2).map mergeAll, gs1.length, ⟨gs1 ++ gs2, a, b, rfl⟩, ?_, ?_⟩
  · rw [c, List.map_append, List.take_left' (by simp)]
  · rw [queued_eq, d, List.map_append, List.drop_left' (by simp)]

/-- a slow subscriber with room for two updates -/
def slow : List Ev :=
  [.value [some 1, none], .value [none, some 2], .value [some 3, none], .value [some 4, none], .subscribe false 0 (some 2) [true, true],
   .setup 0 true, .post 0 0 false false, .post 0 1 false false, .post 0 2 false false, .post 0 3 true false, .ctl 0 none (some true) false,
   .work 0]

example : PostedOnce slow := by unfold PostedOnce; decide
example : accepted 0 false start slow = [[some 1, none], [none, some 2], [some 3, none]] := by decide
example : ((run start slow).mons[0]?).map (fun m => (dataOf m.sent, queued (run start slow) m))
    = some ([[some 1, none]], [[some 3, some 2]]) := by decide

/-- C25 is violated for an application which posts the same Value again: v, v, w with a queue of two.  The third update is merged
into both entries of the queue, so the subscriber is sent twice what should have been sent once. -/
theorem C25_reposted : ∃ es i, ∃ m : Mon, (run start es).mons[i]? = some m
    ∧ accepted i false start es = [[some 1, none], [some 1, none], [none, some 2]]
    ∧ dataOf m.sent = [[some 1, some 2], [some 1, some 2]] := by
  refine ⟨[.value [some 1, none], .value [none, some 2], .subscribe false 0 (some 2) [true, true], .setup 0 true,
    .post 0 0 false false, .post 0 0 false false, .post 0 1 false false, .ctl 0 none (some true) false, .work 0, .work 0], (0 : Nat), ?_⟩
  exact ⟨_, rfl, by decide, by decide⟩

theorem merge_nil (a : Upd) : merge a [] = a := by cases a <;> rfl

theorem merge_assoc : ∀ a b c : Upd, merge (merge a b) c = merge a (merge b c)
  | [], b, c => rfl
  | a, [], c => by rw [merge_nil]; rfl
  | a, b, [] => by rw [merge_nil, merge_nil]
  | x :: a, y :: b, z :: c => by
    simp only [merge]
    rw [merge_assoc a b c]
    cases x <;> cases y <;> cases z <;> rfl

theorem foldl_merge (g : List Upd) : ∀ a, g.foldl merge a = merge a (mergeAll g) := by
  induction g with
  | nil => intro a; exact (merge_nil a).symm
  | cons u g ih =>
    intro a
    simp only [mergeAll, List.foldl_cons]
    rw [ih, ih, merge_assoc]; rfl

theorem mergeAll_append (a b : List Upd) : mergeAll (a ++ b) = merge (mergeAll a) (mergeAll b) := by
  simp only [mergeAll, List.foldl_append]
  exact foldl_merge b _

/-- C25: squashing does not lose the last value of any field -/
theorem C25_content (posts out : List Upd) (h : Squashed posts out) : mergeAll out = mergeAll posts := by
  obtain ⟨gs, hg, rfl, rfl⟩ := h
  clear hg
  induction gs with
  | nil => rfl
  | cons g gs ih =>
    rw [List.map_cons, List.flatten_cons, mergeAll_append, show mergeAll g :: gs.map mergeAll = [mergeAll g] ++ gs.map mergeAll from rfl,
      mergeAll_append, ih]
    rfl

/-- the value of each field in `mergeAll` is the last one posted -/
theorem C25_last_value (a b : Upd) (k : Nat) : (merge a b)[k]?.join = (b[k]?.join).or (a[k]?.join) := by
  induction a generalizing b k with
  | nil => cases h : b[k]?.join <;> simp [merge, h]
  | cons x a ih =>
    cases b with
    | nil => simp [merge]
    | cons y b =>
      cases k with
      | zero => simp [merge]
      | succ k => simpa [merge] using ih b k

example : Squashed [[some 1, none], [none, some 2], [some 3, none]] [[some 1, none], [some 3, some 2]] :=
  ⟨[[[some 1, none]], [[none, some 2], [some 3, none]]], by decide, by decide, by decide⟩

/-- C25: without forcePost() no more updates than the limit are queued (finish() adds one entry). -/
theorem C25_bound (es : List Ev) (i : Nat) (m : Mon) (hm : (run start es).mons[i]? = some m)
    (hf : ∀ c mb, Ev.post i c mb true ∉ es) : m.queue.length ≤ m.limit + (if m.finished then 1 else 0)
      ∧ (queued (run start es) m).length ≤ m.limit := by
  have hfin := run_fin i es m hm
  have hb := hfin.bound hf
  refine ⟨hb, ?_⟩
  rw [queued_eq, List.length_map]
  by_cases h : none ∈ m.queue
  · obtain ⟨a, b, hab⟩ := List.append_of_mem h
    have h1 := hfin.last a b hab
    rw [hab, h1.1] at hb ⊢
    rw [h1.2] at hb
    have : (cells (a ++ [none])).length ≤ a.length := by
      rw [cells_append]
      simp only [cells, List.filterMap_cons, List.filterMap_nil, List.append_nil, id]
      exact List.length_filterMap_le _ _
    simp only [List.length_append, List.length_singleton] at hb
    simp at hb
    omega
  · by_cases hf : m.finished = true
    · -- the end has been sent already, or lost
      rcases hfin.ends hf with ⟨pre, hp⟩ | ⟨hq, _⟩
      · exact absurd (by rw [hp]; simp) h
      · rw [hq]; simp [cells]
    · have hf : m.finished = false := by simpa using hf
      rw [hf] at hb
      have : (cells m.queue).length ≤ m.queue.length := List.length_filterMap_le _ _
      simp at hb
      omega

example : ((run start slow).mons[0]?).map (fun m => (m.limit, m.queue.length)) = some (2, 1)
    ∧ (∀ e ∈ slow, ∀ c mb, e ≠ .post 0 c mb true) := by
  refine ⟨by decide, fun e he c mb h => ?_⟩
  subst h
  cases c with
  | zero => cases mb <;> revert he <;> decide
  | succ c => simp [slow] at he

/-! ### C26 -/

/-- C26: nothing is sent after the final message.  So there is only one. -/
theorem C26_last (es : List Ev) (i : Nat) (m : Mon) (hm : (run start es).mons[i]? = some m) (pre post : List Msg)
    (h : m.sent = pre ++ .final :: post) : post = [] := ((run_fin i es m hm).sent pre post h).1

/-- C26: before the final message everything which was posted before finish() has been sent -/
theorem C26_complete (es : List Ev) (ho : PostedOnce es) (i : Nat) (m : Mon) (hm : (run start es).mons[i]? = some m)
    (h : Msg.final ∈ m.sent) : Ev.finish i ∈ es ∧
      ∃ out, Squashed (accepted i false start es) out ∧ dataOf m.sent = out.map (restrict m.mask) := by
  have hfin := run_fin i es m hm
  obtain ⟨a, b, hab⟩ := List.append_of_mem h
  obtain ⟨_, _, hq, hf⟩ := hfin.sent a b hab
  refine ⟨hfin.asked hf, ?_⟩
  obtain ⟨out, n, h1, h2, h3⟩ := C25_order_partial es ho i m hm
  have : out.drop n = [] := by rw [← h3, queued_eq, hq]; rfl
  refine ⟨out, h1, ?_⟩
  have h4 := List.take_append_drop n out
  rw [this, List.append_nil] at h4
  rw [h2, h4]

def ended : List Ev := slow ++ [.finish 0, .post 0 3 false false, .work 0, .work 0]

example : PostedOnce (slow ++ [.finish 0, .work 0, .work 0])
    ∧ ((run start (slow ++ [.finish 0, .work 0, .work 0])).mons[0]?).map (fun m => m.sent)
      = some [.init true, .data [some 1, none], .data [some 3, some 2], .final] := by unfold PostedOnce; decide

/-- C26: after finish() nothing can be posted -/
theorem C26_refused (pre mid : List Ev) (i c : Nat) (mb f : Bool) (hc : connected i (run start pre) = true) :
    run start (pre ++ .finish i :: (mid ++ [.post i c mb f])) = run start (pre ++ .finish i :: mid) := by
  have h1 : run start (pre ++ .finish i :: (mid ++ [.post i c mb f])) = step (run start (pre ++ .finish i :: mid)) (.post i c mb f) := by
    rw [← run_snoc]; simp
  rw [h1]
  have h2 : run start (pre ++ .finish i :: mid) = run (step (run start pre) (.finish i)) mid := by simp [run, List.foldl_append]
  cases hm : (run start pre).mons[i]? with
  | none => simp [connected, hm] at hc
  | some m =>
    have hst : m.state ≠ .creating := by simpa [connected, hm] using hc
    obtain ⟨m1, h3, h4⟩ : ∃ m1, (step (run start pre) (.finish i)).mons[i]? = some m1 ∧ m1.finished = true := by
      refine ⟨m.finish, by simp only [step]; rw [modMon_get _ _ _ _ _ hm, if_pos rfl], ?_⟩
      unfold Mon.finish
      split
      · rename_i h; exact h.resolve_left hst
      · rw [(maybeReply_fields _).2.2.2.2.2.1]
    obtain ⟨m2, h5, h6⟩ := finished_run mid _ m1 h3 h4
    rw [h2]
    generalize run (step (run start pre) (.finish i)) mid = s at h5
    simp only [step, postValue, h5]
    rw [if_pos (.inr (.inl h6))]

example : connected 0 (run start slow) = true := by decide

/-- the end of the subscription is reached when the event loop runs -/
theorem deliver (i : Nat) : ∀ (k : Nat) (s : Sys) (m : Mon), m.queue.length = k → s.mons[i]? = some m → m.state = .executing →
    m.finished = true → m.jobs = 1 → (∃ pre, m.queue = pre ++ [none] ∧ none ∉ pre) →
    ∃ m', (run s (List.replicate k (.work i))).mons[i]? = some m' ∧ Msg.final ∈ m'.sent := by
  intro k
  induction k with
  | zero => intro s m hl _ _ _ _ ⟨pre, hp, _⟩; rw [hp] at hl; simp at hl
  | succ k ih =>
    intro s m hl hm he hf hj ⟨pre, hp, hpn⟩
    have hstep : (step s (.work i)).mons[i]? = some (m.runJob s.heap) := by
      simp only [step]; rw [modMon_get _ _ _ _ _ hm, if_pos rfl]
    have hrun : run s (List.replicate (k+1) (.work i)) = run (step s (.work i)) (List.replicate k (.work i)) := rfl
    rw [hrun]
    rcases runJob_sends s.heap m with ⟨_, h⟩ | ⟨_, h⟩
    · rw [hj] at h; cases h
    · cases h with
      | nothing h hw hi =>
        rcases hw he with hq | hq
        · rw [hq] at hl; simp at hl
        · rw [hf] at hq; cases hq.2.2
      | junk0 h0 hq h => rw [he] at h0; cases h0
      | data c q hq h0 hw h =>
        obtain ⟨p1, p2, p3, p4, p5, p6, p7, p8, p9, p10, p11, p12⟩ := popped_fields m s.heap c q hj
        rw [h] at hstep
        obtain ⟨pre', hq', hn'⟩ : ∃ pre', q = pre' ++ [none] ∧ none ∉ pre' := by
          rw [hq] at hp
          cases pre with
          | nil => simp at hp
          | cons x pre =>
            simp only [List.cons_append, List.cons.injEq] at hp
            exact ⟨pre, hp.2, fun h => hpn (by simp [h])⟩
        refine ih _ _ ?_ hstep (p1.trans he) (p6.trans hf) ?_ ⟨pre', p2.trans hq', hn'⟩
        · rw [p2]; rw [hq] at hl; simpa using hl
        · rw [p11, if_pos ⟨he, by rw [hq']; simp, .inr (.inr hf)⟩]
      | final q hq h0 h =>
        rw [h] at hstep
        have hq' : q = [] := by
          rw [hq] at hp
          cases pre with
          | nil => simpa using hp
          | cons x pre =>
            simp only [List.cons_append, List.cons.injEq] at hp
            exact absurd (by simp [← hp.1]) hpn
        have hk : k = 0 := by rw [hq, hq'] at hl; simpa using hl.symm
        subst hk
        exact ⟨_, hstep, by simp⟩
      | junk q hq h0 h => rw [he] at h0; cases h0

/-- C26: the final message is delivered.  When finish() has been called, and the subscription is running, it is sent as soon as
the event loop comes to it.  Missing: pipelined subscriptions where no transmission is scheduled (`C26_stuck`), and those where a stop
came in between (`C26_lost`: a malformed message was sent instead). -/
theorem C26_delivered_partial (es : List Ev) (i : Nat) (m : Mon) (hm : (run start es).mons[i]? = some m)
    (hp : m.pipeline = true → m.jobs ≠ 0) (he : m.state = .executing) (hf : m.finished = true) (hj : Msg.junk ∉ m.sent) :
    ∃ m', (run start (es ++ List.replicate m.queue.length (.work i))).mons[i]? = some m' ∧ Msg.final ∈ m'.sent := by
  have hfin := run_fin i es m hm
  have hs := run_sched i es m hm
  have hnd : m.state ≠ .dead := by rw [he]; simp
  rcases hfin.ends hf with ⟨pre, hq⟩ | ⟨hq, h | h⟩
  · have hjobs : m.jobs ≠ 0 := by
      cases hpp : m.pipeline
      · exact run_wake i es m hm (by simp [hpp]) he (by rw [hq]; simp) (by simp [hpp])
      · exact hp hpp
    have := deliver i m.queue.length (run start es) m rfl hm he hf (runJob_jobs hs hjobs) ⟨pre, hq, fun hn => by
      obtain ⟨a, b, hab⟩ := List.append_of_mem hn
      have := (hfin.last a (b ++ [none]) (by rw [hq, hab]; simp)).1
      simp at this⟩
    simpa [run, List.foldl_append] using this
  · obtain ⟨a, b, hab⟩ := List.append_of_mem h
    exact absurd (hfin.sent a b hab).2.1 hnd
  · exact absurd h hj

example : ((run start (slow ++ [.finish 0])).mons[0]?).map (fun m => (m.pipeline, m.state, m.finished, m.sent.contains .junk))
    = some (false, .executing, true, false) := by decide

/-- C26 is violated: the client stops the subscription when the transmission of the end is already scheduled.  Instead of the
end a message is sent which has the header of an update, and a status as content.  Later starts send nothing. -/
theorem C26_lost : ∃ es i, ∀ n, ∃ m, (run start (es ++ [.ctl i none (some true) false] ++ List.replicate n (.work i))).mons[i]? = some m ∧ m.finished = true
    ∧ m.state = .executing ∧ m.sent = [.init true, .junk] := by
  refine ⟨[.subscribe false 0 none [true], .setup 0 true, .ctl 0 none (some true) false, .finish 0, .ctl 0 none (some false) false, .work 0], 0, ?_⟩
  intro n
  have h : ∀ n, run start ([.subscribe false 0 none [true], .setup 0 true, .ctl 0 none (some true) false, .finish 0,
      .ctl 0 none (some false) false, .work 0] ++ [.ctl 0 none (some true) false] ++ List.replicate n (.work 0)) =
      { heap := [], mons := [{ state := .executing, finished := true, mask := [true], sent := [.init true, .junk], starts := [true, false, true] }] } := by
    intro n
    induction n with
    | zero => decide
    | succ n ih =>
      rw [List.replicate_succ', ← List.append_assoc, run_snoc, ih]
      decide
  rw [h n]
  exact ⟨_, rfl, rfl, rfl, rfl⟩

/-- messages and turns of the event loop which do not help: acknowledgements -/
def idleTalk (i : Nat) : Ev → Bool
  | .ctl j (some _) none false => j == i
  | .work _ => true
  | _ => false

/-- a subscription without a scheduled transmission stays so -/
theorem stalled (i : Nat) : ∀ (es : List Ev) (s : Sys) (m : Mon), (∀ e ∈ es, idleTalk i e = true) → s.mons[i]? = some m → m.state = .executing →
    m.jobs = 0 → ∃ m', (run s es).mons[i]? = some m' ∧ m'.sent = m.sent ∧ m'.queue = m.queue ∧ m'.state = .executing
  | [], s, m, _, hm, he, _ => ⟨m, hm, rfl, rfl, he⟩
  | e :: es, s, m, h, hm, he, hj => by
    obtain ⟨m', h1, h2, h3, h4, h5⟩ : ∃ m', (step s e).mons[i]? = some m' ∧ m'.sent = m.sent ∧ m'.queue = m.queue ∧ m'.state = .executing ∧ m'.jobs = 0 := by
      have ht := h e (by simp)
      cases e with
      | ctl j a b d =>
        cases a with
        | none => simp [idleTalk] at ht
        | some n =>
          cases b with
          | some b => simp [idleTalk] at ht
          | none =>
            cases d with
            | true => simp [idleTalk] at ht
            | false =>
              have : j = i := by simpa [idleTalk] using ht
              subst this
              refine ⟨m.ctl (some n) none false, by simp only [step]; rw [modMon_get _ _ _ _ _ hm, if_pos rfl], ?_⟩
              rcases ctl_cases m (some n) none false with ⟨h, _⟩ | ⟨h, _⟩ | ⟨_, c, h⟩
              · rw [h]; exact ⟨rfl, rfl, he, hj⟩
              · rw [he] at h; cases h
              · rw [h]
                have a1 := ack_fields m (some n)
                exact ⟨a1.2.2.1, a1.2.1, a1.1.trans he, a1.2.2.2.1.trans hj⟩
      | work j =>
        simp only [step]
        rw [modMon_get _ _ _ _ _ hm]
        split
        · refine ⟨_, rfl, ?_⟩
          rw [Mon.runJob, if_pos hj]
          exact ⟨rfl, rfl, he, hj⟩
        · exact ⟨m, rfl, rfl, rfl, he, hj⟩
      | _ => simp [idleTalk] at ht
    obtain ⟨m2, r1, r2, r3, r4⟩ := stalled i es _ m' (fun e he => h e (by simp [he])) h1 h4 h5
    exact ⟨m2, r1, r2.trans h2, r3.trans h3, r4⟩

/-- C26 is violated: finish() while the window is exhausted.  However many acknowledgements follow, the final message is not sent. -/
theorem C26_stuck : ∃ es i, ∀ more, (∀ e ∈ more, idleTalk i e = true) → ∃ m, (run start (es ++ more)).mons[i]? = some m
    ∧ m.finished = true ∧ m.state = .executing ∧ m.sent = [.init true] := by
  refine ⟨[.subscribe true 0 none [true], .setup 0 true, .ctl 0 none (some true) false, .finish 0], 0, fun more h => ?_⟩
  obtain ⟨m0, h0⟩ : ∃ m0, (run start [.subscribe true 0 none [true], .setup 0 true, .ctl 0 none (some true) false, .finish 0]).mons[0]? = some m0 := ⟨_, rfl⟩
  obtain ⟨m, h1, h2, h3, h4⟩ := stalled 0 more _ m0 h h0 (by cases h0; rfl) (by cases h0; rfl)
  obtain ⟨m', r1, r2⟩ := finished_run more _ m0 h0 (by cases h0; rfl)
  rw [h1] at r1; cases r1
  refine ⟨m, by simpa [run, List.foldl_append] using h1, r2, h4, ?_⟩
  rw [h2]; cases h0; rfl

/-! ### C27 -/

/-- C27, for subscriptions which are not finished: no more updates are sent than the client has granted, but for one with each
time the client stopped the subscription. -/
theorem C27_granted_partial (es : List Ev) (i : Nat) (m : Mon) (hm : (run start es).mons[i]? = some m) (hp : m.pipeline = true)
    (hf : Ev.finish i ∉ es) : (dataOf m.sent).length ≤ granted i es + stops i es := by
  have hfin : m.finished = false := by
    cases h : m.finished
    · rfl
    · exact absurd ((run_fin i es m hm).asked h) hf
  have := run_window i es m hm hp hfin
  omega

/-- C27: in particular if the subscription is never stopped nor finished -/
theorem C27_granted_running (es : List Ev) (i : Nat) (m : Mon) (hm : (run start es).mons[i]? = some m) (hp : m.pipeline = true)
    (hf : Ev.finish i ∉ es) (hs : stops i es = 0) : (dataOf m.sent).length ≤ granted i es := by
  have := C27_granted_partial es i m hm hp hf
  omega

def piped : List Ev :=
  [.value [some 1], .value [some 2], .value [some 3], .subscribe true 1 (some 4) [true], .setup 0 true, .ctl 0 none (some true) false,
   .post 0 0 false false, .post 0 1 false false, .work 0, .ctl 0 (some 1) none false, .post 0 2 false false, .work 0]

example : ((run start piped).mons[0]?).map (fun m => (m.pipeline, dataOf m.sent, granted 0 piped, stops 0 piped))
    = some (true, [[some 1], [some 2]], 2, 0) ∧ Ev.finish 0 ∉ piped := by decide

/-- C27 is violated: after finish() everything queued is sent, whatever the window -/
theorem C27_after_finish : ∃ es i m, (run start es).mons[i]? = some m ∧ m.pipeline = true ∧ granted i es = 1 ∧ stops i es = 0
    ∧ (dataOf m.sent).length = 3 := by
  refine ⟨[.value [some 1], .value [some 2], .value [some 3], .subscribe true 1 (some 4) [true], .setup 0 true,
    .post 0 0 false false, .post 0 1 false false, .post 0 2 false false, .finish 0, .ctl 0 none (some true) false,
    .work 0, .work 0, .work 0], 0, ?_⟩
  exact ⟨_, rfl, by decide, by decide, by decide, by decide⟩

/-- C27 is violated: an update which is already scheduled when the client stops the subscription is not counted -/
theorem C27_after_stop : ∃ es i m, (run start es).mons[i]? = some m ∧ m.pipeline = true ∧ granted i es = 1 ∧ Ev.finish i ∉ es
    ∧ (dataOf m.sent).length = 2 := by
  refine ⟨[.value [some 1], .value [some 2], .subscribe true 1 (some 4) [true], .setup 0 true, .ctl 0 none (some true) false,
    .post 0 0 false false, .ctl 0 none (some false) false, .work 0, .ctl 0 none (some true) false, .post 0 1 false false, .work 0], 0, ?_⟩
  exact ⟨_, rfl, by decide, by decide, by decide, by decide⟩

/-! ### C28 -/

/-- C28, for subscriptions without flow control, and for those where an acknowledgement always comes along with a start
command: if the subscription is running, has something to send, and the client has granted more than was sent, then a
transmission is scheduled. -/
theorem C28_scheduled_partial (es : List Ev) (i : Nat) (m : Mon) (hm : (run start es).mons[i]? = some m)
    (ha : m.pipeline = true → ∀ e ∈ es, bareAck i e = false) (he : m.state = .executing) (hq : m.queue ≠ [])
    (hw : m.pipeline = true → m.closing = false ∧ (dataOf m.sent).length < granted i es) : m.jobs ≠ 0 := by
  refine run_wake i es m hm ha he hq fun hp => ?_
  have := run_grant i es m hm hp (by rw [he]; simp) (hw hp).1
  have := (hw hp).2
  omega

example : ((run start slow).mons[0]?).map (fun m => (m.pipeline, m.state, m.queue.length, m.jobs)) = some (false, .executing, 1, 1) := by decide

/-- and with flow control: an acknowledgement of 2 along with a start command -/
def piped2 : List Ev :=
  [.value [some 1], .value [some 2], .value [some 3], .subscribe true 1 (some 4) [true], .setup 0 true, .ctl 0 none (some true) false,
   .post 0 0 false false, .post 0 1 false false, .post 0 2 false false, .work 0, .ctl 0 (some 1) (some true) false,
   .ctl 0 (some 1) (some true) false, .work 0]
example : ((run start piped2).mons[0]?).map (fun m => (m.pipeline, m.state, m.queue.length, (dataOf m.sent).length, granted 0 piped2, m.closing))
    = some (true, .executing, 1, 2, 3, false) ∧ ∀ e ∈ piped2, bareAck 0 e = false := by decide

/-- C28 is violated: two updates, window one.  The first is sent and acknowledged.  The second is never sent, however many more
acknowledgements the client sends: an acknowledgement does not schedule a transmission. -/
theorem C28_stall : ∃ es i, ∀ more, (∀ e ∈ more, idleTalk i e = true) → ∃ m, (run start (es ++ more)).mons[i]? = some m
    ∧ m.state = .executing ∧ m.queue ≠ [] ∧ (dataOf m.sent).length = 1 ∧ 1 < granted i es := by
  refine ⟨[.value [some 1], .value [some 2], .subscribe true 1 (some 4) [true], .setup 0 true, .ctl 0 none (some true) false,
    .post 0 0 false false, .post 0 1 false false, .work 0, .ctl 0 (some 1) none false], 0, fun more h => ?_⟩
  obtain ⟨m0, h0⟩ : ∃ m0, (run start [.value [some 1], .value [some 2], .subscribe true 1 (some 4) [true], .setup 0 true, .ctl 0 none (some true) false,
    .post 0 0 false false, .post 0 1 false false, .work 0, .ctl 0 (some 1) none false]).mons[0]? = some m0 := ⟨_, rfl⟩
  obtain ⟨m, h1, h2, h3, h4⟩ := stalled 0 more _ m0 h h0 (by cases h0; rfl) (by cases h0; rfl)
  refine ⟨m, by simpa [run, List.foldl_append] using h1, h4, ?_, ?_, by decide⟩
  · rw [h3]; cases h0; decide
  · rw [h2]; cases h0; decide

/-! ### C29 -/

/-- C29, for an application which does not post the same Value twice: a subscription (what is sent, what is queued, its state)
is the same as if nothing had ever happened to any other subscription. -/
theorem C29_independent_partial (es : List Ev) (h : PostedOnce es) (i : Nat) :
    (run start es).mons[i]? = (run start (es.filter (about i))).mons[i]? := (agree i es h).mon

def another : List Ev := [.subscribe true 1 none [true, true], .setup 1 true, .value [none, some 7], .post 1 4 false false]

example : PostedOnce (slow ++ another)
    ∧ (slow ++ another).filter (about 0) = slow ++ [.subscribe true 1 none [true, true], .value [none, some 7]] := by
  unfold PostedOnce; decide

/-- C29 is violated when a Value is posted to two subscriptions: an update which is posted only to the first one, whose queue is
full, is also sent to the second one. -/
theorem C29_shared_value : ∃ es i, ∃ m : Mon, (run start es).mons[i]? = some m
    ∧ accepted i false start es = [[some 1, none]] ∧ dataOf m.sent = [[some 1, some 2]] := by
  refine ⟨[.value [some 1, none], .value [none, some 2], .subscribe false 0 (some 1) [true, true], .subscribe false 0 (some 1) [true, true],
    .setup 0 true, .setup 1 true, .post 0 0 false false, .post 1 0 false false, .post 0 1 false false, .ctl 1 none (some true) false, .work 1],
    (1 : Nat), ?_⟩
  exact ⟨_, rfl, by decide, by decide⟩

/-! ### C59 -/

/-- C59, unless the client cancels or the subscription is finished: the last call of onStart() tells whether the subscription
is running. -/
theorem C59_onStart_partial (es : List Ev) (i : Nat) (m : Mon) (hm : (run start es).mons[i]? = some m) (hc : Ev.cancel i ∉ es)
    (hf : Ev.finish i ∉ es) : m.state = .executing ↔ m.starts.getLast? = some true := run_starts i es m hm hc hf

example : ((run start slow).mons[0]?).map (fun m => (m.state, m.starts)) = some (.executing, [true])
    ∧ Ev.cancel 0 ∉ slow ∧ Ev.finish 0 ∉ slow := by decide

/-- C59 is violated: the message CANCEL_REQUEST stops the subscription, and onStart(false) is not called, not even when the
subscription is destroyed. -/
theorem C59_cancel : ∃ es, ∃ i : Nat, ∃ m : Mon, (run start es).mons[i]? = some m ∧ m.state = .dead ∧ m.starts = [true] := by
  refine ⟨[.subscribe false 0 none [true], .setup 0 true, .ctl 0 none (some true) false, .cancel 0, .close 0], 0, ?_⟩
  exact ⟨_, rfl, by decide, by decide⟩

/-- C59 is violated: nor at the end of the subscription -/
theorem C59_finish : ∃ es, ∃ i : Nat, ∃ m : Mon, (run start es).mons[i]? = some m ∧ m.state = .dead ∧ m.starts = [true] ∧ Msg.final ∈ m.sent := by
  refine ⟨[.subscribe false 0 none [true], .setup 0 true, .ctl 0 none (some true) false, .finish 0, .work 0, .close 0], 0, ?_⟩
  exact ⟨_, rfl, by decide, by decide, by decide⟩

end Pvxs.Props
