import Verif.Lemmas.ServerMon
/-
Invariants of one subscription: no stall, window, end of the subscription, length of the queue.
-/
namespace Pvxs.Mon
open Pvxs.Server (OpState)
open Pvxs.Spec.Mon

theorem runJob_jobs {m : Mon} (hs : Sched m) (hj : m.jobs ≠ 0) : m.jobs = 1 := by
  have := hs.jobs; split at this <;> omega

/-! ### no stall -/

/-- an acknowledgement alone -/
def bareAck (i : Nat) : Ev → Bool
  | .ctl j (some n) st _ => j == i && n != 0 && st != some true
  | _ => false

theorem run_wake (i : Nat) : ∀ es m, (run start es).mons[i]? = some m →
    (m.pipeline = true → ∀ e ∈ es, bareAck i e = false) → m.state = .executing → m.queue ≠ [] →
    (m.pipeline = true → m.window ≠ 0) → m.jobs ≠ 0 := by
  apply run_ind i (fun es m => (m.pipeline = true → ∀ e ∈ es, bareAck i e = false) → m.state = .executing → m.queue ≠ [] →
    (m.pipeline = true → m.window ≠ 0) → m.jobs ≠ 0)
  · intro es p n q mask _ _ h; simp [newMon] at h
  · intro es e m m' hm hact ih
    have hs := run_sched i es m hm
    have ih' : (m.pipeline = true → ∀ e' ∈ es ++ [e], bareAck i e' = false) → m.state = .executing → m.queue ≠ [] →
      (m.pipeline = true → m.window ≠ 0) → m.jobs ≠ 0 := fun h => ih fun hp e' he' => h hp e' (by simp [he'])
    cases hact with
    | same => exact ih'
    | setup ok =>
      unfold Mon.setup
      split
      · intro _ h; exfalso; revert h; cases ok <;> simp
      · exact ih'
    | push c mb f _ h1 h2 h3 h4 =>
      obtain ⟨f1, f2, f3, f4, f5, f6, f7, f8⟩ := maybeReply_fields { m with queue := m.queue ++ [some c] }
      intro _ a b c'
      rw [f1] at a
      rw [f7, f4] at c'
      exact maybeReply_wakes _ hs.jobs a (by simp) c'
    | poke c mb f _ h1 h2 h3 h4 h5 =>
      obtain ⟨f1, f2, f3, f4, f5, f6, f7, f8⟩ := maybeReply_fields m
      intro _ a b c'
      rw [f1] at a
      rw [f2] at b
      rw [f7, f4] at c'
      exact maybeReply_wakes _ hs.jobs a b c'
    | finish =>
      unfold Mon.finish
      split
      · exact ih'
      · obtain ⟨f1, f2, f3, f4, f5, f6, f7, f8⟩ := maybeReply_fields { m with finished := true, queue := m.queue ++ [none] }
        intro _ a b c'
        rw [f1] at a
        rw [f7, f4] at c'
        exact maybeReply_wakes _ hs.jobs a (by simp) c'
    | ctl a b d =>
      rcases ctl_cases m a b d with ⟨h, _⟩ | ⟨hc, h⟩ | ⟨hst, c, h⟩
      · rw [h]; exact ih'
      · rw [h]; unfold Mon.cleanup; rw [if_neg (by rw [hc]; simp)]; intro _ h; simp at h
      · rw [h]
        have a1 := ack_fields m a
        have a2 := startStop_fields (m.ack a) b
        intro hb hex hq hw
        simp only at hb hex hq hw ⊢
        rw [a2.2.2.2.2.2.1, a1.2.2.2.2.2.2.2.1] at hb
        rw [a2.1] at hq
        rw [a2.2.2.2.2.2.1, a2.2.2.1] at hw
        cases b with
        | none =>
          simp only [Mon.startStop] at hex ⊢
          rw [a1.2.1] at hq
          rw [a1.1] at hex
          rw [a1.2.2.2.2.2.2.2.1] at hw
          rw [a1.2.2.2.1]
          refine ih' hb hex hq fun hp => ?_
          have hba := hb hp (.ctl i a none d) (by simp)
          have hw := hw hp
          unfold Mon.ack at hw
          cases a with
          | none => exact hw
          | some n =>
            simp only [bareAck, beq_self_eq_true, Bool.true_and] at hba
            have : n = 0 := by simpa using hba
            subst this
            simpa [hp] using hw
        | some b =>
          have hb2 := a2.2.2.2.2.2.2.2.2
          rw [hex] at hb2
          cases b with
          | false => simp at hb2
          | true =>
            simp only [Mon.startStop]
            refine maybeReply_wakes _ ?_ (by simp) hq hw
            simp only [a1.2.2.2.1, a1.2.2.2.2.1]; exact hs.jobs
    | cancel =>
      unfold Mon.cancel
      split
      · intro _ h; simp at h
      · exact ih'
    | close =>
      unfold Mon.cleanup
      split
      · exact ih'
      · intro _ h; simp at h
    | work =>
      rcases runJob_sends (run start es).heap m with ⟨h, _⟩ | ⟨hj, h⟩
      · rw [h]; exact ih'
      · have hj1 := runJob_jobs hs hj
        cases h with
        | nothing h hw hi =>
          rw [h]
          intro _ a b c
          rcases hw a with hw | hw
          · exact absurd hw b
          · exact absurd hw.2.1 (c hw.1)
        | junk0 h0 hq h => rw [h]; intro _ a; simp [h0] at a
        | data c' q hq h0 hw h =>
          rw [h]
          obtain ⟨p1, p2, p3, p4, p5, p6, p7, p8, p9, p10, p11, p12⟩ := popped_fields m (run start es).heap c' q hj1
          intro _ a b c
          rw [p1] at a
          rw [p2] at b
          rw [p7] at c
          have : m.pipeline = false ∨ (((m.popped (run start es).heap c' q).consume).again).window ≠ 0 ∨ m.finished = true := ?_
          · rw [p11, if_pos ⟨a, b, this⟩]; simp
          cases hp : m.pipeline with
          | false => exact .inl rfl
          | true => exact .inr (.inl (c hp))
        | final q hq h0 h => rw [h]; intro _ a; simp at a
        | junk q hq h0 h => rw [h]; intro _ a; simp [h0] at a

/-! ### the window -/

theorem subs_len (es : List Ev) :
    (es.filterMap windowOf).length = (run start es).mons.length := by
  induction h : es.length generalizing es with
  | zero => cases es <;> simp_all [run, start]
  | succ n ih =>
    rcases List.eq_nil_or_concat es with rfl | ⟨l, e, rfl⟩
    · simp at h
    simp only [List.concat_eq_append] at h ⊢
    rw [run_snoc, step_len, List.filterMap_append, List.length_append, ih l (by simpa using h)]
    cases e <;> rfl

theorem initialWindow_snoc (es : List Ev) (e : Ev) (i : Nat) (h : i < (run start es).mons.length) :
    initialWindow (es ++ [e]) i = initialWindow es i := by
  unfold initialWindow
  rw [List.filterMap_append, List.getElem?_append_left]
  rw [subs_len]; exact h

theorem initialWindow_new (es : List Ev) (p : Bool) (n : Nat) (q : Option Nat) (mask : List Bool) :
    initialWindow (es ++ [.subscribe p n q mask]) (run start es).mons.length = n := by
  unfold initialWindow
  rw [List.filterMap_append, ← subs_len, List.getElem?_append_right (by omega)]
  simp [windowOf]

def extra (m : Mon) : Nat := if m.state = .idle ∧ m.jobs ≠ 0 then 1 else 0

theorem extra_le (m : Mon) : extra m ≤ 1 := by unfold extra; split <;> omega

theorem maybeReply_extra (m : Mon) : extra m.maybeReply = extra m := by
  rcases maybeReply_cases m with h | ⟨_, h, _, _, h'⟩
  · rw [h]
  · rw [h']; simp [extra, h]

theorem dataOf_append (a b : List Msg) : dataOf (a ++ b) = dataOf a ++ dataOf b := by simp [dataOf]

theorem ackSum_snoc (i : Nat) (es : List Ev) (e : Ev) : ackSum i (es ++ [e]) = ackSum i es + ackSum i [e] := by simp [ackSum]
theorem stopCount_snoc (i : Nat) (es : List Ev) (e : Ev) : stopCount i (es ++ [e]) = stopCount i es + stopCount i [e] := by
  simp [stopCount, List.countP_append]

theorem since_snoc (e : Ev) : ∀ (i : Nat) (es : List Ev), i < (es.filterMap windowOf).length → since i (es ++ [e]) = since i es ++ [e]
  | _, [], h => by simp at h
  | 0, .subscribe _ _ _ _ :: es, _ => rfl
  | i+1, .subscribe _ _ _ _ :: es, h => since_snoc e i es (by simpa [windowOf] using h)
  | i, .value _ :: es, h => by simpa [since] using since_snoc e i es h
  | i, .setup _ _ :: es, h => by simpa [since] using since_snoc e i es h
  | i, .post _ _ _ _ :: es, h => by simpa [since] using since_snoc e i es h
  | i, .finish _ :: es, h => by simpa [since] using since_snoc e i es h
  | i, .ctl _ _ _ _ :: es, h => by simpa [since] using since_snoc e i es h
  | i, .cancel _ :: es, h => by simpa [since] using since_snoc e i es h
  | i, .close _ :: es, h => by simpa [since] using since_snoc e i es h
  | i, .work _ :: es, h => by simpa [since] using since_snoc e i es h

theorem since_new (p : Bool) (n : Nat) (q : Option Nat) (mask : List Bool) : ∀ (i : Nat) (es : List Ev), i = (es.filterMap windowOf).length →
    since i (es ++ [.subscribe p n q mask]) = []
  | _, [], h => by subst h; rfl
  | 0, .subscribe _ _ _ _ :: es, h => by simp [windowOf] at h
  | i+1, .subscribe _ _ _ _ :: es, h => since_new p n q mask i es (by simpa [windowOf] using h)
  | i, .value _ :: es, h => by simpa [since] using since_new p n q mask i es h
  | i, .setup _ _ :: es, h => by simpa [since] using since_new p n q mask i es h
  | i, .post _ _ _ _ :: es, h => by simpa [since] using since_new p n q mask i es h
  | i, .finish _ :: es, h => by simpa [since] using since_new p n q mask i es h
  | i, .ctl _ _ _ _ :: es, h => by simpa [since] using since_new p n q mask i es h
  | i, .cancel _ :: es, h => by simpa [since] using since_new p n q mask i es h
  | i, .close _ :: es, h => by simpa [since] using since_new p n q mask i es h
  | i, .work _ :: es, h => by simpa [since] using since_new p n q mask i es h

theorem granted_new (es : List Ev) (p : Bool) (n : Nat) (q : Option Nat) (mask : List Bool) :
    granted (run start es).mons.length (es ++ [.subscribe p n q mask]) = n := by
  unfold granted
  rw [initialWindow_new, since_new p n q mask _ _ (subs_len es).symm]
  simp [ackSum]

theorem granted_snoc (es : List Ev) (e : Ev) (i : Nat) (h : i < (run start es).mons.length) :
    granted i (es ++ [e]) = granted i es + ackSum i [e] := by
  unfold granted
  rw [initialWindow_snoc es e i h, since_snoc e i es (by rw [subs_len]; exact h), ackSum_snoc]; omega

theorem stops_snoc (es : List Ev) (e : Ev) (i : Nat) (h : i < (run start es).mons.length) :
    stops i (es ++ [e]) = stops i es + stopCount i [e] := by
  unfold stops
  rw [since_snoc e i es (by rw [subs_len]; exact h), stopCount_snoc]

theorem run_window (i : Nat) : ∀ es m, (run start es).mons[i]? = some m → m.pipeline = true → m.finished = false →
    (dataOf m.sent).length + m.window + extra m ≤ granted i es + stops i es := by
  apply run_ind i (fun es m => m.pipeline = true → m.finished = false →
    (dataOf m.sent).length + m.window + extra m ≤ granted i es + stops i es)
  · intro es p n q mask hi _ _
    subst hi
    rw [granted_new]
    simp [newMon, dataOf, extra]
  · intro es e m m' hm hact ih
    have hs := run_sched i es m hm
    have hlt := (List.getElem?_eq_some_iff.1 hm).1
    have key : ∀ x, granted i es + stops i es + (ackSum i [e] + stopCount i [e]) = x → granted i (es ++ [e]) + stops i (es ++ [e]) = x := by
      intro x hx
      rw [granted_snoc es e i hlt, stops_snoc es e i hlt]; omega
    rw [key _ rfl]
    have ih' : m.pipeline = true → m.finished = false →
      (dataOf m.sent).length + m.window + extra m ≤ granted i es + stops i es + (ackSum i [e] + stopCount i [e]) :=
      fun a b => Nat.le_trans (ih a b) (by omega)
    cases hact with
    | same => exact ih'
    | setup ok =>
      unfold Mon.setup
      split
      · rename_i hc
        intro a b
        have := ih' a b
        obtain ⟨h1, h2, h3⟩ := hs.creating hc
        have hj := hs.jobs
        rw [h1] at hj
        have hj : m.jobs = 0 := by simpa using hj
        simp only [dataOf_append]
        have e2 : dataOf [Msg.init ok] = [] := rfl
        simp only [extra, hj] at this ⊢
        simp [e2]
        omega
      · exact ih'
    | push c mb f _ h1 h2 h3 h4 =>
      obtain ⟨f1, f2, f3, f4, f5, f6, f7, f8⟩ := maybeReply_fields { m with queue := m.queue ++ [some c] }
      intro a b
      rw [f7] at a; rw [f6] at b
      have := ih' a b
      rw [f3, f4, maybeReply_extra]
      exact this
    | poke c mb f _ h1 h2 h3 h4 h5 =>
      obtain ⟨f1, f2, f3, f4, f5, f6, f7, f8⟩ := maybeReply_fields m
      intro a b
      rw [f7] at a; rw [f6] at b
      have := ih' a b
      rw [f3, f4, maybeReply_extra]
      exact this
    | finish =>
      unfold Mon.finish
      split
      · exact ih'
      · obtain ⟨f1, f2, f3, f4, f5, f6, f7, f8⟩ := maybeReply_fields { m with finished := true, queue := m.queue ++ [none] }
        intro a b
        rw [f6] at b; cases b
    | ctl a b d =>
      rcases ctl_cases m a b d with ⟨h, _⟩ | ⟨hc, h⟩ | ⟨hst, c, h⟩
      · rw [h]; exact ih'
      · rw [h]; unfold Mon.cleanup; rw [if_neg (by rw [hc]; simp)]
        intro a b
        have := ih' a b
        simp only [extra] at this ⊢
        simp
        omega
      · rw [h]
        have a1 := ack_fields m a
        have a2 := startStop_fields (m.ack a) b
        intro hp hf
        simp only at hp hf ⊢
        rw [a2.2.2.2.2.2.1, a1.2.2.2.2.2.2.2.1] at hp
        rw [a2.2.2.2.2.1, a1.2.2.2.2.2.2.1] at hf
        have hih := ih hp hf
        have hext : extra { (m.ack a).startStop b with closing := c } ≤ extra m + stopCount i [Ev.ctl i a b d] := by
          cases b with
          | none =>
            have : extra { (m.ack a).startStop none with closing := c } = extra m := by
              simp only [Mon.startStop, extra, a1.1, a1.2.2.2.1]
            omega
          | some b =>
            cases b with
            | true =>
              have : extra { (m.ack a).startStop (some true) with closing := c } = 0 := by
                unfold extra
                rw [if_neg]
                have := a2.2.2.2.2.2.2.2.2
                simp only [this]; simp
              omega
            | false =>
              have e1 := extra_le { (m.ack a).startStop (some false) with closing := c }
              have e2 : stopCount i [Ev.ctl i a (some false) d] = 1 := by simp [stopCount]
              omega
        have hwin : ((m.ack a).startStop b).window ≤ m.window + ackSum i [Ev.ctl i a b d] := by
          rw [a2.2.2.1]
          unfold Mon.ack
          cases a with
          | none => simp
          | some n => simp [hp, ackSum]
        have hdat : dataOf ((m.ack a).startStop b).sent = dataOf m.sent := by rw [a2.2.1, a1.2.2.1]
        rw [hdat]
        exact Nat.le_trans (Nat.add_le_add (Nat.add_le_add_left hwin _) hext) (by omega)
    | cancel =>
      unfold Mon.cancel
      split
      · intro a b
        have := ih a b
        have e1 := extra_le { m with state := .idle }
        have e2 : stopCount i [Ev.cancel i] = 1 := by simp [stopCount]
        simp only
        omega
      · exact ih'
    | close =>
      unfold Mon.cleanup
      split
      · exact ih'
      · intro a b
        have := ih' a b
        simp only [extra] at this ⊢
        simp
        omega
    | work =>
      rcases runJob_sends (run start es).heap m with ⟨h, _⟩ | ⟨hj, h⟩
      · rw [h]; exact ih'
      · have hj1 := runJob_jobs hs hj
        cases h with
        | nothing h hw hi =>
          rw [h]
          intro a b
          have := ih' a b
          simp only [extra] at this ⊢
          simp [hj1] at this ⊢
          omega
        | junk0 h0 hq h =>
          rw [h]; intro a b
          have := ih' a b
          simp only [dataOf_append]
          have e2 : dataOf [Msg.junk] = [] := rfl
          simp only [extra, e2, hj1] at this ⊢
          simp at this ⊢
          omega
        | data c q hq h0 hw h =>
          rw [h]
          obtain ⟨p1, p2, p3, p4, p5, p6, p7, p8, p9, p10, p11, p12⟩ := popped_fields m (run start es).heap c q hj1
          intro a b
          rw [p7] at a
          rw [p6] at b
          have := ih' a b
          rw [p3, dataOf_append, List.length_append, p4]
          have e2 : (dataOf [Msg.data (restrict m.mask (content (run start es).heap c))]).length = 1 := rfl
          rw [e2]
          rcases h0 with h0 | h0
          · have e3 : extra m = 1 := by unfold extra; rw [if_pos ⟨h0, hj⟩]
            have e4 : extra (((m.popped (run start es).heap c q).consume).again) = 0 := by
              unfold extra
              rw [p11, if_neg (fun h => by rw [h0] at h; simp at h)]
            rw [if_neg (fun h => by rw [h0] at h; simp at h)]
            omega
          · have e4 : extra (((m.popped (run start es).heap c q).consume).again) = 0 := by
              unfold extra
              rw [p1, h0]; simp
            have hw := hw h0 a b
            rw [if_pos ⟨h0, a, hw⟩]
            omega
        | final q hq h0 h =>
          rw [h]; intro a b
          have := ih' a b
          simp only [dataOf_append]
          have e2 : dataOf [Msg.final] = [] := rfl
          simp only [extra, e2] at this ⊢
          simp at this ⊢
          omega
        | junk q hq h0 h =>
          rw [h]; intro a b
          have := ih' a b
          simp only [dataOf_append]
          have e2 : dataOf [Msg.junk] = [] := rfl
          simp only [extra, e2, hj1] at this ⊢
          simp at this ⊢
          omega

/-- no acknowledgement is lost -/
theorem run_grant (i : Nat) : ∀ es m, (run start es).mons[i]? = some m → m.pipeline = true → m.state ≠ .dead → m.closing = false →
    granted i es ≤ (dataOf m.sent).length + m.window := by
  apply run_ind i (fun es m => m.pipeline = true → m.state ≠ .dead → m.closing = false →
    granted i es ≤ (dataOf m.sent).length + m.window)
  · intro es p n q mask hi _ _ _
    subst hi
    rw [granted_new]
    simp [newMon]
  · intro es e m m' hm hact ih
    have hlt := (List.getElem?_eq_some_iff.1 hm).1
    have hs := run_sched i es m hm
    have key := granted_snoc es e i hlt
    -- not an acknowledgement
    have stay : ∀ m' : Mon, ackSum i [e] = 0 → m'.pipeline = m.pipeline → m'.closing = m.closing → (m'.state ≠ .dead → m.state ≠ .dead) →
        (dataOf m.sent).length + m.window ≤ (dataOf m'.sent).length + m'.window →
        (m'.pipeline = true → m'.state ≠ .dead → m'.closing = false → granted i (es ++ [e]) ≤ (dataOf m'.sent).length + m'.window) := by
      intro m' h0 h1 h2 h3 h4 a b c
      rw [key, h0]
      exact Nat.le_trans (ih (h1 ▸ a) (h3 b) (h2 ▸ c)) h4
    cases hact with
    | same _ _ h1 =>
      refine stay m ?_ rfl rfl id (Nat.le_refl _)
      cases e with
      | ctl j a b d =>
        by_cases hj : j = i
        · subst hj; exact absurd rfl (h1 a b d)
        · cases a <;> simp [ackSum, hj]
      | _ => simp [ackSum]
    | setup ok =>
      unfold Mon.setup
      split
      · rename_i hc
        refine stay _ (by simp [ackSum]) rfl rfl (fun _ => by rw [hc]; simp) ?_
        simp only [dataOf_append]
        simp
      · exact stay m (by simp [ackSum]) rfl rfl id (Nat.le_refl _)
    | push c mb f _ h1 h2 h3 h4 =>
      obtain ⟨f1, f2, f3, f4, f5, f6, f7, f8, f9, f10⟩ := maybeReply_fields { m with queue := m.queue ++ [some c] }
      exact stay _ (by simp [ackSum]) f7 f10 (fun h => by rw [f1] at h; exact h) (by rw [f3, f4]; exact Nat.le_refl _)
    | poke c mb f _ h1 h2 h3 h4 h5 =>
      obtain ⟨f1, f2, f3, f4, f5, f6, f7, f8, f9, f10⟩ := maybeReply_fields m
      exact stay _ (by simp [ackSum]) f7 f10 (fun h => by rw [f1] at h; exact h) (by rw [f3, f4]; exact Nat.le_refl _)
    | finish =>
      unfold Mon.finish
      split
      · exact stay m (by simp [ackSum]) rfl rfl id (Nat.le_refl _)
      · obtain ⟨f1, f2, f3, f4, f5, f6, f7, f8, f9, f10⟩ := maybeReply_fields { m with finished := true, queue := m.queue ++ [none] }
        exact stay _ (by simp [ackSum]) f7 f10 (fun h => by rw [f1] at h; exact h) (by rw [f3, f4]; exact Nat.le_refl _)
    | ctl a b d =>
      rcases ctl_cases m a b d with ⟨h, hd⟩ | ⟨hc, h⟩ | ⟨hst, c, h⟩
      · rw [h]
        intro _ h1 h2
        rcases hd with hd | hd
        · exact absurd hd h1
        · rw [hd] at h2; cases h2
      · rw [h]; unfold Mon.cleanup; rw [if_neg (by rw [hc]; simp)]
        intro _ h1; simp at h1
      · rw [h]
        have a1 := ack_fields m a
        have a2 := startStop_fields (m.ack a) b
        intro hp hd hcl
        simp only at hp hd hcl ⊢
        rw [a2.2.2.2.2.2.1, a1.2.2.2.2.2.2.2.1] at hp
        have hwin : ((m.ack a).startStop b).window = m.window + ackSum i [Ev.ctl i a b d] := by
          rw [a2.2.2.1]
          unfold Mon.ack
          cases a with
          | none => simp [ackSum]
          | some n => simp [hp, ackSum]
        have hdat : dataOf ((m.ack a).startStop b).sent = dataOf m.sent := by rw [a2.2.1, a1.2.2.1]
        have hcm : m.closing = false := by
          cases hcm : m.closing
          · rfl
          · have : m.ctl a b d = m := by unfold Mon.ctl; rw [if_pos (.inr hcm)]
            rw [this] at h
            rw [← hcm, h]; exact hcl
        have := ih hp (by rcases hst with h | h <;> simp [h]) hcm
        rw [key, hdat, hwin]
        omega
    | cancel =>
      unfold Mon.cancel
      split
      · rename_i h; exact stay _ (by simp [ackSum]) rfl rfl (fun _ => by rw [h]; simp) (Nat.le_refl _)
      · exact stay m (by simp [ackSum]) rfl rfl id (Nat.le_refl _)
    | close =>
      unfold Mon.cleanup
      split
      · exact stay m (by simp [ackSum]) rfl rfl id (Nat.le_refl _)
      · intro _ h1; simp at h1
    | work =>
      rcases runJob_sends (run start es).heap m with ⟨h, _⟩ | ⟨hj, h⟩
      · rw [h]; exact stay m (by simp [ackSum]) rfl rfl id (Nat.le_refl _)
      · have hj1 := runJob_jobs hs hj
        have e2 : dataOf [Msg.junk] = [] := rfl
        cases h with
        | nothing h hw hi => rw [h]; exact stay _ (by simp [ackSum]) rfl rfl id (Nat.le_refl _)
        | junk0 h0 hq h =>
          rw [h]
          refine stay _ (by simp [ackSum]) rfl rfl id ?_
          simp only [dataOf_append, e2, List.append_nil]
          exact Nat.le_refl _
        | data c q hq h0 hw h =>
          rw [h]
          obtain ⟨p1, p2, p3, p4, p5, p6, p7, p8, p9, p10, p11, p12⟩ := popped_fields m (run start es).heap c q hj1
          refine stay _ (by simp [ackSum]) p7 p10 (fun h => by rw [p1] at h; exact h) ?_
          rw [p3, dataOf_append, List.length_append, p4]
          have e2 : (dataOf [Msg.data (restrict m.mask (content (run start es).heap c))]).length = 1 := rfl
          rw [e2]
          split <;> omega
        | final q hq h0 h => rw [h]; intro _ h1; simp at h1
        | junk q hq h0 h =>
          rw [h]
          refine stay _ (by simp [ackSum]) rfl rfl id ?_
          simp only [dataOf_append, e2, List.append_nil]
          exact Nat.le_refl _

/-! ### the end of the subscription -/

structure Fin (i : Nat) (es : List Ev) (m : Mon) : Prop where
  last : ∀ pre post, m.queue = pre ++ none :: post → post = [] ∧ m.finished = true
  sent : ∀ pre post, m.sent = pre ++ .final :: post → post = [] ∧ m.state = .dead ∧ m.queue = [] ∧ m.finished = true
  asked : m.finished = true → Ev.finish i ∈ es
  bound : (∀ c mb, Ev.post i c mb true ∉ es) → m.queue.length ≤ m.limit + (if m.finished then 1 else 0)
  ends : m.finished = true → (∃ pre, m.queue = pre ++ [none]) ∨ (m.queue = [] ∧ (.final ∈ m.sent ∨ .junk ∈ m.sent))

theorem snoc_split {α} {l pre post : List α} {x y : α} (h : l ++ [x] = pre ++ y :: post) :
    (post = [] ∧ l = pre ∧ x = y) ∨ ∃ p, post = p ++ [x] ∧ l = pre ++ y :: p := by
  rcases List.eq_nil_or_concat post with rfl | ⟨p, z, rfl⟩
  · left
    have := List.append_inj' h (by simp)
    exact ⟨rfl, this.1, by simpa using this.2⟩
  · right
    simp only [List.concat_eq_append] at h ⊢
    have h2 : l ++ [x] = (pre ++ y :: p) ++ [z] := by simpa using h
    have := List.append_inj' h2 (by simp)
    have hz : x = z := by simpa using this.2
    exact ⟨p, by rw [hz], this.1⟩

theorem run_fin (i : Nat) : ∀ es m, (run start es).mons[i]? = some m → Fin i es m := by
  apply run_ind i (Fin i)
  · intro es p n q mask _
    refine ⟨fun a b h => ?_, fun a b h => ?_, by simp [newMon], by simp [newMon], by simp [newMon]⟩ <;> simp [newMon] at h
  · intro es e m m' hm hact ih
    have hs := run_sched i es m hm
    have asked' : m.finished = true → Ev.finish i ∈ es ++ [e] := fun h => by simp [ih.asked h]
    have bnd : (∀ c mb, Ev.post i c mb true ∉ es ++ [e]) → m.queue.length ≤ m.limit + (if m.finished then 1 else 0) :=
      fun h => ih.bound fun c mb hc => h c mb (by simp [hc])
    -- the queue stays, and nothing is sent
    have stay : ∀ m1 : Mon, m1.queue = m.queue → m1.sent = m.sent → m1.finished = m.finished → m1.limit = m.limit →
        (m1.state = m.state ∨ m.state ≠ .dead) → Fin i (es ++ [e]) m1 := by
      intro m1 h1 h2 h3 h4 h5
      refine ⟨by rw [h1, h3]; exact ih.last, ?_, by rw [h3]; exact asked', by rw [h1, h3, h4]; exact bnd, by rw [h1, h2, h3]; exact ih.ends⟩
      rw [h2]
      intro a b h
      obtain ⟨r1, r2, r3, r4⟩ := ih.sent a b h
      rcases h5 with h5 | h5
      · exact ⟨r1, h5.trans r2, h1.trans r3, h3.trans r4⟩
      · exact absurd r2 h5
    cases hact with
    | same => exact stay m rfl rfl rfl rfl (.inl rfl)
    | setup ok =>
      unfold Mon.setup
      split
      · rename_i hc
        obtain ⟨h1, h2, h3⟩ := hs.creating hc
        have h4 := hs.window hc
        refine ⟨ih.last, fun a b h => ?_, asked', bnd, fun h => by rw [show m.finished = true from h] at h3; cases h3⟩
        simp only [h4, List.nil_append] at h
        cases a <;> simp at h
      · exact stay m rfl rfl rfl rfl (.inl rfl)
    | push c mb f _ h1 h2 h3 h4 =>
      obtain ⟨f1, f2, f3, f4, f5, f6, f7, f8⟩ := maybeReply_fields { m with queue := m.queue ++ [some c] }
      refine ⟨?_, ?_, by rw [f6]; exact asked', ?_, fun h => by rw [f6] at h; rw [show m.finished = true from h] at h2; cases h2⟩
      · rw [f2, f6]
        intro a b h
        rcases snoc_split h with ⟨_, _, h⟩ | ⟨p, _, h⟩
        · cases h
        · have := (ih.last _ _ h).2; rw [h2] at this; cases this
      · rw [f3, f6]
        intro a b h
        have := (ih.sent a b h).2.2.2; rw [h2] at this; cases this
      · rw [f2, f5, f6]
        intro h
        have hf : f = false := by
          cases e : f
          · rfl
          · subst e; exact absurd (by simp) (h c mb)
        subst hf
        have h4 := h4.resolve_right (by simp)
        simp only [List.length_append, List.length_singleton]
        omega
    | poke c mb f _ h1 h2 h3 h4 h5 =>
      obtain ⟨f1, f2, f3, f4, f5, f6, f7, f8⟩ := maybeReply_fields m
      exact stay _ f2 f3 f6 f5 (.inl f1)
    | finish =>
      unfold Mon.finish
      split
      · exact stay m rfl rfl rfl rfl (.inl rfl)
      · rename_i hc
        have hf : m.finished = false := by
          cases e : m.finished
          · rfl
          · exact absurd (.inr e) hc
        obtain ⟨f1, f2, f3, f4, f5, f6, f7, f8⟩ := maybeReply_fields { m with finished := true, queue := m.queue ++ [none] }
        refine ⟨?_, ?_, fun _ => by simp, ?_, fun _ => .inl ⟨m.queue, f2⟩⟩
        · rw [f2, f6]
          intro a b h
          rcases snoc_split h with ⟨h, _, _⟩ | ⟨p, _, h⟩
          · exact ⟨h, rfl⟩
          · have := (ih.last _ _ h).2; rw [hf] at this; cases this
        · rw [f3, f6]
          intro a b h
          have := (ih.sent a b h).2.2.2; rw [hf] at this; cases this
        · rw [f2, f5, f6]
          intro h
          have := bnd h
          rw [hf] at this
          simp only [List.length_append, List.length_singleton] at this ⊢
          simp at this ⊢
          omega
    | ctl a b d =>
      rcases ctl_cases m a b d with ⟨h, _⟩ | ⟨hc, h⟩ | ⟨hst, c, h⟩
      · rw [h]; exact stay m rfl rfl rfl rfl (.inl rfl)
      · rw [h]; unfold Mon.cleanup; rw [if_neg (by rw [hc]; simp)]
        exact stay _ rfl rfl rfl rfl (.inr (by rw [hc]; simp))
      · rw [h]
        have a1 := ack_fields m a
        have a2 := startStop_fields (m.ack a) b
        exact stay _ (a2.1.trans a1.2.1) (a2.2.1.trans a1.2.2.1) (a2.2.2.2.2.1.trans a1.2.2.2.2.2.2.1) (a2.2.2.2.1.trans a1.2.2.2.2.2.1)
          (.inr (by rcases hst with h | h <;> simp [h]))
    | cancel =>
      unfold Mon.cancel
      split
      · rename_i h; exact stay _ rfl rfl rfl rfl (.inr (by simp [h]))
      · exact stay m rfl rfl rfl rfl (.inl rfl)
    | close =>
      unfold Mon.cleanup
      split
      · exact stay m rfl rfl rfl rfl (.inl rfl)
      · rename_i h; exact stay _ rfl rfl rfl rfl (.inr h)
    | work =>
      rcases runJob_sends (run start es).heap m with ⟨h, _⟩ | ⟨hj, h⟩
      · rw [h]; exact stay m rfl rfl rfl rfl (.inl rfl)
      · have hj1 := runJob_jobs hs hj
        -- the front of the queue is sent
        have pop : ∀ (m1 : Mon) x q y, m.queue = x :: q → m1.queue = q → m1.sent = m.sent ++ [y] → m1.finished = m.finished → m1.limit = m.limit →
            m.state ≠ .dead → (y = .final → m1.state = .dead ∧ x = none) →
            (x = none → y = .final ∨ y = .junk) → Fin i (es ++ [Ev.work i]) m1 := by
          intro m1 x q y h0 h1 h2 h3 h4 h5 h6 h7
          refine ⟨?_, ?_, by rw [h3]; exact asked', ?_, ?_⟩
          · rw [h1, h3]
            intro a b h
            exact ih.last (x :: a) b (by rw [h0, h]; rfl)
          · rw [h2]
            intro a b h
            rcases snoc_split h with ⟨r1, r2, r3⟩ | ⟨p, _, h⟩
            · obtain ⟨h9, h8⟩ := h6 r3
              subst h8
              have := ih.last [] q h0
              exact ⟨r1, h9, h1.trans this.1, h3.trans this.2⟩
            · exact absurd (ih.sent _ _ h).2.1 h5
          · rw [h1, h3, h4]
            intro h
            have := bnd h
            rw [h0] at this
            simp only [List.length_cons] at this
            omega
          · rw [h1, h2, h3]
            intro h
            rcases ih.ends h with ⟨pre, hp⟩ | ⟨hq, hx⟩
            · rw [h0] at hp
              cases pre with
              | nil =>
                simp only [List.nil_append, List.cons.injEq] at hp
                right
                refine ⟨hp.2, ?_⟩
                rcases h7 hp.1 with hy | hy <;> simp [hy]
              | cons z pre =>
                simp only [List.cons_append, List.cons.injEq] at hp
                exact .inl ⟨pre, hp.2⟩
            · rw [h0] at hq; cases hq
        cases h with
        | nothing h hw hi => rw [h]; exact stay _ rfl rfl rfl rfl (.inl rfl)
        | junk0 h0 hq h =>
          rw [h]
          refine ⟨ih.last, fun a b h => ?_, asked', bnd, fun h => .inr ⟨hq, .inr (by simp)⟩⟩
          rcases snoc_split h with ⟨_, _, h⟩ | ⟨p, _, h⟩
          · cases h
          · have := (ih.sent _ _ h).2.1; rw [h0] at this; cases this
        | data c' q hq h0 hw h =>
          rw [h]
          obtain ⟨p1, p2, p3, p4, p5, p6, p7, p8, p9, p10, p11, p12⟩ := popped_fields m (run start es).heap c' q hj1
          exact pop _ _ q _ hq p2 p3 p6 p5 (by rcases h0 with h | h <;> simp [h]) (by simp) (by simp)
        | final q hq h0 h =>
          rw [h]
          exact pop _ _ q _ hq rfl rfl rfl rfl (by simp [h0]) (fun _ => ⟨rfl, rfl⟩) (by simp)
        | junk q hq h0 h =>
          rw [h]
          exact pop _ _ q _ hq rfl rfl rfl rfl (by simp [h0]) (by simp) (by simp)

/-- finish() is not forgotten -/
theorem finished_mono {i : Nat} {s : Sys} {e : Ev} {m m' : Mon} (h : Acts i s e m m') (hf : m.finished = true) : m'.finished = true := by
  cases h with
  | same => exact hf
  | setup ok => unfold Mon.setup; split <;> exact hf
  | push c mb f _ h1 h2 => rw [hf] at h2; cases h2
  | poke c mb f _ h1 h2 => rw [hf] at h2; cases h2
  | finish => unfold Mon.finish; rw [if_pos (.inr hf)]; exact hf
  | ctl a b d =>
    rcases ctl_cases m a b d with ⟨h, _⟩ | ⟨hc, h⟩ | ⟨hst, c, h⟩
    · rw [h]; exact hf
    · rw [h]; unfold Mon.cleanup; split <;> exact hf
    · rw [h]
      show ((m.ack a).startStop b).finished = true
      rw [(startStop_fields (m.ack a) b).2.2.2.2.1, (ack_fields m a).2.2.2.2.2.2.1]; exact hf
  | cancel => unfold Mon.cancel; split <;> exact hf
  | close => unfold Mon.cleanup; split <;> exact hf
  | work =>
    rcases runJob_sends s.heap m with ⟨h, _⟩ | ⟨hj, h⟩
    · rw [h]; exact hf
    · cases h with
      | nothing h => rw [h]; exact hf
      | junk0 h0 hq h => rw [h]; exact hf
      | data c' q hq h0 hw h =>
        rw [h, (again_fields _).2.2.2.2.2.1, (consume_fields _).2.2.2.2.2.2.1]; exact hf
      | final q hq h0 h => rw [h]; exact hf
      | junk q hq h0 h => rw [h]; exact hf

theorem finished_run {i : Nat} : ∀ (es : List Ev) (s : Sys) (m : Mon), s.mons[i]? = some m → m.finished = true →
    ∃ m', (run s es).mons[i]? = some m' ∧ m'.finished = true
  | [], s, m, h, hf => ⟨m, h, hf⟩
  | e :: es, s, m, h, hf => by
    obtain ⟨m1, h1, h2⟩ := step_acts h e
    exact finished_run es (step s e) m1 h1 (finished_mono h2 hf)

/-! ### onStart -/

theorem run_starts (i : Nat) : ∀ es m, (run start es).mons[i]? = some m → Ev.cancel i ∉ es → Ev.finish i ∉ es →
    (m.state = .executing ↔ m.starts.getLast? = some true) := by
  apply run_ind i (fun es m => Ev.cancel i ∉ es → Ev.finish i ∉ es → (m.state = .executing ↔ m.starts.getLast? = some true))
  · intro es p n q mask _ _ _; simp [newMon]
  · intro es e m m' hm hact ih hc hf
    have hs := run_sched i es m hm
    have hfin := run_fin i es m hm
    have ih := ih (fun h => hc (by simp [h])) (fun h => hf (by simp [h]))
    have nofin : m.finished = false := by
      cases e : m.finished
      · rfl
      · exact absurd (hfin.asked e) (fun h => hf (by simp [h]))
    cases hact with
    | same => exact ih
    | setup ok =>
      unfold Mon.setup
      split
      · rename_i h
        have : m.starts.getLast? ≠ some true := fun h2 => by rw [ih.2 h2] at h; cases h
        constructor
        · intro h; exfalso; revert h; cases ok <;> simp
        · intro h; exact absurd h this
      · exact ih
    | push c mb f _ h1 h2 h3 h4 =>
      obtain ⟨f1, f2, f3, f4, f5, f6, f7, f8, f9, f10⟩ := maybeReply_fields { m with queue := m.queue ++ [some c] }
      rw [f1, f9]; exact ih
    | poke c mb f _ h1 h2 h3 h4 h5 =>
      obtain ⟨f1, f2, f3, f4, f5, f6, f7, f8, f9, f10⟩ := maybeReply_fields m
      rw [f1, f9]; exact ih
    | finish => exact absurd (by simp) hf
    | cancel => exact absurd (by simp) hc
    | ctl a b d =>
      rcases ctl_cases m a b d with ⟨h, _⟩ | ⟨hc, h⟩ | ⟨hst, c, h⟩
      · rw [h]; exact ih
      · rw [h]; unfold Mon.cleanup; rw [if_neg (by rw [hc]; simp)]
        have : m.starts.getLast? ≠ some true := fun h2 => by rw [ih.2 h2] at hc; cases hc
        simp [hc, this]
      · rw [h]
        have a1 := ack_fields m a
        cases b with
        | none => simp only [Mon.startStop, a1.1, a1.2.2.2.2.2.2.2.2.2.1]; exact ih
        | some b =>
          obtain ⟨f1, f2, f3, f4, f5, f6, f7, f8, f9, f10⟩ := maybeReply_fields { m.ack a with state := if b then .executing else .idle, starts := (m.ack a).starts ++ [b] }
          simp only [Mon.startStop, f1, f9]
          cases b <;> simp
    | close =>
      unfold Mon.cleanup
      split
      · exact ih
      · by_cases h : m.state = .executing
        · simp [h]
        · have : m.starts.getLast? ≠ some true := fun h2 => h (ih.2 h2)
          simp [h, this]
    | work =>
      rcases runJob_sends (run start es).heap m with ⟨h, _⟩ | ⟨hj, h⟩
      · rw [h]; exact ih
      · have hj1 := runJob_jobs hs hj
        cases h with
        | nothing h hw hi => rw [h]; exact ih
        | junk0 h0 hq h => rw [h]; exact ih
        | data c' q hq h0 hw h =>
          rw [h]
          obtain ⟨p1, p2, p3, p4, p5, p6, p7, p8, p9, p10, p11, p12⟩ := popped_fields m (run start es).heap c' q hj1
          rw [p1, p9]; exact ih
        | final q hq h0 h =>
          have := (hfin.last [] q hq).2
          rw [nofin] at this; cases this
        | junk q hq h0 h => rw [h]; exact ih

end Pvxs.Mon
