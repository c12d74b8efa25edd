import Verif.Lemmas.WorkQueue2
import Verif.Props.ClientMon
/-
C110: a program which handles its subscriptions through a work queue, as the documentation shows and pvxmonitor does.
-/
namespace Pvxs.Props.WQ
open ClientMon (Entry)
open WorkQueue
open Spec.CMon (Params Squashed streamOf)
open Spec.WQ
open CMon (plain rInit rData rLast)

/-- the server refuses the subscription -/
def rRefused : ClientMon.Reply := { init := true, final := false, ok := false, hasData := false, marked := fun _ => false, val := fun _ => 0 }

/-- two PVs: updates of both, the work queue serves them in turn; then both finish -/
def busy : List Ev :=
  [.start 0 false true, .start 1 false true, .worker 0 (.msg rInit .ok), .worker 1 (.msg rInit .ok),
   .worker 0 (.msg (rData 0 5) .ok), .worker 0 .deliver, .worker 0 (.msg (rData 0 6) .ok), .worker 1 (.msg (rData 0 7) .ok), .worker 1 .deliver,
   .take, .pop, .again, .take, .pop, .again]

def finish : List Ev :=
  busy ++ [.worker 0 (.msg rLast .ok), .worker 1 (.msg rLast .ok), .worker 0 .deliver, .worker 1 .deliver] ++ rounds 6

/-- Everything that came for a subscription was printed, or waits in its queue, in order, once, but for updates merged in the queue:
whatever the order of events on the worker and the main thread. -/
theorem C110_order (n : Nat) (p : Nat → Params) (es : List Ev) (hk : interrupts es ≤ 1) (i : Nat) (hi : i < n) :
    match courseOf i es with
    | none => printedOf i (after n p es) = []
    | some (f, u, ws) => Squashed (streamOf (p i) f u ws) (printedOf i (after n p es) ++ ((after n p es).subs i).sub.queue) := by
  have h := ok_after n p es hk
  have hn : (after n p es).n = n := run_n _ _
  have ht := h.sub i (by rw [hn]; exact hi)
  have hl := h.log i (by rw [hn]; exact hi)
  cases hc : courseOf i es with
  | none =>
    rw [hc] at ht
    rw [ht.2.2] at hl
    exact hl
  | some c =>
    obtain ⟨f, u, ws⟩ := c
    rw [hc] at ht
    obtain ⟨_, ces, hw, ht⟩ := ht
    have h1 : ((after n p es).subs i).sub = (Spec.CMon.history (p i) f u ces).1 := congrArg Prod.fst ht
    have h2 : ((after n p es).subs i).outs = (Spec.CMon.history (p i) f u ces).2 := congrArg Prod.snd ht
    show Squashed (streamOf (p i) f u ws) _
    rw [hl, h1, h2, ← hw, ← streamOf_worker]
    exact CMon.C37_order (p i) f u ces

example : interrupts busy ≤ 1 ∧ (printedOf 0 (after 2 (fun _ => plain) busy)).length = 1 ∧ (printedOf 1 (after 2 (fun _ => plain) busy)).length = 1 ∧
    (((after 2 (fun _ => plain) busy).subs 0).sub.queue).length = 1 := ⟨by decide, rfl, rfl, rfl⟩

/-- Each subscription is in the work queue, or held, once at most; so that a place for each and one for the interruption suffice:
neither the worker nor the main thread ever waits for room. -/
theorem C110_room (n : Nat) (p : Nat → Params) (es : List Ev) (hk : interrupts es ≤ 1) :
    (after n p es).blocked = false ∧ (after n p es).work.length ≤ n + interrupts es ∧ ∀ i, held i (after n p es) ≤ 1 := by
  have h := ok_after n p es hk
  have hn : (after n p es).n = n := run_n _ _
  refine ⟨h.free, ?_, h.held_le⟩
  have := h.length_le
  have := h.nul
  omega

/-- it needs that many -/
example : (after 2 (fun _ => plain) (busy ++ [.interrupt])).work.length = 3 ∧ (after 2 (fun _ => plain) (busy ++ [.interrupt])).n + 1 = 3 := ⟨rfl, rfl⟩

/-- The limit of one interruption: the second finds no room while the main thread does not come round. -/
theorem C110_second_interrupt : (after 2 (fun _ => plain) (busy ++ [.interrupt, .interrupt])).blocked = true := rfl

/-- No wake-up is lost: while something waits in the queue of a subscription, the subscription is in the work queue, or held, or the worker is
about to put it there. -/
theorem C110_awaited (n : Nat) (p : Nat → Params) (es : List Ev) (hk : interrupts es ≤ 1) (i : Nat) (hi : i < n)
    (hev : ((after n p es).subs i).sub.hasEvent = true) (hq : ((after n p es).subs i).sub.queue ≠ []) :
    held i (after n p es) = 1 ∨ ((after n p es).subs i).sub.owed = true := by
  have h := ok_after n p es hk
  have hn : (after n p es).n = n := run_n _ _
  have hi' : i < (after n p es).n := by rw [hn]; exact hi
  have hN := track_notified (h.sub i hi')
  cases hd : ((after n p es).subs i).sub.needNotify with
  | false =>
    rcases hN.told hev hd with h1 | h1
    · exact Or.inr h1
    · exact Or.inl (h.since i hi' h1)
  | true =>
    rcases hN.ready hev hd with h1 | h1
    · exact absurd h1 hq
    · exact Or.inl (h.since i hi' h1)

example : ((after 2 (fun _ => plain) busy).subs 0).sub.hasEvent = true ∧ ((after 2 (fun _ => plain) busy).subs 0).sub.queue ≠ [] :=
  ⟨rfl, fun h => absurd (congrArg List.length h) (by decide)⟩

/-- Whenever the main thread is left to go round its loop, as often as events wait, everything is printed, but for what the worker is
about to announce; or main() returns. -/
theorem C110_printed (n : Nat) (p : Nat → Params) (es : List Ev) (hk : interrupts es ≤ 1) (k : Nat)
    (hb : backlog (after n p es) + n + 2 ≤ k) :
    (after n p (es ++ [.pop, .again] ++ rounds k)).exit ≠ none ∨
    ∀ i, i < n → ((after n p (es ++ [.pop, .again] ++ rounds k)).subs i).sub.hasEvent = true →
      ((after n p (es ++ [.pop, .again] ++ rounds k)).subs i).sub.owed = false →
      ((after n p (es ++ [.pop, .again] ++ rounds k)).subs i).sub.queue = [] := by
  have hk1 : interrupts (es ++ [.pop, .again]) ≤ 1 := by rw [interrupts_append]; exact hk
  have hk2 : interrupts (es ++ [.pop, .again] ++ rounds k) ≤ 1 := by rw [interrupts_append, interrupts_rounds]; exact hk1
  have h0 := ok_after n p es hk
  have hn : (after n p es).n = n := run_n _ _
  by_cases hx : (after n p es).exit = none
  case neg =>
    left
    have : after n p (es ++ [.pop, .again] ++ rounds k) = run (after n p es) ([.pop, .again] ++ rounds k) := by
      unfold after; rw [List.append_assoc, run_append']
    rw [this, exit_run hx]
    exact hx
  have h1 := ok_after n p (es ++ [.pop, .again]) hk1
  have hn1 : (after n p (es ++ [.pop, .again])).n = n := run_n _ _
  have hr1 : after n p (es ++ [.pop, .again]) = step (step (after n p es) .pop) .again := by unfold after; rw [run_append']; rfl
  have hr2 : after n p (es ++ [.pop, .again] ++ rounds k) = run (after n p (es ++ [.pop, .again])) (rounds k) := by unfold after; rw [run_append']
  -- after that it holds nothing
  have hidle : Idle (after n p (es ++ [.pop, .again])) ∧ backlog (after n p (es ++ [.pop, .again])) ≤ backlog (after n p es) := by
    rw [hr1]
    generalize after n p es = s at h0 hx
    have hpush : ∀ (s : State) x, (push s x).hand = s.hand ∧ (push s x).back = s.back ∧ backlog (push s x) = backlog s := by
      intro s x; unfold push; split <;> exact ⟨rfl, rfl, rfl⟩
    cases hh : s.hand with
    | none =>
      have e1 : step s .pop = s := by show pop s = s; unfold pop; rw [hx, hh]
      rw [e1]
      cases hb : s.back with
      | none =>
        have e2 : step s .again = s := by show again s = s; unfold again; rw [hx, hb]
        rw [e2]
        exact ⟨⟨hh, hb⟩, Nat.le_refl _⟩
      | some i =>
        have e2 : step s .again = push { s with back := none } (some i) := by show again s = _; unfold again; rw [hx, hb]
        rw [e2]
        obtain ⟨a, b, c⟩ := hpush { s with back := none } (some i)
        exact ⟨⟨a.trans hh, b⟩, Nat.le_of_eq c⟩
    | some i =>
      have hbn : s.back = none := by rcases h0.one with h1 | h1; (rw [hh] at h1; cases h1); exact h1
      cases hq : (s.subs i).sub.queue with
      | nil =>
        have hp : ClientMon.pop (s.subs i).sub = ({ (s.subs i).sub with needNotify := true }, [.empty]) := by
          unfold ClientMon.pop
          split
          · rfl
          · rename_i h; rw [hq] at h; cases h
        have e1 : step s .pop = { become s i { (s.subs i).sub with needNotify := true } [.empty] with hand := none } := by
          show pop s = _
          unfold pop
          rw [hx, hh]
          simp only
          rw [hp]
          rfl
        have e2 : step (step s .pop) .again = { become s i { (s.subs i).sub with needNotify := true } [.empty] with hand := none } := by
          rw [e1]
          show again _ = _
          unfold again
          simp only [become, hx, hbn]
        rw [e2]
        refine ⟨⟨rfl, hbn⟩, Nat.le_of_eq (total_eq s.n fun j hj => ?_)⟩
        by_cases hji : j = i
        · subst hji; simp [become]
        · simp [become, hji]
      | cons e q =>
        have hp : ClientMon.pop (s.subs i).sub = (ClientMon.popHead (s.subs i).sub q, [.popped e]) := by
          unfold ClientMon.pop
          split
          · rename_i h; rw [hq] at h; cases h
          · rename_i h; rw [hq] at h; cases h; rfl
        have e1 : ∃ r pr, step s .pop = { become s i (ClientMon.popHead (s.subs i).sub q) [.popped e] with
            hand := none, back := some i, printed := pr, remaining := r } := by
          refine ⟨leftAfter e s.remaining, s.printed ++ [(i, e)], ?_⟩
          show pop s = _
          unfold pop
          rw [hx, hh]
          simp only
          rw [hp]
          rfl
        obtain ⟨r, pr, e1⟩ := e1
        have e2 : step (step s .pop) .again = push { become s i (ClientMon.popHead (s.subs i).sub q) [.popped e] with
            hand := none, back := none, printed := pr, remaining := r } (some i) := by
          rw [e1]
          show again _ = _
          unfold again
          simp only [become, hx]
        rw [e2]
        obtain ⟨a, b, c⟩ := hpush { become s i (ClientMon.popHead (s.subs i).sub q) [.popped e] with
            hand := none, back := none, printed := pr, remaining := r } (some i)
        refine ⟨⟨a, b⟩, ?_⟩
        rw [c]
        have : backlog s = backlog { become s i (ClientMon.popHead (s.subs i).sub q) [.popped e] with
            hand := none, back := none, printed := pr, remaining := r } + 1 := by
          refine total_less (i := i) ?_ s.n (h0.hand_lt hh) fun j hj hji => ?_
          · have hqq : (ClientMon.popHead (s.subs i).sub q).queue = q := by unfold ClientMon.popHead; split <;> rfl
            simp [become, hq, hqq]
          · simp [become, hji]
        omega
  have hlen : (after n p (es ++ [.pop, .again])).work.length ≤ n + 1 := by
    have a := h1.length_le
    have b := h1.nul
    omega
  rcases drain k h1 hk1 hidle.1 (by have := hidle.2; omega) with h3 | ⟨h3, h4⟩
  · left; rw [hr2]; exact h3
  · right
    intro i hi hev ho
    rw [← hr2] at h3 h4
    by_cases hq : ((after n p (es ++ [.pop, .again] ++ rounds k)).subs i).sub.queue = []
    · exact hq
    · rcases C110_awaited n p _ hk2 i hi hev hq with h5 | h5
      · unfold held at h5
        rw [h3, h4.hand, h4.back] at h5
        simp at h5
      · rw [ho] at h5; cases h5

example : backlog (after 2 (fun _ => plain) busy) = 1 ∧ (after 2 (fun _ => plain) (busy ++ [.pop, .again] ++ rounds 5)).printed.length = 3 := ⟨rfl, rfl⟩

/-- The work queue is a queue: each `take` serves the entry which waits longest, so no subscription is starved by another. -/
theorem C110_turn (s : State) (e : Ev) : ∃ more, (step s e).work = s.work ++ more ∨ (step s e).work = s.work.drop 1 ++ more ∧ e = .take := by
  have hpush : ∀ (s : State) x, ∃ more, (push s x).work = s.work ++ more := by
    intro s x; unfold push; split
    · exact ⟨[x], rfl⟩
    · exact ⟨[], by simp⟩
  have hnot : ∀ (i : Nat) (outs : List ClientMon.Out) (s : State), ∃ more, (notify i outs s).work = s.work ++ more := by
    intro i outs
    induction outs with
    | nil => intro s; exact ⟨[], by simp [notify]⟩
    | cons x outs ih =>
      intro s
      cases x with
      | called =>
        obtain ⟨a, ha⟩ := hpush s (some i)
        obtain ⟨b, hb⟩ := ih (push s (some i))
        exact ⟨a ++ b, by simp only [notify]; rw [hb, ha, List.append_assoc]⟩
      | _ => exact ih s
  have nothing : ∃ more, s.work = s.work ++ more ∨ s.work = s.work.drop 1 ++ more ∧ e = .take := ⟨[], Or.inl (by simp)⟩
  cases e with
  | start i f u =>
    simp only [step]
    split
    · obtain ⟨m, hm⟩ := hnot i (ClientMon.begin (s.subs i).sub f u).2 (become s i (ClientMon.begin (s.subs i).sub f u).1 (ClientMon.begin (s.subs i).sub f u).2)
      exact ⟨m, Or.inl hm⟩
    · exact nothing
  | worker i e =>
    simp only [step]
    split
    · obtain ⟨m, hm⟩ := hnot i (ClientMon.step (s.subs i).sub e).2 (become s i (ClientMon.step (s.subs i).sub e).1 (ClientMon.step (s.subs i).sub e).2)
      exact ⟨m, Or.inl hm⟩
    · exact nothing
  | take =>
    simp only [step]
    unfold take
    split
    · rename_i hw; exact ⟨[], Or.inr (by rw [hw]; simp)⟩
    · rename_i hw
      split <;> exact ⟨[], Or.inr (by rw [hw]; simp)⟩
    · exact ⟨[], Or.inl (by simp)⟩
  | pop =>
    simp only [step]
    unfold pop
    split
    · unfold handle; split <;> exact ⟨[], Or.inl (by simp [become])⟩
    · exact nothing
  | again =>
    simp only [step]
    unfold again
    split
    · rename_i i _ _
      obtain ⟨m, hm⟩ := hpush { s with back := none } (some i)
      exact ⟨m, Or.inl hm⟩
    · exact nothing
  | interrupt =>
    obtain ⟨m, hm⟩ := hpush { s with interrupt := true } none
    exact ⟨m, Or.inl hm⟩

theorem fin_le_one (n : Nat) (p : Nat → Params) (es : List Ev) (hk : interrupts es ≤ 1) (i : Nat) (hi : i < n) :
    (printedOf i (after n p es)).countP isFin ≤ 1 := by
  have h := C110_order n p es hk i hi
  cases hc : courseOf i es with
  | none =>
    rw [hc] at h
    simp only at h
    rw [h]; simp
  | some c =>
    obtain ⟨f, u, ws⟩ := c
    rw [hc] at h
    have h1 := squashed_fin h
    have h2 := CMon.C37_finished_last (p i) f u ws
    have h3 : (streamOf (p i) f u ws).countP isFin ≤ 1 := by
      rcases List.eq_nil_or_concat (streamOf (p i) f u ws) with h4 | ⟨l, x, h4⟩
      · rw [h4]; simp
      · rw [List.concat_eq_append] at h4
        rw [h4, List.dropLast_concat] at h2
        rw [h4, List.countP_append]
        have h5 : l.countP isFin = 0 := by
          rcases Nat.eq_zero_or_pos (l.countP isFin) with h | h
          · exact h
          · exact absurd ((fin_mem l).1 h) h2
        have h6 : ([x].countP isFin) ≤ 1 := List.countP_le_length
        omega
    rw [List.countP_append] at h1
    omega

/-- It returns 0 when every PV has finished, and all were printed; 2 when it was interrupted before. -/
theorem C110_status (n : Nat) (p : Nat → Params) (es : List Ev) (hk : interrupts es ≤ 1) (c : Nat) (hc : (after n p es).exit = some c) :
    (c = 0 ∧ ∀ i, i < n → .exc .finished ∈ printedOf i (after n p es)) ∨
    (c = 2 ∧ interrupts es = 1 ∧ ∃ i, i < n ∧ .exc .finished ∉ printedOf i (after n p es)) := by
  have h := ok_after n p es hk
  have hn : (after n p es).n = n := run_n _ _
  obtain ⟨h1, h2⟩ := h.ex c hc
  have hl := h.left
  have hids : ∀ i ∈ finIds (after n p es), i < n := by
    intro i hi
    obtain ⟨x, hx, rfl⟩ := List.mem_map.1 hi
    rw [← hn]
    exact h.ids x (List.mem_filter.1 hx).1
  have hone : ∀ i, (finIds (after n p es)).count i ≤ 1 := by
    intro i
    by_cases hi : i < n
    · rw [finIds_count]; exact fin_le_one n p es hk i hi
    · rw [List.count_eq_zero.2 (fun hm => hi (hids i hm))]; omega
  have hlen : (finIds (after n p es)).length = ((after n p es).printed.filter fun x => isFin x.2).length := by simp [finIds]
  by_cases hr : (after n p es).remaining = 0
  · left
    refine ⟨by rw [h1, status, if_pos hr], fun i hi => ?_⟩
    rw [← fin_mem, ← finIds_count]
    rcases Nat.eq_zero_or_pos ((finIds (after n p es)).count i) with h3 | h3
    · exfalso
      have := pigeon n (i :: finIds (after n p es)) (by
        intro j hj
        rcases List.mem_cons.1 hj with rfl | hj
        · exact hi
        · exact hids j hj) (by
        intro j
        rw [List.count_cons]
        by_cases hij : i = j
        · subst hij; rw [h3]; simp
        · have := hone j; simp [hij]; exact this)
      rw [List.length_cons] at this
      omega
    · exact h3
  · right
    have hint : (after n p es).interrupt = true := by rcases h2 with h2 | h2; exact absurd h2 hr; exact h2
    have := h.intr.1 hint
    refine ⟨by rw [h1, status, if_neg hr], by omega, ?_⟩
    apply Classical.byContradiction
    intro hno
    have hall : ∀ i, i < n → i ∈ finIds (after n p es) := by
      intro i hi
      rw [← List.count_pos_iff, finIds_count, fin_mem]
      exact Classical.byContradiction fun hx => hno ⟨i, hi, hx⟩
    have := cover n _ hall
    omega

example : (after 2 (fun _ => plain) finish).exit = some 0 ∧ (after 2 (fun _ => plain) (busy ++ [.interrupt] ++ rounds 4)).exit = some 2 := ⟨rfl, rfl⟩

/-- And it does return then: when Finished of the last one was printed the next round is its last. -/
theorem C110_returns (n : Nat) (p : Nat → Params) (es : List Ev) (hn : 0 < n) (hk : interrupts es ≤ 1)
    (hall : ∀ i, i < n → .exc .finished ∈ printedOf i (after n p es)) :
    ∃ c, (after n p (es ++ [.again, .take])).exit = some c := by
  have h := ok_after n p es hk
  have hnn : (after n p es).n = n := run_n _ _
  have hrem : (after n p es).remaining = 0 := by
    have := cover n (finIds (after n p es)) (by
      intro i hi
      rw [← List.count_pos_iff, finIds_count, fin_mem]
      exact hall i hi)
    have hl := h.left
    have hlen : (finIds (after n p es)).length = ((after n p es).printed.filter fun x => isFin x.2).length := by simp [finIds]
    omega
  have hr : after n p (es ++ [.again, .take]) = step (step (after n p es) .again) .take := by unfold after; rw [run_append']; rfl
  rw [hr]
  have hlast := last_after n p es
  generalize after n p es = s at *
  cases hx : s.exit with
  | some c =>
    have h1 : (step s .again).exit = s.exit := exit_step (by rw [hx]; simp) _
    have h2 : (step (step s .again) .take).exit = (step s .again).exit := exit_step (by rw [h1, hx]; simp) _
    exact ⟨c, by rw [h2, h1, hx]⟩
  | none =>
    have hhand : s.hand = none := by
      cases hh : s.hand with
      | none => rfl
      | some i => exact absurd hrem (h.busy hx (by rw [hh]; simp))
    have key : ∀ t : State, t.exit = none → t.hand = none → t.back = none → t.work ≠ [] → t.remaining = 0 → ∃ c, (take t).exit = some c := by
      intro t h1 h2 h3 h4 h5
      cases hw : t.work with
      | nil => exact absurd hw h4
      | cons x rest =>
        cases x with
        | none => exact ⟨status t, by unfold take; rw [h1, h2, h3, hw]⟩
        | some i => exact ⟨status t, by unfold take; rw [h1, h2, h3, hw]; simp [h5]⟩
    cases hb : s.back with
    | none =>
      have e2 : step s .again = s := by show again s = s; unfold again; rw [hx, hb]
      rw [e2]
      refine key s hx hhand hb ?_ hrem
      rcases hlast hx hrem (by omega) with h1 | h1
      · exact absurd hb h1
      · exact h1
    | some i =>
      have e2 : step s .again = push { s with back := none } (some i) := by show again s = _; unfold again; rw [hx, hb]
      rw [e2]
      unfold push
      split
      · exact key _ hx hhand rfl (by simp) hrem
      · rename_i hf
        refine key _ hx hhand rfl ?_ hrem
        intro hw
        exact hf (by rw [hw]; simp)

example : ∀ i, i < 2 → .exc .finished ∈ printedOf i (after 2 (fun _ => plain) finish) := by
  intro i hi
  rw [← fin_mem]
  have h0 : (printedOf 0 (after 2 (fun _ => plain) finish)).countP isFin = 1 := rfl
  have h1 : (printedOf 1 (after 2 (fun _ => plain) finish)).countP isFin = 1 := rfl
  rcases i with _ | _ | i
  · rw [h0]; decide
  · rw [h1]; decide
  · omega

/-- A subscription which ended without Finished, as one which the server refused, keeps it from returning: unless it is interrupted it waits
for ever, though nothing can come any more. -/
theorem C110_endless (n : Nat) (p : Nat → Params) (es es' : List Ev) (hk : interrupts (es ++ es') = 0) (i : Nat) (hi : i < n)
    (hd : ((after n p es).subs i).sub.state = .done) (hs : ((after n p es).subs i).started = true)
    (hf : .exc .finished ∉ printedOf i (after n p es)) (hq : .exc .finished ∉ ((after n p es).subs i).sub.queue) :
    (after n p (es ++ es')).exit = none := by
  have hk0 : interrupts es = 0 := by rw [interrupts_append] at hk; omega
  cases hx : (after n p (es ++ es')).exit with
  | none => rfl
  | some c =>
    exfalso
    rcases C110_status n p _ (by omega) c hx with ⟨_, h⟩ | ⟨_, h, _⟩
    case inr => omega
    have hfin := h i hi
    have hok := ok_after n p es (by omega)
    have hn : (after n p es).n = n := run_n _ _
    have ht := hok.sub i (by rw [hn]; exact hi)
    have ho := C110_order n p es (by omega) i hi
    have ho' := C110_order n p (es ++ es') (by omega) i hi
    cases hc : courseOf i es with
    | none => rw [hc] at ht; rw [ht.1] at hs; cases hs
    | some c =>
      obtain ⟨f, u, ws⟩ := c
      rw [hc] at ho ht
      rw [courseOf_some hc] at ho'
      simp only at ho ho'
      obtain ⟨_, ces, hw, ht⟩ := ht
      have h1 : ((after n p es).subs i).sub = (Spec.CMon.history (p i) f u ces).1 := congrArg Prod.fst ht
      rw [h1, history_state, hw] at hd
      have hsame : streamOf (p i) f u (ws ++ workOf i es') = streamOf (p i) f u ws := by
        have := CMon.C62_over (p i) f u ws (workOf i es') hd
          (Spec.CMon.latestOf (ClientMon.begin (Spec.CMon.fresh (p i)) f u).1 (fun _ => 0) ws)
        have h2 := stream_append ws (workOf i es') (ClientMon.begin (Spec.CMon.fresh (p i)) f u).1 (fun _ => 0)
        unfold streamOf
        rw [h2]
        rw [show (ClientMon.run (ClientMon.begin (Spec.CMon.fresh (p i)) f u).1 ws).1 = (Spec.CMon.history (p i) f u ws).1 from rfl, this, List.append_nil]
      rw [hsame] at ho'
      have a := squashed_fin ho
      have b := squashed_fin ho'
      rw [List.countP_append] at a b
      have c1 : (printedOf i (after n p es)).countP isFin = 0 := by
        rcases Nat.eq_zero_or_pos ((printedOf i (after n p es)).countP isFin) with h | h
        · exact h
        · exact absurd ((fin_mem _).1 h) hf
      have c2 : (((after n p es).subs i).sub.queue).countP isFin = 0 := by
        rcases Nat.eq_zero_or_pos ((((after n p es).subs i).sub.queue).countP isFin) with h | h
        · exact h
        · exact absurd ((fin_mem _).1 h) hq
      have c3 := (fin_mem _).2 hfin
      omega

/-- such a history: the server refuses, the error is printed -/
def refused : List Ev := [.start 0 false true, .worker 0 (.msg rRefused .ok), .worker 0 .deliver] ++ rounds 3

theorem C110_refused (es : List Ev) (hk : interrupts es = 0) :
    (after 1 (fun _ => plain) refused).printed.map (·.1) = [0] ∧ (after 1 (fun _ => plain) refused).work = [] ∧
    (after 1 (fun _ => plain) (refused ++ es)).exit = none := by
  have hp : (printedOf 0 (after 1 (fun _ => plain) refused)) = [.exc .remote] := rfl
  have hq : ((after 1 (fun _ => plain) refused).subs 0).sub.queue = [] := rfl
  refine ⟨rfl, rfl, C110_endless 1 _ refused es ?_ 0 (by decide) rfl rfl ?_ ?_⟩
  · rw [interrupts_append, hk]; rfl
  · rw [hp]; simp
  · rw [hq]; simp

/-- Without any PV it waits until it is interrupted. -/
theorem C110_none (p : Nat → Params) (es : List Ev) (hk : interrupts es = 0) : (after 0 p es).exit = none := by
  have : ∀ es : List Ev, interrupts es = 0 → after 0 p es = init 0 fun i => Spec.CMon.fresh (p i) := by
    intro es
    unfold after
    induction es with
    | nil => intro _; rfl
    | cons e es ih =>
      intro hk
      cases e with
      | interrupt => simp [interrupts] at hk
      | start i f u => exact ih hk
      | worker i e => exact ih hk
      | take => exact ih hk
      | pop => exact ih hk
      | again => exact ih hk
  rw [this es hk]
  rfl

example : (after 0 (fun _ => plain) [.interrupt, .take]).exit = some 0 := rfl

end Pvxs.Props.WQ
