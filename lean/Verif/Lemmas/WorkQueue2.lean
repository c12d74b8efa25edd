import Verif.Lemmas.WorkQueue
/-
What arrives does not depend on what was popped; the main thread gets through.
-/
namespace Pvxs.WorkQueue
open ClientMon (Sub Out Entry Reply InitAct)
open Spec.CMon (Params fresh history calls empties sinceEmpty popped arrives stream streamOf latestAfter latestOf)
open Spec.WQ

/-- all but the queue and what counts its entries -/
def core (o : Sub) : Sub :=
  { o with queue := [], window := 0, unack := 0, nCliSquash := 0, needNotify := true, ackPending := false, timer := false, owed := false }

theorem core_core (o : Sub) : core (core o) = core o := rfl

theorem core_push (o : Sub) (e : Entry) : core (ClientMon.push o e) = core o := by
  unfold ClientMon.push ClientMon.wantToNotify
  simp only
  split <;> rfl

theorem core_onUpdate (o : Sub) (r : Reply) (e : Option Entry) : core (ClientMon.onUpdate o r e) = core o := by
  unfold ClientMon.onUpdate ClientMon.wantToNotify
  simp only
  split <;> rfl

theorem core_popHead (o : Sub) (q : List Entry) : core (ClientMon.popHead o q) = core o := by
  unfold ClientMon.popHead
  split <;> rfl

theorem core_doNotify (o : Sub) : core (ClientMon.doNotify o).1 = core o := by
  unfold ClientMon.doNotify
  split <;> rfl

theorem core_pop (o : Sub) : core (ClientMon.pop o).1 = core o := by
  unfold ClientMon.pop
  split
  · rfl
  · exact core_popHead _ _

theorem core_popLoop (n : Nat) : ∀ (b : Bool) (o : Sub), core (ClientMon.popLoop n b o).1 = core o := by
  induction n with
  | zero => intro b o; rfl
  | succ n ih =>
    intro b o
    unfold ClientMon.popLoop
    split
    · rfl
    · split
      · exact core_popHead _ _
      · rfl
    · exact (ih _ _).trans (core_popHead _ _)

/-- what a function does to the rest does not depend on the queue -/
def Blind (f : Sub → Sub) : Prop := ∀ o o', core o = core o' → core (f o) = core (f o')

theorem blind_of {f : Sub → Sub} (h : ∀ o, core (f o) = core (f (core o))) : Blind f := by
  intro o o' he
  rw [h o, he, ← h o']

theorem blind_createOperations : Blind fun o => (ClientMon.createOperations { o with conn := true }).1 := by
  refine blind_of fun o => ?_
  cases hp : o.pending <;> cases ha : o.alive <;> cases hs : o.state <;> cases hm : o.maskConn <;> cases hpi : o.pipeline <;>
    cases hq : o.queue <;> simp [ClientMon.createOperations, ClientMon.createOp, core, hp, ha, hs, hm, hpi, hq, ClientMon.push, ClientMon.wantToNotify]

theorem blind_chanDown : Blind ClientMon.chanDown := by
  refine blind_of fun o => ?_
  cases hr : o.reg <;> cases ha : o.alive <;> cases hs : o.state <;> cases hm : o.maskDiscon <;>
    cases hq : o.queue <;> simp [ClientMon.chanDown, ClientMon.disconnected, core, hr, ha, hs, hm, hq, ClientMon.push, ClientMon.wantToNotify]

theorem blind_pause (p : Bool) : Blind fun o => (ClientMon.pause o p).1 := by
  refine blind_of fun o => ?_
  cases hs : o.state <;> cases p <;> simp [ClientMon.pause, core, hs]

theorem blind_cancel : Blind fun o => (ClientMon.cancel o).1 := by
  refine blind_of fun o => ?_
  cases hs : o.state <;> simp [ClientMon.cancel, ClientMon.cancelImpl, core, hs]

theorem blind_drop : Blind fun o => { (ClientMon.cancelImpl o).1 with alive := false } := by
  refine blind_of fun o => ?_
  cases hs : o.state <;> simp [ClientMon.cancelImpl, core, hs]

theorem core_tick (o : Sub) : core (ClientMon.tickAck o).1 = core o := by
  unfold ClientMon.tickAck
  split
  · rfl
  · simp only
    split <;> rfl

theorem blind_finishUp (r : Reply) : Blind fun o => (ClientMon.finishUp o r).1 := by
  refine blind_of fun o => ?_
  cases hs : o.state <;> cases hf : r.final <;> simp [ClientMon.finishUp, core, hs, hf]

theorem blind_onInit (i : InitAct) : Blind fun o => (ClientMon.onInitReply o i).1 := by
  refine blind_of fun o => ?_
  cases hi : o.hasInit <;> cases ha : o.autostart <;> cases i <;>
    simp [ClientMon.onInitReply, ClientMon.cancel, ClientMon.cancelImpl, ClientMon.pause, core, hi, ha]

theorem blind_msg (r : Reply) (i : InitAct) : Blind fun o => (ClientMon.msg o r i).1 := by
  refine blind_of fun o => ?_
  simp only [ClientMon.msg, show (core o).reg = o.reg from rfl, show (core o).alive = o.alive from rfl, show (core o).fl = o.fl from rfl,
    show ClientMon.fits (core o) r = ClientMon.fits o r from rfl]
  split
  · rfl
  split
  · rfl
  split
  · rfl
  split
  · exact blind_chanDown _ _ rfl
  split
  · split
    · exact blind_finishUp r _ _ (blind_onInit i _ _ rfl)
    · exact blind_finishUp r _ _ rfl
  split
  · refine blind_finishUp r _ _ ?_
    rw [core_onUpdate, core_onUpdate]
    rfl
  split
  · refine blind_finishUp r _ _ ?_
    rw [core_onUpdate, core_onUpdate]
    rfl
  · refine blind_finishUp r _ _ ?_
    rw [core_onUpdate, core_onUpdate]
    rfl

theorem blind_step (e : ClientMon.Ev) : Blind fun o => (ClientMon.step o e).1 := by
  intro o o' h
  have key : ∀ f : Sub → Sub × List Out, (Blind fun o => (f o).1) → core (ClientMon.settled o f).1 = core (ClientMon.settled o' f).1 := by
    intro f hf
    exact hf (ClientMon.doNotify o).1 (ClientMon.doNotify o').1 (by rw [core_doNotify, core_doNotify]; exact h)
  cases e with
  | up => exact key _ blind_createOperations
  | down => exact key _ blind_chanDown
  | msg r i => exact key _ (blind_msg r i)
  | pause p => exact key _ (blind_pause p)
  | pop => show core (ClientMon.pop o).1 = core (ClientMon.pop o').1; rw [core_pop, core_pop]; exact h
  | popN n =>
    show core (ClientMon.popLoop _ true o).1 = core (ClientMon.popLoop _ true o').1
    rw [core_popLoop, core_popLoop]; exact h
  | cancel => exact key _ blind_cancel
  | drop => exact key _ blind_drop
  | tick => exact key _ fun o o' h => by simp only [core_tick]; exact h
  | deliver => show core (ClientMon.doNotify o).1 = core (ClientMon.doNotify o').1; rw [core_doNotify, core_doNotify]; exact h

theorem core_reader (o : Sub) (e : ClientMon.Ev) (he : byWorker e = false) : core (ClientMon.step o e).1 = core o := by
  cases e with
  | pop => exact core_pop o
  | popN n => exact core_popLoop _ true o
  | _ => cases he

theorem arrives_congr {o o' : Sub} (h : core o = core o') (latest : Nat → Nat) (e : ClientMon.Ev) : arrives o latest e = arrives o' latest e := by
  have key : ∀ o, arrives o latest e = arrives (core o) latest e := by intro o; cases e <;> rfl
  rw [key o, key o', h]

theorem latest_congr {o o' : Sub} (h : core o = core o') (latest : Nat → Nat) (e : ClientMon.Ev) : latestAfter o latest e = latestAfter o' latest e := by
  have key : ∀ o, latestAfter o latest e = latestAfter (core o) latest e := by intro o; cases e <;> rfl
  rw [key o, key o', h]

theorem arrives_reader (o : Sub) (latest : Nat → Nat) (e : ClientMon.Ev) (he : byWorker e = false) : arrives o latest e = [] ∧ latestAfter o latest e = latest := by
  cases e with
  | pop => exact ⟨rfl, rfl⟩
  | popN n => exact ⟨rfl, rfl⟩
  | _ => cases he

/-- The stream is that of the worker alone. -/
theorem stream_worker (es : List ClientMon.Ev) : ∀ (o o' : Sub), core o = core o' → ∀ latest : Nat → Nat,
    stream o latest es = stream o' latest (es.filter byWorker) ∧ core (ClientMon.run o es).1 = core (ClientMon.run o' (es.filter byWorker)).1 := by
  induction es with
  | nil => intro o o' h latest; exact ⟨rfl, h⟩
  | cons e es ih =>
    intro o o' h latest
    cases he : byWorker e with
    | false =>
      rw [List.filter_cons_of_neg (by simp [he])]
      have h1 := ih (ClientMon.step o e).1 o' ((core_reader o e he).trans h) latest
      refine ⟨?_, h1.2⟩
      simp only [stream]
      rw [(arrives_reader o latest e he).1, (arrives_reader o latest e he).2, List.nil_append]
      exact h1.1
    | true =>
      rw [List.filter_cons_of_pos he]
      have h1 := ih (ClientMon.step o e).1 (ClientMon.step o' e).1 (blind_step e o o' h) (latestAfter o latest e)
      refine ⟨?_, h1.2⟩
      simp only [stream]
      rw [arrives_congr h, latest_congr h]
      rw [latest_congr h] at h1
      rw [h1.1]

theorem streamOf_worker (p : Params) (f u : Bool) (es : List ClientMon.Ev) : streamOf p f u es = streamOf p f u (es.filter byWorker) := by
  unfold streamOf
  rw [(stream_worker es _ _ rfl _).1]

theorem history_state (p : Params) (f u : Bool) (es : List ClientMon.Ev) :
    (history p f u es).1.state = (history p f u (es.filter byWorker)).1.state :=
  have h := (stream_worker es (ClientMon.begin (fresh p) f u).1 _ rfl fun _ => 0).2
  (congrArg Sub.state h : (core (ClientMon.run (ClientMon.begin (fresh p) f u).1 es).1).state = _)

theorem stream_append (a b : List ClientMon.Ev) : ∀ (o : Sub) (latest : Nat → Nat),
    stream o latest (a ++ b) = stream o latest a ++ stream (ClientMon.run o a).1 (latestOf o latest a) b := by
  induction a with
  | nil => intro o latest; rfl
  | cons e a ih =>
    intro o latest
    simp only [List.cons_append, stream, ih, List.append_assoc]
    rfl

/-! ### Finished -/

theorem squashed_fin {a q : List Entry} (h : Spec.CMon.Squashed a q) : a.countP isFin = q.countP isFin := by
  induction h with
  | nil => rfl
  | keep e _ ih => simp [List.countP_append, ih]
  | merge _ ih => simp only [List.countP_append] at ih ⊢; simp [isFin] at ih ⊢; exact ih

theorem fin_iff (e : Entry) : isFin e = true ↔ e = .exc .finished := by
  cases e with
  | data u => simp [isFin]
  | exc k => cases k <;> simp [isFin]

theorem fin_mem (l : List Entry) : 0 < l.countP isFin ↔ .exc .finished ∈ l := by
  rw [List.countP_pos_iff]
  constructor
  · rintro ⟨e, he, hf⟩; rw [fin_iff] at hf; rw [← hf]; exact he
  · intro h; exact ⟨_, h, rfl⟩

/-- those which finished -/
def finIds (s : State) : List Nat := (s.printed.filter fun x => isFin x.2).map (·.1)

theorem finIds_count (s : State) (i : Nat) : (finIds s).count i = (printedOf i s).countP isFin := by
  unfold finIds printedOf
  generalize s.printed = l
  induction l with
  | nil => rfl
  | cons x l ih =>
    obtain ⟨j, e⟩ := x
    by_cases hj : j = i
    · subst hj
      cases he : isFin e <;> simp [List.filter_cons, List.filterMap_cons, he, ih]
    · cases he : isFin e <;> simp [List.filter_cons, List.filterMap_cons, he, ih, hj, List.count_cons]

theorem cover : ∀ (n : Nat) (l : List Nat), (∀ i, i < n → i ∈ l) → n ≤ l.length := by
  intro n
  induction n with
  | zero => intro l _; omega
  | succ n ih =>
    intro l h
    have h1 := ih (l.erase n) (fun i hi => (List.mem_erase_of_ne (by omega)).2 (h i (by omega)))
    have h2 := List.length_erase_of_mem (h n (by omega))
    have h3 : 0 < l.length := List.length_pos_of_mem (h n (by omega))
    omega

/-! ### the main thread gets through -/

/-- once main() has returned it stays so -/
theorem exit_push (s : State) (x : Option Nat) : (push s x).exit = s.exit := by unfold push; split <;> rfl

theorem exit_notify (i : Nat) (outs : List Out) : ∀ s : State, (notify i outs s).exit = s.exit := by
  induction outs with
  | nil => intro s; rfl
  | cons x outs ih => intro s; cases x <;> simp only [notify, ih, exit_push]

theorem exit_step {s : State} (h : s.exit ≠ none) (e : Ev) : (step s e).exit = s.exit := by
  cases hx : s.exit with
  | none => exact absurd hx h
  | some c =>
    cases e <;> simp only [step]
    · split <;> simp [exit_notify, become, hx]
    · split <;> simp [exit_notify, become, hx]
    · unfold take; rw [hx]; exact hx
    · unfold pop; rw [hx]; exact hx
    · unfold again; rw [hx]; exact hx
    · rw [exit_push]; exact hx

theorem exit_run {s : State} (h : s.exit ≠ none) (es : List Ev) : (run s es).exit = s.exit := by
  induction es generalizing s with
  | nil => rfl
  | cons e es ih =>
    have h1 := exit_step h e
    exact (ih (s := step s e) (by rw [h1]; exact h)).trans h1

theorem interrupts_rounds (k : Nat) : interrupts (rounds k) = 0 := by
  induction k with
  | zero => rfl
  | succ k ih => simpa [rounds, interrupts] using ih

theorem run_append' (s : State) (a b : List Ev) : run s (a ++ b) = run (run s a) b := List.foldl_append

theorem total_eq {f g : Nat → Nat} (n : Nat) (h : ∀ i, i < n → f i = g i) : total f n = total g n := by
  induction n with
  | zero => rfl
  | succ n ih => simp only [total, ih fun i hi => h i (by omega), h n (by omega)]

theorem total_less {f g : Nat → Nat} {i : Nat} (hi : f i = g i + 1) : ∀ n, i < n → (∀ j, j < n → j ≠ i → f j = g j) → total f n = total g n + 1 := by
  intro n
  induction n with
  | zero => intro h; omega
  | succ n ih =>
    intro hn h
    simp only [total]
    by_cases hin : i = n
    · subst hin
      rw [total_eq i (fun j hj => h j (by omega) (by omega)), hi]
      omega
    · rw [ih (by omega) fun j hj hne => h j (by omega) hne, h n (by omega) (Ne.symm hin)]
      omega

/-- nothing in the hands of the main thread, which has not returned -/
structure Idle (s : State) : Prop where
  hand : s.hand = none
  back : s.back = none

/-- one round takes one entry of the work queue or of the queue of a subscription -/
theorem round_less {p : Nat → Params} {es : List Ev} {s : State} (h : Ok p es s) (hle : interrupts es ≤ 1) (hi : Idle s) (hx : s.exit = none) :
    (run s [.take, .pop, .again]).exit ≠ none ∨
    Idle (run s [.take, .pop, .again]) ∧
      ((s.work = [] ∧ run s [.take, .pop, .again] = s) ∨
       backlog (run s [.take, .pop, .again]) + (run s [.take, .pop, .again]).work.length + 1 = backlog s + s.work.length) := by
  cases hw : s.work with
  | nil =>
    right
    have h1 : step s .take = s := by show take s = s; unfold take; rw [hx, hi.hand, hi.back, hw]
    have h2 : step s .pop = s := by show pop s = s; unfold pop; rw [hx, hi.hand]
    have h3 : step s .again = s := by show again s = s; unfold again; rw [hx, hi.back]
    have : run s [.take, .pop, .again] = s := by show step (step (step s .take) .pop) .again = s; rw [h1, h2, h3]
    rw [this]
    exact ⟨hi, Or.inl ⟨rfl, rfl⟩⟩
  | cons x rest =>
    cases x with
    | none =>
      left
      have h1 : (step s .take).exit ≠ none := by
        show (take s).exit ≠ none
        unfold take; rw [hx, hi.hand, hi.back, hw]; simp
      have := exit_run h1 [.pop, .again]
      intro h2
      exact h1 (this.symm.trans h2)
    | some i =>
      by_cases hend : s.remaining = 0 ∨ s.interrupt = true
      · left
        have h1 : (step s .take).exit ≠ none := by
          show (take s).exit ≠ none
          unfold take; rw [hx, hi.hand, hi.back, hw]; simp [hend]
        have := exit_run h1 [.pop, .again]
        intro h2
        exact h1 (this.symm.trans h2)
      · right
        have h1 : step s .take = { s with work := rest, hand := some i } := by
          show take s = _
          unfold take; rw [hx, hi.hand, hi.back, hw]; simp [hend]
        have hin : i < s.n := h.work_lt (by rw [hw]; simp)
        cases hq : (s.subs i).sub.queue with
        | nil =>
          have hp : ClientMon.pop (s.subs i).sub = ({ (s.subs i).sub with needNotify := true }, [.empty]) := by
            unfold ClientMon.pop
            split
            · rfl
            · rename_i h; rw [hq] at h; cases h
          have h2 : step (step s .take) .pop =
              { become { s with work := rest, hand := some i } i { (s.subs i).sub with needNotify := true } [.empty] with hand := none } := by
            rw [h1]
            show pop _ = _
            unfold pop
            simp only [hx]
            rw [hp]
            rfl
          have h3 : run s [.take, .pop, .again] = { become { s with work := rest, hand := some i } i { (s.subs i).sub with needNotify := true } [.empty] with hand := none } := by
            show step (step (step s .take) .pop) .again = _
            rw [h2]
            show again _ = _
            unfold again
            simp only [become, hx, hi.back]
          rw [h3]
          refine ⟨⟨rfl, hi.back⟩, Or.inr ?_⟩
          have : backlog { become { s with work := rest, hand := some i } i { (s.subs i).sub with needNotify := true } [.empty] with hand := none } = backlog s := by
            refine total_eq s.n fun j hj => ?_
            by_cases hji : j = i
            · subst hji; simp [become]
            · simp [become, hji]
          rw [this]
          simp [become]
          omega
        | cons e q =>
          have hp : ClientMon.pop (s.subs i).sub = (ClientMon.popHead (s.subs i).sub q, [.popped e]) := by
            unfold ClientMon.pop
            split
            · rename_i h; rw [hq] at h; cases h
            · rename_i h; rw [hq] at h; cases h; rfl
          have h2 : ∃ k pr, step (step s .take) .pop =
              { become { s with work := rest, hand := some i } i (ClientMon.popHead (s.subs i).sub q) [.popped e] with
                hand := none, back := some i, printed := pr, remaining := k } := by
            rw [h1]
            refine ⟨leftAfter e s.remaining, s.printed ++ [(i, e)], ?_⟩
            show pop _ = _
            unfold pop
            simp only [hx]
            rw [hp]
            rfl
          obtain ⟨k, pr, h2⟩ := h2
          have hroom : rest.length < s.n + 1 := by
            have h4 := h.length_le
            have h5 := h.nul
            rw [hw, List.length_cons, List.count_cons] at h4
            rw [hw, List.count_cons] at h5
            simp at h4 h5
            omega
          have h3 : run s [.take, .pop, .again] =
              { become { s with work := rest, hand := some i } i (ClientMon.popHead (s.subs i).sub q) [.popped e] with
                hand := none, back := none, printed := pr, remaining := k, work := rest ++ [some i] } := by
            show step (step (step s .take) .pop) .again = _
            rw [h2]
            show again _ = _
            unfold again
            simp only [become, hx]
            unfold push
            rw [if_pos hroom]
          rw [h3]
          refine ⟨⟨rfl, rfl⟩, Or.inr ?_⟩
          have : backlog s = backlog { become { s with work := rest, hand := some i } i (ClientMon.popHead (s.subs i).sub q) [.popped e] with
              hand := none, back := none, printed := pr, remaining := k, work := rest ++ [some i] } + 1 := by
            refine total_less (i := i) ?_ s.n hin fun j hj hji => ?_
            · have hqq : (ClientMon.popHead (s.subs i).sub q).queue = q := by unfold ClientMon.popHead; split <;> rfl
              simp [become, hq, hqq]
            · simp [become, hji]
          rw [this]
          simp
          omega

theorem drain {p : Nat → Params} (k : Nat) : ∀ {es : List Ev} {s : State}, Ok p es s → interrupts es ≤ 1 → Idle s → backlog s + s.work.length ≤ k →
    (run s (rounds k)).exit ≠ none ∨ (run s (rounds k)).work = [] ∧ Idle (run s (rounds k)) := by
  induction k with
  | zero =>
    intro es s h hle hi hk
    right
    exact ⟨List.length_eq_zero_iff.1 (by show s.work.length = 0; omega), hi⟩
  | succ k ih =>
    intro es s h hle hi hk
    have hr : run s (rounds (k + 1)) = run (run s [.take, .pop, .again]) (rounds k) := by
      rw [← run_append']; rfl
    rw [hr]
    by_cases hx : s.exit = none
    · rcases round_less h hle hi hx with h1 | ⟨h1, h2⟩
      · left; rw [exit_run h1]; exact h1
      · rcases h2 with ⟨h2, h3⟩ | h2
        · right
          -- nothing to do
          have hall : ∀ k, run s (rounds k) = s := by
            intro k
            induction k with
            | zero => rfl
            | succ k ih' =>
              have : run s (rounds (k + 1)) = run (run s [.take, .pop, .again]) (rounds k) := by rw [← run_append']; rfl
              rw [this, h3, ih']
          rw [h3, hall k]
          exact ⟨h2, hi⟩
        · have hle' : interrupts (es ++ [.take, .pop, .again]) ≤ 1 := by rw [interrupts_append]; exact hle
          exact ih (ok_run [.take, .pop, .again] h hle') hle' h1 (by omega)
    · left
      have h1 : (run s [.take, .pop, .again]).exit ≠ none := by rw [exit_run hx]; exact hx
      rw [exit_run h1]; exact h1

/-- while nothing remains to be expected the main thread is on its way out -/
def Last (s : State) : Prop := s.exit = none → s.remaining = 0 → 0 < s.n → s.back ≠ none ∨ s.work ≠ []

theorem last_push {s : State} (h : s.work ≠ [] ∨ Last s) (x : Option Nat) : Last (push s x) := by
  unfold push
  split
  · intro _ _ _; right; simp
  · rename_i hf
    intro _ _ _
    right
    intro hw
    exact hf (by rw [show s.work = [] from hw]; simp)

theorem last_notify (i : Nat) (outs : List Out) : ∀ s : State, Last s → Last (notify i outs s) := by
  induction outs with
  | nil => intro s h; exact h
  | cons x outs ih =>
    intro s h
    cases x with
    | called => exact ih _ (last_push (Or.inr h) _)
    | _ => exact ih s h

theorem last_step {s : State} (h : Last s) (e : Ev) : Last (step s e) := by
  cases e with
  | start i f u =>
    simp only [step]
    split
    · exact last_notify _ _ _ h
    · exact h
  | worker i e =>
    simp only [step]
    split
    · exact last_notify _ _ _ h
    · exact h
  | take =>
    show Last (take s)
    unfold take
    split
    · intro hx; cases hx
    · split
      · intro hx; cases hx
      · rename_i hr
        intro _ h0 _
        exact absurd (Or.inl h0) hr
    · exact h
  | pop =>
    show Last (pop s)
    unfold pop
    split
    · unfold handle
      split
      · intro _ _ _; left; simp
      · exact h
    · exact h
  | again =>
    show Last (again s)
    unfold again
    split
    · rename_i i _ _
      unfold push
      split
      · intro _ _ _; right; simp
      · rename_i hf
        intro _ _ _
        right
        intro hw
        exact hf (by rw [show s.work = [] from hw]; simp)
    · exact h
  | interrupt => exact last_push (s := { s with interrupt := true }) (Or.inr h) none

theorem last_run {s : State} (h : Last s) (es : List Ev) : Last (run s es) := by
  induction es generalizing s with
  | nil => exact h
  | cons e es ih => exact ih (last_step h e)

theorem last_after (n : Nat) (p : Nat → Params) (es : List Ev) : Last (after n p es) :=
  last_run (by intro _ h0 hn; exact absurd h0 (Nat.pos_iff_ne_zero.1 hn)) es

end Pvxs.WorkQueue
