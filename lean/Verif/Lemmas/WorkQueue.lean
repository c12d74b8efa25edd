import Verif.Spec.WorkQueue
import Verif.Lemmas.ClientMon2
/-
The work queue of subscriptions: what is held for each, and what was printed.
-/
namespace Pvxs.WorkQueue
open ClientMon (Sub Out Entry Notified Quiet)
open Spec.CMon (Params fresh history calls empties sinceEmpty popped isCall)
open Spec.WQ

/-! ### counting -/

theorem pigeon (n : Nat) : ∀ l : List Nat, (∀ i ∈ l, i < n) → (∀ i, l.count i ≤ 1) → l.length ≤ n := by
  induction n with
  | zero =>
    intro l h _
    cases l with
    | nil => simp
    | cons a l => exact absurd (h a (by simp)) (by omega)
  | succ n ih =>
    intro l h hc
    have h1 := List.length_eq_countP_add_countP (fun x => x == n) (l := l)
    have h2 := ih (l.filter (fun x => !(x == n))) (by
      intro i hi
      have := List.mem_filter.1 hi
      have h3 := h i this.1
      have h4 : i ≠ n := by simpa using this.2
      omega) (fun i => Nat.le_trans (List.Sublist.count_le i List.filter_sublist) (hc i))
    have h5 : l.countP (fun x => x == n) = l.count n := rfl
    have h6 : (l.filter (fun x => !(x == n))).length = l.countP (fun a => decide ¬(a == n) = true) := by
      rw [← List.countP_eq_length_filter]
      congr 1
      funext x
      cases x == n <;> rfl
    have := hc n
    omega

theorem pigeonOpt (n : Nat) (l : List (Option Nat)) (h : ∀ i, some i ∈ l → i < n) (hc : ∀ i, l.count (some i) ≤ 1) :
    l.length ≤ n + l.count none := by
  have h1 : l.length = (l.filterMap id).length + l.count none := by
    clear h hc
    induction l with
    | nil => rfl
    | cons a l ih =>
      cases a with
      | none => simp only [List.length_cons, List.filterMap_cons, id, List.count_cons_self]; omega
      | some a => simp only [List.length_cons, List.filterMap_cons, id, List.count_cons]; simp; omega
  have h2 : ∀ i, (l.filterMap id).count i = l.count (some i) := by
    intro i
    clear h hc h1
    induction l with
    | nil => rfl
    | cons a l ih => cases a <;> simp [List.filterMap_cons, List.count_cons, ih]
  have := pigeon n (l.filterMap id) (by
    intro i hi
    obtain ⟨a, ha, hb⟩ := List.mem_filterMap.1 hi
    exact h i (by rw [id] at hb; rw [← hb]; exact ha)) (fun i => by rw [h2]; exact hc i)
  omega

/-! ### one subscription -/

theorem run_append (o : Sub) (a b : List ClientMon.Ev) :
    ClientMon.run o (a ++ b) = ((ClientMon.run (ClientMon.run o a).1 b).1, (ClientMon.run o a).2 ++ (ClientMon.run (ClientMon.run o a).1 b).2) := by
  induction a generalizing o with
  | nil => simp [ClientMon.run]
  | cons e a ih => simp [ClientMon.run, ih]

theorem history_snoc (p : Params) (f u : Bool) (es : List ClientMon.Ev) (e : ClientMon.Ev) :
    history p f u (es ++ [e]) = ((ClientMon.step (history p f u es).1 e).1, (history p f u es).2 ++ (ClientMon.step (history p f u es).1 e).2) := by
  simp [history, run_append, ClientMon.run]

/-- the worker finds no queue empty and takes nothing from it -/
structure Calm (outs : List Out) : Prop where
  noEmpty : outs.any Spec.CMon.isEmpty = false
  noPop : popped outs = []

theorem calm_step (o : Sub) (e : ClientMon.Ev) (he : byWorker e = true) : Calm (ClientMon.step o e).2 := by
  have hn : Calm (ClientMon.doNotify o).2 := by
    unfold ClientMon.doNotify
    cases o.owed <;> cases o.hasEvent <;> exact ⟨rfl, rfl⟩
  have key : ∀ f : Sub → Sub × List Out, (∀ o, Quiet o (f o).1 (f o).2) → (∀ o, popped (f o).2 = []) → Calm (ClientMon.settled o f).2 := by
    intro f hf hp
    exact ⟨by simp only [ClientMon.settled, List.any_append, hn.noEmpty, (hf _).noEmpty, Bool.or_self],
      by simp only [ClientMon.settled, ClientMon.popped_append, hn.noPop, hp, List.append_nil]⟩
  cases e with
  | up => exact key _ ClientMon.quiet_up fun o => ClientMon.up_sent _ rfl
  | down => exact key _ ClientMon.quiet_down fun _ => rfl
  | msg r i => exact key _ (fun o => ClientMon.quiet_msg o r i) fun o => ClientMon.msg_popped o r i
  | pause p => exact key _ (fun o => ClientMon.quiet_pause o p) fun o => by simp only [ClientMon.pause]; split <;> rfl
  | pop => cases he
  | popN n => cases he
  | cancel => exact key _ ClientMon.quiet_cancel fun o => by simp only [ClientMon.cancel, ClientMon.cancelImpl]; split <;> rfl
  | drop => exact key _ ClientMon.quiet_drop fun o => by simp only [ClientMon.cancelImpl]; split <;> rfl
  | tick => exact key _ ClientMon.quiet_tick fun o => by simp only [ClientMon.tickAck]; split <;> (try split) <;> rfl
  | deliver => exact hn

theorem calm_begin (p : Params) (f u : Bool) : Calm (ClientMon.begin (fresh p) f u).2 := by
  cases f
  · cases u
    · exact ⟨by simp [ClientMon.begin, ClientMon.createOperations], by simp [ClientMon.begin, ClientMon.createOperations, popped]⟩
    · exact ⟨(ClientMon.quiet_up { fresh p with conn := true, pending := true }).noEmpty, ClientMon.up_sent { fresh p with conn := true, pending := true } rfl⟩
  · exact ⟨rfl, rfl⟩

theorem Calm.empties {outs : List Out} (h : Calm outs) : empties outs = 0 := by
  have := h.noEmpty
  unfold Spec.CMon.empties
  rw [List.length_eq_zero_iff, List.filter_eq_nil_iff]
  intro x hx
  have h2 := List.any_eq_false.1 this x hx
  exact h2

/-! ### courses -/

theorem workOf_append (i : Nat) (a b : List Ev) : workOf i (a ++ b) = workOf i a ++ workOf i b := by
  induction a with
  | nil => rfl
  | cons e a ih =>
    cases e <;> simp only [List.cons_append, workOf, ih]
    split <;> rfl

theorem courseOf_none {i : Nat} {a : List Ev} (h : courseOf i a = none) (b : List Ev) : courseOf i (a ++ b) = courseOf i b := by
  induction a with
  | nil => rfl
  | cons e a ih =>
    cases e with
    | start j f u =>
      simp only [courseOf] at h
      simp only [List.cons_append, courseOf]
      split at h
      · cases h
      · rename_i hj; rw [if_neg hj]; exact ih h
    | _ => simp only [List.cons_append, courseOf] at h ⊢; exact ih h

theorem courseOf_some {i : Nat} {a : List Ev} {f u : Bool} {ws : List ClientMon.Ev} (h : courseOf i a = some (f, u, ws)) (b : List Ev) :
    courseOf i (a ++ b) = some (f, u, ws ++ workOf i b) := by
  induction a with
  | nil => cases h
  | cons e a ih =>
    cases e with
    | start j f u =>
      simp only [courseOf] at h
      simp only [List.cons_append, courseOf]
      split at h
      · rename_i hj
        rw [if_pos hj, workOf_append]
        simp only [Option.some.injEq, Prod.mk.injEq] at h ⊢
        exact ⟨h.1, h.2.1, by rw [h.2.2]⟩
      · rename_i hj; rw [if_neg hj]; exact ih h
    | _ => simp only [List.cons_append, courseOf] at h ⊢; exact ih h

theorem interrupts_append (a b : List Ev) : interrupts (a ++ b) = interrupts a + interrupts b := by
  induction a with
  | nil => simp [interrupts]
  | cons e a ih => cases e <;> simp only [List.cons_append, interrupts, ih]; omega

/-- the subscription is as its course says -/
def Track (p : Params) (c : Option (Bool × Bool × List ClientMon.Ev)) (o : One) : Prop :=
  match c with
  | none => o.started = false ∧ o.sub = fresh p ∧ o.outs = []
  | some (f, u, ws) => o.started = true ∧ ∃ ces, ces.filter byWorker = ws ∧ (o.sub, o.outs) = history p f u ces

theorem track_notified {p : Params} {c : Option (Bool × Bool × List ClientMon.Ev)} {o : One} (h : Track p c o) : Notified o.sub o.outs := by
  cases c with
  | none =>
    obtain ⟨_, h2, h3⟩ := h
    rw [h2, h3]
    constructor <;> simp [fresh, calls, empties, sinceEmpty]
  | some c =>
    obtain ⟨f, u, ws⟩ := c
    obtain ⟨_, ces, _, h⟩ := h
    have h1 : o.sub = (history p f u ces).1 := congrArg Prod.fst h
    have h2 : o.outs = (history p f u ces).2 := congrArg Prod.snd h
    rw [h1, h2]
    exact ClientMon.notified_run (ClientMon.notified_begin p f u) ces

theorem track_count {p : Params} {c : Option (Bool × Bool × List ClientMon.Ev)} {o : One} (h : Track p c o) : calls o.outs ≤ empties o.outs + 1 := by
  rcases (track_notified h).count with h | ⟨_, _, _, h, _⟩ <;> omega

/-! ### everything -/

def isFin : Entry → Bool
  | .exc .finished => true
  | _ => false

/-- what holds after `es` -/
structure Ok (p : Nat → Params) (es : List Ev) (s : State) : Prop where
  sub : ∀ i, i < s.n → Track (p i) (courseOf i es) (s.subs i)
  out : ∀ i, s.n ≤ i → held i s = 0
  cnt : ∀ i, i < s.n → calls (s.subs i).outs = empties (s.subs i).outs + held i s
  since : ∀ i, i < s.n → .called ∈ sinceEmpty (s.subs i).outs → held i s = 1
  log : ∀ i, i < s.n → printedOf i s = popped (s.subs i).outs
  ids : ∀ x ∈ s.printed, x.1 < s.n
  free : s.blocked = false
  nul : s.work.count none ≤ interrupts es
  intr : s.interrupt = true ↔ 0 < interrupts es
  one : s.hand = none ∨ s.back = none
  left : s.remaining + (s.printed.filter fun x => isFin x.2).length = s.n
  busy : s.exit = none → s.hand ≠ none → s.remaining ≠ 0
  ex : ∀ c, s.exit = some c → c = status s ∧ (s.remaining = 0 ∨ s.interrupt = true)

theorem Ok.held_le {p : Nat → Params} {es : List Ev} {s : State} (h : Ok p es s) (i : Nat) : held i s ≤ 1 := by
  by_cases hi : i < s.n
  · have := h.cnt i hi
    have := track_count (h.sub i hi)
    omega
  · rw [h.out i (by omega)]; omega

theorem Ok.work_lt {p : Nat → Params} {es : List Ev} {s : State} (h : Ok p es s) {i : Nat} (hi : some i ∈ s.work) : i < s.n := by
  by_cases hn : i < s.n
  · exact hn
  · have := h.out i (by omega)
    have hc : 0 < s.work.count (some i) := List.count_pos_iff.2 hi
    unfold held at this
    omega

theorem Ok.hand_lt {p : Nat → Params} {es : List Ev} {s : State} (h : Ok p es s) {i : Nat} (hi : s.hand = some i) : i < s.n := by
  by_cases hn : i < s.n
  · exact hn
  · have := h.out i (by omega)
    unfold held at this
    rw [if_pos hi] at this
    omega

theorem Ok.back_lt {p : Nat → Params} {es : List Ev} {s : State} (h : Ok p es s) {i : Nat} (hi : s.back = some i) : i < s.n := by
  by_cases hn : i < s.n
  · exact hn
  · have := h.out i (by omega)
    unfold held at this
    rw [if_pos hi] at this
    omega

theorem Ok.length_le {p : Nat → Params} {es : List Ev} {s : State} (h : Ok p es s) : s.work.length ≤ s.n + s.work.count none :=
  pigeonOpt s.n s.work (fun _ hi => h.work_lt hi) fun i => by
    have := h.held_le i
    unfold held at this
    omega

theorem notify_eq (i : Nat) (outs : List Out) : ∀ s : State, s.work.length + calls outs ≤ s.n + 1 →
    notify i outs s = { s with work := s.work ++ List.replicate (calls outs) (some i) } := by
  induction outs with
  | nil => intro s _; simp [notify, calls]
  | cons x outs ih =>
    intro s h
    cases x with
    | called =>
      have hc : calls (.called :: outs) = calls outs + 1 := rfl
      rw [hc] at h ⊢
      have hp : push s (some i) = { s with work := s.work ++ [some i] } := by
        unfold push
        rw [if_pos (by omega)]
      show notify i outs (push s (some i)) = _
      rw [hp, ih _ (by simp only [List.length_append, List.length_singleton]; omega)]
      simp only [List.append_assoc, List.singleton_append, List.replicate_succ]
    | _ => exact ih s h

theorem count_replicate_ne {i j : Nat} (h : j ≠ i) (k : Nat) : (List.replicate k (some i)).count (some j) = 0 := by
  rw [List.count_eq_zero]
  intro hm
  have := List.eq_of_mem_replicate hm
  simp at this
  exact h this

theorem count_none_replicate (i k : Nat) : (List.replicate k (some i)).count none = 0 := by
  rw [List.count_eq_zero]
  intro hm
  have := List.eq_of_mem_replicate hm
  cases this

/-- the worker does something -/
theorem ok_work {p : Nat → Params} {es : List Ev} {s : State} (h : Ok p es s) {i : Nat} (hi : i < s.n) (o : Sub) (outs : List Out) (e : Ev)
    (hk : interrupts (es ++ [e]) = interrupts es) (hle : interrupts es ≤ 1) (hc : Calm outs)
    (ht : Track (p i) (courseOf i (es ++ [e])) { sub := o, started := true, outs := (s.subs i).outs ++ outs })
    (hj : ∀ j, j ≠ i → courseOf j (es ++ [e]) = courseOf j es) : Ok p (es ++ [e]) (notify i outs (become s i o outs)) := by
  have hcount := track_count ht
  simp only [ClientMon.calls_append, ClientMon.empties_append, hc.empties] at hcount
  have hcnt := h.cnt i hi
  have hlen : s.work.length + calls outs ≤ s.n + 1 := by
    have := pigeonOpt s.n (s.work ++ List.replicate (calls outs) (some i)) (by
      intro j hm
      rcases List.mem_append.1 hm with hm | hm
      · exact h.work_lt hm
      · have := List.eq_of_mem_replicate hm
        cases this
        exact hi) (by
      intro j
      rw [List.count_append]
      by_cases hji : j = i
      · subst hji
        rw [List.count_replicate_self]
        unfold held at hcnt
        omega
      · rw [count_replicate_ne hji]
        have := h.held_le j
        unfold held at this
        omega)
    rw [List.count_append, count_none_replicate, List.length_append, List.length_replicate] at this
    have := h.nul
    omega
  rw [notify_eq i outs (become s i o outs) hlen]
  have hheld : ∀ j, held j { become s i o outs with work := s.work ++ List.replicate (calls outs) (some i) } =
      held j s + (if j = i then calls outs else 0) := by
    intro j
    show (s.work ++ List.replicate (calls outs) (some i)).count (some j) + (if s.hand = some j then 1 else 0) + (if s.back = some j then 1 else 0) = _
    unfold held
    rw [List.count_append]
    by_cases hji : j = i
    · subst hji
      rw [List.count_replicate_self, if_pos rfl]
      omega
    · rw [count_replicate_ne hji, if_neg hji]
      omega
  constructor
  · intro j hjn
    by_cases hji : j = i
    · subst hji; simpa [become] using ht
    · have := h.sub j hjn
      rw [hj j hji]
      simpa [become, hji] using this
  · intro j hjn
    have hji : j ≠ i := by rintro rfl; exact absurd hi (Nat.not_lt.2 hjn)
    show held j { become s i o outs with work := s.work ++ List.replicate (calls outs) (some i) } = 0
    rw [hheld, if_neg hji]
    exact h.out j hjn
  · intro j hjn
    show calls (become s i o outs |>.subs j).outs = empties (become s i o outs |>.subs j).outs +
      held j { become s i o outs with work := s.work ++ List.replicate (calls outs) (some i) }
    rw [hheld]
    by_cases hji : j = i
    · subst hji
      simp only [become, if_true, ClientMon.calls_append, ClientMon.empties_append, hc.empties]
      omega
    · simpa [become, hji] using h.cnt j hjn
  · intro j hjn hm
    show held j { become s i o outs with work := s.work ++ List.replicate (calls outs) (some i) } = 1
    rw [hheld]
    by_cases hji : j = i
    · subst hji
      simp only [become, if_true] at hm ⊢
      rw [ClientMon.sinceEmpty_append, hc.noEmpty] at hm
      rcases List.mem_append.1 (by simpa using hm) with hm | hm
      · have := h.since j hi hm; omega
      · have : 0 < calls outs := by
          unfold calls
          exact List.length_pos_of_mem (List.mem_filter.2 ⟨hm, rfl⟩)
        omega
    · rw [if_neg hji]
      exact h.since j hjn (by simpa [become, hji] using hm)
  · intro j hjn
    show printedOf j s = _
    by_cases hji : j = i
    · subst hji
      simp only [become, if_true, ClientMon.popped_append, hc.noPop, List.append_nil]
      exact h.log j hi
    · simpa [become, hji] using h.log j hjn
  · exact h.ids
  · exact h.free
  · show (s.work ++ List.replicate (calls outs) (some i)).count none ≤ _
    rw [List.count_append, count_none_replicate, hk]
    exact h.nul
  · rw [hk]; exact h.intr
  · exact h.one
  · exact h.left
  · exact h.busy
  · exact h.ex

/-- nothing which concerns a subscription -/
theorem track_other {p : Nat → Params} {es : List Ev} {s : State} (h : Ok p es s) {e : Ev} (h1 : ∀ i, courseOf i [e] = none) (h2 : ∀ i, workOf i [e] = [])
    (i : Nat) (hi : i < s.n) : Track (p i) (courseOf i (es ++ [e])) (s.subs i) := by
  have := h.sub i hi
  cases hc : courseOf i es with
  | none => rw [courseOf_none hc, h1]; rwa [hc] at this
  | some c =>
    obtain ⟨f, u, ws⟩ := c
    rw [courseOf_some hc, h2, List.append_nil]; rwa [hc] at this

theorem ok_same {p : Nat → Params} {es : List Ev} {s : State} (h : Ok p es s) {e : Ev} (hk : interrupts [e] = 0)
    (ht : ∀ i, i < s.n → Track (p i) (courseOf i (es ++ [e])) (s.subs i)) : Ok p (es ++ [e]) s := by
  have hk' : interrupts (es ++ [e]) = interrupts es := by rw [interrupts_append, hk]; rfl
  exact { h with sub := ht, nul := by rw [hk']; exact h.nul, intr := by rw [hk']; exact h.intr }

theorem ok_start {p : Nat → Params} {es : List Ev} {s : State} (h : Ok p es s) (hle : interrupts es ≤ 1) (i : Nat) (f u : Bool) :
    Ok p (es ++ [.start i f u]) (step s (.start i f u)) := by
  have hj : ∀ j, j ≠ i → courseOf j (es ++ [.start i f u]) = courseOf j es := by
    intro j hji
    cases hc : courseOf j es with
    | none => rw [courseOf_none hc]; simp [courseOf, Ne.symm hji]
    | some c => obtain ⟨f, u, ws⟩ := c; rw [courseOf_some hc]; simp [workOf]
  simp only [step]
  split
  · rename_i hi
    have ht := h.sub i hi.1
    cases hc : courseOf i es with
    | some c =>
      obtain ⟨f', u', ws⟩ := c
      rw [hc] at ht
      have := ht.1
      rw [hi.2] at this
      cases this
    | none =>
      rw [hc] at ht
      obtain ⟨_, hs, ho⟩ := ht
      refine ok_work h hi.1 _ _ _ (by rw [interrupts_append]; rfl) hle ?_ ?_ hj
      · rw [hs]; exact calm_begin (p i) f u
      · rw [courseOf_none hc]
        simp only [courseOf, if_true]
        refine ⟨rfl, [], rfl, ?_⟩
        rw [hs, ho]
        simp [history, ClientMon.run]
  · rename_i hn
    refine ok_same h rfl fun j hjn => ?_
    by_cases hji : j = i
    · subst hji
      have ht := h.sub j hjn
      cases hc : courseOf j es with
      | none => rw [hc] at ht; exact absurd ⟨hjn, ht.1⟩ hn
      | some c => obtain ⟨f', u', ws⟩ := c; rw [courseOf_some hc]; simp only [workOf, List.append_nil]; rwa [hc] at ht
    · rw [hj j hji]; exact h.sub j hjn

theorem ok_worker {p : Nat → Params} {es : List Ev} {s : State} (h : Ok p es s) (hle : interrupts es ≤ 1) (i : Nat) (e : ClientMon.Ev) :
    Ok p (es ++ [.worker i e]) (step s (.worker i e)) := by
  have hj : ∀ j, j ≠ i → courseOf j (es ++ [.worker i e]) = courseOf j es := by
    intro j hji
    cases hc : courseOf j es with
    | none => rw [courseOf_none hc]; simp [courseOf]
    | some c => obtain ⟨f, u, ws⟩ := c; rw [courseOf_some hc]; simp [workOf, Ne.symm hji]
  simp only [step]
  split
  · rename_i hi
    have ht := h.sub i hi.1
    cases hc : courseOf i es with
    | none =>
      rw [hc] at ht
      have := ht.1
      rw [hi.2.1] at this
      cases this
    | some c =>
      obtain ⟨f, u, ws⟩ := c
      rw [hc] at ht
      obtain ⟨_, ces, hw, ht⟩ := ht
      refine ok_work h hi.1 _ _ _ (by rw [interrupts_append]; rfl) hle (calm_step _ _ hi.2.2) ?_ hj
      rw [courseOf_some hc]
      have h1 : (s.subs i).sub = (history (p i) f u ces).1 := congrArg Prod.fst ht
      have h2 : (s.subs i).outs = (history (p i) f u ces).2 := congrArg Prod.snd ht
      refine ⟨rfl, ces ++ [e], ?_, ?_⟩
      · rw [List.filter_append, hw]
        simp [workOf, hi.2.2]
      · rw [history_snoc, h1, h2]
  · rename_i hn
    refine ok_same h rfl fun j hjn => ?_
    by_cases hji : j = i
    · subst hji
      have ht := h.sub j hjn
      cases hc : courseOf j es with
      | none => rw [courseOf_none hc]; simp only [courseOf]; rwa [hc] at ht
      | some c =>
        obtain ⟨f', u', ws⟩ := c
        rw [courseOf_some hc]
        rw [hc] at ht
        have hb : ¬ byWorker e = true := fun hb => hn ⟨hjn, ht.1, hb⟩
        have hb' : byWorker e = false := by simpa using hb
        rw [show workOf j [.worker j e] = [] by simp [workOf, hb'], List.append_nil]
        exact ht
    · rw [hj j hji]; exact h.sub j hjn

theorem ok_take {p : Nat → Params} {es : List Ev} {s : State} (h : Ok p es s) : Ok p (es ++ [.take]) (step s .take) := by
  have h' : Ok p (es ++ [.take]) s := ok_same h rfl (track_other h (fun _ => rfl) fun _ => rfl)
  generalize es ++ [Ev.take] = es' at h'
  clear h es
  show Ok p es' (take s)
  unfold take
  split
  · rename_i rest he hh hb hw
    have hint : s.interrupt = true := by
      rw [h'.intr]
      have := h'.nul
      rw [hw, List.count_cons_self] at this
      omega
    have hheld : ∀ j, held j { s with work := rest, exit := some (status s) } = held j s := by
      intro j; simp [held, hw]
    refine { h' with out := ?_, cnt := ?_, since := ?_, log := ?_, nul := ?_, busy := ?_, ex := ?_ }
    · intro j hj; rw [hheld]; exact h'.out j hj
    · intro j hj; rw [hheld]; exact h'.cnt j hj
    · intro j hj; rw [hheld]; exact h'.since j hj
    · exact h'.log
    · have := h'.nul; rw [hw, List.count_cons_self] at this; show rest.count none ≤ _; omega
    · intro hx; cases hx
    · intro c hc; cases hc; exact ⟨rfl, Or.inr hint⟩
  · rename_i i rest he hh hb hw
    have hheld : ∀ j x, held j { s with work := rest, hand := some i, exit := x } = held j s := by
      intro j x
      simp only [held, hw, hh, hb, List.count_cons]
      by_cases hji : i = j <;> simp [hji]
    have hnul : rest.count none ≤ interrupts es' := by
      have := h'.nul; rw [hw, List.count_cons] at this; simpa using this
    split
    · rename_i hx
      refine { h' with out := ?_, cnt := ?_, since := ?_, log := ?_, nul := hnul, one := Or.inr hb, busy := ?_, ex := ?_ }
      · intro j hj; rw [hheld]; exact h'.out j hj
      · intro j hj; rw [hheld]; exact h'.cnt j hj
      · intro j hj; rw [hheld]; exact h'.since j hj
      · exact h'.log
      · intro hx; cases hx
      · intro c hc; cases hc; exact ⟨rfl, hx⟩
    · rename_i hx
      refine { h' with out := ?_, cnt := ?_, since := ?_, log := ?_, nul := hnul, one := Or.inr hb, busy := ?_ }
      · intro j hj; exact (hheld j s.exit).trans (h'.out j hj)
      · intro j hj; exact (h'.cnt j hj).trans (congrArg _ (hheld j s.exit).symm)
      · intro j hj hm; exact (hheld j s.exit).trans (h'.since j hj hm)
      · exact h'.log
      · intro _ _ h0; exact hx (Or.inl h0)
  · exact h'

theorem ok_again {p : Nat → Params} {es : List Ev} {s : State} (h : Ok p es s) (hle : interrupts es ≤ 1) : Ok p (es ++ [.again]) (step s .again) := by
  have h' : Ok p (es ++ [.again]) s := ok_same h rfl (track_other h (fun _ => rfl) fun _ => rfl)
  have hle' : interrupts (es ++ [.again]) ≤ 1 := by rw [interrupts_append]; exact hle
  generalize es ++ [Ev.again] = es' at h' hle'
  clear h es hle
  show Ok p es' (again s)
  unfold again
  split
  · rename_i i he hb
    have hroom : s.work.length < s.n + 1 := by
      have := pigeonOpt s.n (s.work ++ [some i]) (by
        intro j hm
        rcases List.mem_append.1 hm with hm | hm
        · exact h'.work_lt hm
        · simp at hm; subst hm; exact h'.back_lt hb) (by
        intro j
        have := h'.held_le j
        rw [List.count_append, List.count_singleton]
        unfold held at this
        rw [hb] at this
        by_cases hji : i = j
        · subst hji; simp at this ⊢; omega
        · simp [hji] at this ⊢; omega)
      rw [List.count_append, List.length_append] at this
      have h2 := h'.nul
      simp at this
      omega
    unfold push
    rw [if_pos hroom]
    have hheld : ∀ j, held j { s with back := none, work := s.work ++ [some i] } = held j s := by
      intro j
      simp only [held, List.count_append, List.count_singleton, hb]
      by_cases hji : i = j
      · subst hji; simp; omega
      · simp [hji]
    refine { h' with out := ?_, cnt := ?_, since := ?_, log := ?_, nul := ?_, one := Or.inr rfl }
    · intro j hj; exact (hheld j).trans (h'.out j hj)
    · intro j hj; exact (h'.cnt j hj).trans (congrArg _ (hheld j).symm)
    · intro j hj hm; exact (hheld j).trans (h'.since j hj hm)
    · exact h'.log
    · show (s.work ++ [some i]).count none ≤ _
      rw [List.count_append]
      have := h'.nul
      simpa using this
  · exact h'

theorem ok_interrupt {p : Nat → Params} {es : List Ev} {s : State} (h : Ok p es s) (hle : interrupts (es ++ [.interrupt]) ≤ 1) :
    Ok p (es ++ [.interrupt]) (step s .interrupt) := by
  have hk : interrupts (es ++ [Ev.interrupt]) = interrupts es + 1 := by rw [interrupts_append]; rfl
  have hnul := h.nul
  have hlen := h.length_le
  have hroom : s.work.length < s.n + 1 := by omega
  show Ok p _ (push { s with interrupt := true } none)
  unfold push
  rw [if_pos hroom]
  have hheld : ∀ j, held j { s with interrupt := true, work := s.work ++ [none] } = held j s := by
    intro j
    simp [held, List.count_append, List.count_singleton]
  refine { h with sub := track_other h (fun _ => rfl) fun _ => rfl, out := ?_, cnt := ?_, since := ?_, log := ?_, nul := ?_, intr := ?_, ex := ?_ }
  · intro j hj; exact (hheld j).trans (h.out j hj)
  · intro j hj; exact (h.cnt j hj).trans (congrArg _ (hheld j).symm)
  · intro j hj hm; exact (hheld j).trans (h.since j hj hm)
  · exact h.log
  · show (s.work ++ [none]).count none ≤ _
    rw [List.count_append, hk]
    simp
    exact hnul
  · rw [hk]; simp
  · intro c hc; exact ⟨(h.ex c hc).1, Or.inr rfl⟩

theorem ok_pop {p : Nat → Params} {es : List Ev} {s : State} (h : Ok p es s) : Ok p (es ++ [.pop]) (step s .pop) := by
  have h' : Ok p (es ++ [.pop]) s := ok_same h rfl (track_other h (fun _ => rfl) fun _ => rfl)
  generalize es ++ [Ev.pop] = es' at h'
  clear h es
  show Ok p es' (pop s)
  unfold pop
  split
  · rename_i i he hh
    have hi : i < s.n := h'.hand_lt hh
    have hb : s.back = none := by rcases h'.one with h1 | h1; (rw [hh] at h1; cases h1); exact h1
    have hheldi : held i s = 1 := by
      have h1 := h'.held_le i
      have h2 : 1 ≤ held i s := by unfold held; rw [if_pos hh]; omega
      omega
    have htr : ∀ j, j < s.n → Track (p j) (courseOf j es') ((become s i (ClientMon.pop (s.subs i).sub).1 (ClientMon.pop (s.subs i).sub).2).subs j) := by
      intro j hj
      have ht := h'.sub j hj
      by_cases hji : j = i
      · subst hji
        simp only [become, if_true]
        cases hc : courseOf j es' with
        | none =>
          rw [hc] at ht
          have h1 := h'.cnt j hi
          rw [ht.2.2, hheldi] at h1
          simp [calls, empties] at h1
        | some c =>
          obtain ⟨f, u, ws⟩ := c
          rw [hc] at ht
          obtain ⟨_, ces, hw, ht⟩ := ht
          have h1 : (s.subs j).sub = (history (p j) f u ces).1 := congrArg Prod.fst ht
          have h2 : (s.subs j).outs = (history (p j) f u ces).2 := congrArg Prod.snd ht
          refine ⟨rfl, ces ++ [.pop], ?_, ?_⟩
          · rw [List.filter_append, hw]
            simp [byWorker]
          · rw [history_snoc, h1, h2]; rfl
      · simpa [become, hji] using ht
    cases hq : (s.subs i).sub.queue with
    | nil =>
      have hp : ClientMon.pop (s.subs i).sub = ({ (s.subs i).sub with needNotify := true }, [.empty]) := by
        unfold ClientMon.pop
        split
        · rfl
        · rename_i h; rw [hq] at h; cases h
      rw [hp] at htr ⊢
      simp only [handle]
      have hheld : ∀ j, held j { become s i { (s.subs i).sub with needNotify := true } [.empty] with hand := none } =
          held j s - (if j = i then 1 else 0) := by
        intro j
        simp only [held, become, hh]
        by_cases hji : j = i
        · subst hji; simp
        · simp [hji, Ne.symm hji]
      refine { h' with sub := htr, out := ?_, cnt := ?_, since := ?_, log := ?_, one := Or.inl rfl, busy := ?_ }
      · intro j hj; rw [hheld]; have := h'.out j hj; omega
      · intro j hj
        rw [hheld]
        by_cases hji : j = i
        · subst hji
          have := h'.cnt j hi
          simp only [become, if_true, ClientMon.calls_append, ClientMon.empties_append]
          rw [show calls [Out.empty] = 0 from rfl, show empties [Out.empty] = 1 from rfl]
          omega
        · simpa [become, hji] using h'.cnt j hj
      · intro j hj hm
        rw [hheld]
        by_cases hji : j = i
        · subst hji
          simp only [become, if_true] at hm
          rw [ClientMon.sinceEmpty_append] at hm
          simp [Spec.CMon.isEmpty, sinceEmpty] at hm
        · have := h'.since j hj (by simpa [become, hji] using hm)
          rw [if_neg hji]
          exact this
      · intro j hj
        show printedOf j s = _
        by_cases hji : j = i
        · subst hji
          simp only [become, if_true, ClientMon.popped_append]
          rw [show popped [Out.empty] = [] from rfl, List.append_nil]
          exact h'.log j hi
        · simpa [become, hji] using h'.log j hj
      · intro _ hx; exact absurd rfl hx
    | cons x rest =>
      have hp : ClientMon.pop (s.subs i).sub = (ClientMon.popHead (s.subs i).sub rest, [.popped x]) := by
        unfold ClientMon.pop; rw [hq]
      rw [hp] at htr ⊢
      simp only [handle]
      have hrem := h'.busy he (by rw [hh]; simp)
      have hheld : ∀ j k, held j { become s i (ClientMon.popHead (s.subs i).sub rest) [.popped x] with
          hand := none, back := some i, printed := s.printed ++ [(i, x)], remaining := k } = held j s := by
        intro j k
        simp only [held, become, hh, hb]
        by_cases hji : i = j
        · subst hji; simp
        · simp [hji]
      refine { h' with sub := htr, out := ?_, cnt := ?_, since := ?_, log := ?_, ids := ?_, one := Or.inl rfl, left := ?_, busy := ?_, ex := ?_ }
      · intro j hj; exact (hheld j _).trans (h'.out j hj)
      · intro j hj
        refine Eq.trans ?_ (congrArg _ (hheld j _).symm)
        by_cases hji : j = i
        · subst hji
          simp only [become, if_true, ClientMon.calls_append, ClientMon.empties_append]
          exact h'.cnt j hi
        · simpa [become, hji] using h'.cnt j hj
      · intro j hj hm
        refine (hheld j _).trans (h'.since j hj ?_)
        by_cases hji : j = i
        · subst hji
          simp only [become, if_true] at hm
          rw [ClientMon.sinceEmpty_append] at hm
          simpa [Spec.CMon.isEmpty] using hm
        · simpa [become, hji] using hm
      · intro j hj
        by_cases hji : j = i
        · subst hji
          simp only [become, if_true, ClientMon.popped_append]
          rw [← h'.log j hi]
          simp [printedOf, popped]
        · simp only [become, if_neg hji]
          rw [← h'.log j hj]
          simp [printedOf, Ne.symm hji]
      · intro y hy
        rcases List.mem_append.1 hy with hy | hy
        · exact h'.ids y hy
        · simp at hy; subst hy; exact hi
      · have hl := h'.left
        simp only [become, List.filter_append, List.length_append]
        generalize (List.filter (fun x : Nat × Entry => isFin x.2) s.printed).length = L at hl ⊢
        cases x with
        | exc k => cases k <;> simp [isFin, leftAfter] <;> omega
        | data u => simp [isFin, leftAfter]; exact hl
      · intro _ hx; exact absurd rfl hx
      · intro c hc
        have hc' : s.exit = some c := hc
        rw [he] at hc'
        cases hc'
  · exact h'

theorem ok_step {p : Nat → Params} {es : List Ev} {s : State} (h : Ok p es s) (e : Ev) (hle : interrupts (es ++ [e]) ≤ 1) : Ok p (es ++ [e]) (step s e) := by
  have hle' : interrupts es ≤ 1 := by rw [interrupts_append] at hle; omega
  cases e with
  | start i f u => exact ok_start h hle' i f u
  | worker i e => exact ok_worker h hle' i e
  | take => exact ok_take h
  | pop => exact ok_pop h
  | again => exact ok_again h hle'
  | interrupt => exact ok_interrupt h hle

theorem ok_run {p : Nat → Params} (es' : List Ev) : ∀ {es : List Ev} {s : State}, Ok p es s → interrupts (es ++ es') ≤ 1 → Ok p (es ++ es') (run s es') := by
  induction es' with
  | nil => intro es s h _; rw [List.append_nil]; exact h
  | cons e es' ih =>
    intro es s h hle
    rw [show es ++ e :: es' = (es ++ [e]) ++ es' by simp] at hle ⊢
    exact ih (ok_step h e (by rw [interrupts_append] at hle; omega)) hle

theorem ok_after (n : Nat) (p : Nat → Params) (es : List Ev) (hle : interrupts es ≤ 1) : Ok p es (after n p es) := by
  refine ok_run (es := []) es ?_ hle
  constructor <;> intros <;> simp_all [init, Track, courseOf, held, calls, empties, sinceEmpty, printedOf, popped, interrupts]

theorem run_n (s : State) (es : List Ev) : (run s es).n = s.n := by
  have hpush : ∀ (s : State) x, (push s x).n = s.n := by intro s x; unfold push; split <;> rfl
  have hnot : ∀ (i : Nat) (outs : List Out) (s : State), (notify i outs s).n = s.n := by
    intro i outs
    induction outs with
    | nil => intro s; rfl
    | cons x outs ih => intro s; cases x <;> simp only [notify, ih, hpush]
  induction es generalizing s with
  | nil => rfl
  | cons e es ih =>
    refine (ih (step s e)).trans ?_
    cases e <;> simp only [step]
    · split <;> simp [hnot, become]
    · split <;> simp [hnot, become]
    · unfold take; split <;> (try split) <;> rfl
    · unfold pop; split
      · unfold handle; split <;> rfl
      · rfl
    · unfold again; split <;> simp [hpush]
    · rw [hpush]

end Pvxs.WorkQueue
