import Verif.Spec.Wait
/-! Property C78 -/
namespace Pvxs.Props.Wait
open Pvxs.Wait Pvxs.Spec.Wait

theorem run_cons (s : State) (e : Event) (es : List Event) : run s (e :: es) = run (step s e) es := rfl

theorem run_append (s : State) (a b : List Event) : run s (a ++ b) = run (run s a) b := List.foldl_append

/-- what the outcome says -/
def told : Outcome → Option Fate
  | .busy => none
  | .done r => some (.result r)
  | .abort => some .interruption

theorem check_outcome (s : State) (t : Nat) : (check s t).outcome = s.outcome ∧ (check s t).flag = s.flag ∧ (check s t).signals = s.signals := ⟨rfl, rfl, rfl⟩

/-- the outcome is the first result or interruption -/
theorem outcome_first (es : List Event) : told (run {} es).outcome = (fates es).head? := by
  have : ∀ (es : List Event) (s : State), told (run s es).outcome = (told s.outcome).or (fates es).head? := by
    intro es
    induction es with
    | nil => intro s; simp [run, fates]
    | cons e es ih =>
      intro s
      rw [run_cons, ih]
      have same : (step s e).outcome = s.outcome → fates (e :: es) = fates es → (told (step s e).outcome).or (fates es).head? = (told s.outcome).or (fates (e :: es)).head? := by
        intro h1 h2; rw [h1, h2]
      cases e with
      | wait t => exact same (by simp only [step]; split <;> rfl) rfl
      | wake t => exact same (by simp only [step]; split <;> rfl) rfl
      | expire t => exact same (by simp only [step]; split <;> rfl) rfl
      | signal => exact same (by simp only [step]; split <;> rfl) rfl
      | complete r =>
        simp only [step, complete]
        cases h : s.outcome <;> simp [told, fates, h]
      | interrupt =>
        simp only [step, complete]
        cases h : s.outcome <;> simp [told, fates, h]
  simpa [told] using this es {}

/-- what threads know -/
theorem threads_inv (es : List Event) : ∀ s : State, (∀ t f, ended (s.threads t) = some f → told s.outcome = some f) →
    ∀ t f, ended ((run s es).threads t) = some f → told (run s es).outcome = some f := by
  induction es with
  | nil => intro s h; exact h
  | cons e es ih =>
    intro s h
    rw [run_cons]
    refine ih _ ?_
    have hc : ∀ (s : State) (u : Nat), (∀ t f, ended (s.threads t) = some f → told s.outcome = some f) →
        ∀ t f, ended ((check s u).threads t) = some f → told (check s u).outcome = some f := by
      intro s u h t f
      simp only [check]
      by_cases e : t = u
      · rw [if_pos e]; cases s.outcome <;> simp [ended, told]
      · rw [if_neg e]; exact h t f
    have hd : ∀ o, told o ≠ none → ∀ t f, ended ((complete s o).threads t) = some f → told (complete s o).outcome = some f := by
      intro o _ t f
      unfold complete
      cases hs : s.outcome with
      | busy =>
        intro hf
        have := h t f hf
        rw [hs] at this
        simp [told] at this
      | _ => intro hf; dsimp only at hf ⊢; exact h t f hf
    intro t f
    cases e with
    | wait u => simp only [step]; split <;> first | exact h t f | exact hc s u h t f
    | wake u => simp only [step]; split <;> first | exact h t f | exact hc { s with flag := false } u h t f
    | expire u =>
      simp only [step]
      split
      · dsimp only
        by_cases e : t = u
        · rw [if_pos e]; simp [ended]
        · rw [if_neg e]; exact h t f
      · exact h t f
    | complete r => exact hd (.done r) nofun t f
    | interrupt => exact hd .abort nofun t f
    | signal => simp only [step]; split <;> exact h t f

/-- Whatever happens, with any number of threads: a wait() which returns, returns the first result of the operation, and one which is interrupted was so before any
result. -/
theorem C78_result (es : List Event) (t : Nat) (f : Fate) (h : ended ((run {} es).threads t) = some f) : (fates es).head? = some f := by
  rw [← outcome_first]
  exact threads_inv es {} (fun t f h => nomatch h) t f h

/-- A wait() which is called after the result, or the interruption, ends at once with it. -/
theorem C78_after (es : List Event) (t : Nat) (f : Fate) (h : (fates es).head? = some f) (hb : (run {} es).threads t ≠ .blocked) :
    ended ((step (run {} es) (.wait t)).threads t) = some f := by
  rw [← outcome_first] at h
  simp only [step, if_neg hb, check, if_true]
  cases ho : (run {} es).outcome <;> rw [ho] at h <;> simp [told] at h <;> simp [ended, h]

example : (fates [.wait 1, .complete 7, .signal, .interrupt]).head? = some (.result 7) ∧ (run {} [.wait 1, .complete 7, .signal, .interrupt]).threads 2 ≠ .blocked := by decide

/-- one thread at a time: a thread which waits though there is a result will be woken -/
theorem one_inv (es : List Event) : ∀ s : State, (∀ t u, s.threads t = .blocked → s.threads u = .blocked → t = u) →
    (∀ t, s.threads t = .blocked → s.outcome ≠ .busy → CanWake s t) → OneAtATime s es →
    ∀ t, (run s es).threads t = .blocked → (run s es).outcome ≠ .busy → CanWake (run s es) t := by
  induction es with
  | nil => intro s _ h _; exact h
  | cons e es ih =>
    intro s h1 h2 h3
    rw [run_cons]
    obtain ⟨ho, h3⟩ := h3
    have key : (∀ t u, (step s e).threads t = .blocked → (step s e).threads u = .blocked → t = u) ∧
        (∀ t, (step s e).threads t = .blocked → (step s e).outcome ≠ .busy → CanWake (step s e) t) := by
      cases e with
      | wait u =>
        dsimp only at ho
        simp only [step]
        split
        · exact ⟨h1, h2⟩
        · have hsub : ∀ t, (check s u).threads t = .blocked → t = u := by
            intro t ht
            simp only [check] at ht
            by_cases e : t = u
            · exact e
            · rw [if_neg e] at ht; exact ho t ht
          refine ⟨fun t v ht hv => (hsub t ht).trans (hsub v hv).symm, ?_⟩
          intro t ht hne
          have := hsub t ht
          subst this
          exfalso
          have hne' : s.outcome ≠ .busy := hne
          simp only [check, if_true] at ht
          revert ht
          cases hs : s.outcome with
          | busy => exact absurd hs hne'
          | done r => simp
          | abort => simp
      | wake u =>
        simp only [step]
        split
        · rename_i hu
          have hsub : ∀ t, (check { s with flag := false } u).threads t = .blocked → t = u := by
            intro t ht
            simp only [check] at ht
            by_cases e : t = u
            · exact e
            · rw [if_neg e] at ht; exact h1 t u ht hu.1
          refine ⟨fun t v ht hv => (hsub t ht).trans (hsub v hv).symm, ?_⟩
          intro t ht hne
          have := hsub t ht
          subst this
          exfalso
          have hne' : s.outcome ≠ .busy := hne
          simp only [check, if_true] at ht
          revert ht
          cases hs : s.outcome with
          | busy => exact absurd hs hne'
          | done r => simp
          | abort => simp
        · exact ⟨h1, h2⟩
      | expire u =>
        simp only [step]
        split
        · have hsub : ∀ t, (if t = u then Thread.timedOut else s.threads t) = .blocked → s.threads t = .blocked := by
            intro t ht
            by_cases e : t = u
            · rw [if_pos e] at ht; exact nomatch ht
            · rw [if_neg e] at ht; exact ht
          exact ⟨fun t v ht hv => h1 t v (hsub t ht) (hsub v hv), fun t ht hne => h2 t (hsub t ht) hne⟩
        · exact ⟨h1, h2⟩
      | complete r =>
        simp only [step, complete]
        cases hs : s.outcome with
        | busy => exact ⟨h1, fun t _ _ => .inr (Nat.succ_pos _)⟩
        | done r' => exact ⟨h1, h2⟩
        | abort => exact ⟨h1, h2⟩
      | interrupt =>
        simp only [step, complete]
        cases hs : s.outcome with
        | busy => exact ⟨h1, fun t _ _ => .inr (Nat.succ_pos _)⟩
        | done r' => exact ⟨h1, h2⟩
        | abort => exact ⟨h1, h2⟩
      | signal =>
        simp only [step]
        split
        · exact ⟨h1, fun t _ _ => .inl rfl⟩
        · exact ⟨h1, h2⟩
    exact ih _ key.1 key.2 h3

/-- With one thread waiting at a time: when there is a result or an interruption, a thread in wait() ends with it, as soon as the notification is delivered, without waiting for
its timeout.
Missing: several threads, see `C78_second`. -/
theorem C78_partial (es : List Event) (h1 : OneAtATime {} es) (t : Nat) (hb : (run {} es).threads t = .blocked) (f : Fate) (hf : (fates es).head? = some f) :
    (0 < (run {} es).signals ∨ (run {} es).flag = true) ∧
    ended ((run (run {} es) [.signal, .wake t]).threads t) = some f := by
  have ho : (run {} es).outcome ≠ .busy := by
    intro e
    have := outcome_first es
    rw [e, hf] at this
    simp [told] at this
  have hw := one_inv es {} (fun _ _ h => nomatch h) (fun _ h => nomatch h) h1 t hb ho
  refine ⟨hw.symm, ?_⟩
  have hout : told (run {} es).outcome = some f := by rw [outcome_first]; exact hf
  generalize run {} es = s at hb ho hw hout
  show ended ((step (step s .signal) (.wake t)).threads t) = some f
  have hq : (step s .signal).flag = true ∧ (step s .signal).threads = s.threads ∧ (step s .signal).outcome = s.outcome := by
    simp only [step]
    split
    · exact ⟨rfl, rfl, rfl⟩
    · rename_i h
      rcases hw with a | a
      · exact ⟨a, rfl, rfl⟩
      · exact absurd a h
  generalize step s .signal = z at hq
  simp only [step]
  rw [if_pos ⟨by rw [hq.2.1]; exact hb, hq.1⟩]
  simp only [check, if_true, hq.2.2]
  revert hout
  cases s.outcome <;> simp [told, ended]

example : let es : List Event := [.wait 1, .expire 1, .wait 2, .complete 7]
    OneAtATime {} es ∧ (run {} es).threads 2 = .blocked ∧ (fates es).head? = some (.result 7) := by
  refine ⟨⟨?_, trivial, ?_, trivial, trivial⟩, by decide, by decide⟩
  · intro u h; exact nomatch h
  · intro u h
    simp only [step, check] at h
    by_cases e : u = 1
    · subst e; exact nomatch h
    · simp [e] at h

/-- two threads wait for a result: it wakes one of them, and nothing is left to wake the other, which waits until its timeout -/
theorem C78_second : let es : List Event := [.wait 1, .wait 2, .complete 7, .signal, .wake 1]
    (run {} es).threads 1 = .returned 7 ∧ (run {} es).threads 2 = .blocked ∧
    ∀ more, (∀ e ∈ more, e ≠ .expire 2) → (run {} (es ++ more)).threads 2 = .blocked := by
  refine ⟨by decide, by decide, ?_⟩
  intro more
  rw [run_append]
  have h0 : (run {} [.wait 1, .wait 2, .complete 7, .signal, .wake 1]).threads 2 = .blocked ∧ (run {} [.wait 1, .wait 2, .complete 7, .signal, .wake 1]).flag = false ∧
      (run {} [.wait 1, .wait 2, .complete 7, .signal, .wake 1]).signals = 0 ∧ (run {} [.wait 1, .wait 2, .complete 7, .signal, .wake 1]).outcome = .done 7 := by decide
  generalize run {} [.wait 1, .wait 2, .complete 7, .signal, .wake 1] = s at h0
  induction more generalizing s with
  | nil => intro _; exact h0.1
  | cons e more ih =>
    intro hm
    rw [run_cons]
    refine ih (step s e) ?_ fun x hx => hm x (List.mem_cons_of_mem _ hx)
    obtain ⟨a, b, c, d⟩ := h0
    cases e with
    | wait u =>
      simp only [step]
      split
      · exact ⟨a, b, c, d⟩
      · rename_i hu
        refine ⟨?_, b, c, d⟩
        simp only [check]
        rw [if_neg (by intro e; subst e; exact hu a)]
        exact a
    | wake u => simp only [step, b]; simp; exact ⟨a, b, c, d⟩
    | expire u =>
      simp only [step]
      split
      · refine ⟨?_, b, c, d⟩
        dsimp only
        rw [if_neg (by intro e; subst e; exact hm _ List.mem_cons_self rfl)]
        exact a
      · exact ⟨a, b, c, d⟩
    | complete r => simp only [step, complete, d]; exact ⟨a, b, c, trivial⟩
    | interrupt => simp only [step, complete, d]; exact ⟨a, b, c, trivial⟩
    | signal => simp only [step, c]; simp; exact ⟨a, b, c, d⟩

/-- a thread may be told of a timeout though the result was there before -/
theorem C78_timeout : (run {} [.wait 1, .complete 7, .signal, .expire 1]).threads 1 = .timedOut ∧ (run {} [.wait 1, .complete 7, .signal]).outcome = .done 7 := by decide

/-- after an interruption a result is never seen: every later wait() is interrupted too -/
theorem C78_interrupted (es : List Event) (h : (fates es).head? = some .interruption) (t : Nat) (r : Nat) : (run {} es).threads t ≠ .returned r := by
  intro e
  have := C78_result es t (.result r) (by rw [e]; rfl)
  rw [h] at this
  cases this

end Pvxs.Props.Wait
