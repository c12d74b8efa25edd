import Verif.Spec.Once
/-
C118: things initialised once.
-/
namespace Pvxs.Props.Once
open Pvxs.Once Pvxs.Spec.Once

/-- the states which are reached, given who called the function -/
inductive Inv : St → Prop where
  | init (s : St) (hi : s.id = .init) (hc : s.calls = 0) (he : s.ended = []) (hl : s.log = []) (hp : ∀ i, s.pc i = .outside) : Inv s
  | active (s : St) (k : Nat) (hi : s.id = .active k) (hc : s.calls = 1) (he : s.ended = []) (hl : s.log = [])
      (hk : s.pc k = .inside ∨ s.pc k = .stopped) (hp : ∀ i, i ≠ k → s.pc i = .outside ∨ s.pc i = .waiting) : Inv s
  | done (s : St) (k : Nat) (x : Option Nat) (hi : s.id = .done) (hc : s.calls = 1) (he : s.ended = [x]) (ho : s.ok = x.isNone)
      (hl : ∃ a b, s.log = a ++ b ∧ (∀ l ∈ a, l.1 ≠ k ∧ l.2 = due x false) ∧
        (b = [] ∧ s.pc k = .back x ∨ (s.pc k = .outside ∨ s.pc k = .back none) ∧ ∃ c, b = (k, due x true) :: c ∧ ∀ l ∈ c, l.2 = due x false))
      (hp : ∀ i, i ≠ k → s.pc i = .outside ∨ s.pc i = .waiting ∨ s.pc i = .back none) : Inv s

theorem inv_start : Inv {} := .init _ rfl rfl rfl rfl fun _ => rfl

theorem at_pc (s : St) (i j : Nat) (p : Pc) : (s.at i p).pc j = if j = i then p else s.pc j := rfl

theorem resultOf_none (x : Option Nat) : resultOf x.isNone none = due x false := by cases x <;> rfl
theorem resultOf_own (x : Option Nat) : resultOf x.isNone x = due x true := by cases x <;> rfl

theorem inv_step {s : St} (h : Inv s) (e : Ev) : Inv (step s e) := by
  cases h with
  | init hi hc he hl hp =>
    cases e with
    | call i =>
      simp only [step, hp i, enter, hi]
      refine .active _ i rfl ?_ he hl (Or.inl (by simp [at_pc])) ?_
      · simp [St.at, hc]
      · intro j hj; left; simp [at_pc, hj, hp j]
    | ends i x => simp only [step, hp i]; exact .init s hi hc he hl hp
    | look i => simp only [step, hp i]; exact .init s hi hc he hl hp
    | leave i => simp only [step, hp i]; exact .init s hi hc he hl hp
  | active k hi hc he hl hk hp =>
    cases e with
    | call i =>
      by_cases hik : i = k
      · subst hik
        rcases hk with hk | hk
        · simp only [step, hk, enter, hi, if_true]
          refine .active _ i hi hc he hl (Or.inr (by simp [at_pc])) ?_
          intro j hj; simp only [at_pc, hj, if_false]; exact hp j hj
        · simp only [step, hk]; exact .active s i hi hc he hl (Or.inr hk) hp
      · rcases hp i hik with h | h
        · simp only [step, h, enter, hi, if_neg (Ne.symm hik)]
          refine .active _ k hi hc he hl (by simp only [at_pc, if_neg (Ne.symm hik)]; exact hk) ?_
          intro j hj
          by_cases hji : j = i
          · right; simp [at_pc, hji]
          · simp only [at_pc, if_neg hji]; exact hp j hj
        · simp only [step, h]; exact .active s k hi hc he hl hk hp
    | ends i x =>
      by_cases hik : i = k
      · subst hik
        rcases hk with hk | hk
        · simp only [step, hk, finish]
          refine .done _ i x rfl hc ?_ rfl ⟨[], [], ?_, by simp, Or.inl ⟨rfl, by simp [at_pc]⟩⟩ ?_
          · simp [St.at, he]
          · simp [St.at, hl]
          · intro j hj
            simp only [at_pc, hj, if_false]
            rcases hp j hj with h | h
            · exact Or.inl h
            · exact Or.inr (Or.inl h)
        · simp only [step, hk]; exact .active s i hi hc he hl (Or.inr hk) hp
      · have : step s (.ends i x) = s := by rcases hp i hik with h | h <;> simp only [step, h]
        rw [this]; exact .active s k hi hc he hl hk hp
    | look i =>
      have : step s (.look i) = s := by
        simp only [step, hi]
        split <;> simp
      rw [this]; exact .active s k hi hc he hl hk hp
    | leave i =>
      have : step s (.leave i) = s := by
        by_cases hik : i = k
        · subst hik; rcases hk with h | h <;> simp only [step, h]
        · rcases hp i hik with h | h <;> simp only [step, h]
      rw [this]; exact .active s k hi hc he hl hk hp
  | done k x hi hc he ho hl hp =>
    obtain ⟨a, b, hl, ha, hb⟩ := hl
    -- a thread other than `k` moves, or `k` which already has its result
    have other : ∀ (i : Nat) (p : Pc) (_ : i ≠ k) (_ : p = .outside ∨ p = .waiting ∨ p = .back none), Inv (s.at i p) := by
      intro i p hik hpp
      refine .done _ k x hi hc he ho ⟨a, b, hl, ha, ?_⟩ ?_
      · simp only [at_pc, if_neg (Ne.symm hik)]; exact hb
      · intro j hj
        by_cases hji : j = i
        · simp only [at_pc, if_pos hji]; exact hpp
        · simp only [at_pc, if_neg hji]; exact hp j hj
    cases e with
    | call i =>
      by_cases hik : i = k
      · subst hik
        rcases hb with ⟨hb, hk⟩ | ⟨hk | hk, c, hb, hcc⟩
        · simp only [step, hk]; exact .done s i x hi hc he ho ⟨a, b, hl, ha, Or.inl ⟨hb, hk⟩⟩ hp
        · simp only [step, hk, enter, hi]
          refine .done _ i x hi hc he ho ⟨a, b, hl, ha, Or.inr ⟨Or.inr (by simp [at_pc]), c, hb, hcc⟩⟩ ?_
          intro j hj; simp only [at_pc, hj, if_false]; exact hp j hj
        · simp only [step, hk]; exact .done s i x hi hc he ho ⟨a, b, hl, ha, Or.inr ⟨Or.inr hk, c, hb, hcc⟩⟩ hp
      · rcases hp i hik with h | h | h
        · simp only [step, h, enter, hi]; exact other i _ hik (Or.inr (Or.inr rfl))
        · simp only [step, h]; exact .done s k x hi hc he ho ⟨a, b, hl, ha, hb⟩ hp
        · simp only [step, h]; exact .done s k x hi hc he ho ⟨a, b, hl, ha, hb⟩ hp
    | ends i y =>
      have : step s (.ends i y) = s := by
        by_cases hik : i = k
        · subst hik; rcases hb with ⟨_, h⟩ | ⟨h | h, _⟩ <;> simp only [step, h]
        · rcases hp i hik with h | h | h <;> simp only [step, h]
      rw [this]; exact .done s k x hi hc he ho ⟨a, b, hl, ha, hb⟩ hp
    | look i =>
      by_cases hik : i = k
      · have : step s (.look i) = s := by subst hik; rcases hb with ⟨_, h⟩ | ⟨h | h, _⟩ <;> simp only [step, h]
        rw [this]; exact .done s k x hi hc he ho ⟨a, b, hl, ha, hb⟩ hp
      · rcases hp i hik with h | h | h
        · simp only [step, h]; exact .done s k x hi hc he ho ⟨a, b, hl, ha, hb⟩ hp
        · simp only [step, h, hi, if_true]; exact other i _ hik (Or.inr (Or.inr rfl))
        · simp only [step, h]; exact .done s k x hi hc he ho ⟨a, b, hl, ha, hb⟩ hp
    | leave i =>
      by_cases hik : i = k
      · subst hik
        rcases hb with ⟨hb, hk⟩ | ⟨hk | hk, c, hb, hcc⟩
        · simp only [step, hk]
          refine .done _ i x hi hc he ho ⟨a, [(i, due x true)], ?_, ha, Or.inr ⟨Or.inl (by simp [at_pc]), [], rfl, by simp⟩⟩ ?_
          · simp [hl, hb, ho, resultOf_own]
          · intro j hj; simp only [at_pc, hj, if_false]; exact hp j hj
        · simp only [step, hk]; exact .done s i x hi hc he ho ⟨a, b, hl, ha, Or.inr ⟨Or.inl hk, c, hb, hcc⟩⟩ hp
        · simp only [step, hk]
          refine .done _ i x hi hc he ho ⟨a, b ++ [(i, due x false)], ?_, ha, Or.inr ⟨Or.inl (by simp [at_pc]), c ++ [(i, due x false)], by simp [hb], ?_⟩⟩ ?_
          · simp [hl, ho, resultOf_none]
          · intro l hll; simp only [List.mem_append, List.mem_singleton] at hll
            rcases hll with h | h
            · exact hcc l h
            · rw [h]
          · intro j hj; simp only [at_pc, hj, if_false]; exact hp j hj
      · rcases hp i hik with h | h | h
        · simp only [step, h]; exact .done s k x hi hc he ho ⟨a, b, hl, ha, hb⟩ hp
        · simp only [step, h]; exact .done s k x hi hc he ho ⟨a, b, hl, ha, hb⟩ hp
        · simp only [step, h]
          have hpk : ∀ j, j ≠ k → (s.at i .outside).pc j = .outside ∨ (s.at i .outside).pc j = .waiting ∨ (s.at i .outside).pc j = .back none := by
            intro j hj
            by_cases hji : j = i
            · left; simp [at_pc, hji]
            · simp only [at_pc, if_neg hji]; exact hp j hj
          rcases hb with ⟨hb, hk⟩ | ⟨hk, c, hb, hcc⟩
          · refine .done _ k x hi hc he ho ⟨a ++ [(i, due x false)], [], ?_, ?_, Or.inl ⟨rfl, ?_⟩⟩ hpk
            · simp [hl, hb, ho, resultOf_none]
            · intro l hll; simp only [List.mem_append, List.mem_singleton] at hll
              rcases hll with h | h
              · exact ha l h
              · rw [h]; exact ⟨hik, rfl⟩
            · simp only [at_pc, if_neg (Ne.symm hik)]; exact hk
          · refine .done _ k x hi hc he ho ⟨a, b ++ [(i, due x false)], ?_, ha, Or.inr ⟨?_, c ++ [(i, due x false)], by simp [hb], ?_⟩⟩ hpk
            · simp [hl, ho, resultOf_none]
            · simp only [at_pc, if_neg (Ne.symm hik)]; exact hk
            · intro l hll; simp only [List.mem_append, List.mem_singleton] at hll
              rcases hll with h | h
              · exact hcc l h
              · rw [h]

theorem inv_from {s : St} (h : Inv s) (es : List Ev) : Inv (es.foldl step s) := by
  induction es generalizing s with
  | nil => exact h
  | cons e es ih => exact ih (inv_step h e)

theorem inv_run (es : List Ev) : Inv (run es) := inv_from inv_start es

/-! ### Theorems -/

/-- The function is called at most once, whatever the threads do. -/
theorem C118_once (es : List Ev) : (run es).calls ≤ 1 := by
  cases inv_run es with
  | init _ h => omega
  | active _ _ h => omega
  | done _ _ _ h => omega

/-- No call of threadOnce() ends before the function did. -/
theorem C118_after (es : List Ev) (h : (run es).log ≠ []) : ∃ x, (run es).ended = [x] := by
  cases inv_run es with
  | init _ _ _ hl => exact absurd hl h
  | active _ _ _ _ hl => exact absurd hl h
  | done _ x _ _ he => exact ⟨x, he⟩

/-- If the function returned, so did all calls. -/
theorem C118_ok (es : List Ev) (h : (run es).ended = [none]) : ∀ l ∈ (run es).log, l.2 = .returns := by
  cases inv_run es with
  | init _ _ he => rw [he] at h; cases h
  | active _ _ _ he => rw [he] at h; cases h
  | done k x _ _ he _ hl =>
    rw [he] at h
    cases h
    obtain ⟨a, b, hl, ha, hb⟩ := hl
    rw [hl]
    intro l hll
    simp only [List.mem_append] at hll
    rcases hll with h | h
    · exact (ha l h).2
    · rcases hb with ⟨rfl, _⟩ | ⟨_, c, rfl, hc⟩
      · cases h
      · simp only [List.mem_cons] at h
        rcases h with h | h
        · rw [h]; rfl
        · exact hc l h

/-- If it threw, one thread gets the exception, once; all other calls, before and after, and its own later ones, fail as well. -/
theorem C118_failed (es : List Ev) (x : Nat) (h : (run es).ended = [some x]) :
    ∃ k a c, ((run es).log = a ∨ (run es).log = a ++ (k, .rethrows x) :: c) ∧ (∀ l ∈ a, l.1 ≠ k ∧ l.2 = .previous) ∧ (∀ l ∈ c, l.2 = .previous) := by
  cases inv_run es with
  | init _ _ he => rw [he] at h; cases h
  | active _ _ _ he => rw [he] at h; cases h
  | done k y _ _ he _ hl =>
    rw [he] at h
    cases h
    obtain ⟨a, b, hl, ha, hb⟩ := hl
    rcases hb with ⟨rfl, _⟩ | ⟨_, c, rfl, hc⟩
    · exact ⟨k, a, [], Or.inl (by simpa using hl), ha, by simp⟩
    · exact ⟨k, a, c, Or.inr hl, ha, hc⟩

/-- three threads; the first runs the function, which throws 7; the second waits, the third comes later, the first tries again -/
def history : List Ev := [.call 1, .call 2, .look 2, .ends 1 (some 7), .call 3, .leave 3, .leave 1, .look 2, .call 1, .leave 1, .leave 2]

example : (run history).ended = [some 7] ∧ (run history).calls = 1 ∧
    (run history).log = [(3, .previous), (1, .rethrows 7), (1, .previous), (2, .previous)] := ⟨rfl, rfl, rfl⟩
example : (run [.call 1, .call 2, .ends 1 none, .look 2, .leave 2, .leave 1]).ended = [none] ∧
    (run [.call 1, .call 2, .ends 1 none, .look 2, .leave 2, .leave 1]).log = [(2, .returns), (1, .returns)] := ⟨rfl, rfl⟩

/-- Once the function has ended, each thread which is in threadOnce() gets out of it by itself. -/
theorem C118_progress (es : List Ev) (h : (run es).ended ≠ []) (i : Nat) (hi : (run es).pc i ≠ .outside) :
    ∃ r, (run (es ++ [.look i, .leave i])).log = (run es).log ++ [(i, r)] ∧ (run (es ++ [.look i, .leave i])).pc i = .outside := by
  have e1 : run (es ++ [.look i, .leave i]) = step (step (run es) (.look i)) (.leave i) := by simp [run]
  rw [e1]
  cases inv_run es with
  | init _ _ he => exact absurd he h
  | active _ _ _ he => exact absurd he h
  | done k x hid _ _ _ hl hp =>
    have : (∃ e, (run es).pc i = .back e) ∨ (run es).pc i = .waiting := by
      by_cases hik : i = k
      · subst hik
        obtain ⟨a, b, _, _, hb⟩ := hl
        rcases hb with ⟨_, h⟩ | ⟨h | h, _⟩
        · exact Or.inl ⟨_, h⟩
        · exact absurd h hi
        · exact Or.inl ⟨_, h⟩
      · rcases hp i hik with h | h | h
        · exact absurd h hi
        · exact Or.inr h
        · exact Or.inl ⟨_, h⟩
    rcases this with ⟨e, he⟩ | he
    · have : step (run es) (.look i) = run es := by simp only [step, he]
      rw [this]
      simp only [step, he]
      exact ⟨_, rfl, by simp [at_pc]⟩
    · have : step (run es) (.look i) = (run es).at i (.back none) := by simp only [step, he, hid, if_true]
      rw [this]
      have h2 : ((run es).at i (.back none)).pc i = .back none := by simp [at_pc]
      simp only [step, h2]
      exact ⟨_, rfl, by simp [at_pc]⟩

/-- A function which comes back to itself never ends, and neither does any call: the hypothesis of C118_progress is needed. -/
theorem C118_recursive (es es' : List Ev) (k : Nat) (hk : (run es).pc k = .inside) :
    (run (es ++ .call k :: es')).log = [] ∧ (run (es ++ .call k :: es')).ended = [] := by
  have e1 : run (es ++ .call k :: es') = es'.foldl step (step (run es) (.call k)) := by simp [run]
  rw [e1]
  have h0 : Inv (step (run es) (.call k)) := inv_step (inv_run es) _
  have h1 : (step (run es) (.call k)).pc k = .stopped ∧ (step (run es) (.call k)).id = .active k := by
    cases inv_run es with
    | init _ _ _ _ hp => rw [hp k] at hk; cases hk
    | active j hid _ _ _ hj hp =>
      have : k = j := by
        by_cases h : k = j
        · exact h
        · rcases hp k h with h | h <;> rw [h] at hk <;> cases hk
      subst this
      simp only [step, hk, enter, hid, if_true]
      exact ⟨by simp [at_pc], hid⟩
    | done j x _ _ _ _ hl hp =>
      exfalso
      by_cases h : k = j
      · subst h
        obtain ⟨a, b, _, _, hb⟩ := hl
        rcases hb with ⟨_, h⟩ | ⟨h | h, _⟩ <;> rw [h] at hk <;> cases hk
      · rcases hp k h with h | h | h <;> rw [h] at hk <;> cases hk
  generalize step (run es) (.call k) = s at h0 h1
  have key : ∀ (es' : List Ev) (s : St), Inv s → s.pc k = .stopped ∧ s.id = .active k →
      (es'.foldl step s).log = [] ∧ (es'.foldl step s).ended = [] := by
    intro es'
    induction es' with
    | nil =>
      intro s h0 h1
      cases h0 with
      | init hi => rw [hi] at h1; cases h1.2
      | active _ _ _ he hl => exact ⟨hl, he⟩
      | done _ _ hi => rw [hi] at h1; cases h1.2
    | cons e es' ih =>
      intro s h0 h1
      refine ih _ (inv_step h0 e) ?_
      obtain ⟨hp, hi⟩ := h1
      cases h0 with
      | init hi' => rw [hi'] at hi; cases hi
      | done _ _ hi' => rw [hi'] at hi; cases hi
      | active j hij _ _ _ hj hq =>
        have hjk : j = k := by rw [hij] at hi; injection hi
        subst hjk
        cases e with
        | call i =>
          by_cases hik : i = j
          · subst hik
            have : step s (.call i) = s := by simp only [step, hp]
            rw [this]; exact ⟨hp, hi⟩
          · rcases hq i hik with h | h
            · simp only [step, h, enter, hi, if_neg (Ne.symm hik)]
              exact ⟨by simp only [at_pc, if_neg (Ne.symm hik)]; exact hp, hi⟩
            · simp only [step, h]; exact ⟨hp, hi⟩
        | ends i x =>
          have : step s (.ends i x) = s := by
            by_cases hik : i = j
            · subst hik; simp only [step, hp]
            · rcases hq i hik with h | h <;> simp only [step, h]
          rw [this]; exact ⟨hp, hi⟩
        | look i =>
          have : step s (.look i) = s := by simp only [step, hi]; split <;> simp
          rw [this]; exact ⟨hp, hi⟩
        | leave i =>
          have : step s (.leave i) = s := by
            by_cases hik : i = j
            · subst hik; simp only [step, hp]
            · rcases hq i hik with h | h <;> simp only [step, h]
          rw [this]; exact ⟨hp, hi⟩
  exact key es' s h0 h1

example : (run [.call 1]).pc 1 = .inside := rfl

/-- The library does not get to see any of these failures: `threadOnce`, which it calls, is noexcept, and the first of them ends the process. -/
theorem C118_fatal (es : List Ev) : ((runT es).log.filter (fun l => aborts l.2)).length ≤ 1 := by
  have key : ∀ (es : List Ev) (s : St), (s.log.filter (fun l => aborts l.2)).length ≤ 1 →
      ((es.foldl (fun s e => if s.log.any (fun l => aborts l.2) then s else step s e) s).log.filter (fun l => aborts l.2)).length ≤ 1 := by
    intro es
    induction es with
    | nil => intro s h; exact h
    | cons e es ih =>
      intro s h
      refine ih _ ?_
      show (((if s.log.any (fun l => aborts l.2) then s else step s e)).log.filter (fun l => aborts l.2)).length ≤ 1
      by_cases ha : s.log.any (fun l => aborts l.2) = true
      · rw [if_pos ha]; exact h
      · rw [if_neg ha]
        have h0 : s.log.filter (fun l => aborts l.2) = [] := by
          rw [List.filter_eq_nil_iff]; intro l hl hx; exact ha (List.any_eq_true.2 ⟨l, hl, hx⟩)
        have h1 : (step s e).log = s.log ∨ ∃ l, (step s e).log = s.log ++ [l] := by
          cases e with
          | call i => left; simp only [step]; split <;> first | rfl | (simp only [enter]; split <;> first | rfl | (split <;> rfl))
          | ends i x => left; simp only [step]; split <;> rfl
          | look i => left; simp only [step]; split <;> first | rfl | (split <;> rfl)
          | leave i => simp only [step]; split <;> first | exact Or.inl rfl | exact Or.inr ⟨_, rfl⟩
        rcases h1 with h1 | ⟨l, h1⟩
        · rw [h1, h0]; simp
        · rw [h1, List.filter_append, h0, List.nil_append]
          simp only [List.filter_cons, List.filter_nil]
          split <;> simp
  exact key es {} (by simp)

example : (runT history).log = [(3, .previous)] := rfl

end Pvxs.Props.Once
