import Verif.Spec.InstCount
/-
C124: instanceSnapshot() has the number of objects of each class.
-/
namespace Pvxs.Props.InstCount
open Pvxs.InstCount Pvxs.Spec.InstCount

/-- the number of objects never is above 2^64 - 2; of every state on the way -/
def Few (taken : Bool) : St → List Op → Prop
  | s, [] => s.objects < 2 ^ 64 - 1
  | s, op :: ops => s.objects < 2 ^ 64 - 1 ∧ Few taken (step taken s op) ops

structure Inv (s : St) : Prop where
  cnt : s.cnt = s.objects + (if s.reg = true ∧ s.added = 0 then 1 else 0)
  one : s.first + s.added ≤ 1
  unreg : s.reg = false → s.added = 0
  reg : s.reg = true → s.first = 0

theorem inv_step {taken : Bool} {s : St} (h : Inv s) (op : Op) : Inv (step taken s op) := by
  obtain ⟨h1, h2, h3, h4⟩ := h
  unfold St.objects at h1
  cases op with
  | make =>
    show Inv (make s)
    unfold make
    split
    · rename_i h0
      have hr : s.reg = false := by
        cases hr : s.reg with
        | false => rfl
        | true =>
          rw [hr] at h1
          by_cases ha : s.added = 0
          · rw [if_pos ⟨rfl, ha⟩] at h1; omega
          · omega
      have ha := h3 hr
      refine ⟨?_, ?_, ?_, ?_⟩
      · show s.cnt + 1 = (s.first + 1 + s.added + s.live) + _
        rw [hr] at h1 ⊢
        simp at h1 ⊢
        omega
      · show s.first + 1 + s.added ≤ 1
        rw [hr] at h1
        simp at h1
        omega
      · exact h3
      · intro q
        rw [hr] at q
        cases q
    · refine ⟨?_, h2, h3, h4⟩
      show s.cnt + 1 = (s.first + s.added + (s.live + 1)) + (if s.reg = true ∧ s.added = 0 then 1 else 0)
      omega
  | add ok =>
    show Inv (add taken s ok)
    unfold add
    split
    · exact ⟨h1, h2, h3, h4⟩
    · rename_i hf
      have hr : s.reg = false := by
        cases hr : s.reg with
        | false => rfl
        | true => exact absurd (h4 hr) hf
      have ha := h3 hr
      split
      · refine ⟨?_, ?_, h3, ?_⟩
        · show s.cnt = (s.first - 1 + s.added + (s.live + 1)) + (if s.reg = true ∧ s.added = 0 then 1 else 0)
          omega
        · show s.first - 1 + s.added ≤ 1
          omega
        · intro q
          rw [hr] at q
          cases q
      · refine ⟨?_, ?_, ?_, ?_⟩
        · show s.cnt = (s.first - 1 + (s.added + 1) + s.live) + (if true = true ∧ s.added + 1 = 0 then 1 else 0)
          rw [if_neg (fun q => by omega)]
          rw [hr] at h1
          simp at h1
          omega
        · show s.first - 1 + (s.added + 1) ≤ 1
          omega
        · intro q; cases q
        · intro _
          show s.first - 1 = 0
          omega
  | bias =>
    show Inv (bias s)
    unfold bias
    split
    · exact ⟨h1, h2, h3, h4⟩
    · rename_i ha
      have hr : s.reg = true := by
        cases hr : s.reg with
        | true => rfl
        | false => exact absurd (h3 hr) ha
      refine ⟨?_, ?_, ?_, h4⟩
      · show s.cnt + 1 = (s.first + (s.added - 1) + (s.live + 1)) + (if s.reg = true ∧ s.added - 1 = 0 then 1 else 0)
        rw [if_pos ⟨hr, (by omega)⟩]
        rw [if_neg (fun q => ha q.2)] at h1
        omega
      · show s.first + (s.added - 1) ≤ 1
        omega
      · intro q
        have := h3 q
        show s.added - 1 = 0
        omega
  | destroy =>
    show Inv (destroy s)
    unfold destroy
    split
    · exact ⟨h1, h2, h3, h4⟩
    · refine ⟨?_, h2, h3, h4⟩
      show s.cnt - 1 = (s.first + s.added + (s.live - 1)) + (if s.reg = true ∧ s.added = 0 then 1 else 0)
      omega
  | snapshot => exact ⟨h1, h2, h3, h4⟩

theorem inv_run (taken : Bool) (ops : List Op) : ∀ {s : St}, Inv s → Inv (run taken s ops) := by
  induction ops with
  | nil => intro s h; exact h
  | cons op ops ih => intro s h; exact ih (inv_step h op)

theorem inv (taken : Bool) (ops : List Op) : Inv (run taken {} ops) := inv_run taken ops (by refine ⟨?_, ?_, ?_, ?_⟩ <;> simp [St.objects])

theorem wrap {n : Nat} (h : n + 1 < 2 ^ 64) : (n + 1 + (2 ^ 64 - 1)) % 2 ^ 64 = n := by omega

theorem answer_close {s : St} (h : Inv s) (hf : s.objects < 2 ^ 64 - 1) {v : Nat} (hv : answer s = some v) :
    (s.added = 0 → v = s.objects) ∧ (v = s.objects ∨ v + 1 = s.objects) := by
  obtain ⟨h1, h2, h3, h4⟩ := h
  unfold answer at hv
  split at hv
  · rename_i hr
    injection hv with hv
    by_cases ha : s.added = 0
    · rw [if_pos ⟨hr, ha⟩] at h1
      rw [h1] at hv
      rw [wrap (by omega)] at hv
      exact ⟨fun _ => hv.symm, Or.inl hv.symm⟩
    · rw [if_neg (fun q => ha q.2)] at h1
      have hp : 0 < s.objects := by unfold St.objects; omega
      have : s.cnt = (s.objects - 1) + 1 := by omega
      rw [this, wrap (by omega)] at hv
      exact ⟨fun q => absurd q ha, Or.inr (by omega)⟩
  · cases hv

/-- C124: whatever threads make and destroy objects, each answer is the number of objects or one less; there is no wrapping around. -/
theorem C124_close (taken : Bool) (ops : List Op) (hf : Few taken {} ops) : Close (run taken {} ops).log := by
  have key : ∀ (ops : List Op) (s : St), Inv s → Few taken s ops → Close s.log → Close (run taken s ops).log := by
    intro ops
    induction ops with
    | nil => intro s _ _ h; exact h
    | cons op ops ih =>
      intro s h hf hc
      refine ih (step taken s op) (inv_step h op) hf.2 ?_
      cases op with
      | snapshot =>
        intro v n hm
        have hm' : (some v, n) ∈ s.log ++ [(answer s, s.objects)] := hm
        rw [List.mem_append, List.mem_singleton] at hm'
        rcases hm' with hm' | hm'
        · exact hc v n hm'
        · injection hm' with e1 e2
          rw [e2]
          exact (answer_close h hf.1 e1.symm).2
      | make => simp only [step, make]; split <;> exact hc
      | add ok => simp only [step, add]; split <;> first | exact hc | (split <;> exact hc)
      | bias => simp only [step, bias]; split <;> exact hc
      | destroy => simp only [step, destroy]; split <;> exact hc
  exact key ops {} (inv false []) hf (by intro v n h; simp at h)

/-- C124, part: once no constructor is within registerICount(), the answer is the number of objects, if there is one. -/
theorem C124_exact_partial (taken : Bool) (ops : List Op) (hq : (run taken {} ops).added = 0) (hn : (run taken {} ops).objects < 2 ^ 64 - 1) (v : Nat)
    (hv : answer (run taken {} ops) = some v) : v = (run taken {} ops).objects :=
  (answer_close (inv taken ops) hn hv).1 hq

/-- C124: only one thread ever is in registerICount() for a class. -/
theorem C124_alone (taken : Bool) (ops : List Op) : (run taken {} ops).first + (run taken {} ops).added ≤ 1 := (inv taken ops).one

/-- C124, part: when the name is not used by another class, there is memory, and no constructor is on the way to registerICount(), a class which has objects has
an answer. -/
theorem C124_listed_partial (ops : List Op) (hm : .add false ∉ ops) (hq : (run false {} ops).first = 0) (hl : 0 < (run false {} ops).objects) :
    (answer (run false {} ops)).isSome = true := by
  have key : ∀ (ops : List Op) (s : St), Inv s → .add false ∉ ops → (s.reg = false → s.live = 0 ∨ 0 < s.first) → ((run false s ops).reg = false → (run false s ops).live = 0 ∨ 0 < (run false s ops).first) := by
    intro ops
    induction ops with
    | nil => intro s _ _ h; exact h
    | cons op ops ih =>
      intro s hi hm h
      rw [List.mem_cons, not_or] at hm
      refine ih (step false s op) (inv_step hi op) hm.2 ?_
      have h1 := hi.cnt
      have h3 := hi.unreg
      unfold St.objects at h1
      cases op with
      | make =>
        simp only [step, make]
        split
        · intro _; right; exact Nat.succ_pos _
        · intro q
          have hr : s.reg = false := q
          right
          show 0 < s.first
          have := h3 hr
          rw [hr] at h1
          simp at h1
          rcases h hr with a | a <;> omega
      | add ok =>
        cases ok with
        | false => exact absurd rfl hm.1
        | true =>
          simp only [step, add]
          split
          · exact h
          · rename_i hf
            have hr : s.reg = false := by
              cases hr : s.reg with
              | false => rfl
              | true => exact absurd (hi.reg hr) hf
            rw [hr]
            simp
      | bias =>
        simp only [step, bias]
        split
        · exact h
        · rename_i ha
          intro q
          exact absurd (h3 q) ha
      | destroy =>
        simp only [step, destroy]
        split
        · exact h
        · intro q
          rcases h q with a | a
          · left
            show s.live - 1 = 0
            omega
          · exact Or.inr a
      | snapshot => exact h
  have h := key ops {} (inv false []) hm (fun _ => Or.inl rfl)
  unfold answer
  cases hr : (run false {} ops).reg with
  | true => simp
  | false =>
    exfalso
    have ha := (inv false ops).unreg hr
    unfold St.objects at hl
    rcases h hr with a | a <;> omega

/-- C124: what was listed stays listed. -/
theorem C124_stays (taken : Bool) (ops more : List Op) (h : (answer (run taken {} ops)).isSome = true) : (answer (run taken {} (ops ++ more))).isSome = true := by
  have e : run taken {} (ops ++ more) = run taken (run taken {} ops) more := by simp [run]
  rw [e]
  have key : ∀ (ops : List Op) (s : St), s.reg = true → (run taken s ops).reg = true := by
    intro ops
    induction ops with
    | nil => intro s h; exact h
    | cons op ops ih =>
      intro s h
      refine ih (step taken s op) ?_
      cases op with
      | make => simp only [step, make]; split <;> exact h
      | add ok => simp only [step, add]; split <;> first | exact h | (split <;> first | exact h | rfl)
      | bias => simp only [step, bias]; split <;> exact h
      | destroy => simp only [step, destroy]; split <;> exact h
      | snapshot => exact h
  have hr : (run taken {} ops).reg = true := by
    unfold answer at h
    split at h
    · assumption
    · simp at h
  unfold answer
  rw [key more _ hr]
  rfl

/-- C124: of two classes with one name, only the one which came first is counted. -/
theorem C124_taken (ops : List Op) : answer (run true {} ops) = none := by
  have key : ∀ (ops : List Op) (s : St), s.reg = false → (run true s ops).reg = false := by
    intro ops
    induction ops with
    | nil => intro s h; exact h
    | cons op ops ih =>
      intro s h
      refine ih (step true s op) ?_
      cases op with
      | make => simp only [step, make]; split <;> exact h
      | add ok =>
        simp only [step, add]
        split
        · exact h
        · rw [if_pos (Or.inr (Or.inl trivial))]; exact h
      | bias => simp only [step, bias]; split <;> exact h
      | destroy => simp only [step, destroy]; split <;> exact h
      | snapshot => exact h
  unfold answer
  rw [key ops {} rfl]
  rfl

/-- the code: an answer between `counters.emplace()` and `Cnt++` is one too low -/
theorem C124_exact_false : Few false {} [.make, .add true, .snapshot] ∧ ¬ Exact (run false {} [.make, .add true, .snapshot]).log := by
  refine ⟨by simp [Few, step, make, add, St.objects], ?_⟩
  intro h
  have := h 0 1 (by decide)
  cases this

/-- three objects, one of them destroyed, seen by two snapshots; the first while another thread is about to enter registerICount() -/
example : (run false {} [.make, .make, .snapshot, .add true, .bias, .make, .destroy, .snapshot]).log = [(none, 2), (some 2, 2)] := by decide

example : Few false {} [.make, .make, .snapshot, .add true, .bias, .make, .destroy, .snapshot] := by
  simp [Few, step, make, add, bias, destroy, St.objects]

example : Op.add false ∉ [Op.make, .add true] ∧ (run false {} [.make, .add true]).first = 0 ∧ 0 < (run false {} [.make, .add true]).objects := by decide

/-- without memory the class is listed when objects are made again after the last one was destroyed -/
example : (run false {} [.make, .add false, .make, .destroy, .destroy, .make, .add true, .bias, .snapshot]).log = [(some 1, 1)] := by decide

end Pvxs.Props.InstCount
