import Verif.Spec.TestCase
/-
C113: each check of a test program is reported once, with its result.
-/
namespace Pvxs.Props.TestCase
open Pvxs Pvxs.TestCase Pvxs.Spec.TestCase

/-! ### lines -/

theorem getlines_nil (cur m : Str) : getlines cur m = [] ↔ cur = [] ∧ m = [] := by
  induction m generalizing cur with
  | nil => by_cases h : cur = [] <;> simp [getlines, h]
  | cons x m ih =>
    unfold getlines
    split
    · simp
    · rw [ih]; simp

theorem getlines_join (cur m : Str) :
    (getlines cur m).flatMap (· ++ [0x0a]) = cur ++ m ∨ (getlines cur m).flatMap (· ++ [0x0a]) = cur ++ m ++ [0x0a] := by
  induction m generalizing cur with
  | nil => by_cases h : cur = [] <;> simp [getlines, h]
  | cons x m ih =>
    unfold getlines
    split
    · rename_i hx
      subst hx
      rcases ih [] with h | h <;> simp [h]
    · rcases ih (cur ++ [x]) with h | h <;> simp [h]

theorem getlines_one (cur m : Str) (hc : (0x0a : UInt8) ∉ cur) : ∀ l ∈ getlines cur m, (0x0a : UInt8) ∉ l := by
  induction m generalizing cur with
  | nil => by_cases h : cur = [] <;> simp [getlines, h, hc]
  | cons x m ih =>
    unfold getlines
    split
    · intro l hl
      simp only [List.mem_cons] at hl
      rcases hl with rfl | hl
      · exact hc
      · exact ih [] (by simp) l hl
    · rename_i hx
      exact ih (cur ++ [x]) (by simp [hc]; exact fun h => hx h.symm)

/-- Each line of the message is reported once, in order. -/
theorem C113_text (c : Case) (h : c.res ≠ .nothing) : c.close.map textOf = getlines [] c.msg ∧
    (∀ l ∈ c.close.map textOf, (0x0a : UInt8) ∉ l) ∧
    ((c.close.map textOf).flatMap (· ++ [0x0a]) = c.msg ∨ (c.close.map textOf).flatMap (· ++ [0x0a]) = c.msg ++ [0x0a]) := by
  have key : ∀ (r : Res) (ls : List Str), (report r ls).map textOf = ls := by
    intro r ls
    induction ls generalizing r with
    | nil => cases r <;> rfl
    | cons l ls ih => cases r <;> simp [report, textOf, ih]
  have h1 : c.close.map textOf = getlines [] c.msg := by simp [Case.close, h, key]
  rw [h1]
  exact ⟨rfl, getlines_one [] c.msg (by simp), by simpa using getlines_join [] c.msg⟩

theorem report_diag (ls : List Str) : verdicts (report .diag ls) = [] := by
  induction ls with
  | nil => rfl
  | cons l ls ih => simpa [report, verdicts] using ih

/-- A check with a message is reported by one test line, with its result, however many lines the message has. -/
theorem C113_once (c : Case) (hm : c.msg ≠ []) : verdicts c.close =
    match c.res with | .pass => [true] | .fail => [false] | _ => [] := by
  have h1 : getlines [] c.msg ≠ [] := by rw [Ne, getlines_nil]; simpa using hm
  obtain ⟨l, ls, hl⟩ : ∃ l ls, getlines [] c.msg = l :: ls := by
    cases h : getlines [] c.msg with
    | nil => exact absurd h h1
    | cons l ls => exact ⟨l, ls, rfl⟩
  unfold Case.close
  rw [hl]
  cases h : c.res <;> simp [report, verdicts, report_diag]

/-- One without a message is not reported at all, pass or fail. -/
theorem C113_silent (c : Case) (hm : c.msg = []) : c.close = [] := by
  unfold Case.close
  rw [hm]
  split
  · rfl
  · cases c.res <;> rfl

theorem tests_append (a b : List Line) : tests (a ++ b) = tests a + tests b := by
  induction a with
  | nil => simp [tests]
  | cons x a ih => cases x <;> simp [tests, ih] <;> omega

theorem tests_verdicts (a : List Line) : tests a = (verdicts a).length := by
  induction a with
  | nil => rfl
  | cons x a ih => cases x <;> simp [tests, verdicts, ih] <;> omega

/-! ### all histories -/

def one (o : Option Case) : Nat := match o with | some c => if Pending c then 1 else 0 | none => 0

theorem pending_succ (s : St) (n : Nat) : pending s (n + 1) = pending s n + one (s.live n) := rfl

theorem pending_set (s : St) (i : Nat) (c : Option Case) (n : Nat) :
    pending (s.set i c) n + (if i < n then one (s.live i) else 0) = pending s n + (if i < n then one c else 0) := by
  induction n with
  | zero => simp [pending]
  | succ n ih =>
    rw [pending_succ, pending_succ]
    by_cases h : n = i
    · subst h
      simp [St.set] at ih ⊢
      omega
    · have h1 : (s.set i c).live n = s.live n := by simp [St.set, h]
      rw [h1]
      by_cases h2 : i < n
      · simp [h2, show i < n + 1 by omega] at ih ⊢; omega
      · simp [h2, show ¬ i < n + 1 by omega] at ih ⊢; omega

theorem pending_out (s : St) (o : List Line) (n : Nat) : pending { s with out := o } n = pending s n := by
  induction n with
  | zero => rfl
  | succ n ih => rw [pending_succ, pending_succ, ih]

theorem set_live (s : St) (i : Nat) (c : Option Case) (j : Nat) : (s.set i c).live j = if j = i then c else s.live j := rfl

theorem close_tests (c : Case) : tests c.close + (if Pending c ∧ c.msg = [] then 1 else 0) = one (some c) := by
  by_cases hm : c.msg = []
  · rw [C113_silent c hm]; simp [tests, one, hm]
  · rw [tests_verdicts, C113_once c hm]
    cases h : c.res <;> simp [one, Pending, h, hm]

theorem step_count (s : St) (op : Op) (n : Nat) (h : ∀ i ∈ ids op, i < n) :
    tests (step s op).out + pending (step s op) n + drops s op = tests s.out + pending s n + begins s op := by
  cases op with
  | blank i =>
    have hi : i < n := h i (by simp [ids])
    simp only [step, drops, begins]
    split
    · rename_i hl
      have := pending_set s i (some blank) n
      simp [hi, hl, one, blank, Pending] at this
      simp [St.set] at this ⊢
      simp only [blank]
      omega
    · rfl
  | make i b =>
    have hi : i < n := h i (by simp [ids])
    simp only [step, drops, begins]
    split
    · rename_i hl
      have := pending_set s i (some (make b)) n
      have e : one (some (make b)) = 1 := by cases b <;> rfl
      simp only [hi, hl, if_true, e] at this
      simp only [one] at this
      show tests s.out + _ + _ = _
      omega
    · rfl
  | setPass i b =>
    have hi : i < n := h i (by simp [ids])
    simp only [step, drops, begins]
    cases hl : s.live i with
    | none => rfl
    | some c =>
      have := pending_set s i (some (c.setPass b)) n
      have e : one (some (c.setPass b)) = 1 := by cases b <;> rfl
      simp only [hi, hl, if_true, e] at this
      simp only [one] at this
      show tests s.out + _ + _ = _
      simp only
      split at this <;> rename_i hp <;> simp [hp] <;> omega
  | put i t =>
    have hi : i < n := h i (by simp [ids])
    simp only [step, drops, begins]
    cases hl : s.live i with
    | none => rfl
    | some c =>
      have := pending_set s i (some (c.put t)) n
      have e : one (some (c.put t)) = one (some c) := rfl
      simp only [hi, hl, if_true, e] at this
      simp only
      show tests s.out + _ + _ = _
      omega
  | move a b =>
    have ha : a < n := h a (by simp [ids])
    have hb : b < n := h b (by simp [ids])
    simp only [step, drops, begins]
    cases hl : s.live a with
    | none => rfl
    | some c =>
      cases hr : s.live b with
      | some d => rfl
      | none =>
        have hab : b ≠ a := by intro e; rw [e, hl] at hr; cases hr
        have h1 := pending_set s a (some moved) n
        have h2 := pending_set (s.set a (some moved)) b (some c) n
        have e : one (some moved) = 0 := rfl
        have e0 : one none = 0 := rfl
        simp only [ha, hb, hl, if_true, e, set_live, hab, if_false, hr, e0] at h1 h2
        simp only
        show tests s.out + _ + _ = _
        omega
  | assign a b =>
    have ha : a < n := h a (by simp [ids])
    have hb : b < n := h b (by simp [ids])
    simp only [step, drops, begins]
    cases hl : s.live a with
    | none => rfl
    | some c =>
      cases hr : s.live b with
      | none => rfl
      | some d =>
        simp only
        by_cases hab : a = b
        · simp [hab]
        · have hba : b ≠ a := fun e => hab e.symm
          have h1 := pending_set s a (some moved) n
          have h2 := pending_set (s.set a (some moved)) b (some c) n
          have e : one (some moved) = 0 := rfl
          simp only [ha, hb, hl, if_true, e, set_live, hba, if_false, hr] at h1 h2
          simp only [hab, if_false, ne_eq, not_false_eq_true, true_and]
          show tests s.out + _ + _ = _
          have e2 : one (some d) = if Pending d = true then 1 else 0 := rfl
          rw [e2] at h2
          omega
  | destroy i =>
    have hi : i < n := h i (by simp [ids])
    simp only [step, drops, begins]
    cases hl : s.live i with
    | none => rfl
    | some c =>
      have h1 := pending_set s i none n
      have h2 := close_tests c
      have e0 : one none = 0 := rfl
      simp only [hi, hl, if_true, e0] at h1
      simp only [tests_append, pending_out]
      omega

/-- In every history, whatever is moved where: of the checks which were begun, each has been reported once, or is pending, or was dropped. -/
theorem C113_count (ops : List Op) (n : Nat) (h : ∀ op ∈ ops, ∀ i ∈ ids op, i < n) :
    tests (run ops).out + pending (run ops) n + total drops {} ops = total begins {} ops := by
  have key : ∀ (ops : List Op) (s : St), (∀ op ∈ ops, ∀ i ∈ ids op, i < n) →
      tests (ops.foldl step s).out + pending (ops.foldl step s) n + total drops s ops = tests s.out + pending s n + total begins s ops := by
    intro ops
    induction ops with
    | nil => intro s _; simp [total]
    | cons op ops ih =>
      intro s h
      have h1 := ih (step s op) fun o ho => h o (by simp [ho])
      have h2 := step_count s op n (h op (by simp))
      simp only [List.foldl_cons, total]
      omega
  have h0 : ∀ m, pending {} m = 0 := by
    intro m
    induction m with
    | zero => rfl
    | succ m ih => rw [pending_succ, ih]; rfl
  have := key ops {} h
  rw [h0] at this
  simpa [tests, run] using this

theorem pending_none (s : St) (h : ∀ i, s.live i = none) (n : Nat) : pending s n = 0 := by
  induction n with
  | zero => rfl
  | succ n ih => rw [pending_succ, ih, h]; rfl

theorem mem_le_sum (i : Nat) (xs : List Nat) (h : i ∈ xs) : i ≤ xs.sum := by
  induction xs with
  | nil => simp at h
  | cons x xs ih =>
    simp only [List.mem_cons] at h
    rw [List.sum_cons]
    rcases h with rfl | h
    · omega
    · have := ih h; omega

theorem ids_bound (l : List Op) : ∃ n, ∀ op ∈ l, ∀ i ∈ ids op, i < n := by
  induction l with
  | nil => exact ⟨0, by simp⟩
  | cons o l ih =>
    obtain ⟨n, hn⟩ := ih
    refine ⟨n + (ids o).sum + 1, ?_⟩
    intro p hp i hi
    simp only [List.mem_cons] at hp
    rcases hp with rfl | hp
    · have := mem_le_sum i _ hi; omega
    · have := hn p hp i hi; omega

/-- When nothing is dropped, and all objects have gone, the number of tests reported is that of the checks which were begun. -/
theorem C113_all_partial (ops : List Op) (hd : total drops {} ops = 0) (hg : ∀ i, (run ops).live i = none) : tests (run ops).out = total begins {} ops := by
  obtain ⟨n, hn⟩ := ids_bound ops
  have := C113_count ops n hn
  rw [hd, pending_none _ hg] at this
  simpa using this

/-- A check which is false, destroyed without a message, is not reported. -/
theorem C113_lost_silent : tests (run [.make 0 false, .destroy 0]).out = 0 ∧ total begins {} [.make 0 false, .destroy 0] = 1 := by decide +kernel

/-- A failed check over which another is assigned is not reported: only the one which passes is. -/
theorem C113_lost_assigned : verdicts (run [.make 0 false, .put 0 [0x61], .make 1 true, .put 1 [0x62], .assign 1 0, .destroy 1, .destroy 0]).out = [true] := by
  decide +kernel

/-! ### comparisons -/

/-- testEq() and testNotEq() report one test, which passes if and only if the values are equal, or different. -/
theorem C113_eq [DecidableEq α] (pr : α → Str) (eq : Bool) (l : Str) (x : α) (r : Str) (y : α) (more : Str) :
    verdicts ((testEq pr eq l x r y).put more).close = [decide ((x = y) ↔ eq = true)] := by
  rw [C113_once]
  · by_cases h : x = y <;> cases eq <;> simp [testEq, Case.put, make, h]
  · simp [testEq, Case.put]

/-- testArrEq() passes if and only if the arrays are equal. -/
theorem C113_arr [DecidableEq α] (x y : List α) : arrEq x y = decide (x = y) := by
  induction x generalizing y with
  | nil => cases y <;> simp [arrEq, arrLoop]
  | cons a x ih =>
    cases y with
    | nil => simp [arrEq]
    | cons b y =>
      have := ih y
      simp only [arrEq] at this ⊢
      by_cases hab : a = b
      · simp [arrLoop, hab] at this ⊢; exact this
      · simp [arrLoop, hab]

/-- testStrEq() passes if and only if both texts are the same, or both NULL; testStrNotEq() if and only if not. -/
theorem C113_str (op : Bool) (l r : Option Str) : strTest op l r = decide ((l = r) ↔ op = true) := by
  cases l <;> cases r <;> cases op <;> simp [strTest]

/-- testThrows() and testThrowsMatch() report one test, which passes if and only if what was expected is thrown and matches, as long as nothing is thrown
which is not a std::exception, and regexec() does not fail. -/
theorem C113_throws_partial (matching : Bool) (t more : Str) (e : End) (h1 : e ≠ .alien) (h2 : matching = true → e ≠ .expected .failed) :
    (throws matching t e).2 = false ∧
    verdicts ((throws matching t e).1.put more).close = [asExpected matching e] := by
  have hm : ((throws matching t e).1.put more).msg ≠ [] := by
    cases e <;> simp [throws, Case.put] at h1 ⊢
  rw [C113_once _ hm]
  cases e with
  | returns => simp [throws, make, Case.put, asExpected]
  | other => simp [throws, make, Case.put, asExpected]
  | alien => exact absurd rfl h1
  | expected m => cases matching <;> cases m <;> simp [throws, make, Case.put, Case.setPass, Match.pass, asExpected] at h2 ⊢

/-- What is not a std::exception leaves, and the check is not reported. -/
theorem C113_alien (matching : Bool) (t : Str) : (throws matching t .alien).2 = true ∧ (throws matching t .alien).1.close = [] ∧
    Pending (throws matching t .alien).1 = true := ⟨rfl, C113_silent _ rfl, rfl⟩

/-- When regexec() fails the check passes. -/
theorem C113_regex (t : Str) : verdicts (throws true t (.expected .failed)).1.close = [true] := by
  rw [C113_once _ (by simp [throws, Case.put])]
  rfl

/-! ### the hypotheses are met -/

/-- three checks, one moved twice; the second fails -/
def sample : List Op := [.make 0 true, .put 0 [0x61, 0x0a, 0x62], .move 0 1, .make 2 true, .setPass 2 false, .put 2 [0x63], .blank 3, .put 3 [0x64], .move 1 4,
  .destroy 0, .destroy 1, .destroy 4, .setPass 3 true, .destroy 3, .destroy 2]

example : total drops {} sample = 0 ∧ total begins {} sample = 3 ∧
    (run sample).out = [.ok true [0x61], .diag [0x62], .ok true [0x64], .ok false [0x63]] := by decide +kernel

example : ∀ i, (run sample).live i = none := by
  intro i
  rcases Nat.lt_or_ge i 5 with h | h
  · have : i = 0 ∨ i = 1 ∨ i = 2 ∨ i = 3 ∨ i = 4 := by omega
    rcases this with rfl | rfl | rfl | rfl | rfl <;> decide +kernel
  · have : ∀ j, j < 5 → i ≠ j := by intro j hj; omega
    simp [run, sample, step, St.set, this]

end Pvxs.Props.TestCase
