import Verif.Spec.Fetch
import Verif.Lemmas.WorkQueue
/-
What holds at all times of pvxget, pvxinfo and pvxlist.
-/
namespace Pvxs.Lemmas.Fetch
open Pvxs Pvxs.Fetch Pvxs.Spec.Fetch

/-- whether an answer is counted -/
def counts : Prog → Option Bool → Bool
  | .get, o => o == some true
  | _, o => o.isSome

/-- what is printed of an answer -/
def shown : Prog → Bool → Option Shown
  | .get, true => some .value
  | .get, false => some .name
  | .info, true => some .value
  | .info, false => some .error
  | .list, true => some .value
  | .list, false => none

theorem answer_append (a b : List Ev) (i : Nat) : answer (a ++ b) i = (answer a i).or (answer b i) := by
  simp [answer, List.findSome?_append]

theorem answer_result (i j : Nat) (ok : Bool) : answer [.result i ok] j = if i = j then some ok else none := by
  simp only [answer, List.findSome?_cons, List.findSome?_nil]
  split <;> simp_all

theorem answer_stays {a : List Ev} {i : Nat} (b : List Ev) (h : (answer a i).isSome) : answer (a ++ b) i = answer a i := by
  rw [answer_append]
  cases ha : answer a i with
  | none => rw [ha] at h; cases h
  | some x => rfl

theorem run_append (p : Prog) (n : Nat) (a : List Ev) (e : Ev) : run p n (a ++ [e]) = step p n (run p n a) e := by
  simp [run, List.foldl_append]

theorem rev_ind {P : List Ev → Prop} (h0 : P []) (hs : ∀ l e, P l → P (l ++ [e])) (l : List Ev) : P l := by
  have : ∀ l a, P a → P (a ++ l) := by
    intro l
    induction l with
    | nil => intro a h; simpa using h
    | cons e l ih => intro a h; have := ih (a ++ [e]) (hs a e h); simpa using this
  simpa using this l [] h0

structure Inv (p : Prog) (n : Nat) (es : List Ev) (m : Main) : Prop where
  nd : m.answered.Nodup
  lt : ∀ i ∈ m.answered, i < n
  ex : ∀ i ∈ m.answered, (answer es i).isSome
  live : exited m = false → ∀ i, i < n → (answer es i).isSome → i ∈ m.answered
  out : ∀ i w, (i, w) ∈ m.out ↔ i ∈ m.answered ∧ ((answer es i).bind (shown p)) = some w
  outnd : (m.out.map (·.1)).Nodup
  rem : m.remaining = (n : Int) - ((m.answered.filter fun i => counts p (answer es i)).length : Int)
  done : m.done = true → Ev.interrupt ∈ es ∨ (m.remaining ≤ 0 ∧ 0 < n)
  full : m.remaining = 0 → 0 < n → m.done = true
  wk : exited m = false → Ev.interrupt ∈ es → m.done = true
  signalled : m.phase = .waited true → m.done = true

theorem filter_stays {p : Prog} {l : List Nat} {es : List Ev} (b : List Ev) (h : ∀ i ∈ l, (answer es i).isSome) :
    l.filter (fun i => counts p (answer (es ++ b) i)) = l.filter fun i => counts p (answer es i) := by
  apply List.filter_congr
  intro i hi
  rw [answer_stays b (h i hi)]

theorem answer_other (e : Ev) (h : ∀ i ok, e ≠ .result i ok) (i : Nat) : answer [e] i = none := by
  cases e with
  | result j ok => exact absurd rfl (h j ok)
  | _ => rfl

/-- an event which is no result, or comes too late, leaves what was answered as it is -/
theorem inv_quiet {p : Prog} {n : Nat} {es : List Ev} {m m' : Main} {e : Ev} (H : Inv p n es m)
    (hq : exited m' = false → ∀ i, i < n → (answer [e] i).isSome → i ∈ m.answered)
    (ha : m'.answered = m.answered) (ho : m'.out = m.out) (hr : m'.remaining = m.remaining)
    (hx : exited m' = false → exited m = false)
    (hd : m'.done = true → m.done = true ∨ e = .interrupt) (hd' : m.done = true → m'.done = true)
    (hw : exited m' = false → e = .interrupt → m'.done = true)
    (hs : m'.phase = .waited true → m.phase = .waited true ∨ m'.done = true) : Inv p n (es ++ [e]) m' := by
  refine ⟨by rw [ha]; exact H.nd, by rw [ha]; exact H.lt, ?_, ?_, ?_, by rw [ho]; exact H.outnd, ?_, ?_, ?_, ?_, ?_⟩
  · rw [ha]; intro i hi; rw [answer_stays [e] (H.ex i hi)]; exact H.ex i hi
  · intro h i hi hs
    rw [ha]
    rw [answer_append] at hs
    cases h1 : answer es i with
    | none => rw [h1] at hs; exact hq h i hi (by simpa using hs)
    | some x => exact H.live (hx h) i hi (by rw [h1]; rfl)
  · intro i w
    rw [ho, ha, H.out i w]
    constructor
    · rintro ⟨h1, h2⟩; exact ⟨h1, by rw [answer_stays [e] (H.ex i h1)]; exact h2⟩
    · rintro ⟨h1, h2⟩; exact ⟨h1, by rw [answer_stays [e] (H.ex i h1)] at h2; exact h2⟩
  · rw [hr, ha, filter_stays [e] H.ex]; exact H.rem
  · intro h
    rw [hr]
    rcases hd h with h | h
    · rcases H.done h with h | h
      · exact .inl (by simp [h])
      · exact .inr h
    · exact .inl (by simp [h])
  · rw [hr]; intro h1 h2; exact hd' (H.full h1 h2)
  · intro h1 h2
    rcases List.mem_append.1 h2 with h2 | h2
    · exact hd' (H.wk (hx h1) h2)
    · exact hw h1 (List.mem_singleton.1 h2).symm
  · intro h
    rcases hs h with h | h
    · exact hd' (H.signalled h)
    · exact h

theorem count_le {p : Prog} {n : Nat} {es : List Ev} {m : Main} (H : Inv p n es m) : 0 ≤ m.remaining := by
  have h1 := WorkQueue.pigeon n m.answered H.lt (fun i => List.nodup_iff_count.1 H.nd i)
  have h2 := List.length_filter_le (fun i => counts p (answer es i)) m.answered
  have := H.rem
  omega

theorem all_of_zero {p : Prog} {n : Nat} {es : List Ev} {m : Main} (H : Inv p n es m) (h : m.remaining = 0) :
    ∀ i, i < n → i ∈ m.answered ∧ counts p (answer es i) = true := by
  intro i hi
  have hr := H.rem
  have hnd : (m.answered.filter fun i => counts p (answer es i)).Nodup := H.nd.filter _
  have hlt : ∀ j ∈ m.answered.filter (fun i => counts p (answer es i)), j < n := fun j hj => H.lt j (List.mem_filter.1 hj).1
  by_cases hm : i ∈ m.answered.filter (fun i => counts p (answer es i))
  · exact List.mem_filter.1 hm
  · exfalso
    have := WorkQueue.pigeon n (i :: m.answered.filter fun i => counts p (answer es i))
      (by intro j hj; rcases List.mem_cons.1 hj with rfl | hj
          · exact hi
          · exact hlt j hj)
      (fun j => List.nodup_iff_count.1 (List.nodup_cons.2 ⟨hm, hnd⟩) j)
    simp only [List.length_cons] at this
    omega

theorem zero_of_all {p : Prog} {n : Nat} {es : List Ev} {m : Main} (H : Inv p n es m)
    (h : ∀ i, i < n → i ∈ m.answered ∧ counts p (answer es i) = true) : m.remaining = 0 := by
  have h0 := count_le H
  have hr := H.rem
  have h1 : n ≤ (m.answered.filter fun i => counts p (answer es i)).length := by
    have := (List.nodup_range (n := n)).length_le_of_subset (l₂ := m.answered.filter fun i => counts p (answer es i))
      (fun i hi => List.mem_filter.2 (h i (List.mem_range.1 hi)))
    simpa using this
  omega

/-- what a callback does -/
theorem callback_eq (p : Prog) (m : Main) (i : Nat) (ok : Bool) :
    (m.callback p i ok).answered = m.answered ∧ (m.callback p i ok).phase = m.phase ∧
    (m.callback p i ok).out = m.out ++ ((shown p ok).toList.map fun w => (i, w)) ∧
    (m.callback p i ok).remaining = m.remaining - (if counts p (some ok) then 1 else 0) ∧
    (m.callback p i ok).done = (m.done || (counts p (some ok) && decide (m.remaining = 1))) := by
  cases p <;> cases ok <;> simp [Main.callback, Main.print, Main.count, shown, counts] <;> rfl

theorem inv_result {p : Prog} {n : Nat} {es : List Ev} {m : Main} (H : Inv p n es m) (i : Nat) (ok : Bool)
    (hx : exited m = false) (hi : i < n) (ha : i ∉ m.answered) :
    Inv p n (es ++ [.result i ok]) (Main.callback p { m with answered := m.answered ++ [i] } i ok) := by
  obtain ⟨c1, c2, c3, c4, c5⟩ := callback_eq p { m with answered := m.answered ++ [i] } i ok
  generalize hm' : Main.callback p { m with answered := m.answered ++ [i] } i ok = m' at *
  simp only at c1 c2 c3 c4 c5
  have hnone : answer es i = none := by
    cases h : answer es i with
    | none => rfl
    | some x => exact absurd (H.live hx i hi (by rw [h]; rfl)) ha
  have hi' : answer (es ++ [.result i ok]) i = some ok := by rw [answer_append, hnone, answer_result]; simp
  have hj : ∀ j, j ≠ i → answer (es ++ [.result i ok]) j = answer es j := by
    intro j hj
    rw [answer_append, answer_result, if_neg (fun h => hj h.symm)]
    cases answer es j <;> rfl
  have hs : ∀ j ∈ m.answered, answer (es ++ [.result i ok]) j = answer es j := fun j h => hj j (fun e => ha (e ▸ h))
  have hmem : ∀ j w, (j, w) ∈ ((shown p ok).toList.map fun w => (i, w)) ↔ j = i ∧ shown p ok = some w := by
    intro j w
    cases shown p ok with
    | none => simp
    | some x =>
      simp only [Option.toList_some, List.map_cons, List.map_nil, List.mem_singleton, Prod.mk.injEq, Option.some.injEq]
      constructor
      · rintro ⟨rfl, rfl⟩; exact ⟨rfl, rfl⟩
      · rintro ⟨rfl, rfl⟩; exact ⟨rfl, rfl⟩
  have hrem : m'.remaining = (n : Int) - ((m'.answered.filter fun j => counts p (answer (es ++ [.result i ok]) j)).length : Int) := by
    rw [c1, List.filter_append, filter_stays _ H.ex, c4, H.rem, List.length_append]
    simp only [List.filter_cons, List.filter_nil, hi']
    split <;> simp <;> omega
  refine ⟨?_, ?_, ?_, ?_, ?_, ?_, hrem, ?_, ?_, ?_, ?_⟩
  · rw [c1]
    exact List.nodup_append.2 ⟨H.nd, by simp, by intro a h b hb; rw [List.mem_singleton.1 hb]; exact fun e => ha (e ▸ h)⟩
  · rw [c1]; intro j h
    rcases List.mem_append.1 h with h | h
    · exact H.lt j h
    · rw [List.mem_singleton.1 h]; exact hi
  · rw [c1]; intro j h
    rcases List.mem_append.1 h with h | h
    · rw [hs j h]; exact H.ex j h
    · rw [List.mem_singleton.1 h, hi']; rfl
  · intro _ j h1 h2
    rw [c1]
    by_cases e : j = i
    · simp [e]
    · rw [hj j e] at h2; exact List.mem_append_left _ (H.live hx j h1 h2)
  · intro j w
    rw [c3, c1, List.mem_append, List.mem_append, hmem, H.out j w, List.mem_singleton]
    by_cases e : j = i
    · rw [e, hi']; simp [ha]
    · simp [e, hj j e]
  · rw [c3, List.map_append]
    refine List.nodup_append.2 ⟨H.outnd, ?_, ?_⟩
    · cases shown p ok <;> simp
    · intro a h b hb e
      obtain ⟨x, hx1, hx2⟩ := List.mem_map.1 hb
      have := ((hmem x.1 x.2).1 hx1).1
      obtain ⟨y, hy1, hy2⟩ := List.mem_map.1 h
      have h3 := ((H.out y.1 y.2).1 hy1).1
      exact ha (by rw [← this, hx2, ← e, ← hy2]; exact h3)
  · intro h
    rw [c5] at h
    rcases Bool.or_eq_true_iff.1 h with h | h
    · rcases H.done h with h | h
      · exact .inl (by simp [h])
      · refine .inr ⟨?_, h.2⟩
        rw [c4]; split <;> omega
    · refine .inr ⟨?_, by omega⟩
      rw [Bool.and_eq_true] at h
      have h2 := of_decide_eq_true h.2
      rw [c4, if_pos h.1]; omega
  · intro h h0
    rw [c5]
    rw [c4] at h
    split at h
    · rename_i hc
      rw [hc]
      have : m.remaining = 1 := by omega
      simp [this]
    · rw [H.full (by omega) h0]; rfl
  · intro _ h
    have : Ev.interrupt ∈ es := by
      rcases List.mem_append.1 h with h | h
      · exact h
      · simp at h
    rw [c5, H.wk hx this]; rfl
  · intro h
    rw [c2] at h
    rw [c5, H.signalled h]; rfl

theorem exited_iff {m : Main} : exited m = true ↔ ∃ k, m.phase = .exited k := by
  unfold exited
  cases m.phase <;> simp

theorem inv_step {p : Prog} {n : Nat} {es : List Ev} {m : Main} (H : Inv p n es m) (e : Ev) : Inv p n (es ++ [e]) (step p n m e) := by
  cases e with
  | result i ok =>
    simp only [step]
    split
    · rename_i h
      refine inv_quiet H ?_ rfl rfl rfl id .inl id (fun _ h => by cases h) .inl
      intro hx j hj hs
      rw [answer_result] at hs
      by_cases e : i = j
      · rcases h with h | h | h
        · rw [hx] at h; cases h
        · omega
        · exact e ▸ h
      · rw [if_neg e] at hs; cases hs
    · rename_i h
      simp only [not_or] at h
      exact inv_result H i ok (by simpa using h.1) (by omega) h.2.2
  | interrupt =>
    simp only [step]
    have hn : ∀ i, answer [Ev.interrupt] i = none := fun _ => rfl
    split
    · rename_i h
      exact inv_quiet H (by intro _ i _ h; rw [hn] at h; cases h) rfl rfl rfl id .inl id (by intro h2; rw [h] at h2; cases h2) .inl
    · exact inv_quiet H (by intro _ i _ h; rw [hn] at h; cases h) rfl rfl rfl id (fun _ => .inr rfl) (fun _ => rfl) (fun _ _ => rfl) .inl
  | timeout =>
    simp only [step]
    have hn : ∀ i, answer [Ev.timeout] i = none := fun _ => rfl
    split
    · rename_i h
      refine inv_quiet H (by intro _ i _ h; rw [hn] at h; cases h) rfl rfl rfl ?_ .inl id (fun _ h => by cases h) (fun h => by cases h)
      intro _; simp [exited, h.1]
    · exact inv_quiet H (by intro _ i _ h; rw [hn] at h; cases h) rfl rfl rfl id .inl id (fun _ h => by cases h) .inl
  | wake =>
    simp only [step]
    have hn : ∀ i, answer [Ev.wake] i = none := fun _ => rfl
    split
    · rename_i h
      refine inv_quiet H (by intro _ i _ h; rw [hn] at h; cases h) rfl rfl rfl ?_ .inl id (fun _ h => by cases h) (fun _ => .inr h.2)
      intro _; simp [exited, h.1]
    · exact inv_quiet H (by intro _ i _ h; rw [hn] at h; cases h) rfl rfl rfl id .inl id (fun _ h => by cases h) .inl
  | finish =>
    simp only [step]
    have hn : ∀ i, answer [Ev.finish] i = none := fun _ => rfl
    split
    · rename_i b h
      refine inv_quiet H (by intro _ i _ h; rw [hn] at h; cases h) rfl rfl rfl ?_ .inl id (fun _ h => by cases h) (fun h => by cases h)
      intro h; simp [exited] at h
    · exact inv_quiet H (by intro _ i _ h; rw [hn] at h; cases h) rfl rfl rfl id .inl id (fun _ h => by cases h) .inl

theorem inv_run (p : Prog) (n : Nat) (es : List Ev) : Inv p n es (run p n es) := by
  refine rev_ind (P := fun es => Inv p n es (run p n es)) ?_ ?_ es
  · refine ⟨by simp [run, start], by simp [run, start], by simp [run, start], ?_, by simp [run, start], by simp [run, start], by simp [run, start],
      by simp [run, start], ?_, by simp, by simp [run, start]⟩
    · intro _ i _ h; simp [answer] at h
    · intro h h0; simp [run, start] at h; omega
  · intro l e h
    rw [run_append]
    exact inv_step h e

/-! ### how it came to the end -/

/-- how the wait ended, and where -/
structure Past (p : Prog) (n : Nat) (es : List Ev) : Prop where
  gaveUp : (run p n es).phase = .waited false → ∃ a b, es = a ++ .timeout :: b ∧ (run p n a).phase = .waiting ∧ (run p n a).done = false
  woke : (run p n es).phase = .waited true → ∃ a b, es = a ++ .wake :: b ∧ (run p n a).phase = .waiting ∧ (run p n a).done = true
  ended : ∀ k, (run p n es).phase = .exited k → ∃ a b s, es = a ++ .finish :: b ∧ (run p n a).phase = .waited s ∧
    k = (run p n a).status p s

theorem phase_result (p : Prog) (n : Nat) (m : Main) (i : Nat) (ok : Bool) : (step p n m (.result i ok)).phase = m.phase := by
  simp only [step]
  split
  · rfl
  · rw [(callback_eq p _ i ok).2.1]

theorem past (p : Prog) (n : Nat) (es : List Ev) : Past p n es := by
  refine rev_ind (P := fun es => Past p n es) ?_ ?_ es
  · refine ⟨?_, ?_, ?_⟩ <;> simp [run, start]
  · intro l e H
    have keep : (run p n (l ++ [e])).phase = (run p n l).phase → Past p n (l ++ [e]) := by
      intro hk
      refine ⟨?_, ?_, ?_⟩
      · intro h; rw [hk] at h
        obtain ⟨a, b, h1, h2⟩ := H.gaveUp h
        exact ⟨a, b ++ [e], by rw [h1]; simp, h2⟩
      · intro h; rw [hk] at h
        obtain ⟨a, b, h1, h2⟩ := H.woke h
        exact ⟨a, b ++ [e], by rw [h1]; simp, h2⟩
      · intro k h; rw [hk] at h
        obtain ⟨a, b, s, h1, h2⟩ := H.ended k h
        exact ⟨a, b ++ [e], s, by rw [h1]; simp, h2⟩
    cases e with
    | result i ok => exact keep (by rw [run_append, phase_result])
    | interrupt =>
      refine keep ?_
      rw [run_append]; simp only [step]; split <;> rfl
    | timeout =>
      by_cases hc : (run p n l).phase = .waiting ∧ (run p n l).done = false
      · have hp : (run p n (l ++ [.timeout])).phase = .waited false := by rw [run_append]; simp only [step, if_pos hc]
        refine ⟨fun _ => ⟨l, [], rfl, hc⟩, ?_, ?_⟩
        · rw [hp]; intro h; cases h
        · rw [hp]; intro k h; cases h
      · exact keep (by rw [run_append]; simp only [step, if_neg hc])
    | wake =>
      by_cases hc : (run p n l).phase = .waiting ∧ (run p n l).done = true
      · have hp : (run p n (l ++ [.wake])).phase = .waited true := by rw [run_append]; simp only [step, if_pos hc]
        refine ⟨?_, fun _ => ⟨l, [], rfl, hc⟩, ?_⟩
        · rw [hp]; intro h; cases h
        · rw [hp]; intro k h; cases h
      · exact keep (by rw [run_append]; simp only [step, if_neg hc])
    | finish =>
      cases hc : (run p n l).phase with
      | waited s =>
        have hp : (run p n (l ++ [.finish])).phase = .exited ((run p n l).status p s) := by rw [run_append]; simp only [step, hc]
        refine ⟨?_, ?_, ?_⟩
        · rw [hp]; intro h; cases h
        · rw [hp]; intro h; cases h
        · rw [hp]; intro k h
          injection h with h
          exact ⟨l, [], s, rfl, hc, h.symm⟩
      | waiting => exact keep (by rw [run_append]; simp only [step, hc])
      | exited k => exact keep (by rw [run_append]; simp only [step, hc])

end Pvxs.Lemmas.Fetch
