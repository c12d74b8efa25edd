import Verif.Spec.SigInt
/-
C123: the function given to a SigInt is called in a thread, once, after a signal.
-/
namespace Pvxs.Props.SigInt
open Pvxs.SigInt Pvxs.Spec.SigInt

/-! ### Lists -/

theorem snoc_split {α : Type} {l a b : List α} {x y : α} (h : l ++ [y] = a ++ x :: b) : (a = l ∧ x = y ∧ b = []) ∨ ∃ b', l = a ++ x :: b' := by
  rcases List.eq_nil_or_concat b with rfl | ⟨b', z, rfl⟩
  · have := List.append_inj' (t₁ := [y]) (t₂ := [x]) h rfl
    obtain ⟨h1, h2⟩ := this
    injection h2 with h3 _
    exact Or.inl ⟨h1.symm, h3.symm, rfl⟩
  · right
    have h' : l ++ [y] = (a ++ x :: b') ++ [z] := by simpa using h
    exact ⟨b', (List.append_inj' h' rfl).1⟩

/-- every entry of a log has `P` of what was before it -/
def Every (P : List Obs → Obs → Prop) (log : List Obs) : Prop := ∀ a x b, log = a ++ x :: b → P a x

theorem every_nil (P : List Obs → Obs → Prop) : Every P [] := by
  intro a x b h
  cases a <;> simp at h

theorem every_snoc {P : List Obs → Obs → Prop} {l : List Obs} {y : Obs} (h : Every P l) (hy : P l y) : Every P (l ++ [y]) := by
  intro a x b e
  rcases snoc_split e with ⟨rfl, rfl, _⟩ | ⟨b', e'⟩
  · exact hy
  · exact h a x b' e'

/-- what holds of each entry -/
def Good (a : List Obs) : Obs → Prop
  | .made _ => ∀ j, .made j ∈ a → .gone j ∈ a
  | .called k => .made k ∈ a ∧ .gone k ∉ a
  | .gone k => .called k ∈ a
  | _ => True

/-! ### Invariant -/

/-- the object made last exists -/
def Here (s : St) (k : Nat) : Prop := k = s.id ∧ s.phase ≠ .none

instance (s : St) (k : Nat) : Decidable (Here s k) := inferInstanceAs (Decidable (_ ∧ _))

/-- calls so far -/
def calls (s : St) (k : Nat) : Nat := if k < s.n then (if k = s.id ∧ s.phase ≠ .none then (if s.thr = .waiting then 0 else 1) else 1) else 0

structure Inv (s : St) : Prop where
  made : ∀ k, .made k ∈ s.log ↔ k < s.n
  gone : ∀ k, .gone k ∈ s.log ↔ k < s.n ∧ ¬ Here s k
  count : ∀ k, s.log.count (.called k) = calls s k
  good : Every Good s.log
  id : s.phase ≠ .none → s.id < s.n
  slot : s.phase ≠ .none → s.onsig = .armed s.id ∨ (s.onsig = .inprog ∧ ∃ b, s.flight = some (s.id, b))
  prog : s.onsig = .inprog ↔ s.flight.isSome = true
  armed : ∀ k, s.onsig = .armed k → k < s.n
  flown : ∀ k b, s.flight = some (k, b) → k < s.n
  joined : s.phase = .joined → s.thr = .finished
  ours : s.ours = true ↔ s.phase = .alive
  sigN : ∀ k, .signalled k ∈ s.log → k < s.n
  heard : ∀ k, .signalled k ∈ s.log → Here s k → s.thr ≠ .waiting ∨ 0 < s.msgs ∨ s.flight = some (s.id, false)
  wake : s.phase = .disarmed → s.thr ≠ .waiting ∨ 0 < s.msgs

theorem inv_init : Inv {} := by
  refine ⟨?_, ?_, ?_, every_nil _, ?_, ?_, ?_, ?_, ?_, ?_, ?_, ?_, ?_, ?_⟩ <;> simp [calls]

theorem inv_ctor {s : St} (h : Inv s) : Inv (ctor s) := by
  unfold ctor
  split
  · rename_i hi
    have hp : s.phase = .none := by
      cases hq : s.phase with
      | none => rfl
      | _ => rcases h.slot (by simp [hq]) with e | ⟨e, _⟩ <;> simp [hi] at e
    have hf : s.flight = none := by
      cases hq : s.flight with
      | none => rfl
      | some p => have := h.prog.mpr (by simp [hq]); simp [hi] at this
    have hh : ∀ k, ¬ Here s k := fun k q => q.2 hp
    refine ⟨?_, ?_, ?_, ?_, ?_, ?_, ?_, ?_, ?_, ?_, ?_, ?_, ?_, ?_⟩
    · intro k
      have := h.made k
      simp [this]
      omega
    · intro k
      have := h.gone k
      simp [this, Here, hp]
      omega
    · intro k
      have := h.count k
      simp [List.count_append, this, calls, Here, hp]
      by_cases h1 : k < s.n
      · rw [if_pos h1, if_pos (by omega), if_neg (by omega)]
      · rw [if_neg h1]
        by_cases h2 : k < s.n + 1
        · rw [if_pos h2, if_pos (by omega)]
        · rw [if_neg h2]
    · refine every_snoc h.good ?_
      intro j hj
      exact (h.gone j).mpr ⟨(h.made j).mp hj, hh j⟩
    · intro _; exact Nat.lt_succ_self s.n
    · intro _; exact Or.inl rfl
    · simp [hf]
    · intro k e
      simp at e
      show k < s.n + 1
      omega
    · intro k b e
      simp [hf] at e
    · intro e; simp at e
    · simp
    · intro k hk
      simp at hk
      have := h.sigN k hk
      show k < s.n + 1
      omega
    · intro k hk hk2
      simp at hk
      have := h.sigN k hk
      have : k = s.n := hk2.1
      omega
    · intro e; simp at e
  · refine ⟨?_, ?_, ?_, ?_, h.id, h.slot, h.prog, h.armed, h.flown, h.joined, h.ours, ?_, ?_, h.wake⟩
    · intro k; simpa using h.made k
    · intro k; have := h.gone k; simpa [Here] using this
    · intro k; refine Eq.trans ?_ (h.count k); simp [List.count_append]
    · exact every_snoc h.good trivial
    · intro k hk; exact h.sigN k (by simpa using hk)
    · intro k hk; exact h.heard k (by simpa using hk)

theorem inv_deliver {s : St} (h : Inv s) : Inv (deliver s) := by
  unfold deliver
  split
  · exact ⟨h.made, h.gone, h.count, h.good, h.id, h.slot, h.prog, h.armed, h.flown, h.joined, h.ours, h.sigN, h.heard, h.wake⟩
  · refine ⟨?_, ?_, ?_, ?_, h.id, h.slot, h.prog, h.armed, h.flown, h.joined, h.ours, ?_, ?_, h.wake⟩
    · intro k; simpa using h.made k
    · intro k; have := h.gone k; simpa [Here] using this
    · intro k; refine Eq.trans ?_ (h.count k); simp [List.count_append]
    · exact every_snoc h.good trivial
    · intro k hk; exact h.sigN k (by simpa using hk)
    · intro k hk; exact h.heard k (by simpa using hk)

theorem inv_grab {s : St} (h : Inv s) : Inv (grab s) := by
  by_cases he : s.entered = 0
  · rw [show grab s = s by unfold grab; rw [if_pos he]]; exact h
  · cases hs : s.onsig with
    | armed k0 =>
      rw [show grab s = { s with entered := s.entered - 1, onsig := .inprog, flight := some (k0, false), log := s.log ++ [.signalled k0] } by
        unfold grab; rw [if_neg he, hs]]
      have hk0 := h.armed k0 hs
      refine ⟨?_, ?_, ?_, ?_, h.id, ?_, ?_, ?_, ?_, h.joined, h.ours, ?_, ?_, h.wake⟩
      · intro k; simpa using h.made k
      · intro k; have := h.gone k; simpa [Here] using this
      · intro k; refine Eq.trans ?_ (h.count k); simp [List.count_append]
      · exact every_snoc h.good trivial
      · intro hp
        rcases h.slot hp with e | ⟨e, _⟩
        · rw [hs] at e
          injection e with e
          subst e
          exact Or.inr ⟨rfl, false, rfl⟩
        · rw [hs] at e; cases e
      · simp
      · intro k e; cases e
      · intro k b e
        injection e with e
        injection e with e1 e2
        subst e1
        exact hk0
      · intro k hk
        simp at hk
        rcases hk with hk | rfl
        · exact h.sigN k hk
        · exact hk0
      · intro k hk hk2
        right; right
        rcases h.slot hk2.2 with e | ⟨e, _⟩
        · rw [hs] at e
          injection e with e
          subst e
          rfl
        · rw [hs] at e; cases e
    | invalid => rw [show grab s = { s with entered := s.entered - 1 } by unfold grab; rw [if_neg he, hs]]; exact ⟨h.made, h.gone, h.count, h.good, h.id, h.slot, h.prog, h.armed, h.flown, h.joined, h.ours, h.sigN, h.heard, h.wake⟩
    | inprog => rw [show grab s = { s with entered := s.entered - 1 } by unfold grab; rw [if_neg he, hs]]; exact ⟨h.made, h.gone, h.count, h.good, h.id, h.slot, h.prog, h.armed, h.flown, h.joined, h.ours, h.sigN, h.heard, h.wake⟩

theorem inv_send {s : St} (h : Inv s) : Inv (send s) := by
  cases hf : s.flight with
  | none => rw [show send s = s by unfold send; rw [hf]]; exact h
  | some p =>
    obtain ⟨k0, b0⟩ := p
    cases b0 with
    | true => rw [show send s = s by unfold send; rw [hf]]; exact h
    | false =>
      have hi : s.onsig = .inprog := h.prog.mpr (by simp [hf])
      have hs : s.phase ≠ .none → s.onsig = .armed s.id ∨ (s.onsig = .inprog ∧ ∃ b, some (k0, true) = some (s.id, b)) := by
        intro hp
        rcases h.slot hp with e | ⟨e, b, e2⟩
        · exact Or.inl e
        · rw [hf] at e2
          injection e2 with e2
          injection e2 with e2 _
          subst e2
          exact Or.inr ⟨e, true, rfl⟩
      have hfl : ∀ (k : Nat) (b : Bool), some (k0, true) = some (k, b) → k < s.n := by
        intro k b e
        injection e with e
        injection e with e _
        subst e
        exact h.flown _ _ hf
      by_cases hc : k0 = s.id ∧ s.phase ≠ .none
      · rw [show send s = { s with flight := some (k0, true), msgs := s.msgs + 1 } by unfold send; rw [hf]; exact if_pos hc]
        refine ⟨h.made, h.gone, h.count, h.good, h.id, hs, ?_, h.armed, hfl, h.joined, h.ours, h.sigN, ?_, ?_⟩
        · simp [hi]
        · intro k _ _; right; left; exact Nat.succ_pos _
        · intro _; right; exact Nat.succ_pos _
      · rw [show send s = { s with flight := some (k0, true), log := s.log ++ [.badSend k0] } by unfold send; rw [hf]; exact if_neg hc]
        refine ⟨?_, ?_, ?_, ?_, h.id, hs, ?_, h.armed, hfl, h.joined, h.ours, ?_, ?_, h.wake⟩
        · intro k; simpa using h.made k
        · intro k; have := h.gone k; simpa [Here] using this
        · intro k; refine Eq.trans ?_ (h.count k); simp [List.count_append]
        · exact every_snoc h.good trivial
        · simp [hi]
        · intro k hk; exact h.sigN k (by simpa using hk)
        · intro k hk hk2
          rcases h.heard k (by simpa using hk) hk2 with e | e | e
          · exact Or.inl e
          · exact Or.inr (Or.inl e)
          · rw [hf] at e
            injection e with e
            injection e with e _
            exact absurd ⟨e, hk2.2⟩ hc

theorem inv_store {s : St} (h : Inv s) : Inv (store s) := by
  cases hf : s.flight with
  | none => rw [show store s = s by unfold store; rw [hf]]; exact h
  | some p =>
    obtain ⟨k0, b0⟩ := p
    cases b0 with
    | false => rw [show store s = s by unfold store; rw [hf]]; exact h
    | true =>
      have hi : s.onsig = .inprog := h.prog.mpr (by simp [hf])
      rw [show store s = { s with flight := none, onsig := .armed k0 } by unfold store; rw [hf]]
      refine ⟨h.made, h.gone, h.count, h.good, h.id, ?_, ?_, ?_, ?_, h.joined, h.ours, h.sigN, ?_, h.wake⟩
      · intro hp
        rcases h.slot hp with e | ⟨_, b, e2⟩
        · rw [hi] at e; cases e
        · rw [hf] at e2
          injection e2 with e2
          injection e2 with e2 _
          subst e2
          exact Or.inl rfl
      · simp
      · intro k e
        injection e with e
        subst e
        exact h.flown _ _ hf
      · intro k b e; cases e
      · intro k hk hk2
        rcases h.heard k hk hk2 with e | e | e
        · exact Or.inl e
        · exact Or.inr (Or.inl e)
        · rw [hf] at e
          injection e with e
          injection e with _ e
          cases e

theorem inv_recv {s : St} (h : Inv s) : Inv (recv s) := by
  unfold recv
  split
  · rename_i hc
    obtain ⟨hp, ht, hm⟩ := hc
    have hid := h.id hp
    refine ⟨?_, ?_, ?_, ?_, h.id, h.slot, h.prog, h.armed, h.flown, ?_, h.ours, ?_, ?_, ?_⟩
    · intro k; simpa using h.made k
    · intro k; have := h.gone k; simpa [Here] using this
    · intro k
      have hk := h.count k
      by_cases e : k = s.id
      · subst e
        simp [List.count_append, hk, calls, Here, hp, hid, ht]
      · have e' : ¬ s.id = k := fun q => e q.symm
        simp [List.count_append, hk, calls, Here, e, e']
    · refine every_snoc h.good ?_
      refine ⟨(h.made _).mpr hid, ?_⟩
      intro q
      exact ((h.gone _).mp q).2 ⟨rfl, hp⟩
    · intro e
      have := h.joined e
      rw [ht] at this; cases this
    · intro k hk; exact h.sigN k (by simpa using hk)
    · intro k _ _; left; simp
    · intro _; left; simp
  · exact h

theorem inv_ret {s : St} (h : Inv s) : Inv (ret s) := by
  unfold ret
  split
  · rename_i ht
    refine ⟨h.made, h.gone, ?_, h.good, h.id, h.slot, h.prog, h.armed, h.flown, ?_, h.ours, h.sigN, ?_, ?_⟩
    · intro k
      have := h.count k
      simp only [calls, ht, Here] at this ⊢
      simpa using this
    · intro _; rfl
    · intro k _ _; left; simp
    · intro _; left; simp
  · exact h

theorem inv_disarm {s : St} (h : Inv s) : Inv (disarm s) := by
  unfold disarm
  split
  · rename_i hp
    have hp' : s.phase ≠ .none := by rw [hp]; simp
    refine ⟨h.made, ?_, ?_, h.good, ?_, ?_, h.prog, h.armed, h.flown, ?_, ?_, h.sigN, ?_, ?_⟩
    · intro k; have := h.gone k; simpa [Here, hp] using this
    · intro k; have := h.count k; simpa [calls, Here, hp] using this
    · intro _; exact h.id hp'
    · intro _; exact h.slot hp'
    · intro e; simp at e
    · simp
    · intro k _ _; right; left; exact Nat.succ_pos _
    · intro _; right; exact Nat.succ_pos _
  · exact h

theorem inv_join {s : St} (h : Inv s) : Inv (join s) := by
  unfold join
  split
  · rename_i hc
    obtain ⟨hp, ht⟩ := hc
    have hp' : s.phase ≠ .none := by rw [hp]; simp
    refine ⟨h.made, ?_, ?_, h.good, ?_, ?_, h.prog, h.armed, h.flown, ?_, ?_, h.sigN, ?_, ?_⟩
    · intro k; have := h.gone k; simpa [Here, hp] using this
    · intro k; have := h.count k; simpa [calls, Here, hp] using this
    · intro _; exact h.id hp'
    · intro _; exact h.slot hp'
    · intro _; exact ht
    · have := h.ours; simpa [hp] using this
    · intro k _ _; left; show s.thr ≠ .waiting; rw [ht]; simp
    · intro e; simp at e
  · exact h

theorem inv_release {s : St} (h : Inv s) : Inv (release s) := by
  unfold release
  split
  · rename_i hp
    have hp' : s.phase ≠ .none := by rw [hp]; simp
    have ht := h.joined hp
    have hid := h.id hp'
    refine ⟨?_, ?_, ?_, ?_, ?_, ?_, ?_, ?_, h.flown, ?_, ?_, ?_, ?_, ?_⟩
    · intro k; simpa using h.made k
    · intro k
      have := h.gone k
      simp [this, Here, hp]
      constructor
      · rintro (⟨a, _⟩ | rfl)
        · exact a
        · exact hid
      · intro a
        by_cases e : k = s.id
        · exact Or.inr e
        · exact Or.inl ⟨a, e⟩
    · intro k
      have := h.count k
      simp [List.count_append, this, calls, Here, hp, ht]
    · refine every_snoc h.good ?_
      show Obs.called s.id ∈ s.log
      have := h.count s.id
      simp [calls, Here, hp, hid, ht] at this
      exact List.count_pos_iff.mp (by rw [this]; decide)
    · intro e; simp at e
    · intro e; simp at e
    · have := h.prog
      show (if s.onsig = .armed s.id then Slot.invalid else s.onsig) = .inprog ↔ _
      split
      · rename_i e
        rw [e] at this
        simp only [reduceCtorEq, false_iff] at this ⊢
        exact this
      · exact this
    · intro k
      show (if s.onsig = .armed s.id then Slot.invalid else s.onsig) = .armed k → _
      split
      · intro e; cases e
      · intro e; exact h.armed k e
    · intro e; simp at e
    · have := h.ours; simpa [hp] using this
    · intro k hk; exact h.sigN k (by simpa using hk)
    · intro k _ hk2; exact absurd rfl hk2.2
    · intro e; simp at e
  · exact h

theorem inv_step {s : St} (h : Inv s) (op : Op) : Inv (step s op) := by
  cases op
  · exact inv_ctor h
  · exact inv_deliver h
  · exact inv_grab h
  · exact inv_send h
  · exact inv_store h
  · exact inv_recv h
  · exact inv_ret h
  · exact inv_disarm h
  · exact inv_join h
  · exact inv_release h

theorem inv_run (ops : List Op) : ∀ {s : St}, Inv s → Inv (run s ops) := by
  induction ops with
  | nil => intro s h; exact h
  | cons op ops ih => intro s h; exact ih (inv_step h op)

theorem inv (ops : List Op) : Inv (run {} ops) := inv_run ops inv_init

/-! ### What holds -/

/-- C123: whatever signals come, and whichever thread is delayed, the function of an object is called at most once. -/
theorem C123_once (ops : List Op) : Once (run {} ops).log := by
  intro k
  rw [(inv ops).count k]
  unfold calls
  split
  · split
    · split <;> simp
    · simp
  · simp

/-- C123: it is called only while the object exists: not after its destructor returned. -/
theorem C123_inside (ops : List Op) : Inside (run {} ops).log := by
  intro a k b e
  exact (inv ops).good a (.called k) b e

/-- C123: an object is made only when no other exists. -/
theorem C123_alone (ops : List Op) : Alone (run {} ops).log := by
  intro a k b e
  exact (inv ops).good a (.made k) b e

/-- C123: while an object exists another one is refused, and the first one is as before. -/
theorem C123_refused (ops : List Op) (k : Nat) (h1 : .made k ∈ (run {} ops).log) (h2 : .gone k ∉ (run {} ops).log) :
    step (run {} ops) .ctor = { run {} ops with log := (run {} ops).log ++ [.refused] } := by
  have h := inv ops
  have hh : Here (run {} ops) k := by
    apply Classical.byContradiction
    intro q
    exact h2 ((h.gone k).mpr ⟨(h.made k).mp h1, q⟩)
  have : (run {} ops).onsig ≠ .invalid := by
    rcases h.slot hh.2 with e | ⟨e, _⟩ <;> rw [e] <;> simp
  show ctor _ = _
  unfold ctor
  rw [if_neg this]

/-- C123: a signal which was taken for an object leads to the call as soon as the handler has sent its byte and the thread has received it, wherever the others are. -/
theorem C123_heard (ops : List Op) (k : Nat) (h1 : .signalled k ∈ (run {} ops).log) : .called k ∈ (run {} (ops ++ [.send, .recv])).log := by
  have h := inv ops
  have e : run {} (ops ++ [.send, .recv]) = recv (send (run {} ops)) := by simp [run, step]
  rw [e]
  have h2 := inv_send h
  generalize run {} ops = s at h h1 h2
  have hk := h.sigN k h1
  have keep : ∀ x, x ∈ s.log → x ∈ (recv (send s)).log := by
    intro x hx
    have hx1 : x ∈ (send s).log := by
      unfold send
      cases hf : s.flight with
      | none => exact hx
      | some p =>
        obtain ⟨k0, b0⟩ := p
        cases b0
        · dsimp only
          split
          · exact hx
          · simp [hx]
        · exact hx
    unfold recv
    split
    · simp [hx1]
    · exact hx1
  by_cases hh : Here s k
  · by_cases ht : s.thr = .waiting
    · have hp : (send s).phase = s.phase ∧ (send s).thr = s.thr ∧ (send s).id = s.id ∧ 0 < (send s).msgs := by
        rcases h.heard k h1 hh with a | a | a
        · exact absurd ht a
        · unfold send
          cases hf : s.flight with
          | none => exact ⟨rfl, rfl, rfl, a⟩
          | some p =>
            obtain ⟨k0, b0⟩ := p
            cases b0
            · dsimp only
              split
              · exact ⟨rfl, rfl, rfl, Nat.succ_pos _⟩
              · exact ⟨rfl, rfl, rfl, a⟩
            · exact ⟨rfl, rfl, rfl, a⟩
        · unfold send
          rw [a]
          dsimp only
          rw [if_pos ⟨rfl, hh.2⟩]
          exact ⟨rfl, rfl, rfl, Nat.succ_pos _⟩
      obtain ⟨p1, p2, p3, p4⟩ := hp
      unfold recv
      rw [if_pos ⟨by rw [p1]; exact hh.2, by rw [p2]; exact ht, p4⟩]
      rw [show k = (send s).id by rw [p3]; exact hh.1]
      simp
    · apply keep
      have := h.count k
      rw [calls, if_pos hk, if_pos (show k = s.id ∧ s.phase ≠ .none from hh), if_neg ht] at this
      exact List.count_pos_iff.mp (by rw [this]; decide)
  · apply keep
    have := h.count k
    rw [calls, if_pos hk, if_neg (show ¬ (k = s.id ∧ s.phase ≠ .none) from hh)] at this
    exact List.count_pos_iff.mp (by rw [this]; decide)

/-- C123: once every object is gone, a signal has the action it had before. -/
theorem C123_restored (ops : List Op) (hg : ∀ k, .made k ∈ (run {} ops).log → .gone k ∈ (run {} ops).log) :
    (step (run {} ops) .deliver).log = (run {} ops).log ++ [.previous] := by
  have h := inv ops
  have hp : (run {} ops).phase = .none := by
    apply Classical.byContradiction
    intro q
    have h1 := (h.made _).mpr (h.id q)
    exact ((h.gone _).mp (hg _ h1)).2 ⟨rfl, q⟩
  have : (run {} ops).ours = false := by
    cases ho : (run {} ops).ours with
    | false => rfl
    | true => have := h.ours.mp ho; rw [hp] at this; cases this
  show (deliver _).log = _
  unfold deliver
  rw [this]
  rfl

/-- a destructor can end: its thread is woken, whether or not there was a signal -/
theorem C123_ends (ops : List Op) (hd : (run {} ops).phase = .disarmed) :
    .gone (run {} ops).id ∈ (run {} (ops ++ [.recv, .ret, .join, .release])).log := by
  have h := inv ops
  have e : run {} (ops ++ [.recv, .ret, .join, .release]) = release (join (ret (recv (run {} ops)))) := by simp [run, step]
  rw [e]
  generalize run {} ops = s at h hd
  have a1 : (recv s).phase = .disarmed ∧ (recv s).id = s.id ∧ (recv s).thr ≠ .waiting := by
    unfold recv
    split
    · exact ⟨hd, rfl, by simp⟩
    · rename_i hc
      refine ⟨hd, rfl, ?_⟩
      intro ht
      rcases h.wake hd with w | w
      · exact w ht
      · exact hc ⟨by rw [hd]; simp, ht, w⟩
  generalize recv s = t at a1
  obtain ⟨b1, b2, b3⟩ := a1
  have a2 : (ret t).phase = .disarmed ∧ (ret t).id = s.id ∧ (ret t).thr = .finished := by
    unfold ret
    split
    · exact ⟨b1, b2, rfl⟩
    · rename_i hc
      refine ⟨b1, b2, ?_⟩
      cases hq : t.thr with
      | waiting => exact absurd hq b3
      | calling => exact absurd hq hc
      | finished => rfl
  generalize ret t = u at a2
  obtain ⟨c1, c2, c3⟩ := a2
  unfold join
  rw [if_pos ⟨c1, c3⟩]
  unfold release
  rw [if_pos rfl]
  simp [c2]

/-! ### No signal handler in progress when a destructor ends -/

structure CInv (s : St) : Prop where
  none : s.phase = .none → s.onsig = .invalid ∧ s.flight = none
  flight : ∀ k b, s.flight = some (k, b) → k = s.id
  sound : ∀ k, .badSend k ∉ s.log
  open_ : Every (fun a x => x = .refused → ∃ j, .made j ∈ a ∧ .gone j ∉ a) s.log
  cur : Every (fun a x => ∀ k, x = .signalled k → .made k ∈ a ∧ .gone k ∉ a) s.log

theorem cinv_init : CInv {} := by
  refine ⟨?_, ?_, ?_, every_nil _, every_nil _⟩ <;> simp

theorem cinv_step {s : St} (h : Inv s) (c : CInv s) (op : Op) (hc : op = .release → s.phase = .joined → s.flight = none) : CInv (step s op) := by
  have live : s.phase ≠ .none → .made s.id ∈ s.log ∧ .gone s.id ∉ s.log := fun hp =>
    ⟨(h.made _).mpr (h.id hp), fun q => ((h.gone _).mp q).2 ⟨rfl, hp⟩⟩
  cases op with
  | ctor =>
    show CInv (ctor s)
    unfold ctor
    split
    · rename_i hi
      have hf : s.flight = .none := by
        cases hq : s.flight with
        | none => rfl
        | some p => have := h.prog.mpr (by simp [hq]); simp [hi] at this
      refine ⟨?_, ?_, ?_, ?_, ?_⟩
      · intro e; simp at e
      · intro k b e; simp [hf] at e
      · intro k; simpa using c.sound k
      · exact every_snoc c.open_ (by simp)
      · exact every_snoc c.cur (by simp)
    · rename_i hi
      have hp : s.phase ≠ .none := fun e => hi (c.none e).1
      refine ⟨c.none, c.flight, ?_, ?_, ?_⟩
      · intro k; simpa using c.sound k
      · exact every_snoc c.open_ (fun _ => ⟨s.id, live hp⟩)
      · exact every_snoc c.cur (by simp)
  | deliver =>
    show CInv (deliver s)
    unfold deliver
    split
    · exact ⟨c.none, c.flight, c.sound, c.open_, c.cur⟩
    · refine ⟨c.none, c.flight, ?_, ?_, ?_⟩
      · intro k; simpa using c.sound k
      · exact every_snoc c.open_ (by simp)
      · exact every_snoc c.cur (by simp)
  | grab =>
    show CInv (grab s)
    by_cases he : s.entered = 0
    · rw [show grab s = s by unfold grab; rw [if_pos he]]; exact c
    · cases hs : s.onsig with
      | armed k0 =>
        rw [show grab s = { s with entered := s.entered - 1, onsig := .inprog, flight := some (k0, false), log := s.log ++ [.signalled k0] } by
          unfold grab; rw [if_neg he, hs]]
        have hp : s.phase ≠ .none := by
          intro e
          have := (c.none e).1
          rw [hs] at this; cases this
        have hk : k0 = s.id := by
          rcases h.slot hp with e | ⟨e, _⟩
          · rw [hs] at e; injection e
          · rw [hs] at e; cases e
        subst hk
        refine ⟨?_, ?_, ?_, ?_, ?_⟩
        · intro e; exact absurd e hp
        · intro k b e
          injection e with e
          injection e with e _
          exact e.symm
        · intro k; simpa using c.sound k
        · exact every_snoc c.open_ (by simp)
        · refine every_snoc c.cur ?_
          intro k e
          injection e with e
          subst e
          exact live hp
      | invalid => rw [show grab s = { s with entered := s.entered - 1 } by unfold grab; rw [if_neg he, hs]]; exact ⟨c.none, c.flight, c.sound, c.open_, c.cur⟩
      | inprog => rw [show grab s = { s with entered := s.entered - 1 } by unfold grab; rw [if_neg he, hs]]; exact ⟨c.none, c.flight, c.sound, c.open_, c.cur⟩
  | send =>
    show CInv (send s)
    unfold send
    cases hf : s.flight with
    | none => exact c
    | some p =>
      obtain ⟨k0, b0⟩ := p
      cases b0 with
      | true => exact c
      | false =>
        have hp : s.phase ≠ .none := by
          intro e
          have := (c.none e).2
          rw [hf] at this; cases this
        dsimp only
        rw [if_pos ⟨c.flight _ _ hf, hp⟩]
        refine ⟨fun e => absurd e hp, ?_, c.sound, c.open_, c.cur⟩
        intro k b e
        injection e with e
        injection e with e _
        rw [← e]
        exact c.flight _ _ hf
  | store =>
    show CInv (store s)
    unfold store
    cases hf : s.flight with
    | none => exact c
    | some p =>
      obtain ⟨k0, b0⟩ := p
      cases b0 with
      | false => exact c
      | true =>
        have hp : s.phase ≠ .none := by
          intro e
          have := (c.none e).2
          rw [hf] at this; cases this
        refine ⟨fun e => absurd e hp, ?_, c.sound, c.open_, c.cur⟩
        intro k b e; cases e
  | recv =>
    show CInv (recv s)
    unfold recv
    split
    · refine ⟨c.none, c.flight, ?_, ?_, ?_⟩
      · intro k; simpa using c.sound k
      · exact every_snoc c.open_ (by simp)
      · exact every_snoc c.cur (by simp)
    · exact c
  | ret =>
    show CInv (ret s)
    unfold ret
    split
    · exact ⟨c.none, c.flight, c.sound, c.open_, c.cur⟩
    · exact c
  | disarm =>
    show CInv (disarm s)
    unfold disarm
    split
    · exact ⟨fun e => (by simp at e), c.flight, c.sound, c.open_, c.cur⟩
    · exact c
  | join =>
    show CInv (join s)
    unfold join
    split
    · exact ⟨fun e => (by simp at e), c.flight, c.sound, c.open_, c.cur⟩
    · exact c
  | release =>
    show CInv (release s)
    unfold release
    split
    · rename_i hp
      have hf := hc rfl hp
      have ha : s.onsig = .armed s.id := by
        rcases h.slot (by rw [hp]; simp) with e | ⟨_, b, e⟩
        · exact e
        · rw [hf] at e; cases e
      refine ⟨?_, c.flight, ?_, ?_, ?_⟩
      · intro _
        exact ⟨if_pos ha, hf⟩
      · intro k; simpa using c.sound k
      · exact every_snoc c.open_ (by simp)
      · exact every_snoc c.cur (by simp)
    · exact c

theorem cinv_run (ops : List Op) : ∀ {s : St}, Inv s → CInv s → Calm s ops → CInv (run s ops) := by
  induction ops with
  | nil => intro s _ c _; exact c
  | cons op ops ih =>
    intro s h c hc
    exact ih (inv_step h op) (cinv_step h c op hc.1) hc.2

/-- C123, part: if no signal handler is in progress when a destructor ends, then an object is refused only while another one exists. -/
theorem C123_open_partial (ops : List Op) (hc : Calm {} ops) : Open (run {} ops).log := by
  intro a b e
  exact (cinv_run ops inv_init cinv_init hc).open_ a .refused b e rfl

/-- C123, part: under the same condition nothing is sent to a closed socket, and signals are taken only for an object which exists. -/
theorem C123_sound_partial (ops : List Op) (hc : Calm {} ops) : Sound (run {} ops).log ∧ Current (run {} ops).log := by
  have c := cinv_run ops inv_init cinv_init hc
  refine ⟨c.sound, ?_⟩
  intro a k b e
  exact c.cur a (.signalled k) b e k rfl

/-- such a run: two objects, one after the other, a signal for each, and one while the first one is destroyed -/
def calmRun : List Op := [.ctor, .deliver, .deliver, .grab, .send, .store, .recv, .disarm, .grab, .send, .store, .ret, .join, .release,
  .deliver, .ctor, .ctor, .deliver, .grab, .send, .store, .recv, .ret]

example : Calm {} calmRun := by simp [Calm, calmRun, step, ctor, deliver, grab, send, store, recv, ret, disarm, join, release]

example : (run {} calmRun).log =
    [.made 0, .signalled 0, .called 0, .signalled 0, .gone 0, .previous, .made 1, .refused, .signalled 1, .called 1] := by decide

/-- the hypotheses of the theorems above are met: an object exists and was signalled; one is being destroyed, without a signal; all are gone -/
example : .made 0 ∈ (run {} [.ctor, .deliver, .grab]).log ∧ .gone 0 ∉ (run {} [.ctor, .deliver, .grab]).log ∧ .signalled 0 ∈ (run {} [.ctor, .deliver, .grab]).log := by
  decide

example : (run {} [.ctor, .disarm]).phase = .disarmed := by decide

example : ∀ k, .made k ∈ (run {} (calmRun.take 14)).log → .gone k ∈ (run {} (calmRun.take 14)).log := by
  have e : (run {} (calmRun.take 14)).log = [.made 0, .signalled 0, .called 0, .signalled 0, .gone 0] := by decide
  rw [e]
  intro k hk
  simp at hk
  simp [hk]

/-! ### What does not hold -/

/-- a destructor which ends while a signal handler is in progress on another thread -/
def raceRun : List Op := [.ctor, .deliver, .grab, .disarm, .recv, .ret, .join, .release, .send, .store, .ctor]

/-- the code: the loop at the end of the destructor does not wait for a handler in progress, so the handler sends to a closed socket, and no object can be made later -/
theorem C123_open_false : ¬ Open (run {} raceRun).log ∧ ¬ Sound (run {} raceRun).log := by
  have e : (run {} raceRun).log = [.made 0, .signalled 0, .called 0, .gone 0, .badSend 0, .refused] := by decide
  rw [e]
  constructor
  · intro h
    obtain ⟨j, h1, h2⟩ := h [.made 0, .signalled 0, .called 0, .gone 0, .badSend 0] [] rfl
    simp at h1
    subst h1
    simp at h2
  · intro h
    exact h 0 (by simp)

/-- C123: after that, no object is made, whatever happens -/
theorem C123_stuck (ops : List Op) (k : Nat) : .made k ∈ (run {} (raceRun ++ ops)).log → k = 0 := by
  have key : ∀ (ops : List Op) (s : St), s.onsig ≠ .invalid → s.phase = .none → (∀ k, .made k ∈ s.log → k = 0) → (s.onsig = .inprog ∨ s.flight = none) →
      ∀ k, .made k ∈ (run s ops).log → k = 0 := by
    intro ops
    induction ops with
    | nil => intro s _ _ h _; exact h
    | cons op ops ih =>
      intro s h1 h2 h3 h4
      refine ih (step s op) ?_ ?_ ?_ ?_ <;> cases op <;> simp only [step]
      all_goals first
        | (unfold ctor; rw [if_neg h1]; first | exact h1 | exact h2 | (simp; exact h3) | exact h4)
        | (unfold deliver; split <;> first | exact h1 | exact h2 | (simp; exact h3) | exact h3 | exact h4)
        | (unfold grab; split <;> first | exact h1 | exact h2 | exact h3 | exact h4 | (split <;> first | exact h1 | exact h2 | exact h3 | exact h4 | (simp; done) | (simp; exact h3) | exact Or.inl rfl))
        | (unfold send; split <;> first | exact h1 | exact h2 | exact h3 | exact h4 | (split <;> first | exact h1 | exact h2 | exact h3 | exact h4 | (simp; exact h3) | (simp_all; done)))
        | (unfold store; split <;> first | exact h1 | exact h2 | exact h3 | exact h4 | simp_all)
        | (unfold recv; rw [if_neg (fun q => q.1 h2)]; first | exact h1 | exact h2 | exact h3 | exact h4)
        | (unfold ret; split <;> first | exact h1 | exact h2 | exact h3 | exact h4)
        | (unfold disarm; rw [if_neg (by rw [h2]; simp)]; first | exact h1 | exact h2 | exact h3 | exact h4)
        | (unfold join; rw [if_neg (by rw [h2]; simp)]; first | exact h1 | exact h2 | exact h3 | exact h4)
        | (unfold release; rw [if_neg (by rw [h2]; simp)]; first | exact h1 | exact h2 | exact h3 | exact h4)
  have e : run {} (raceRun ++ ops) = run (run {} raceRun) ops := by simp [run]
  rw [e]
  refine key ops (run {} raceRun) (by decide) (by decide) ?_ (Or.inr (by decide)) k
  have e2 : (run {} raceRun).log = [.made 0, .signalled 0, .called 0, .gone 0, .badSend 0, .refused] := by decide
  rw [e2]
  intro k hk
  simpa using hk

/-- the code: the function is called without any signal, by the destructor -/
theorem C123_caused_false : ¬ Caused (run {} [.ctor, .disarm, .recv, .ret, .join, .release]).log := by
  have e : (run {} [.ctor, .disarm, .recv, .ret, .join, .release]).log = [.made 0, .called 0, .gone 0] := by decide
  rw [e]
  intro h
  have := h [.made 0] 0 [.gone 0] rfl
  simp at this

/-- C123: it always does: the function of every object which is gone was called, exactly once. -/
theorem C123_always (ops : List Op) (k : Nat) (hk : .gone k ∈ (run {} ops).log) : (run {} ops).log.count (.called k) = 1 := by
  have h := inv ops
  obtain ⟨h1, h2⟩ := (h.gone k).mp hk
  rw [h.count k, calls, if_pos h1, if_neg (show ¬ (k = _ ∧ _ ≠ Phase.none) from h2)]

/-! ### Server::run() -/

/-- the first return of run() has a cause -/
theorem C123_run_partial (ops : List RunOp) (h : .returned ∈ (Srv.run {} ops).log) : .interrupt ∈ (Srv.run {} ops).log ∨ .signal ∈ (Srv.run {} ops).log := by
  have key : ∀ (ops : List RunOp) (s : Srv),
      (s.sig = true ∨ s.done = true ∨ s.at_ = some true ∨ .returned ∈ s.log → .interrupt ∈ s.log ∨ .signal ∈ s.log) →
      .returned ∈ (Srv.run s ops).log → .interrupt ∈ (Srv.run s ops).log ∨ .signal ∈ (Srv.run s ops).log := by
    intro ops
    induction ops with
    | nil => intro s h1 h2; exact h1 (Or.inr (Or.inr (Or.inr h2)))
    | cons op ops ih =>
      intro s h1
      refine ih (s.step op) ?_
      cases op <;> simp only [Srv.step]
      · split
        · intro q
          have := h1 (by simp at q; rcases q with q | q <;> simp [q])
          simpa using this
        · exact h1
      · simp
      · split
        · simp
        · exact h1
      · split
        · rename_i hc
          intro _
          rcases hc.2 with e | e
          · exact h1 (Or.inr (Or.inr (Or.inl e)))
          · exact h1 (Or.inl e.2)
        · exact h1
      · split
        · rename_i hc
          intro _
          exact h1 (Or.inr (Or.inl hc.2))
        · exact h1
      · split
        · rename_i hc
          intro _
          have := h1 (Or.inr (Or.inr (Or.inl hc.1)))
          simpa using this
        · exact h1
  exact key ops {} (by simp) h

/-- C123: a run() which a signal ended leaves no trace: the next one waits. -/
theorem C123_run_signal (s : Srv) (h1 : s.at_ = none) (h2 : s.done = false) :
    (s.run [.run, .signal, .handler, .wake, .ret]) = { s with at_ := none, done := false, sig := true, called := true, log := s.log ++ [.begun, .signal, .returned] } := by
  obtain ⟨d, a, g, c, l⟩ := s
  simp at h1 h2
  subst h1 h2
  simp [Srv.run, Srv.step]

/-- C123, the code: after a run() which interrupt() ended, every later run() returns at once, without another interrupt() or signal. -/
theorem C123_run_forever (s : Srv) (h1 : s.at_ = none) (h2 : s.done = false) (m : Nat) :
    (s.run ([.run, .interrupt, .wake, .handler, .ret] ++ (List.replicate m [.run, .wake, .handler, .ret]).flatten)).log =
      s.log ++ [.begun, .interrupt, .returned] ++ (List.replicate m [.begun, .returned]).flatten := by
  have key : ∀ (m : Nat) (s : Srv), s.at_ = none → s.done = true →
      (s.run (List.replicate m [.run, .wake, .handler, .ret]).flatten).log = s.log ++ (List.replicate m [.begun, .returned]).flatten := by
    intro m
    induction m with
    | zero => intro s _ _; simp [Srv.run]
    | succ m ih =>
      intro s a b
      obtain ⟨d, at0, g, c, l⟩ := s
      simp at a b
      subst a b
      rw [List.replicate_succ, List.flatten_cons, List.replicate_succ, List.flatten_cons]
      have e : Srv.run ⟨true, none, g, c, l⟩ ([.run, .wake, .handler, .ret] ++ (List.replicate m [RunOp.run, .wake, .handler, .ret]).flatten) =
          Srv.run ⟨true, none, false, true, l ++ [.begun, .returned]⟩ (List.replicate m [RunOp.run, .wake, .handler, .ret]).flatten := by
        simp [Srv.run, Srv.step]
      rw [e, ih _ rfl rfl]
      simp
  obtain ⟨d, at0, g, c, l⟩ := s
  simp at h1 h2
  subst h1 h2
  have e : Srv.run ⟨false, none, g, c, l⟩ ([.run, .interrupt, .wake, .handler, .ret] ++ (List.replicate m [RunOp.run, .wake, .handler, .ret]).flatten) =
      Srv.run ⟨true, none, false, true, l ++ [.begun, .interrupt, .returned]⟩ (List.replicate m [RunOp.run, .wake, .handler, .ret]).flatten := by
    simp [Srv.run, Srv.step]
  rw [e, key m _ rfl rfl]

/-- so run() returns more often than it was told to -/
theorem C123_run_false : ¬ Answered (Srv.run {} ([.run, .interrupt, .wake, .handler, .ret] ++ [.run, .wake, .handler, .ret])).log := by
  unfold Answered
  decide

example : (Srv.run {} [.run, .signal, .handler, .wake, .ret, .run]).at_ = some false := by decide

end Pvxs.Props.SigInt
