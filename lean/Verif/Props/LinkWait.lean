import Verif.Spec.LinkWait
/-
C129: waiting for a link.
-/
namespace Pvxs.Props.LinkWait
open Pvxs.LinkWait Spec.LinkWait

theorem run_snoc (l : List Op) (o : Op) : run (l ++ [o]) = step (run l) o := by simp [run]

theorem snoc_induction {P : List Op → Prop} (h0 : P []) (h1 : ∀ l o, P l → P (l ++ [o])) (l : List Op) : P l := by
  suffices h : ∀ n (l : List Op), l.length = n → P l from h _ l rfl
  intro n
  induction n with
  | zero => intro l hl; rw [List.length_eq_zero_iff.mp hl]; exact h0
  | succ n ih =>
    intro l hl
    rcases List.eq_nil_or_concat l with rfl | ⟨l', x, rfl⟩
    · simp at hl
    · rw [List.concat_eq_append] at hl ⊢
      exact h1 _ _ (ih l' (by simpa using hl))

theorem met_iff (s : St) (g : Goal) : met s g = true ↔ Due s g := by
  cases g <;> simp [met, Due]

/-- a wait of the only thread: asleep and due means signalled -/
def Inv (s : St) (t : Nat) : Prop := ∀ g, s.pc t = .wait g → Due s g → s.evt = true

theorem inv_step {s : St} {t : Nat} (h : Inv s t) (o : Op) (ho : ∀ u, Op.thread o = some u → u = t) : Inv (step s o) t := by
  have hstart : ∀ g', Inv (start s t g') t := by
    intro g' g hg hd
    cases hp : s.pc t with
    | idle => simp [start, hp, setPc] at hg
    | look g0 => simp [start, hp] at hg
    | wait g0 =>
      have e : start s t g' = s := by unfold start; rw [hp]
      rw [e] at hg hd ⊢
      exact h g hg hd
  cases o with
  | startConn u want => cases ho u rfl; exact hstart _
  | startUpdate u => cases ho u rfl; exact hstart _
  | look u =>
    cases ho u rfl
    intro g hg hd
    cases hp : s.pc t with
    | idle => simp only [step, look, hp] at hg hd ⊢; exact h g (hp.trans hg |> fun h => by simpa using h) hd
    | wait g0 => simp only [step, look, hp] at hg hd ⊢; exact h g (by rw [hp]; simpa using hg) hd
    | look g0 =>
      simp only [step, look, hp] at hg hd ⊢
      cases hm : met s g0 with
      | true => simp [hm, setPc] at hg
      | false =>
        simp only [hm, Bool.false_eq_true, if_false, setPc, if_true, Pc.wait.injEq] at hg hd
        subst hg
        have hd' : Due s g0 := by cases g0 <;> exact hd
        rw [(met_iff s g0).mpr hd'] at hm
        cases hm
  | wake u =>
    cases ho u rfl
    intro g hg hd
    cases hp : s.pc t with
    | idle => simp only [step, wake, hp] at hg; cases hg
    | look g0 => simp only [step, wake, hp] at hg; cases hg
    | wait g0 =>
      simp only [step, wake, hp] at hg hd ⊢
      cases he : s.evt with
      | true => simp [he, setPc] at hg
      | false =>
        simp only [he, Bool.false_eq_true, if_false] at hg hd ⊢
        exact absurd (h g hg hd) (by simp [he])
  | update c => intro g hg hd; rfl

/-- C129: a thread which alone waits for a link never sleeps on when the state it waits for, or an update, has come, whatever the order of steps and however many
updates there are.  Missing: more than one thread (`C129_two`). -/
theorem C129_wakes_partial (l : List Op) (t : Nat) (ha : Alone l t) : ¬Stuck (run l) t := by
  have : Inv (run l) t := by
    induction l using snoc_induction with
    | h0 => intro g hg; cases hg
    | h1 l o ih =>
      rw [run_snoc]
      exact inv_step (ih fun o' ho' => ha o' (by simp [ho'])) o (ha o (by simp))
  rintro ⟨g, h1, h2, h3⟩
  rw [this g h1 h2] at h3
  cases h3

/-- C129: when what it waits for has come, waking up and looking once ends the wait of a thread which alone waits.  Missing: as before. -/
theorem C129_continues_partial (l : List Op) (t : Nat) (ha : Alone l t) (g : Goal) (hg : (run l).pc t = .wait g) (hd : Due (run l) g) :
    (run (l ++ [.wake t, .look t])).pc t = .idle := by
  have he : (run l).evt = true := by
    cases he : (run l).evt with
    | true => rfl
    | false => exact absurd ⟨g, hg, hd, he⟩ (C129_wakes_partial l t ha)
  have e1 : step (run l) (.wake t) = { run l with pc := setPc (run l) t (.look g), evt := false } := by simp [step, wake, hg, he]
  have hm : met (step (run l) (.wake t)) g = true := by
    rw [met_iff, e1]
    cases g <;> exact hd
  have hp : (step (run l) (.wake t)).pc t = .look g := by rw [e1]; simp [setPc]
  have e2 : run (l ++ [.wake t, .look t]) = step (step (run l) (.wake t)) (.look t) := by simp [run]
  rw [e2]
  generalize step (run l) (.wake t) = s at *
  simp [step, look, hp, hm, setPc]

example : (run [.startConn 0 true, .look 0, .update true]).pc 0 = .wait (.conn true) ∧ Due (run [.startConn 0 true, .look 0, .update true]) (.conn true) := ⟨by decide, rfl⟩

/-- how far the counter is, for each thread -/
structure Counts (s : St) : Prop where
  seq : s.seq = s.updates % 2 ^ 32
  since : ∀ t, s.since t ≤ s.updates
  look : ∀ t q, s.pc t = .look (.update q) → q = s.since t % 2 ^ 32
  wait : ∀ t q, s.pc t = .wait (.update q) → q = s.since t % 2 ^ 32
  conn : ∀ t want c n, (t, Goal.conn want, c, n) ∈ s.ended → c = want
  some : ∀ t q c n, (t, Goal.update q, c, n) ∈ s.ended → n ≠ 0

theorem counts_start {s : St} (h : Counts s) (t : Nat) (g : Goal) (hg : ∀ q, g = .update q → q = s.seq) : Counts (start s t g) := by
  cases hp : s.pc t with
  | idle =>
    rw [show start s t g = { s with pc := setPc s t (.look g), since := fun x => if x = t then s.updates else s.since x } by unfold start; rw [hp]]
    refine ⟨h.seq, fun u => ?_, fun u q hu => ?_, fun u q hu => ?_, h.conn, h.some⟩
    · by_cases hu : u = t
      · simp [hu]
      · simp [hu, h.since u]
    · by_cases hx : u = t
      · simp only [setPc, hx, if_true, Pc.look.injEq] at hu ⊢
        rw [hg q hu, h.seq]
      · simp only [setPc, hx, if_false] at hu ⊢
        exact h.look u q hu
    · by_cases hx : u = t
      · simp [setPc, hx] at hu
      · simp only [setPc, hx, if_false] at hu ⊢
        exact h.wait u q hu
  | look g0 => rw [show start s t g = s by unfold start; rw [hp]]; exact h
  | wait g0 => rw [show start s t g = s by unfold start; rw [hp]]; exact h

theorem counts_step {s : St} (h : Counts s) (o : Op) : Counts (step s o) := by
  cases o with
  | startConn t want => exact counts_start h t _ (by simp)
  | startUpdate t => exact counts_start h t _ (by simp)
  | look t =>
    simp only [step]
    cases hp : s.pc t with
    | idle => rw [show look s t = s by unfold look; rw [hp]]; exact h
    | wait g => rw [show look s t = s by unfold look; rw [hp]]; exact h
    | look g =>
      cases hm : met s g with
      | true =>
        rw [show look s t = { s with pc := setPc s t .idle, ended := s.ended ++ [(t, g, s.connected, s.updates - s.since t)] } by
          unfold look; rw [hp]; simp only [hm, if_true]]
        have hd := (met_iff s g).mp hm
        refine ⟨h.seq, h.since, fun u q hu => ?_, fun u q hu => ?_, fun u want c n hu => ?_, fun u q c n hu => ?_⟩
        · by_cases hx : u = t
          · simp [setPc, hx] at hu
          · simp only [setPc, hx, if_false] at hu; exact h.look u q hu
        · by_cases hx : u = t
          · simp [setPc, hx] at hu
          · simp only [setPc, hx, if_false] at hu; exact h.wait u q hu
        · simp only [List.mem_append, List.mem_singleton, Prod.mk.injEq] at hu
          rcases hu with hu | ⟨rfl, rfl, rfl, rfl⟩
          · exact h.conn u want c n hu
          · exact hd
        · simp only [List.mem_append, List.mem_singleton, Prod.mk.injEq] at hu
          rcases hu with hu | ⟨rfl, rfl, rfl, rfl⟩
          · exact h.some u q c n hu
          · intro h0
            have h1 := h.since u
            have h2 : s.since u = s.updates := by omega
            exact hd (by rw [h.look u q hp, h.seq, h2])
      | false =>
        rw [show look s t = { s with pc := setPc s t (.wait g) } by unfold look; rw [hp]; simp only [hm, Bool.false_eq_true, if_false]]
        refine ⟨h.seq, h.since, fun u q hu => ?_, fun u q hu => ?_, h.conn, h.some⟩
        · by_cases hx : u = t
          · simp [setPc, hx] at hu
          · simp only [setPc, hx, if_false] at hu; exact h.look u q hu
        · by_cases hx : u = t
          · simp only [setPc, hx, if_true, Pc.wait.injEq] at hu
            subst hu
            subst hx
            exact h.look u q hp
          · simp only [setPc, hx, if_false] at hu; exact h.wait u q hu
  | wake t =>
    simp only [step]
    cases hp : s.pc t with
    | idle => rw [show wake s t = s by unfold wake; rw [hp]]; exact h
    | look g => rw [show wake s t = s by unfold wake; rw [hp]]; exact h
    | wait g =>
      cases he : s.evt with
      | false => rw [show wake s t = s by unfold wake; rw [hp]; simp [he]]; exact h
      | true =>
        rw [show wake s t = { s with pc := setPc s t (.look g), evt := false } by unfold wake; rw [hp]; simp [he]]
        refine ⟨h.seq, h.since, fun u q hu => ?_, fun u q hu => ?_, h.conn, h.some⟩
        · by_cases hx : u = t
          · simp only [setPc, hx, if_true, Pc.look.injEq] at hu
            subst hu
            subst hx
            exact h.wait u q hp
          · simp only [setPc, hx, if_false] at hu; exact h.look u q hu
        · by_cases hx : u = t
          · simp [setPc, hx] at hu
          · simp only [setPc, hx, if_false] at hu; exact h.wait u q hu
  | update c =>
    refine ⟨?_, fun t => Nat.le_succ_of_le (h.since t), h.look, h.wait, h.conn, h.some⟩
    simp only [step, h.seq]
    omega

theorem counts (l : List Op) : Counts (run l) := by
  induction l using snoc_induction with
  | h0 => exact ⟨rfl, fun _ => Nat.le_refl _, fun t q h => (by cases h), fun t q h => (by cases h), fun t w c n h => (by simp [run] at h), fun t q c n h => (by simp [run] at h)⟩
  | h1 l o ih => rw [run_snoc]; exact counts_step ih o

/-- C129, for any number of threads: a wait for a state of the connection ends only in this state, and a wait for an update only after an update since it began -/
theorem C129_ends (l : List Op) (t : Nat) (c : Bool) (n : Nat) : (∀ want, (t, Goal.conn want, c, n) ∈ (run l).ended → c = want) ∧
    ∀ q, (t, Goal.update q, c, n) ∈ (run l).ended → 0 < n :=
  ⟨fun want h => (counts l).conn t want c n h, fun q h => Nat.pos_of_ne_zero ((counts l).some t q c n h)⟩

/-- C129: one that looks, after an update since it began (fewer than 2^32), does not go to sleep -/
theorem C129_looks (l : List Op) (t q : Nat) (h : (run l).pc t = .look (.update q)) (hu : (run l).since t < (run l).updates)
    (hw : (run l).updates - (run l).since t < 2 ^ 32) : (run (l ++ [.look t])).pc t = .idle := by
  have hc := counts l
  have hm : met (run l) (.update q) = true := by
    rw [met_iff]
    simp only [Due, hc.seq, hc.look t q h]
    omega
  rw [run_snoc]
  simp only [step, look, h, hm, if_true, setPc]

/-- C129: of two threads which wait for the same update one is not woken -/
theorem C129_two : Stuck (run [.startUpdate 0, .startUpdate 1, .look 0, .look 1, .update true, .wake 0, .look 0]) 1 :=
  ⟨.update 0, rfl, by simp [Due, run, step, start, look, wake, met, setPc], rfl⟩

/-! ### examples -/

/-- a connection, and an update which comes before the thread goes to sleep -/
example : Alone [.startConn 0 true, .look 0, .update true, .wake 0, .look 0, .startUpdate 0, .update true, .look 0] 0 ∧
    (run [.startConn 0 true, .look 0, .update true, .wake 0, .look 0, .startUpdate 0, .update true, .look 0]).ended =
      [(0, .conn true, true, 1), (0, .update 1, true, 1)] := by
  refine ⟨?_, by decide⟩
  intro o ho u hu
  simp only [List.mem_cons, List.not_mem_nil, or_false] at ho
  rcases ho with rfl | rfl | rfl | rfl | rfl | rfl | rfl | rfl <;> simp_all [Op.thread]

example : (run [.startUpdate 0, .update true]).pc 0 = .look (.update 0) ∧ (run [.startUpdate 0, .update true]).since 0 < (run [.startUpdate 0, .update true]).updates := by
  decide

end Pvxs.Props.LinkWait
