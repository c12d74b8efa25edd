import Verif.Spec.Timer
/-
C120: timers
-/
namespace Pvxs.Props.Timer
open Pvxs.Timer Pvxs.Spec.Timer

theorem split_snoc {α : Type} {l a b : List α} {x y : α} (h : l ++ [y] = a ++ x :: b) :
    (b = [] ∧ a = l ∧ x = y) ∨ ∃ b', b = b' ++ [y] ∧ l = a ++ x :: b' := by
  rcases List.eq_nil_or_concat b with hb | ⟨b', z, hb⟩
  · left
    subst hb
    have := List.append_inj' h rfl
    exact ⟨rfl, this.1.symm, by simpa using this.2.symm⟩
  · right
    subst hb
    rw [List.concat_eq_append, ← List.cons_append, ← List.append_assoc] at h
    have := List.append_inj' h rfl
    have hz : y = z := by simpa using this.2
    subst hz
    exact ⟨b', by simp, this.1⟩

/-- the three, together -/
def Good (log : List Obs) : Prop := Once log ∧ Quiet log ∧ Truthful log

theorem good_snoc (log : List Obs) (o : Obs) (h : Good log)
    (h1 : o = .called → .called ∉ log ∧ ∀ x ∈ log, ¬ Over x)
    (h2 : ∀ v, o = .cancelled v → (v = true ↔ .called ∉ log)) : Good (log ++ [o]) := by
  obtain ⟨ha, hb, hc⟩ := h
  refine ⟨?_, ?_, ?_⟩
  · unfold Once
    rw [List.count_append]
    by_cases ho : o = .called
    · have := List.count_eq_zero.mpr (h1 ho).1
      rw [this]
      subst ho
      simp
    · have : List.count Obs.called [o] = 0 := List.count_eq_zero.mpr (by simpa using fun h => ho h.symm)
      unfold Once at ha
      omega
  · intro a x b hl hx
    rcases split_snoc hl with ⟨h3, -, -⟩ | ⟨b', h3, h4⟩
    · subst h3; simp
    · subst h3
      have := hb a x b' h4 hx
      simp only [List.mem_append, List.mem_singleton, not_or]
      refine ⟨this, fun ho => ?_⟩
      exact (h1 ho.symm).2 x (by rw [h4]; simp) hx
  · intro a v b hl
    rcases split_snoc hl with ⟨-, h4, h5⟩ | ⟨b', -, h4⟩
    · rw [h4]; exact h2 v h5.symm
    · exact hc a v b' h4

/-- what is to be said agrees with what was said -/
def Due (s : St) : Obs → Prop
  | .called => False
  | .cancelled v => s.ev = none ∧ (v = true ↔ .called ∉ s.log)
  | .created => False
  | _ => True

/-- where the thread is -/
def At (s : St) : Pc → Prop
  | .idle => True
  | .creating => s.made = true ∧ s.handle = false ∧ s.ev = none ∧ s.cb = true ∧ .called ∉ s.log ∧ (∀ x ∈ s.log, ¬ Over x) ∧ s.running = false
  | .cancelling => s.handle = false ∧ s.ev ≠ none ∧ s.made = true
  | .cancelled v => s.handle = false ∧ s.ev = none ∧ (v = true ↔ .called ∉ s.log) ∧ s.made = true
  | .dropping o => s.handle = false ∧ Due s o ∧ s.made = true
  | .unwinding o => s.handle = false ∧ Due s o ∧ s.made = true
  | .done .created => s.handle = false ∧ s.ev ≠ none ∧ s.made = true
  | .done o => s.handle = false ∧ Due s o ∧ s.ev = none ∧ s.made = true

structure Inv (s : St) : Prop where
  good : Good s.log
  wait : s.ev = some true → .called ∉ s.log
  fired : s.ev = some false → .called ∈ s.log
  live : s.ev ≠ none → s.cb = true ∧ ∀ x ∈ s.log, ¬ Over x
  have' : s.handle = true → s.ev ≠ none ∧ s.made = true
  unmade : s.made = false → s.ev = none ∧ .called ∉ s.log ∧ (∀ x ∈ s.log, ¬ Over x) ∧ s.running = false
  at' : At s s.pc

theorem At.congr {s t : St} (h1 : s.made = t.made) (h2 : s.handle = t.handle) (h3 : s.ev = t.ev) (h4 : s.cb = t.cb) (h5 : s.log = t.log)
    (h6 : s.running = t.running) (p : Pc) (h : At s p) : At t p := by
  cases p <;> simp only [At] at h ⊢
  · rw [← h1, ← h2, ← h3, ← h4, ← h5, ← h6]; exact h
  · rw [← h1, ← h2, ← h3]; exact h
  · rw [← h1, ← h2, ← h3, ← h5]; exact h
  · rename_i o
    cases o <;> simp only [Due] at h ⊢ <;> (try rw [← h1, ← h2]) <;> (try rw [← h3, ← h5]) <;> exact h
  · rename_i o
    cases o <;> simp only [Due] at h ⊢ <;> (try rw [← h1, ← h2]) <;> (try rw [← h3, ← h5]) <;> exact h
  · rename_i o
    cases o <;> simp only [At, Due] at h ⊢ <;> (try rw [← h1, ← h2, ← h3]) <;> (try rw [← h5]) <;> exact h

theorem good_other (log : List Obs) (o : Obs) (h : Good log) (h1 : o ≠ .called) (h2 : ∀ v, o ≠ .cancelled v) : Good (log ++ [o]) :=
  good_snoc log o h (fun h => absurd h h1) (fun v h => absurd h (h2 v))

theorem good_cancelled (log : List Obs) (v : Bool) (h : Good log) (h1 : v = true ↔ .called ∉ log) : Good (log ++ [.cancelled v]) :=
  good_snoc log _ h (fun h => by cases h) (fun w h => by cases h; exact h1)

theorem good_due (s : St) (o : Obs) (h : Good s.log) (h1 : Due s o) : Good (s.log ++ [o]) := by
  cases o with
  | called => exact h1.elim
  | cancelled v => exact good_cancelled _ v h h1.2
  | created => exact h1.elim
  | _ => exact good_other _ _ h (by intro h; cases h) (by intro v h; cases h)

theorem pending_iff {s : St} (h : Inv s) (h1 : s.ev ≠ none) : s.pending = true ↔ .called ∉ s.log := by
  unfold St.pending
  cases he : s.ev with
  | none => exact absurd he h1
  | some b =>
    cases b with
    | true => simpa using h.wait he
    | false => simpa using h.fired he

theorem inv_create {s : St} (h : Inv s) (null worker : Bool) : Inv (create s null worker) := by
  unfold create
  split
  · exact h
  · rename_i hm
    have hm1 : s.made = false := by cases hq : s.made; rfl; exact absurd (Or.inl hq) hm
    have hm2 : s.pc = .idle := by
      by_cases hq : s.pc = .idle
      · exact hq
      · exact absurd (Or.inr hq) hm
    obtain ⟨u1, u2, u3, u4⟩ := h.unmade hm1
    have hh : s.handle = false := by
      cases hq : s.handle
      · rfl
      · exact absurd u1 (h.have' hq).1
    split
    · refine ⟨good_other _ _ h.good (by intro h; cases h) (by intro v h; cases h), ?_, ?_, ?_, ?_, ?_, ?_⟩
      · intro he; have hz : s.ev = some true := he; rw [u1] at hz; cases hz
      · intro he; have hz : s.ev = some false := he; rw [u1] at hz; cases hz
      · intro he; exact absurd u1 he
      · intro he; have hz : s.handle = true := he; rw [hh] at hz; cases hz
      · intro _
        refine ⟨u1, ?_, ?_, u4⟩
        · simp [St.say, u2]
        · intro x hx
          rcases List.mem_append.mp hx with hx | hx
          · exact u3 x hx
          · rw [List.mem_singleton.mp hx]; exact id
      · show At _ s.pc
        rw [hm2]; trivial
    · split
      · refine ⟨good_other _ _ h.good (by intro h; cases h) (by intro v h; cases h), ?_, ?_, ?_, ?_, ?_, ?_⟩
        · intro _; simp [St.say, St.start, St.make, u2]
        · intro he; cases he
        · intro _
          refine ⟨rfl, ?_⟩
          intro x hx
          rcases List.mem_append.mp hx with hx | hx
          · exact u3 x hx
          · rw [List.mem_singleton.mp hx]; exact id
        · intro _; exact ⟨(by intro h; cases h), rfl⟩
        · intro hq; cases hq
        · show At _ s.pc
          rw [hm2]; trivial
      · split
        · refine ⟨h.good, h.wait, h.fired, ?_, ?_, ?_, ?_⟩
          · intro he; exact absurd u1 he
          · intro he; have hz : s.handle = true := he; rw [hh] at hz; cases hz
          · intro hq; cases hq
          · exact ⟨rfl, hh, u1, rfl, u2, u3, u4⟩
        · refine ⟨good_other _ _ h.good (by intro h; cases h) (by intro v h; cases h), ?_, ?_, ?_, ?_, ?_, ?_⟩
          · intro he; have hz : s.ev = some true := he; rw [u1] at hz; cases hz
          · intro he; have hz : s.ev = some false := he; rw [u1] at hz; cases hz
          · intro he; exact absurd u1 he
          · intro he; have hz : s.handle = true := he; rw [hh] at hz; cases hz
          · intro hq; cases hq
          · show At _ s.pc
            rw [hm2]; trivial

/-- what is left once the event is gone -/
theorem inv_gone {s : St} (h : Good s.log) (h1 : s.ev = none) (h2 : s.handle = false) (h3 : s.made = true) (h4 : At s s.pc) : Inv s :=
  ⟨h, (by rw [h1]; intro h; cases h), (by rw [h1]; intro h; cases h), fun h => absurd h1 h, (by rw [h2]; intro h; cases h), (by rw [h3]; intro h; cases h), h4⟩

theorem inv_cancel {s : St} (h : Inv s) (worker : Bool) : Inv (cancel s worker) := by
  unfold cancel
  split
  · exact h
  · rename_i hm
    have hm2 : s.pc = .idle := by
      by_cases hq : s.pc = .idle
      · exact hq
      · exact absurd hq hm
    split
    · rename_i hh
      refine ⟨good_other _ _ h.good (by intro h; cases h) (by intro v h; cases h), ?_, ?_, ?_, ?_, ?_, ?_⟩
      · intro he; simpa [St.say] using h.wait he
      · intro he; simpa [St.say] using h.fired he
      · intro he
        refine ⟨(h.live he).1, ?_⟩
        intro x hx
        rcases List.mem_append.mp hx with hx | hx
        · exact (h.live he).2 x hx
        · rw [List.mem_singleton.mp hx]; exact id
      · exact h.have'
      · intro hq
        obtain ⟨u1, u2, u3, u4⟩ := h.unmade hq
        refine ⟨u1, by simp [St.say, u2], ?_, u4⟩
        intro x hx
        rcases List.mem_append.mp hx with hx | hx
        · exact u3 x hx
        · rw [List.mem_singleton.mp hx]; exact id
      · show At _ s.pc
        rw [hm2]; trivial
    · rename_i hh
      have hh' : s.handle = true := by cases hq : s.handle; exact absurd hq hh; rfl
      obtain ⟨e1, e2⟩ := h.have' hh'
      split
      · exact inv_gone (good_cancelled _ _ h.good (pending_iff h e1)) rfl rfl e2 (by show At _ s.pc; rw [hm2]; trivial)
      · split
        · exact ⟨h.good, h.wait, h.fired, h.live, (by intro hq; cases hq), h.unmade, ⟨rfl, e1, e2⟩⟩
        · exact ⟨h.good, h.wait, h.fired, h.live, (by intro hq; cases hq), h.unmade, ⟨rfl, trivial, e2⟩⟩

theorem inv_drop {s : St} (h : Inv s) (worker : Bool) : Inv (drop s worker) := by
  unfold drop
  split
  · exact h
  · rename_i hm
    have hm2 : s.pc = .idle := by
      by_cases hq : s.pc = .idle
      · exact hq
      · exact absurd (Or.inl hq) hm
    have hh' : s.handle = true := by cases hq : s.handle; exact absurd (Or.inr hq) hm; rfl
    obtain ⟨e1, e2⟩ := h.have' hh'
    split
    · exact inv_gone (good_other _ _ h.good (by intro h; cases h) (by intro v h; cases h)) rfl rfl e2 (by show At _ s.pc; rw [hm2]; trivial)
    · split
      · exact ⟨h.good, h.wait, h.fired, h.live, (by intro hq; cases hq), h.unmade, ⟨rfl, trivial, e2⟩⟩
      · exact ⟨h.good, h.wait, h.fired, h.live, (by intro hq; cases hq), h.unmade, ⟨rfl, trivial, e2⟩⟩

theorem inv_exec {s : St} (h : Inv s) : Inv (exec s) := by
  unfold exec
  split
  · exact h
  · have ha := h.at'
    cases hp : s.pc with
    | creating =>
      rw [hp] at ha
      obtain ⟨a1, a2, a3, a4, a5, a6, a7⟩ := ha
      exact ⟨h.good, fun _ => a5, (by intro hq; cases hq), fun _ => ⟨a4, a6⟩,
        (by intro hq; have hz : s.handle = true := hq; rw [a2] at hz; cases hz),
        (by intro hq; have hz : s.made = false := hq; rw [a1] at hz; cases hz),
        ⟨a2, (by intro hq; cases hq), a1⟩⟩
    | cancelling =>
      rw [hp] at ha
      obtain ⟨a1, a2, a3⟩ := ha
      exact inv_gone h.good rfl a1 a3 ⟨a1, rfl, pending_iff h a2, a3⟩
    | dropping o =>
      rw [hp] at ha
      obtain ⟨a1, a2, a3⟩ := ha
      refine inv_gone h.good rfl a1 a3 ?_
      cases o with
      | created => exact a2.elim
      | cancelled v => exact ⟨a1, ⟨rfl, a2.2⟩, rfl, a3⟩
      | called => exact a2.elim
      | _ => exact ⟨a1, trivial, rfl, a3⟩
    | _ => exact h

theorem inv_go {s : St} (h : Inv s) : Inv (go s) := by
  unfold go
  have ha := h.at'
  cases hp : s.pc with
  | cancelled v =>
    rw [hp] at ha
    obtain ⟨a1, a2, a3, a4⟩ := ha
    refine inv_gone h.good a2 a1 a4 ?_
    cases hu : s.up
    · exact ⟨a1, ⟨a2, a3⟩, a4⟩
    · exact ⟨a1, ⟨a2, a3⟩, a4⟩
  | unwinding o =>
    rw [hp] at ha
    obtain ⟨a1, a2, a3⟩ := ha
    show Inv (if s.running then s else _)
    split
    · exact h
    · exact inv_gone (good_due s o h.good a2) rfl a1 a3 trivial
  | done o =>
    rw [hp] at ha
    by_cases ho : o = .created
    · subst ho
      obtain ⟨a1, a2, a3⟩ := ha
      refine ⟨good_other _ _ h.good (by intro h; cases h) (by intro v h; cases h), ?_, ?_, ?_, ?_, ?_, trivial⟩
      · intro he; simpa [St.say] using h.wait he
      · intro he; simpa [St.say] using h.fired he
      · intro he
        refine ⟨(h.live he).1, ?_⟩
        intro x hx
        rcases List.mem_append.mp hx with hx | hx
        · exact (h.live he).2 x hx
        · rw [List.mem_singleton.mp hx]; exact id
      · intro _; exact ⟨a2, a3⟩
      · intro hq; have hz : s.made = false := hq; rw [a3] at hz; cases hz
    · have hb : s.handle = false ∧ Due s o ∧ s.ev = none ∧ s.made = true := by
        cases o <;> first | exact absurd rfl ho | exact ha
      obtain ⟨a1, a2, a3, a4⟩ := hb
      exact inv_gone (good_due s o h.good a2) a3 (by show decide _ = false; simp [ho]) a4 trivial
  | _ => exact h

theorem inv_expire {s : St} (h : Inv s) : Inv (expire s) := by
  unfold expire
  split
  · rename_i hc
    obtain ⟨-, c2⟩ := hc
    have hne : s.ev ≠ none := by rw [c2]; simp
    have hlv := h.live hne
    have hm : s.made = true := by
      cases hq : s.made
      · exact absurd (h.unmade hq).1 hne
      · rfl
    refine ⟨good_snoc _ _ h.good (fun _ => ⟨h.wait c2, hlv.2⟩) (fun v hv => by cases hv), ?_, ?_, ?_, ?_, ?_, ?_⟩
    · intro hq; cases hq
    · intro _; simp [St.say]
    · intro _
      refine ⟨hlv.1, ?_⟩
      intro x hx
      rcases List.mem_append.mp hx with hx | hx
      · exact hlv.2 x hx
      · rw [List.mem_singleton.mp hx]; exact id
    · intro _; exact ⟨by simp, hm⟩
    · intro hq; have hz : s.made = false := hq; rw [hm] at hz; cases hz
    · have ha := h.at'
      show At _ s.pc
      have due : ∀ o, Due s o → Due { s.say .called with ev := some false, running := true } o := by
        intro o ho
        cases o with
        | cancelled v => exact absurd ho.1 hne
        | called => exact ho.elim
        | created => exact ho.elim
        | _ => trivial
      cases hp : s.pc with
      | idle => trivial
      | creating => rw [hp] at ha; exact absurd ha.2.2.1 hne
      | cancelling => rw [hp] at ha; exact ⟨ha.1, by simp, hm⟩
      | cancelled v => rw [hp] at ha; exact absurd ha.2.1 hne
      | dropping o => rw [hp] at ha; exact ⟨ha.1, due o ha.2.1, hm⟩
      | unwinding o => rw [hp] at ha; exact ⟨ha.1, due o ha.2.1, hm⟩
      | done o =>
        rw [hp] at ha
        cases o <;> first
          | exact ⟨ha.1, by simp, hm⟩
          | exact absurd ha.2.2.1 hne
  · exact h

theorem inv_ends {s : St} (h : Inv s) (x : Ended) : Inv (ends s x) := by
  unfold ends
  split
  · rename_i hr
    refine ⟨h.good, h.wait, h.fired, h.live, h.have', ?_, ?_⟩
    · intro hq
      exact absurd hr (by rw [(h.unmade hq).2.2.2]; simp)
    · have ha := h.at'
      show At _ s.pc
      cases hp : s.pc with
      | creating => rw [hp] at ha; exact absurd hr (by rw [ha.2.2.2.2.2.2]; simp)
      | dropping o => rw [hp] at ha; cases o <;> exact ha
      | unwinding o => rw [hp] at ha; cases o <;> exact ha
      | done o => rw [hp] at ha; cases o <;> exact ha
      | _ => rw [hp] at ha; exact ha
  · exact h

theorem inv_stop {s : St} (h : Inv s) : Inv { s with up := false } :=
  ⟨h.good, h.wait, h.fired, h.live, h.have', h.unmade, h.at'.congr rfl rfl rfl rfl rfl rfl⟩

theorem inv_step {s : St} (h : Inv s) (o : Op) : Inv (step s o) := by
  unfold step
  split
  · exact h
  · cases o with
    | create n => exact inv_create h n false
    | createW n => exact inv_create h n true
    | cancel => exact inv_cancel h false
    | cancelW => exact inv_cancel h true
    | drop => exact inv_drop h false
    | dropW => exact inv_drop h true
    | exec => exact inv_exec h
    | go => exact inv_go h
    | expire => exact inv_expire h
    | ends x => exact inv_ends h x
    | stop => exact inv_stop h

theorem inv_init : Inv {} := by
  refine ⟨⟨by simp [Once], ?_, ?_⟩, by simp, by simp, by simp, by simp, by simp, trivial⟩
  · intro a x b h; simp at h
  · intro a x b h; simp at h

theorem inv_run (os : List Op) : Inv (run os) := by
  unfold run
  have key : ∀ (os : List Op) (s : St), Inv s → Inv (os.foldl step s) := by
    intro os
    induction os with
    | nil => exact fun s h => h
    | cons o os ih => exact fun s h => ih _ (inv_step h o)
  exact key os _ inv_init

/-- The callback of a timer is called at most once, whatever the order of the threads. -/
theorem C120_once (os : List Op) : Once (run os).log := (inv_run os).good.1

/-- Once cancel() or the destructor have returned, or cancel() has thrown because the server is gone, no call begins. -/
theorem C120_quiet (os : List Op) : Quiet (run os).log := (inv_run os).good.2.1

/-- cancel() returns true if and only if the callback was not called, and then never is. -/
theorem C120_truthful (os : List Op) : Truthful (run os).log := (inv_run os).good.2.2

/-- cancel() returns true, and the callback is never called, before or afterwards -/
theorem C120_cancelled (os os' : List Op) (h : .cancelled true ∈ (run os).log) : .called ∉ (run (os ++ os')).log := by
  have hpre : ∀ (os' : List Op) (s : St), ∃ l, (os'.foldl step s).log = s.log ++ l := by
    intro os'
    induction os' with
    | nil => exact fun s => ⟨[], by simp⟩
    | cons o os' ih =>
      intro s
      obtain ⟨l, hl⟩ := ih (step s o)
      have hs : ∃ m, (step s o).log = s.log ++ m := by
        unfold step
        split
        · exact ⟨[], by simp⟩
        · cases o <;> simp only [create, cancel, drop, exec, go, expire, ends] <;> (repeat' split) <;>
            first
            | (refine ⟨[], ?_⟩; simp [St.body, St.start, St.make]; done)
            | exact ⟨_, rfl⟩
      obtain ⟨m, hm⟩ := hs
      exact ⟨m ++ l, by rw [List.foldl_cons, hl, hm, List.append_assoc]⟩
  obtain ⟨l, hl⟩ := hpre os' (run os)
  have hr : run (os ++ os') = os'.foldl step (run os) := by simp [run]
  have hmem : Obs.cancelled true ∈ (run (os ++ os')).log := by rw [hr, hl]; exact List.mem_append.mpr (Or.inl h)
  obtain ⟨a, b, hab⟩ := List.append_of_mem hmem
  have h1 := (C120_truthful (os ++ os') a true b hab).mp rfl
  have h2 := C120_quiet (os ++ os') a _ b hab trivial
  rw [hab]
  simp only [List.mem_append, List.mem_cons, not_or]
  exact ⟨h1, (by intro h; cases h), h2⟩


/-- a callback which was cancelled before it was due -/
example : (run [.create false, .exec, .go, .cancel, .exec, .expire, .go, .exec, .go]).log = [.created, .cancelled true] := by decide
/-- and one which was too late: cancel() returns once the callback has ended -/
example : (run [.create false, .exec, .go, .expire, .cancel, .exec, .ends .returns, .exec, .go, .exec, .go]).log = [.created, .called, .cancelled false] := by decide

/-- once it is to return, no callback runs -/
theorem done_still (os : List Op) (o : Obs) (h : (run os).pc = .done o) (ho : o ≠ .created) : (run os).running = false := by
  have key : ∀ (s : St), Inv s → (∀ o, s.pc = .done o → o ≠ .created → s.running = false) → ∀ p : Op,
      ∀ o, (step s p).pc = .done o → o ≠ .created → (step s p).running = false := by
    intro s hi hs p o
    unfold step
    split
    · exact hs o
    · cases p with
      | create n =>
        show (create s n false).pc = _ → _ → (create s n false).running = false
        unfold create
        split
        · exact hs o
        · split
          · exact hs o
          · split
            · exact hs o
            · split
              · intro h; cases h
              · exact hs o
      | createW n =>
        show (create s n true).pc = _ → _ → (create s n true).running = false
        unfold create
        split
        · exact hs o
        · split
          · exact hs o
          · split
            · exact hs o
            · split
              · intro h; cases h
              · exact hs o
      | cancel =>
        show (cancel s false).pc = _ → _ → (cancel s false).running = false
        unfold cancel
        split
        · exact hs o
        · split
          · exact hs o
          · split
            · exact hs o
            · split <;> (intro h; cases h)
      | cancelW =>
        show (cancel s true).pc = _ → _ → (cancel s true).running = false
        unfold cancel
        split
        · exact hs o
        · split
          · exact hs o
          · split
            · exact hs o
            · split <;> (intro h; cases h)
      | drop =>
        show (drop s false).pc = _ → _ → (drop s false).running = false
        unfold drop
        split
        · exact hs o
        · split
          · exact hs o
          · split <;> (intro h; cases h)
      | dropW =>
        show (drop s true).pc = _ → _ → (drop s true).running = false
        unfold drop
        split
        · exact hs o
        · split
          · exact hs o
          · split <;> (intro h; cases h)
      | exec =>
        show (exec s).pc = _ → _ → (exec s).running = false
        unfold exec
        split
        · exact hs o
        · rename_i hr
          have hr' : s.running = false := by cases hq : s.running; rfl; exact absurd hq hr
          cases s.pc <;> exact fun _ _ => hr'
      | go =>
        show (go s).pc = _ → _ → (go s).running = false
        unfold go
        cases hp : s.pc with
        | cancelled v =>
          show (if s.up then Pc.dropping (.cancelled v) else .unwinding (.cancelled v)) = _ → _
          split <;> (intro h; cases h)
        | unwinding x =>
          show (if s.running then s else _).pc = _ → _ → (if s.running then s else _).running = false
          split
          · exact hs o
          · intro h; cases h
        | done x => intro h; cases h
        | _ => exact hs o
      | expire =>
        show (expire s).pc = _ → _ → (expire s).running = false
        unfold expire
        split
        · rename_i hc
          intro hp ho
          have ha := hi.at'
          have hp' : s.pc = .done o := hp
          rw [hp'] at ha
          have : s.ev = none := by cases o <;> first | exact absurd rfl ho | exact ha.2.2.1
          rw [this] at hc
          cases hc.2
        · exact hs o
      | ends x =>
        show (ends s x).pc = _ → _ → (ends s x).running = false
        unfold ends
        split
        · exact fun _ _ => rfl
        · exact hs o
      | stop => exact hs o
  have main : ∀ (os : List Op) (s : St), Inv s → (∀ o, s.pc = .done o → o ≠ .created → s.running = false) →
      ∀ o, (os.foldl step s).pc = .done o → o ≠ .created → (os.foldl step s).running = false := by
    intro os
    induction os with
    | nil => exact fun s _ h => h
    | cons p os ih => exact fun s hi h => ih _ (inv_step hi p) (key s hi h p)
  exact main os {} inv_init (by intro o h; cases h) o h ho

/-- When cancel() or the destructor return to another thread than the worker, the callback does not run: what it uses may be destroyed. -/
theorem C120_still (os : List Op) (o : Obs) (h : (step (run os) .go).log = (run os).log ++ [o]) (ho : Over o) : (run os).running = false := by
  unfold step at h
  split at h
  · exact absurd (congrArg List.length h) (by simp)
  · have h' : (go (run os)).log = (run os).log ++ [o] := h
    unfold go at h'
    cases hp : (run os).pc with
    | unwinding x =>
      rw [hp] at h'
      cases hr : (run os).running
      · rfl
      · simp only [hr] at h'
        exact absurd (congrArg List.length h') (by simp)
    | done x =>
      rw [hp] at h'
      have hx : x = o := by simpa [St.say] using h'
      subst hx
      exact done_still os x hp (by intro hq; subst hq; exact ho)
    | _ =>
      rw [hp] at h'
      exact absurd (congrArg List.length h') (by simp)

/-- such a return -/
example : (step (run [.create false, .exec, .go, .expire, .drop, .ends .throws, .exec]) .go).log = [.created, .called] ++ [.dropped] ∧ Over .dropped := by
  refine ⟨by decide, trivial⟩

/-- A thread in cancel() gets a result once the callback has ended, if it was running. -/
theorem C120_returns (os : List Op) (h : (run os).pc = .cancelling) (hd : (run os).dead = false) :
    ∃ v, (run (os ++ [.ends .returns, .exec, .go, .exec, .go])).log = (run os).log ++ [.cancelled v] := by
  have hr : run (os ++ [.ends .returns, .exec, .go, .exec, .go]) = [Op.ends .returns, .exec, .go, .exec, .go].foldl step (run os) := by
    unfold run; rw [List.foldl_append]
  rw [hr]
  generalize run os = s at h hd
  obtain ⟨a1, a2, a3, a4, a5, a6, a7, a8, a9, a10⟩ := s
  simp only at h hd
  subst h hd
  cases a6 <;> cases a3 <;> exact ⟨_, rfl⟩

example : (run [.create false, .exec, .go, .expire, .cancel]).pc = .cancelling := by decide

/-- A timer which was given up has no handle: cancel() throws. -/
theorem C120_null (os : List Op) (h : (run os).pc = .idle) (hd : (run os).dead = false) (x : Obs) (hx : x ∈ (run os).log) (ho : Over x) :
    (step (run os) .cancel).log = (run os).log ++ [.nullTimer] ∧ (step (run os) .cancelW).log = (run os).log ++ [.nullTimer] := by
  have hi := inv_run os
  have hh : (run os).handle = false := by
    cases hq : (run os).handle
    · rfl
    · exact absurd ho ((hi.live (hi.have' hq).1).2 x hx)
  unfold step
  rw [hd]
  simp [cancel, h, hh, St.say]

example : (step (run [.createW false, .cancelW]) .cancel).log = [.created, .cancelled true, .nullTimer] := by decide

/-- After the server was stopped cancel() does not tell whether the callback was called, it throws. -/
theorem C120_stopped (os : List Op) (h : (run os).pc = .idle) (hd : (run os).dead = false) (hh : (run os).handle = true) (hu : (run os).up = false)
    (hr : (run os).running = false) : (run (os ++ [.cancel, .go])).log = (run os).log ++ [.stopped] := by
  have hq : run (os ++ [.cancel, .go]) = [Op.cancel, .go].foldl step (run os) := by unfold run; rw [List.foldl_append]
  rw [hq]
  generalize run os = s at h hd hh hu hr
  obtain ⟨a1, a2, a3, a4, a5, a6, a7, a8, a9, a10⟩ := s
  simp only at h hd hh hu hr
  subst h hd hh hu hr
  rfl

example : (run [.createW false, .stop, .cancel, .go]).log = [.created, .stopped] := by decide

/-- The function is destroyed while it runs only if the timer is cancelled or destroyed by the worker while the callback runs, which is from inside of it. -/
theorem C120_freed_partial (os : List Op) (h : ∀ a o b, os = a ++ o :: b → o = .cancelW ∨ o = .dropW → (run a).running = false) :
    (run os).freed = false := by
  have key : ∀ (s : St) (p : Op), Inv s → s.freed = false → (p = .cancelW ∨ p = .dropW → s.running = false) → (step s p).freed = false := by
    intro s p hi hf hp
    unfold step
    split
    · exact hf
    · cases p with
      | create n =>
        show (create s n false).freed = false
        unfold create
        repeat' split
        all_goals exact hf
      | createW n =>
        show (create s n true).freed = false
        unfold create
        repeat' split
        all_goals exact hf
      | cancel =>
        show (cancel s false).freed = false
        unfold cancel
        split
        · exact hf
        · split
          · exact hf
          · split
            · rename_i hq; cases hq
            · split <;> exact hf
      | cancelW =>
        have hr := hp (Or.inl rfl)
        show (cancel s true).freed = false
        unfold cancel
        split
        · exact hf
        · split
          · exact hf
          · split
            · show (s.freed || (s.running && s.cb)) = false
              rw [hf, hr]; rfl
            · split <;> exact hf
      | drop =>
        show (drop s false).freed = false
        unfold drop
        split
        · exact hf
        · split
          · rename_i hq; cases hq
          · split <;> exact hf
      | dropW =>
        have hr := hp (Or.inr rfl)
        show (drop s true).freed = false
        unfold drop
        split
        · exact hf
        · split
          · show (s.freed || (s.running && s.cb)) = false
            rw [hf, hr]; rfl
          · split <;> exact hf
      | exec =>
        show (exec s).freed = false
        unfold exec
        split
        · exact hf
        · rename_i hr
          have hr' : s.running = false := by cases hq : s.running; rfl; exact absurd hq hr
          have hb : s.body.freed = false := by show (s.freed || (s.running && s.cb)) = false; rw [hf, hr']; rfl
          cases s.pc <;> first | exact hf | exact hb
      | go =>
        show (go s).freed = false
        unfold go
        cases s.pc with
        | unwinding x =>
          show (if s.running then s else { s.body.say x with pc := .idle }).freed = false
          split
          · exact hf
          · rename_i hr
            have hr' : s.running = false := by cases hq : s.running; rfl; exact absurd hq hr
            show (s.freed || (s.running && s.cb)) = false
            rw [hf, hr']; rfl
        | _ => exact hf
      | expire =>
        show (expire s).freed = false
        unfold expire
        split <;> exact hf
      | ends x =>
        show (ends s x).freed = false
        unfold ends
        split <;> exact hf
      | stop => exact hf
  have main : ∀ (b a : List Op), (run a).freed = false → (∀ c o d, a ++ b = c ++ o :: d → o = .cancelW ∨ o = .dropW → (run c).running = false) →
      (run (a ++ b)).freed = false := by
    intro b
    induction b with
    | nil => intro a ha _; rw [List.append_nil]; exact ha
    | cons p b ih =>
      intro a ha hp
      have : a ++ p :: b = (a ++ [p]) ++ b := by simp
      rw [this]
      apply ih
      · have hr : run (a ++ [p]) = step (run a) p := by unfold run; rw [List.foldl_append]; rfl
        rw [hr]
        exact key _ p (inv_run a) ha (hp a p b rfl)
      · intro c o d hc
        exact hp c o d (by rw [this]; exact hc)
  exact main os [] rfl (by intro c o d hc; exact h c o d (by simpa using hc))

/-- A callback which cancels its own timer is destroyed, with all that it has captured, before it returns. -/
theorem C120_freed_false : ¬ ∀ os, (run os).freed = false := fun h => absurd (h [.createW false, .expire, .cancelW]) (by decide)

/-- in general: whenever the callback runs and the handle is still held -/
theorem C120_freed (os : List Op) (h : (run os).running = true) (hd : (run os).dead = false) (hp : (run os).pc = .idle) (hh : (run os).handle = true) :
    (step (run os) .cancelW).freed = true ∧ (step (run os) .dropW).freed = true := by
  have hi := inv_run os
  have hc := (hi.live (hi.have' hh).1).1
  unfold step
  rw [hd]
  simp [cancel, drop, hp, hh, h, hc, St.say, St.body]

example : (run [.createW false, .expire]).running = true ∧ (run [.createW false, .expire]).handle = true := by decide

/-- What a callback throws is kept from the event loop if it is a std::exception; anything else ends the process. -/
theorem C120_throws (os : List Op) (x : Ended) (h : (run os).running = true) (hd : (run os).dead = false) :
    (step (run os) (.ends x)).dead = true ↔ x = .other := by
  unfold step
  rw [hd]
  simp [ends, h]


/-- nothing is left of the function once the timer was given up -/
structure Rel (s : St) : Prop where
  over : ∀ x ∈ s.log, Over x → s.cb = false
  done : ∀ o, s.pc = .done o → o ≠ .created → s.cb = false
  fresh : s.made = false → s.cb = false

theorem rel_say {s : St} (h : Rel s) (o : Obs) (ho : ¬ Over o) : ∀ x ∈ s.log ++ [o], Over x → s.cb = false := by
  intro x hx hov
  rcases List.mem_append.mp hx with hx | hx
  · exact h.over x hx hov
  · rw [List.mem_singleton.mp hx] at hov; exact absurd hov ho

theorem rel_create {s : St} (hi : Inv s) (h : Rel s) (null worker : Bool) : Rel (create s null worker) := by
  unfold create
  split
  · exact h
  · rename_i hm
    have hm1 : s.made = false := by cases hq : s.made; rfl; exact absurd (Or.inl hq) hm
    have hm2 : s.pc = .idle := by
      by_cases hq : s.pc = .idle
      · exact hq
      · exact absurd (Or.inr hq) hm
    obtain ⟨u1, u2, u3, u4⟩ := hi.unmade hm1
    split
    · exact ⟨rel_say h _ id, h.done, h.fresh⟩
    · split
      · refine ⟨?_, ?_, fun hq => by cases hq⟩
        · intro x hx hov
          rcases List.mem_append.mp hx with hx | hx
          · exact absurd hov (u3 x hx)
          · rw [List.mem_singleton.mp hx] at hov; exact hov.elim
        · intro o ho
          have : s.pc = .done o := ho
          rw [hm2] at this; cases this
      · split
        · exact ⟨fun x hx hov => absurd hov (u3 x hx), (fun o ho => by cases ho), (fun hq => by cases hq)⟩
        · have hcb : s.cb = false := by
            exact h.fresh hm1
          exact ⟨fun _ _ _ => hcb, fun _ _ _ => hcb, fun _ => hcb⟩

theorem rel_step {s : St} (hi : Inv s) (h : Rel s) (p : Op) : Rel (step s p) := by
  unfold step
  split
  · exact h
  · cases p with
    | create n => exact rel_create hi h n false
    | createW n => exact rel_create hi h n true
    | cancel =>
      show Rel (cancel s false)
      unfold cancel
      split
      · exact h
      · split
        · exact ⟨rel_say h _ id, h.done, h.fresh⟩
        · split
          · exact ⟨fun _ _ _ => rfl, fun _ _ _ => rfl, fun _ => rfl⟩
          · split
            · exact ⟨h.over, (fun o ho => by cases ho), h.fresh⟩
            · exact ⟨h.over, (fun o ho => by cases ho), h.fresh⟩
    | cancelW =>
      show Rel (cancel s true)
      unfold cancel
      split
      · exact h
      · split
        · exact ⟨rel_say h _ id, h.done, h.fresh⟩
        · split
          · exact ⟨fun _ _ _ => rfl, fun _ _ _ => rfl, fun _ => rfl⟩
          · split
            · exact ⟨h.over, (fun o ho => by cases ho), h.fresh⟩
            · exact ⟨h.over, (fun o ho => by cases ho), h.fresh⟩
    | drop =>
      show Rel (drop s false)
      unfold drop
      split
      · exact h
      · split
        · exact ⟨fun _ _ _ => rfl, fun _ _ _ => rfl, fun _ => rfl⟩
        · split
          · exact ⟨h.over, (fun o ho => by cases ho), h.fresh⟩
          · exact ⟨h.over, (fun o ho => by cases ho), h.fresh⟩
    | dropW =>
      show Rel (drop s true)
      unfold drop
      split
      · exact h
      · split
        · exact ⟨fun _ _ _ => rfl, fun _ _ _ => rfl, fun _ => rfl⟩
        · split
          · exact ⟨h.over, (fun o ho => by cases ho), h.fresh⟩
          · exact ⟨h.over, (fun o ho => by cases ho), h.fresh⟩
    | exec =>
      show Rel (exec s)
      unfold exec
      split
      · exact h
      · cases hp : s.pc with
        | creating => exact ⟨h.over, (fun o ho hne => by cases ho; exact absurd rfl hne), h.fresh⟩
        | cancelling => exact ⟨fun _ _ _ => rfl, fun _ _ _ => rfl, fun _ => rfl⟩
        | dropping o => exact ⟨fun _ _ _ => rfl, fun _ _ _ => rfl, fun _ => rfl⟩
        | _ => exact h
    | go =>
      show Rel (go s)
      unfold go
      cases hp : s.pc with
      | cancelled v =>
        refine ⟨h.over, ?_, h.fresh⟩
        intro o ho
        have : (if s.up then Pc.dropping (.cancelled v) else .unwinding (.cancelled v)) = .done o := ho
        split at this <;> cases this
      | unwinding o =>
        show Rel (if s.running then s else _)
        split
        · exact h
        · exact ⟨fun _ _ _ => rfl, fun _ _ _ => rfl, fun _ => rfl⟩
      | done o =>
        refine ⟨?_, (fun o ho => by cases ho), h.fresh⟩
        by_cases hc : o = .created
        · subst hc; exact rel_say h _ id
        · exact fun _ _ _ => h.done o hp hc
      | _ => exact h
    | expire =>
      show Rel (expire s)
      unfold expire
      split
      · exact ⟨rel_say h _ id, h.done, h.fresh⟩
      · exact h
    | ends x =>
      show Rel (ends s x)
      unfold ends
      split
      · exact ⟨h.over, h.done, h.fresh⟩
      · exact h
    | stop => exact ⟨h.over, h.done, h.fresh⟩

/-- Once cancel() or the destructor have returned the callback is destroyed, and with it what it has captured. -/
theorem C120_released (os : List Op) (x : Obs) (hx : x ∈ (run os).log) (ho : Over x) : (run os).cb = false := by
  have key : ∀ (os : List Op) (s : St), Inv s → Rel s → Rel (os.foldl step s) := by
    intro os
    induction os with
    | nil => exact fun s _ h => h
    | cons p os ih => exact fun s hi h => ih _ (inv_step hi p) (rel_step hi h p)
  exact (key os {} inv_init ⟨fun _ _ _ => rfl, fun _ _ _ => rfl, fun _ => rfl⟩).over x hx ho

example : (run [.create false, .exec, .go, .cancel, .exec, .go, .exec]).cb = false ∧ (run [.create false, .exec, .go, .cancel]).cb = true := by decide


end Pvxs.Props.Timer
