import Verif.Spec.IocLife
/-
C115: the PVA server of an IOC serves while the IOC runs, and if QSRV is enabled.
-/
namespace Pvxs.Props.IocLife
open Pvxs Pvxs.IocLife Pvxs.Spec.IocLife

/-! ### enabled or not -/

theorem isPrefixOf_iff (t s : Str) : t.isPrefixOf s = true ↔ ∃ b, s = t ++ b := by
  rw [List.isPrefixOf_iff_prefix]
  constructor
  · rintro ⟨b, h⟩; exact ⟨b, h.symm⟩
  · rintro ⟨b, h⟩; exact ⟨b, h.symm⟩

theorem contains_iff (s t : Str) : contains s t = true ↔ ∃ a b, s = a ++ t ++ b := by
  induction s with
  | nil =>
    cases t <;> simp [contains]
  | cons x s ih =>
    simp only [contains, Bool.or_eq_true, isPrefixOf_iff, ih]
    constructor
    · rintro (⟨b, h⟩ | ⟨a, b, h⟩)
      · exact ⟨[], b, by simpa using h⟩
      · exact ⟨x :: a, b, by simp [h]⟩
    · rintro ⟨a, b, h⟩
      cases a with
      | nil => exact .inl ⟨b, by simpa using h⟩
      | cons y a =>
        simp only [List.cons_append, List.cons.injEq] at h
        exact .inr ⟨a, b, h.2⟩

/-- QSRV counts as enabled if and only if it was not turned off. -/
theorem C115_enabled (e : Env) : enable2 e = true ↔ ¬ TurnedOff e := by
  obtain ⟨q, ig, en⟩ := e
  have hig : (ig.map (contains · tQsrv2)).getD false = true ↔ ∃ v, ig = some v ∧ ∃ a b, v = a ++ tQsrv2 ++ b := by
    cases ig with
    | none => simp
    | some v => simpa using contains_iff v tQsrv2
  have hno : (en.map (sameCase · tNO)).getD false = true ↔ ∃ v, en = some v ∧ v.map upper = tNO := by
    cases en with
    | none => simp
    | some v =>
      have : tNO.map upper = tNO := by decide
      simp [sameCase, this]
  have hyn : (en.map (sameCase · tYES)).getD false = true → ¬ ∃ v, en = some v ∧ v.map upper = tNO := by
    cases en with
    | none => simp
    | some v =>
      intro h
      have h1 : v.map upper = tYES := by
        have : tYES.map upper = tYES := by decide
        simpa [sameCase, this] using h
      rintro ⟨w, hw, h2⟩
      cases hw
      rw [h1] at h2
      exact absurd h2 (by decide)
  unfold TurnedOff
  simp only [← hig, enable2, request]
  cases q
  · cases h1 : (ig.map (contains · tQsrv2)).getD false
    · cases h2 : (en.map (sameCase · tYES)).getD false
      · rw [← hno]
        cases h3 : (en.map (sameCase · tNO)).getD false <;> simp [h1, h2, h3]
      · have := hyn h2
        simp [h1, h2]
        intro v hv hw
        exact this ⟨v, hv, hw⟩
    · simp [h1]
  · simp

/-- The commands of QSRV exist if and only if it is enabled, whatever the IOC does. -/
theorem hook_commands (s : St) (h : Hook) : (hook s h).commands = s.commands := by
  unfold hook
  split
  · rfl
  · cases h <;> simp only [St.makeServer, St.linkAlloc, St.linkInit, St.withServer, St.exitBefore, St.exitAfter] <;> (repeat' split) <;> rfl

theorem C115_commands (e : Env) (as : List Act) : (ioc e as).commands = enable2 e := by
  have key : ∀ (as : List Act) (s : St), (as.foldl act s).commands = s.commands := by
    intro as
    induction as with
    | nil => intro s; rfl
    | cons a as ih =>
      intro s
      rw [List.foldl_cons, ih]
      have : ∀ (hs : List Hook) (s : St), (hs.foldl hook s).commands = s.commands := by
        intro hs
        induction hs with
        | nil => intro s; rfl
        | cons h hs ih => intro s; rw [List.foldl_cons, ih, hook_commands]
      exact this _ s
  rw [ioc, key]
  rfl

/-! ### the life of the server -/

/-- what holds in each state -/
def Fits (p : Phase) (s : St) : Prop :=
  s.dead = false ∧ s.hooked = true ∧ match p with
  | .loaded => s.srv = some {} ∧ s.links = false
  | .built => s.srv = some ⟨false, true, true⟩ ∧ s.links = true
  | .running => s.srv = some ⟨true, true, true⟩ ∧ s.links = true
  | .paused => s.srv = some ⟨false, true, true⟩ ∧ s.links = true
  | .down => s.srv = none ∧ s.links = false

theorem fits_next (p q : Phase) (a : Act) (s : St) (h : Fits p s) (hn : next p a = some q) : Fits q (act s a) := by
  obtain ⟨srv, hooked, commands, links, up, dead⟩ := s
  cases p <;> cases a <;> simp only [next, Option.some.injEq, reduceCtorEq] at hn <;> subst hn <;>
    simp only [Fits] at h <;> obtain ⟨h1, h2, h3, h4⟩ := h <;> subst h1 h2 h3 h4 <;>
    simp [Fits, act, hooks, hook, St.makeServer, St.linkAlloc, St.linkInit, St.withServer, St.exitBefore, St.exitAfter, addSingle, addGroup]

theorem fits_all (as : List Act) : ∀ (p q : Phase) (s : St), Fits p s → phase p as = some q → Fits q (as.foldl act s) := by
  induction as with
  | nil => intro p q s h hp; simp only [phase, Option.some.injEq] at hp; subst hp; exact h
  | cons a as ih =>
    intro p q s h hp
    cases hn : next p a with
    | none => simp [phase, hn] at hp
    | some r =>
      simp only [phase, hn, Option.bind_some] at hp
      exact ih r q _ (fits_next p r a s h hn) hp

theorem ioc_fits (e : Env) (as : List Act) (p : Phase) (h : phase .loaded as = some p) : Fits p (ioc e as) :=
  fits_all as .loaded p _ ⟨rfl, rfl, rfl, rfl⟩ h

/-- In every history which EPICS Base allows, records and groups are served while the IOC runs. -/
theorem C115_serves (e : Env) (as : List Act) (h : phase .loaded as = some .running) : Serves (ioc e as) = true := by
  obtain ⟨-, -, h1, -⟩ := ioc_fits e as _ h
  simp [Serves, h1]

/-- While it does not, before, paused or after, no client can connect. -/
theorem C115_silent (e : Env) (as : List Act) (p : Phase) (h : phase .loaded as = some p) (hp : p ≠ .running) : Silent (ioc e as) = true := by
  have := ioc_fits e as p h
  cases p <;> simp only [Fits] at this <;> first | exact absurd rfl hp | (obtain ⟨-, -, h1, -⟩ := this; simp [Silent, h1])

/-- No hook ends the process. -/
theorem C115_alive (e : Env) (as : List Act) (p : Phase) (h : phase .loaded as = some p) : (ioc e as).dead = false := (ioc_fits e as p h).1

/-- A server which is there already is kept, with its sources, when the database is prepared. -/
theorem C115_kept (s : St) (v : Srv) (h : s.srv = some v) : (hook s .afterPrepareDatabase).srv = some v := by
  unfold hook
  split
  · exact h
  · show s.makeServer.srv = some v
    unfold St.makeServer
    rw [h]
    exact h

example : (hook { hooked := true, srv := some { running := true, single := true } } .afterPrepareDatabase).srv = some { running := true, single := true } := by decide

/-- A second IOC in the same process begins without the sources of the first. -/
theorem C115_again (e : Env) (as : List Act) (h : phase .loaded as = some .loaded) : (ioc e as).srv = some {} := (ioc_fits e as _ h).2.2.1

/-- QSRV which is turned off serves records all the same: turning it off removes its commands only.  This holds for every way to turn it off. -/
theorem C115_not_off (e : Env) (_ : TurnedOff e) : Serves (ioc e [.build, .run]) = true ∧ (ioc e [.build, .run]).commands = false := by
  refine ⟨C115_serves e _ rfl, ?_⟩
  rw [C115_commands]
  cases h : enable2 e
  · rfl
  · rename_i ht
    exact absurd ht ((C115_enabled e).mp h)

/-- in particular for PVXS_QSRV_ENABLE=NO -/
theorem C115_off_false : ¬ ∀ e, TurnedOff e → Serves (ioc e [.build, .run]) = false := by
  intro h
  have h1 := h { enable := some tNO } (.inr (.inr ⟨tNO, rfl, by decide⟩))
  rw [C115_serves _ _ rfl] at h1
  cases h1

/-! ### ioc::server() -/

/-- When the server is not taken away while ioc::server() is at work, it gives the server, or throws if there is none. -/
theorem C115_server_partial (r : Race) (h1 : r.tested = false) (h2 : r.got = none) :
    (raceStep (raceStep r .test) .copy).got = some (if r.srv then .handle else .thrown) := by
  obtain ⟨s, t, g⟩ := r
  simp only at h1 h2
  subst h1 h2
  cases s <;> rfl

/-- When another thread shuts the IOC down meanwhile, ioc::server() may give a Server without an instance, since the mutex is not held. -/
theorem C115_server_empty : (race [.test, .take, .copy]).got = some .empty := by decide

/-- That needs this order: what is returned is empty only if the server was taken after the test and before the copy. -/
theorem C115_server_only (l : List Step) (h : (race l).got = some .empty) : ∃ a b c, l = a ++ .test :: (b ++ .take :: c) := by
  have key : ∀ l : List Step, ((race l).tested = true → ∃ a b, l = a ++ .test :: b ∧ .take ∉ a) ∧
      ((race l).got = some .empty → ∃ a b c, l = a ++ .test :: (b ++ .take :: c)) ∧
      ((race l).srv = true → .take ∉ l) ∧
      ((race l).tested = true → (race l).srv = false → ∃ a b c, l = a ++ .test :: (b ++ .take :: c)) := by
    intro l
    have ext : ∀ (l : List Step) (x : Step), race (l ++ [x]) = raceStep (race l) x := by intro l x; simp [race]
    have rev : ∀ (P : List Step → Prop), P [] → (∀ l x, P l → P (l ++ [x])) → ∀ l, P l := by
      intro P h0 h1 l
      have : ∀ m : List Step, P m.reverse := by
        intro m
        induction m with
        | nil => exact h0
        | cons x m ih => rw [List.reverse_cons]; exact h1 _ _ ih
      simpa using this l.reverse
    refine rev (fun l => ((race l).tested = true → ∃ a b, l = a ++ .test :: b ∧ .take ∉ a) ∧
      ((race l).got = some .empty → ∃ a b c, l = a ++ .test :: (b ++ .take :: c)) ∧
      ((race l).srv = true → .take ∉ l) ∧
      ((race l).tested = true → (race l).srv = false → ∃ a b c, l = a ++ .test :: (b ++ .take :: c))) ?_ ?_ l
    · simp [race]
    · intro l x ⟨i1, i2, i3, i4⟩
      have grow1 : (∃ a b, l = a ++ .test :: b ∧ Step.take ∉ a) → ∃ a b, l ++ [x] = a ++ .test :: b ∧ Step.take ∉ a := by
        rintro ⟨a, b, h, h'⟩; exact ⟨a, b ++ [x], by simp [h], h'⟩
      have grow2 : (∃ a b c, l = a ++ .test :: (b ++ .take :: c)) → ∃ a b c, l ++ [x] = a ++ .test :: (b ++ .take :: c) := by
        rintro ⟨a, b, c, h⟩; exact ⟨a, b, c ++ [x], by simp [h]⟩
      rw [ext]
      cases x with
      | test =>
        simp only [raceStep]
        split
        · exact ⟨fun h => grow1 (i1 h), fun h => grow2 (i2 h), fun h => by simpa using i3 h, fun h h' => grow2 (i4 h h')⟩
        · rename_i hc
          split
          · rename_i hs
            refine ⟨fun _ => ⟨l, [], rfl, i3 hs⟩, fun h => grow2 (i2 h), fun _ => by simpa using i3 hs, ?_⟩
            intro _ h'
            simp only at h'
            rw [hs] at h'; cases h'
          · refine ⟨fun h => grow1 (i1 h), fun h => by simp at h, fun h => by simpa using i3 h, fun h h' => grow2 (i4 h h')⟩
      | copy =>
        simp only [raceStep]
        split
        · rename_i hc
          refine ⟨fun h => grow1 (i1 h), ?_, fun h => by simpa using i3 h, fun h h' => grow2 (i4 h h')⟩
          intro h
          cases hs : (race l).srv
          · exact grow2 (i4 hc.1 hs)
          · simp [hs] at h
        · exact ⟨fun h => grow1 (i1 h), fun h => grow2 (i2 h), fun h => by simpa using i3 h, fun h h' => grow2 (i4 h h')⟩
      | take =>
        simp only [raceStep]
        refine ⟨fun h => grow1 (i1 h), fun h => grow2 (i2 h), fun h => by simp at h, ?_⟩
        intro h _
        obtain ⟨a, b, hl, -⟩ := i1 h
        exact ⟨a, b, [], by simp [hl]⟩
  exact (key l).2.1 h

/-! ### the hypotheses are met -/

example : phase .loaded [.build, .run, .pause, .run, .shutdown, .again, .build, .run] = some .running := rfl
example : phase .loaded [.build, .run, .pause] = some .paused := rfl
example : phase .loaded [.build, .run, .shutdown, .again] = some .loaded := rfl
example : TurnedOff { ignore := some ([0x72, 0x73, 0x72, 0x76, 0x20] ++ tQsrv2) } := .inr (.inl ⟨_, rfl, [0x72, 0x73, 0x72, 0x76, 0x20], [], by simp⟩)
example : ¬ TurnedOff { ignore := some [0x72, 0x73, 0x72, 0x76], enable := some [0x79, 0x65, 0x73] } := by
  rw [← C115_enabled]; decide

end Pvxs.Props.IocLife
