import Verif.Spec.ClientInfo
import Verif.Props.TypeDesc
import Verif.Props.PutBuild
/-! Property C84 -/
namespace Pvxs.Props.ClientInfo
open Pvxs Wire Pvxs.Spec Pvxs.ClientInfo Pvxs.Spec.ClientInfo

/-! ### the invariant -/

/-- what is known of an operation after a history -/
structure Inv (o : Op) (es : List Ev) (outs : List ClientInfo.Out) : Prop where
  crashed : o.crashed = false
  finished : o.state = .done → Wanted es → results outs ≠ []
  open_ : o.state ≠ .done → Wanted es ∧ results outs = [] ∧ o.hasDone = true ∧ o.alive = true
  waiting : o.state = .waiting → o.conn = true ∧ o.reg = true ∧ current outs = some o.ioid
  connecting : o.state = .connecting → o.conn = false ∧ o.reg = false ∧ o.pending = true ∧ current outs = none
  once : (results outs).length ≤ 1
  fresh : o.conn = false → o.cache = []

theorem current_append (a b : List ClientInfo.Out) : current (a ++ b) = b.foldl track (current a) := by
  unfold current; rw [List.foldl_append]

theorem results_append (a b : List ClientInfo.Out) : results (a ++ b) = results a ++ results b := by unfold results; rw [List.filterMap_append]

theorem wanted_snoc (es : List Ev) (e : Ev) : Wanted (es ++ [e]) ↔ Wanted es ∧ e ≠ .cancel ∧ e ≠ .drop := by
  unfold Wanted
  simp only [List.mem_append, List.mem_singleton, not_or]
  constructor
  · rintro ⟨⟨a, b⟩, c, d⟩; exact ⟨⟨a, c⟩, fun h => b h.symm, fun h => d h.symm⟩
  · rintro ⟨⟨a, c⟩, b, d⟩; exact ⟨⟨a, fun h => b h.symm⟩, c, fun h => d h.symm⟩

theorem states (o : Op) : o.state = .connecting ∨ o.state = .waiting ∨ o.state = .done := by cases o.state <;> simp

theorem inv_down {o : Op} {es : List Ev} {outs : List ClientInfo.Out} (h : Inv o es outs) {e : Ev} (he : e ≠ .cancel ∧ e ≠ .drop) (x : ClientInfo.Out)
    (hx : x = .lost ∨ x = .closed) : Inv (chanDown o) (es ++ [e]) (outs ++ [x]) := by
  have hr : results (outs ++ [x]) = results outs := by rw [results_append]; rcases hx with rfl | rfl <;> simp [results]
  have hc : current (outs ++ [x]) = none := by rw [current_append]; rcases hx with rfl | rfl <;> rfl
  have hw : Wanted (es ++ [e]) ↔ Wanted es := by rw [wanted_snoc]; exact ⟨fun h => h.1, fun h => ⟨h, he⟩⟩
  rcases states o with hs | hs | hs
  · have h1 := h.connecting hs
    have h2 := h.open_ (by rw [hs]; decide)
    have e1 : chanDown o = { o with conn := false, cache := [] } := by unfold chanDown; simp [h1.2.1]
    rw [e1]
    exact ⟨h.crashed, fun h' => (by simp [hs] at h'), fun _ => ⟨hw.mpr h2.1, hr.trans h2.2.1, h2.2.2⟩, fun h' => (by simp [hs] at h'),
      fun _ => ⟨rfl, h1.2.1, h1.2.2.1, hc⟩, hr ▸ h.once, fun _ => rfl⟩
  · have h1 := h.waiting hs
    have h2 := h.open_ (by rw [hs]; decide)
    have e1 : chanDown o = { o with conn := false, cache := [], reg := false, pending := true, state := .connecting } := by
      unfold chanDown disconnected; simp [h1.2.1, h2.2.2.2, hs]
    rw [e1]
    exact ⟨h.crashed, fun h' => (by simp at h'), fun _ => ⟨hw.mpr h2.1, hr.trans h2.2.1, h2.2.2⟩, fun h' => (by simp at h'),
      fun _ => ⟨rfl, rfl, rfl, hc⟩, hr ▸ h.once, fun _ => rfl⟩
  · have e1 : ∃ r, chanDown o = { o with conn := false, cache := [], reg := r } := by
      unfold chanDown disconnected
      by_cases hg : o.reg = true
      · by_cases ha : o.alive = true
        · exact ⟨false, by simp [hg, ha, hs]⟩
        · exact ⟨false, by simp [hg, ha]⟩
      · exact ⟨o.reg, by simp [hg]⟩
    obtain ⟨r, e1⟩ := e1
    rw [e1]
    exact ⟨h.crashed, fun _ w => hr ▸ h.finished hs (hw.mp w), fun h' => absurd hs h', fun h' => (by simp [hs] at h'),
      fun h' => (by simp [hs] at h'), hr ▸ h.once, fun _ => rfl⟩

/-- nothing of importance changes -/
theorem inv_quiet {o o' : Op} {es : List Ev} {outs : List ClientInfo.Out} (h : Inv o es outs) {e : Ev} (he : e ≠ .cancel ∧ e ≠ .drop)
    (h1 : o'.crashed = o.crashed) (h2 : o'.state = o.state) (h3 : o.state = .done ∨ (o'.hasDone = o.hasDone ∧ o'.alive = o.alive ∧ o'.conn = o.conn ∧
      o'.reg = o.reg ∧ o'.ioid = o.ioid ∧ o'.pending = o.pending)) (h4 : o'.conn = false → o'.cache = []) : Inv o' (es ++ [e]) (outs ++ []) := by
  have hw : Wanted (es ++ [e]) ↔ Wanted es := by rw [wanted_snoc]; exact ⟨fun h => h.1, fun h => ⟨h, he⟩⟩
  rw [List.append_nil]
  refine ⟨h1 ▸ h.crashed, fun a w => h.finished (h2 ▸ a) (hw.mp w), fun a => ?_, fun a => ?_, fun a => ?_, h.once, h4⟩
  · rw [h2] at a
    rcases h3 with h3 | h3
    · exact absurd h3 a
    · obtain ⟨x1, x2, x3, x4⟩ := h.open_ a
      exact ⟨hw.mpr x1, x2, h3.1 ▸ x3, h3.2.1 ▸ x4⟩
  · rw [h2] at a
    rcases h3 with h3 | h3
    · rw [a] at h3; cases h3
    · obtain ⟨x1, x2, x3⟩ := h.waiting a
      exact ⟨h3.2.2.1 ▸ x1, h3.2.2.2.1 ▸ x2, h3.2.2.2.2.1 ▸ x3⟩
  · rw [h2] at a
    rcases h3 with h3 | h3
    · rw [a] at h3; cases h3
    · obtain ⟨x1, x2, x3, x4⟩ := h.connecting a
      exact ⟨h3.2.2.1 ▸ x1, h3.2.2.2.1 ▸ x2, h3.2.2.2.2.2 ▸ x3, x4⟩

/-- the message read, with the types the connection knows -/
abbrev decoded (o : Op) (be : Bool) (body : List Byte) := getReply o.cache (input be body)

/-- what a reply does -/
theorem reply_eq {o : Op} {es : List Ev} {outs : List ClientInfo.Out} (h : Inv o es outs) (be : Bool) (body : List Byte) :
    ((decoded o be body).2.err = true ∧ reply o be body = (chanDown o, [.closed])) ∨
    ((decoded o be body).2.err = false ∧ o.state = .waiting ∧ (decoded o be body).1.1 = o.ioid ∧
      reply o be body = ({ o with cache := (decoded o be body).1.2.2, reg := false, state := .done, hasDone := false }, [.called (decoded o be body).1.2.1])) ∨
    ((decoded o be body).2.err = false ∧ ¬(o.state = .waiting ∧ (decoded o be body).1.1 = o.ioid) ∧
      ∃ r, (o.state = .done ∨ r = o.reg) ∧ reply o be body = ({ o with cache := (decoded o be body).1.2.2, reg := r }, [])) := by
  have e0 : reply o be body = if (decoded o be body).2.err then (chanDown o, [.closed])
      else deliver { o with cache := (decoded o be body).1.2.2 } (decoded o be body).1.1 (decoded o be body).1.2.1 := rfl
  rw [e0]
  generalize decoded o be body = r
  by_cases herr : r.2.err = true
  · rw [if_pos herr]; exact Or.inl ⟨herr, rfl⟩
  · rw [if_neg herr]
    have herr : r.2.err = false := by simpa using herr
    right
    by_cases hs : o.state = .waiting
    · have h1 := h.waiting hs
      have h2 := h.open_ (by rw [hs]; decide)
      by_cases hk : r.1.1 = o.ioid
      · exact Or.inl ⟨herr, hs, hk, by unfold deliver; simp [h1.2.1, hk, h2.2.2.2, hs, h2.2.2.1]⟩
      · exact Or.inr ⟨herr, fun h => hk h.2, o.reg, Or.inr rfl, by unfold deliver; simp [hk]⟩
    · right
      refine ⟨herr, fun h => hs h.1, ?_⟩
      by_cases hg : o.reg = true ∧ r.1.1 = o.ioid ∧ o.alive = true
      · refine ⟨false, ?_, by unfold deliver; simp [hg.1, hg.2.1, hg.2.2, hs]⟩
        rcases states o with a | a | a
        · have := (h.connecting a).2.1; rw [hg.1] at this; cases this
        · exact absurd a hs
        · exact Or.inl a
      · refine ⟨o.reg, Or.inr rfl, ?_⟩
        unfold deliver
        by_cases g1 : o.reg = true
        · by_cases g2 : r.1.1 = o.ioid
          · have g3 : o.alive = false := by
              cases ha : o.alive with
              | false => rfl
              | true => exact absurd ⟨g1, g2, ha⟩ hg
            simp [g1, g2, g3]
          · simp [g2]
        · simp [g1]

theorem inv_end {o o' : Op} {es : List Ev} {outs xs : List ClientInfo.Out} (h : Inv o es outs) {e : Ev} (he : e = .cancel ∨ e = .drop)
    (h1 : o'.crashed = false) (h2 : o'.state = .done) (h3 : o'.conn = o.conn) (h4 : o'.cache = o.cache) (h5 : results xs = []) : Inv o' (es ++ [e]) (outs ++ xs) := by
  have hw : ¬Wanted (es ++ [e]) := by rw [wanted_snoc]; rcases he with rfl | rfl <;> simp
  have hr : results (outs ++ xs) = results outs := by rw [results_append, h5, List.append_nil]
  exact ⟨h1, fun _ w => absurd w hw, fun a => absurd h2 a, fun a => (by rw [h2] at a; cases a), fun a => (by rw [h2] at a; cases a), hr ▸ h.once,
    fun a => by rw [h4]; exact h.fresh (h3 ▸ a)⟩

theorem cancel_ok {o : Op} {es : List Ev} {outs : List ClientInfo.Out} (h : Inv o es outs) :
    (cancelImpl o).1.crashed = false ∧ results (cancelImpl o).2.1 = [] ∧ asks (cancelImpl o).2.1 = [] := by
  unfold cancelImpl
  by_cases hs : o.state = .waiting
  · have := (h.waiting hs).1
    simp [hs, this, h.crashed, results, asks]
  · simp [hs, h.crashed, results, asks]

theorem inv_step {o : Op} {es : List Ev} {outs : List ClientInfo.Out} (h : Inv o es outs) (e : Ev) : Inv (step o e).1 (es ++ [e]) (outs ++ (step o e).2) := by
  cases e with
  | up k =>
    unfold step
    by_cases hc : o.conn = true
    · simp only [hc, if_true]
      exact inv_quiet h (e := .up k) ⟨nofun, nofun⟩ rfl rfl (Or.inr ⟨rfl, rfl, rfl, rfl, rfl, rfl⟩) h.fresh
    · simp only [hc]
      rcases states o with hs | hs | hs
      · have h1 := h.connecting hs
        have h2 := h.open_ (by rw [hs]; decide)
        have e1 : createOperations { o with conn := true } k = ({ o with conn := true, pending := false, reg := true, ioid := k, state := .waiting }, [.asked k]) := by
          unfold createOperations createOp
          simp [h1.2.2.1, h2.2.2.2, hs, h.crashed]
        rw [if_neg (by simp), e1]
        have hr : results (outs ++ [.asked k]) = results outs := by rw [results_append]; simp [results]
        exact ⟨h.crashed, fun h' => (by cases h'), fun _ => ⟨(wanted_snoc _ _).mpr ⟨h2.1, nofun, nofun⟩, hr.trans h2.2.1, h2.2.2⟩,
          fun _ => ⟨rfl, rfl, by rw [current_append]; rfl⟩, fun h' => (by cases h'), hr ▸ h.once, fun h' => (by cases h')⟩
      · exact absurd (h.waiting hs).1 hc
      · have e1 : ∃ p r i, createOperations { o with conn := true } k = ({ o with conn := true, pending := p, reg := r, ioid := i }, []) := by
          unfold createOperations createOp
          by_cases hp : o.pending = true
          · by_cases ha : o.alive = true
            · exact ⟨false, true, k, by simp [hp, ha, hs]⟩
            · exact ⟨false, o.reg, o.ioid, by simp [hp, ha]⟩
          · exact ⟨o.pending, o.reg, o.ioid, by simp [hp]⟩
        obtain ⟨p, r, i, e1⟩ := e1
        rw [if_neg (by simp), e1]
        exact inv_quiet h (e := .up k) ⟨nofun, nofun⟩ rfl rfl (Or.inl hs) (fun a => (by cases a))
  | down => exact inv_down h (e := .down) ⟨nofun, nofun⟩ .lost (Or.inl rfl)
  | reply be body =>
    unfold step
    by_cases hc : o.conn = true
    · simp only [hc, if_true]
      rcases reply_eq h be body with ⟨_, e1⟩ | ⟨_, hs, hk, e1⟩ | ⟨_, _, r, hr, e1⟩
      · rw [e1]; exact inv_down h (e := .reply be body) ⟨nofun, nofun⟩ .closed (Or.inr rfl)
      · rw [e1]
        have h2 := h.open_ (by rw [hs]; decide)
        have hr : results (outs ++ [.called (decoded o be body).1.2.1]) = [(decoded o be body).1.2.1] := by
          rw [results_append, h2.2.1]; rfl
        exact ⟨h.crashed, fun _ _ => by rw [hr]; simp, fun a => absurd rfl a, fun a => (by cases a), fun a => (by cases a), by rw [hr]; simp,
          fun a => (by rw [show o.conn = true from hc] at a; cases a)⟩
      · rw [e1]
        refine inv_quiet h (e := .reply be body) ⟨nofun, nofun⟩ rfl rfl ?_ (fun a => (by rw [show o.conn = true from hc] at a; cases a))
        rcases hr with hr | hr
        · exact Or.inl hr
        · exact Or.inr ⟨rfl, rfl, rfl, hr, rfl, rfl⟩
    · simp only [hc]
      rw [if_neg (by simp)]
      exact inv_quiet h (e := .reply be body) ⟨nofun, nofun⟩ rfl rfl (Or.inr ⟨rfl, rfl, rfl, rfl, rfl, rfl⟩) h.fresh
  | cancel => exact inv_end h (Or.inl rfl) (cancel_ok h).1 rfl rfl rfl (cancel_ok h).2.1
  | drop => exact inv_end h (Or.inr rfl) (cancel_ok h).1 rfl rfl rfl (cancel_ok h).2.1

theorem inv_begin (up : Option Nat) : Inv (begin false up).1 [] (begin false up).2 := by
  have hw : Wanted [] := ⟨nofun, nofun⟩
  cases up with
  | none => exact ⟨rfl, nofun, fun _ => ⟨hw, rfl, rfl, rfl⟩, nofun, fun _ => ⟨rfl, rfl, rfl, rfl⟩, by decide, fun _ => rfl⟩
  | some k => exact ⟨rfl, nofun, fun _ => ⟨hw, rfl, rfl, rfl⟩, fun _ => ⟨rfl, rfl, rfl⟩, nofun, (by show 0 ≤ 1; omega), nofun⟩

theorem down_done {o : Op} (h : o.state = .done) : (chanDown o).state = .done := by
  unfold chanDown disconnected
  dsimp only
  repeat' split
  all_goals simp_all

theorem inv_run {o : Op} {es : List Ev} {outs : List ClientInfo.Out} (h : Inv o es outs) (es' : List Ev) :
    Inv (run o es').1 (es ++ es') (outs ++ (run o es').2) := by
  induction es' generalizing o es outs with
  | nil => simpa [run] using h
  | cons e es' ih =>
    have := ih (inv_step h e)
    simpa [run] using this

theorem inv_hist (up : Option Nat) (es : List Ev) : Inv (history up es).1 es (history up es).2 := by
  have := inv_run (inv_begin up) es
  simpa [history] using this

/-! ### C84 -/

theorem good_getTypeValue (c : TypeStore) : Good (getTypeValue c) := by
  unfold getTypeValue
  refine Good.bind (good_getType _ _) fun r => good_failIf _ _ ?_
  cases newValue r.1 with
  | ok v => exact Good.pure _
  | throws w => exact good_failWith _
  | ub => exact good_failWith _

theorem good_getReply (c : TypeStore) : Good (getReply c) := by
  unfold getReply
  refine Good.bind (good_getInt 4) fun k => Good.bind good_getStatus fun s => ?_
  by_cases h : s.isSuccess = true
  · rw [if_pos h]; exact Good.bind (good_getTypeValue c) fun _ => Good.pure _
  · rw [if_neg h]; exact Good.pure _

/-- The callback is called at most once, and the client never follows a connection it does not have. -/
theorem C84_once (up : Option Nat) (es : List Ev) : (results (history up es).2).length ≤ 1 ∧ (history up es).1.crashed = false :=
  ⟨(inv_hist up es).once, (inv_hist up es).crashed⟩

/-- When it is called: exactly when a message answers the present request, the operation was not given up and there was no result before.
It is given what the message says. -/
theorem C84_called (up : Option Nat) (es : List Ev) (e : Ev) (r : Result) :
    .called r ∈ (step (history up es).1 e).2 ↔
      ∃ be body k c rest, e = .reply be body ∧ getReply (history up es).1.cache (input be body) = ((k, r, c), input be rest) ∧
        current (history up es).2 = some k ∧ Wanted es ∧ results (history up es).2 = [] := by
  have hI := inv_hist up es
  generalize history up es = H at *
  have nocancel : ∀ o : Op, Inv o es H.2 → .called r ∉ (cancelImpl o).2.1 := by
    intro o _
    unfold cancelImpl
    dsimp only
    split <;> simp
  constructor
  · intro h
    cases e with
    | up k =>
      unfold step createOperations createOp at h
      dsimp only at h
      repeat' split at h
      all_goals simp at h
    | down => simp [step] at h
    | cancel => exact absurd h (nocancel _ hI)
    | drop => exact absurd h (nocancel _ hI)
    | reply be body =>
      unfold step at h
      dsimp only at h
      by_cases hc : H.1.conn = true
      · rw [if_pos hc] at h
        rcases reply_eq hI be body with ⟨_, e1⟩ | ⟨he, hs, hk, e1⟩ | ⟨_, _, x, _, e1⟩
        · rw [e1] at h; simp at h
        · rw [e1] at h
          simp only [List.mem_singleton, ClientInfo.Out.called.injEq] at h
          have h2 := hI.open_ (by rw [hs]; decide)
          refine ⟨be, body, (decoded H.1 be body).1.1, (decoded H.1 be body).1.2.2, (decoded H.1 be body).2.rest, rfl, ?_, ?_, h2.1, h2.2.1⟩
          · have hb := (good_getReply H.1.cache).be (input be body)
            show decoded H.1 be body = _
            have hb : (decoded H.1 be body).2.be = be := hb
            generalize decoded H.1 be body = R at *
            obtain ⟨⟨a1, a2, a3⟩, b1, b2, b3⟩ := R
            simp only at he hb h
            subst h
            show ((a1, _, a3), _) = ((a1, _, a3), In.mk be false b3)
            rw [he, hb]
          · rw [hk]; exact (hI.waiting hs).2.2
        · rw [e1] at h; simp at h
      · rw [if_neg hc] at h; simp at h
  · rintro ⟨be, body, k, c, rest, rfl, hd, hcur, hw, hr⟩
    have hs : H.1.state = .waiting := by
      rcases states H.1 with a | a | a
      · have := (hI.connecting a).2.2.2; rw [hcur] at this; cases this
      · exact a
      · exact absurd hr (hI.finished a hw)
    have h1 := hI.waiting hs
    have hk : k = H.1.ioid := by have := h1.2.2; rw [hcur] at this; exact Option.some.inj this
    unfold step
    dsimp only
    rw [if_pos h1.1]
    rcases reply_eq hI be body with ⟨he, e1⟩ | ⟨he, _, _, e1⟩ | ⟨_, hn, x, _, e1⟩
    · rw [show decoded H.1 be body = _ from hd] at he; cases he
    · rw [e1, show decoded H.1 be body = _ from hd]; simp
    · rw [show decoded H.1 be body = _ from hd] at hn; exact absurd ⟨hs, hk⟩ hn

/-- A calm history, in which the request `k` is not answered yet. -/
theorem waiting_of {up : Option Nat} {es : List Ev} {k : Nat} (hcur : current (history up es).2 = some k) (hw : Wanted es) (hr : results (history up es).2 = []) :
    (history up es).1.state = .waiting ∧ (history up es).1.ioid = k ∧ (history up es).1.conn = true := by
  have hI := inv_hist up es
  have hs : (history up es).1.state = .waiting := by
    rcases states (history up es).1 with a | a | a
    · have := (hI.connecting a).2.2.2; rw [hcur] at this; cases this
    · exact a
    · exact absurd hr (hI.finished a hw)
  have := hI.waiting hs
  refine ⟨hs, ?_, this.1⟩
  have h2 := this.2.2
  rw [hcur] at h2
  exact (Option.some.inj h2).symm

/-- the bytes of a reply -/
theorem reply_bytes (be : Bool) (k : Nat) (m : Member) (sts : Status) (he : Encodable m) (hm : sts.msg.length ≤ 0xffffffff) (ht : sts.trace.length ≤ 0xffffffff) :
    serverReply be k (some (flat m)) sts = wireBytes be 4 k ++ (statusBytes be sts ++ typeBytes be m) ∧
    serverReply be k none sts = wireBytes be 4 k ++ statusBytes be sts := by
  have E1 := emits_putInt be 4 k
  have E2 := emits_putStatus be sts hm ht
  have E3 := emits_type be m [] he
  rw [List.append_nil] at E3
  have e12 := (E1.comp E2) { be := be } rfl rfl rfl
  have e123 := ((E1.comp E2).comp E3) { be := be } rfl rfl rfl
  unfold serverReply
  dsimp only at e12 e123 ⊢
  rw [e123, e12]
  simp

theorem read_type (be : Bool) (c : TypeStore) (k : Nat) (hk : k < 2 ^ 32) (m : Member) (t : List FieldDesc) (v : Val) (hv : Validated m) (hw : FitsWire m)
    (hb : build m = .ok t) (hl : levels m ≤ 21) (hn : newValue t = .ok v) :
    getReply c (input be (serverReply be k (some t) ⟨0, [], []⟩)) = ((k, .type v, c), input be []) := by
  have he := encodable_of_validated m hv hw
  obtain rfl := build_ok m t hb
  have P1 := parses_getInt be 4 k hk
  have P2 := parses_getStatus be ⟨0, [], []⟩ (by decide) (by simp) (by simp)
  have P3 := parses_type be m 21 c he hl
  rw [(reply_bytes be k m ⟨0, [], []⟩ he (by simp) (by simp)).1]
  have p3 := P3 []
  rw [List.append_nil] at p3
  unfold getReply input
  rw [Dec.bind_apply, P1]
  dsimp only
  rw [Dec.bind_apply, P2]
  dsimp only
  rw [if_pos (by rfl), Dec.bind_apply]
  unfold getTypeValue
  rw [Dec.bind_apply]
  unfold getTypeTop
  rw [p3]
  simp [failIf, hn]

theorem read_error (be : Bool) (c : TypeStore) (k : Nat) (hk : k < 2 ^ 32) (code : Byte) (hc : code = 2 ∨ code = 3) (msg : Str) (hm : msg.length < 2 ^ 32) :
    getReply c (input be (serverReply be k none ⟨code, msg, []⟩)) = ((k, .remote (msg.takeWhile (· != 0)), c), input be []) := by
  have P1 := parses_getInt be 4 k hk
  have P2 := parses_getStatus be ⟨code, msg, []⟩ (by rcases hc with rfl | rfl <;> simp) (by dsimp only; omega) (by simp)
  rw [(reply_bytes be k { code := .Int32, name := [] } ⟨code, msg, []⟩ (encodable_of_validated _ (by simp [Validated, ValidatedAll]; decide) (by simp [FitsWire, FitsWireAll])) (by dsimp only; omega) (by simp)).2]
  have p2 := P2 []
  rw [List.append_nil] at p2
  unfold getReply input
  rw [Dec.bind_apply, P1]
  dsimp only
  rw [Dec.bind_apply, p2]
  dsimp only
  rw [if_neg (by rcases hc with rfl | rfl <;> simp [Status.isSuccess])]
  rfl

/-- From the server to the client: when the server answers the present request with the type of a Value (src/serverintrospect.cpp:74-81), the client's
callback is given a Value of the same type, with default content. -/
theorem C84_type (up : Option Nat) (es : List Ev) (k : Nat) (hk : k < 2 ^ 32) (be : Bool) (m : Member) (t : List FieldDesc) (hv : Validated m) (hw : FitsWire m)
    (hb : build m = .ok t) (hl : levels m ≤ 21) (hn : (newValue t).isOk = true)
    (hcur : current (history up es).2 = some k) (hwant : Wanted es) (hr : results (history up es).2 = []) :
    (step (history up es).1 (.reply be (serverReply be k (some t) ⟨0, [], []⟩))).2 = [.called (.type (.mk t (t.map fun d => .mk false (initDatum d.code))))] := by
  have hu : Usable t := ⟨.built m t hb, hn⟩
  have hd := read_type be (history up es).1.cache k hk m t _ hv hw hb hl (PutBuild.newValue_usable hu)
  have := (C84_called up es (.reply be (serverReply be k (some t) ⟨0, [], []⟩)) _).mpr ⟨be, _, k, _, [], rfl, hd, hcur, hwant, hr⟩
  have hI := inv_hist up es
  obtain ⟨hs, hi, hc⟩ := waiting_of hcur hwant hr
  unfold step at this ⊢
  dsimp only at this ⊢
  rw [if_pos hc] at this ⊢
  rcases reply_eq hI be (serverReply be k (some t) ⟨0, [], []⟩) with ⟨_, e1⟩ | ⟨_, _, _, e1⟩ | ⟨_, _, x, _, e1⟩
  · rw [e1] at this; simp at this
  · rw [e1] at this ⊢; simp only [List.mem_singleton] at this; rw [← this]
  · rw [e1] at this; simp at this

/-- An error is reported with the server's text (up to a NUL). -/
theorem C84_error (up : Option Nat) (es : List Ev) (k : Nat) (hk : k < 2 ^ 32) (be : Bool) (code : Byte) (hc : code = 2 ∨ code = 3) (msg : Str) (hm : msg.length < 2 ^ 32)
    (hcur : current (history up es).2 = some k) (hwant : Wanted es) (hr : results (history up es).2 = []) :
    .called (.remote (msg.takeWhile (· != 0))) ∈ (step (history up es).1 (.reply be (serverReply be k none ⟨code, msg, []⟩))).2 :=
  (C84_called up es _ _).mpr ⟨be, _, k, _, [], rfl, read_error be _ k hk code hc msg hm, hcur, hwant, hr⟩

/-- the hypotheses hold: the channel comes up, is lost, and comes up again; the second request waits -/
example : current (history (some 4) [.down, .up 5]).2 = some 5 ∧ Wanted [.down, .up 5] ∧ results (history (some 4) [.down, .up 5]).2 = [] :=
  ⟨rfl, ⟨by simp, by simp⟩, rfl⟩

/-- The server is asked once for each time the channel is up, until there is a result. -/
theorem C84_asks (up : Option Nat) (es : List Ev) (k : Nat) (hwant : Wanted es) (hr : results (history up es).2 = []) :
    (current (history up es).2 = none → (step (history up es).1 (.up k)).2 = [.asked k]) ∧
    (current (history up es).2 ≠ none → (step (history up es).1 (.up k)).2 = []) := by
  have hI := inv_hist up es
  generalize history up es = H at *
  rcases states H.1 with hs | hs | hs
  · have h1 := hI.connecting hs
    have h2 := hI.open_ (by rw [hs]; decide)
    refine ⟨fun _ => ?_, fun h => absurd h1.2.2.2 h⟩
    unfold step createOperations createOp
    simp [h1.1, h1.2.2.1, h2.2.2.2, hs]
  · have h1 := hI.waiting hs
    refine ⟨fun h => (by rw [h1.2.2] at h; cases h), fun _ => ?_⟩
    unfold step
    simp [h1.1]
  · exact absurd hr (hI.finished hs hwant)

example : (step (history none []).1 (.up 9)).2 = [.asked 9] := rfl

/-- After cancel(), or when the Operation was dropped, or after the result, the callback is not called and nothing is asked. -/
theorem C84_over (up : Option Nat) (es es' : List Ev) (h : ¬Wanted es ∨ results (history up es).2 ≠ []) :
    results (run (history up es).1 es').2 = [] ∧ asks (run (history up es).1 es').2 = [] := by
  have hI := inv_hist up es
  have hd : (history up es).1.state = .done := by
    refine Classical.byContradiction fun hn => ?_
    have := hI.open_ hn
    rcases h with h | h
    · exact h this.1
    · exact h this.2.1
  generalize (history up es).1 = o at *
  generalize (history up es).2 = outs at *
  clear h
  induction es' generalizing o es outs with
  | nil => exact ⟨rfl, rfl⟩
  | cons e es' ih =>
    have hstep : (step o e).1.state = .done ∧ results (step o e).2 = [] ∧ asks (step o e).2 = [] := by
      cases e with
      | up k =>
        unfold step createOperations createOp
        by_cases hc : o.conn = true
        · simp [hc, hd, results, asks]
        · by_cases hp : o.pending = true
          · by_cases ha : o.alive = true
            · simp [hc, hp, ha, hd, results, asks]
            · simp [hc, hp, ha, hd, results, asks]
          · simp [hc, hp, hd, results, asks]
      | down => exact ⟨down_done hd, rfl, rfl⟩
      | reply be body =>
        unfold step
        by_cases hc : o.conn = true
        · simp only [hc, if_true]
          rcases reply_eq hI be body with ⟨_, e1⟩ | ⟨_, hs, _, _⟩ | ⟨_, _, r, _, e1⟩
          · rw [e1]; exact ⟨down_done hd, rfl, rfl⟩
          · rw [hd] at hs; cases hs
          · rw [e1]; exact ⟨hd, rfl, rfl⟩
        · simp [hc, hd, results, asks]
      | cancel => exact ⟨rfl, (cancel_ok hI).2⟩
      | drop => exact ⟨rfl, (cancel_ok hI).2⟩
    have := ih (es ++ [e]) _ hstep.1 _ (inv_step hI e)
    simp only [run, results_append, hstep.2.1, this.1, List.nil_append]
    refine ⟨trivial, ?_⟩
    unfold asks at *
    rw [List.filterMap_append, hstep.2.2, this.2]
    rfl

example : ¬Wanted [.up 3, .cancel] := by simp [Wanted]

/-- What cancel() returns: true exactly when it prevents a result.  Missing: an operation which failed at once, see C84_cancel_failed. -/
theorem C84_cancel_partial (up : Option Nat) (es : List Ev) : (cancel (history up es).1).2.2 = true ↔ (Wanted es ∧ results (history up es).2 = []) := by
  have hI := inv_hist up es
  have e : (cancel (history up es).1).2.2 = decide ((history up es).1.state ≠ .done) := rfl
  rw [e, decide_eq_true_eq]
  constructor
  · intro h; exact ⟨(hI.open_ h).1, (hI.open_ h).2.1⟩
  · rintro ⟨h1, h2⟩ hd; exact hI.finished hd h1 h2

example : (cancel (history none [.up 2, .cancel]).1).2.2 = false ∧ (cancel (history none [.up 2]).1).2.2 = true := ⟨rfl, rfl⟩

/-- cancel() releases the callback, and an operation which had not finished is known to its connection no more, as when it is dropped. -/
theorem C84_cancel_releases (up : Option Nat) (es : List Ev) :
    (step (history up es).1 .cancel).1.hasDone = false ∧
    (Wanted es → results (history up es).2 = [] →
      (step (history up es).1 .cancel).1.reg = false ∧ (step (history up es).1 .drop).1.reg = false) := by
  have hI := inv_hist up es
  refine ⟨rfl, fun hw hr => ?_⟩
  have e1 : (step (history up es).1 .cancel).1.reg = (cancelImpl (history up es).1).1.reg := rfl
  have e2 : (step (history up es).1 .drop).1.reg = (cancelImpl (history up es).1).1.reg := rfl
  rw [e1, e2]
  have : (cancelImpl (history up es).1).1.reg = false := by
    unfold cancelImpl
    rcases states (history up es).1 with h | h | h
    · simp [h, (hI.connecting h).2.1]
    · simp [h]
    · exact absurd hr (hI.finished h hw)
  exact ⟨this, this⟩

example : (history none [.up 2]).1.reg = true ∧ (step (history none [.up 2]).1 .cancel).1.reg = false := ⟨rfl, rfl⟩

/-- An operation which can not be started (the address given with server() is not valid, say) reports that at once; nothing else ever happens to it.  Contrary to the
documentation of cancel() it returns true although the operation has completed. -/
theorem C84_cancel_failed : results (begin true none).2 = [.setup] ∧ (cancel (begin true none).1).2.2 = true ∧
    ∀ es, results (run (begin true none).1 es).2 = [] ∧ asks (run (begin true none).1 es).2 = [] := by
  refine ⟨rfl, rfl, fun es => ?_⟩
  have key : ∀ (es : List Ev) (o : Op), o.pending = false → o.reg = false → o.state ≠ .waiting → results (run o es).2 = [] ∧ asks (run o es).2 = [] := by
    intro es
    induction es with
    | nil => intro o _ _ _; exact ⟨rfl, rfl⟩
    | cons e es ih =>
      intro o hp hg hs
      have hstep : (step o e).1.pending = false ∧ (step o e).1.reg = false ∧ (step o e).1.state ≠ .waiting ∧ results (step o e).2 = [] ∧ asks (step o e).2 = [] := by
        have hdn : (chanDown o).pending = false ∧ (chanDown o).reg = false ∧ (chanDown o).state ≠ .waiting := by
          unfold chanDown; simp [hg, hp, hs]
        cases e with
        | up k =>
          unfold step createOperations
          by_cases hc : o.conn = true
          · simp [hc, hp, hg, hs, results, asks]
          · simp [hc, hp, hg, hs, results, asks]
        | down => exact ⟨hdn.1, hdn.2.1, hdn.2.2, rfl, rfl⟩
        | reply be body =>
          unfold step reply deliver
          by_cases hc : o.conn = true
          · simp only [hc, if_true]
            split
            · exact ⟨hdn.1, hdn.2.1, hdn.2.2, rfl, rfl⟩
            · simp [hg, hp, hs, results, asks]
          · simp [hc, hp, hg, hs, results, asks]
        | cancel => unfold step cancel cancelImpl; simp [hs, hp, hg, results, asks]
        | drop => unfold step cancelImpl; simp [hs, hp, hg, results, asks]
      have := ih _ hstep.1 hstep.2.1 hstep.2.2.1
      simp only [run, results_append, hstep.2.2.2.1, this.1, List.nil_append]
      refine ⟨trivial, ?_⟩
      unfold asks at *
      rw [List.filterMap_append, hstep.2.2.2.2, this.2]
      rfl
  exact key es _ rfl rfl (by decide)

/-- Contrary to C84: a type with more than twenty levels of nesting, which a program can define and a server can serve, is never reported.  The client
closes the connection, connects again, and asks again, for ever (and with the connection it loses all else which used it). -/
theorem C84_deep : ∃ m t, Validated m ∧ build m = .ok t ∧ ∀ (be : Bool) (ks : List Nat), (∀ k ∈ ks, k < 2 ^ 32) →
    (history none (ks.flatMap fun k => [.up k, .reply be (serverReply be k (some t) ⟨0, [], []⟩)])).2 = ks.flatMap fun k => [.asked k, .closed] := by
  obtain ⟨hv, hw, hd, hl, _⟩ := nest_ok 21
  obtain ⟨t, hb, _⟩ := C10_build _ hv hd
  refine ⟨nest 21, t, hv, hb, fun be ks hks => ?_⟩
  have he := encodable_of_validated _ hv hw
  obtain rfl := build_ok _ t hb
  have hbad : ∀ k, k < 2 ^ 32 → (getReply [] (input be (serverReply be k (some (flat (nest 21))) ⟨0, [], []⟩))).2.err = true := by
    intro k hk
    rw [(reply_bytes be k (nest 21) ⟨0, [], []⟩ he (by simp) (by simp)).1]
    unfold getReply input
    refine parses_then_err (parses_getInt be 4 k hk) (parses_then_err (parses_getStatus be ⟨0, [], []⟩ (by decide) (by simp) (by simp)) ?_)
    rw [if_pos (by rfl)]
    refine Good.bind_err (fun _ => Good.pure _) ?_
    unfold getTypeValue
    refine Good.bind_err (fun r => good_failIf _ _ ?_) ?_
    · cases newValue r.1 with
      | ok v => exact Good.pure _
      | throws w => exact good_failWith _
      | ub => exact good_failWith _
    · have := too_deep be (nest 21) 21 [] [] he (by rw [hl]; decide)
      rw [List.append_nil] at this
      exact this
  have key : ∀ (ks : List Nat) (i : Nat), (∀ k ∈ ks, k < 2 ^ 32) →
      (run { pending := true, ioid := i } (ks.flatMap fun k => [.up k, .reply be (serverReply be k (some (flat (nest 21))) ⟨0, [], []⟩)])).2 =
        ks.flatMap fun k => [.asked k, .closed] := by
    intro ks
    induction ks with
    | nil => intro i _; rfl
    | cons k ks ih =>
      intro i hks
      have e1 : step { pending := true, ioid := i } (.up k) = ({ state := .waiting, conn := true, reg := true, ioid := k }, [.asked k]) := rfl
      have e2 : step { state := .waiting, conn := true, reg := true, ioid := k } (.reply be (serverReply be k (some (flat (nest 21))) ⟨0, [], []⟩)) =
          ({ pending := true, ioid := k }, [.closed]) := by
        have := hbad k (hks k (by simp))
        unfold input at this
        unfold step reply
        simp only [if_true]
        rw [if_pos this]
        rfl
      simp only [List.flatMap_cons, List.cons_append, List.nil_append, run, e1, e2]
      rw [ih k (fun k' hk' => hks k' (by simp [hk']))]
  have := key ks 0 hks
  unfold history
  simpa [begin] using this

end Pvxs.Props.ClientInfo
