import Verif.Lemmas.ServerConn
/-
The observations of one operation are accepted by a small automaton.
-/
namespace Pvxs.Server

inductive Phase where
  | fresh | setup | idle | busy | failed
  | over (w : End)
deriving DecidableEq

/-- `reg`: the close callback is set and has not been called -/
structure Life where
  phase : Phase
  reg : Bool
deriving DecidableEq

def lifeObs (x : Life) : Obs → Option Life
  | .created .. => if x.phase = .fresh then some { x with phase := .setup } else none
  | .exec .. => if x.phase = .idle ∨ x.phase = .setup then some { x with phase := .busy } else none
  | .replied _ .setup ok => if x.phase = .setup then some { x with phase := if ok then .idle else .failed } else none
  | .replied _ (.handle _) _ => if x.phase = .busy then some { x with phase := .idle } else none
  | .cancelled _ => if x.phase = .busy then some { x with phase := .idle } else none
  | .onCancel _ => if x.phase = .busy then some x else none
  | .setClose _ => if x.phase = .setup ∨ x.phase = .idle ∨ x.phase = .busy then some { x with reg := true } else none
  | .ended _ .reply => if x.phase = .idle ∨ x.phase = .failed then some { x with phase := .over .reply } else none
  | .ended _ .teardown =>
    if x.phase = .setup ∨ x.phase = .idle ∨ x.phase = .busy then some { x with phase := .over .teardown } else none
  | .onClose _ => if x.phase = .over .teardown ∧ x.reg then some { x with reg := false } else none
  | _ => none

def lifeStep (i : Nat) (x : Life) (o : Obs) : Option Life := if o.about i then lifeObs x o else some x

def lifeRun (i : Nat) : Life → List Obs → Option Life
  | x, [] => some x
  | x, o :: l => match lifeStep i x o with
    | none => none
    | some y => lifeRun i y l

def lifeOf (i : Nat) (l : List Obs) : Option Life := lifeRun i ⟨.fresh, false⟩ l

theorem lifeRun_append (i : Nat) (a b : List Obs) : ∀ x, lifeRun i x (a ++ b) = (lifeRun i x a).bind fun y => lifeRun i y b := by
  induction a with
  | nil => intro x; rfl
  | cons o a ih =>
    intro x
    simp only [List.cons_append, lifeRun]
    cases lifeStep i x o with
    | none => rfl
    | some y => exact ih y

theorem lifeRun_other (i : Nat) (l : List Obs) (h : ∀ o ∈ l, o.about i = false) (x : Life) : lifeRun i x l = some x := by
  induction l with
  | nil => rfl
  | cons o l ih =>
    simp only [lifeRun, lifeStep, h o (by simp)]
    exact ih fun o ho => h o (by simp [ho])

/-! ### the automaton follows the operation -/

def SOp.phase (op : SOp) : Phase :=
  match op.state with
  | .creating => .setup
  | .idle => .idle
  | .executing => if op.kind = .mon then .idle else .busy
  | .dead => .fresh

theorem live_phase (op : SOp) (h : op.state ≠ .dead) : op.phase = .setup ∨ op.phase = .idle ∨ op.phase = .busy := by
  unfold SOp.phase
  cases e : op.state
  · simp
  · simp
  · by_cases hk : op.kind = .mon <;> simp [hk]
  · exact absurd e h

structure Follow (op : SOp) (x : Life) : Prop where
  gpr : op.onCancel = true → op.kind.isGPR = true
  info : op.state = .creating → op.kind ≠ .info
  dead : op.state = .dead → ∃ w, x.phase = .over w ∧ (w = .teardown → x.reg = false)
  live : op.state ≠ .dead → x.phase = op.phase ∧ x.reg = op.onClose

theorem OpStep.other {i n op op' obs b} (h : OpStep i n op op' obs b) (j : Nat) (hj : j ≠ i) : ∀ o ∈ obs, o.about j = false := by
  have e : (i == j) = false := by simp [Ne.symm hj]
  cases h
  case cancel =>
    intro o ho
    simp only [List.mem_append] at ho
    rcases ho with ho | ho <;> split at ho <;> simp at ho <;> subst ho <;> simpa [Obs.about] using Ne.symm hj
  case teardown =>
    intro o ho
    simp only [List.mem_append] at ho
    rcases ho with (ho | ho) | ho <;> (try split at ho) <;> simp at ho <;> subst ho <;> simpa [Obs.about] using Ne.symm hj
  all_goals simp [Obs.about, e]

theorem OpStep.follow {i n op op' obs b} (h : OpStep i n op op' obs b) {x : Life} (hf : Follow op x) :
    ∃ y, lifeRun i x obs = some y ∧ Follow op' y := by
  obtain ⟨ph, reg⟩ := x
  have gpr := hf.gpr; have info := hf.info; have dead := hf.dead; have live := hf.live
  cases h
  case edit h hs hc hx =>
    refine ⟨_, rfl, ⟨fun e => (hx e).elim id fun e => ?_, ?_, ?_, ?_⟩⟩
    · rw [h.1]; exact gpr e
    · rw [hs, h.1]; exact info
    · rw [hs]; exact dead
    · intro hd
      rw [hs] at hd
      have := live hd
      simp only [SOp.phase, hs, h.1, hc] at this ⊢
      exact this
  case setClose h hs hl hc hx =>
    obtain ⟨hp, hr⟩ := live hl
    simp only at hp hr
    subst hp
    refine ⟨⟨op.phase, true⟩, ?_, ⟨?_, ?_, ?_, ?_⟩⟩
    · have : op.phase = .setup ∨ op.phase = .idle ∨ op.phase = .busy :=
        live_phase op (by assumption)
      simp [lifeRun, lifeStep, lifeObs, Obs.about, this]
    · rw [hx, h.1]; exact gpr
    · rw [hs, h.1]; exact info
    · rw [hs]; exact fun e => absurd e hl
    · intro _; simp [SOp.phase, hs, h.1, hc]
  case setupOK h hk hs hs' hc hx =>
    obtain ⟨hp, hr⟩ := live (by simp [hs])
    simp only at hp hr
    subst hp
    refine ⟨⟨.idle, reg⟩, by simp [lifeRun, lifeStep, lifeObs, Obs.about, SOp.phase, hs],
      ⟨by rw [hx, h.1]; exact gpr, by simp [hs'], by simp [hs'], by simp [SOp.phase, hs', hc, hr]⟩⟩
  case setupErr h hk hs hs' hc hx =>
    obtain ⟨hp, hr⟩ := live (by simp [hs])
    simp only at hp hr
    subst hp
    refine ⟨⟨.over .reply, reg⟩, by simp [lifeRun, lifeStep, lifeObs, Obs.about, SOp.phase, hs],
      ⟨by rw [hx, h.1]; exact gpr, by simp [hs'], by simp, by simp [hs']⟩⟩
  case reply k ok h hk hs hs' hc hx =>
    obtain ⟨hp, hr⟩ := live (by simp [hs])
    simp only at hp hr
    subst hp
    refine ⟨⟨.idle, reg⟩, by simp [lifeRun, lifeStep, lifeObs, Obs.about, SOp.phase, hs, hk],
      ⟨by rw [hx, h.1]; exact gpr, by simp [hs'], by simp [hs'], by simp [SOp.phase, hs', hc, hr]⟩⟩
  case replyLast k ok h hk hs hs' hc hx =>
    obtain ⟨hp, hr⟩ := live (by simp [hs])
    simp only at hp hr
    subst hp
    refine ⟨⟨.over .reply, reg⟩, by simp [lifeRun, lifeStep, lifeObs, Obs.about, SOp.phase, hs, hk],
      ⟨by rw [hx, h.1]; exact gpr, by simp [hs'], by simp, by simp [hs']⟩⟩
  case exec c h hk hs hs' hc hx =>
    obtain ⟨hp, hr⟩ := live (by simp [hs])
    simp only at hp hr
    subst hp
    have hm : op.kind ≠ .mon := by intro e; rw [e] at hk; cases hk
    refine ⟨⟨.busy, reg⟩, by simp [lifeRun, lifeStep, lifeObs, Obs.about, SOp.phase, hs],
      ⟨by rw [hx, h.1]; exact gpr, by simp [hs'], by simp [hs'], by simp [SOp.phase, hs', hc, hr, h.1, hm]⟩⟩
  case cancel h hs hs' hc hx =>
    obtain ⟨hp, hr⟩ := live (by simp [hs])
    simp only at hp hr
    subst hp
    refine ⟨⟨.idle, reg⟩, ?_,
      ⟨by rw [hx, h.1]; exact gpr, by simp [hs'], by simp [hs'], by simp [SOp.phase, hs', hc, hr]⟩⟩
    cases hcan : op.onCancel
    · by_cases hm : op.kind = .mon <;> simp [lifeRun, lifeStep, lifeObs, Obs.about, SOp.phase, hs, hm]
    · have hm : op.kind ≠ .mon := by intro e; have := gpr hcan; rw [e] at this; cases this
      simp [lifeRun, lifeStep, lifeObs, Obs.about, SOp.phase, hs, hm]
  case monRun h hk hs hs' hc hx =>
    obtain ⟨hp, hr⟩ := live hs.2
    simp only at hp hr
    refine ⟨⟨ph, reg⟩, rfl, ⟨by rw [hx, h.1]; exact gpr, fun e => absurd e hs'.1, fun e => absurd e hs'.2, fun _ => ⟨?_, by rw [hc]; exact hr⟩⟩⟩
    simp only [hp, SOp.phase, h.1, hk]
    cases e : op.state <;> cases e' : op'.state <;> simp_all
  case monEnd h hk hs hs' hc hx =>
    obtain ⟨hp, hr⟩ := live (by simp [hs])
    simp only at hp hr
    subst hp
    refine ⟨⟨.over .reply, reg⟩, by simp [lifeRun, lifeStep, lifeObs, Obs.about, SOp.phase, hs, hk],
      ⟨by rw [hx, h.1]; exact gpr, by simp [hs'], by simp, by simp [hs']⟩⟩
  case teardown h hs hs' hc hx =>
    obtain ⟨hp, hr⟩ := live hs
    simp only at hp hr
    refine ⟨⟨.over .teardown, false⟩, ?_, ⟨by simp [hx], by simp [hs'], by simp, by simp [hs']⟩⟩
    rw [lifeRun_append, lifeRun_append]
    have h1 : lifeRun i ⟨ph, reg⟩ (if op.state == .executing && op.onCancel then [.onCancel i] else []) = some ⟨ph, reg⟩ := by
      split
      · rename_i e
        simp only [Bool.and_eq_true, beq_iff_eq] at e
        have hm : op.kind ≠ .mon := by intro e'; have := gpr e.2; rw [e'] at this; cases this
        simp [lifeRun, lifeStep, lifeObs, Obs.about, hp, SOp.phase, e.1, hm]
      · rfl
    rw [h1]
    have h2 : lifeRun i ⟨ph, reg⟩ [.ended i .teardown] = some ⟨.over .teardown, reg⟩ := by
      have : op.phase = .setup ∨ op.phase = .idle ∨ op.phase = .busy :=
        live_phase op (by assumption)
      simp [lifeRun, lifeStep, lifeObs, Obs.about, hp, this]
    simp only [Option.bind_some, h2]
    rw [hr]
    cases op.onClose <;> simp [lifeRun, lifeStep, lifeObs, Obs.about]

/-- every operation has followed the automaton -/
def Lives (s : SConn) : Prop :=
  ∀ i : Nat, (∀ op, s.ops[i]? = some op → ∃ x, lifeOf i s.log = some x ∧ Follow op x)
    ∧ (s.ops[i]? = none → lifeOf i s.log = some ⟨.fresh, false⟩)

theorem lifeOf_append (i : Nat) (a b : List Obs) {x : Life} (h : lifeOf i a = some x) : lifeOf i (a ++ b) = lifeRun i x b := by
  unfold lifeOf at h ⊢
  rw [lifeRun_append, h]; rfl

theorem Micro.lives {Q} {s t : SConn} (m : Micro Q s t) (hs : Lives s) : Lives t := by
  intro i
  have h1 := (hs i).1
  have h2 := (hs i).2
  cases m with
  | quiet obs hq ho hl hh hi =>
    rw [ho, hl]
    refine ⟨fun op h => ?_, fun h => ?_⟩
    · obtain ⟨x, hx, hf⟩ := h1 op h
      exact ⟨x, by rw [lifeOf_append _ _ _ hx, lifeRun_other _ _ (hq i)], hf⟩
    · rw [lifeOf_append _ _ _ (h2 h), lifeRun_other _ _ (hq i)]
  | new op c hst hk hc hx hch ho hl hh hi =>
    rw [ho, hl]
    by_cases e : i = s.ops.length
    · subst e
      have h0 : lifeOf s.ops.length s.log = some ⟨.fresh, false⟩ := h2 (by simp)
      refine ⟨fun op' h => ?_, fun h => by simp at h⟩
      simp at h; subst h
      refine ⟨⟨.setup, false⟩, ?_, ⟨by simp [hx], fun _ => hk, by simp [hst], fun _ => ⟨by simp [SOp.phase, hst], by simp [hc]⟩⟩⟩
      rw [lifeOf_append _ _ _ h0]; simp [lifeRun, lifeStep, Obs.about, lifeObs]
    · have hne : ∀ o ∈ [Obs.created s.ops.length c], o.about i = false := by simp [Obs.about, Ne.symm e]
      by_cases hlt : i < s.ops.length
      · rw [List.getElem?_append_left hlt]
        refine ⟨fun op h => ?_, fun h => ?_⟩
        · obtain ⟨x, hx, hf⟩ := h1 op h
          exact ⟨x, by rw [lifeOf_append _ _ _ hx, lifeRun_other _ _ hne], hf⟩
        · rw [lifeOf_append _ _ _ (h2 h), lifeRun_other _ _ hne]
      · have : s.ops[i]? = none := by simp; omega
        refine ⟨fun op h => ?_, fun h => ?_⟩
        · rw [List.getElem?_append_right (by omega)] at h
          have : i - s.ops.length ≠ 0 := by omega
          cases e' : i - s.ops.length with
          | zero => omega
          | succ n => rw [e'] at h; simp at h
        · rw [lifeOf_append _ _ _ (h2 this), lifeRun_other _ _ hne]
  | newInfo op c hst hk hc hx hch ho hl hh hi =>
    rw [ho, hl]
    by_cases e : i = s.ops.length
    · subst e
      have h0 : lifeOf s.ops.length s.log = some ⟨.fresh, false⟩ := h2 (by simp)
      refine ⟨fun op' h => ?_, fun h => by simp at h⟩
      simp at h; subst h
      refine ⟨⟨.busy, false⟩, ?_, ⟨by simp [hx], by simp [hst], by simp [hst],
        fun _ => ⟨by simp [SOp.phase, hst, hk], by simp [hc]⟩⟩⟩
      rw [lifeOf_append _ _ _ h0]; simp [lifeRun, lifeStep, Obs.about, lifeObs]
    · have hne : ∀ o ∈ [Obs.created s.ops.length c, Obs.exec s.ops.length s.handles.length .nothing], o.about i = false := by
        simp [Obs.about, Ne.symm e]
      by_cases hlt : i < s.ops.length
      · rw [List.getElem?_append_left hlt]
        refine ⟨fun op h => ?_, fun h => ?_⟩
        · obtain ⟨x, hx, hf⟩ := h1 op h
          exact ⟨x, by rw [lifeOf_append _ _ _ hx, lifeRun_other _ _ hne], hf⟩
        · rw [lifeOf_append _ _ _ (h2 h), lifeRun_other _ _ hne]
      · have : s.ops[i]? = none := by simp; omega
        refine ⟨fun op h => ?_, fun h => ?_⟩
        · rw [List.getElem?_append_right (by omega)] at h
          cases e' : i - s.ops.length with
          | zero => omega
          | succ n => rw [e'] at h; simp at h
        · rw [lifeOf_append _ _ _ (h2 this), lifeRun_other _ _ hne]
  | op j op op' obs b h st ho hl hh hr hi =>
    rw [ho, hl]
    by_cases e : j = i
    · subst e
      have hlt := (List.getElem?_eq_some_iff.1 h).1
      refine ⟨fun o h' => ?_, fun h' => ?_⟩
      · rw [List.getElem?_set] at h'
        simp [hlt] at h'; subst h'
        obtain ⟨x, hx, hf⟩ := h1 op h
        obtain ⟨y, hy, hf'⟩ := st.follow hf
        exact ⟨y, by rw [lifeOf_append _ _ _ hx, hy], hf'⟩
      · rw [List.getElem?_set] at h'
        simp [hlt] at h'
    · have hne := st.other i (Ne.symm e)
      rw [List.getElem?_set_ne e]
      refine ⟨fun op h => ?_, fun h => ?_⟩
      · obtain ⟨x, hx, hf⟩ := h1 op h
        exact ⟨x, by rw [lifeOf_append _ _ _ hx, lifeRun_other _ _ hne], hf⟩
      · rw [lifeOf_append _ _ _ (h2 h), lifeRun_other _ _ hne]

theorem Micros.lives {Q} {s t : SConn} (m : Micros Q s t) : Lives s → Lives t := by
  induction m with
  | nil => exact id
  | cons h _ ih => exact fun hs => ih (h.lives hs)

theorem start_lives : Lives Spec.start := fun i => ⟨fun op h => by simp [Spec.start] at h, fun _ => rfl⟩
theorem start_handlesOK : HandlesOK Spec.start := fun k i h => by simp [Spec.start] at h

theorem run_lives (es : List Ev) : Lives (run Spec.start es) := (run_micros es _ start_handlesOK).lives start_lives

theorem run_life (es : List Ev) (i : Nat) : ∃ x, lifeOf i (run Spec.start es).log = some x := by
  have := run_lives es i
  cases h : (run Spec.start es).ops[i]? with
  | none => exact ⟨_, this.2 h⟩
  | some op => obtain ⟨x, hx, _⟩ := this.1 op h; exact ⟨x, hx⟩

/-! ### what the automaton accepts -/

theorem lifeRun_split {i : Nat} {a b : List Obs} {x z : Life} (h : lifeRun i x (a ++ b) = some z) :
    ∃ y, lifeRun i x a = some y ∧ lifeRun i y b = some z := by
  rw [lifeRun_append] at h
  cases e : lifeRun i x a with
  | none => rw [e] at h; cases h
  | some y => rw [e] at h; exact ⟨y, rfl, h⟩

/-- one observation -/
theorem lifeRun_cons {i : Nat} {o : Obs} {l : List Obs} {x z : Life} (h : lifeRun i x (o :: l) = some z) :
    ∃ y, lifeStep i x o = some y ∧ lifeRun i y l = some z := by
  simp only [lifeRun] at h
  cases e : lifeStep i x o with
  | none => rw [e] at h; cases h
  | some y => rw [e] at h; exact ⟨y, rfl, h⟩

def b01 (p : Prop) [Decidable p] : Nat := if p then 1 else 0

theorem life_counts (i : Nat) (l : List Obs) : ∀ x y, lifeRun i x l = some y →
    Spec.execReplies i l + Spec.cancels i l + b01 (y.phase = .busy) ≤ Spec.execs i l + b01 (x.phase = .busy) := by
  induction l with
  | nil => intro x y h; cases h; simp [Spec.execReplies, Spec.cancels, Spec.execs]
  | cons o l ih =>
    intro x z h
    obtain ⟨y, h1, h2⟩ := lifeRun_cons h
    have := ih y z h2
    simp only [Spec.execReplies, Spec.cancels, Spec.execs, List.countP_cons] at this ⊢
    unfold lifeStep at h1
    by_cases hab : o.about i = true
    · rw [if_pos hab] at h1
      cases o with
      | replied j src ok =>
        cases src <;> simp only [lifeObs] at h1 <;> split at h1 <;> cases h1 <;> simp_all [Obs.about, b01] <;> grind
      | ended j w =>
        cases w <;> simp only [lifeObs] at h1 <;> split at h1 <;> cases h1 <;> simp_all [Obs.about, b01] <;> grind
      | _ => simp only [lifeObs] at h1 <;> (try split at h1) <;> cases h1 <;> simp_all [Obs.about, b01] <;> grind
    · rw [if_neg hab] at h1
      cases h1
      cases o with
      | replied j src ok => cases src <;> simp_all [Obs.about]
      | _ => simp_all [Obs.about]

theorem life_stays_over {i : Nat} {x y : Life} {o : Obs} (h : lifeStep i x o = some y) {w : End} (hx : x.phase = .over w) :
    y.phase = .over w := by
  unfold lifeStep at h
  split at h
  · cases o with
    | replied j src ok => cases src <;> simp_all [lifeObs]
    | ended j w => cases w <;> simp_all [lifeObs]
    | onClose j => simp only [lifeObs] at h; split at h <;> cases h; exact hx
    | _ => simp_all [lifeObs]
  · cases h; exact hx

/-- while the operation is not over nothing is lost -/
theorem life_exact (i : Nat) (l : List Obs) : ∀ x y, lifeRun i x l = some y → (∀ w, y.phase ≠ .over w) →
    (∀ w, x.phase ≠ .over w) ∧
    Spec.execReplies i l + Spec.cancels i l + b01 (y.phase = .busy) = Spec.execs i l + b01 (x.phase = .busy) := by
  induction l with
  | nil => intro x y h hy; cases h; exact ⟨hy, by simp [Spec.execReplies, Spec.cancels, Spec.execs]⟩
  | cons o l ih =>
    intro x z h hz
    obtain ⟨y, h1, h2⟩ := lifeRun_cons h
    obtain ⟨hy, this⟩ := ih y z h2 hz
    refine ⟨fun w hx => hy w (life_stays_over h1 hx), ?_⟩
    simp only [Spec.execReplies, Spec.cancels, Spec.execs, List.countP_cons] at this ⊢
    unfold lifeStep at h1
    by_cases hab : o.about i = true
    · rw [if_pos hab] at h1
      cases o with
      | replied j src ok =>
        cases src <;> simp only [lifeObs] at h1 <;> split at h1 <;> cases h1 <;> simp_all [Obs.about, b01] <;> grind
      | ended j w =>
        exfalso
        cases w <;> simp only [lifeObs] at h1 <;> split at h1 <;> cases h1 <;> exact hy _ rfl
      | _ => simp only [lifeObs] at h1 <;> (try split at h1) <;> cases h1 <;> simp_all [Obs.about, b01] <;> grind
    · rw [if_neg hab] at h1
      cases h1
      cases o with
      | replied j src ok => cases src <;> simp_all [Obs.about]
      | _ => simp_all [Obs.about]

theorem life_setup (i : Nat) (l : List Obs) : ∀ x y, lifeRun i x l = some y →
    Spec.setupReplies i l + b01 (x.phase ≠ .fresh ∧ x.phase ≠ .setup) ≤ b01 (y.phase ≠ .fresh ∧ y.phase ≠ .setup) := by
  induction l with
  | nil => intro x y h; cases h; simp [Spec.setupReplies]
  | cons o l ih =>
    intro x z h
    obtain ⟨y, h1, h2⟩ := lifeRun_cons h
    have := ih y z h2
    simp only [Spec.setupReplies, List.countP_cons] at this ⊢
    unfold lifeStep at h1
    by_cases hab : o.about i = true
    · rw [if_pos hab] at h1
      cases o with
      | replied j src ok =>
        cases src <;> simp only [lifeObs] at h1 <;> split at h1 <;> cases h1 <;> simp_all [Obs.about, b01] <;> grind
      | ended j w =>
        cases w <;> simp only [lifeObs] at h1 <;> split at h1 <;> cases h1 <;> simp_all [Obs.about, b01] <;> grind
      | _ => simp only [lifeObs] at h1 <;> (try split at h1) <;> cases h1 <;> simp_all [Obs.about, b01] <;> grind
    · rw [if_neg hab] at h1
      cases h1
      cases o with
      | replied j src ok => cases src <;> simp_all [Obs.about]
      | _ => simp_all [Obs.about]

/-- once over, only the close callback -/
theorem life_over (i : Nat) (l : List Obs) : ∀ x y w, lifeRun i x l = some y → x.phase = .over w →
    (∀ o ∈ l, o.about i = true → o = .onClose i) ∧ Spec.closes i l ≤ b01 (w = .teardown ∧ x.reg = true) ∧ y.phase = .over w
      ∧ (y.reg = true → x.reg = true ∧ Spec.closes i l = 0)
      ∧ (w = .teardown → x.reg = true → y.reg = false → Spec.closes i l = 1) := by
  induction l with
  | nil => intro x y w h hw; cases h; simp [Spec.closes, hw]
  | cons o l ih =>
    intro x z w h hw
    obtain ⟨y, h1, h2⟩ := lifeRun_cons h
    unfold lifeStep at h1
    by_cases hab : o.about i = true
    · rw [if_pos hab] at h1
      have ho : ∃ j, o = .onClose j := by
        cases o with
        | replied j src ok => cases src <;> simp only [lifeObs, hw] at h1 <;> simp at h1
        | ended j w => cases w <;> simp only [lifeObs, hw] at h1 <;> simp at h1
        | onClose j => exact ⟨j, rfl⟩
        | _ => simp only [lifeObs, hw] at h1 <;> simp at h1
      obtain ⟨j, rfl⟩ := ho
      have hj : j = i := by simpa [Obs.about] using hab
      subst hj
      simp only [lifeObs] at h1
      split at h1 <;> cases h1
      rename_i hc
      have hwt : w = .teardown := by have := hc.1; rw [hw] at this; cases this; rfl
      obtain ⟨a, b, c, d, e⟩ := ih { x with reg := false } z w h2 hw
      simp only [b01, and_false, Bool.false_eq_true, if_false, Nat.le_zero] at b
      refine ⟨?_, ?_, c, fun hz => ?_, fun _ _ _ => ?_⟩
      · intro o ho hab'
        rcases List.mem_cons.1 ho with rfl | ho
        · rfl
        · exact a o ho hab'
      · simp only [Spec.closes, List.countP_cons] at b ⊢
        simp [b, b01, hwt, hc.2]
      · exact absurd (d hz).1 (by simp)
      · simp only [Spec.closes, List.countP_cons] at b ⊢
        simp [b]
    · rw [if_neg hab] at h1; cases h1
      obtain ⟨a, b, c, d, e⟩ := ih x z w h2 hw
      have hcl : Spec.closes i (o :: l) = Spec.closes i l := by
        simp only [Spec.closes, List.countP_cons]
        cases o with
        | onClose j => simp_all [Obs.about]
        | _ => rfl
      refine ⟨?_, by rw [hcl]; exact b, c, by rw [hcl]; exact d, by rw [hcl]; exact e⟩
      intro o' ho hab'
      rcases List.mem_cons.1 ho with rfl | ho
      · exact absurd hab' hab
      · exact a o' ho hab'

/-- the close callback -/
theorem life_closes (i : Nat) (l : List Obs) : ∀ x y, lifeRun i x l = some y →
    Spec.closes i l ≤ 1 ∧ (y.phase ≠ .over .teardown → Spec.closes i l = 0)
    ∧ (y.phase = .over .teardown → y.reg = false → (x.reg = true ∨ Obs.setClose i ∈ l) → Spec.closes i l = 1) := by
  induction l with
  | nil =>
    intro x y h; cases h
    refine ⟨by simp [Spec.closes], by simp [Spec.closes], ?_⟩
    intro _ h2 h3; simp [h2] at h3
  | cons o l ih =>
    intro x z h
    obtain ⟨y, h1, h2⟩ := lifeRun_cons h
    obtain ⟨a, b, c⟩ := ih y z h2
    unfold lifeStep at h1
    by_cases hab : o.about i = true
    · rw [if_pos hab] at h1
      by_cases ho : ∃ j, o = .onClose j
      · obtain ⟨j, rfl⟩ := ho
        have hj : j = i := by simpa [Obs.about] using hab
        subst hj
        simp only [lifeObs] at h1
        split at h1 <;> cases h1
        rename_i hc
        obtain ⟨_, b', c', _⟩ := life_over j l { x with reg := false } z .teardown h2 hc.1
        simp only [b01, and_false, Bool.false_eq_true, if_false, Nat.le_zero] at b'
        have : Spec.closes j (.onClose j :: l) = 1 := by
          simp only [Spec.closes, List.countP_cons] at b' ⊢; simp [b']
        rw [this]
        exact ⟨Nat.le_refl _, fun h => absurd c' h, fun _ _ _ => rfl⟩
      · have hcl : Spec.closes i (o :: l) = Spec.closes i l := by
          simp only [Spec.closes, List.countP_cons]
          cases o with
          | onClose j => exact absurd ⟨j, rfl⟩ ho
          | _ => rfl
        rw [hcl]
        refine ⟨a, b, fun h3 h4 h5 => c h3 h4 ?_⟩
        cases o with
        | setClose j =>
          left
          simp only [lifeObs] at h1; split at h1 <;> cases h1; rfl
        | onClose j => exact absurd ⟨j, rfl⟩ ho
        | replied j src ok =>
          cases src <;> simp only [lifeObs] at h1 <;> split at h1 <;> cases h1 <;>
            (rcases h5 with h5 | h5; exact .inl h5; exact .inr (by simpa using h5))
        | ended j w =>
          cases w <;> simp only [lifeObs] at h1 <;> split at h1 <;> cases h1 <;>
            (rcases h5 with h5 | h5; exact .inl h5; exact .inr (by simpa using h5))
        | _ =>
          simp only [lifeObs] at h1 <;> (try split at h1) <;> cases h1 <;>
            (rcases h5 with h5 | h5; exact .inl h5; exact .inr (by simpa using h5))
    · rw [if_neg hab] at h1; cases h1
      have hcl : Spec.closes i (o :: l) = Spec.closes i l := by
        simp only [Spec.closes, List.countP_cons]
        cases o with
        | onClose j => simp_all [Obs.about]
        | _ => rfl
      rw [hcl]
      refine ⟨a, b, fun h3 h4 h5 => c h3 h4 ?_⟩
      rcases h5 with h5 | h5
      · exact .inl h5
      · right
        rcases List.mem_cons.1 h5 with rfl | h5
        · simp [Obs.about] at hab
        · exact h5

theorem life_ended (i : Nat) (l : List Obs) : ∀ x y w, lifeRun i x l = some y → Obs.ended i w ∈ l → y.phase = .over w := by
  intro x y w h hm
  obtain ⟨a, b, rfl⟩ := List.append_of_mem hm
  obtain ⟨u, h1, h2⟩ := lifeRun_split h
  obtain ⟨v, h3, h4⟩ := lifeRun_cons h2
  have : v.phase = .over w := by
    simp only [lifeStep, Obs.about, beq_self_eq_true, if_true] at h3
    cases w <;> simp only [lifeObs] at h3 <;> split at h3 <;> cases h3 <;> rfl
  exact (life_over i b v y w h4 this).2.2.1

theorem life_over_ended (i : Nat) (l : List Obs) : ∀ x y w, lifeRun i x l = some y → y.phase = .over w →
    (∀ w', x.phase ≠ .over w') → Obs.ended i w ∈ l := by
  induction l with
  | nil => intro x y w h hw hn; cases h; exact absurd hw (hn w)
  | cons o l ih =>
    intro x z w h hw hn
    obtain ⟨y, h1, h2⟩ := lifeRun_cons h
    by_cases hy : ∀ w', y.phase ≠ .over w'
    · exact List.mem_cons_of_mem _ (ih y z w h2 hw hy)
    · have ⟨w', hw'⟩ : ∃ w', y.phase = .over w' := Classical.byContradiction fun hne => hy fun w' e => hne ⟨w', e⟩
      have := (life_over i l y z w' h2 hw').2.2.1
      rw [hw] at this; cases this
      unfold lifeStep at h1
      by_cases hab : o.about i = true
      · rw [if_pos hab] at h1
        have hne := hn .teardown
        cases o with
        | ended j w2 =>
          have hj : j = i := by simpa [Obs.about] using hab
          subst hj
          cases w2 <;> simp only [lifeObs] at h1 <;> split at h1 <;> cases h1 <;> cases hw' <;> simp
        | replied j src ok =>
          cases src <;> simp only [lifeObs] at h1 <;> split at h1 <;> cases h1 <;> (try split at hw') <;> first | cases hw' | (exact absurd hw' (hn _)) | (exact absurd ‹_› (hn _))
        | _ =>
          simp only [lifeObs] at h1 <;> (try split at h1) <;> cases h1 <;> (try split at hw') <;>
            first | cases hw' | (exact absurd hw' (hn _)) | simp_all
      · rw [if_neg hab] at h1; cases h1
        exact absurd hw' (hn _)

end Pvxs.Server
