import Verif.Spec.ClientOp
namespace Pvxs.ClientOp
open Spec.COp

/-- what holds between events -/
structure Inv (o : Op) : Prop where
  crashed : o.crashed = false
  build : o.state ≠ .buildPut
  busy : o.state = .creating ∨ o.state = .idle ∨ o.state = .getOPut ∨ o.state = .exec → o.conn = true ∧ o.reg = true ∧ o.alive = true
  wait : o.state = .connecting → o.reg = false ∧ (o.pending = true → o.conn = false)
  auto : o.autoExec = true → o.state ≠ .idle
  dead : o.alive = false → o.state = .done

attribute [grind cases] Inv
theorem inv_cancel {o : Op} (h : Inv o) : Inv (cancel o).1 := by
  obtain ⟨h1, h2, h3, h4, h5, h6⟩ := h
  simp only [cancel, cancelImpl]
  constructor <;> grind

theorem inv_closeConn {o : Op} (h : Inv o) : Inv (closeConn o).1 := by
  obtain ⟨h1, h2, h3, h4, h5, h6⟩ := h
  simp only [closeConn, chanDown, disconnected]
  constructor <;> grind

/-! the outcome of a reply, case by case -/

theorem sendReply_done {o : Op} (hs : o.state = .done) (b : BuildAct) :
    sendReply o b = ({ o with reg := false, crashed := o.crashed || !o.conn }, .sent .destroy :: notify o (o.result.getD .logic), false) := by
  obtain ⟨kind, ae, go, hi, st, done, fixed, arg, res, conn, pend, reg, alive, cr⟩ := o
  simp only at hs
  subst hs
  rfl

theorem sendReply_idle {o : Op} (hs : o.state = .idle) (b : BuildAct) :
    sendReply o b = ({ o with crashed := o.crashed || !o.conn }, [], true) := by
  obtain ⟨kind, ae, go, hi, st, done, fixed, arg, res, conn, pend, reg, alive, cr⟩ := o
  simp only at hs
  subst hs
  rfl

theorem sendReply_get {o : Op} (hs : o.state = .getOPut) (b : BuildAct) :
    sendReply o b = ({ o with crashed := o.crashed || !o.conn }, [.sent .get], false) := by
  obtain ⟨kind, ae, go, hi, st, done, fixed, arg, res, conn, pend, reg, alive, cr⟩ := o
  simp only at hs
  subst hs
  rfl

theorem sendReply_exec {o : Op} (hs : o.state = .exec) (b : BuildAct) : ∃ a,
    sendReply o b = ({ o with crashed := o.crashed || !o.conn }, [.sent (.exec a)], false) := by
  obtain ⟨kind, ae, go, hi, st, done, fixed, arg, res, conn, pend, reg, alive, cr⟩ := o
  simp only at hs
  subst hs
  exact ⟨_, rfl⟩

/-- the builder: cancelled or not, built or not -/
theorem sendReply_build {o : Op} (hs : o.state = .buildPut) (b : BuildAct) : ∃ d hi, (d = o.done ∧ hi = o.hasInit ∨ d = none ∧ hi = false ∧ Cancels b) ∧
    ((∃ a, sendReply o b = ({ o with state := .exec, done := d, hasInit := hi, crashed := o.crashed || !o.conn }, [.sent (.exec a)], false)) ∨
      (∃ c, b = .throws c) ∧
      sendReply o b = ({ o with state := .done, done := d, hasInit := hi, crashed := o.crashed || !o.conn, reg := false, result := some .builder },
        .sent .destroy :: notify { o with done := d } .builder, false)) := by
  obtain ⟨kind, ae, go, hi, st, done, fixed, arg, res, conn, pend, reg, alive, cr⟩ := o
  simp only at hs
  subst hs
  cases fixed with
  | some a => exact ⟨done, hi, Or.inl ⟨rfl, rfl⟩, Or.inl ⟨_, rfl⟩⟩
  | none =>
    cases b with
    | value a c =>
      cases c with
      | false => exact ⟨done, hi, Or.inl ⟨rfl, rfl⟩, Or.inl ⟨_, rfl⟩⟩
      | true => exact ⟨none, false, Or.inr ⟨rfl, rfl, rfl⟩, Or.inl ⟨_, by simp [sendReply, runBuilder, cancel, cancelImpl, sendState]; rfl⟩⟩
    | throws c =>
      cases c with
      | false => exact ⟨done, hi, Or.inl ⟨rfl, rfl⟩, Or.inr ⟨⟨_, rfl⟩, rfl⟩⟩
      | true => exact ⟨none, false, Or.inr ⟨rfl, rfl, rfl⟩, Or.inr ⟨⟨_, rfl⟩, by simp [sendReply, runBuilder, cancel, cancelImpl, sendState, notify]⟩⟩

/-- the builder leaves the callback, or cancels -/
def Kept (o : Op) (b : BuildAct) (d : Option Nat) (hi : Bool) : Prop := d = o.done ∧ hi = o.hasInit ∨ d = none ∧ hi = false ∧ Cancels b

/-- what a reply does -/
inductive ReplyEff (o : Op) (r : Reply) (i : InitAct) (b : BuildAct) : Op → List Out → Prop
  | ignore (h : o.reg = false ∨ o.alive = false) : ReplyEff o r i b o []
  | close (h : fits o r = false) (ha : o.alive = true) (hr : o.reg = true) : ReplyEff o r i b (closeConn o).1 (closeConn o).2
  | finish (res : Outcome) (hf : fits o r = true) (ha : o.alive = true)
      (h : r.ok = false ∧ (o.state = .creating ∨ o.autoExec = true) ∧ res = .remote ∨
        r.ok = true ∧ o.state = .exec ∧ o.autoExec = true ∧ res = .value r.data) :
      ReplyEff o r i b { o with state := .done, reg := false, result := some res } (.sent .destroy :: notify o res)
  | lost (hf : fits o r = true) (ha : o.alive = true) (hk : r.ok = false) (hae : o.autoExec = false) (hs : o.state = .getOPut ∨ o.state = .exec) :
      ReplyEff o r i b { o with state := .connecting, pending := true, conn := false, reg := false, result := some .remote } [.closed]
  | initThrows (hi : i = .throws) (hf : fits o r = true) (hk : r.ok = true) (ha : o.alive = true) (hs : o.state = .creating) :
      ReplyEff o r i b { o with state := .done, result := some .init } (notify o .init)
  | initCancels (hi : i = .cancels) (hf : fits o r = true) (hk : r.ok = true) (ha : o.alive = true) (hs : o.state = .creating) :
      ReplyEff o r i b { o with state := .done, reg := false, done := none, hasInit := false } [.sent .destroy]
  | ready (hf : fits o r = true) (hk : r.ok = true) (ha : o.alive = true) (hs : o.state = .creating) (hae : o.autoExec = false) :
      ReplyEff o r i b { o with state := .idle } []
  | getFirst (hf : fits o r = true) (hk : r.ok = true) (ha : o.alive = true) (hs : o.state = .creating) (hae : o.autoExec = true)
      (hg : o.getOput = true) (hp : o.kind = .put) : ReplyEff o r i b { o with state := .getOPut } [.sent .get]
  | exec (a : Option Nat) (d : Option Nat) (hi : Bool) (hf : fits o r = true) (hk : r.ok = true) (ha : o.alive = true)
      (hs : o.state = .creating ∨ o.state = .getOPut) (hae : o.autoExec = true) (hd : Kept o b d hi) :
      ReplyEff o r i b { o with state := .exec, done := d, hasInit := hi } [.sent (.exec a)]
  | buildThrows (d : Option Nat) (hi : Bool) (hb : ∃ c, b = .throws c) (hf : fits o r = true) (hk : r.ok = true) (ha : o.alive = true)
      (hs : o.state = .creating ∨ o.state = .getOPut) (hae : o.autoExec = true) (hd : Kept o b d hi) :
      ReplyEff o r i b { o with state := .done, done := d, hasInit := hi, reg := false, result := some .builder }
        (.sent .destroy :: notify { o with done := d } .builder)
  | answered (hf : fits o r = true) (hk : r.ok = true) (ha : o.alive = true) (hs : o.state = .getOPut ∨ o.state = .exec) (hae : o.autoExec = false) :
      ReplyEff o r i b { o with state := .idle, result := some (.value r.data) } (notify o (.value r.data))

theorem fits_state {o : Op} {r : Reply} (h : fits o r = true) : o.state = .creating ∨ o.state = .getOPut ∨ o.state = .exec := by
  simp only [fits] at h
  grind

theorem reply_eff {o : Op} (h : Inv o) (r : Reply) (i : InitAct) (b : BuildAct) : ReplyEff o r i b (reply o r i b).1 (reply o r i b).2 := by
  unfold reply
  by_cases hr : o.reg = true
  · rw [if_neg (by simp [hr])]
    by_cases ha : o.alive = true
    · rw [if_neg (by simp [ha])]
      by_cases hf : fits o r = true
      · rw [if_neg (by simp [hf])]
        have hst := fits_state hf
        have hconn : o.conn = true := (h.busy (by rcases hst with h | h | h <;> simp [h])).1
        have hcr : o.crashed = false := h.crashed
        by_cases hk : r.ok = true
        · rw [if_neg (by simp [hk])]
          by_cases hc : o.state = .creating
          · rw [if_pos hc]
            -- after onInit
            have go : ∀ (o' : Op), o' = { o with state := St.idle } → ReplyEff o r i b
                (if o'.state = .idle ∧ o'.autoExec = true then
                  ((reExecSend o' (!o'.getOput) b).1, ([] : List Out) ++ (reExecSend o' (!o'.getOput) b).2.1) else (o', [])).1
                (if o'.state = .idle ∧ o'.autoExec = true then
                  ((reExecSend o' (!o'.getOput) b).1, ([] : List Out) ++ (reExecSend o' (!o'.getOput) b).2.1) else (o', [])).2 := by
              intro o' e
              by_cases hae : o.autoExec = true
              · rw [if_pos (by simp [e, hae])]
                simp only [reExecSend, List.nil_append]
                by_cases hp : o.kind = .put
                · cases hg : o.getOput with
                  | true =>
                    have e2 := sendReply_get (o := { o' with state := if o'.kind = .put ∧ (!!o'.getOput) = true then .getOPut else
                      if o'.kind = .put ∧ (!o'.getOput) = true then .buildPut else .exec }) (by simp [e, hp, hg]) b
                    rw [e2]
                    simp only [e, hp, hg, hcr, hconn]
                    have := ReplyEff.getFirst (i := i) (b := b) hf hk ha hc hae hg hp
                    simpa [hcr, hp, hg, hconn] using this
                  | false =>
                    obtain ⟨d, hi, hd, ⟨a, e2⟩ | ⟨hb, e2⟩⟩ := sendReply_build (o := { o' with state := if o'.kind = .put ∧ (!!o'.getOput) = true then .getOPut else
                        if o'.kind = .put ∧ (!o'.getOput) = true then .buildPut else .exec }) (by simp [e, hp, hg]) b
                    · rw [e2]
                      have := ReplyEff.exec (i := i) (b := b) a d hi hf hk ha (Or.inl hc) hae (by simpa [Kept, e] using hd)
                      simpa [e, hcr, hp, hg, hconn] using this
                    · rw [e2]
                      have := ReplyEff.buildThrows (i := i) (b := b) d hi hb hf hk ha (Or.inl hc) hae (by simpa [Kept, e] using hd)
                      simpa [e, hcr, hp, hg, hconn, notify] using this
                · obtain ⟨a, e2⟩ := sendReply_exec (o := { o' with state := if o'.kind = .put ∧ (!!o'.getOput) = true then .getOPut else
                      if o'.kind = .put ∧ (!o'.getOput) = true then .buildPut else .exec }) (by simp [e, hp]) b
                  rw [e2]
                  have := ReplyEff.exec (i := i) (b := b) a o.done o.hasInit hf hk ha (Or.inl hc) hae (Or.inl ⟨rfl, rfl⟩)
                  simpa [e, hcr, hp, hconn] using this
              · rw [if_neg (by simp [hae, e])]
                subst e
                exact ReplyEff.ready hf hk ha hc (by simpa using hae)
            unfold onInitReply
            dsimp only
            by_cases hhi : o.hasInit = true
            · rw [if_pos hhi]
              cases i with
              | ok => exact go _ rfl
              | throws =>
                dsimp only
                rw [if_neg (by simp)]
                exact ReplyEff.initThrows rfl hf hk ha hc
              | cancels =>
                simp only [cancel, cancelImpl]
                rw [if_neg (by simp)]
                have := ReplyEff.initCancels (i := .cancels) (b := b) rfl hf hk ha hc
                simpa [hcr, hconn] using this
            · rw [if_neg hhi]
              exact go _ rfl
          · rw [if_neg hc]
            by_cases hg : o.state = .getOPut
            · rw [if_pos hg]
              by_cases hae : o.autoExec = true
              · rw [if_pos hae]
                unfold sendOrClose
                obtain ⟨d, hi, hd, ⟨a, e2⟩ | ⟨hb, e2⟩⟩ := sendReply_build (o := { o with state := .buildPut }) rfl b
                · rw [e2]
                  have := ReplyEff.exec (i := i) (b := b) a d hi hf hk ha (Or.inr hg) hae (by simpa [Kept] using hd)
                  simpa [hcr, hconn] using this
                · rw [e2]
                  have := ReplyEff.buildThrows (i := i) (b := b) d hi hb hf hk ha (Or.inr hg) hae (by simpa [Kept] using hd)
                  simpa [hcr, hconn, notify] using this
              · rw [if_neg hae]
                exact ReplyEff.answered hf hk ha (Or.inl hg) (by simpa using hae)
            · rw [if_neg hg]
              have hx : o.state = .exec := by rcases hst with h | h | h <;> first | exact absurd h hc | exact absurd h hg | exact h
              by_cases hae : o.autoExec = true
              · rw [if_neg (by simp [hae])]
                unfold sendOrClose
                rw [sendReply_done (by rfl)]
                have := ReplyEff.finish (i := i) (b := b) (.value r.data) hf ha (Or.inr ⟨hk, hx, hae, rfl⟩)
                simpa [hcr, hconn, notify] using this
              · rw [if_pos (by simp [hae])]
                exact ReplyEff.answered hf hk ha (Or.inr hx) (by simpa using hae)
        · have hk : r.ok = false := by simpa using hk
          rw [if_pos (by simp [hk])]
          unfold sendOrClose
          by_cases hd : o.state = .creating ∨ o.autoExec = true
          · rw [sendReply_done (by simp [hd])]
            have := ReplyEff.finish (i := i) (b := b) .remote hf ha (Or.inl ⟨hk, hd, rfl⟩)
            simpa [hcr, hconn, notify, hd] using this
          · rw [sendReply_idle (by simp [hd])]
            simp only [not_or] at hd
            have hae : o.autoExec = false := by simpa using hd.2
            have hs : o.state = .getOPut ∨ o.state = .exec := by rcases hst with h | h | h; exact absurd h hd.1; exact Or.inl h; exact Or.inr h
            have := ReplyEff.lost (i := i) (b := b) hf ha hk hae hs
            simpa [hcr, hconn, hd, closeConn, chanDown, disconnected, hr, ha] using this
      · have hf : fits o r = false := by simpa using hf
        rw [if_pos (by simp [hf])]
        exact .close hf ha hr
    · rw [if_pos (by simp [ha])]
      exact .ignore (Or.inr (by simpa using ha))
  · rw [if_pos (by simp [hr])]
    exact .ignore (Or.inl (by simpa using hr))

theorem inv_reply {o : Op} (h : Inv o) {r : Reply} {i : InitAct} {b : BuildAct} {o' : Op} {outs : List Out} (he : ReplyEff o r i b o' outs) : Inv o' := by
  cases he with
  | ignore _ => exact h
  | close _ => exact inv_closeConn h
  | _ =>
    obtain ⟨h1, h2, h3, h4, h5, h6⟩ := h
    have := fits_state ‹_›
    constructor <;> grind

/-- what a reExec call does -/
inductive ReExecEff (o : Op) (put : Bool) (a cb : Nat) : Op → List Out → Prop
  | refuse (h : o.autoExec = true) : ReExecEff o put a cb o [.called cb .invalid]
  | drop (h : o.autoExec = false) (hs : o.state ≠ .idle) : ReExecEff o put a cb o []
  | get (h : o.autoExec = false) (hs : o.state = .idle) (hp : o.kind = .put) (hput : put = false) :
      ReExecEff o put a cb { o with state := .getOPut, done := some cb } [.sent .get]
  | exec (h : o.autoExec = false) (hs : o.state = .idle) (hp : o.kind = .put → put = true) (f ar : Option Nat) :
      ReExecEff o put a cb { o with state := .exec, done := some cb, fixed := f, arg := ar }
        [.sent (.exec (if o.kind = .get then none else some a))]

theorem reExec_eff {o : Op} (hI : Inv o) (put : Bool) (a cb : Nat) : ReExecEff o put a cb (reExec o put a cb).1 (reExec o put a cb).2 := by
  have h3 := hI.busy
  have h1 := hI.crashed
  cases hae : o.autoExec with
  | true => simp only [reExec, hae, if_true]; exact .refuse hae
  | false =>
    by_cases hs : o.state = .idle
    · have hc := (h3 (Or.inr (Or.inl hs))).1
      obtain ⟨kind, ae, go, hi, st, done, fixed, arg, res, conn, pend, reg, alive, cr⟩ := o
      simp only at hae hs hc h1
      subst hae hs hc h1
      cases kind with
      | get =>
        cases put <;> exact ReExecEff.exec (o := ⟨.get, false, go, hi, .idle, done, fixed, arg, res, true, pend, reg, alive, false⟩) rfl rfl (by simp) fixed arg
      | rpc =>
        exact ReExecEff.exec (o := ⟨.rpc, false, go, hi, .idle, done, fixed, arg, res, true, pend, reg, alive, false⟩) rfl rfl (by simp)
          fixed (some a)
      | put => cases put with
        | true => exact .exec rfl rfl (fun _ => rfl) _ _
        | false => exact .get rfl rfl rfl rfl
    · simp only [reExec, hae, hs, ne_eq, not_false_eq_true, if_true, Bool.false_eq_true, if_false]
      exact .drop hae hs

theorem inv_step {o : Op} (h : Inv o) (e : Ev) : Inv (step o e).1 := by
  cases e with
  | reply r i b => exact inv_reply h (reply_eff h r i b)
  | cancel => exact inv_cancel h
  | up => obtain ⟨h1, h2, h3, h4, h5, h6⟩ := h; simp only [step, createOperations, createOp]; constructor <;> grind
  | down => obtain ⟨h1, h2, h3, h4, h5, h6⟩ := h; simp only [step, chanDown, disconnected]; constructor <;> grind
  | drop => obtain ⟨h1, h2, h3, h4, h5, h6⟩ := h; simp only [step, cancelImpl]; constructor <;> grind
  | reExec put a cb =>
    have he := reExec_eff h put a cb
    simp only [step]
    generalize (reExec o put a cb).1 = o' at he ⊢
    generalize (reExec o put a cb).2 = outs at he ⊢
    cases he with
    | refuse _ => exact h
    | drop _ _ => exact h
    | get _ _ _ _ => obtain ⟨h1, h2, h3, h4, h5, h6⟩ := h; constructor <;> grind
    | exec _ _ _ _ _ => obtain ⟨h1, h2, h3, h4, h5, h6⟩ := h; constructor <;> grind

theorem inv_run {o : Op} (h : Inv o) (es : List Ev) : Inv (run o es).1 := by
  induction es generalizing o with
  | nil => exact h
  | cons e es ih => exact ih (inv_step h e)

theorem inv_begin (kind : Kind) (autoExec getOput hasInit : Bool) (cb : Nat) (arg : Option Nat) (fail up : Bool) :
    Inv (begin (fresh kind autoExec getOput hasInit cb arg) fail up).1 := by
  cases fail <;> cases up <;> (constructor <;> simp [begin, fresh, createOperations, createOp])

/-! ### calls -/

theorem callsOf_append (cb : Nat) (a b : List Out) : callsOf cb (a ++ b) = callsOf cb a ++ callsOf cb b := by
  simp [callsOf]

theorem callsOf_notify (cb : Nat) (o : Op) (r : Outcome) (h : o.done = none ∨ o.done = some cb) :
    callsOf cb (notify o r) = if o.done = none then [] else [r] := by
  rcases h with h | h <;> simp [notify, h, callsOf]

theorem callsOf_notify_ne (cb : Nat) (o : Op) (r : Outcome) (h : o.done ≠ some cb) : callsOf cb (notify o r) = [] := by
  unfold notify
  cases hd : o.done with
  | none => rfl
  | some c => simp [callsOf]; rintro rfl; exact h hd

/-- an autoExec operation and what was told to its callback -/
structure Told (cb : Nat) (o : Op) (calls : List Outcome) : Prop where
  auto : o.autoExec = true
  mine : o.done = none ∨ o.done = some cb
  once : (calls = [] ∧ (o.state = .done → o.done = none ∨ o.alive = false) ∧ (o.state = .connecting → o.pending = true)) ∨
    (∃ x, calls = [x] ∧ (o.state = .done ∨ (o.state = .connecting ∧ o.pending = false)))

@[simp] theorem callsOf_nil (cb : Nat) : callsOf cb [] = [] := rfl
@[simp] theorem callsOf_sent (cb : Nat) (m : Msg) (l : List Out) : callsOf cb (.sent m :: l) = callsOf cb l := rfl
@[simp] theorem callsOf_closed (cb : Nat) (l : List Out) : callsOf cb (.closed :: l) = callsOf cb l := rfl

/-- what the loss of the channel does -/
inductive DownEff (o : Op) : Op → List Out → Prop
  | keep (h : o.state = .connecting ∨ o.state = .done) : DownEff o { o with conn := false, reg := false } []
  | fail (h : o.state = .exec) (hk : o.kind ≠ .get) (hae : o.autoExec = false) :
      DownEff o { o with conn := false, reg := false, state := .done, result := some .disconnect } (notify o .disconnect)
  | again (h : o.state = .creating ∨ o.state = .idle ∨ o.state = .getOPut ∨ o.state = .exec)
      (hn : ¬ (o.state = .exec ∧ o.kind ≠ .get ∧ o.autoExec = false)) :
      DownEff o { o with conn := false, reg := false, pending := true, state := .connecting } []

theorem down_eff {o : Op} (hI : Inv o) : DownEff o (chanDown o).1 (chanDown o).2 := by
  obtain ⟨h1, h2, h3, h4, h5, h6⟩ := hI
  obtain ⟨kind, ae, go, hi, st, done, fixed, arg, res, conn, pend, reg, alive, cr⟩ := o
  simp only at h1 h2 h3 h4 h5 h6
  subst h1
  cases st with
  | connecting =>
    have := (h4 rfl).1; subst this
    exact DownEff.keep (Or.inl rfl)
  | done => cases reg <;> cases alive <;> exact DownEff.keep (Or.inr rfl)
  | buildPut => exact absurd rfl h2
  | creating =>
    obtain ⟨rfl, rfl, rfl⟩ := h3 (by simp)
    exact DownEff.again (Or.inl rfl) (by simp)
  | idle =>
    obtain ⟨rfl, rfl, rfl⟩ := h3 (by simp)
    exact DownEff.again (Or.inr (Or.inl rfl)) (by simp)
  | getOPut =>
    obtain ⟨rfl, rfl, rfl⟩ := h3 (by simp)
    exact DownEff.again (Or.inr (Or.inr (Or.inl rfl))) (by simp)
  | exec =>
    obtain ⟨rfl, rfl, rfl⟩ := h3 (by simp)
    cases ae with
    | true =>
      cases kind <;> exact DownEff.again (Or.inr (Or.inr (Or.inr rfl))) (by simp)
    | false =>
      cases kind with
      | get => exact DownEff.again (Or.inr (Or.inr (Or.inr rfl))) (by simp)
      | put => exact DownEff.fail rfl (by simp) rfl
      | rpc => exact DownEff.fail rfl (by simp) rfl

theorem told_down {cb : Nat} {o : Op} {calls : List Outcome} (hI : Inv o) (h : Told cb o calls) :
    Told cb (chanDown o).1 (calls ++ callsOf cb (chanDown o).2) := by
  have he := down_eff hI
  generalize (chanDown o).1 = o' at he ⊢
  generalize (chanDown o).2 = outs at he ⊢
  obtain ⟨a1, a2, a3⟩ := h
  cases he with
  | keep h =>
    rw [callsOf_nil, List.append_nil]
    constructor <;> grind
  | fail h hk hae => rw [a1] at hae; cases hae
  | again h hn =>
    rw [callsOf_nil, List.append_nil]
    constructor <;> grind

theorem told_step {cb : Nat} {o : Op} {calls : List Outcome} (hI : Inv o) (h : Told cb o calls) (e : Ev)
    (he : ∀ put a, e ≠ .reExec put a cb) : Told cb (step o e).1 (calls ++ callsOf cb (step o e).2) := by
  cases e with
  | down => exact told_down hI h
  | up =>
    obtain ⟨h1, h2, h3, h4, h5, h6⟩ := hI
    obtain ⟨a1, a2, a3⟩ := h
    simp only [step, createOperations, createOp]
    constructor <;> grind [callsOf_nil, callsOf_sent]
  | cancel =>
    obtain ⟨h1, h2, h3, h4, h5, h6⟩ := hI
    obtain ⟨a1, a2, a3⟩ := h
    simp only [step, cancel, cancelImpl]
    constructor <;> grind [callsOf_nil, callsOf_sent]
  | drop =>
    obtain ⟨h1, h2, h3, h4, h5, h6⟩ := hI
    obtain ⟨a1, a2, a3⟩ := h
    simp only [step, cancelImpl]
    constructor <;> grind [callsOf_nil, callsOf_sent]
  | reExec put a c =>
    have hc : c ≠ cb := by rintro rfl; exact he put a rfl
    simp only [step, reExec, h.auto, if_true]
    have : callsOf cb [Out.called c .invalid] = [] := by simp [callsOf, hc]
    rw [this, List.append_nil]
    exact h
  | reply r i b =>
    have heff := reply_eff hI r i b
    simp only [step]
    generalize (reply o r i b).1 = o' at heff ⊢
    generalize (reply o r i b).2 = outs at heff ⊢
    cases heff with
    | ignore _ => rw [callsOf_nil, List.append_nil]; exact h
    | close _ => exact told_down hI h
    | finish res hf ha hx =>
      have hst := fits_state hf
      obtain ⟨a1, a2, a3⟩ := h
      rw [callsOf_sent, callsOf_notify _ _ _ a2]
      constructor <;> grind
    | initThrows hi hf =>
      have hst := fits_state hf
      obtain ⟨a1, a2, a3⟩ := h
      rw [callsOf_notify _ _ _ a2]
      constructor <;> grind
    | buildThrows d hi hb' hf hk ha hs hae hd =>
      have hst := fits_state hf
      obtain ⟨a1, a2, a3⟩ := h
      unfold Kept at hd
      rw [callsOf_sent, callsOf_notify _ _ _ (by show d = none ∨ d = some cb; grind)]
      constructor <;> grind
    | lost _ _ _ hae => rw [h.auto] at hae; cases hae
    | ready _ _ _ _ hae => rw [h.auto] at hae; cases hae
    | answered _ _ _ _ hae => rw [h.auto] at hae; cases hae
    | initCancels hi hf =>
      have hst := fits_state hf
      obtain ⟨a1, a2, a3⟩ := h
      rw [callsOf_sent, callsOf_nil, List.append_nil]
      constructor <;> grind
    | getFirst hf =>
      have hst := fits_state hf
      obtain ⟨a1, a2, a3⟩ := h
      rw [callsOf_sent, callsOf_nil, List.append_nil]
      constructor <;> grind
    | exec a d hi hf hk ha hs hae hd =>
      have hst := fits_state hf
      obtain ⟨a1, a2, a3⟩ := h
      unfold Kept at hd
      rw [callsOf_sent, callsOf_nil, List.append_nil]
      constructor <;> grind

theorem told_begin (kind : Kind) (getOput hasInit : Bool) (cb : Nat) (arg : Option Nat) (fail up : Bool) :
    Told cb (begin (fresh kind true getOput hasInit cb arg) fail up).1
      (callsOf cb (begin (fresh kind true getOput hasInit cb arg) fail up).2) := by
  cases fail <;> cases up <;> (constructor <;> simp [begin, fresh, createOperations, createOp, callsOf, notify])

theorem told_run {cb : Nat} {o : Op} {calls : List Outcome} (hI : Inv o) (h : Told cb o calls) (es : List Ev)
    (he : ∀ put a, .reExec put a cb ∉ es) : Told cb (run o es).1 (calls ++ callsOf cb (run o es).2) := by
  induction es generalizing o calls with
  | nil => simpa [run] using h
  | cons e es ih =>
    have h1 := told_step hI h e (fun put a hx => he put a (by simp [hx]))
    have h2 := ih (inv_step hI e) h1 (fun put a hx => he put a (by simp [hx]))
    simp only [run, callsOf_append]
    rw [← List.append_assoc]
    exact h2

/-- an operation which ended is quiet -/
theorem ended_step {o : Op} (hI : Inv o) (hs : o.state = .done) (e : Ev) :
    (step o e).1.state = .done ∧ sentOf (step o e).2 = [] ∧ ∀ cb, (∀ put a, e ≠ .reExec put a cb) → callsOf cb (step o e).2 = [] := by
  cases e with
  | up =>
    simp only [step, createOperations, createOp]
    grind [callsOf_nil, sentOf]
  | down =>
    have he := down_eff hI
    simp only [step]
    generalize (chanDown o).1 = o' at he ⊢
    generalize (chanDown o).2 = outs at he ⊢
    cases he <;> simp_all [sentOf]
  | cancel => simp [step, cancel, cancelImpl, hs, sentOf]
  | drop => simp [step, cancelImpl, hs, sentOf]
  | reExec put a c =>
    have he := reExec_eff hI put a c
    simp only [step]
    generalize (reExec o put a c).1 = o' at he ⊢
    generalize (reExec o put a c).2 = outs at he ⊢
    cases he with
    | refuse h =>
      refine ⟨hs, rfl, fun cb hcb => ?_⟩
      have : c ≠ cb := by rintro rfl; exact hcb put a rfl
      simp [callsOf, this]
    | drop _ _ => exact ⟨hs, rfl, fun _ _ => rfl⟩
    | get _ h _ _ => rw [hs] at h; cases h
    | exec _ h _ _ _ => rw [hs] at h; cases h
  | reply r i b =>
    have he := reply_eff hI r i b
    simp only [step]
    generalize (reply o r i b).1 = o' at he ⊢
    generalize (reply o r i b).2 = outs at he ⊢
    cases he with
    | ignore _ => exact ⟨hs, rfl, fun _ _ => rfl⟩
    | close _ _ _ =>
      have he := down_eff hI
      simp only [closeConn]
      generalize (chanDown o).1 = o' at he ⊢
      generalize (chanDown o).2 = outs at he ⊢
      cases he <;> simp_all [sentOf]
    | _ => have := fits_state ‹_›; rw [hs] at this; simp at this

theorem ended_run {o : Op} (hI : Inv o) (hs : o.state = .done) (es : List Ev) :
    sentOf (run o es).2 = [] ∧ ∀ cb, (∀ put a, .reExec put a cb ∉ es) → callsOf cb (run o es).2 = [] := by
  induction es generalizing o with
  | nil => exact ⟨rfl, fun _ _ => rfl⟩
  | cons e es ih =>
    obtain ⟨h1, h2, h3⟩ := ended_step hI hs e
    obtain ⟨h4, h5⟩ := ih (inv_step hI e) h1
    refine ⟨?_, fun cb hcb => ?_⟩
    · simp only [run, sentOf, List.filterMap_append] at h2 h4 ⊢
      rw [h2, h4]; rfl
    · simp only [run, callsOf_append]
      rw [h3 cb (fun put a hx => hcb put a (by simp [hx])), h5 cb (fun put a hx => hcb put a (by simp [hx]))]; rfl

/-! ### the request outstanding -/

/-- the request the state waits for -/
def Waits (s : St) (m : Msg) : Prop :=
  (s = .creating ∧ m = .init) ∨ (s = .getOPut ∧ m = .get) ∨ (s = .exec ∧ ∃ a, m = .exec a)

def Waiting (s : St) : Prop := s = .creating ∨ s = .getOPut ∨ s = .exec

theorem lastSent_append (a b : List Out) : lastSent (a ++ b) = (lastSent b).or (lastSent a) := by
  simp [lastSent, sentOf, List.getLast?_append]

@[simp] theorem lastSent_nil : lastSent [] = none := rfl
@[simp] theorem lastSent_closed (l : List Out) : lastSent (.closed :: l) = lastSent l := rfl
@[simp] theorem lastSent_sent1 (m : Msg) : lastSent [.sent m] = some m := rfl
theorem lastSent_notify (o : Op) (r : Outcome) : lastSent (notify o r) = none := by
  unfold notify; split <;> rfl

/-- while a reply is awaited, the last message sent was the request -/
def Asked (o : Op) (last : Option Msg) : Prop := Waiting o.state → ∃ m, last = some m ∧ Waits o.state m

theorem asked_step {o : Op} {last : Option Msg} (hI : Inv o) (h : Asked o last) (e : Ev) :
    Asked (step o e).1 ((lastSent (step o e).2).or last) := by
  cases e with
  | up =>
    simp only [step, createOperations, createOp]
    unfold Asked Waiting Waits at *
    grind [lastSent_nil, lastSent_sent1]
  | down =>
    have he := down_eff hI
    simp only [step]
    generalize (chanDown o).1 = o' at he ⊢
    generalize (chanDown o).2 = outs at he ⊢
    cases he <;> unfold Asked Waiting at * <;> grind
  | cancel => simp [step, cancel, cancelImpl, Asked, Waiting]
  | drop => simp [step, cancelImpl, Asked, Waiting]
  | reExec put a c =>
    have he := reExec_eff hI put a c
    simp only [step]
    generalize (reExec o put a c).1 = o' at he ⊢
    generalize (reExec o put a c).2 = outs at he ⊢
    cases he with
    | refuse _ => exact h
    | drop _ _ => exact h
    | get _ _ _ _ => intro _; exact ⟨_, rfl, Or.inr (Or.inl ⟨rfl, rfl⟩)⟩
    | exec _ _ _ _ _ => intro _; exact ⟨_, rfl, Or.inr (Or.inr ⟨rfl, _, rfl⟩)⟩
  | reply r i b =>
    have he := reply_eff hI r i b
    simp only [step]
    generalize (reply o r i b).1 = o' at he ⊢
    generalize (reply o r i b).2 = outs at he ⊢
    cases he with
    | ignore _ => exact h
    | close _ _ _ =>
      have he := down_eff hI
      simp only [closeConn]
      generalize (chanDown o).1 = o' at he ⊢
      generalize (chanDown o).2 = outs at he ⊢
      cases he <;> unfold Asked Waiting at * <;> grind
    | getFirst _ _ _ _ _ _ _ => intro _; exact ⟨_, rfl, Or.inr (Or.inl ⟨rfl, rfl⟩)⟩
    | exec _ _ _ _ _ _ _ _ _ => intro _; exact ⟨_, rfl, Or.inr (Or.inr ⟨rfl, _, rfl⟩)⟩
    | _ => intro hw; simp [Waiting] at hw

theorem asked_run {o : Op} {last : Option Msg} (hI : Inv o) (h : Asked o last) (es : List Ev) :
    Asked (run o es).1 ((lastSent (run o es).2).or last) := by
  induction es generalizing o last with
  | nil => exact h
  | cons e es ih =>
    have := ih (inv_step hI e) (asked_step hI h e)
    simp only [run, lastSent_append]
    rwa [Option.or_assoc]

theorem asked_begin (kind : Kind) (autoExec getOput hasInit : Bool) (cb : Nat) (arg : Option Nat) (fail up : Bool) :
    Asked (begin (fresh kind autoExec getOput hasInit cb arg) fail up).1
      (lastSent (begin (fresh kind autoExec getOput hasInit cb arg) fail up).2) := by
  intro hw
  cases fail <;> cases up
  · simp [begin, fresh, createOperations, Waiting] at hw
  · exact ⟨_, rfl, Or.inl ⟨rfl, rfl⟩⟩
  · simp [begin, fresh, Waiting] at hw
  · simp [begin, fresh, Waiting] at hw

/-! ### the operation is not given up -/

theorem whole_step {cb : Nat} {o : Op} (hI : Inv o) (ha : o.autoExec = true) (h : o.done = some cb ∧ o.alive = true) (e : Ev)
    (h1 : e ≠ .cancel) (h2 : e ≠ .drop) (h3 : ∀ r i b, e = .reply r i b → i ≠ .cancels ∧ ¬ Cancels b) :
    (step o e).1.done = some cb ∧ (step o e).1.alive = true ∧ (step o e).1.autoExec = true := by
  cases e with
  | up => simp only [step, createOperations, createOp]; grind
  | down =>
    have he := down_eff hI
    simp only [step]
    generalize (chanDown o).1 = o' at he ⊢
    generalize (chanDown o).2 = outs at he ⊢
    cases he <;> exact ⟨h.1, h.2, ha⟩
  | cancel => exact absurd rfl h1
  | drop => exact absurd rfl h2
  | reExec put a c => simp [step, reExec, ha, h]
  | reply r i b =>
    obtain ⟨hi, hb⟩ := h3 r i b rfl
    have he := reply_eff hI r i b
    simp only [step]
    generalize (reply o r i b).1 = o' at he ⊢
    generalize (reply o r i b).2 = outs at he ⊢
    cases he with
    | close _ _ _ =>
      have he := down_eff hI
      simp only [closeConn]
      generalize (chanDown o).1 = o' at he ⊢
      generalize (chanDown o).2 = outs at he ⊢
      cases he <;> exact ⟨h.1, h.2, ha⟩
    | initCancels h => exact absurd h hi
    | exec a d hi hf hk _ hs hae hd =>
      rcases hd with ⟨rfl, rfl⟩ | ⟨_, _, hc⟩
      · exact ⟨h.1, h.2, ha⟩
      · exact absurd hc hb
    | buildThrows d hi hb' hf hk _ hs hae hd =>
      rcases hd with ⟨rfl, rfl⟩ | ⟨_, _, hc⟩
      · exact ⟨h.1, h.2, ha⟩
      · exact absurd hc hb
    | _ => exact ⟨h.1, h.2, ha⟩

theorem whole_run {cb : Nat} {o : Op} (hI : Inv o) (ha : o.autoExec = true) (h : o.done = some cb ∧ o.alive = true) (es : List Ev)
    (hu : Undisturbed es) : (run o es).1.done = some cb ∧ (run o es).1.alive = true ∧ (run o es).1.autoExec = true := by
  induction es generalizing o with
  | nil => exact ⟨h.1, h.2, ha⟩
  | cons e es ih =>
    have h1 := whole_step hI ha h e (hu e (by simp)).1 (hu e (by simp)).2.1 (hu e (by simp)).2.2
    exact ih (inv_step hI e) h1.2.2 ⟨h1.1, h1.2.1⟩ (fun x hx => hu x (by simp [hx]))

/-- how many replies it takes at most -/
def left : St → Nat
  | .creating => 3
  | .getOPut => 2
  | .exec => 1
  | _ => 0

theorem fits_answer {o : Op} {m : Msg} (h : Waits o.state m) (a : Answer) : fits o (answer m a) = true := by
  rcases h with ⟨h1, rfl⟩ | ⟨h1, rfl⟩ | ⟨h1, x, rfl⟩ <;> simp [fits, answer, h1]

theorem serve_calls {cb : Nat} : ∀ (as : List Answer) {o : Op} {m : Msg}, Inv o → o.autoExec = true → o.done = some cb → o.alive = true →
    Waits o.state m → left o.state ≤ as.length → (∀ a ∈ as, a.onInit ≠ .cancels ∧ ¬ Cancels a.build) →
    callsOf cb (serve o (some m) as).2 ≠ []
  | [], o, m, hI, ha, hd, hal, hw, hl, hu => by
    rcases hw with ⟨h, _⟩ | ⟨h, _⟩ | ⟨h, _⟩ <;> (rw [h] at hl; simp [left] at hl)
  | a :: as, o, m, hI, ha, hd, hal, hw, hl, hu => by
    have hfit := fits_answer hw a
    have hua := hu a (by simp)
    have hreg : o.reg = true := (hI.busy (by rcases hw with ⟨h, _⟩ | ⟨h, _⟩ | ⟨h, _⟩ <;> simp [h])).2.1
    have hw1 := whole_step hI ha ⟨hd, hal⟩ (.reply (answer m a) a.onInit a.build) (by simp) (by simp)
      (by intro r i b e; cases e; exact hua)
    have hI1 := inv_step hI (.reply (answer m a) a.onInit a.build)
    have hask := asked_step (last := some m) hI (fun _ => ⟨m, rfl, hw⟩) (.reply (answer m a) a.onInit a.build)
    have he := reply_eff hI (answer m a) a.onInit a.build
    have hst : ∀ o' outs, ReplyEff o (answer m a) a.onInit a.build o' outs →
        callsOf cb outs ≠ [] ∨ (Waiting o'.state ∧ left o'.state < left o.state ∧ ∃ m', lastSent outs = some m' ∧ Waits o'.state m') := by
      intro o' outs he
      cases he with
      | ignore h => rcases h with h | h; rw [hreg] at h; cases h; rw [hal] at h; cases h
      | close h _ _ => rw [hfit] at h; cases h
      | finish res _ _ _ => left; rw [callsOf_sent, callsOf_notify _ _ _ (Or.inr hd)]; simp [hd]
      | lost _ _ _ hae => rw [ha] at hae; cases hae
      | initThrows _ _ _ _ _ => left; rw [callsOf_notify _ _ _ (Or.inr hd)]; simp [hd]
      | initCancels h => exact absurd h hua.1
      | ready _ _ _ _ hae => rw [ha] at hae; cases hae
      | getFirst _ _ _ hs _ _ _ => right; exact ⟨Or.inr (Or.inl rfl), by simp [left, hs], _, rfl, Or.inr (Or.inl ⟨rfl, rfl⟩)⟩
      | exec _ _ _ _ _ _ hs _ _ =>
        right; exact ⟨Or.inr (Or.inr rfl), by rcases hs with hs | hs <;> simp [left, hs], _, rfl, Or.inr (Or.inr ⟨rfl, _, rfl⟩)⟩
      | buildThrows d hi _ _ _ _ _ _ hd' =>
        left
        rcases hd' with ⟨rfl, rfl⟩ | ⟨_, _, hc⟩
        · rw [callsOf_sent, callsOf_notify _ _ _ (Or.inr hd)]; simp [hd]
        · exact absurd hc hua.2
      | answered _ _ _ _ hae => rw [ha] at hae; cases hae
    simp only [serve]
    rw [callsOf_append]
    rcases hst _ _ he with h | ⟨_, hlt, m', hm', hw'⟩
    · intro h2
      exact h (List.append_eq_nil_iff.mp h2).1
    · intro h2
      have h3 := (List.append_eq_nil_iff.mp h2).2
      have e : lastSent (step o (.reply (answer m a) a.onInit a.build)).2 = some m' := hm'
      rw [e] at h3
      exact serve_calls as hI1 hw1.2.2 hw1.1 hw1.2.1 hw' (by
        have : left (step o (.reply (answer m a) a.onInit a.build)).1.state < left o.state := hlt
        simp only [List.length_cons] at hl; omega) (fun x hx => hu x (by simp [hx])) h3

theorem serve_told {cb : Nat} : ∀ (as : List Answer) {o : Op} {m : Option Msg} {calls : List Outcome}, Inv o → Told cb o calls →
    Told cb (serve o m as).1 (calls ++ callsOf cb (serve o m as).2)
  | [], o, m, calls, hI, h => by simpa [serve] using h
  | a :: as, o, none, calls, hI, h => by simpa [serve] using h
  | a :: as, o, some m, calls, hI, h => by
    simp only [serve, callsOf_append]
    rw [← List.append_assoc]
    exact serve_told as (inv_step hI _) (told_step hI h (.reply (answer m a) a.onInit a.build) (by simp))

/-! ### why a callback is called -/

theorem mem_callsOf {cb : Nat} {x : Outcome} {outs : List Out} : x ∈ callsOf cb outs ↔ .called cb x ∈ outs := by
  simp only [callsOf, List.mem_filterMap]
  constructor
  · rintro ⟨y, hy, h⟩
    cases y with
    | called c o =>
      simp only at h
      split at h
      · rename_i hc; cases h; subst hc; exact hy
      · cases h
    | sent m => cases h
    | closed => cases h
  · intro h; exact ⟨_, h, by simp⟩

theorem mem_notify {o : Op} {r : Outcome} {cb : Nat} {x : Outcome} (h : .called cb x ∈ notify o r) : x = r ∧ o.done = some cb := by
  unfold notify at h
  split at h
  · rename_i hd; simp at h; exact ⟨h.2, by rw [hd, h.1]⟩
  · cases h

theorem explains_down {o : Op} (hI : Inv o) {cb : Nat} {x : Outcome} (h : .called cb x ∈ (chanDown o).2) :
    x = .disconnect ∧ o.state = .exec ∧ o.autoExec = false ∧ o.kind ≠ .get ∧ o.done = some cb := by
  have he := down_eff hI
  generalize (chanDown o).1 = o' at he
  generalize (chanDown o).2 = outs at he h
  cases he with
  | keep _ => cases h
  | again _ _ => cases h
  | fail h1 h2 h3 => obtain ⟨a, b⟩ := mem_notify h; exact ⟨a, h1, h3, h2, b⟩

theorem explains_step {o : Op} (hI : Inv o) (e : Ev) {cb : Nat} {x : Outcome} (h : .called cb x ∈ (step o e).2) : Explains e x := by
  cases e with
  | up => simp only [step, createOperations, createOp] at h; grind
  | down => obtain ⟨rfl, _⟩ := explains_down hI h; exact True.intro
  | cancel => simp only [step, cancel, cancelImpl] at h; grind
  | drop => simp only [step, cancelImpl] at h; grind
  | reExec put a c =>
    have he := reExec_eff hI put a c
    simp only [step] at h
    generalize (reExec o put a c).1 = o' at he
    generalize (reExec o put a c).2 = outs at he h
    cases he <;> simp at h
    obtain ⟨_, rfl⟩ := h; exact True.intro
  | reply r i b =>
    have he := reply_eff hI r i b
    simp only [step] at h
    generalize (reply o r i b).1 = o' at he
    generalize (reply o r i b).2 = outs at he h
    cases he with
    | ignore _ => cases h
    | close hf _ _ =>
      simp only [closeConn, List.mem_cons, reduceCtorEq, false_or] at h
      obtain ⟨rfl, h1, _⟩ := explains_down hI h
      simp only [fits, h1] at hf
      show r.cmd = false ∨ r.init = true ∨ r.get = true
      grind
    | finish res hf ha hx =>
      simp only [List.mem_cons, reduceCtorEq, false_or] at h
      obtain ⟨rfl, _⟩ := mem_notify h
      rcases hx with ⟨h1, _, rfl⟩ | ⟨h1, h2, _, rfl⟩
      · exact h1
      · refine ⟨h1, ?_, rfl⟩
        simp only [fits, h2] at hf
        grind
    | lost _ _ _ _ _ => simp at h
    | initThrows hi hf hk _ _ => obtain ⟨rfl, _⟩ := mem_notify h; exact ⟨hk, hi⟩
    | initCancels _ _ _ _ _ => simp at h
    | ready _ _ _ _ _ => simp at h
    | getFirst _ _ _ _ _ _ _ => simp at h
    | exec _ _ _ _ _ _ _ _ _ => simp at h
    | buildThrows d hi hb hf hk _ _ _ _ =>
      simp only [List.mem_cons, reduceCtorEq, false_or] at h
      obtain ⟨rfl, _⟩ := mem_notify h
      exact ⟨hk, hb⟩
    | answered hf hk _ hs _ =>
      obtain ⟨rfl, _⟩ := mem_notify h
      refine ⟨hk, ?_, rfl⟩
      simp only [fits] at hf
      grind

/-! ### executions -/

theorem execs_append (a b : List Out) : execs (a ++ b) = execs a + execs b := by
  simp [execs, sentOf, List.filterMap_append]

@[simp] theorem execs_nil : execs [] = 0 := rfl
@[simp] theorem execs_closed (l : List Out) : execs (.closed :: l) = execs l := rfl
@[simp] theorem execs_destroy (l : List Out) : execs (.sent .destroy :: l) = execs l := rfl
@[simp] theorem execs_get (l : List Out) : execs (.sent .get :: l) = execs l := rfl
@[simp] theorem execs_init (l : List Out) : execs (.sent .init :: l) = execs l := rfl
@[simp] theorem execs_exec (a : Option Nat) (l : List Out) : execs (.sent (.exec a) :: l) = execs l + 1 := rfl
@[simp] theorem execs_called (c : Nat) (x : Outcome) (l : List Out) : execs (.called c x :: l) = execs l := rfl
@[simp] theorem execs_notify (o : Op) (r : Outcome) : execs (notify o r) = 0 := by
  unfold notify; split <;> rfl

theorem auto_step {o : Op} (hI : Inv o) (e : Ev) : (step o e).1.autoExec = o.autoExec := by
  cases e with
  | up => simp only [step, createOperations, createOp]; grind
  | down =>
    have he := down_eff hI
    simp only [step]
    generalize (chanDown o).1 = o' at he ⊢
    generalize (chanDown o).2 = outs at he
    cases he <;> rfl
  | cancel => rfl
  | drop => rfl
  | reExec put a c =>
    have he := reExec_eff hI put a c
    simp only [step]
    generalize (reExec o put a c).1 = o' at he ⊢
    generalize (reExec o put a c).2 = outs at he
    cases he <;> rfl
  | reply r i b =>
    have he := reply_eff hI r i b
    simp only [step]
    generalize (reply o r i b).1 = o' at he ⊢
    generalize (reply o r i b).2 = outs at he
    cases he with
    | close _ _ _ =>
      have he := down_eff hI
      simp only [closeConn]
      generalize (chanDown o).1 = o' at he ⊢
      generalize (chanDown o).2 = outs at he
      cases he <;> rfl
    | _ => rfl

theorem kind_step {o : Op} (hI : Inv o) (e : Ev) : (step o e).1.kind = o.kind := by
  cases e with
  | up => simp only [step, createOperations, createOp]; grind
  | down =>
    have he := down_eff hI
    simp only [step]
    generalize (chanDown o).1 = o' at he ⊢
    generalize (chanDown o).2 = outs at he
    cases he <;> rfl
  | cancel => rfl
  | drop => rfl
  | reExec put a c =>
    have he := reExec_eff hI put a c
    simp only [step]
    generalize (reExec o put a c).1 = o' at he ⊢
    generalize (reExec o put a c).2 = outs at he
    cases he <;> rfl
  | reply r i b =>
    have he := reply_eff hI r i b
    simp only [step]
    generalize (reply o r i b).1 = o' at he ⊢
    generalize (reply o r i b).2 = outs at he
    cases he with
    | close _ _ _ =>
      have he := down_eff hI
      simp only [closeConn]
      generalize (chanDown o).1 = o' at he ⊢
      generalize (chanDown o).2 = outs at he
      cases he <;> rfl
    | _ => rfl

theorem execs_down {o : Op} (hI : Inv o) : execs (chanDown o).2 = 0 := by
  have he := down_eff hI
  generalize (chanDown o).1 = o' at he
  generalize (chanDown o).2 = outs at he ⊢
  cases he <;> simp

/-- without autoExec only reExec calls make the server act, each once -/
theorem execs_manual {o : Op} (hI : Inv o) (ha : o.autoExec = false) (e : Ev) :
    execs (step o e).2 ≤ (if isReExec e then 1 else 0) := by
  cases e with
  | up => simp only [step, createOperations, createOp]; grind [execs_nil, execs_init]
  | down => simp only [step]; rw [execs_down hI]; simp
  | cancel => simp only [step, cancel, cancelImpl]; grind [execs_nil, execs_destroy]
  | drop => simp only [step, cancelImpl]; grind [execs_nil, execs_destroy]
  | reExec put a c =>
    have he := reExec_eff hI put a c
    simp only [step]
    generalize (reExec o put a c).1 = o' at he
    generalize (reExec o put a c).2 = outs at he ⊢
    cases he <;> simp [isReExec]
  | reply r i b =>
    have he := reply_eff hI r i b
    simp only [step]
    generalize (reply o r i b).1 = o' at he
    generalize (reply o r i b).2 = outs at he ⊢
    cases he with
    | close _ _ _ => simp only [closeConn, execs_closed]; rw [execs_down hI]; simp
    | exec _ _ _ _ _ _ _ hae _ => rw [ha] at hae; cases hae
    | _ => simp [execs_notify]

theorem execs_manual_run {o : Op} (hI : Inv o) (ha : o.autoExec = false) (es : List Ev) :
    execs (run o es).2 ≤ (es.filter isReExec).length := by
  induction es generalizing o with
  | nil => simp [run]
  | cons e es ih =>
    have h1 := execs_manual hI ha e
    have h2 := ih (inv_step hI e) (by rw [auto_step hI e, ha])
    simp only [run, execs_append, List.filter_cons]
    split <;> simp_all <;> omega

/-- with autoExec the request is sent at most once while the connection lasts -/
structure Once (o : Op) (n : Nat) : Prop where
  auto : o.autoExec = true
  le : n ≤ 1
  some : n = 1 → o.state = .exec ∨ o.state = .done

theorem once_step {o : Op} {n : Nat} (hI : Inv o) (h : Once o n) (e : Ev) (he : e ≠ .down) (hc : .closed ∉ (step o e).2) :
    Once (step o e).1 (n + execs (step o e).2) := by
  have haut := (auto_step hI e).trans h.auto
  obtain ⟨h1, h2, h3⟩ := h
  cases e with
  | up =>
    refine ⟨haut, ?_, ?_⟩ <;> simp only [step, createOperations, createOp] <;> grind [execs_nil, execs_init]
  | down => exact absurd rfl he
  | cancel => refine ⟨haut, ?_, ?_⟩ <;> simp only [step, cancel, cancelImpl] <;> grind [execs_nil, execs_destroy]
  | drop => refine ⟨haut, ?_, ?_⟩ <;> simp only [step, cancelImpl] <;> grind [execs_nil, execs_destroy]
  | reExec put a c => refine ⟨haut, ?_, ?_⟩ <;> simp [step, reExec, h1] <;> grind
  | reply r i b =>
    have he := reply_eff hI r i b
    simp only [step] at haut hc ⊢
    generalize (reply o r i b).1 = o' at he haut ⊢
    generalize (reply o r i b).2 = outs at he hc ⊢
    cases he with
    | ignore _ => exact ⟨haut, by simpa using h2, by simpa using h3⟩
    | close _ _ _ => simp [closeConn] at hc
    | lost _ _ _ _ _ => simp at hc
    | exec a d hi hf _ _ hs _ _ =>
      have hn : n = 0 := by
        rcases Nat.eq_zero_or_pos n with h | h
        · exact h
        · have := h3 (by omega); rcases hs with hs | hs <;> simp [hs] at this
      subst hn
      exact ⟨haut, by simp, by simp⟩
    | ready _ _ _ _ hae => rw [h1] at hae; cases hae
    | answered _ _ _ _ hae => rw [h1] at hae; cases hae
    | getFirst hf _ _ hs _ _ _ =>
      have hn : n = 0 := by
        rcases Nat.eq_zero_or_pos n with h | h
        · exact h
        · have := h3 (by omega); simp [hs] at this
      subst hn
      exact ⟨haut, by simp, by simp⟩
    | _ => exact ⟨haut, by simpa [execs_notify] using h2, by simp⟩

theorem once_run {o : Op} {n : Nat} (hI : Inv o) (h : Once o n) (es : List Ev) (hs : Steady es (run o es).2) :
    Once (run o es).1 (n + execs (run o es).2) := by
  induction es generalizing o n with
  | nil => simpa [run] using h
  | cons e es ih =>
    obtain ⟨a, b⟩ := hs
    simp only [run, List.mem_append, not_or] at b
    have h1 := once_step hI h e (by rintro rfl; simp at a) b.1
    have h2 := ih (inv_step hI e) h1 ⟨fun hx => a (by simp [hx]), b.2⟩
    simp only [run, execs_append]
    rwa [← Nat.add_assoc]

/-! ### answers to reExec -/

theorem callList_append (a b : List Out) : callList (a ++ b) = callList a ++ callList b := by
  simp [callList]

@[simp] theorem callList_nil : callList [] = [] := rfl
@[simp] theorem callList_sent (m : Msg) (l : List Out) : callList (.sent m :: l) = callList l := rfl
@[simp] theorem callList_closed (l : List Out) : callList (.closed :: l) = callList l := rfl
theorem callList_notify (o : Op) (r : Outcome) : callList (notify o r) = match o.done with | some cb => [(cb, r)] | none => [] := by
  unfold notify; cases o.done <;> rfl

/-- what is outstanding: one request at most -/
structure Owes (o : Op) (rest : List Nat) : Prop where
  auto : o.autoExec = false
  len : rest.length ≤ 1
  busy : o.state = .getOPut ∨ o.state = .exec → ∃ cb, rest = [cb] ∧ o.done = some cb
  free : o.state = .creating ∨ o.state = .idle ∨ o.state = .connecting → rest = []

theorem owes_step {o : Op} {rest : List Nat} (hI : Inv o) (h : Owes o rest) (e : Ev) (he : e ≠ .down) (hc : .closed ∉ (step o e).2)
    (hs : ∀ r i b, e = .reply r i b → r.ok = true ∧ i ≠ .throws) :
    ∃ rest', Owes (step o e).1 rest' ∧ rest ++ accepted o [e] = (callList (step o e).2).map Prod.fst ++ rest' ∧
      ∀ p ∈ callList (step o e).2, ∃ d, p.2 = .value d := by
  have haut := (auto_step hI e).trans h.auto
  obtain ⟨h1, h2, h3, h4⟩ := h
  cases e with
  | up =>
    refine ⟨rest, ⟨haut, h2, ?_, ?_⟩, ?_, ?_⟩
    · simp only [step, createOperations, createOp]; grind
    · simp only [step, createOperations, createOp]; grind
    · simp only [step, createOperations, createOp, accepted]; grind [callList_nil, callList_sent]
    · simp only [step, createOperations, createOp]; grind [callList_nil, callList_sent]
  | down => exact absurd rfl he
  | cancel =>
    refine ⟨rest, ⟨haut, h2, by simp [step, cancel, cancelImpl], by simp [step, cancel, cancelImpl]⟩, ?_, ?_⟩
    · simp only [step, cancel, cancelImpl, accepted]; grind [callList_nil, callList_sent]
    · simp only [step, cancel, cancelImpl]; grind [callList_nil, callList_sent]
  | drop =>
    refine ⟨rest, ⟨haut, h2, by simp [step, cancelImpl], by simp [step, cancelImpl]⟩, ?_, ?_⟩
    · simp only [step, cancelImpl, accepted]; grind [callList_nil, callList_sent]
    · simp only [step, cancelImpl]; grind [callList_nil, callList_sent]
  | reExec put a c =>
    have key : ∀ o' outs, ReExecEff o put a c o' outs → o'.autoExec = false →
        ∃ rest', Owes o' rest' ∧ rest ++ (if (sentOf outs).isEmpty then [] else [c]) = (callList outs).map Prod.fst ++ rest' ∧
          ∀ p ∈ callList outs, ∃ d, p.2 = .value d := by
      intro o' outs he haut
      cases he with
      | refuse h => rw [h1] at h; cases h
      | drop _ _ => exact ⟨rest, ⟨haut, h2, h3, h4⟩, by simp [sentOf], by simp⟩
      | get _ hs _ _ =>
        have := h4 (Or.inr (Or.inl hs)); subst this
        exact ⟨[c], ⟨haut, by simp, by simp, by simp⟩, by simp [sentOf], by simp⟩
      | exec _ hs _ _ _ =>
        have := h4 (Or.inr (Or.inl hs)); subst this
        exact ⟨[c], ⟨haut, by simp, by simp, by simp⟩, by simp [sentOf], by simp⟩
    obtain ⟨r', x1, x2, x3⟩ := key _ _ (reExec_eff hI put a c) haut
    exact ⟨r', x1, by simp only [accepted, List.append_nil]; exact x2, x3⟩
  | reply r i b =>
    obtain ⟨hok, hi⟩ := hs r i b rfl
    have he := reply_eff hI r i b
    simp only [step, accepted, List.append_nil] at haut hc ⊢
    generalize (reply o r i b).1 = o' at he haut ⊢
    generalize (reply o r i b).2 = outs at he hc ⊢
    cases he with
    | ignore _ => exact ⟨rest, ⟨haut, h2, h3, h4⟩, by simp, by simp⟩
    | close _ _ _ => simp [closeConn] at hc
    | finish res _ _ hx =>
      rcases hx with ⟨h, _⟩ | ⟨_, _, h, _⟩
      · rw [hok] at h; cases h
      · rw [h1] at h; cases h
    | lost _ _ hk _ _ => rw [hok] at hk; cases hk
    | initThrows h => exact absurd h hi
    | initCancels _ _ _ _ hs => exact ⟨rest, ⟨haut, h2, by simp, by simp⟩, by simp, by simp⟩
    | ready _ _ _ hs _ => exact ⟨rest, ⟨haut, h2, by simp, fun _ => h4 (Or.inl hs)⟩, by simp, by simp⟩
    | getFirst _ _ _ _ hae => rw [h1] at hae; cases hae
    | exec _ _ _ _ _ _ _ hae _ => rw [h1] at hae; cases hae
    | buildThrows _ _ _ _ _ _ _ hae _ => rw [h1] at hae; cases hae
    | answered _ _ _ hst _ =>
      obtain ⟨cb, rfl, hd⟩ := h3 hst
      refine ⟨[], ⟨haut, by simp, by simp, by simp⟩, ?_, ?_⟩
      · rw [callList_notify, hd]; rfl
      · intro p hp
        rw [callList_notify, hd] at hp
        simp only [List.mem_singleton] at hp
        subst hp
        exact ⟨_, rfl⟩

theorem owes_run {o : Op} {rest : List Nat} (hI : Inv o) (h : Owes o rest) (es : List Ev) (hst : Steady es (run o es).2) (hs : Smooth es) :
    ∃ rest', Owes (run o es).1 rest' ∧ rest ++ accepted o es = (callList (run o es).2).map Prod.fst ++ rest' ∧
      ∀ p ∈ callList (run o es).2, ∃ d, p.2 = .value d := by
  induction es generalizing o rest with
  | nil => exact ⟨rest, h, by simp [run, accepted], by simp [run]⟩
  | cons e es ih =>
    obtain ⟨a, b⟩ := hst
    simp only [run, List.mem_append, not_or] at b
    obtain ⟨r1, o1, e1, c1⟩ := owes_step hI h e (by rintro rfl; simp at a) b.1 (fun r i bb hx => hs r i bb (by simp [hx]))
    obtain ⟨r2, o2, e2, c2⟩ := ih (inv_step hI e) o1 ⟨fun hx => a (by simp [hx]), b.2⟩ (fun r i bb hx => hs r i bb (by simp [hx]))
    refine ⟨r2, o2, ?_, ?_⟩
    · simp only [run, callList_append, List.map_append, List.append_assoc]
      rw [← e2, ← List.append_assoc, ← e1]
      simp [accepted]
    · intro p hp
      simp only [run, callList_append, List.mem_append] at hp
      rcases hp with hp | hp
      · exact c1 p hp
      · exact c2 p hp

end Pvxs.ClientOp
