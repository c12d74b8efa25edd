import Verif.Lemmas.ClientOp
/-
C34 results of client operations, C35 repeated execution, C60 executions.
-/
namespace Pvxs.Props
open ClientOp Spec.COp

theorem hist_inv (kind : Kind) (autoExec getOput hasInit : Bool) (cb : Nat) (arg : Option Nat) (fail up : Bool) (es : List Ev) :
    Inv (history (fresh kind autoExec getOput hasInit cb arg) fail up es).1 :=
  inv_run (inv_begin kind autoExec getOput hasInit cb arg fail up) es

theorem hist_told (kind : Kind) (getOput hasInit : Bool) (cb : Nat) (arg : Option Nat) (fail up : Bool) (es : List Ev)
    (hes : ∀ put a, .reExec put a cb ∉ es) :
    Told cb (history (fresh kind true getOput hasInit cb arg) fail up es).1
      (callsOf cb (history (fresh kind true getOput hasInit cb arg) fail up es).2) := by
  have := told_run (inv_begin kind true getOput hasInit cb arg fail up) (told_begin kind getOput hasInit cb arg fail up) es hes
  simp only [history, callsOf_append]
  exact this

/-! ### C34 -/

/-- The result callback of an automatically executed operation is called at most once, whatever happens and in whatever order. -/
theorem C34_once (kind : Kind) (getOput hasInit : Bool) (cb : Nat) (arg : Option Nat) (fail up : Bool) (es : List Ev)
    (hes : ∀ put a, .reExec put a cb ∉ es) :
    (callsOf cb (history (fresh kind true getOput hasInit cb arg) fail up es).2).length ≤ 1 := by
  rcases (hist_told kind getOput hasInit cb arg fail up es hes).once with ⟨h, _⟩ | ⟨x, h, _⟩
  · rw [h]; simp
  · rw [h]; simp

/-- It is called: unless the application gives up the operation, the callback is called once after the channel is up and the server
has answered, with whatever, three requests. -/
theorem C34_result (kind : Kind) (getOput hasInit : Bool) (cb : Nat) (arg : Option Nat) (fail up : Bool) (es : List Ev)
    (hes : ∀ put a, .reExec put a cb ∉ es) (hu : Undisturbed es) (as : List Answer) (hl : 3 ≤ as.length)
    (has : ∀ a ∈ as, a.onInit ≠ .cancels ∧ ¬ Cancels a.build) :
    let h := history (fresh kind true getOput hasInit cb arg) fail up es
    let h1 := step h.1 .up
    let h2 := serve h1.1 (lastSent (h.2 ++ h1.2)) as
    (callsOf cb (h.2 ++ h1.2 ++ h2.2)).length = 1 := by
  intro h h1 h2
  have hI : Inv h.1 := hist_inv kind true getOput hasInit cb arg fail up es
  have hT : Told cb h.1 (callsOf cb h.2) := hist_told kind getOput hasInit cb arg fail up es hes
  have hw : h.1.done = some cb ∧ h.1.alive = true ∧ h.1.autoExec = true := by
    refine whole_run (inv_begin kind true getOput hasInit cb arg fail up) ?_ ?_ es hu
    · cases fail <;> cases up <;> rfl
    · cases fail <;> cases up <;> exact ⟨rfl, rfl⟩
  have hA : Asked h.1 (lastSent h.2) := by
    have := asked_run (inv_begin kind true getOput hasInit cb arg fail up) (asked_begin kind true getOput hasInit cb arg fail up) es
    show Asked h.1 (lastSent (_ ++ _))
    rw [lastSent_append]; exact this
  have hI1 : Inv h1.1 := inv_step hI .up
  have hT1 : Told cb h1.1 (callsOf cb h.2 ++ callsOf cb h1.2) := told_step hI hT .up (by simp)
  have hw1 := whole_step hI hw.2.2 ⟨hw.1, hw.2.1⟩ .up (by simp) (by simp) (by simp)
  have hA1 : Asked h1.1 (lastSent (h.2 ++ h1.2)) := by rw [lastSent_append]; exact asked_step hI hA .up
  have hconn : h1.1.conn = true := by
    show (createOperations { h.1 with conn := true }).1.conn = true
    simp only [createOperations, createOp]; grind
  have hT2 : Told cb h2.1 (callsOf cb h.2 ++ callsOf cb h1.2 ++ callsOf cb h2.2) := serve_told as hI1 hT1
  rw [callsOf_append, callsOf_append]
  have hne : callsOf cb h.2 ++ callsOf cb h1.2 ++ callsOf cb h2.2 ≠ [] := by
    rcases hT1.once with ⟨h0, hd, hp⟩ | ⟨x, h0, _⟩
    · rw [h0, List.nil_append]
      have hstate : Waiting h1.1.state := by
        obtain ⟨i1, i2, i3, i4, i5, i6⟩ := hI1
        have hd' : h1.1.state ≠ .done := fun hs => by
          rcases hd hs with hx | hx
          · rw [hw1.1] at hx; cases hx
          · rw [hw1.2.1] at hx; cases hx
        have hc' : h1.1.state ≠ .connecting := fun hs => by
          have := (i4 hs).2 (hp hs)
          rw [hconn] at this; cases this
        have hi' := i5 hT1.auto
        unfold Waiting
        revert hd' hc' hi' i2
        cases h1.1.state <;> simp
      obtain ⟨m, hm, hwt⟩ := hA1 hstate
      show callsOf cb (serve h1.1 (lastSent (h.2 ++ h1.2)) as).2 ≠ []
      rw [hm]
      refine serve_calls as hI1 hw1.2.2 hw1.1 hw1.2.1 hwt ?_ has
      rcases hwt with ⟨e, _⟩ | ⟨e, _⟩ | ⟨e, _⟩ <;> rw [e] <;> simp only [left] <;> omega
    · rw [h0]; simp
  rcases hT2.once with ⟨h0, _⟩ | ⟨x, h0, _⟩
  · exact absurd h0 hne
  · rw [h0]; rfl

/-- The result is what happened: the data of a reply, an error the server reported, an exception of the application's own callback,
or the loss of the connection. -/
theorem C34_outcome (kind : Kind) (autoExec getOput hasInit : Bool) (cb : Nat) (arg : Option Nat) (fail up : Bool) (es : List Ev)
    (e : Ev) (c : Nat) (x : Outcome)
    (h : x ∈ callsOf c (step (history (fresh kind autoExec getOput hasInit cb arg) fail up es).1 e).2) : Explains e x :=
  explains_step (hist_inv kind autoExec getOput hasInit cb arg fail up es) e (mem_callsOf.mp h)

/-- After cancel() returned, or the Operation was dropped, no callback is called and nothing is sent to the server. -/
theorem C34_cancelled (kind : Kind) (autoExec getOput hasInit : Bool) (cb : Nat) (arg : Option Nat) (fail up : Bool) (es es' : List Ev)
    (e : Ev) (he : e = .cancel ∨ e = .drop) :
    let o := (step (history (fresh kind autoExec getOput hasInit cb arg) fail up es).1 e).1
    sentOf (run o es').2 = [] ∧ ∀ c, (∀ put a, .reExec put a c ∉ es') → callsOf c (run o es').2 = [] := by
  intro o
  have hI := hist_inv kind autoExec getOput hasInit cb arg fail up es
  exact ended_run (inv_step hI e) (by rcases he with rfl | rfl <;> rfl) es'

/-- The client never follows a connection it does not have. -/
theorem C34_no_null (kind : Kind) (autoExec getOput hasInit : Bool) (cb : Nat) (arg : Option Nat) (fail up : Bool) (es : List Ev) :
    (history (fresh kind autoExec getOput hasInit cb arg) fail up es).1.crashed = false :=
  (hist_inv kind autoExec getOput hasInit cb arg fail up es).crashed

/-- But: cancel() called from the put builder does not stop the put; the value is sent after cancel() returned. -/
theorem C34_cancel_in_builder :
    (history (fresh .put true false false 1 none) false true
      [.reply { init := true, get := false, ok := true, data := 0 } .ok (.value 7 true)]).2 =
    [.sent .init, .sent (.exec (some 7))] := by decide

/-- a put which fetches the present value first, over two connections -/
def exPut : List Ev :=
  [.up, .reply { init := true, get := false, ok := true, data := 0 } .ok (.value 0 false), .down, .up,
   .reply { init := true, get := false, ok := true, data := 0 } .ok (.value 0 false),
   .reply { init := false, get := true, ok := true, data := 3 } .ok (.value 4 false),
   .reply { init := false, get := false, ok := true, data := 9 } .ok (.value 0 false)]
example : (history (fresh .put true true true 1 none) false false exPut).2 =
    [.sent .init, .sent .get, .sent .init, .sent .get, .sent (.exec (some 4)), .sent .destroy, .called 1 (.value 9)] := by decide
example : Undisturbed exPut := by
  intro e he
  simp only [exPut, List.mem_cons, List.not_mem_nil, or_false] at he
  rcases he with rfl | rfl | rfl | rfl | rfl | rfl | rfl <;> refine ⟨by simp, by simp, ?_⟩ <;> intro r i b h <;> cases h <;> simp [Cancels]
/-- dropped while the server executes: the server is told to forget, nothing is called -/
example : (history (fresh .get true false false 1 none) false true
    [.reply { init := true, get := false, ok := true, data := 0 } .ok (.value 0 false), .drop,
     .reply { init := false, get := false, ok := true, data := 5 } .ok (.value 0 false)]).2 =
    [.sent .init, .sent (.exec none), .sent .destroy] := by decide

/-! ### C60 -/

/-- Without autoExec the server is asked to act at most once for each reExec call. -/
theorem C60_reExec (kind : Kind) (getOput hasInit : Bool) (cb : Nat) (arg : Option Nat) (fail up : Bool) (es : List Ev) :
    execs (history (fresh kind false getOput hasInit cb arg) fail up es).2 ≤ (es.filter isReExec).length := by
  simp only [history, execs_append]
  have h0 : execs (begin (fresh kind false getOput hasInit cb arg) fail up).2 = 0 := by cases fail <;> cases up <;> rfl
  rw [h0, Nat.zero_add]
  exact execs_manual_run (inv_begin kind false getOput hasInit cb arg fail up) (by cases fail <;> cases up <;> rfl) es

/-- An automatically executed operation makes the server act at most once, as long as the connection is not lost.
Missing: it is lost; see `C60_twice`. -/
theorem C60_auto_partial (kind : Kind) (getOput hasInit : Bool) (cb : Nat) (arg : Option Nat) (fail up : Bool) (es : List Ev)
    (hs : Steady es (history (fresh kind true getOput hasInit cb arg) fail up es).2) :
    execs (history (fresh kind true getOput hasInit cb arg) fail up es).2 ≤ 1 := by
  simp only [history, execs_append]
  have h0 : execs (begin (fresh kind true getOput hasInit cb arg) fail up).2 = 0 := by cases fail <;> cases up <;> rfl
  have hx : Once (begin (fresh kind true getOput hasInit cb arg) fail up).1 0 :=
    ⟨by cases fail <;> cases up <;> rfl, by simp, by simp⟩
  have := once_run (inv_begin kind true getOput hasInit cb arg fail up) hx es
    ⟨hs.1, fun h => hs.2 (by simp only [history, List.mem_append]; exact Or.inr h)⟩
  rw [h0]; exact this.le

/-- A put (or RPC) which was sent when the connection was lost is sent again: the server may act twice, the application is told of one
success.  src/clientget.cpp:378 tests `!autoExec`, the comment there ("can't restart as server side-effects may occur") describes the
operations for which autoExec is set as well. -/
theorem C60_twice :
    (history (fresh .put true false false 1 none) false true
      [.reply { init := true, get := false, ok := true, data := 0 } .ok (.value 7 false), .down, .up,
       .reply { init := true, get := false, ok := true, data := 0 } .ok (.value 7 false),
       .reply { init := false, get := false, ok := true, data := 0 } .ok (.value 0 false)]).2 =
    [.sent .init, .sent (.exec (some 7)), .sent .init, .sent (.exec (some 7)), .sent .destroy, .called 1 (.value 0)] := by decide

/-! ### C35 -/

/-- As long as the connection lasts, the server reports no error and onInit() does not throw: the reExec calls which were accepted
are answered in order, each once, with the data of a reply, except the last one when its reply is still to come (or the operation
was cancelled).  Missing: errors and lost connections; see below. -/
theorem C35_answered_partial (kind : Kind) (getOput hasInit : Bool) (cb : Nat) (arg : Option Nat) (up : Bool) (es : List Ev)
    (hs : Steady es (history (fresh kind false getOput hasInit cb arg) false up es).2) (hsm : Smooth es) :
    ∃ rest, accepted (begin (fresh kind false getOput hasInit cb arg) false up).1 es =
        (callList (history (fresh kind false getOput hasInit cb arg) false up es).2).map Prod.fst ++ rest ∧ rest.length ≤ 1 ∧
      ∀ p ∈ callList (history (fresh kind false getOput hasInit cb arg) false up es).2, ∃ d, p.2 = .value d := by
  have h0 : callList (begin (fresh kind false getOput hasInit cb arg) false up).2 = [] := by cases up <;> rfl
  have hx : Owes (begin (fresh kind false getOput hasInit cb arg) false up).1 [] :=
    ⟨by cases up <;> rfl, by simp, by cases up <;> simp [begin, fresh, createOperations, createOp], by simp⟩
  obtain ⟨rest, h1, h2, h3⟩ := owes_run (inv_begin kind false getOput hasInit cb arg false up) hx es
    ⟨hs.1, fun h => hs.2 (by simp only [history, List.mem_append]; exact Or.inr h)⟩ hsm
  simp only [history, callList_append, h0, List.nil_append] at h2 h3 ⊢
  exact ⟨rest, h2, h1.len, h3⟩

/-- The connection is lost while the server executes a put or RPC: the callback is told. -/
theorem C35_disconnect (kind : Kind) (getOput hasInit : Bool) (cb c : Nat) (arg : Option Nat) (up : Bool) (es : List Ev) (put : Bool) (a : Nat)
    (hk : kind ≠ .get) (hx : execs (step (history (fresh kind false getOput hasInit cb arg) false up es).1 (.reExec put a c)).2 = 1) :
    (step (step (history (fresh kind false getOput hasInit cb arg) false up es).1 (.reExec put a c)).1 .down).2 = [.called c .disconnect] := by
  have hI := hist_inv kind false getOput hasInit cb arg false up es
  have hkind : (history (fresh kind false getOput hasInit cb arg) false up es).1.kind = kind := by
    have key : ∀ (es : List Ev) (o : Op), Inv o → (run o es).1.kind = o.kind := by
      intro es
      induction es with
      | nil => intro o _; rfl
      | cons e es ih => intro o ho; exact (ih _ (inv_step ho e)).trans (kind_step ho e)
    refine (key es _ (inv_begin kind false getOput hasInit cb arg false up)).trans ?_
    cases up <;> rfl
  generalize (history (fresh kind false getOput hasInit cb arg) false up es).1 = o at hI hkind hx ⊢
  have hI1 := inv_step hI (.reExec put a c)
  have he := reExec_eff hI put a c
  simp only [step] at hx hI1 ⊢
  generalize (reExec o put a c).1 = o' at he hI1 ⊢
  generalize (reExec o put a c).2 = outs at he hx
  cases he with
  | refuse _ => simp at hx
  | drop _ _ => simp at hx
  | get _ _ _ _ => simp at hx
  | exec hae hs hp f ar =>
    have hd := down_eff hI1
    generalize (chanDown _).1 = o2 at hd
    generalize (chanDown _).2 = outs2 at hd ⊢
    cases hd with
    | keep h => simp at h
    | fail _ _ _ => rfl
    | again _ hn => exact absurd ⟨rfl, by rw [hkind]; exact hk, hae⟩ hn

/-- The server reports an error: the callback is never called.  The client closes the connection instead, connects again, and is ready
for the next reExec. -/
theorem C35_error_lost :
    let h := history (fresh .put false false false 1 none) false true
      [.reply { init := true, get := false, ok := true, data := 0 } .ok (.value 0 false), .reExec true 7 5,
       .reply { init := false, get := false, ok := false, data := 0 } .ok (.value 0 false), .up,
       .reply { init := true, get := false, ok := true, data := 0 } .ok (.value 0 false)]
    h.2 = [.sent .init, .sent (.exec (some 7)), .closed, .sent .init] ∧ h.1.state = .idle := by decide

/-- The connection is lost during a reExecGet(): the callback is never called. -/
theorem C35_get_lost :
    let h := history (fresh .get false false false 1 none) false true
      [.reply { init := true, get := false, ok := true, data := 0 } .ok (.value 0 false), .reExec false 0 5, .down, .up,
       .reply { init := true, get := false, ok := true, data := 0 } .ok (.value 0 false)]
    h.2 = [.sent .init, .sent (.exec none), .sent .init] ∧ h.1.state = .idle := by decide

/-- A reExec call while another one, or INIT, is outstanding is ignored: nothing sent, no callback called. -/
theorem C35_ignored (kind : Kind) (getOput hasInit : Bool) (cb c : Nat) (arg : Option Nat) (up : Bool) (es : List Ev) (put : Bool) (a : Nat)
    (h : (history (fresh kind false getOput hasInit cb arg) false up es).1.state ≠ .idle) :
    (step (history (fresh kind false getOput hasInit cb arg) false up es).1 (.reExec put a c)).2 = [] := by
  have hI := hist_inv kind false getOput hasInit cb arg false up es
  have hae : (history (fresh kind false getOput hasInit cb arg) false up es).1.autoExec = false := by
    have key : ∀ (es : List Ev) (o : Op), Inv o → (run o es).1.autoExec = o.autoExec := by
      intro es
      induction es with
      | nil => intro o _; rfl
      | cons e es ih => intro o ho; exact (ih _ (inv_step ho e)).trans (auto_step ho e)
    refine (key es _ (inv_begin kind false getOput hasInit cb arg false up)).trans ?_
    cases up <;> rfl
  generalize (history (fresh kind false getOput hasInit cb arg) false up es).1 = o at hI h hae ⊢
  simp [step, reExec, hae, h]

/-- A callback which was answered is called again, with an error, when a later INIT fails. -/
theorem C35_twice :
    (history (fresh .get false false false 1 none) false true
      [.reply { init := true, get := false, ok := true, data := 0 } .ok (.value 0 false), .reExec false 0 5,
       .reply { init := false, get := false, ok := true, data := 9 } .ok (.value 0 false), .down, .up,
       .reply { init := true, get := false, ok := false, data := 0 } .ok (.value 0 false)]).2 =
    [.sent .init, .sent (.exec none), .called 5 (.value 9), .sent .init, .sent .destroy, .called 5 .remote] := by decide

/-- two reExec calls, one after the other -/
def exTwo : List Ev :=
  [.reply { init := true, get := false, ok := true, data := 0 } .ok (.value 0 false), .reExec false 0 5,
   .reply { init := false, get := true, ok := true, data := 8 } .ok (.value 0 false), .reExec true 3 6,
   .reply { init := false, get := false, ok := true, data := 9 } .ok (.value 0 false)]
example : (history (fresh .put false false false 1 none) false true exTwo).2 =
    [.sent .init, .sent .get, .called 5 (.value 8), .sent (.exec (some 3)), .called 6 (.value 9)] := by decide
example : Steady exTwo (history (fresh .put false false false 1 none) false true exTwo).2 := by unfold Steady; decide
example : Smooth exTwo := by
  intro r i b h
  simp only [exTwo, List.mem_cons, Ev.reply.injEq, reduceCtorEq, List.not_mem_nil, or_false, false_or] at h
  rcases h with ⟨rfl, rfl, _⟩ | ⟨rfl, rfl, _⟩ | ⟨rfl, rfl, _⟩ <;> simp

end Pvxs.Props
