import Verif.Spec.CliStat
import Verif.Lemmas.ClientMon
/-
C117: statistics of a client subscription.
-/
namespace Pvxs.Props.CliStat
open Pvxs.ClientMon (Sub Reply Out Entry Upd InitAct enqueue queueAfter onUpdate finishUp msg fits sync chanDown wantToNotify onInitReply settled
  createOperations popHead popLoop doNotify cancelImpl tickAck)
open Pvxs.CliStat Pvxs.Spec.CliStat Pvxs.Spec.CMon
open Pvxs.ClientMon (enqueue_eff down_eff up_eff up_sent msg_popped Inv inv_step inv_begin fits_live carries_init doNotify_eq popped_append popped_of_called push_eq same_step same_begin streamed_step)

/-- waiting or merged -/
def phi (o : Sub) : Nat := o.queue.length + o.nCliSquash

theorem enqueue_phi (full : Bool) (q : List Entry) (e : Option Entry) : (enqueue full q e).1.length + (enqueue full q e).2 = q.length + e.toList.length := by
  have he := enqueue_eff full q e
  generalize enqueue full q e = x at he
  cases he with
  | none => simp
  | exc x => simp
  | data u _ => simp
  | merge u w p _ hq => subst hq; simp

theorem onUpdate_phi (o : Sub) (r : Reply) (e : Option Entry) : phi (onUpdate o r e) = phi o + e.toList.length + (if r.final then 1 else 0) := by
  have := enqueue_phi (decide (o.queueSize ≤ o.queue.length) && !o.pipeline) o.queue e
  have hl : (queueAfter o r e).length = (enqueue (decide (o.queueSize ≤ o.queue.length) && !o.pipeline) o.queue e).1.length + (if r.final then 1 else 0) := by
    unfold queueAfter; split <;> simp
  simp only [onUpdate]
  split <;> simp only [phi, wantToNotify, hl] <;> omega

theorem finishUp_phi (o : Sub) (r : Reply) : phi (finishUp o r).1 = phi o := by unfold finishUp; split <;> rfl

theorem onInitReply_phi (o : Sub) (i : InitAct) : phi (onInitReply o i).1 = phi o := by
  unfold onInitReply ClientMon.pause ClientMon.cancel ClientMon.cancelImpl
  cases o.hasInit <;> cases i <;> cases o.autostart <;> simp [phi]

theorem chanDown_phi (o : Sub) : phi (chanDown o) = phi o +
    (if o.reg = true ∧ o.alive = true ∧ o.state ≠ .done ∧ o.state ≠ .connecting ∧ o.maskDiscon = false then 1 else 0) := by
  have he := down_eff o
  generalize chanDown o = o' at he ⊢
  cases he with
  | keep hk =>
    have : ¬ (o.reg = true ∧ o.alive = true ∧ o.state ≠ .done ∧ o.state ≠ .connecting ∧ o.maskDiscon = false) := by
      rintro ⟨a, b, c, d, _⟩; rcases hk with h | h | h | h <;> simp_all
    rw [if_neg this]; rfl
  | wait hr ha hs hd q b c hq =>
    rcases hq with ⟨hm, rfl, rfl, rfl⟩ | ⟨hm, rfl, rfl, rfl⟩
    · rw [if_neg (by simp [hm])]; rfl
    · rw [if_pos ⟨hr, ha, hd, hs, hm⟩]; simp [phi]; omega

theorem msg_phi {o : Sub} (hI : Inv o) (latest : Nat → Nat) (r : Reply) (i : InitAct) :
    phi (msg o r i).1 = phi o + (arrives o latest (.msg r i)).length := by
  have hfl : fits o r = true → ¬ (r.carries = true ∧ (!o.fl) = true) := by
    rintro hx ⟨hc, hf⟩
    have := hI.fl (fits_live hx (carries_init hc).1); rw [this] at hf; cases hf
  simp only [arrives]
  unfold msg
  by_cases hreg : o.reg = true
  rotate_left
  · have : o.reg = false := by simpa using hreg
    simp [Takes, this]
  by_cases hal : o.alive = true
  rotate_left
  · have : o.alive = false := by simpa using hal
    simp only [hreg, this, Takes]
    by_cases h : r.carries = true ∧ (!o.fl) = true
    · rw [if_neg (by simp), if_pos h]; simp [phi]
    · rw [if_neg (by simp), if_neg h]; simp
  have hT : Takes o = true := by simp [Takes, hreg, hal]
  by_cases hfit : fits o r = true
  rotate_left
  · have hfit' : fits o r = false := by simpa using hfit
    rw [if_neg (by simp [hreg])]
    by_cases h : r.carries = true ∧ (!o.fl) = true
    · rw [if_pos h]; simp [hfit', h, phi]
    · rw [if_neg h, if_neg (by simp [hal]), if_pos (by simp [hfit'])]
      rw [chanDown_phi]
      simp only [hfit', hT, hreg, hal, Bool.false_eq_true, and_false, if_false, true_and, Bool.not_eq_true', decide_eq_false_iff_not]
      have h' : ¬ (r.carries = true ∧ o.fl = false) := by simpa using h
      simp only [h', not_false_eq_true, true_and]
      split <;> rfl
  rw [if_neg (by simp [hreg]), if_neg (hfl hfit), if_neg (by simp [hal]), if_neg (by simp [hfit])]
  simp only [hT, hfit, and_self, if_true]
  by_cases hi : r.init = true
  · rw [if_pos hi, if_pos hi]
    by_cases hk : r.success = true
    · rw [if_pos hk, if_pos hk]
      simp only [finishUp_phi, onInitReply_phi, List.length_nil, Nat.add_zero]
    · rw [if_neg hk, if_neg hk, finishUp_phi]
      simp [phi, wantToNotify]; omega
  · rw [if_neg hi, if_neg hi]
    by_cases hk : r.success = true
    · have hn : ¬ ((!r.success) = true) := by simp [hk]
      rw [if_neg hn, if_neg hn]
      by_cases hc : r.carries = true
      · rw [if_pos hc, if_pos hc, finishUp_phi, onUpdate_phi]
        by_cases hf : r.final = true <;> simp [hf, phi] <;> omega
      · rw [if_neg hc, if_neg hc, finishUp_phi, onUpdate_phi]
        by_cases hf : r.final = true <;> simp [hf]
    · have hn : (!r.success) = true := by simp [hk]
      rw [if_pos hn, if_pos hn, finishUp_phi, onUpdate_phi]
      by_cases hf : r.final = true <;> simp [hf, phi] <;> omega

theorem popHead_phi {o : Sub} {e : Entry} {q : List Entry} (h : o.queue = e :: q) : phi (popHead o q) + 1 = phi o := by
  unfold popHead; split <;> simp [phi, h] <;> omega

theorem popLoop_phi (n : Nat) : ∀ (first : Bool) (o : Sub), phi (popLoop n first o).1 + (popped (popLoop n first o).2).length = phi o := by
  induction n with
  | zero => intro f o; simp [popLoop, popped]
  | succ n ih =>
    intro f o
    unfold popLoop
    split
    · simp [popped, phi]
    · rename_i x rest hq
      split
      · have := popHead_phi hq; simp [popped]; omega
      · simp [popped]
    · rename_i u rest hq
      have h1 := ih false (popHead o rest)
      have h2 := popHead_phi hq
      have h3 : ∀ l : List Out, (popped (.popped (.data u) :: l)).length = (popped l).length + 1 := by intro l; simp [popped]
      simp only [h3]
      omega

theorem settled_phi (o : Sub) (f : Sub → Sub × List Out) (k : Nat)
    (hf : ∀ c, popped (f { o with owed := c }).2 = [] ∧ phi (f { o with owed := c }).1 = phi o + k) :
    phi (settled o f).1 + (popped (settled o f).2).length = phi o + k := by
  obtain ⟨c, outs, he, ho⟩ := doNotify_eq o
  unfold settled
  rw [he]
  obtain ⟨h1, h2⟩ := hf c
  simp only [popped_append, popped_of_called ho, h1, List.append_nil, List.length_nil, Nat.add_zero]
  exact h2

theorem up_phi (o : Sub) (hc : o.conn = true) : phi (createOperations o).1 = phi o +
    (if o.state = .connecting ∧ o.pending = true ∧ o.alive = true ∧ o.maskConn = false then 1 else 0) := by
  have he := up_eff o hc
  generalize (createOperations o).1 = o' at he ⊢
  generalize (createOperations o).2 = outs at he
  cases he with
  | none hk => rw [if_neg (by simp [hk])]; rfl
  | dead _ hk => rw [if_neg (by simp [hk])]; rfl
  | over _ _ hk => rw [if_neg (by simp [hk])]; rfl
  | init hp ha hs q b c w hq _ =>
    rcases hq with ⟨hm, rfl, rfl, rfl⟩ | ⟨hm, rfl, rfl, rfl⟩
    · rw [if_neg (by simp [hm])]; rfl
    · rw [if_pos ⟨hs, hp, ha, hm⟩]; simp [phi]; omega

theorem step_phi {o : Sub} (hI : Inv o) (latest : Nat → Nat) (e : ClientMon.Ev) :
    phi (ClientMon.step o e).1 + (popped (ClientMon.step o e).2).length = phi o + (arrives o latest e).length := by
  cases e with
  | up =>
    refine settled_phi o _ _ fun c => ⟨up_sent _ rfl, ?_⟩
    rw [up_phi _ rfl]
    simp only [arrives, Bool.not_eq_true', phi]
    split <;> rfl
  | down =>
    refine settled_phi o _ _ fun c => ⟨rfl, ?_⟩
    rw [chanDown_phi]
    simp only [arrives, Takes, Bool.and_eq_true, Bool.not_eq_true', phi, and_assoc]
    split <;> rfl
  | msg r i =>
    refine settled_phi o _ _ fun c => ⟨msg_popped _ r i, ?_⟩
    exact msg_phi (o := { o with owed := c }) ⟨hI.regc, hI.busy, hI.wait, hI.fl, hI.dead⟩ latest r i
  | pause p =>
    refine settled_phi o _ 0 fun c => ?_
    simp only [ClientMon.pause]
    split
    · exact ⟨by cases p <;> rfl, rfl⟩
    · exact ⟨rfl, rfl⟩
  | pop =>
    show phi (ClientMon.pop o).1 + (popped (ClientMon.pop o).2).length = phi o + 0
    unfold ClientMon.pop
    split
    · simp [popped, phi]
    · rename_i hq; have := popHead_phi hq; simp [popped]; omega
  | popN n =>
    have := popLoop_phi (if n = 0 then o.queueSize else n) true o
    show phi (popLoop (if n = 0 then o.queueSize else n) true o).1 + (popped ((popLoop (if n = 0 then o.queueSize else n) true o).2 ++ [.ret _])).length = phi o + 0
    rw [popped_append]
    simpa [popped] using this
  | cancel =>
    refine settled_phi o _ 0 fun c => ?_
    simp only [ClientMon.cancel, cancelImpl]
    split <;> exact ⟨rfl, rfl⟩
  | drop =>
    refine settled_phi o _ 0 fun c => ?_
    simp only [cancelImpl]
    split <;> exact ⟨rfl, rfl⟩
  | tick =>
    refine settled_phi o _ 0 fun c => ?_
    simp only [tickAck]
    split
    · exact ⟨rfl, rfl⟩
    · split <;> exact ⟨rfl, rfl⟩
  | deliver =>
    have := settled_phi o (fun o => (o, [])) 0 fun c => ⟨rfl, rfl⟩
    simpa [settled, ClientMon.step, arrives] using this

theorem subStep_sub (s : St) (e : ClientMon.Ev) (v : Bool) : (subStep s e v).sub = (ClientMon.step s.sub e).1 := by
  cases e <;> rfl

theorem inv_sstep {s : St} (h : Inv s.sub) (e : Ev) : Inv (step s e).sub := by
  cases e with
  | sub e v => simp only [step, subStep_sub]; exact inv_step h e
  | stats r => cases r <;> first | exact h | exact ⟨h.regc, h.busy, h.wait, h.fl, h.dead⟩

theorem run_cons (s : St) (e : Ev) (es : List Ev) : run s (e :: es) = run (step s e) es := rfl

theorem run_append (s : St) (a b : List Ev) : run s (a ++ b) = run (run s a) b := by simp [run]

theorem inv_srun {s : St} (h : Inv s.sub) (es : List Ev) : Inv (run s es).sub := by
  induction es generalizing s with
  | nil => exact h
  | cons e es ih => exact ih (inv_sstep h e)

theorem total_append (f : St → Ev → Nat) (a b : List Ev) : ∀ s : St, total f s (a ++ b) = total f s a + total f (run s a) b := by
  induction a with
  | nil => intro s; simp [total, run]
  | cons e a ih => intro s; simp only [List.cons_append, total, ih, run_cons]; omega

/-! ### Theorems -/

theorem conserve {s : St} (h : Inv s.sub) (es : List Ev) :
    phi s.sub + total (fun s e => (comes s e).length) s es =
      phi (run s es).sub + total (fun s e => (popped (outs s e)).length) s es + total (told (·.nCliSquash)) s es := by
  induction es generalizing s with
  | nil => simp [total, run]
  | cons e es ih =>
    have := ih (inv_sstep h e)
    simp only [total, run_cons]
    have h1 : phi s.sub + (comes s e).length = phi (step s e).sub + (popped (outs s e)).length + told (·.nCliSquash) s e := by
      cases e with
      | sub e v =>
        have := step_phi h (fun _ => 0) e
        simp only [comes, outs, step, subStep_sub, told]; omega
      | stats r => cases r <;> simp [comes, outs, popped, step, told, resetStat, statOf, phi]
    omega

theorem begin_phi (p : Params) (fail up : Bool) : phi (ClientMon.begin (fresh p) fail up).1 = (begun p fail up).length := by
  cases fail <;> cases up <;> cases hm : p.maskConn <;>
    simp [ClientMon.begin, fresh, createOperations, ClientMon.createOp, hm, begun, phi, push_eq] <;> split <;> simp

/-- Whatever happens, and however often the statistics are read and reset: each event which came is one which was delivered by pop(), one which
waits, or one counted as squashed by the client, once. -/
theorem C117_conserved (p : Params) (fail up : Bool) (es : List Ev) :
    came p fail up es = taken p fail up es + (statOf (after p fail up es)).nQueue +
      (toldOf (·.nCliSquash) p fail up es + (statOf (after p fail up es)).nCliSquash) := by
  have := conserve (s := { sub := (ClientMon.begin (fresh p) fail up).1 }) (inv_begin p fail up) es
  rw [begin_phi] at this
  simp only [came, taken, toldOf, after, statOf]
  simp only [phi] at this
  omega

def rInit : Reply := { init := true, final := false, ok := true, hasData := false, marked := fun _ => false, val := fun _ => 0 }
def rData : Reply := { init := false, final := false, ok := true, hasData := true, marked := fun _ => true, val := fun _ => 1 }
def rLast : Reply := { init := false, final := true, ok := true, hasData := false, marked := fun _ => false, val := fun _ => 0 }
def plain : Params := { pipeline := false, autostart := true, maskConn := true, maskDiscon := false, hasInit := false, queueSize := 2, ackAt := 1 }

/-- six events come, one is popped, two are squashed: one of them told by a call which resets -/
def busy : List Ev := [.sub (.msg rInit .ok) false, .sub (.msg rData .ok) false, .sub (.msg rData .ok) true, .sub (.msg rData .ok) false, .stats true,
  .sub (.msg rData .ok) true, .sub .pop false, .sub (.msg rData .ok) true, .sub (.msg rLast .ok) false]

example : came plain false true busy = 6 ∧ taken plain false true busy = 1 ∧ toldOf (·.nCliSquash) plain false true busy = 1 ∧
    statOf (after plain false true busy) = { nQueue := 3, nSrvSquash := 2, nCliSquash := 1, maxQueue := 3, limitQueue := 2 } := ⟨rfl, rfl, rfl, rfl⟩

/-! #### squashed by the server -/

theorem reached_iff {o : Sub} (hI : Inv o) (r : Reply) : reached o r = (Takes o && fits o r) := by
  unfold reached Takes
  cases hf : fits o r
  · simp
  · cases hc : r.carries
    · simp
    · have := hI.fl (fits_live hf (carries_init hc).1)
      simp [this]

theorem arrives_data (o : Sub) (latest : Nat → Nat) (r : Reply) (i : InitAct) :
    (arrives o latest (.msg r i)).any isData = (Takes o && fits o r && r.carries) := by
  simp only [arrives]
  cases hT : Takes o <;> cases hF : fits o r
  · simp
  · simp
  · simp; intro x _ _ _ _ hx; subst hx; rfl
  · cases hc : r.carries
    · cases hi : r.init <;> cases hk : r.success <;> cases hf : r.final <;> simp [isData]
    · have := carries_init hc
      simp [this.1, this.2, isData]

theorem arrives_other {o : Sub} (latest : Nat → Nat) {e : ClientMon.Ev} (h : ∀ r i, e ≠ .msg r i) : (arrives o latest e).any isData = false := by
  cases e with
  | msg r i => exact absurd rfl (h r i)
  | up => simp only [arrives]; split <;> rfl
  | down => simp only [arrives]; split <;> rfl
  | _ => rfl

theorem srv_step {s : St} (h : Inv s.sub) (e : Ev) : (step s e).nSrvSquash + told (·.nSrvSquash) s e = s.nSrvSquash + combined s e := by
  cases e with
  | stats r => cases r <;> simp [step, told, combined, resetStat, statOf]
  | sub e v =>
    have key : (subStep s e v).nSrvSquash = s.nSrvSquash + combined s (.sub e v) := by
      cases e with
      | msg r i =>
        have h1 := reached_iff h r
        have h2 := arrives_data s.sub (fun _ => 0) r i
        simp only [subStep, countSrv, h1]
        cases v
        · simp [combined]
        · simp only [combined, h2, Bool.and_true]
          split <;> rfl
      | _ =>
        cases v
        · rfl
        · simp only [subStep, combined]
          rw [arrives_other _ (by intro r i hx; cases hx)]; rfl
    simp only [step, told, key]; omega

theorem srv_run {s : St} (h : Inv s.sub) (es : List Ev) :
    (run s es).nSrvSquash + total (told (·.nSrvSquash)) s es = s.nSrvSquash + total combined s es := by
  induction es generalizing s with
  | nil => simp [run, total]
  | cons e es ih =>
    have h1 := ih (inv_sstep h e)
    have h2 := srv_step h e
    simp only [run_cons, total]; omega

/-- Each update which the server combined from several is counted, once. -/
theorem C117_server (p : Params) (fail up : Bool) (es : List Ev) :
    toldOf (·.nSrvSquash) p fail up es + (statOf (after p fail up es)).nSrvSquash = combinedOf p fail up es := by
  have := srv_run (s := { sub := (ClientMon.begin (fresh p) fail up).1 }) (inv_begin p fail up) es
  simp only [toldOf, statOf, after, combinedOf]
  simp only [Nat.zero_add] at this
  omega

example : combinedOf plain false true busy = 3 ∧ toldOf (·.nSrvSquash) plain false true busy = 1 := ⟨rfl, rfl⟩

/-! #### squashed by the client -/

theorem squashed_refl (q : List Entry) : Squashed q q := by
  have : ∀ n, ∀ q : List Entry, q.length = n → Squashed q q := by
    intro n
    induction n with
    | zero => intro q h; rw [List.length_eq_zero_iff.1 h]; exact .nil
    | succ n ih =>
      intro q h
      have hne : q ≠ [] := by rintro rfl; simp at h
      have hq := List.dropLast_concat_getLast hne
      rw [← hq]
      exact .keep _ (ih q.dropLast (by simp; omega))
  exact this _ q rfl

theorem cli_pipeline {o : Sub} (hI : Inv o) (hp : o.pipeline = true) (e : ClientMon.Ev) :
    (ClientMon.step o e).1.pipeline = true ∧ (ClientMon.step o e).1.nCliSquash = o.nCliSquash := by
  have hS := (same_step o e).pipeline
  have hp' : (ClientMon.step o e).1.pipeline = true := by rw [hS]; exact hp
  have h := streamed_step hI (A := o.queue) (P := []) (latest := o.cache) ⟨squashed_refl _, fun _ => rfl, fun _ => rfl⟩ e
  have h1 := congrArg List.length (h.exact hp')
  have h2 := step_phi hI o.cache e
  simp only [List.nil_append, List.length_append, phi] at h1 h2
  exact ⟨hp', by omega⟩

theorem pipeline_run {s : St} (h : Inv s.sub) (hp : s.sub.pipeline = true) (h0 : s.sub.nCliSquash = 0) (es : List Ev) :
    (run s es).sub.nCliSquash = 0 := by
  induction es generalizing s with
  | nil => exact h0
  | cons e es ih =>
    rw [run_cons]
    cases e with
    | stats r =>
      cases r
      · exact ih h hp h0
      · exact ih (inv_sstep h (.stats true)) hp rfl
    | sub e v =>
      have := cli_pipeline h hp e
      refine ih (inv_sstep h (.sub e v)) ?_ ?_
      · simp only [step, subStep_sub]; exact this.1
      · simp only [step, subStep_sub, this.2, h0]

/-- With `pipeline` nothing is ever squashed by the client. -/
theorem C117_pipeline (p : Params) (hp : p.pipeline = true) (fail up : Bool) (es : List Ev) : (statOf (after p fail up es)).nCliSquash = 0 := by
  refine pipeline_run (inv_begin p fail up) ?_ ?_ es
  · rw [(same_begin p fail up).pipeline]; exact hp
  · have := begin_phi p fail up
    cases fail <;> cases up <;> cases hm : p.maskConn <;>
      simp [ClientMon.begin, fresh, createOperations, ClientMon.createOp, hm, push_eq] <;> split <;> simp

/-- a full queue of a pipeline grows instead -/
example : statOf (after { plain with pipeline := true } false true busy) = { nQueue := 5, nSrvSquash := 2, nCliSquash := 0, maxQueue := 5, limitQueue := 2 } := rfl

/-! #### the longest queue -/

theorem max_step {s : St} (h : Inv s.sub) (e : Ev) (hn : noReset e = true) :
    (step s e).queueMax = max s.queueMax (if updated s e then (step s e).sub.queue.length else 0) := by
  cases e with
  | stats r => cases r <;> simp_all [step, updated, noReset]
  | sub e v =>
    cases e with
    | msg r i =>
      simp only [step, subStep, countMax, updated, reached_iff h r, Bool.and_assoc]
      split <;> simp
    | _ => simp [step, subStep, updated]

theorem max_run {s : St} (h : Inv s.sub) (es : List Ev) (hn : es.all noReset = true) : (run s es).queueMax = max s.queueMax (longestUpdated s es) := by
  induction es generalizing s with
  | nil => simp [run, longestUpdated]
  | cons e es ih =>
    simp only [List.all_cons, Bool.and_eq_true] at hn
    have h1 := ih (inv_sstep h e) hn.2
    have h2 := max_step h e hn.1
    simp only [run_cons, longestUpdated]; omega

theorem longestUpdated_le (es : List Ev) : ∀ s : St, longestUpdated s es ≤ longest s es := by
  induction es with
  | nil => intro s; simp [longestUpdated]
  | cons e es ih =>
    intro s
    have h1 := ih (step s e)
    have h2 : (step s e).sub.queue.length ≤ longest (step s e) es := by
      cases es <;> simp only [longest] <;> omega
    simp only [longestUpdated, longest]
    split <;> omega

/-- The longest queue reported is the longest met after a message with an update or the last message, since the statistics were reset.
Missing: Connected, Disconnect and the error of a subscription which was refused are not counted when they are queued. -/
theorem C117_max_partial (p : Params) (fail up : Bool) (es es' : List Ev) (hn : es'.all noReset = true) :
    (statOf (after p fail up (es ++ .stats true :: es'))).maxQueue = longestUpdated (after p fail up (es ++ [.stats true])) es' := by
  have h0 := inv_srun (s := { sub := (ClientMon.begin (fresh p) fail up).1 }) (inv_begin p fail up) es
  have h1 := inv_sstep h0 (.stats true)
  have := max_run h1 es' hn
  simp only [after, statOf, run_append, run_cons]
  rw [this]
  show max 0 _ = _
  simp only [Nat.zero_max]
  rfl

/-- the same before the first reset -/
theorem C117_max_first_partial (p : Params) (fail up : Bool) (es : List Ev) (hn : es.all noReset = true) :
    (statOf (after p fail up es)).maxQueue = longestUpdated (after p fail up []) es := by
  have := max_run (s := { sub := (ClientMon.begin (fresh p) fail up).1 }) (inv_begin p fail up) es hn
  simp only [after, statOf]
  rw [this]
  show max 0 _ = _
  simp only [Nat.zero_max]; rfl

/-- It is never more than the longest queue. -/
theorem C117_max_le (p : Params) (fail up : Bool) (es es' : List Ev) (hn : es'.all noReset = true) :
    (statOf (after p fail up (es ++ .stats true :: es'))).maxQueue ≤ longest (after p fail up (es ++ [.stats true])) es' := by
  rw [C117_max_partial p fail up es es' hn]; exact longestUpdated_le _ _

example : longestUpdated (after plain false true (busy ++ [.stats true])) [.sub .pop false] = 0 ∧
    longest (after plain false true (busy ++ [.stats true])) [.sub .pop false] = 3 ∧
    longestUpdated (after plain false true []) busy = 3 := ⟨rfl, rfl, rfl⟩

/-- When an update or the end comes, the longest queue includes what waits now. -/
theorem C117_max_now (p : Params) (fail up : Bool) (es : List Ev) (r : Reply) (i : InitAct) (v : Bool)
    (hc : (comes (after p fail up es) (.sub (.msg r i) v)).any (fun e => match e with | .data _ => true | .exc .finished => true | _ => false) = true) :
    (statOf (after p fail up (es ++ [.sub (.msg r i) v]))).nQueue ≤ (statOf (after p fail up (es ++ [.sub (.msg r i) v]))).maxQueue := by
  have h0 := inv_srun (s := { sub := (ClientMon.begin (fresh p) fail up).1 }) (inv_begin p fail up) es
  have h1 := max_step h0 (.sub (.msg r i) v) rfl
  have hu : updated (after p fail up es) (.sub (.msg r i) v) = true := by
    revert hc
    simp only [comes, arrives, updated]
    cases hT : Takes (after p fail up es).sub <;> cases hF : fits (after p fail up es).sub r
    · simp
    · simp
    · simp; intro x _ _ _ _ hx; subst hx; simp
    · cases hi : r.init
      · simp
      · cases hk : r.success <;> simp
  have e1 : after p fail up (es ++ [.sub (.msg r i) v]) = step (after p fail up es) (.sub (.msg r i) v) := by simp [after, run]
  simp only [after] at hu e1
  rw [if_pos hu] at h1
  simp only [statOf]
  rw [show after p fail up (es ++ [.sub (.msg r i) v]) = step (after p fail up es) (.sub (.msg r i) v) from e1]
  simp only [after]
  omega

example : (comes (after plain false true [.sub (.msg rInit .ok) false]) (.sub (.msg rData .ok) false)).any
    (fun e => match e with | .data _ => true | .exc .finished => true | _ => false) = true := rfl

/-- "Max queue size so far" does not hold: Connected waits, and the longest queue is still 0.  Two more losses of the connection add to the queue
without being counted. -/
theorem C117_max_false : (statOf (after { plain with maskConn := false } false true [])).nQueue = 1 ∧
    (statOf (after { plain with maskConn := false } false true [])).maxQueue = 0 ∧
    (statOf (after { plain with maskConn := false } false true [.sub .down false, .sub .up false, .sub .down false])).nQueue = 4 ∧
    (statOf (after { plain with maskConn := false } false true [.sub .down false, .sub .up false, .sub .down false])).maxQueue = 0 := ⟨rfl, rfl, rfl, rfl⟩

/-- Nor after a reset: what waits is not counted until the next update. -/
theorem C117_max_reset : (statOf (after plain false true (busy ++ [.stats true]))).nQueue = 3 ∧
    (statOf (after plain false true (busy ++ [.stats true]))).maxQueue = 0 := ⟨rfl, rfl⟩

/-- Reading the statistics without reset has no effect, with reset only on the counters. -/
theorem C117_read (p : Params) (fail up : Bool) (es : List Ev) :
    after p fail up (es ++ [.stats false]) = after p fail up es ∧
    statOf (after p fail up (es ++ [.stats true])) = { statOf (after p fail up es) with nSrvSquash := 0, nCliSquash := 0, maxQueue := 0 } ∧
    (after p fail up (es ++ [.stats true])).sub = { (after p fail up es).sub with nCliSquash := 0 } := by
  simp only [after, run_append]
  exact ⟨rfl, rfl, rfl⟩

end Pvxs.Props.CliStat
