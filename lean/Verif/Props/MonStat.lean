import Verif.Spec.MonStat
import Verif.Lemmas.ServerMon
/-
C105: what post() returns, statistics and flow control levels of a subscription.
-/
namespace Pvxs.Props.MonStat
open Pvxs.Mon (Mon Sys Upd testmask content Acts)
open Pvxs.MonStat Pvxs.Spec.MonStat
open Pvxs.Server (OpState)

/-! ### one step, one subscription -/

def Wf (s : St) : Prop := s.ext.length = s.sys.mons.length

theorem modExt_len (s : Sys) (xs : List Ext) (i : Nat) (g : Mon → Ext → Ext) : (modExt s xs i g).length = xs.length := by
  unfold modExt; split <;> simp

theorem wf_step (A : Nat → AckAny) (s : St) (e : Ev) (h : Wf s) : Wf (step A s e) := by
  unfold Wf at h ⊢
  cases e with
  | mon e =>
    simp only [step, Mon.step_len]
    cases e <;> simp [extStep, modExt_len, h]
  | stats i r => simp only [step]; split <;> simp [h]
  | setWatermarks i a b => simp only [step]; split <;> simp [h]
  | runHigh i => simp only [step, modExt_len]; exact h
  | _ => simp [step, h]

theorem wf_run (A : Nat → AckAny) (es : List Ev) : ∀ s : St, Wf s → Wf (run A s es) := by
  induction es with
  | nil => intro s h; exact h
  | cons e es ih => intro s h; exact ih _ (wf_step A s e h)

/-- the part of `extStep` for one subscription -/
def extFor (heap : List Upd) (m : Mon) (i : Nat) (x : Ext) : Mon.Ev → Ext
  | .post j c mb f => if j = i then onPost heap m c mb f x else x
  | .finish j => if j = i then onFinish m x else x
  | .ctl j a _ _ => if j = i then onCtl m a x else x
  | .work j => if j = i then onWork heap m x else x
  | _ => x

theorem modExt_get (s : Sys) (xs : List Ext) (i j : Nat) (g : Mon → Ext → Ext) (m : Mon) (x : Ext) (hm : s.mons[i]? = some m) (hx : xs[i]? = some x) :
    (modExt s xs j g)[i]? = some (if j = i then g m x else x) := by
  unfold modExt
  by_cases h : j = i
  · subst h; rw [hm]; simp [List.getElem?_modify, hx]
  · rw [if_neg h]
    split
    · simp [List.getElem?_modify, hx, h]
    · exact hx

theorem extStep_get (A : Nat → AckAny) (s : St) (i : Nat) (m : Mon) (x : Ext) (hm : s.sys.mons[i]? = some m) (hx : s.ext[i]? = some x) (e : Mon.Ev) :
    (extStep A s.sys s.ext e)[i]? = some (extFor s.sys.heap m i x e) := by
  cases e with
  | subscribe p n q mask =>
    simp only [extStep, extFor]
    rw [List.getElem?_append_left (List.getElem?_eq_some_iff.1 hx).1]; exact hx
  | post j c mb f => simp only [extStep, extFor]; exact modExt_get _ _ _ _ _ m x hm hx
  | finish j => simp only [extStep, extFor]; exact modExt_get _ _ _ _ _ m x hm hx
  | ctl j a b d => simp only [extStep, extFor]; exact modExt_get _ _ _ _ _ m x hm hx
  | work j => simp only [extStep, extFor]; exact modExt_get _ _ _ _ _ m x hm hx
  | _ => exact hx

/-- the length of the queue, and the counters, in one step of the subscription -/
structure Counted (i : Nat) (s : St) (e : Mon.Ev) (m m' : Mon) (x x' : Ext) : Prop where
  grows : m'.queue.length = m.queue.length + 1 ∧ x'.maxQueue = max x.maxQueue (m.queue.length + 1) ∧ x'.nSquash = x.nSquash ∨
    m'.queue.length ≤ m.queue.length ∧ x'.maxQueue = x.maxQueue
  squash : x'.nSquash = x.nSquash + (match e with
    | .post j c false _ => if (j == i && m.state != .creating && !m.finished && testmask m.mask (content s.sys.heap c) && m'.queue.length == m.queue.length) then 1 else 0
    | _ => 0)

theorem if_max (a b : Nat) : (if a < b then b else a) = max a b := by split <;> omega

theorem runJob_queue (heap : List Upd) (m : Mon) : (m.runJob heap).queue.length ≤ m.queue.length := by
  rcases Mon.runJob_sends heap m with ⟨h, _⟩ | ⟨_, h⟩
  · rw [h]; exact Nat.le_refl _
  · cases h with
    | nothing h => rw [h]; exact Nat.le_refl _
    | junk0 _ _ h => rw [h]; exact Nat.le_refl _
    | data c q hq _ _ h =>
      rw [h, (Mon.again_fields _).2.1, (Mon.consume_fields _).2.1, hq]
      simp [Mon.Mon.popped]
    | final q hq _ h => rw [h, hq]; simp
    | junk q hq _ h => rw [h, hq]; simp

theorem ctl_queue (m : Mon) (a : Option Nat) (b : Option Bool) (d : Bool) : (m.ctl a b d).queue = m.queue := by
  rcases Mon.ctl_cases m a b d with ⟨h, _⟩ | ⟨_, h⟩ | ⟨_, c, h⟩
  · rw [h]
  · rw [h]; unfold Mon.Mon.cleanup; split <;> rfl
  · rw [h]; simp only; rw [(Mon.startStop_fields _ _).1, (Mon.ack_fields _ _).2.1]

theorem onWork_counts (heap : List Upd) (m : Mon) (x : Ext) : (onWork heap m x).maxQueue = x.maxQueue ∧ (onWork heap m x).nSquash = x.nSquash := by
  unfold onWork; split <;> exact ⟨rfl, rfl⟩

theorem counted (A : Nat → AckAny) (s : St) (i : Nat) (m : Mon) (x : Ext) (hm : s.sys.mons[i]? = some m) (hx : s.ext[i]? = some x) (e : Mon.Ev) :
    ∃ m' x', (step A s (.mon e)).sys.mons[i]? = some m' ∧ (step A s (.mon e)).ext[i]? = some x' ∧ Counted i s e m m' x x' := by
  obtain ⟨m', h1, ha⟩ := Mon.step_acts hm e
  refine ⟨m', extFor s.sys.heap m i x e, h1, extStep_get A s i m x hm hx e, ?_⟩
  cases ha with
  | same e m hc hcan hfin hpost =>
    cases e with
    | post j c mb f =>
      by_cases hj : j = i
      · subst hj
        have hno := hpost c mb f rfl
        have hx' : onPost s.sys.heap m c mb f x = x ∧ ((mb = false ∧ m.state ≠ .creating ∧ m.finished = false) → testmask m.mask (content s.sys.heap c) = false) := by
          unfold onPost
          by_cases hcr : m.state = .creating ∨ m.finished = true ∨ (!testmask m.mask (content s.sys.heap c)) = true
          · refine ⟨by rw [if_pos hcr], fun ⟨_, h2, h3⟩ => ?_⟩
            rcases hcr with h | h | h
            · exact absurd h h2
            · rw [h] at h3; cases h3
            · simpa using h
          · rcases hno with hno | hno | hno
            · have ht : testmask m.mask (content s.sys.heap c) = true := by
                cases hh : testmask m.mask (content s.sys.heap c)
                · exact absurd (Or.inr (Or.inr (by rw [hh]; rfl))) hcr
                · rfl
              simp only [Spec.Mon.offer, hm, ht, true_and] at hno
              have hn : ¬ ((!mb) = true ∨ f = true ∨ m.queue.length < m.limit) := by
                intro hh; rw [if_pos hh] at hno; cases hno
              have hmb : mb = true := by cases mb; exact absurd (Or.inl rfl) hn; rfl
              refine ⟨?_, fun hh => by rw [hmb] at hh; cases hh.1⟩
              rw [if_neg hcr, if_neg (fun hh => hn (hh.elim (fun h => Or.inr (Or.inr h)) (fun h => Or.inr (Or.inl h)))), hmb]
              rfl
            · exact absurd (Or.inl hno) hcr
            · exact absurd (Or.inr (Or.inl hno)) hcr
        refine ⟨Or.inr ⟨Nat.le_refl _, by simp only [extFor, if_true]; rw [hx'.1]⟩, ?_⟩
        simp only [extFor, if_true]
        rw [hx'.1]
        cases mb with
        | true => rfl
        | false =>
          simp only
          split
          · rename_i h
            simp only [beq_self_eq_true, Bool.true_and, Bool.and_true, Bool.and_eq_true, bne_iff_ne, ne_eq, Bool.not_eq_true'] at h
            have := hx'.2 ⟨rfl, h.1.1, h.1.2⟩
            rw [this] at h; cases h.2
          · rfl
      · refine ⟨Or.inr ⟨Nat.le_refl _, by simp [extFor, hj]⟩, ?_⟩
        simp only [extFor, if_neg hj]
        cases mb
        · simp [hj]
        · rfl
    | finish j => 
      have hj : j ≠ i := fun h => hfin (by rw [h])
      exact ⟨Or.inr ⟨Nat.le_refl _, by simp [extFor, hj]⟩, by simp [extFor, hj]⟩
    | ctl j a b d =>
      have hj : j ≠ i := fun h => hc a b d (by rw [h])
      exact ⟨Or.inr ⟨Nat.le_refl _, by simp [extFor, hj]⟩, by simp [extFor, hj]⟩
    | work j =>
      have := onWork_counts s.sys.heap m x
      by_cases hj : j = i
      · exact ⟨Or.inr ⟨Nat.le_refl _, by simp [extFor, hj, this]⟩, by simp [extFor, hj, this]⟩
      · exact ⟨Or.inr ⟨Nat.le_refl _, by simp [extFor, hj]⟩, by simp [extFor, hj]⟩
    | value u => exact ⟨Or.inr ⟨Nat.le_refl _, rfl⟩, rfl⟩
    | subscribe p n q mask => exact ⟨Or.inr ⟨Nat.le_refl _, rfl⟩, rfl⟩
    | setup j ok => exact ⟨Or.inr ⟨Nat.le_refl _, rfl⟩, rfl⟩
    | cancel j => exact ⟨Or.inr ⟨Nat.le_refl _, rfl⟩, rfl⟩
    | close j => exact ⟨Or.inr ⟨Nat.le_refl _, rfl⟩, rfl⟩
  | setup ok m =>
    refine ⟨Or.inr ⟨?_, rfl⟩, rfl⟩
    unfold Mon.Mon.setup; split <;> exact Nat.le_refl _
  | push c mb f m a1 a2 a3 a4 =>
    have hx' : extFor s.sys.heap m i x (.post i c mb f) = { x with maxQueue := max x.maxQueue (m.queue.length + 1) } := by
      simp only [extFor, if_true, onPost]
      rw [if_neg (by simp [a1, a2, a3]), if_pos a4, if_max]
    have hq : ({ m with queue := m.queue ++ [some c] } : Mon).maybeReply.queue.length = m.queue.length + 1 := by
      rw [(Mon.maybeReply_fields _).2.1]; simp
    refine ⟨Or.inl ⟨hq, by rw [hx'], by rw [hx']⟩, ?_⟩
    rw [hx']
    cases mb with
    | true => rfl
    | false => simp only [hq]; rw [if_neg (by simp)]; rfl
  | poke c mb f m a1 a2 a3 a4 a5 =>
    have hq : m.maybeReply.queue = m.queue := (Mon.maybeReply_fields _).2.1
    have hx' : extFor s.sys.heap m i x (.post i c mb f) = if !mb then { x with nSquash := x.nSquash + 1 } else x := by
      simp only [extFor, if_true, onPost]
      rw [if_neg (by simp [a1, a2, a3]), if_neg (by rw [a5]; simp; omega)]
    refine ⟨Or.inr ⟨by rw [hq]; exact Nat.le_refl _, by rw [hx']; cases mb <;> rfl⟩, ?_⟩
    rw [hx']
    cases mb with
    | true => rfl
    | false => simp [hq, a1, a2, a3]
  | finish m =>
    simp only [extFor, if_true, onFinish, Mon.Mon.finish]
    split
    · exact ⟨Or.inr ⟨Nat.le_refl _, rfl⟩, rfl⟩
    · refine ⟨Or.inl ⟨by rw [(Mon.maybeReply_fields _).2.1]; simp, if_max _ _, rfl⟩, rfl⟩
  | ctl a b d m =>
    refine ⟨Or.inr ⟨by rw [ctl_queue]; exact Nat.le_refl _, ?_⟩, ?_⟩ <;>
      (simp only [extFor, if_true, onCtl]; split <;> (try rfl)) <;> (cases a <;> (try rfl)) <;> (simp only; split <;> rfl)
  | cancel m =>
    refine ⟨Or.inr ⟨?_, rfl⟩, rfl⟩
    unfold Mon.Mon.cancel; split <;> exact Nat.le_refl _
  | close m =>
    refine ⟨Or.inr ⟨?_, rfl⟩, rfl⟩
    unfold Mon.Mon.cleanup; split <;> exact Nat.le_refl _
  | work m =>
    refine ⟨Or.inr ⟨runJob_queue _ _, ?_⟩, ?_⟩ <;> (simp only [extFor, if_true, onWork]; split <;> rfl)

/-! ### counters -/

def mx (i : Nat) (s : St) : Nat := match s.ext[i]? with
  | some x => x.maxQueue
  | none => 0
def sq (i : Nat) (s : St) : Nat := match s.ext[i]? with
  | some x => x.nSquash
  | none => 0

theorem modify_keep (xs : List Ext) (i j : Nat) (g : Ext → Ext) (x : Ext) (hx : xs[i]? = some x) : (xs.modify j g)[i]? = some (if j = i then g x else x) := by
  simp only [List.getElem?_modify, hx]
  split <;> simp [*]

/-- an event other than of the subscription itself -/
theorem other_step (A : Nat → AckAny) (s : St) (i : Nat) (m : Mon) (x : Ext) (hm : s.sys.mons[i]? = some m) (hx : s.ext[i]? = some x) (e : Ev) (he : ∀ e', e ≠ .mon e') :
    (step A s e).sys = s.sys ∧ ∃ x', (step A s e).ext[i]? = some x' ∧ (e ≠ .stats i true → x'.maxQueue = x.maxQueue ∧ x'.nSquash = x.nSquash) ∧
      (x'.calls.count .high = x.calls.count .high + (if e = .runHigh i ∧ x.highPending = true ∧ m.finished = false ∧ x.onHigh = true then 1 else 0)) ∧
      (x'.highPending = (x.highPending && !decide (e = .runHigh i))) ∧ (x.onHigh = true → x'.onHigh = true) ∧ x'.ackAt = x.ackAt ∧
      (x.ackAt ≤ 1 ∧ x.high = 0 ∧ x.low = 0 → x'.high = 0 ∧ x'.low = 0) := by
  cases e with
  | mon e => exact absurd rfl (he e)
  | stats j r =>
    refine ⟨rfl, ?_⟩
    simp only [step]
    split
    · refine ⟨_, modify_keep _ _ _ _ _ hx, ?_⟩
      rename_i hr
      by_cases hj : j = i
      · subst hj; rw [hr]; simp [resetStats]
      · simp [hj]
    · exact ⟨x, hx, by simp⟩
  | setWatermarks j a b =>
    refine ⟨rfl, ?_⟩
    simp only [step]
    split
    · refine ⟨_, modify_keep _ _ _ _ _ hx, ?_⟩
      by_cases hj : j = i
      · subst hj; simp [levels]; exact fun h _ _ => ⟨Or.inr (by omega), Or.inr (by omega)⟩
      · simp [hj]
    · exact ⟨x, hx, by simp⟩
  | onLowMark j =>
    refine ⟨rfl, _, modify_keep _ _ _ _ _ hx, ?_⟩
    by_cases hj : j = i <;> simp [hj]
  | onHighMark j =>
    refine ⟨rfl, _, modify_keep _ _ _ _ _ hx, ?_⟩
    by_cases hj : j = i <;> simp [hj]
  | runLow j =>
    refine ⟨rfl, _, modify_keep _ _ _ _ _ hx, ?_⟩
    by_cases hj : j = i
    · subst hj
      simp only [if_true, MonStat.runLow]
      cases x.lowPending <;> cases x.onLow <;> simp [List.count_append]
    · simp [hj]
  | runHigh j =>
    refine ⟨rfl, _, modExt_get _ _ _ _ _ m x hm hx, ?_⟩
    by_cases hj : j = i
    · subst hj
      simp only [if_true, MonStat.runHigh]
      cases h1 : x.highPending <;> cases h2 : x.onHigh <;> cases h3 : m.finished <;> simp [List.count_append, h1, h2, h3]
    · simp [hj]

/-- the subscription does not exist yet -/
theorem new_step (A : Nat → AckAny) (s : St) (hw : Wf s) (i : Nat) (hm : s.sys.mons[i]? = none) (e : Ev) :
    ((step A s e).sys.mons[i]? = none ∧ (step A s e).ext[i]? = none) ∨
    ∃ p n q mask, e = .mon (.subscribe p n q mask) ∧ (step A s e).sys.mons[i]? = some (Mon.newMon p n q mask) ∧
      (step A s e).ext[i]? = some { ackAt := serverAckAt (A i) (Mon.limitFor n q) } := by
  have hl : s.sys.mons.length ≤ i := List.getElem?_eq_none_iff.1 hm
  have hw' := wf_step A s e hw
  unfold Wf at hw hw'
  by_cases h : (step A s e).sys.mons.length ≤ i
  · exact Or.inl ⟨List.getElem?_eq_none_iff.2 h, List.getElem?_eq_none_iff.2 (by omega)⟩
  · right
    cases e with
    | mon e =>
      simp only [step, Mon.step_len] at h
      cases e with
      | subscribe p n q mask =>
        have hi : i = s.sys.mons.length := by simp only at h; omega
        refine ⟨p, n, q, mask, rfl, ?_, ?_⟩
        · simp only [step, Mon.step]; rw [hi]; simp
        · simp only [step, extStep]; rw [hi, ← hw]; simp
      | _ => simp only at h; omega
    | _ => exact absurd (by simpa [step] using hl) h

theorem none_ext {s : St} (hw : Wf s) {i : Nat} (hm : s.sys.mons[i]? = none) : s.ext[i]? = none := by
  unfold Wf at hw
  exact List.getElem?_eq_none_iff.2 (by rw [hw]; exact List.getElem?_eq_none_iff.1 hm)
theorem some_ext {s : St} (hw : Wf s) {i : Nat} {m : Mon} (hm : s.sys.mons[i]? = some m) : ∃ x, s.ext[i]? = some x := by
  unfold Wf at hw
  have := (List.getElem?_eq_some_iff.1 hm).1
  exact ⟨s.ext[i], List.getElem?_eq_getElem (by omega)⟩

theorem step_counts (A : Nat → AckAny) (s : St) (hw : Wf s) (i : Nat) (e : Ev) (hne : e ≠ .stats i true) :
    ((waiting i (step A s e) ≤ waiting i s ∧ mx i (step A s e) = mx i s) ∨
      (waiting i (step A s e) = waiting i s + 1 ∧ mx i (step A s e) = max (mx i s) (waiting i s + 1))) ∧
    sq i (step A s e) = sq i s + (if combined A i s e then 1 else 0) := by
  cases hm : s.sys.mons[i]? with
  | none =>
    have hx := none_ext hw hm
    have hc : combined A i s e = false := by unfold combined; rw [hm]; split <;> simp_all
    rw [hc]
    rcases new_step A s hw i hm e with ⟨h1, h2⟩ | ⟨p, n, q, mask, _, h1, h2⟩
    · simp [waiting, mx, sq, h1, h2, hm, hx]
    · simp [waiting, mx, sq, h1, h2, hm, hx, Mon.newMon]
  | some m =>
    obtain ⟨x, hx⟩ := some_ext hw hm
    by_cases he : ∃ e', e = .mon e'
    · obtain ⟨e', rfl⟩ := he
      obtain ⟨m', x', h1, h2, h3, h4⟩ := counted A s i m x hm hx e'
      simp only [waiting, mx, sq, h1, h2, hm, hx]
      refine ⟨?_, ?_⟩
      · rcases h3 with ⟨a, b, _⟩ | ⟨a, b⟩
        · exact Or.inr ⟨a, b⟩
        · exact Or.inl ⟨a, b⟩
      · rw [h4]
        congr 1
        cases e' with
        | post j c mb f =>
          cases mb with
          | true => simp [combined, hm]
          | false => simp [combined, hm, waiting, h1]
        | _ => simp [combined, hm]
    · have he' : ∀ e', e ≠ .mon e' := fun e' h => he ⟨e', h⟩
      obtain ⟨h1, x', h2, h3, _⟩ := other_step A s i m x hm hx e he'
      have hc : combined A i s e = false := by unfold combined; split <;> simp_all
      rw [hc]
      simp [waiting, mx, sq, h1, h2, hm, hx, h3 hne]

theorem peak_ge (A : Nat → AckAny) (i : Nat) (es : List Ev) (s : St) : waiting i s ≤ peak A i s es := by
  cases es with
  | nil => exact Nat.le_refl _
  | cons e es => simp only [peak]; omega

theorem peak_run (A : Nat → AckAny) (i : Nat) (es : List Ev) : ∀ s : St, Wf s → NoReset i es →
    max (mx i (run A s es)) (waiting i s) = max (mx i s) (peak A i s es) ∧ mx i s ≤ mx i (run A s es) := by
  induction es with
  | nil => intro s _ _; exact ⟨rfl, Nat.le_refl _⟩
  | cons e es ih =>
    intro s hw hn
    have hn1 : e ≠ .stats i true := fun h => hn (by rw [h]; simp)
    obtain ⟨hs, _⟩ := step_counts A s hw i e hn1
    obtain ⟨h1, h2⟩ := ih (step A s e) (wf_step A s e hw) (fun h => hn (List.mem_cons_of_mem _ h))
    have hp := peak_ge A i es (step A s e)
    simp only [run, List.foldl_cons, peak] at h1 h2 ⊢
    omega

theorem wf_start : Wf {} := rfl

/-- C105: unless the statistics were reset, `maxQueue` is the highest number of entries which ever waited. -/
theorem C105_highest_partial (A : Nat → AckAny) (es : List Ev) (i : Nat) (m : Mon) (x : Ext) (hn : NoReset i es) (hm : (run A {} es).sys.mons[i]? = some m)
    (hx : (run A {} es).ext[i]? = some x) (st : Stat) : (statsOf m x st).maxQueue = peak A i {} es := by
  have h := (peak_run A i es {} wf_start hn).1
  have h0 : waiting i {} = 0 := rfl
  have h1 : mx i {} = 0 := rfl
  have h2 : mx i (run A {} es) = x.maxQueue := by simp [mx, hx]
  rw [h0, h1, h2] at h
  simp only [statsOf]
  omega

/-- C105: since they were reset, `maxQueue` is the highest number of waiting entries, unless the highest was that when they were reset. -/
theorem C105_highest_since (A : Nat → AckAny) (pre es : List Ev) (i : Nat) (m : Mon) (x : Ext) (hn : NoReset i es)
    (hm : (run A {} (pre ++ .stats i true :: es)).sys.mons[i]? = some m) (hx : (run A {} (pre ++ .stats i true :: es)).ext[i]? = some x) (st : Stat) :
    max (statsOf m x st).maxQueue (waiting i (run A {} pre)) = peak A i (run A {} pre) (.stats i true :: es) := by
  have e1 : run A {} (pre ++ .stats i true :: es) = run A (step A (run A {} pre) (.stats i true)) es := by simp [run, List.foldl_append]
  have hw := wf_run A pre {} wf_start
  have h := (peak_run A i es (step A (run A {} pre) (.stats i true)) (wf_step A _ _ hw) hn).1
  rw [← e1] at h
  have h2 : mx i (run A {} (pre ++ .stats i true :: es)) = x.maxQueue := by simp [mx, hx]
  have h3 : waiting i (step A (run A {} pre) (.stats i true)) = waiting i (run A {} pre) := rfl
  have h4 : mx i (step A (run A {} pre) (.stats i true)) = 0 := by
    simp only [mx, step, if_true, List.getElem?_modify]
    cases (run A {} pre).ext[i]? <;> simp [resetStats]
  rw [h2, h3, h4] at h
  simp only [statsOf, peak, h3]
  omega

theorem squash_run (A : Nat → AckAny) (i : Nat) (es : List Ev) : ∀ s : St, Wf s → NoReset i es → sq i (run A s es) = sq i s + combinedCount A i s es := by
  induction es with
  | nil => intro s _ _; rfl
  | cons e es ih =>
    intro s hw hn
    obtain ⟨_, hs⟩ := step_counts A s hw i e (fun h => hn (by rw [h]; simp))
    have h1 := ih (step A s e) (wf_step A s e hw) (fun h => hn (List.mem_cons_of_mem _ h))
    simp only [run, List.foldl_cons, combinedCount] at h1 ⊢
    omega

/-- C105 does not hold: what stats() reports as the number of updates in the queue is the number of updates which were combined with others; and as the number
of these nothing is stored. -/
theorem C105_reported (A : Nat → AckAny) (es : List Ev) (i : Nat) (m : Mon) (x : Ext) (hn : NoReset i es) (_hm : (run A {} es).sys.mons[i]? = some m)
    (hx : (run A {} es).ext[i]? = some x) (st : Stat) : (statsOf m x st).nQueue = combinedCount A i {} es ∧ (statsOf m x st).nSquash = st.nSquash := by
  have h := squash_run A i es {} wf_start hn
  have h2 : sq i (run A {} es) = x.nSquash := by simp [sq, hx]
  have h3 : sq i {} = 0 := rfl
  rw [h2, h3] at h
  exact ⟨by simp only [statsOf]; omega, rfl⟩

/-- C105: after a reset that number counts from 0 again. -/
theorem C105_reported_since (A : Nat → AckAny) (pre es : List Ev) (i : Nat) (m : Mon) (x : Ext) (hn : NoReset i es)
    (_hm : (run A {} (pre ++ .stats i true :: es)).sys.mons[i]? = some m) (hx : (run A {} (pre ++ .stats i true :: es)).ext[i]? = some x) (st : Stat) :
    (statsOf m x st).nQueue = combinedCount A i (run A {} (pre ++ [.stats i true])) es := by
  have e1 : run A {} (pre ++ .stats i true :: es) = run A (run A {} (pre ++ [.stats i true])) es := by simp [run, List.foldl_append]
  have hw := wf_run A (pre ++ [.stats i true]) {} wf_start
  have h := squash_run A i es _ hw hn
  rw [← e1] at h
  have h2 : sq i (run A {} (pre ++ .stats i true :: es)) = x.nSquash := by simp [sq, hx]
  have h4 : sq i (run A {} (pre ++ [.stats i true])) = 0 := by
    have : run A {} (pre ++ [.stats i true]) = step A (run A {} pre) (.stats i true) := by simp [run, List.foldl_append]
    rw [this]
    simp only [sq, step, if_true, List.getElem?_modify]
    cases (run A {} pre).ext[i]? <;> simp [resetStats]
  rw [h2, h4] at h
  simp only [statsOf]
  omega

/-- C105: the rest of what stats() reports is as it is: the window, the limit of the queue, whether the client has started it, whether it is finished, and whether it is pipelined. -/
theorem C105_rest (m : Mon) (x : Ext) (st : Stat) : (statsOf m x st).window = m.window ∧ (statsOf m x st).limitQueue = m.limit ∧
    ((statsOf m x st).running = true ↔ m.state = .executing) ∧ (statsOf m x st).finished = m.finished ∧ (statsOf m x st).pipeline = m.pipeline := by
  simp [statsOf]

/-! ### post() -/

/-- C105: what post(), tryPost() or forcePost() return tells whether there is room: with `true` the next tryPost() of an update which the subscriber wants puts it into the
queue, with `false` it does nothing to the queue. -/
theorem C105_room (s : Sys) (i c : Nat) (maybe force : Bool) (m : Mon) (hm : s.mons[i]? = some m) (hs : m.state ≠ .creating) (c' : Nat) (m1 m2 : Mon)
    (h1 : (Mon.step s (.post i c maybe force)).mons[i]? = some m1)
    (h2 : (Mon.step (Mon.step s (.post i c maybe force)) (.post i c' true false)).mons[i]? = some m2)
    (ht : testmask m1.mask (content (Mon.step s (.post i c maybe force)).heap c') = true) :
    (postResult s i c maybe force = true → m2.queue = m1.queue ++ [some c']) ∧ (postResult s i c maybe force = false → m2.queue = m1.queue) := by
  have hf : m1.finished = m.finished ∧ m1.state = m.state := by
    obtain ⟨m', e1, ha⟩ := Mon.step_acts hm (.post i c maybe force)
    rw [h1] at e1; cases e1
    cases ha with
    | same => exact ⟨rfl, rfl⟩
    | push => exact ⟨(Mon.maybeReply_fields _).2.2.2.2.2.1, (Mon.maybeReply_fields _).1⟩
    | poke => exact ⟨(Mon.maybeReply_fields _).2.2.2.2.2.1, (Mon.maybeReply_fields _).1⟩
  have hr : postResult s i c maybe force = (!m.finished && decide (m1.queue.length < m1.limit)) := by
    have h1' : (Mon.postValue s i c maybe force).mons[i]? = some m1 := h1
    simp only [postResult, hm, h1']
  obtain ⟨m', e2, ha⟩ := Mon.step_acts h1 (.post i c' true false)
  rw [h2] at e2; cases e2
  rw [hr]
  cases ha with
  | same _ _ _ _ _ hp =>
    refine ⟨fun hh => ?_, fun _ => rfl⟩
    simp only [Bool.and_eq_true, Bool.not_eq_true', decide_eq_true_eq] at hh
    rcases hp c' true false rfl with h | h | h
    · simp only [Spec.Mon.offer, h1, ht, hh.2, or_true, true_and, if_true] at h
      cases h
    · rw [hf.2] at h; exact absurd h hs
    · rw [hf.1, hh.1] at h; cases h
  | push _ _ _ _ a1 a2 a3 a4 =>
    refine ⟨fun _ => (Mon.maybeReply_fields _).2.1, fun hh => ?_⟩
    rw [hf.1] at a2
    rw [a2] at hh
    rcases a4 with a4 | a4
    · simp [a4] at hh
    · cases a4
  | poke _ _ _ _ a1 a2 a3 a4 a5 =>
    refine ⟨fun hh => ?_, fun _ => (Mon.maybeReply_fields _).2.1⟩
    simp only [Bool.and_eq_true, Bool.not_eq_true', decide_eq_true_eq] at hh
    omega

/-! ### flow control -/

theorem runJob_finished (heap : List Upd) (m : Mon) : (m.runJob heap).finished = m.finished := by
  rcases Mon.runJob_sends heap m with ⟨h, _⟩ | ⟨_, h⟩
  · rw [h]
  · cases h with
    | nothing h => rw [h]
    | junk0 _ _ h => rw [h]
    | data c q hq _ _ h =>
      rw [h]
      have h1 := Mon.again_fields (m.popped heap c q).consume
      have h2 := Mon.consume_fields (m.popped heap c q)
      exact h1.2.2.2.2.2.1.trans h2.2.2.2.2.2.2.1
    | final q hq _ h => rw [h]
    | junk q hq _ h => rw [h]

theorem finished_same {i : Nat} {s : Sys} {e : Mon.Ev} {m m' : Mon} (h : Acts i s e m m') (he : e ≠ .finish i) : m'.finished = m.finished := by
  cases h with
  | same => rfl
  | setup ok m => unfold Mon.Mon.setup; split <;> rfl
  | push => exact (Mon.maybeReply_fields _).2.2.2.2.2.1
  | poke => exact (Mon.maybeReply_fields _).2.2.2.2.2.1
  | finish m => exact absurd rfl he
  | ctl a b d m =>
    rcases Mon.ctl_cases m a b d with ⟨h, _⟩ | ⟨_, h⟩ | ⟨_, c, h⟩
    · rw [h]
    · rw [h]; unfold Mon.Mon.cleanup; split <;> rfl
    · rw [h]; simp only; rw [(Mon.startStop_fields _ _).2.2.2.2.1, (Mon.ack_fields _ _).2.2.2.2.2.2.1]
  | cancel m => unfold Mon.Mon.cancel; split <;> rfl
  | close m => unfold Mon.Mon.cleanup; split <;> rfl
  | work m => exact runJob_finished _ _

/-- what an event of the subscription does to the flow control -/
theorem flow (s : St) (i : Nat) (m : Mon) (x : Ext) (hm : s.sys.mons[i]? = some m) (hx : s.ext[i]? = some x) (e : Mon.Ev) :
    (extFor s.sys.heap m i x e).calls = x.calls ∧ (extFor s.sys.heap m i x e).onHigh = x.onHigh ∧ (extFor s.sys.heap m i x e).high = x.high ∧
    (extFor s.sys.heap m i x e).low = x.low ∧ (extFor s.sys.heap m i x e).ackAt = x.ackAt ∧
    ((extFor s.sys.heap m i x e).highPending = true ↔ x.highPending = true ∨ exceeds i s (.mon e) = true) := by
  cases e with
  | post j c mb f =>
    have : ∀ y, (y = x ∨ (∃ k, y = { x with maxQueue := k }) ∨ ∃ k, y = { x with nSquash := k }) →
        y.calls = x.calls ∧ y.onHigh = x.onHigh ∧ y.high = x.high ∧ y.low = x.low ∧ y.ackAt = x.ackAt ∧ (y.highPending = true ↔ x.highPending = true ∨ exceeds i s (.mon (.post j c mb f)) = true) := by
      rintro y (rfl | ⟨k, rfl⟩ | ⟨k, rfl⟩) <;> simp [exceeds]
    apply this
    simp only [extFor]
    split
    · unfold onPost
      split
      · exact Or.inl rfl
      · split
        · exact Or.inr (Or.inl ⟨_, rfl⟩)
        · split
          · exact Or.inr (Or.inr ⟨_, rfl⟩)
          · exact Or.inl rfl
    · exact Or.inl rfl
  | finish j =>
    simp only [extFor, onFinish]
    split
    · split <;> simp [exceeds]
    · simp [exceeds]
  | work j =>
    simp only [extFor, onWork]
    split
    · split <;> simp [exceeds]
    · simp [exceeds]
  | ctl j a b d =>
    simp only [extFor]
    by_cases hj : j = i
    · subst hj
      simp only [if_true, onCtl]
      split
      · rename_i h
        refine ⟨rfl, rfl, rfl, rfl, rfl, ?_⟩
        have : exceeds j s (.mon (.ctl j a b d)) = false := by
          cases a with
          | none => rfl
          | some n =>
            simp only [exceeds, hm, hx]
            rcases h with h | h | h <;> simp [h]
        simp [this]
      · rename_i h
        have h1 : m.state = .idle ∨ m.state = .executing := by cases e : m.state <;> simp_all
        have h2 : m.closing = false := by cases e : m.closing; rfl; exact absurd (Or.inr (Or.inl e)) h
        cases a with
        | none => simp [exceeds]
        | some n =>
          simp only
          split
          · rename_i h3
            simp only [Bool.and_eq_true, Bool.not_eq_true', decide_eq_true_eq] at h3
            refine ⟨rfl, rfl, rfl, rfl, rfl, ?_⟩
            have : exceeds j s (.mon (.ctl j (some n) b d)) = true := by
              rcases h1 with h1 | h1 <;> simp [exceeds, hm, hx, h1, h2, h3]
            simp [this]
          · rename_i h3
            refine ⟨rfl, rfl, rfl, rfl, rfl, ?_⟩
            simp only [exceeds, hm, hx, beq_self_eq_true, Bool.true_and]
            cases hp : x.highPending
            · simp only [hp, Bool.not_false, Bool.and_true] at h3
              simp only [Bool.and_eq_true, Bool.or_eq_true, beq_iff_eq, Bool.not_eq_true', decide_eq_true_eq, not_and] at h3 ⊢
              simp only [Bool.false_eq_true, false_or, false_iff]
              rintro ⟨⟨⟨⟨_, k1⟩, k2⟩, k3⟩, k4⟩
              simp_all
            · simp
    · have : exceeds i s (.mon (.ctl j a b d)) = false := by cases a <;> simp [exceeds, hm, hx, hj]
      simp [hj, this]
  | _ => simp [extFor, exceeds]

def pend (i : Nat) (s : St) : Nat := match s.ext[i]? with
  | some x => if x.highPending then 1 else 0
  | none => 0

theorem high_step (A : Nat → AckAny) (s : St) (hw : Wf s) (i : Nat) (e : Ev) :
    highCalls i (step A s e) + pend i (step A s e) ≤ highCalls i s + pend i s + (if exceeds i s e then 1 else 0) := by
  cases hm : s.sys.mons[i]? with
  | none =>
    have hx := none_ext hw hm
    rcases new_step A s hw i hm e with ⟨h1, h2⟩ | ⟨p, n, q, mask, _, h1, h2⟩ <;> simp [highCalls, pend, h2, hx]
  | some m =>
    obtain ⟨x, hx⟩ := some_ext hw hm
    by_cases he : ∃ e', e = .mon e'
    · obtain ⟨e', rfl⟩ := he
      have h2 : (step A s (.mon e')).ext[i]? = some (extFor s.sys.heap m i x e') := extStep_get A s i m x hm hx e'
      obtain ⟨f1, _, _, _, _, f2⟩ := flow s i m x hm hx e'
      simp only [highCalls, pend, h2, hx, f1]
      by_cases h3 : (extFor s.sys.heap m i x e').highPending = true
      · rw [if_pos h3]
        rcases f2.mp h3 with h | h
        · rw [if_pos h]; omega
        · rw [if_pos h]; omega
      · rw [if_neg h3]; omega
    · have he' : ∀ e', e ≠ .mon e' := fun e' h => he ⟨e', h⟩
      obtain ⟨_, x', h2, _, h3, h4, _⟩ := other_step A s i m x hm hx e he'
      simp only [highCalls, pend, h2, hx, h3, h4]
      by_cases hr : e = .runHigh i
      · simp only [hr, true_and, decide_true, Bool.not_true, Bool.and_false, Bool.false_eq_true, if_false]
        by_cases hp : x.highPending = true
        · simp only [hp, true_and, if_true]; split <;> omega
        · simp [hp]
      · simp [hr]

/-- C105: the application is told that the level is exceeded only if it is: at most once for each acknowledgement from the client by which the level is exceeded. -/
theorem C105_told_only (A : Nat → AckAny) (es : List Ev) (i : Nat) : highCalls i (run A {} es) ≤ exceedCount A i {} es := by
  have key : ∀ (es : List Ev) (s : St), Wf s → highCalls i (run A s es) + pend i (run A s es) ≤ highCalls i s + pend i s + exceedCount A i s es := by
    intro es
    induction es with
    | nil => intro s _; exact Nat.le_refl _
    | cons e es ih =>
      intro s hw
      have h1 := high_step A s hw i e
      have h2 := ih (step A s e) (wf_step A s e hw)
      simp only [run, List.foldl_cons, exceedCount] at h2 ⊢
      omega
  have := key es {} wf_start
  have h0 : highCalls i {} = 0 := rfl
  have h1 : pend i {} = 0 := rfl
  omega

/-- the application is about to be told -/
def Due (i k : Nat) (s : St) : Prop := Wf s ∧ ∃ m x, s.sys.mons[i]? = some m ∧ s.ext[i]? = some x ∧ x.highPending = true ∧ x.onHigh = true ∧ m.finished = false ∧
  x.calls.count .high = k

theorem due_step (A : Nat → AckAny) (i k : Nat) (s : St) (e : Ev) (h : Due i k s) (h1 : e ≠ .runHigh i) (h2 : e ≠ .mon (.finish i)) : Due i k (step A s e) := by
  obtain ⟨hw, m, x, hm, hx, a, b, c, d⟩ := h
  refine ⟨wf_step A s e hw, ?_⟩
  by_cases he : ∃ e', e = .mon e'
  · obtain ⟨e', rfl⟩ := he
    obtain ⟨m', g1, g2⟩ := Mon.step_acts hm e'
    obtain ⟨f1, f2, _, _, _, f3⟩ := flow s i m x hm hx e'
    refine ⟨m', _, g1, extStep_get A s i m x hm hx e', f3.mpr (Or.inl a), f2.trans b, (finished_same g2 (fun h => h2 (by rw [h]))).trans c, by rw [f1]; exact d⟩
  · obtain ⟨g1, x', g2, _, g3, g4, g5, _⟩ := other_step A s i m x hm hx e (fun e' h => he ⟨e', h⟩)
    refine ⟨m, x', by rw [g1]; exact hm, g2, by rw [g4, a]; simp [h1], g5 b, c, by rw [g3, d]; simp [h1]⟩

/-- C105: when the client acknowledges, so that the level is exceeded, the application is told: by the next of the dispatched calls, unless the subscription is finished before. -/
theorem C105_told (A : Nat → AckAny) (pre mid : List Ev) (i : Nat) (e : Ev) (he : exceeds i (run A {} pre) e = true) (h1 : .runHigh i ∉ mid) (h2 : .mon (.finish i) ∉ mid) :
    highCalls i (run A {} (pre ++ e :: (mid ++ [.runHigh i]))) = highCalls i (run A {} pre) + 1 := by
  have hw := wf_run A pre {} wf_start
  have hd : Due i (highCalls i (run A {} pre)) (step A (run A {} pre) e) := by
    generalize run A {} pre = s at he hw
    unfold exceeds at he
    split at he
    · rename_i j n b d m x hm hx
      simp only [Bool.and_eq_true, beq_iff_eq, Bool.not_eq_true', Bool.or_eq_true, decide_eq_true_eq] at he
      obtain ⟨⟨⟨⟨⟨⟨rfl, k1⟩, k2⟩, k3⟩, k4⟩, k5⟩, k6⟩ := he
      obtain ⟨m', g1, g2⟩ := Mon.step_acts hm (.ctl j (some n) b d)
      obtain ⟨f1, f2, _, _, _, f3⟩ := flow s j m x hm hx (.ctl j (some n) b d)
      refine ⟨wf_step A s _ hw, m', _, g1, extStep_get A s j m x hm hx (.ctl j (some n) b d), f3.mpr (Or.inr ?_), f2.trans k6, (finished_same g2 (by simp)).trans k4, ?_⟩
      · rcases k1 with k1 | k1 <;> simp [exceeds, hm, hx, k1, k2, k3, k4, k5, k6]
      · rw [f1]; simp [highCalls, hx]
    · cases he
  have key : ∀ (mid : List Ev) (s : St) (k : Nat), Due i k s → .runHigh i ∉ mid → .mon (.finish i) ∉ mid → Due i k (run A s mid) := by
    intro mid
    induction mid with
    | nil => intro s k h _ _; exact h
    | cons a mid ih =>
      intro s k h g1 g2
      exact ih _ _ (due_step A i k s a h (fun h => g1 (by rw [h]; simp)) (fun h => g2 (by rw [h]; simp))) (fun h => g1 (List.mem_cons_of_mem _ h))
        (fun h => g2 (List.mem_cons_of_mem _ h))
  obtain ⟨_, m, x, hm, hx, a, b, c, d⟩ := key mid _ _ hd h1 h2
  have e1 : run A {} (pre ++ e :: (mid ++ [.runHigh i])) = step A (run A (step A (run A {} pre) e) mid) (.runHigh i) := by simp [run, List.foldl_append]
  rw [e1]
  obtain ⟨_, x', g2, _, g3, _⟩ := other_step A _ i m x hm hx (.runHigh i) (by simp)
  simp only [highCalls, g2]
  rw [g3, d]
  simp [a, b, c, highCalls]

/-! ### the levels -/

theorem ack_plain (a : AckAny) (h : ∀ n d, a ≠ .percent n d) (limit : Nat) : serverAckAt a limit = 1 := by
  cases a with
  | percent n d => exact absurd rfl (h n d)
  | none => simp only [serverAckAt, orCount, clampAck]; simp; omega
  | count n => simp only [serverAckAt, orCount, clampAck]; simp; omega

/-- C105 does not hold: unless the client asks for a percentage, setWatermarks() has no effect, the levels are always 0. -/
theorem C105_levels_void (A : Nat → AckAny) (es : List Ev) (i : Nat) (h : ∀ n d, A i ≠ .percent n d) (x : Ext) (hx : (run A {} es).ext[i]? = some x) :
    x.high = 0 ∧ x.low = 0 := by
  have key : ∀ (es : List Ev) (s : St), Wf s → (∀ x, s.ext[i]? = some x → x.ackAt ≤ 1 ∧ x.high = 0 ∧ x.low = 0) →
      ∀ x, (run A s es).ext[i]? = some x → x.ackAt ≤ 1 ∧ x.high = 0 ∧ x.low = 0 := by
    intro es
    induction es with
    | nil => intro s _ h; exact h
    | cons e es ih =>
      intro s hw hs
      refine ih (step A s e) (wf_step A s e hw) ?_
      intro x' hx'
      cases hm : s.sys.mons[i]? with
      | none =>
        rcases new_step A s hw i hm e with ⟨_, h2⟩ | ⟨p, n, q, mask, _, _, h2⟩
        · rw [h2] at hx'; cases hx'
        · rw [h2] at hx'; injection hx' with hx'; subst hx'
          exact ⟨by rw [ack_plain _ h]; exact Nat.le_refl _, rfl, rfl⟩
      | some m =>
        obtain ⟨x, hx⟩ := some_ext hw hm
        obtain ⟨q1, q2, q3⟩ := hs x hx
        by_cases he : ∃ e', e = .mon e'
        · obtain ⟨e', rfl⟩ := he
          have h2 : (step A s (.mon e')).ext[i]? = some (extFor s.sys.heap m i x e') := extStep_get A s i m x hm hx e'
          rw [h2] at hx'; injection hx' with hx'; subst hx'
          obtain ⟨_, _, f3, f4, f5, _⟩ := flow s i m x hm hx e'
          exact ⟨by rw [f5]; exact q1, f3.trans q2, f4.trans q3⟩
        · obtain ⟨_, x'', g2, _, _, _, _, g6, g7⟩ := other_step A s i m x hm hx e (fun e' h => he ⟨e', h⟩)
          rw [g2] at hx'; injection hx' with hx'; subst hx'
          have := g7 ⟨q1, q2, q3⟩
          exact ⟨by rw [g6]; exact q1, this⟩
  exact (key es {} wf_start (by intro x h; simp at h) x hx).2

theorem limit_same {i : Nat} {s : Sys} {e : Mon.Ev} {m m' : Mon} (h : Acts i s e m m') : m'.limit = m.limit := by
  cases h with
  | same => rfl
  | setup ok m => unfold Mon.Mon.setup; split <;> rfl
  | push => exact (Mon.maybeReply_fields _).2.2.2.2.1
  | poke => exact (Mon.maybeReply_fields _).2.2.2.2.1
  | finish m =>
    unfold Mon.Mon.finish
    split
    · rfl
    · exact (Mon.maybeReply_fields _).2.2.2.2.1
  | ctl a b d m =>
    rcases Mon.ctl_cases m a b d with ⟨h, _⟩ | ⟨_, h⟩ | ⟨_, c, h⟩
    · rw [h]
    · rw [h]; unfold Mon.Mon.cleanup; split <;> rfl
    · rw [h]; simp only; rw [(Mon.startStop_fields _ _).2.2.2.1, (Mon.ack_fields _ _).2.2.2.2.2.1]
  | cancel m => unfold Mon.Mon.cancel; split <;> rfl
  | close m => unfold Mon.Mon.cleanup; split <;> rfl
  | work m =>
    rcases Mon.runJob_sends s.heap m with ⟨h, _⟩ | ⟨_, h⟩
    · rw [h]
    · cases h with
      | nothing h => rw [h]
      | junk0 _ _ h => rw [h]
      | data c q hq _ _ h =>
        rw [h]
        exact (Mon.again_fields _).2.2.2.2.1.trans (Mon.consume_fields _).2.2.2.2.2.1
      | final q hq _ h => rw [h]
      | junk q hq _ h => rw [h]

theorem ackAt_run (A : Nat → AckAny) (es : List Ev) (i : Nat) (m : Mon) (x : Ext) (hm : (run A {} es).sys.mons[i]? = some m)
    (hx : (run A {} es).ext[i]? = some x) : x.ackAt = serverAckAt (A i) m.limit := by
  have key : ∀ (es : List Ev) (s : St), Wf s → (∀ m x, s.sys.mons[i]? = some m → s.ext[i]? = some x → x.ackAt = serverAckAt (A i) m.limit) →
      ∀ m x, (run A s es).sys.mons[i]? = some m → (run A s es).ext[i]? = some x → x.ackAt = serverAckAt (A i) m.limit := by
    intro es
    induction es with
    | nil => intro s _ h; exact h
    | cons e es ih =>
      intro s hw hs
      refine ih (step A s e) (wf_step A s e hw) ?_
      intro m' x' hm' hx'
      cases hm : s.sys.mons[i]? with
      | none =>
        rcases new_step A s hw i hm e with ⟨_, h2⟩ | ⟨p, n, q, mask, _, h1, h2⟩
        · rw [h2] at hx'; cases hx'
        · rw [h2] at hx'; rw [h1] at hm'; injection hx' with hx'; injection hm' with hm'; subst hx'; subst hm'; rfl
      | some m =>
        obtain ⟨x, hx⟩ := some_ext hw hm
        have h0 := hs m x hm hx
        by_cases he : ∃ e', e = .mon e'
        · obtain ⟨e', rfl⟩ := he
          have h2 : (step A s (.mon e')).ext[i]? = some (extFor s.sys.heap m i x e') := extStep_get A s i m x hm hx e'
          rw [h2] at hx'; injection hx' with hx'; subst hx'
          obtain ⟨m1, g1, g2⟩ := Mon.step_acts hm e'
          have g1 : (step A s (.mon e')).sys.mons[i]? = some m1 := g1
          rw [g1] at hm'; injection hm' with hm'; subst hm'
          rw [(flow s i m x hm hx e').2.2.2.2.1, limit_same g2]
          exact h0
        · obtain ⟨g1, x'', g2, _, _, _, _, g6, _⟩ := other_step A s i m x hm hx e (fun e' h => he ⟨e', h⟩)
          rw [g2] at hx'; injection hx' with hx'; subst hx'
          rw [g1, hm] at hm'; injection hm' with hm'; subst hm'
          rw [g6]; exact h0
  exact key es {} wf_start (by intro m x h; simp at h) m x hm hx

/-- C105: setWatermarks() sets the levels asked for, as far as they are below that at which the server takes the client to acknowledge.  It does not if low is above high.
Not proved, and false (C105_levels_void, C105_stalls): the server knows that number. -/
theorem C105_levels_partial (A : Nat → AckAny) (es : List Ev) (i : Nat) (m : Mon) (x : Ext) (hm : (run A {} es).sys.mons[i]? = some m)
    (hx : (run A {} es).ext[i]? = some x) (low high : Nat) :
    ∃ x', (run A {} (es ++ [.setWatermarks i low high])).ext[i]? = some x' ∧
      (high < low → x' = x) ∧ (low ≤ high → high < serverAckAt (A i) m.limit → x' = { x with low := low, high := high }) := by
  have e1 : run A {} (es ++ [.setWatermarks i low high]) = step A (run A {} es) (.setWatermarks i low high) := by simp [run, List.foldl_append]
  have h0 := ackAt_run A es i m x hm hx
  rw [e1]
  simp only [step]
  by_cases h : low ≤ high
  · rw [if_pos h]
    refine ⟨_, modify_keep _ _ _ _ _ hx, fun h' => by omega, fun _ h2 => ?_⟩
    rw [if_pos rfl, levels, h0]
    have a1 : min low (serverAckAt (A i) m.limit - 1) = low := by omega
    have a2 : min high (serverAckAt (A i) m.limit - 1) = high := by omega
    rw [a1, a2]
  · rw [if_neg h]
    exact ⟨x, hx, fun _ => rfl, fun h' => absurd h' h⟩

example : serverAckAt (.percent 50 1) 4 = 4 := by decide

theorem percent_all (n size den : Nat) (h2 : den ≤ n) (hd : 0 < den) : size ≤ n * size / den := by
  rw [Nat.le_div_iff_mul_le hd, Nat.mul_comm]
  exact Nat.mul_le_mul_right _ h2

/-- C105 does not hold: 1 percent, or any more, is taken for all of the queue, by server and client. -/
theorem C105_percent (num : Int) (den size : Nat) (hd : 0 < den) (hs : 0 < size) (h1 : den ≤ num) (h2 : num ≤ 100 * den) :
    serverAckAt (.percent num den) size = size ∧ clientAckAt (.percent num den) size = size := by
  have hb := percent_all num.toNat size den (by omega) hd
  have e1 : (max 0 (min num (100 * (den : Int)))).toNat = num.toNat := by omega
  have hp : 0 < num ∧ num ≤ 100 * den := by omega
  constructor
  · simp only [serverAckAt, e1, orCount, clampAck]
    rw [if_neg (by omega : ¬ num.toNat * size / den = 0), if_neg (by omega : ¬ num.toNat * size / den = 0)]
    omega
  · simp only [clientAckAt, if_pos hp, orCount, clampAck]
    rw [if_neg (by omega : ¬ num.toNat * size / den = 0), if_neg (by omega : ¬ num.toNat * size / den = 0)]
    omega

/-- C105: other than with a percentage, the client acknowledges after as many updates as it was asked for. -/
theorem C105_count (a : AckAny) (h : ∀ n d, a ≠ .percent n d) (size : Nat) : clientAckAt a size = ackAfter a size := by
  cases a with
  | percent n d => exact absurd rfl (h n d)
  | none => simp [clientAckAt, orCount, clampAck, ackAfter]
  | count n => by_cases hn : n = 0 <;> simp [clientAckAt, orCount, clampAck, ackAfter, hn]

/-- C105: the level is at most what one acknowledgement of the client allows for, less one, so that it is exceeded by one, unless more than 100 percent were asked for. -/
theorem C105_reachable_partial (a : AckAny) (h : ∀ n d, a = .percent n d → n ≤ 100 * d) (size : Nat) : serverAckAt a size ≤ clientAckAt a size := by
  cases a with
  | none => rw [ack_plain _ (by simp)]; simp only [clientAckAt, clampAck]; omega
  | count n => rw [ack_plain _ (by simp)]; simp only [clientAckAt, clampAck]; omega
  | percent n d =>
    have h := h n d rfl
    simp only [serverAckAt, clientAckAt, orCount]
    by_cases hn : 0 < n
    · rw [if_pos (⟨hn, h⟩ : 0 < n ∧ n ≤ 100 * d)]
      have e1 : (max 0 (min n (100 * (d : Int)))).toNat = n.toNat := by omega
      rw [e1]
      exact Nat.le_refl _
    · have e1 : (max 0 (min n (100 * (d : Int)))).toNat = 0 := by omega
      rw [e1]
      have e2 : ¬ (0 < n ∧ n ≤ 100 * (d : Int)) := fun hh => hn hh.1
      simp only [if_neg e2]
      simp

/-- C105 does not hold: with "200%" and a queue of 4 the client acknowledges after 2 updates, and the level may be 3: an application which waits for it to be exceeded waits forever
if it has filled the window. -/
theorem C105_stalls : clientAckAt (.percent 200 1) 4 = 2 ∧ (levels 0 3 { ackAt := serverAckAt (.percent 200 1) 4 }).high = 3 := by decide

/-! ### concrete cases -/

/-- the statistics of subscription 0 -/
def shown (A : Nat → AckAny) (es : List Ev) : Option Stat :=
  match (run A {} es).sys.mons[0]?, (run A {} es).ext[0]? with
  | some m, some x => some (statsOf m x {})
  | _, _ => none

/-- two updates wait, a third was combined with the second -/
def exRun : List Ev :=
  [.mon (.value [some 1]), .mon (.value [some 2]), .mon (.value [some 3]), .mon (.subscribe false 0 (some 2) [true]), .mon (.setup 0 true),
   .mon (.post 0 0 false false), .mon (.post 0 1 false false), .mon (.post 0 2 false false)]

/-- C105 does not hold: two updates wait, reported is one, which is the number of those combined; and none was combined, it is reported. -/
theorem C105_misreported : waiting 0 (run (fun _ => .none) {} exRun) = 2 ∧ combinedCount (fun _ => .none) 0 {} exRun = 1 ∧
    (shown (fun _ => .none) exRun).map (fun t => (t.nQueue, t.nSquash, t.maxQueue, t.limitQueue)) = some (1, 0, 2, 2) := by decide +kernel

/-- C105 does not hold: after a reset the maximum reported may be less than what waits. -/
theorem C105_reset : waiting 0 (run (fun _ => .none) {} (exRun ++ [.stats 0 true])) = 2 ∧
    (shown (fun _ => .none) (exRun ++ [.stats 0 true])).map (fun t => t.maxQueue) = some 0 := by decide +kernel

example : (shown (fun _ => .none) (exRun ++ [.stats 0 true, .mon (.value [some 4]), .mon (.post 0 3 false false)])).map (fun t => t.nQueue) = some 1 := by decide +kernel

/-- a client which acknowledges after 3 updates, as it was asked to; the application wants to be told when more than 2 can be sent -/
def exHigh : List Ev :=
  [.mon (.subscribe true 4 (some 4) [true]), .mon (.setup 0 true), .setWatermarks 0 0 2, .onHighMark 0, .mon (.ctl 0 none (some true) false)] ++
  [.mon (.value [some 1]), .mon (.post 0 0 false false), .mon (.value [some 1]), .mon (.post 0 1 false false), .mon (.value [some 1]), .mon (.post 0 2 false false),
   .mon (.value [some 1]), .mon (.post 0 3 false false), .mon (.work 0), .mon (.work 0), .mon (.work 0), .mon (.work 0)]

/-- C105 does not hold: an acknowledgement of one update, of which the level 2 is not exceeded; the application is told that it is. -/
theorem C105_early : (run (fun _ => .count 3) {} (exHigh ++ [.mon (.ctl 0 (some 1) none false)])).sys.mons[0]?.map (·.window) = some 1 ∧
    highCalls 0 (run (fun _ => .count 3) {} (exHigh ++ [.mon (.ctl 0 (some 1) none false), .runHigh 0])) = 1 := by decide +kernel

example : exceeds 0 (run (fun _ => .count 3) {} exHigh) (.mon (.ctl 0 (some 3) none false)) = true ∧
    exceedCount (fun _ => .count 3) 0 {} (exHigh ++ [.mon (.ctl 0 (some 3) none false)]) = 1 := by decide +kernel
example : postResult (run (fun _ => .none) {} (exRun.take 5)).sys 0 0 false false = true ∧ postResult (run (fun _ => .none) {} (exRun.take 6)).sys 0 1 false false = false := by
  decide +kernel
/-- the other callback is called, although said not to be implemented -/
example : ((run (fun _ => .none) {} (exHigh.take 3 ++ [.onLowMark 0] ++ exHigh.drop 3 ++ [.runLow 0])).ext[0]?.map (·.calls)) = some [.low] := by decide +kernel

end Pvxs.Props.MonStat
