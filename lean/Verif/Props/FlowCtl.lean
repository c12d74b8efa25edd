import Verif.Spec.FlowCtl
/-
C93: a client which reads slowly.
-/
namespace Pvxs.Props.FlowCtl
open Pvxs Pvxs.FlowCtl Pvxs.Spec.FlowCtl

theorem upd_same {α : Type} (f : Nat → α) (i : Nat) (v : α) : upd f i v i = v := by simp [upd]
theorem upd_other {α : Type} (f : Nat → α) (i j : Nat) (v : α) (h : j ≠ i) : upd f i v j = f j := by simp [upd, h]

/-- somebody is going to call doReply(i) -/
def Pending (i : Nat) (s : St) : Prop := i ∈ s.backlog ∨ Job.fresh i ∈ s.jobs ∨ Job.again i ∈ s.jobs

structure Inv (c : Cfg) (os : List Op) (s : St) : Prop where
  on : s.reading = true → s.backlog = [] ∧ s.low = 0
  off : s.reading = false → s.low = c.limit / 2 ∧ (s.low < s.tx ∨ s.wcb = true)
  due : ∀ i, s.queue i ≠ [] → s.scheduled i = true
  pend : ∀ i, s.scheduled i = true → Pending i s
  last : ∀ i, (sentTo i s ++ s.queue i).getLast? = (posted i os).getLast?
  sub : ∀ i, List.Sublist (sentTo i s ++ s.queue i) (posted i os)

theorem inv_start (c : Cfg) : Inv c [] {} :=
  ⟨fun _ => ⟨rfl, rfl⟩, (fun h => nomatch h), fun _ h => absurd rfl h, (fun _ h => nomatch h), fun _ => rfl, fun _ => List.Sublist.refl _⟩

/-- what doReply() keeps -/
structure Kept (c : Cfg) (i : Nat) (s s' : St) : Prop where
  reading : s'.reading = s.reading
  low : s'.low = s.low
  wcb : s'.wcb = s.wcb
  tx : s.tx ≤ s'.tx
  backlog : s'.backlog = s.backlog
  jobs : ∀ j, j ∈ s.jobs → j ∈ s'.jobs
  all : ∀ j, sentTo j s' ++ s'.queue j = sentTo j s ++ s.queue j
  sched : ∀ j, j ≠ i → s'.scheduled j = s.scheduled j
  due : ∀ j, j ≠ i → s'.queue j = s.queue j
  this : (s'.queue i = [] ∧ s'.scheduled i = false) ∨ (s'.scheduled i = true ∧ Job.again i ∈ s'.jobs)

theorem sentTo_snoc (i : Nat) (s s' : St) (j u : Nat) (h : s'.sent = s.sent ++ [(j, u)]) : sentTo i s' = sentTo i s ++ if j = i then [u] else [] := by
  unfold sentTo
  rw [h, List.filterMap_append]
  congr 1
  by_cases e : j = i <;> simp [e]

theorem doReply_kept (c : Cfg) (i : Nat) (s : St) : Kept c i s (doReply c i s) := by
  unfold doReply
  cases hq : s.queue i with
  | nil =>
    refine ⟨rfl, rfl, rfl, Nat.le_refl _, rfl, fun _ h => h, fun _ => rfl, fun j h => upd_other _ _ _ _ h, fun _ _ => rfl, .inl ⟨hq, upd_same _ _ _⟩⟩
  | cons u q =>
    simp only
    have ha : ∀ j, (sentTo j s ++ if i = j then [u] else []) ++ upd s.queue i q j = sentTo j s ++ s.queue j := by
      intro j
      by_cases e : i = j
      · subst e; simp [upd_same, hq]
      · rw [upd_other _ _ _ _ (fun h => e h.symm)]; simp [e]
    split
    · rename_i he
      rw [List.isEmpty_iff] at he
      refine ⟨rfl, rfl, rfl, Nat.le_add_right _ _, rfl, fun _ h => h, fun j => ?_, fun j h => upd_other _ _ _ _ h, fun j h => upd_other _ _ _ _ h, .inl ⟨?_, upd_same _ _ _⟩⟩
      · rw [sentTo_snoc j s _ i u rfl]; exact ha j
      · show upd s.queue i q i = []
        rw [upd_same, he]
    · refine ⟨rfl, rfl, rfl, Nat.le_add_right _ _, rfl, fun _ h => List.mem_append_left _ h, fun j => ?_, fun j h => ?_, fun j h => upd_other _ _ _ _ h, .inr ⟨upd_same _ _ _, by simp⟩⟩
      · rw [sentTo_snoc j s _ i u rfl]; exact ha j
      · show upd (upd s.scheduled i false) i true j = _
        rw [upd_other _ _ _ _ h, upd_other _ _ _ _ h]

/-- the invariant, while somebody who was to call doReply() of those in `l` is no longer counted -/
structure Part (c : Cfg) (os : List Op) (l : List Nat) (s : St) : Prop where
  due : ∀ i, s.queue i ≠ [] → s.scheduled i = true
  pend : ∀ i, s.scheduled i = true → i ∈ l ∨ Job.fresh i ∈ s.jobs ∨ Job.again i ∈ s.jobs
  last : ∀ i, (sentTo i s ++ s.queue i).getLast? = (posted i os).getLast?
  sub : ∀ i, List.Sublist (sentTo i s ++ s.queue i) (posted i os)

theorem doReply_part {c : Cfg} {os : List Op} {i : Nat} {l : List Nat} {s : St} (h : Part c os (i :: l) s) : Part c os l (doReply c i s) := by
  have k := doReply_kept c i s
  constructor
  · intro j hj
    by_cases e : j = i
    · subst e
      rcases k.this with ⟨h1, _⟩ | ⟨h1, _⟩
      · exact absurd h1 hj
      · exact h1
    · rw [k.sched j e]
      exact h.due j (by rwa [k.due j e] at hj)
  · intro j hj
    by_cases e : j = i
    · subst e
      rcases k.this with ⟨_, h1⟩ | ⟨_, h1⟩
      · rw [h1] at hj; cases hj
      · exact .inr (.inr h1)
    · rw [k.sched j e] at hj
      rcases h.pend j hj with h1 | h1 | h1
      · rcases List.mem_cons.1 h1 with h1 | h1
        · exact absurd h1 e
        · exact .inl h1
      · exact .inr (.inl (k.jobs _ h1))
      · exact .inr (.inr (k.jobs _ h1))
  · intro j; rw [k.all]; exact h.last j
  · intro j; rw [k.all]; exact h.sub j

theorem loop_part {c : Cfg} {os : List Op} (l : List Nat) (s : St) (h : Part c os l s) :
    Part c os (backlogLoop c l s).backlog (backlogLoop c l s) ∧ ((backlogLoop c l s).backlog = [] ∨ c.limit ≤ (backlogLoop c l s).tx) ∧
    (backlogLoop c l s).reading = s.reading ∧ (backlogLoop c l s).low = s.low ∧ s.tx ≤ (backlogLoop c l s).tx ∧ (backlogLoop c l s).wcb = s.wcb := by
  induction l generalizing s with
  | nil => exact ⟨⟨h.due, h.pend, h.last, h.sub⟩, .inl rfl, rfl, rfl, Nat.le_refl _, rfl⟩
  | cons i l ih =>
    unfold backlogLoop
    split
    · have k := doReply_kept c i s
      obtain ⟨a, b, d, e, f, g⟩ := ih _ (doReply_part h)
      exact ⟨a, b, d.trans k.reading, e.trans k.low, Nat.le_trans k.tx f, g.trans k.wcb⟩
    · rename_i hn
      exact ⟨⟨h.due, h.pend, h.last, h.sub⟩, .inr (by simpa using hn), rfl, rfl, Nat.le_refl _, rfl⟩

theorem posted_snoc (i : Nat) (os : List Op) (o : Op) : posted i (os ++ [o]) = posted i os ++ posted i [o] := by
  unfold posted
  exact List.filterMap_append

theorem getLast?_snoc (l : List Nat) (u : Nat) : (l ++ [u]).getLast? = some u := by simp

theorem step_inv {c : Cfg} {os : List Op} {s : St} (hc : 0 < c.limit) (h : Inv c os s) (o : Op) : Inv c (os ++ [o]) (step c s o) := by
  have same : (∀ i u, o ≠ .post i u) → ∀ i, posted i (os ++ [o]) = posted i os := by
    intro hn i
    rw [posted_snoc]
    cases o with
    | post j u => exact absurd rfl (hn j u)
    | _ => simp [posted]
  cases o with
  | recv r =>
    have sm := same (by intro i u e; cases e)
    simp only [step]
    unfold bevRead
    split
    · rename_i hr
      simp only
      split
      · rename_i hl
        refine ⟨fun e => (nomatch e), fun _ => ⟨rfl, .inl ?_⟩, h.due, ?_, fun i => by rw [sm]; exact h.last i, fun i => by rw [sm]; exact h.sub i⟩
        · simp only at hl ⊢; omega
        · exact fun i hi => h.pend i hi
      · refine ⟨h.on, fun e => ?_, h.due, h.pend, fun i => by rw [sm]; exact h.last i, fun i => by rw [sm]; exact h.sub i⟩
        change s.reading = false at e
        rw [hr] at e; cases e
    · exact ⟨h.on, h.off, h.due, h.pend, fun i => by rw [sm]; exact h.last i, fun i => by rw [sm]; exact h.sub i⟩
  | wrote k =>
    have sm := same (by intro i u e; cases e)
    simp only [step]
    unfold wrote
    split
    · rename_i hk
      simp only
      split
      · exact ⟨h.on, fun e => ⟨(h.off e).1, .inr rfl⟩, h.due, h.pend, fun i => by rw [sm]; exact h.last i, fun i => by rw [sm]; exact h.sub i⟩
      · rename_i hl
        exact ⟨h.on, fun e => ⟨(h.off e).1, .inl (by simp only at hl ⊢; omega)⟩, h.due, h.pend, fun i => by rw [sm]; exact h.last i, fun i => by rw [sm]; exact h.sub i⟩
    · exact ⟨h.on, h.off, h.due, h.pend, fun i => by rw [sm]; exact h.last i, fun i => by rw [sm]; exact h.sub i⟩
  | callback =>
    have sm := same (by intro i u e; cases e)
    simp only [step]
    unfold bevWrite
    split
    · simp only
      obtain ⟨p, q, r, e, f, g⟩ := loop_part (c := c) (os := os) s.backlog { s with wcb := false } ⟨h.due, h.pend, h.last, h.sub⟩
      split
      · rename_i hl
        have hb : (backlogLoop c s.backlog { s with wcb := false }).backlog = [] := by rcases q with q | q; exact q; omega
        exact ⟨fun _ => ⟨hb, rfl⟩, fun x => (nomatch x), p.due, p.pend, fun i => by rw [sm]; exact p.last i, fun i => by rw [sm]; exact p.sub i⟩
      · rename_i hl
        refine ⟨fun x => ?_, fun x => ?_, p.due, p.pend, fun i => by rw [sm]; exact p.last i, fun i => by rw [sm]; exact p.sub i⟩
        · rw [r] at x
          have h1 := h.on x
          rw [e]
          refine ⟨?_, h1.2⟩
          rw [h1.1]
          rfl
        · rw [r] at x
          have h1 := h.off x
          rw [e]
          refine ⟨h1.1, .inl ?_⟩
          have h2 := h1.1
          have h3 := Nat.le_of_not_lt hl
          show s.low < (backlogLoop c s.backlog { s with wcb := false }).tx
          exact Nat.lt_of_lt_of_le (h2 ▸ Nat.div_lt_self hc (by decide)) h3
    · exact ⟨h.on, h.off, h.due, h.pend, fun i => by rw [sm]; exact h.last i, fun i => by rw [sm]; exact h.sub i⟩
  | job =>
    have sm := same (by intro i u e; cases e)
    simp only [step]
    unfold doJob
    have direct : ∀ i js, (Job.fresh i :: js = s.jobs ∨ Job.again i :: js = s.jobs) → Inv c (os ++ [.job]) (doReply c i { s with jobs := js }) := by
      intro i js hj
      have k := doReply_kept c i { s with jobs := js }
      have p : Part c os (i :: s.backlog) { s with jobs := js } := by
        refine ⟨h.due, ?_, h.last, h.sub⟩
        intro j hs
        rcases h.pend j hs with h1 | h1 | h1
        · exact .inl (List.mem_cons_of_mem _ h1)
        · rcases hj with hj | hj <;> rw [← hj] at h1 <;> rcases List.mem_cons.1 h1 with h2 | h2
          · injection h2 with h2; exact .inl (by simp [h2])
          · exact .inr (.inl h2)
          · cases h2
          · exact .inr (.inl h2)
        · rcases hj with hj | hj <;> rw [← hj] at h1 <;> rcases List.mem_cons.1 h1 with h2 | h2
          · cases h2
          · exact .inr (.inr h2)
          · injection h2 with h2; exact .inl (by simp [h2])
          · exact .inr (.inr h2)
      have p2 := doReply_part p
      refine ⟨fun x => ?_, fun x => ?_, p2.due, ?_, fun i => by rw [sm]; exact p2.last i, fun i => by rw [sm]; exact p2.sub i⟩
      · rw [k.reading] at x
        rw [k.backlog, k.low]
        exact h.on x
      · rw [k.reading] at x
        have h1 := h.off x
        rw [k.low, k.wcb]
        refine ⟨h1.1, ?_⟩
        rcases h1.2 with h2 | h2
        · exact .inl (Nat.lt_of_lt_of_le h2 k.tx)
        · exact .inr h2
      · intro j hj
        have := p2.pend j hj
        show j ∈ (doReply c i { s with jobs := js }).backlog ∨ _
        rw [k.backlog]
        exact this
    cases hj : s.jobs with
    | nil => exact ⟨h.on, h.off, h.due, h.pend, fun i => by rw [sm]; exact h.last i, fun i => by rw [sm]; exact h.sub i⟩
    | cons j js =>
      cases j with
      | again i => exact direct i js (.inr hj.symm)
      | fresh i =>
        simp only
        split
        · exact direct i js (.inl hj.symm)
        · rename_i hr
          refine ⟨fun x => absurd x hr, h.off, h.due, ?_, fun i => by rw [sm]; exact h.last i, fun i => by rw [sm]; exact h.sub i⟩
          intro n hn
          rcases h.pend n hn with h1 | h1 | h1
          · exact .inl (List.mem_append_left _ h1)
          · rw [hj] at h1
            rcases List.mem_cons.1 h1 with h2 | h2
            · injection h2 with h2; exact .inl (by simp [h2])
            · exact .inr (.inl h2)
          · rw [hj] at h1
            rcases List.mem_cons.1 h1 with h2 | h2
            · cases h2
            · exact .inr (.inr h2)
  | post i u =>
    simp only [step]
    have hp : ∀ j, posted j (os ++ [.post i u]) = posted j os ++ if i = j then [u] else [] := by
      intro j
      rw [posted_snoc]
      congr 1
      by_cases e : i = j <;> simp [posted, e]
    have key : ∀ q', (q' = s.queue i ++ [u] ∨ q' = (s.queue i).dropLast ++ [u]) →
        (∀ j, (sentTo j s ++ upd s.queue i q' j).getLast? = (posted j (os ++ [.post i u])).getLast?) ∧
        (∀ j, List.Sublist (sentTo j s ++ upd s.queue i q' j) (posted j (os ++ [.post i u]))) := by
      intro q' hq'
      refine ⟨fun j => ?_, fun j => ?_⟩
      · rw [hp]
        by_cases e : i = j
        · subst e
          rw [upd_same, if_pos rfl, getLast?_snoc]
          rcases hq' with hq' | hq' <;> rw [hq', ← List.append_assoc, getLast?_snoc]
        · rw [upd_other _ _ _ _ (fun x => e x.symm), if_neg e, List.append_nil]
          exact h.last j
      · rw [hp]
        by_cases e : i = j
        · subst e
          rw [upd_same, if_pos rfl]
          rcases hq' with hq' | hq' <;> rw [hq', ← List.append_assoc]
          · exact (h.sub i).append (List.Sublist.refl _)
          · exact ((List.Sublist.append (List.Sublist.refl _) (List.dropLast_sublist _)).trans (h.sub i)).append (List.Sublist.refl _)
        · rw [upd_other _ _ _ _ (fun x => e x.symm), if_neg e, List.append_nil]
          exact h.sub j
    unfold doPost
    simp only
    obtain ⟨k1, k2⟩ := key (if (s.queue i).length < c.room i then s.queue i ++ [u] else (s.queue i).dropLast ++ [u]) (by split; exact .inl rfl; exact .inr rfl)
    split
    · rename_i hs
      refine ⟨h.on, h.off, fun j hj => ?_, h.pend, k1, k2⟩
      by_cases e : j = i
      · subst e; exact hs
      · change upd s.queue i _ j ≠ [] at hj
        rw [upd_other _ _ _ _ e] at hj
        exact h.due j hj
    · refine ⟨h.on, h.off, fun j hj => ?_, fun j hj => ?_, k1, k2⟩
      · show upd s.scheduled i true j = true
        by_cases e : j = i
        · subst e; exact upd_same _ _ _
        · rw [upd_other _ _ _ _ e]
          change upd s.queue i _ j ≠ [] at hj
          rw [upd_other _ _ _ _ e] at hj
          exact h.due j hj
      · change upd s.scheduled i true j = true at hj
        by_cases e : j = i
        · subst e; exact .inr (.inl (by simp))
        · rw [upd_other _ _ _ _ e] at hj
          rcases h.pend j hj with h1 | h1 | h1
          · exact .inl h1
          · exact .inr (.inl (List.mem_append_left _ h1))
          · exact .inr (.inr (List.mem_append_left _ h1))

theorem run_inv (c : Cfg) (hc : 0 < c.limit) (os : List Op) : Inv c os (run c {} os) := by
  suffices ∀ (os pre : List Op) (s : St), Inv c pre s → Inv c (pre ++ os) (run c s os) by simpa using this os [] {} (inv_start c)
  intro os
  induction os with
  | nil => intro pre s h; simpa [run] using h
  | cons o os ih =>
    intro pre s h
    have := ih (pre ++ [o]) (step c s o) (step_inv hc h o)
    simpa [run, List.append_assoc] using this

/-- C93: when nothing is left to do for the server and for a client which reads, then the server reads requests again, nothing is held back,
and the last update of each subscription has been sent. -/
theorem C93_done (c : Cfg) (hc : 0 < c.limit) (os : List Op) (h : ∀ o, ¬ Ready (run c {} os) o) :
    (run c {} os).reading = true ∧ (run c {} os).backlog = [] ∧ (run c {} os).tx = 0 ∧
    ∀ i, (run c {} os).queue i = [] ∧ (sentTo i (run c {} os)).getLast? = (posted i os).getLast? := by
  have I := run_inv c hc os
  have hj : (run c {} os).jobs = [] := Classical.byContradiction (h .job)
  have hw : (run c {} os).wcb = false := by
    cases hw : (run c {} os).wcb with
    | false => rfl
    | true => exact absurd hw (h .callback)
  have ht : (run c {} os).tx = 0 := by
    rcases Nat.eq_zero_or_pos (run c {} os).tx with ht | ht
    · exact ht
    · exact absurd ⟨Nat.le_refl 1, ht⟩ (h (.wrote 1))
  have hr : (run c {} os).reading = true := by
    cases hr : (run c {} os).reading with
    | true => rfl
    | false =>
      rcases (I.off hr).2 with h1 | h1
      · omega
      · rw [hw] at h1; cases h1
  have hb := (I.on hr).1
  refine ⟨hr, hb, ht, fun i => ?_⟩
  have hq : (run c {} os).queue i = [] := by
    refine Classical.byContradiction fun hq => ?_
    rcases I.pend i (I.due i hq) with h1 | h1 | h1
    · rw [hb] at h1; cases h1
    · rw [hj] at h1; cases h1
    · rw [hj] at h1; cases h1
  refine ⟨hq, ?_⟩
  have := I.last i
  rwa [hq, List.append_nil] at this

/-- C93: at any time what was sent for a subscription is some of what was posted, in order, each at most as often as posted. -/
theorem C93_order (c : Cfg) (hc : 0 < c.limit) (os : List Op) (i : Nat) : List.Sublist (sentTo i (run c {} os)) (posted i os) :=
  (List.sublist_append_left _ _).trans ((run_inv c hc os).sub i)

/-! ### it comes to an end -/

def cost (c : Cfg) (q : List Nat) : Nat := (q.map fun u => 2 * c.size u + 4).sum
def costs (c : Cfg) (L : List Nat) (q : Nat → List Nat) : Nat := (L.map fun i => cost c (q i)).sum
def jobCost : Job → Nat
  | .fresh _ => 3
  | .again _ => 2
/-- without the backlog -/
def part (c : Cfg) (L : List Nat) (s : St) : Nat := costs c L s.queue + 2 * s.tx + (if s.wcb then 1 else 0) + (s.jobs.map jobCost).sum
def whole (c : Cfg) (L : List Nat) (s : St) : Nat := part c L s + s.backlog.length

theorem costs_not (c : Cfg) (L : List Nat) (q : Nat → List Nat) (i : Nat) (t : List Nat) (h : i ∉ L) : costs c L (upd q i t) = costs c L q := by
  unfold costs
  congr 1
  refine List.map_congr_left fun j hj => ?_
  rw [upd_other _ _ _ _ (fun (e : j = i) => h (e ▸ hj))]

theorem costs_upd (c : Cfg) (L : List Nat) (hL : L.Nodup) (q : Nat → List Nat) (i u : Nat) (t : List Nat) (hi : i ∈ L) (hq : q i = u :: t) :
    costs c L (upd q i t) + (2 * c.size u + 4) = costs c L q := by
  induction L with
  | nil => cases hi
  | cons j L ih =>
    rw [List.nodup_cons] at hL
    by_cases e : j = i
    · subst e
      have h1 : costs c (j :: L) (upd q j t) = cost c t + costs c L (upd q j t) := by simp [costs, upd_same]
      have h2 : costs c (j :: L) q = cost c (q j) + costs c L q := by simp [costs]
      have h3 : cost c (q j) = (2 * c.size u + 4) + cost c t := by rw [hq]; simp [cost]
      rw [h1, h2, h3, costs_not c L q j t hL.1]
      omega
    · have hi' : i ∈ L := by rcases List.mem_cons.1 hi with h | h; exact absurd h.symm e; exact h
      have h1 : costs c (j :: L) (upd q i t) = cost c (q j) + costs c L (upd q i t) := by simp [costs, upd_other _ _ _ _ e]
      have h2 : costs c (j :: L) q = cost c (q j) + costs c L q := by simp [costs]
      have := ih hL.2 hi'
      rw [h1, h2]
      omega

/-- all which have something in their queue are in L -/
def Covers (L : List Nat) (s : St) : Prop := ∀ i, s.queue i ≠ [] → i ∈ L

theorem doReply_part_le (c : Cfg) (L : List Nat) (hL : L.Nodup) (i : Nat) (s : St) (hc : Covers L s) : part c L (doReply c i s) ≤ part c L s ∧ Covers L (doReply c i s) := by
  unfold doReply
  cases hq : s.queue i with
  | nil => exact ⟨Nat.le_refl _, hc⟩
  | cons u q =>
    simp only
    have h1 := costs_upd c L hL s.queue i u q (hc i (by rw [hq]; simp)) hq
    have h2 : ∀ j, upd s.queue i q j ≠ [] → j ∈ L := by
      intro j hj
      by_cases e : j = i
      · subst e; exact hc j (by rw [hq]; simp)
      · rw [upd_other _ _ _ _ e] at hj; exact hc j hj
    split
    · exact ⟨by simp only [part]; omega, h2⟩
    · refine ⟨?_, h2⟩
      simp only [part, List.map_append, List.sum_append, List.map_cons, List.map_nil, List.sum_cons, List.sum_nil, jobCost]
      omega

theorem loop_part_le (c : Cfg) (L : List Nat) (hL : L.Nodup) (l : List Nat) (s : St) (hc : Covers L s) :
    part c L (backlogLoop c l s) + (backlogLoop c l s).backlog.length ≤ part c L s + l.length ∧ Covers L (backlogLoop c l s) := by
  induction l generalizing s with
  | nil => exact ⟨Nat.le_refl _, hc⟩
  | cons i l ih =>
    unfold backlogLoop
    split
    · obtain ⟨a, b⟩ := doReply_part_le c L hL i s hc
      obtain ⟨d, e⟩ := ih _ b
      exact ⟨by rw [List.length_cons]; omega, e⟩
    · exact ⟨Nat.le_refl _, hc⟩

theorem ready_less (c : Cfg) (L : List Nat) (hL : L.Nodup) (s : St) (hc : Covers L s) (o : Op) (h : Ready s o) :
    whole c L (step c s o) < whole c L s ∧ Covers L (step c s o) := by
  cases o with
  | recv r => exact h.elim
  | post i u => exact h.elim
  | job =>
    simp only [step]
    unfold doJob
    have direct : ∀ i j js, s.jobs = j :: js → whole c L (doReply c i { s with jobs := js }) < whole c L s ∧ Covers L (doReply c i { s with jobs := js }) := by
      intro i j js hj
      obtain ⟨a, b⟩ := doReply_part_le c L hL i { s with jobs := js } hc
      refine ⟨?_, b⟩
      have k := doReply_kept c i { s with jobs := js }
      have e : part c L s = part c L { s with jobs := js } + jobCost j := by simp only [part, hj, List.map_cons, List.sum_cons]; omega
      have p : 0 < jobCost j := by cases j <;> simp [jobCost]
      unfold whole
      rw [k.backlog, e]
      show _ + s.backlog.length < _
      omega
    cases hj : s.jobs with
    | nil => exact absurd hj h
    | cons j js =>
      cases j with
      | again i => exact direct i _ js hj
      | fresh i =>
        simp only
        split
        · exact direct i _ js hj
        · refine ⟨?_, hc⟩
          simp only [whole, part, hj, List.map_cons, List.sum_cons, jobCost, List.length_append, List.length_singleton]
          omega
  | wrote k =>
    simp only [step]
    unfold wrote
    have h' : 1 ≤ k ∧ k ≤ s.tx := h
    rw [if_pos h']
    have h1 := h.1
    have h2 := h.2
    simp only
    split
    · refine ⟨?_, hc⟩
      simp only [whole, part]
      split <;> simp <;> omega
    · refine ⟨?_, hc⟩
      simp only [whole, part]
      omega
  | callback =>
    simp only [step]
    unfold bevWrite
    have hw : s.wcb = true := h
    rw [if_pos hw]
    simp only
    obtain ⟨a, b⟩ := loop_part_le c L hL s.backlog { s with wcb := false } hc
    have e : part c L s = part c L { s with wcb := false } + 1 := by simp [part, hw]; omega
    split
    · refine ⟨?_, b⟩
      unfold whole
      rw [e]
      simp only [part] at a ⊢
      omega
    · refine ⟨?_, b⟩
      unfold whole
      rw [e]
      omega

theorem goes_le (c : Cfg) (L : List Nat) (hL : L.Nodup) (os : List Op) (s : St) (hc : Covers L s) (h : Goes c s os) : os.length ≤ whole c L s := by
  induction os generalizing s with
  | nil => exact Nat.zero_le _
  | cons o os ih =>
    obtain ⟨a, b⟩ := ready_less c L hL s hc o h.1
    have := ih _ b h.2
    rw [List.length_cons]
    omega

theorem covers (c : Cfg) (os : List Op) (s : St) (L : List Nat) (hL : L.Nodup) (h : Covers L s) : ∃ L', L'.Nodup ∧ Covers L' (run c s os) := by
  induction os generalizing s L with
  | nil => exact ⟨L, hL, h⟩
  | cons o os ih =>
    have keep : Covers L (step c s o) → ∃ L', L'.Nodup ∧ Covers L' (run c s (o :: os)) := fun x => ih _ L hL x
    cases o with
    | job =>
      by_cases e : s.jobs = []
      · exact keep (by simp only [step, doJob, e]; exact h)
      · exact keep (ready_less c L hL s h .job e).2
    | wrote k =>
      by_cases e : 1 ≤ k ∧ k ≤ s.tx
      · exact keep (ready_less c L hL s h (.wrote k) e).2
      · exact keep (by simp only [step, wrote, if_neg e]; exact h)
    | callback =>
      by_cases e : s.wcb = true
      · exact keep (ready_less c L hL s h .callback e).2
      · exact keep (by simp only [step, bevWrite, if_neg e]; exact h)
    | recv r =>
      refine keep ?_
      simp only [step]
      unfold bevRead
      split
      · simp only
        split <;> exact h
      · exact h
    | post i u =>
      have hs : ∀ j, j ≠ i → (step c s (.post i u)).queue j = s.queue j := by
        intro j hj
        simp only [step, doPost]
        split <;> exact upd_other _ _ _ _ hj
      by_cases e : i ∈ L
      · refine keep fun j hj => ?_
        by_cases x : j = i
        · rw [x]; exact e
        · rw [hs j x] at hj; exact h j hj
      · refine ih _ (i :: L) (List.nodup_cons.2 ⟨e, hL⟩) fun j hj => ?_
        by_cases x : j = i
        · simp [x]
        · rw [hs j x] at hj; exact List.mem_cons_of_mem _ (h j hj)

/-- C93: from every state which can be reached, the server and a client which reads, in whatever order they go on, come to a state where nothing
is left to do (see C93_done) after a bounded number of steps, if nothing more is posted or requested. -/
theorem C93_ends (c : Cfg) (os : List Op) : ∃ n, ∀ os', Goes c (run c {} os) os' → os'.length ≤ n := by
  obtain ⟨L, hL, h⟩ := covers c os {} [] List.nodup_nil (fun i hi => absurd rfl hi)
  exact ⟨_, fun os' hg => goes_le c L hL os' _ h hg⟩

/-- C93: requests are not read while more than half the limit waits after it was reached: reading stops when the limit is reached by replies; -/
theorem C93_suspends (c : Cfg) (s : St) (r : List Nat) (h : (step c s (.recv r)).reading = true) : (step c s (.recv r)).tx < c.limit := by
  simp only [step] at h ⊢
  unfold bevRead at h ⊢
  split at h
  · rename_i hr
    rw [if_pos hr]
    simp only at h ⊢
    split at h
    · cases h
    · rename_i hl
      rw [if_neg hl]
      exact Nat.lt_of_not_le hl
  · rename_i hr; exact absurd h hr

/-- and goes on only when less than the limit waits. -/
theorem C93_resumes (c : Cfg) (s : St) (o : Op) (h0 : s.reading = false) (h1 : (step c s o).reading = true) : o = .callback ∧ (step c s o).tx < c.limit := by
  cases o with
  | callback =>
    refine ⟨rfl, ?_⟩
    simp only [step] at h1 ⊢
    unfold bevWrite at h1 ⊢
    split at h1
    · rename_i hw
      rw [if_pos hw]
      simp only at h1 ⊢
      split at h1
      · rename_i hl; rw [if_pos hl]; exact hl
      · have hx : ∀ (l : List Nat) (s : St), (backlogLoop c l s).reading = s.reading := by
          intro l
          induction l with
          | nil => intro s; rfl
          | cons i l ih =>
            intro s
            unfold backlogLoop
            split
            · rw [ih, (doReply_kept c i s).reading]
            · rfl
        rw [hx] at h1
        change s.reading = true at h1
        rw [h0] at h1; cases h1
    · rw [h0] at h1; cases h1
  | recv r =>
    have e : step c s (.recv r) = s := by simp [step, bevRead, h0]
    rw [e, h0] at h1; cases h1
  | post i u =>
    simp only [step, doPost] at h1
    split at h1 <;> (change s.reading = true at h1; rw [h0] at h1; cases h1)
  | job =>
    simp only [step] at h1
    unfold doJob at h1
    split at h1
    · rw [h0] at h1; cases h1
    · rw [(doReply_kept c _ _).reading] at h1; change s.reading = true at h1; rw [h0] at h1; cases h1
    · split at h1
      · rw [(doReply_kept c _ _).reading] at h1; change s.reading = true at h1; rw [h0] at h1; cases h1
      · change s.reading = true at h1; rw [h0] at h1; cases h1
  | wrote k =>
    simp only [step, wrote] at h1
    split at h1
    · split at h1 <;> (change s.reading = true at h1; rw [h0] at h1; cases h1)
    · rw [h0] at h1; cases h1

/-! ### the buffer is not bounded -/

/-- an update of two octets is posted and handled while the client reads one -/
def round (u : Nat) : List Op := [.post 0 u, .job, .wrote 1]
def rounds : Nat → List Op
  | 0 => []
  | n + 1 => rounds n ++ round n

def small : Cfg := { limit := 10, room := fun _ => 4, size := fun _ => 2 }

theorem round_effect (s : St) (h : s.reading = true ∧ s.queue 0 = [] ∧ s.scheduled 0 = false ∧ s.jobs = [] ∧ s.low = 0) (u : Nat) :
    let s' := run small s (round u)
    (s'.reading = true ∧ s'.queue 0 = [] ∧ s'.scheduled 0 = false ∧ s'.jobs = [] ∧ s'.low = 0) ∧ s'.tx = s.tx + 1 := by
  obtain ⟨h1, h2, h3, h4, h5⟩ := h
  simp only [run, round, List.foldl_cons, List.foldl_nil, step, doPost, h2, h3, h4, doJob, doReply, wrote, upd_same, small, List.length_nil,
    Nat.lt_add_one, if_true, h1, List.nil_append, List.isEmpty_nil, h5]
  simp [upd]

/-- The code breaks C93: what waits for a client which subscribes and then reads slowly, and sends nothing, is not bounded: no update is held
back or merged, however much waits. -/
theorem C93_unbounded (n : Nat) : (run small {} (rounds n)).tx = n ∧ (∀ r, Op.recv r ∉ rounds n) ∧ (run small {} (rounds n)).reading = true := by
  have key : (run small {} (rounds n)).tx = n ∧ (run small {} (rounds n)).reading = true ∧ (run small {} (rounds n)).queue 0 = [] ∧ (run small {} (rounds n)).scheduled 0 = false ∧
      (run small {} (rounds n)).jobs = [] ∧ (run small {} (rounds n)).low = 0 := by
    induction n with
    | zero => exact ⟨rfl, rfl, rfl, rfl, rfl, rfl⟩
    | succ n ih =>
      have e : run small {} (rounds (n + 1)) = run small (run small {} (rounds n)) (round n) := by simp [run, rounds, List.foldl_append]
      rw [e]
      obtain ⟨a, b⟩ := round_effect _ ih.2 n
      exact ⟨by rw [b, ih.1], a⟩
  refine ⟨key.1, ?_, key.2.1⟩
  intro r
  clear key
  induction n with
  | zero => simp [rounds]
  | succ n ih =>
    simp only [rounds, List.mem_append, not_or]
    exact ⟨ih, by simp [round]⟩

theorem round_suspended (s : St) (v : Nat) (h : s.reading = false ∧ s.queue 0 = [v] ∧ s.scheduled 0 = true ∧ s.jobs = [.again 0] ∧ s.low = 5 ∧ 10 ≤ s.tx) (u : Nat) :
    let s' := run small s (round u)
    (s'.reading = false ∧ s'.queue 0 = [u] ∧ s'.scheduled 0 = true ∧ s'.jobs = [.again 0] ∧ s'.low = 5 ∧ 10 ≤ s'.tx) ∧ s'.tx = s.tx + 1 := by
  obtain ⟨h1, h2, h3, h4, h5, h6⟩ := h
  have e : ¬ (s.tx + 2 - 1 ≤ 5) := by omega
  simp only [run, round, List.foldl_cons, List.foldl_nil, step, doPost, h2, h3, h4, doJob, doReply, wrote, upd_same, small, List.length_cons, List.length_nil,
    if_true, h1, h5]
  simp [upd]
  rw [if_neg (by omega)]
  simp
  exact ⟨upd_same _ _ _, upd_same _ _ _, by omega⟩

/-- Nor is it bounded after reading was suspended because too much waits: a subscription which is being sent goes on as long as updates come. -/
theorem C93_suspended (n : Nat) :
    let os := [.post 0 0, .post 0 0, .job, .recv [10]] ++ rounds n
    (run small {} os).tx = 12 + n ∧ (run small {} os).reading = false := by
  have key : ∃ v, let s := run small {} ([.post 0 0, .post 0 0, .job, .recv [10]] ++ rounds n)
      s.tx = 12 + n ∧ s.reading = false ∧ s.queue 0 = [v] ∧ s.scheduled 0 = true ∧ s.jobs = [.again 0] ∧ s.low = 5 ∧ 10 ≤ s.tx := by
    induction n with
    | zero => exact ⟨0, by decide⟩
    | succ n ih =>
      obtain ⟨v, ih⟩ := ih
      have e : run small {} ([.post 0 0, .post 0 0, .job, .recv [10]] ++ rounds (n + 1)) = run small (run small {} ([.post 0 0, .post 0 0, .job, .recv [10]] ++ rounds n)) (round n) := by
        simp [run, rounds, List.foldl_append]
      simp only [e]
      obtain ⟨a, b⟩ := round_suspended _ v ih.2 n
      exact ⟨n, by rw [b, ih.1]; omega, a⟩
  obtain ⟨v, k⟩ := key
  exact ⟨k.1, k.2.1⟩

/-- C93: the backlog is sent while less than the limit waits, so that the limit is exceeded by one message at most. -/
theorem C93_fill (c : Cfg) (s : St) (m : Nat) (hm : ∀ u, c.size u ≤ m) (h : s.tx ≤ c.limit + m) : (step c s .callback).tx ≤ c.limit + m := by
  have loop : ∀ (l : List Nat) (s : St), s.tx ≤ c.limit + m → (backlogLoop c l s).tx ≤ c.limit + m := by
    intro l
    induction l with
    | nil => intro s h; exact h
    | cons i l ih =>
      intro s h
      unfold backlogLoop
      split
      · rename_i hl
        refine ih _ ?_
        unfold doReply
        split
        · exact h
        · rename_i u q _
          have := hm u
          simp only
          split <;> (show s.tx + c.size u ≤ _; omega)
      · exact h
  simp only [step]
  unfold bevWrite
  split
  · simp only
    split
    · exact loop _ _ h
    · exact loop _ _ h
  · exact h

/-- a client with three subscriptions which stops reading, sends a request, and reads again -/
def hist : List Op := [.post 0 1, .job, .post 1 2, .job, .recv [4, 5], .post 0 3, .job, .post 1 4, .job, .post 2 5, .job, .post 0 6, .post 0 7, .post 0 8, .post 0 9,
  .wrote 9, .callback, .job, .job, .job, .wrote 3, .wrote 4, .callback, .job, .wrote 1, .wrote 7, .callback, .wrote 1, .callback]

example : (run small {} (hist.take 15)).backlog = [0, 1, 2] ∧ (run small {} (hist.take 15)).reading = false := by decide
example : sentTo 0 (run small {} hist) = [1, 3, 6, 7, 9] ∧ sentTo 1 (run small {} hist) = [2, 4] ∧ sentTo 2 (run small {} hist) = [5] := by decide
example : ∀ o, ¬ Ready (run small {} hist) o := by
  have h1 : (run small {} hist).jobs = [] := by decide
  have h2 : (run small {} hist).wcb = false := by decide
  have h3 : (run small {} hist).tx = 0 := by decide
  intro o
  cases o with
  | job => simp [Ready, h1]
  | callback => simp [Ready, h2]
  | wrote k => simp only [Ready, h3]; omega
  | _ => simp [Ready]

end Pvxs.Props.FlowCtl
