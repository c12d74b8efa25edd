import Verif.Spec.LinkScan
/-
C87: records processed when the target of PVA input links changes.
-/
namespace Pvxs.Props.LinkScan
open Pvxs.LinkScan Pvxs.Spec.LinkScan

variable {α : Type}

/-! ### the set of links -/

theorem before_total (a b : Link) (h : a.addr ≠ b.addr) : before a b = true ∨ before b a = true := by
  unfold before
  by_cases e : a.monorder = b.monorder
  · simp only [if_pos e, if_pos e.symm, decide_eq_true_eq]; omega
  · rw [if_neg e, if_neg (fun h : b.monorder = a.monorder => e h.symm)]
    simp only [decide_eq_true_eq]; omega

theorem before_trans {a b c : Link} (h1 : before a b = true) (h2 : before b c = true) : before a c = true := by
  unfold before at *
  by_cases e1 : a.monorder = b.monorder <;> by_cases e2 : b.monorder = c.monorder
  · simp only [if_pos e1, if_pos e2, if_pos (e1.trans e2), decide_eq_true_eq] at *; omega
  · rw [if_pos e1] at h1
    rw [if_neg e2] at h2
    rw [if_neg (fun h => e2 (e1.symm.trans h))]
    simp only [decide_eq_true_eq] at *; omega
  · rw [if_neg e1] at h1
    rw [if_pos e2] at h2
    rw [if_neg (fun h => e1 (h.trans e2.symm))]
    simp only [decide_eq_true_eq] at *; omega
  · rw [if_neg e1] at h1
    rw [if_neg e2] at h2
    simp only [decide_eq_true_eq] at h1 h2
    rw [if_neg (by omega)]
    simp only [decide_eq_true_eq]; omega

theorem insert_perm (l : Link) (ls : List Link) (h : ∀ m, m ∈ ls → m.addr ≠ l.addr) : (insertLink l ls).Perm (ls ++ [l]) := by
  induction ls with
  | nil => exact List.Perm.refl _
  | cons m ms ih =>
    have hm := h m (List.mem_cons_self ..)
    have h' : ∀ x, x ∈ ms → x.addr ≠ l.addr := fun x hx => h x (List.mem_cons_of_mem _ hx)
    unfold insertLink
    split
    · exact (List.perm_append_singleton l (m :: ms)).symm
    · rename_i h1
      rcases before_total m l hm with h2 | h2
      · rw [if_pos h2, List.cons_append]; exact (ih h').cons m
      · exact absurd h2 h1

theorem insert_sorted (l : Link) (ls : List Link) (h : ∀ m, m ∈ ls → m.addr ≠ l.addr)
    (hs : ls.Pairwise fun a b => before a b = true) : (insertLink l ls).Pairwise fun a b => before a b = true := by
  induction ls with
  | nil => exact List.pairwise_singleton _ _
  | cons m ms ih =>
    have hm := h m (List.mem_cons_self ..)
    have h' : ∀ x, x ∈ ms → x.addr ≠ l.addr := fun x hx => h x (List.mem_cons_of_mem _ hx)
    obtain ⟨s1, s2⟩ := List.pairwise_cons.mp hs
    unfold insertLink
    split
    · rename_i h1
      refine List.pairwise_cons.mpr ⟨?_, hs⟩
      intro x hx
      rcases List.mem_cons.mp hx with rfl | hx
      · exact h1
      · exact before_trans h1 (s1 x hx)
    · rename_i h1
      rcases before_total m l hm with h2 | h2
      · rw [if_pos h2]
        refine List.pairwise_cons.mpr ⟨?_, ih h' s2⟩
        intro x hx
        have := (insert_perm l ms h').mem_iff.mp hx
        rcases List.mem_append.mp this with hx | hx
        · exact s1 x hx
        · rw [List.mem_singleton.mp hx]; exact h2
      · exact absurd h2 h1

/-! ### the invariant -/

/-- the records of the links, as listed by the channel -/
def Listed (c : Chan α) : Prop :=
  c.atomics = tracks (c.links.filter Link.atomic) ∧ c.others = tracks (c.links.filter fun l => !l.atomic)

structure Inv (merge : α → α → α) (c : Chan α) (es : List (Ev α)) (n : Nat) : Prop where
  /-- `n` items have been taken -/
  data : ∃ taken, arrived es = taken ++ c.queue ∧ taken.length = n ∧ seen c = cacheAfter merge taken
  root : c.connected = true → c.root.isSome
  notify : c.needNotify = true → c.queue = []
  job : c.needNotify = false → c.jobs > 0
  perm : c.links.Perm (attached es)
  sorted : c.links.Pairwise fun a b => before a b = true
  listed : c.changed = false → Listed c

theorem arrived_snoc (es : List (Ev α)) (e : Ev α) : arrived (es ++ [e]) = arrived es ++ arrived [e] := by
  unfold arrived; rw [List.filterMap_append]

theorem attached_snoc (es : List (Ev α)) (e : Ev α) : attached (es ++ [e]) =
    attach (attached es) e := by
  unfold attached; rw [List.foldl_append]; rfl

theorem cacheAfter_snoc (merge : α → α → α) (its : List (Item α)) (it : Item α) : cacheAfter merge (its ++ [it]) =
    match it, cacheAfter merge its with
    | .update d, none => some d
    | .update d, some r => some (merge r d)
    | .disconnect, _ => none
    | .error, v => v := by
  unfold cacheAfter; rw [List.foldl_append]; rfl

theorem seen_take (merge : α → α → α) (c : Chan α) (hr : c.connected = true → c.root.isSome) (taken : List (Item α))
    (hs : seen c = cacheAfter merge taken) (it : Item α) :
    seen (takeItem merge c it) = cacheAfter merge (taken ++ [it]) ∧
    ((takeItem merge c it).connected = true → (takeItem merge c it).root.isSome) := by
  rw [cacheAfter_snoc, ← hs]
  cases it with
  | update d =>
    unfold takeItem seen
    by_cases hc : c.connected = true
    · obtain ⟨r, hr⟩ := Option.isSome_iff_exists.mp (hr hc)
      simp [hc, hr]
    · simp [hc]
  | disconnect => simp [takeItem, seen]
  | error =>
    unfold takeItem
    cases seen c <;> exact ⟨rfl, hr⟩

theorem rebuild_keeps (c : Chan α) : (rebuild c).links = c.links ∧ (rebuild c).queue = c.queue ∧ (rebuild c).jobs = c.jobs ∧
    (rebuild c).needNotify = c.needNotify ∧ seen (rebuild c) = seen c ∧ (rebuild c).connected = c.connected ∧ (rebuild c).root = c.root := by
  unfold rebuild
  split <;> exact ⟨rfl, rfl, rfl, rfl, rfl, rfl, rfl⟩

theorem rebuild_listed (c : Chan α) (h : c.changed = false → Listed c) : Listed (rebuild c) ∧ (rebuild c).changed = false := by
  unfold rebuild
  split
  · exact ⟨⟨rfl, rfl⟩, rfl⟩
  · rename_i hc
    have : c.changed = false := by simpa using hc
    exact ⟨h this, this⟩

theorem take_keeps (merge : α → α → α) (c : Chan α) (it : Item α) : (takeItem merge c it).links = c.links ∧
    (takeItem merge c it).queue = c.queue ∧ (takeItem merge c it).jobs = c.jobs ∧ (takeItem merge c it).needNotify = c.needNotify ∧
    (takeItem merge c it).changed = c.changed ∧ (takeItem merge c it).atomics = c.atomics ∧ (takeItem merge c it).others = c.others := by
  cases it with
  | update d => simp only [takeItem]; split <;> exact ⟨rfl, rfl, rfl, rfl, rfl, rfl, rfl⟩
  | disconnect => exact ⟨rfl, rfl, rfl, rfl, rfl, rfl, rfl⟩
  | error => exact ⟨rfl, rfl, rfl, rfl, rfl, rfl, rfl⟩

/-- the channel after it has taken an item -/
def taken (merge : α → α → α) (c : Chan α) (it : Item α) (q : List (Item α)) : Chan α :=
  rebuild (takeItem merge { c with queue := q } it)

theorem work_item (merge : α → α → α) (rs : Recs) (c : Chan α) (it : Item α) (q : List (Item α)) (hj : c.jobs ≠ 0) (hq : c.queue = it :: q) :
    work merge rs c = (taken merge c it q,
      [.scan (((taken merge c it q).atomics ++ (taken merge c it q).others).filterMap (scanOne rs)) (seen (taken merge c it q))]) := by
  unfold work
  rw [if_neg hj, hq]
  rfl

theorem inv_taken (merge : α → α → α) {c : Chan α} {es : List (Ev α)} {n : Nat} (h : Inv merge c es n) (rs : Recs) (it : Item α) (q : List (Item α))
    (hq : c.queue = it :: q) :
    Inv merge (taken merge c it q) (es ++ [.work rs]) (n+1) ∧ (taken merge c it q).changed = false ∧
    seen (taken merge c it q) = cacheAfter merge ((arrived es).take (n+1)) ∧
    (taken merge c it q).queue = q ∧ (taken merge c it q).links = c.links := by
  obtain ⟨tk, d1, d2, d3⟩ := h.data
  have k1 := rebuild_keeps (takeItem merge { c with queue := q } it)
  have k2 := take_keeps merge { c with queue := q } it
  obtain ⟨s1, s2⟩ := seen_take merge { c with queue := q } h.root tk d3 it
  have hnn : c.needNotify = false := by
    cases hn : c.needNotify with
    | false => rfl
    | true => rw [h.notify hn] at hq; cases hq
  have hl := rebuild_listed (takeItem merge { c with queue := q } it) (by
    rw [k2.2.2.2.2.1]
    intro hc
    obtain ⟨l1, l2⟩ := h.listed hc
    unfold Listed
    rw [k2.1, k2.2.2.2.2.2.1, k2.2.2.2.2.2.2]
    exact ⟨l1, l2⟩)
  have hqq : (taken merge c it q).queue = q := by
    show (rebuild _).queue = q
    rw [k1.2.1, k2.2.1]
  have hll : (taken merge c it q).links = c.links := by
    show (rebuild _).links = _
    rw [k1.1, k2.1]
  have hseen : seen (taken merge c it q) = cacheAfter merge (tk ++ [it]) := by
    show seen (rebuild _) = _
    rw [k1.2.2.2.2.1]; exact s1
  have htake : (arrived es).take (n+1) = tk ++ [it] := by
    have e : arrived es = (tk ++ [it]) ++ q := by rw [d1, hq]; simp
    rw [e]
    apply List.take_left'
    simp [d2]
  refine ⟨⟨⟨tk ++ [it], ?_, by simp [d2], hseen⟩, ?_, ?_, ?_, ?_, ?_, ?_⟩, hl.2, by rw [htake]; exact hseen, hqq, hll⟩
  · rw [arrived_snoc, d1, hq, hqq]; simp [arrived]
  · show (rebuild _).connected = true → (rebuild _).root.isSome
    rw [k1.2.2.2.2.2.1, k1.2.2.2.2.2.2]; exact s2
  · intro hn
    have : (taken merge c it q).needNotify = c.needNotify := by
      show (rebuild _).needNotify = _
      rw [k1.2.2.2.1, k2.2.2.2.1]
    rw [this, hnn] at hn; cases hn
  · intro _
    show (rebuild _).jobs > 0
    rw [k1.2.2.1, k2.2.2.1]; exact h.job hnn
  · rw [attached_snoc, hll]; exact h.perm
  · rw [hll]; exact h.sorted
  · intro _; exact hl.1

/-- how many items an event takes -/
def takes (c : Chan α) : Ev α → Nat
  | .work _ => if c.jobs = 0 ∨ c.queue = [] then 0 else 1
  | _ => 0

theorem inv_step (merge : α → α → α) {c : Chan α} {es : List (Ev α)} {n : Nat} (h : Inv merge c es n) (e : Ev α)
    (hd : FreshAddr (attached es) e) : Inv merge (step merge c e).1 (es ++ [e]) (n + takes c e) := by
  obtain ⟨tk, d1, d2, d3⟩ := h.data
  cases e with
  | arrive it =>
    refine ⟨⟨tk, ?_, d2, d3⟩, h.root, ?_, ?_, ?_, h.sorted, h.listed⟩
    · rw [arrived_snoc, d1]; simp [arrived, step]
    · intro hn
      simp only [step] at hn ⊢
      cases hc : c.needNotify with
      | false => rw [hc] at hn; simp at hn
      | true => rw [h.notify hc, hc] at hn; simp at hn
    · intro hn
      simp only [step] at hn ⊢
      cases hc : c.needNotify with
      | false => have := h.job hc; split <;> omega
      | true => rw [h.notify hc]; simp
    · rw [attached_snoc]; exact h.perm
  | add l rs =>
    have hfresh : ∀ m, m ∈ c.links → m.addr ≠ l.addr := fun m hm => hd m (h.perm.mem_iff.mp hm)
    refine ⟨⟨tk, ?_, d2, d3⟩, h.root, h.notify, h.job, ?_, ?_, fun hc => by cases hc⟩
    · rw [arrived_snoc, d1]; simp [arrived, step]
    · rw [attached_snoc]
      exact (insert_perm l c.links hfresh).trans (h.perm.append_right [l])
    · exact insert_sorted l c.links hfresh h.sorted
  | remove a =>
    refine ⟨⟨tk, ?_, d2, d3⟩, h.root, h.notify, h.job, ?_, ?_, fun hc => by cases hc⟩
    · rw [arrived_snoc, d1]; simp [arrived, step]
    · rw [attached_snoc]; exact h.perm.filter _
    · exact h.sorted.filter _
  | work rs =>
    by_cases hj : c.jobs = 0
    · have e1 : step merge c (.work rs) = (c, []) := by simp [step, work, hj]
      rw [e1]
      have : takes c (.work rs : Ev α) = 0 := by simp [takes, hj]
      rw [this]
      exact ⟨⟨tk, (by rw [arrived_snoc, d1]; simp [arrived]), d2, d3⟩, h.root, h.notify, h.job,
        (by rw [attached_snoc]; exact h.perm), h.sorted, h.listed⟩
    · cases hq : c.queue with
      | nil =>
        have e1 : step merge c (.work rs) = ({ c with jobs := c.jobs - 1, needNotify := true }, []) := by
          simp [step, work, hj, hq]
        rw [e1]
        have : takes c (.work rs : Ev α) = 0 := by simp [takes, hq]
        rw [this]
        exact ⟨⟨tk, (by rw [arrived_snoc, d1]; simp [arrived]), d2, d3⟩, h.root, fun _ => hq, (fun hn => (by cases hn)),
          (by rw [attached_snoc]; exact h.perm), h.sorted, h.listed⟩
      | cons it q =>
        have e1 : step merge c (.work rs) = work merge rs c := rfl
        rw [e1, work_item merge rs c it q hj hq]
        have : takes c (.work rs : Ev α) = 1 := by simp [takes, hq, hj]
        rw [this]
        exact (inv_taken merge h rs it q hq).1

theorem run_append (merge : α → α → α) (a b : List (Ev α)) : ∀ c : Chan α,
    run merge c (a ++ b) = ((run merge (run merge c a).1 b).1, (run merge c a).2 ++ (run merge (run merge c a).1 b).2) := by
  induction a with
  | nil => intro c; simp [run]
  | cons e a ih => intro c; simp [run, ih]

/-- how many items have been taken: as many as there were scans -/
theorem takes_scans (merge : α → α → α) (c : Chan α) (e : Ev α) : takes c e = (scans (step merge c e).2).length := by
  cases e with
  | arrive it => rfl
  | add l rs => simp only [step, takes]; cases (c.connected && scanInit rs l) <;> rfl
  | remove a => rfl
  | work rs =>
    simp only [step, takes, work]
    by_cases hj : c.jobs = 0
    · simp [hj, scans]
    · cases hq : c.queue <;> simp [hj, scans]

theorem scans_append (a b : List (Out α)) : scans (a ++ b) = scans a ++ scans b := by unfold scans; rw [List.filterMap_append]

theorem inv_run (merge : α → α → α) (fs : List (Ev α)) : ∀ (c : Chan α) (es : List (Ev α)) (n : Nat), Inv merge c es n →
    Distinct (attached es) fs → Inv merge (run merge c fs).1 (es ++ fs) (n + (scans (run merge c fs).2).length) := by
  induction fs with
  | nil => intro c es n h _; simpa [run, scans] using h
  | cons e fs ih =>
    intro c es n h hd
    have h1 := inv_step merge h e hd.1
    have h2 := ih _ _ _ h1 (by rw [attached_snoc]; exact hd.2)
    rw [takes_scans merge] at h2
    simp only [run, scans_append, List.length_append]
    rw [List.append_assoc, List.singleton_append] at h2
    rw [← Nat.add_assoc]
    exact h2

theorem inv_zero (merge : α → α → α) : Inv merge ({} : Chan α) [] 0 :=
  ⟨⟨[], rfl, rfl, rfl⟩, (fun h => (by cases h)), fun _ => rfl, (fun h => (by cases h)), List.Perm.refl _, List.Pairwise.nil, fun _ => ⟨rfl, rfl⟩⟩

theorem inv_hist (merge : α → α → α) (es : List (Ev α)) (hd : Distinct [] es) :
    Inv merge (run merge {} es).1 es (scans (run merge {} es).2).length := by
  have := inv_run merge es {} [] 0 (inv_zero merge) hd
  rwa [Nat.zero_add, List.nil_append] at this

/-! ### what holds -/

/-- C87: no wake-up is lost: while the worker has nothing to do for the channel, the subscription has
nothing queued. -/
theorem C87_wake (merge : α → α → α) (es : List (Ev α)) (hd : Distinct [] es) :
    (run merge {} es).1.jobs = 0 → (run merge {} es).1.queue = [] := by
  intro hj
  have h := inv_hist merge es hd
  cases hn : (run merge {} es).1.needNotify with
  | true => exact h.notify hn
  | false => have := h.job hn; omega

theorem scans_views (merge : α → α → α) (fs : List (Ev α)) : ∀ (c : Chan α) (es : List (Ev α)) (n : Nat), Inv merge c es n →
    Distinct (attached es) fs →
    ∀ i, i < (scans (run merge c fs).2).length →
      ((scans (run merge c fs).2)[i]?).map Prod.snd = some (cacheAfter merge ((arrived (es ++ fs)).take (n + i + 1))) := by
  induction fs with
  | nil => intro c es n _ _ i hi; simp [run, scans] at hi
  | cons e fs ih =>
    intro c es n h hd i hi
    have h1 := inv_step merge h e hd.1
    have h2 := ih _ _ _ h1 (by rw [attached_snoc]; exact hd.2)
    have htk := takes_scans merge c e
    simp only [run, scans_append] at hi ⊢
    have happ : es ++ [e] ++ fs = es ++ e :: fs := by simp
    rw [happ] at h2
    by_cases h0 : takes c e = 0
    · have hnil : scans (step merge c e).2 = [] := List.eq_nil_of_length_eq_zero (htk ▸ h0)
      rw [hnil, List.nil_append] at hi ⊢
      have := h2 i hi
      rw [h0, Nat.add_zero] at this
      exact this
    · -- an item is taken
      cases e with
      | work rs =>
        have hj : c.jobs ≠ 0 := fun hh => h0 (by simp [takes, hh])
        cases hq : c.queue with
        | nil => exact absurd (by simp [takes, hq]) h0
        | cons it q =>
          have e1 : step merge c (.work rs) = work merge rs c := rfl
          have hw := work_item merge rs c it q hj hq
          have ht := inv_taken merge h rs it q hq
          have h3 : takes c (.work rs : Ev α) = 1 := by simp [takes, hq, hj]
          rw [e1, hw] at hi h2 ⊢
          simp only [scans, List.filterMap_cons, List.filterMap_nil] at hi h2 ⊢
          cases i with
          | zero =>
            simp only [List.cons_append, List.nil_append, List.getElem?_cons_zero, Option.map_some, Option.some.injEq, Nat.add_zero]
            rw [ht.2.2.1]
            congr 1
            -- what had arrived by then
            obtain ⟨tk, d1, d2, _⟩ := h.data
            have hlen : n + 1 ≤ (arrived es).length := by rw [d1, hq]; simp; omega
            have : arrived (es ++ .work rs :: fs) = arrived es ++ arrived (.work rs :: fs) := by
              unfold arrived; rw [List.filterMap_append]
            rw [this, List.take_append_of_le_length hlen]
          | succ i =>
            simp only [List.cons_append, List.nil_append, List.getElem?_cons_succ]
            have := h2 i (by simpa using hi)
            rw [h3] at this
            have e2 : n + 1 + i + 1 = n + (i + 1) + 1 := by omega
            rw [e2] at this
            exact this
      | arrive it => exact absurd rfl h0
      | add l rs => exact absurd rfl h0
      | remove a => exact absurd rfl h0

/-- C87: the records are processed once for each item delivered, in order, none left out; while they
are, they read the state right after this item. -/
theorem C87_each (merge : α → α → α) (es : List (Ev α)) (hd : Distinct [] es) :
    (scans (run merge {} es).2).length + (run merge {} es).1.queue.length = (arrived es).length ∧
    ∀ i, i < (scans (run merge {} es).2).length →
      ((scans (run merge {} es).2)[i]?).map Prod.snd = some (cacheAfter merge ((arrived es).take (i + 1))) := by
  constructor
  · obtain ⟨tk, d1, d2, _⟩ := (inv_hist merge es hd).data
    rw [d1, List.length_append, d2]
  · intro i hi
    have := scans_views merge es {} [] 0 (inv_zero merge) hd i hi
    rwa [Nat.zero_add, List.nil_append] at this

theorem run_work_measure (merge : α → α → α) (rs : Recs) (c : Chan α) :
    (work merge rs c).1.jobs + (work merge rs c).1.queue.length = c.jobs + c.queue.length - (if c.jobs = 0 then 0 else 1) := by
  by_cases hj : c.jobs = 0
  · simp [work, hj]
  · cases hq : c.queue with
    | nil => simp [work, hj, hq]
    | cons it q =>
      rw [work_item merge rs c it q hj hq]
      have k1 := rebuild_keeps (takeItem merge { c with queue := q } it)
      have k2 := take_keeps merge { c with queue := q } it
      show (rebuild _).jobs + (rebuild _).queue.length = _
      rw [k1.2.1, k1.2.2.1, k2.2.1, k2.2.2.1]
      simp [hj]

theorem work_only (merge : α → α → α) (ws : List Recs) : ∀ (c : Chan α), (c.jobs = 0 → c.queue = []) →
    c.jobs + c.queue.length ≤ ws.length →
    (∀ w, (work merge w c).1.jobs = 0 → (work merge w c).1.queue = []) ∧ True := by
  intro c _ _
  refine ⟨fun w => ?_, trivial⟩
  intro h
  by_cases hj : c.jobs = 0
  · simp only [work, hj, if_true] at h ⊢
    rename_i h1 _
    exact h1 hj
  · cases hq : c.queue with
    | nil => simp [work, hj, hq]
    | cons it q =>
      rw [work_item merge w c it q hj hq] at h
      have k1 := rebuild_keeps (takeItem merge { c with queue := q } it)
      have k2 := take_keeps merge { c with queue := q } it
      have : (taken merge c it q).jobs = c.jobs := by
        show (rebuild _).jobs = _
        rw [k1.2.2.1, k2.2.2.1]
      rw [this] at h
      exact absurd h hj

theorem drain_run (merge : α → α → α) (ws : List Recs) : ∀ (c : Chan α), (c.jobs = 0 → c.queue = []) →
    c.jobs + c.queue.length ≤ ws.length →
    (run merge c (ws.map fun w => .work w)).1.jobs = 0 ∧ (run merge c (ws.map fun w => .work w)).1.queue = [] := by
  induction ws with
  | nil =>
    intro c h hl
    have : c.jobs = 0 := by simp at hl; omega
    exact ⟨this, h this⟩
  | cons w ws ih =>
    intro c h hl
    simp only [List.map_cons, run]
    have hm := run_work_measure merge w c
    refine ih _ ((work_only merge (w :: ws) c h hl).1 w) ?_
    show (work merge w c).1.jobs + (work merge w c).1.queue.length ≤ _
    rw [hm]
    simp only [List.length_cons] at hl
    split
    · rename_i hj; rw [h hj]; simp [hj]
    · omega

/-- C87: once nothing else arrives, the worker gets to the end, and each item has been followed by
the processing of the records. -/
theorem C87_drain (merge : α → α → α) (es : List (Ev α)) (hd : Distinct [] es) (ws : List Recs)
    (hw : (run merge {} es).1.jobs + (run merge {} es).1.queue.length ≤ ws.length) :
    (run merge {} (es ++ ws.map fun w => .work w)).1.queue = [] ∧
    (scans (run merge {} (es ++ ws.map fun w => .work w)).2).length = (arrived es).length := by
  have hdw : ∀ (es : List (Ev α)) (ls : List Link), Distinct ls es → Distinct ls (es ++ ws.map fun w => .work w) := by
    intro es
    induction es with
    | nil =>
      intro ls _
      induction ws with
      | nil => trivial
      | cons w ws ih =>
        refine ⟨trivial, ?_⟩
        have : ∀ (ws : List Recs) (ls : List Link), Distinct ls (ws.map fun w => (.work w : Ev α)) := by
          intro ws
          induction ws with
          | nil => intro _; trivial
          | cons w ws ih => intro ls; exact ⟨trivial, ih _⟩
        exact this _ _
    | cons e es ih => intro ls h; exact ⟨h.1, ih _ h.2⟩
  have h1 := (C87_each merge _ (hdw es [] hd)).1
  have harr : arrived (es ++ ws.map fun w => .work w) = arrived es := by
    have h0 : arrived (ws.map fun w => (.work w : Ev α)) = [] := by
      clear hw hdw h1
      induction ws with
      | nil => rfl
      | cons w ws ih => exact ih
    have : arrived (es ++ ws.map fun w => (.work w : Ev α)) = arrived es ++ arrived (ws.map fun w => (.work w : Ev α)) := by
      unfold arrived; rw [List.filterMap_append]
    rw [this, h0, List.append_nil]
  have hq : (run merge {} (es ++ ws.map fun w => .work w)).1.queue = [] := by
    rw [run_append]
    exact (drain_run merge ws _ (C87_wake merge es hd) hw).2
  refine ⟨hq, ?_⟩
  rw [hq, harr] at h1
  simpa using h1

theorem tracks_scan (rs : Recs) (ls : List Link) :
    (tracks ls).filterMap (scanOne rs) = ((ls.filter fun l => decide (Wants rs l)).map fun l => actOn rs l.record) := by
  induction ls with
  | nil => rfl
  | cons l ls ih =>
    have e : tracks (l :: ls) = tracks [l] ++ tracks ls := by unfold tracks; rw [← List.filterMap_append]; rfl
    rw [e, List.filterMap_append, ih, List.filter_cons]
    have key : (tracks [l]).filterMap (scanOne rs) = if Wants rs l then [actOn rs l.record] else [] := by
      rcases l with ⟨a, r, i, p, at', m⟩
      cases hpa : rs.pact r <;> cases hps : rs.passive r <;> cases i <;> cases p <;>
        simp [tracks, scanOnUpdate, Wants, scanOne, actOn, hpa, hps]
    rw [key]
    by_cases h : Wants rs l <;> simp [h]

/-- C87: which records, in which order. The links which are attached when the item is taken, each
whose option asks for it once: first those with `atomic`, then the others, by increasing
`monorder`. Missing: the order of the documentation, see C87_order; a record once, see C87_twice. -/
theorem C87_scan_partial (merge : α → α → α) (es : List (Ev α)) (hd : Distinct [] es) (rs : Recs) (it : Item α) (q : List (Item α))
    (hq : (run merge {} es).1.queue = it :: q) :
    ∃ as, (step merge (run merge {} es).1 (.work rs)).2 = [.scan as (cacheAfter merge ((arrived es).take ((arrived es).length - q.length)))] ∧
    (step merge (run merge {} es).1 (.work rs)).1.queue = q ∧
    ∃ Ls : List Link, as = Ls.map (fun l => actOn rs l.record) ∧
      Ls.Perm ((attached es).filter fun l => decide (Wants rs l)) ∧ Ls.Pairwise Before := by
  have h := inv_hist merge es hd
  have hj : (run merge {} es).1.jobs ≠ 0 := by
    intro hj
    rw [C87_wake merge es hd hj] at hq; cases hq
  have ht := inv_taken merge h rs it q hq
  have e1 : step merge (run merge {} es).1 (.work rs) = work merge rs (run merge {} es).1 := rfl
  rw [e1, work_item merge rs _ it q hj hq]
  refine ⟨((taken merge (run merge {} es).1 it q).atomics ++ (taken merge (run merge {} es).1 it q).others).filterMap (scanOne rs),
    ?_, ht.2.2.2.1, ?_⟩
  · have : (arrived es).length - q.length = (scans (run merge {} es).2).length + 1 := by
      have := (C87_each merge es hd).1
      rw [hq] at this
      simp only [List.length_cons] at this
      omega
    rw [this, ← ht.2.2.1]
  · obtain ⟨l1, l2⟩ := ht.1.listed ht.2.1
    rw [ht.2.2.2.2] at l1 l2
    generalize (run merge {} es).1 = c at *
    refine ⟨(c.links.filter Link.atomic).filter (fun l => decide (Wants rs l)) ++ (c.links.filter fun l => !l.atomic).filter (fun l => decide (Wants rs l)), ?_, ?_, ?_⟩
    · rw [l1, l2, List.filterMap_append, tracks_scan, tracks_scan, List.map_append]
    · rw [← List.filter_append]
      refine List.Perm.filter _ ?_
      exact (List.filter_append_perm Link.atomic c.links).trans h.perm
    · rw [List.pairwise_append]
      have mono : ∀ a b : Link, before a b = true → a.monorder ≤ b.monorder := by
        intro a b hab
        unfold before at hab
        split at hab
        · omega
        · simp only [decide_eq_true_eq] at hab; omega
      refine ⟨?_, ?_, ?_⟩
      · refine List.Pairwise.filter _ ?_
        refine List.Pairwise.imp_of_mem ?_ (h.sorted.filter _)
        intro a b ha hb hab
        right
        rw [(List.mem_filter.mp ha).2, (List.mem_filter.mp hb).2]
        exact ⟨rfl, mono a b hab⟩
      · refine List.Pairwise.filter _ ?_
        refine List.Pairwise.imp_of_mem ?_ (h.sorted.filter _)
        intro a b ha hb hab
        right
        have h1 := (List.mem_filter.mp ha).2
        have h2 := (List.mem_filter.mp hb).2
        simp only [Bool.not_eq_true'] at h1 h2
        rw [h1, h2]
        exact ⟨rfl, mono a b hab⟩
      · intro a ha b hb
        left
        have h1 := (List.mem_filter.mp (List.mem_filter.mp ha).1).2
        have h2 := (List.mem_filter.mp (List.mem_filter.mp hb).1).2
        simp only [Bool.not_eq_true'] at h2
        exact ⟨h1, h2⟩

/-- C87: a link which is attached while the channel is connected: its record is processed at once, if
the option asks for it. -/
theorem C87_attach (merge : α → α → α) (es : List (Ev α)) (hd : Distinct [] es) (l : Link) (rs : Recs) :
    (step merge (run merge {} es).1 (.add l rs)).2 =
      if (cacheAfter merge ((arrived es).take (scans (run merge {} es).2).length)).isSome ∧ Wants rs l then [.once l.record] else [] := by
  have h := inv_hist merge es hd
  obtain ⟨tk, d1, d2, d3⟩ := h.data
  have htk : (arrived es).take (scans (run merge {} es).2).length = tk := by
    rw [d1]; exact List.take_left' d2
  have hcon : (cacheAfter merge tk).isSome ↔ (run merge {} es).1.connected = true := by
    rw [← d3]
    unfold seen
    by_cases hc : (run merge {} es).1.connected = true
    · simp [hc, h.root hc]
    · simp [hc]
  rw [htk]
  generalize (run merge {} es).1 = c at *
  simp only [step]
  have hw : scanInit rs l = decide (Wants rs l) := by
    rcases l with ⟨a, r, i, p, at', m⟩
    cases i <;> cases p <;> simp [scanInit, scanOnUpdate, Wants]
  rw [hw]
  by_cases hc : c.connected = true
  · have := hcon.mpr hc
    by_cases hx : Wants rs l <;> simp [hc, this, hx]
  · have : ¬ ((cacheAfter merge tk).isSome = true) := fun h => hc (hcon.mp h)
    simp [hc, this]

/-! ### what does not hold -/

def idle : Recs := { passive := fun _ => true, pact := fun _ => false }

/-- Contrary to the documentation of `monorder`: the record of a link with `atomic` is processed before
that of a link with a smaller `monorder`. -/
theorem C87_order (merge : α → α → α) (v : α) (m n : Int) :
    let a : Link := { addr := 1, record := 1, monorder := m }
    let b : Link := { addr := 2, record := 2, monorder := n, atomic := true }
    let es : List (Ev α) := [.add a idle, .add b idle, .arrive (.update v), .work idle]
    Distinct [] es ∧ scans (run merge {} es).2 = [([.process 2, .process 1], some v)] := by
  intro a b es
  refine ⟨?_, ?_⟩
  · refine ⟨nofun, ?_, trivial, trivial, trivial⟩
    intro x hx
    have : x = a := by simpa [attach] using hx
    subst this
    show 1 ≠ 2
    decide
  · have hins : insertLink b (insertLink a []) = [a, b] ∨ insertLink b (insertLink a []) = [b, a] := by
      have e : insertLink b (insertLink a []) = if before b a then [b, a] else if before a b then [a, b] else [a] := rfl
      rw [e]
      rcases before_total a b (by show 1 ≠ 2; decide) with h | h
      · by_cases h2 : before b a
        · rw [if_pos h2]; exact .inr rfl
        · rw [if_neg h2, if_pos h]; exact .inl rfl
      · rw [if_pos h]; exact .inr rfl
    have hrun : scans (run merge {} es).2 =
        [((tracks ((insertLink b (insertLink a [])).filter Link.atomic) ++
          tracks ((insertLink b (insertLink a [])).filter fun l => !l.atomic)).filterMap (scanOne idle), some v)] := rfl
    rw [hrun]
    rcases hins with h | h <;> rw [h] <;> rfl

/-- A record with two links to the same target is processed twice for each update. -/
theorem C87_twice (merge : α → α → α) (v : α) :
    let es : List (Ev α) := [.add { addr := 1, record := 1 } idle, .add { addr := 2, record := 1 } idle, .arrive (.update v), .work idle]
    scans (run merge {} es).2 = [([.process 1, .process 1], some v)] := rfl

/-- A server error is followed by processing, too; a record reads the same as before. -/
theorem C87_error (merge : α → α → α) (v : α) :
    scans (run merge {} [.add { addr := 1, record := 1 } idle, .arrive (.update v), .arrive .error, .work idle, .work idle]).2 =
    [([.process 1], some v), ([.process 1], some v)] := rfl

/-- the hypotheses above are met -/
example : let es : List (Ev Nat) := [.add { addr := 1, record := 7, monorder := 3 } idle, .add { addr := 2, record := 8, proc := .cpp } idle,
      .arrive (.update 5), .work idle, .arrive (.update 6), .arrive .disconnect]
    Distinct [] es ∧ (run (fun _ b => b) {} es).1.queue = [.update 6, .disconnect] ∧ (run (fun _ b => b) {} es).1.jobs + 2 ≤ 3 ∧
    scans (run (fun _ b => b) {} es).2 = [([.process 8, .process 7], some 5)] := by
  refine ⟨⟨nofun, ?_, trivial, trivial, trivial, trivial, trivial⟩, by decide, by decide, by decide⟩
  intro x hx
  have : x = { addr := 1, record := 7, monorder := 3 } := by simpa [attach] using hx
  subst this
  decide

end Pvxs.Props.LinkScan
