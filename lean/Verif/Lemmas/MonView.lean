import Verif.Lemmas.ServerMonGroups
/-
What a subscriber knows in the end: of each field the last value in what was sent, followed by what is queued.
-/
namespace Pvxs.Mon
open Pvxs.Server (OpState)
open Pvxs.Spec.Mon

/-- field `k` of an update, if marked -/
def fld (k : Nat) (u : Upd) : Option Nat := u[k]?.join

theorem fld_merge (a b : Upd) (k : Nat) : fld k (merge a b) = (fld k b).or (fld k a) := by
  unfold fld
  induction a generalizing b k with
  | nil => cases b <;> simp [merge]
  | cons x a ih =>
    cases b with
    | nil => simp [merge]
    | cons y b =>
      cases k with
      | zero => simp [merge]
      | succ k => simpa [merge] using ih b k

theorem fld_restrict (k : Nat) : ∀ (mask : List Bool) (u : Upd), mask[k]? = some true → fld k (restrict mask u) = fld k u := by
  induction k with
  | zero =>
    intro mask u h
    cases mask with
    | nil => simp at h
    | cons b mask =>
      have : b = true := by simpa using h
      subst this
      cases u <;> rfl
  | succ k ih =>
    intro mask u h
    cases mask with
    | nil => simp at h
    | cons b mask =>
      have h : mask[k]? = some true := by simpa using h
      cases u with
      | nil => cases b <;> rfl
      | cons x u => cases b <;> exact ih mask u h

theorem testmask_fld {mask : List Bool} {u : Upd} (h : testmask mask u = false) {k : Nat} (hk : mask[k]? = some true) : fld k u = none := by
  rw [← fld_restrict k mask u hk]
  unfold testmask at h
  unfold fld
  cases he : (restrict mask u)[k]? with
  | none => rfl
  | some x =>
    have hm : x ∈ restrict mask u := List.mem_of_getElem? he
    have := List.any_eq_false.1 h x hm
    cases x with
    | none => rfl
    | some y => simp at this

/-- the last value of field `k` -/
def lastOf (k : Nat) (l : List Upd) : Option Nat := l.foldl (fun acc u => (fld k u).or acc) none

theorem lastOf_from (k : Nat) (l : List Upd) : ∀ a, l.foldl (fun acc u => (fld k u).or acc) a = (lastOf k l).or a := by
  unfold lastOf
  induction l with
  | nil => intro a; simp
  | cons u l ih =>
    intro a
    simp only [List.foldl_cons]
    rw [ih, ih ((fld k u).or none)]
    cases fld k u <;> cases l.foldl (fun acc u => (fld k u).or acc) none <;> simp

theorem lastOf_append (k : Nat) (a b : List Upd) : lastOf k (a ++ b) = (lastOf k b).or (lastOf k a) := by
  rw [lastOf, List.foldl_append, lastOf_from]; rfl

theorem lastOf_snoc (k : Nat) (a : List Upd) (u : Upd) : lastOf k (a ++ [u]) = (fld k u).or (lastOf k a) := by
  rw [lastOf_append]; simp [lastOf]

/-- the same as of the merged updates -/
theorem lastOf_mergeAll (k : Nat) (l : List Upd) : fld k (mergeAll l) = lastOf k l := by
  have : ∀ a, fld k (l.foldl merge a) = l.foldl (fun acc u => (fld k u).or acc) (fld k a) := by
    induction l with
    | nil => intro a; rfl
    | cons u l ih => intro a; simp only [List.foldl_cons]; rw [ih, fld_merge]
  exact this []

/-- another update is merged into some of them -/
theorem lastOf_squash (k : Nat) (p : Upd) (f : Nat → Upd) (g : Nat → Upd) (h : ∀ c, g c = f c ∨ g c = merge (f c) p) (q : List Nat) :
    lastOf k (q.map g) = lastOf k (q.map f) ∨ (fld k p ≠ none ∧ lastOf k (q.map g) = fld k p) := by
  induction q with
  | nil => exact .inl rfl
  | cons c q ih =>
    have e : ∀ r : Nat → Upd, lastOf k ((c :: q).map r) = (lastOf k (q.map r)).or (fld k (r c)) := by
      intro r
      rw [List.map_cons, show r c :: q.map r = [r c] ++ q.map r from rfl, lastOf_append]
      simp [lastOf]
    rw [e, e]
    rcases ih with ih | ⟨h1, h2⟩
    · rw [ih]
      rcases h c with h | h
      · rw [h]; exact .inl rfl
      · rw [h, fld_merge]
        cases lastOf k (q.map f) with
        | some x => exact .inl rfl
        | none =>
          cases hp : fld k p with
          | none => exact .inl rfl
          | some x => exact .inr ⟨by simp, by simp⟩
    · rw [h2]
      cases hp : fld k p with
      | none => exact absurd hp h1
      | some x => exact .inr ⟨by simp, by simp⟩

/-- what the subscriber will have been told -/
def view (heap : List Upd) (m : Mon) (k : Nat) : Option Nat := lastOf k (dataOf m.sent ++ (cells m.queue).map (content heap))

theorem view_eq (s : Sys) (m : Mon) (k : Nat) : view s.heap m k = fld k (mergeAll (dataOf m.sent ++ queued s m)) := by
  rw [lastOf_mergeAll, view, queued_eq]

/-- how an event, other than post and finish, changes queue and messages -/
structure Quiet (heap : List Upd) (m m' : Mon) : Prop where
  mask : m'.mask = m.mask
  finished : m'.finished = m.finished
  creating : m.state ≠ .creating → m'.state ≠ .creating
  move : (m'.queue = m.queue ∧ dataOf m'.sent = dataOf m.sent) ∨ (m.queue = none :: m'.queue ∧ dataOf m'.sent = dataOf m.sent)
    ∨ ∃ c, m.queue = some c :: m'.queue ∧ dataOf m'.sent = dataOf m.sent ++ [restrict m.mask (content heap c)]

theorem quiet_refl (heap : List Upd) (m : Mon) : Quiet heap m m := ⟨rfl, rfl, id, .inl ⟨rfl, rfl⟩⟩

theorem acts_quiet {i : Nat} {s : Sys} {e : Ev} {m m' : Mon} (h : Acts i s e m m') (hs : Sched m) (h1 : ∀ c mb f, e ≠ .post i c mb f)
    (h2 : e ≠ .finish i) : Quiet s.heap m m' := by
  cases h with
  | same => exact quiet_refl _ m
  | setup ok =>
    unfold Mon.setup
    split
    · rename_i hc
      exact ⟨rfl, rfl, fun h => absurd hc h, .inl ⟨rfl, by simp only [dataOf_append]; simp [dataOf]⟩⟩
    · exact quiet_refl _ m
  | push c mb f => exact absurd rfl (h1 c mb f)
  | poke c mb f => exact absurd rfl (h1 c mb f)
  | finish => exact absurd rfl h2
  | ctl a b d =>
    rcases ctl_cases m a b d with ⟨h, _⟩ | ⟨hc, h⟩ | ⟨hst, c, h⟩
    · rw [h]; exact quiet_refl _ m
    · rw [h]; unfold Mon.cleanup; rw [if_neg (by rw [hc]; simp)]
      exact ⟨rfl, rfl, fun _ => by simp, .inl ⟨rfl, rfl⟩⟩
    · rw [h]
      have a1 := ack_fields m a
      have a2 := startStop_fields (m.ack a) b
      refine ⟨a2.2.2.2.2.2.2.1.trans a1.2.2.2.2.2.2.2.2.1, a2.2.2.2.2.1.trans a1.2.2.2.2.2.2.1, fun hm => ?_, .inl ⟨a2.1.trans a1.2.1, ?_⟩⟩
      · simp only [a2.2.2.2.2.2.2.2.2]
        cases b with
        | none => simp only [a1.1]; exact hm
        | some b => cases b <;> simp
      · simp only [a2.2.1, a1.2.2.1]
  | cancel =>
    unfold Mon.cancel
    split
    · exact ⟨rfl, rfl, fun _ => by simp, .inl ⟨rfl, rfl⟩⟩
    · exact quiet_refl _ m
  | close =>
    unfold Mon.cleanup
    split
    · exact quiet_refl _ m
    · exact ⟨rfl, rfl, fun _ => by simp, .inl ⟨rfl, rfl⟩⟩
  | work =>
    rcases runJob_sends s.heap m with ⟨h, _⟩ | ⟨hj, h⟩
    · rw [h]; exact quiet_refl _ m
    · have hj1 := runJob_jobs hs hj
      cases h with
      | nothing h => rw [h]; exact ⟨rfl, rfl, id, .inl ⟨rfl, rfl⟩⟩
      | junk0 h0 hq h => rw [h]; exact ⟨rfl, rfl, id, .inl ⟨rfl, by simp only [dataOf_append]; simp [dataOf]⟩⟩
      | data c q hq h0 hw h =>
        rw [h]
        obtain ⟨p1, p2, p3, p4, p5, p6, p7, p8, p9, p10, p11, p12⟩ := popped_fields m s.heap c q hj1
        refine ⟨p8, p6, fun h => by rw [p1]; exact h, .inr (.inr ⟨c, by rw [p2]; exact hq, ?_⟩)⟩
        rw [p3, dataOf_append]; rfl
      | final q hq h0 h =>
        rw [h]; exact ⟨rfl, rfl, fun _ => by simp, .inr (.inl ⟨hq, by simp only [dataOf_append]; simp [dataOf]⟩)⟩
      | junk q hq h0 h =>
        rw [h]; exact ⟨rfl, rfl, id, .inr (.inl ⟨hq, by simp only [dataOf_append]; simp [dataOf]⟩)⟩

theorem Quiet.view {heap : List Upd} {m m' : Mon} (h : Quiet heap m m') {k : Nat} (hk : m.mask[k]? = some true) :
    view heap m' k = view heap m k := by
  unfold Mon.view
  rcases h.move with ⟨h1, h2⟩ | ⟨h1, h2⟩ | ⟨c, h1, h2⟩
  · rw [h1, h2]
  · rw [h1, h2]; rfl
  · rw [h1, h2]
    have : cells (some c :: m'.queue) = c :: cells m'.queue := rfl
    rw [this, List.map_cons, List.append_assoc]
    rw [lastOf_append, lastOf_append k (dataOf m.sent)]
    congr 1
    rw [lastOf_append, show content heap c :: (cells m'.queue).map (content heap) = [content heap c] ++ (cells m'.queue).map (content heap) from rfl,
      lastOf_append]
    congr 1
    simp [lastOf, fld_restrict k m.mask _ hk]

/-- only Values which exist are queued -/
theorem run_valid (i : Nat) : ∀ es m, (run start es).mons[i]? = some m → ∀ c, some c ∈ m.queue → c < (run start es).heap.length := by
  apply run_ind i (fun es m => ∀ c, some c ∈ m.queue → c < (run start es).heap.length)
  · intro es p n q mask _ c h; simp [newMon] at h
  · intro es e m m' hm hact ih c hc
    have hs := run_sched i es m hm
    have hlen : (run start es).heap.length ≤ (run start (es ++ [e])).heap.length := by
      rw [run_snoc]
      rcases step_heap (run start es) e with h | ⟨u, _, h⟩ | ⟨j, c, mb, f, b, _, _, h⟩ <;> rw [h] <;> simp
    refine Nat.lt_of_lt_of_le ?_ hlen
    by_cases hq : some c ∈ m.queue
    · exact ih c hq
    by_cases h1 : ∃ c mb f, e = .post i c mb f
    · obtain ⟨c', mb, f, rfl⟩ := h1
      cases hact with
      | same => exact absurd hc hq
      | push _ _ _ _ h1 h2 h3 h4 =>
        rw [(maybeReply_fields _).2.1] at hc
        rcases List.mem_append.1 hc with h | h
        · exact absurd h hq
        · have : c = c' := by simpa using h
          subst this
          exact testmask_nonempty h3
      | poke => rw [(maybeReply_fields _).2.1] at hc; exact absurd hc hq
    · by_cases h2 : e = .finish i
      · subst h2
        cases hact with
        | same => exact absurd hc hq
        | finish =>
          unfold Mon.finish at hc
          split at hc
          · exact absurd hc hq
          · rw [(maybeReply_fields _).2.1] at hc
            rcases List.mem_append.1 hc with h | h
            · exact absurd h hq
            · simp at h
      · have := (acts_quiet hact hs (fun c mb f h => h1 ⟨c, mb, f, h⟩) h2).move
        rcases this with ⟨h, _⟩ | ⟨h, _⟩ | ⟨c', h, _⟩
        · rw [h] at hc; exact absurd hc hq
        · exact absurd (by rw [h]; simp [hc]) hq
        · exact absurd (by rw [h]; simp [hc]) hq

/-- a subscription to which nothing was posted -/
theorem run_unposted (i : Nat) : ∀ es m, (run start es).mons[i]? = some m → (∀ c mb f, Ev.post i c mb f ∉ es) →
    cells m.queue = [] ∧ dataOf m.sent = [] := by
  apply run_ind i (fun es m => (∀ c mb f, Ev.post i c mb f ∉ es) → cells m.queue = [] ∧ dataOf m.sent = [])
  · intro es p n q mask _ _; exact ⟨rfl, rfl⟩
  · intro es e m m' hm hact ih hno
    have hs := run_sched i es m hm
    obtain ⟨i1, i2⟩ := ih fun c mb f h => hno c mb f (by simp [h])
    by_cases h2 : e = .finish i
    · subst h2
      cases hact with
      | same => exact ⟨i1, i2⟩
      | finish =>
        unfold Mon.finish
        split
        · exact ⟨i1, i2⟩
        · obtain ⟨f1, f2, f3, f4⟩ := maybeReply_fields { m with finished := true, queue := m.queue ++ [none] }
          rw [f2, f3]
          refine ⟨?_, i2⟩
          rw [cells_append, i1]; rfl
    · have := (acts_quiet hact hs (fun c mb f h => hno c mb f (by simp [h])) h2).move
      rcases this with ⟨h3, h4⟩ | ⟨h3, h4⟩ | ⟨c', h3, h4⟩
      · rw [h3, h4]; exact ⟨i1, i2⟩
      · rw [h4]; refine ⟨?_, i2⟩
        rw [h3] at i1; exact i1
      · rw [h3] at i1; simp [cells] at i1

/-- an event which does not post to `i`: what `i` will know is the same, except that an update which is posted to another
subscription may become visible early -/
theorem view_step {i : Nat} {es : List Ev} {e : Ev} {m : Mon} (hm : (run start es).mons[i]? = some m) (h1 : ∀ c mb f, e ≠ .post i c mb f)
    (h2 : e ≠ .finish i) {k : Nat} (hk : m.mask[k]? = some true) :
    ∃ m', (run start (es ++ [e])).mons[i]? = some m' ∧ m'.mask = m.mask ∧ m'.finished = m.finished ∧ (m.state ≠ .creating → m'.state ≠ .creating) ∧
      (view (run start (es ++ [e])).heap m' k = view (run start es).heap m k
        ∨ ∃ j c mb f, e = .post j c mb f ∧ fld k (content (run start es).heap c) ≠ none ∧
          view (run start (es ++ [e])).heap m' k = fld k (content (run start es).heap c)) := by
  obtain ⟨m', h3, hact⟩ := step_acts hm e
  have hq := acts_quiet hact (run_sched i es m hm) h1 h2
  refine ⟨m', by rw [run_snoc]; exact h3, hq.mask, hq.finished, hq.creating, ?_⟩
  have hv := hq.view hk
  rw [← hv]
  have hval : ∀ c, c ∈ cells m'.queue → c < (run start es).heap.length := by
    intro c hc
    refine run_valid i es m hm c ?_
    have hc := mem_cells.1 hc
    rcases hq.move with ⟨h, _⟩ | ⟨h, _⟩ | ⟨c', h, _⟩
    · rw [← h]; exact hc
    · rw [h]; simp [hc]
    · rw [h]; simp [hc]
  rw [run_snoc]
  rcases step_heap (run start es) e with h | ⟨u, _, h⟩ | ⟨j, c, mb, f, b, he, _, h⟩
  · rw [h]; exact .inl rfl
  · rw [h]
    left
    unfold view
    congr 2
    apply List.map_congr_left
    intro c hc
    exact content_append _ _ _ (hval c hc)
  · rw [h]
    unfold view
    rw [lastOf_append, lastOf_append]
    rcases lastOf_squash k (content (run start es).heap c) (content (run start es).heap)
        (content ((run start es).heap.modify b fun u => merge u (content (run start es).heap c)))
        (fun d => by
          by_cases hd : b = d
          · subst hd
            by_cases hl : b < (run start es).heap.length
            · exact .inr (content_modify_eq _ _ _ hl)
            · left; rw [List.modify_eq_self (by omega)]
          · exact .inl (content_modify_ne _ _ _ _ hd)) (cells m'.queue) with h' | ⟨h5, h6⟩
    · rw [h']; exact .inl rfl
    · refine .inr ⟨j, c, mb, f, he, h5, ?_⟩
      rw [h6]
      cases hp : fld k (content (run start es).heap c) with
      | none => exact absurd hp h5
      | some x => rfl

theorem view_step_heap {i : Nat} {es : List Ev} {e : Ev} {m : Mon} (hm : (run start es).mons[i]? = some m) (h1 : ∀ c mb f, e ≠ .post i c mb f)
    (h2 : e ≠ .finish i) (hh : (run start (es ++ [e])).heap = (run start es).heap) :
    ∃ m', (run start (es ++ [e])).mons[i]? = some m' ∧ m'.mask = m.mask ∧ m'.finished = m.finished ∧ (m.state ≠ .creating → m'.state ≠ .creating) ∧
      ∀ k, m.mask[k]? = some true → view (run start (es ++ [e])).heap m' k = view (run start es).heap m k := by
  obtain ⟨m', h3, hact⟩ := step_acts hm e
  have hq := acts_quiet hact (run_sched i es m hm) h1 h2
  exact ⟨m', by rw [run_snoc]; exact h3, hq.mask, hq.finished, hq.creating, fun k hk => by rw [hh]; exact hq.view hk⟩

theorem view_value {i : Nat} {es : List Ev} {u : Upd} {m : Mon} (hm : (run start es).mons[i]? = some m) :
    (run start (es ++ [.value u])).mons[i]? = some m ∧ ∀ k, view (run start (es ++ [.value u])).heap m k = view (run start es).heap m k := by
  rw [run_snoc]
  refine ⟨hm, fun k => ?_⟩
  unfold view
  congr 2
  apply List.map_congr_left
  intro c hc
  exact content_append _ _ _ (run_valid i es m hm c (mem_cells.1 hc))

theorem merge_self : ∀ u : Upd, merge u u = u
  | [] => rfl
  | x :: u => by simp [merge, merge_self u]

/-- the first Value posted to a subscription is not merged -/
theorem first_post_heap {i : Nat} {es : List Ev} (h0 : ∀ c mb f, Ev.post i c mb f ∉ es) (hf : ∀ j, Ev.finish j ∉ es) (c : Nat) :
    (run start (es ++ [.post i c false false])).heap = (run start es).heap := by
  rw [run_snoc, post_heap]
  cases hm : (run start es).mons[i]? with
  | none => simp [squashTarget, hm]
  | some m =>
    have hc := (run_unposted i es m hm h0).1
    have hl := (run_sched i es m hm).limit
    have hq : m.queue = [] := by
      cases hq : m.queue with
      | nil => rfl
      | cons x q =>
        rw [hq] at hc
        cases x with
        | some c => simp [cells] at hc
        | none =>
          have hfin := run_fin i es m hm
          exact absurd (hfin.asked (hfin.last [] q hq).2) (hf i)
    have : squashTarget (run start es) i c false false = none := by
      unfold squashTarget
      simp only [hm]
      rw [if_pos (by simp [hq, hl])]
    rw [this]

/-- post() : what `i` will know are the new values -/
theorem view_post {i : Nat} {es : List Ev} {c : Nat} {m : Mon} (hm : (run start es).mons[i]? = some m)
    (h1 : m.state ≠ .creating) (h2 : m.finished = false) {k : Nat} (hk : m.mask[k]? = some true) :
    ∃ m', (run start (es ++ [.post i c false false])).mons[i]? = some m' ∧ m'.mask = m.mask ∧ m'.finished = false ∧ m'.state ≠ .creating ∧
      view (run start (es ++ [.post i c false false])).heap m' k = (fld k (content (run start es).heap c)).or (view (run start es).heap m k) := by
  have hs := run_sched i es m hm
  have hfin := run_fin i es m hm
  obtain ⟨m', h3, hact⟩ := step_acts hm (.post i c false false)
  rw [run_snoc]
  refine ⟨m', h3, ?_⟩
  have hheap := post_heap (run start es) i c false false
  unfold squashTarget at hheap
  simp only [hm] at hheap
  cases hact with
  | same _ _ _ _ _ h4 =>
    have ht : testmask m.mask (content (run start es).heap c) = false := by
      rcases h4 c false false rfl with h | h | h
      · cases ht : testmask m.mask (content (run start es).heap c) with
        | false => rfl
        | true => simp [offer, hm, ht] at h
      · exact absurd h h1
      · rw [h2] at h; cases h
    refine ⟨rfl, h2, h1, ?_⟩
    rw [if_pos (by simp [ht])] at hheap
    rw [hheap, testmask_fld ht hk]; rfl
  | push _ _ _ _ _ _ h3 h4 =>
    obtain ⟨f1, f2, f3, f4, f5, f6, f7, f8, f9, f10⟩ := maybeReply_fields { m with queue := m.queue ++ [some c] }
    have h4 : m.queue.length < m.limit := by simpa using h4
    rw [if_pos (by simp [h4])] at hheap
    refine ⟨f8, f6.trans h2, by rw [f1]; exact h1, ?_⟩
    rw [hheap]
    unfold view
    rw [f2, f3, cells_append, List.map_append, ← List.append_assoc]
    exact lastOf_snoc k _ _
  | poke _ _ _ _ _ _ ht h4 h5 =>
    obtain ⟨f1, f2, f3, f4, f5, f6, f7, f8, f9, f10⟩ := maybeReply_fields m
    refine ⟨f8, f6.trans h2, by rw [f1]; exact h1, ?_⟩
    rw [if_neg (by simp only [h1, h2, ht]; simp; omega)] at hheap
    have hne : m.queue ≠ [] := by
      intro h
      rw [h] at h4
      have := hs.limit
      simp at h4
      omega
    obtain ⟨q, x, hqx⟩ : ∃ q x, m.queue = q ++ [x] := by
      rcases List.eq_nil_or_concat m.queue with h | ⟨q, x, h⟩
      · exact absurd h hne
      · exact ⟨q, x, by simpa using h⟩
    cases x with
    | none => have := (hfin.last q [] hqx).2; rw [h2] at this; cases this
    | some b =>
      rw [hqx] at hheap
      simp only [List.getLast?_append, List.getLast?_singleton, Option.some_or] at hheap
      rw [hheap]
      have hb : b < (run start es).heap.length := run_valid i es m hm b (by rw [hqx]; simp)
      unfold view
      rw [f2, f3, hqx, cells_append, List.map_append, List.map_append, ← List.append_assoc, ← List.append_assoc]
      have e1 : ∀ g : Nat → Upd, (cells [some b]).map g = [g b] := fun g => rfl
      rw [e1, e1, lastOf_snoc, lastOf_snoc, content_modify_eq _ _ _ hb, fld_merge]
      rw [lastOf_append, lastOf_append]
      rcases lastOf_squash k (content (run start es).heap c) (content (run start es).heap)
          (content ((run start es).heap.modify b fun u => merge u (content (run start es).heap c)))
          (fun d => by
            by_cases hd : b = d
            · subst hd; exact .inr (content_modify_eq _ _ _ hb)
            · exact .inl (content_modify_ne _ _ _ _ hd)) (cells q) with h' | ⟨h5, h6⟩
      · rw [h']
        cases fld k (content (run start es).heap c) <;> simp
      · cases hp : fld k (content (run start es).heap c) with
        | none => exact absurd hp h5
        | some x => simp

end Pvxs.Mon
