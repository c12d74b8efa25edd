import Verif.Spec.EvLoop
/-
C52: work which is handed to an event loop.
-/
namespace Pvxs.Props.Evl
open Pvxs.EvLoop Spec.EvLoop

/-! ### what has been seen -/

theorem accepted_append (a b : List Ev) : accepted (a ++ b) = accepted a ++ accepted b := by unfold accepted; exact List.filterMap_append ..
theorem ran_append (a b : List Ev) : ran (a ++ b) = ran a ++ ran b := by unfold ran; exact List.filterMap_append ..

structure Inv (tr : List Ev) (s : St) : Prop where
  ids : (accepted tr).map (·.id) = List.range s.next
  queue : ∃ old, accepted tr = old ++ (s.todo ++ s.actions) ∧ old.map (·.id) = ran tr
  calls : ∀ t id, Calling s t id → (∃ w ∈ s.todo ++ s.actions, w.id = id ∧ w.notify = some t) ∨
    (s.signal t = true ∧ id ∈ ran tr ∧ ∃ w ∈ accepted tr, w.id = id ∧ w.notify = some t ∧ s.result t = w.throws)
  notifies : ∀ w ∈ s.todo ++ s.actions, ∀ t, w.notify = some t → Calling s t w.id ∧ s.signal t = false
  signalled : ∀ t, s.signal t = true → ∃ id, Calling s t id
  stopped : .stopped ∈ tr → s.running = false
  returned : ∀ a b t id threw, tr = a ++ .returned t id threw :: b → id ∈ ran a ∧ ∃ w ∈ accepted a, w.id = id ∧ w.notify = some t ∧ w.throws = threw
  after : ∀ a b, tr = a ++ .stopped :: b → accepted b = []
  /-- the loop is going to be woken -/
  woken : s.actions = [] ↔ s.wake = false ∧ ∀ t a, s.pc t ≠ .wake a
  one : ∀ t a, s.pc t = .wake a → s.wake = false ∧ ∀ t' a', s.pc t' = .wake a' → t' = t

/-- nothing is to be seen -/
theorem Inv.silent {tr : List Ev} {s s' : St} (h : Inv tr s) (hn : s'.next = s.next) (hq : s'.todo ++ s'.actions = s.todo ++ s.actions)
    (hc : ∀ t id, Calling s' t id ↔ Calling s t id) (hs : s'.signal = s.signal) (hr : s'.result = s.result) (hrun : s'.running = false ∨ s'.running = s.running)
    (hw : s'.actions = [] ↔ s'.wake = false ∧ ∀ t a, s'.pc t ≠ .wake a) (ho : ∀ t a, s'.pc t = .wake a → s'.wake = false ∧ ∀ t' a', s'.pc t' = .wake a' → t' = t) :
    Inv (tr ++ []) s' := by
  rw [List.append_nil]
  refine ⟨by rw [hn]; exact h.ids, by rw [hq]; exact h.queue, fun t id ht => ?_, fun w hw t hn => ?_, fun t ht => ?_, fun hst => ?_, h.returned, h.after, hw, ho⟩
  · rw [hq, hs, hr]; exact h.calls t id ((hc t id).mp ht)
  · rw [hq] at hw
    have := h.notifies w hw t hn
    exact ⟨(hc _ _).mpr this.1, by rw [hs]; exact this.2⟩
  · rw [hs] at ht
    obtain ⟨id, hid⟩ := h.signalled t ht
    exact ⟨id, (hc _ _).mpr hid⟩
  · rcases hrun with e | e
    · exact e
    · rw [e]; exact h.stopped hst

theorem split_last {tr a b : List Ev} {e x : Ev} (h : tr ++ [e] = a ++ x :: b) : (b = [] ∧ x = e ∧ a = tr) ∨ ∃ b', b = b' ++ [e] ∧ tr = a ++ x :: b' := by
  rcases List.eq_nil_or_concat b with rfl | ⟨b', y, rfl⟩
  · left
    have := List.append_inj' h rfl
    exact ⟨rfl, by simpa using this.2.symm, this.1.symm⟩
  · right
    rw [List.concat_eq_append, ← List.cons_append, ← List.append_assoc] at h
    have := List.append_inj' h rfl
    have e2 : [e] = [y] := this.2
    rw [List.concat_eq_append, e2]
    exact ⟨b', rfl, this.1⟩

/-- an event which is none of those which matter here -/
theorem Inv.other {tr : List Ev} {s : St} (h : Inv tr s) (e : Ev) (h1 : accepted [e] = []) (h2 : ran [e] = []) (h3 : e ≠ .stopped) (h4 : ∀ t id x, e ≠ .returned t id x) :
    Inv (tr ++ [e]) s := by
  have ha : accepted (tr ++ [e]) = accepted tr := by rw [accepted_append, h1, List.append_nil]
  have hr : ran (tr ++ [e]) = ran tr := by rw [ran_append, h2, List.append_nil]
  refine ⟨by rw [ha]; exact h.ids, by rw [ha, hr]; exact h.queue, by rw [ha, hr]; exact h.calls, h.notifies, h.signalled, fun hs => ?_, fun a b t id x hx => ?_,
    fun a b hx => ?_, h.woken, h.one⟩
  · rcases List.mem_append.mp hs with hs | hs
    · exact h.stopped hs
    · exact absurd (List.mem_singleton.mp hs).symm h3
  · rcases split_last hx with ⟨_, e', _⟩ | ⟨b', _, e'⟩
    · exact absurd e'.symm (h4 t id x)
    · exact h.returned a b' t id x e'
  · rcases split_last hx with ⟨_, e', _⟩ | ⟨b', e1, e'⟩
    · exact absurd e'.symm h3
    · rw [e1, accepted_append, h.after a b' e', h1]; rfl

theorem inv_push {tr : List Ev} {s : St} (h : Inv tr s) (t : Nat) (notify throws : Bool) : Inv (tr ++ (push s t notify throws).1) (push s t notify throws).2 := by
  unfold push
  by_cases hpc : s.pc t ≠ .idle
  · rw [if_pos hpc]; simpa using h
  rw [if_neg hpc]
  have hidle : s.pc t = .idle := Classical.byContradiction fun h => hpc h
  rcases Bool.eq_false_or_eq_true s.running with hrun | hrun
  rotate_left
  · rw [if_pos hrun]
    exact h.other _ rfl rfl (by simp) (by simp)
  · rw [if_neg (by rw [hrun]; decide)]
    dsimp only
    have hns : .stopped ∉ tr := fun hs => by rw [h.stopped hs] at hrun; cases hrun
    have hsig : s.signal t = false := by
      cases hs : s.signal t with
      | false => rfl
      | true =>
        obtain ⟨id, hid⟩ := h.signalled t hs
        rcases hid with hid | hid <;> (rw [hidle] at hid; cases hid)
    generalize hw : ({ id := s.next, notify := if notify then some t else none, throws := throws } : Work) = w
    have hwid : w.id = s.next := by rw [← hw]
    have hwn : w.notify = if notify then some t else none := by rw [← hw]
    generalize hp : (if s.actions = [] then Pc.wake (if notify then some s.next else none) else if notify then Pc.wait s.next else Pc.idle) = p
    have hacc : accepted (tr ++ [.accepted w]) = accepted tr ++ [w] := by rw [accepted_append]; rfl
    have hran : ran (tr ++ [.accepted w]) = ran tr := by rw [ran_append]; exact List.append_nil _
    have hpcs : ∀ t', ((St.setPc { s with actions := s.actions ++ [w], next := s.next + 1 } t p)).pc t' = if t' = t then p else s.pc t' := fun _ => rfl
    have hcall : ∀ t' id, Calling (St.setPc { s with actions := s.actions ++ [w], next := s.next + 1 } t p) t' id ↔
        (t' = t ∧ notify = true ∧ id = s.next) ∨ (t' ≠ t ∧ Calling s t' id) := by
      intro t' id
      unfold Calling
      rw [hpcs]
      by_cases e : t' = t
      · rw [if_pos e, ← hp]
        simp only [e, true_and, ne_eq, not_true_eq_false, false_and, or_false]
        split
        · cases notify <;> simp [eq_comm]
        · cases notify <;> simp [eq_comm]
      · rw [if_neg e]
        simp [e]
    refine ⟨?_, ?_, ?_, ?_, ?_, ?_, ?_, ?_, ?_, ?_⟩
    · rw [hacc, List.map_append, h.ids, List.map_cons, List.map_nil, hwid]
      exact List.range_succ.symm
    · obtain ⟨old, h1, h2⟩ := h.queue
      refine ⟨old, ?_, by rw [hran]; exact h2⟩
      rw [hacc, h1]
      show _ = old ++ (s.todo ++ (s.actions ++ [w]))
      simp
    · intro t' id hc
      rcases (hcall t' id).mp hc with ⟨rfl, hn, rfl⟩ | ⟨hne, hc⟩
      · left
        refine ⟨w, ?_, hwid, by rw [hwn, if_pos hn]⟩
        show w ∈ s.todo ++ (s.actions ++ [w])
        simp
      · rcases h.calls t' id hc with ⟨v, hv, h1⟩ | ⟨h1, h2, v, hv, h3⟩
        · left
          refine ⟨v, ?_, h1⟩
          show v ∈ s.todo ++ (s.actions ++ [w])
          rw [← List.append_assoc]
          exact List.mem_append_left _ hv
        · right
          refine ⟨h1, by rw [hran]; exact h2, v, by rw [hacc]; exact List.mem_append_left _ hv, h3⟩
    · intro v hv t' ht'
      have hv' : v ∈ s.todo ++ (s.actions ++ [w]) := hv
      rw [← List.append_assoc, List.mem_append, List.mem_singleton] at hv'
      rcases hv' with hv' | rfl
      · obtain ⟨h1, h2⟩ := h.notifies v hv' t' ht'
        have hne : t' ≠ t := by
          rintro rfl
          rcases h1 with h1 | h1 <;> (rw [hidle] at h1; cases h1)
        exact ⟨(hcall _ _).mpr (Or.inr ⟨hne, h1⟩), h2⟩
      · rw [hwn] at ht'
        cases hnot : notify with
        | false => rw [hnot] at ht'; cases ht'
        | true =>
          rw [hnot] at ht'
          cases ht'
          exact ⟨(hcall _ _).mpr (Or.inl ⟨rfl, hnot, hwid⟩), hsig⟩
    · intro t' ht'
      have ht' : s.signal t' = true := ht'
      obtain ⟨id, hid⟩ := h.signalled t' ht'
      have hne : t' ≠ t := fun e => by rw [e, hsig] at ht'; cases ht'
      exact ⟨id, (hcall _ _).mpr (Or.inr ⟨hne, hid⟩)⟩
    · intro hs
      rcases List.mem_append.mp hs with hs | hs
      · exact absurd hs hns
      · simp at hs
    · intro a b t' id x hx
      rcases split_last hx with ⟨_, e', _⟩ | ⟨b', _, e'⟩
      · cases e'
      · exact h.returned a b' t' id x e'
    · intro a b hx
      rcases split_last hx with ⟨_, e', _⟩ | ⟨b', _, e'⟩
      · cases e'
      · exact absurd (by rw [e']; simp) hns
    · constructor
      · intro e
        have e : s.actions ++ [w] = [] := e
        simp at e
      · rintro ⟨h1, h2⟩
        exfalso
        have h1 : s.wake = false := h1
        by_cases e : s.actions = []
        · have := h2 t (if notify then some s.next else none)
          rw [hpcs, if_pos rfl, ← hp, if_pos e] at this
          exact this rfl
        · refine e (h.woken.mpr ⟨h1, fun t' a ht' => ?_⟩)
          refine h2 t' a ?_
          rw [hpcs, if_neg]
          · exact ht'
          · rintro rfl; rw [hidle] at ht'; cases ht'
    · intro t' a ht'
      show s.wake = false ∧ _
      by_cases e : s.actions = []
      · have hk := h.woken.mp e
        refine ⟨hk.1, fun t'' a' ht'' => ?_⟩
        rw [hpcs] at ht' ht''
        have e1 : t' = t := Classical.byContradiction fun hne => by rw [if_neg hne] at ht'; exact hk.2 _ _ ht'
        have e2 : t'' = t := Classical.byContradiction fun hne => by rw [if_neg hne] at ht''; exact hk.2 _ _ ht''
        rw [e1, e2]
      · have notp : ∀ a, p ≠ .wake a := by
          intro a
          rw [← hp, if_neg e]
          cases notify <;> simp
        have back : ∀ t'' a, (St.setPc { s with actions := s.actions ++ [w], next := s.next + 1 } t p).pc t'' = .wake a → s.pc t'' = .wake a := by
          intro t'' a hh
          rw [hpcs] at hh
          split at hh
          · exact absurd hh (notp a)
          · exact hh
        obtain ⟨h1, h2⟩ := h.one t' a (back _ _ ht')
        exact ⟨h1, fun t'' a' hh => h2 t'' a' (back _ _ hh)⟩

theorem inv_exec {tr : List Ev} {s : St} (h : Inv tr s) (w : Work) (rest : List Work) (hw : s.todo = w :: rest) : Inv (tr ++ (step s .exec).1) (step s .exec).2 := by
  have hacc : accepted (tr ++ [.ran w.id]) = accepted tr := by rw [accepted_append]; exact List.append_nil _
  have hran : ran (tr ++ [.ran w.id]) = ran tr ++ [w.id] := by rw [ran_append]; rfl
  have hwm : w ∈ s.todo ++ s.actions := by rw [hw]; simp
  have hwa : w ∈ accepted tr := by
    obtain ⟨old, h1, _⟩ := h.queue
    rw [h1]; exact List.mem_append_right _ hwm
  have hsub : ∀ v, v ∈ rest ++ s.actions → v ∈ s.todo ++ s.actions := by
    intro v hv; rw [hw, List.cons_append]; exact List.mem_cons_of_mem _ hv
  have hnodup : ((s.todo ++ s.actions).map (·.id)).Nodup := by
    obtain ⟨old, h1, _⟩ := h.queue
    have := List.nodup_range (n := s.next)
    rw [← h.ids, h1, List.map_append, List.nodup_append] at this
    exact this.2.1
  have hq : ∃ old, accepted (tr ++ [.ran w.id]) = old ++ (rest ++ s.actions) ∧ old.map (·.id) = ran (tr ++ [.ran w.id]) := by
    obtain ⟨old, h1, h2⟩ := h.queue
    refine ⟨old ++ [w], ?_, ?_⟩
    · rw [hacc, h1, hw]; simp
    · rw [hran, List.map_append, h2]; rfl
  have hstop : .stopped ∈ tr ++ [.ran w.id] → s.running = false := by
    intro hs
    rcases List.mem_append.mp hs with hs | hs
    · exact h.stopped hs
    · simp at hs
  have hret : ∀ a b t id threw, tr ++ [.ran w.id] = a ++ .returned t id threw :: b → id ∈ ran a ∧ ∃ w ∈ accepted a, w.id = id ∧ w.notify = some t ∧ w.throws = threw := by
    intro a b t id x hx
    rcases split_last hx with ⟨_, e', _⟩ | ⟨b', _, e'⟩
    · cases e'
    · exact h.returned a b' t id x e'
  have haft : ∀ a b, tr ++ [.ran w.id] = a ++ .stopped :: b → accepted b = [] := by
    intro a b hx
    rcases split_last hx with ⟨_, e', _⟩ | ⟨b', e1, e'⟩
    · cases e'
    · rw [e1, accepted_append, h.after a b' e']; rfl
  cases hn : w.notify with
  | none =>
    have e : step s .exec = ([.ran w.id], { s with todo := rest }) := by simp only [step, hw, hn]
    rw [e]
    refine ⟨by rw [hacc]; exact h.ids, hq, ?_, fun v hv t ht => h.notifies v (hsub v hv) t ht, h.signalled, hstop, hret, haft, h.woken, h.one⟩
    intro t id hc
    rcases h.calls t id hc with ⟨v, hv, h1, h2⟩ | ⟨h1, h2, v, hv, h3⟩
    · left
      refine ⟨v, ?_, h1, h2⟩
      rw [hw, List.cons_append, List.mem_cons] at hv
      rcases hv with rfl | hv
      · rw [hn] at h2; cases h2
      · exact hv
    · right
      exact ⟨h1, by rw [hran]; exact List.mem_append_left _ h2, v, by rw [hacc]; exact hv, h3⟩
  | some t₀ =>
    have e : step s .exec = ([.ran w.id], St.notify { s with todo := rest } t₀ true w.throws) := by simp only [step, hw, hn]
    rw [e]
    obtain ⟨hcw, hsw⟩ := h.notifies w hwm t₀ hn
    have hsig : ∀ t, (St.notify { s with todo := rest } t₀ true w.throws).signal t = if t = t₀ then true else s.signal t := fun _ => rfl
    have hres : ∀ t, (St.notify { s with todo := rest } t₀ true w.throws).result t = if t = t₀ then w.throws else s.result t := fun _ => rfl
    have huniq : ∀ id, Calling s t₀ id → id = w.id := by
      intro id hc
      rcases hc with hc | hc <;> rcases hcw with hcw | hcw <;> rw [hc] at hcw <;> cases hcw <;> rfl
    refine ⟨by rw [hacc]; exact h.ids, hq, ?_, ?_, ?_, hstop, hret, haft, h.woken, h.one⟩
    · intro t id hc
      have hc : Calling s t id := hc
      by_cases et : t = t₀
      · subst et
        right
        have := huniq id hc
        subst this
        refine ⟨by rw [hsig, if_pos rfl], by rw [hran]; simp, w, by rw [hacc]; exact hwa, rfl, hn, by rw [hres, if_pos rfl]⟩
      · rcases h.calls t id hc with ⟨v, hv, h1, h2⟩ | ⟨h1, h2, v, hv, h3, h4, h5⟩
        · left
          refine ⟨v, ?_, h1, h2⟩
          rw [hw, List.cons_append, List.mem_cons] at hv
          rcases hv with rfl | hv
          · rw [hn] at h2; cases h2; exact absurd rfl et
          · exact hv
        · right
          exact ⟨by rw [hsig, if_neg et]; exact h1, by rw [hran]; exact List.mem_append_left _ h2, v, by rw [hacc]; exact hv, h3, h4, by rw [hres, if_neg et]; exact h5⟩
    · intro v hv t ht
      obtain ⟨h1, h2⟩ := h.notifies v (hsub v hv) t ht
      refine ⟨h1, ?_⟩
      rw [hsig]
      by_cases et : t = t₀
      · exfalso
        subst et
        have := huniq v.id h1
        rw [hw, List.cons_append, List.map_cons, List.nodup_cons] at hnodup
        exact hnodup.1 (List.mem_map.mpr ⟨v, hv, this⟩)
      · rw [if_neg et]; exact h2
    · intro t ht
      rw [hsig] at ht
      by_cases et : t = t₀
      · subst et; exact ⟨w.id, hcw⟩
      · rw [if_neg et] at ht; exact h.signalled t ht

theorem inv_ret {tr : List Ev} {s : St} (h : Inv tr s) (t : Nat) : Inv (tr ++ (step s (.ret t)).1) (step s (.ret t)).2 := by
  simp only [step]
  split
  · rename_i id hpc
    split
    · rename_i hs
      have hcall : Calling s t id := Or.inr hpc
      have hmine : id ∈ ran tr ∧ ∃ w ∈ accepted tr, w.id = id ∧ w.notify = some t ∧ s.result t = w.throws := by
        rcases h.calls t id hcall with ⟨w, hw, h1, h2⟩ | ⟨_, h1⟩
        · have := (h.notifies w hw t h2).2
          rw [hs] at this; cases this
        · exact h1
      have hacc : accepted (tr ++ [.returned t id (s.result t)]) = accepted tr := by rw [accepted_append]; exact List.append_nil _
      have hran : ran (tr ++ [.returned t id (s.result t)]) = ran tr := by rw [ran_append]; exact List.append_nil _
      have hpcs : ∀ t', (St.setPc (s.notify t false false) t .idle).pc t' = if t' = t then .idle else s.pc t' := fun _ => rfl
      have hsig : ∀ t', (St.setPc (s.notify t false false) t .idle).signal t' = if t' = t then false else s.signal t' := fun _ => rfl
      have hres : ∀ t', (St.setPc (s.notify t false false) t .idle).result t' = if t' = t then false else s.result t' := fun _ => rfl
      have hc : ∀ t' id, Calling (St.setPc (s.notify t false false) t .idle) t' id ↔ t' ≠ t ∧ Calling s t' id := by
        intro t' id
        unfold Calling
        rw [hpcs]
        by_cases e : t' = t
        · rw [if_pos e]; simp [e]
        · rw [if_neg e]; simp [e]
      have hwk : ∀ t' a, (St.setPc (s.notify t false false) t .idle).pc t' = .wake a ↔ s.pc t' = .wake a := by
        intro t' a
        rw [hpcs]
        by_cases e : t' = t
        · rw [if_pos e, e, hpc]; simp
        · rw [if_neg e]
      have hq : ∀ t' id', Calling s t' id' → t' ≠ t ∨ t' = t := fun t' _ _ => (Classical.em (t' = t)).symm
      refine ⟨by rw [hacc]; exact h.ids, by rw [hacc, hran]; exact h.queue, ?_, ?_, ?_, ?_, ?_, ?_, ?_, ?_⟩
      · intro t' id' hh
        obtain ⟨hne, hh⟩ := (hc t' id').mp hh
        rw [hacc, hran, hsig, if_neg hne, hres, if_neg hne]
        exact h.calls t' id' hh
      · intro w hw t' ht'
        obtain ⟨h1, h2⟩ := h.notifies w hw t' ht'
        have hne : t' ≠ t := by rintro rfl; rw [hs] at h2; cases h2
        exact ⟨(hc _ _).mpr ⟨hne, h1⟩, by rw [hsig, if_neg hne]; exact h2⟩
      · intro t' ht'
        rw [hsig] at ht'
        by_cases e : t' = t
        · rw [if_pos e] at ht'; cases ht'
        · rw [if_neg e] at ht'
          obtain ⟨i, hi⟩ := h.signalled t' ht'
          exact ⟨i, (hc _ _).mpr ⟨e, hi⟩⟩
      · intro hst
        rcases List.mem_append.mp hst with hst | hst
        · exact h.stopped hst
        · simp at hst
      · intro a b t' id' x hx
        rcases split_last hx with ⟨_, e', e''⟩ | ⟨b', _, e'⟩
        · cases e'
          subst e''
          obtain ⟨h1, w, hw, h2, h3, h4⟩ := hmine
          exact ⟨h1, w, hw, h2, h3, h4.symm⟩
        · exact h.returned a b' t' id' x e'
      · intro a b hx
        rcases split_last hx with ⟨_, e', _⟩ | ⟨b', e1, e'⟩
        · cases e'
        · rw [e1, accepted_append, h.after a b' e']; rfl
      · show s.actions = [] ↔ s.wake = false ∧ _
        rw [h.woken]
        refine and_congr_right fun _ => forall_congr' fun t' => forall_congr' fun a => ?_
        rw [ne_eq, ne_eq, hwk]
      · intro t' a hh
        obtain ⟨h1, h2⟩ := h.one t' a ((hwk _ _).mp hh)
        exact ⟨h1, fun t'' a' hh => h2 t'' a' ((hwk _ _).mp hh)⟩
    · simpa using h
  · simpa using h

theorem inv_add {tr : List Ev} {s : St} (h : Inv tr s) (t : Nat) : Inv (tr ++ (step s (.add t)).1) (step s (.add t)).2 := by
  simp only [step]
  split
  · rename_i after hpc
    generalize hp : Pc.afterAdd after = p
    have hpcs : ∀ t', (St.setPc { s with wake := true } t p).pc t' = if t' = t then p else s.pc t' := fun _ => rfl
    have nop : ∀ a, p ≠ .wake a := by intro a; rw [← hp]; cases after <;> simp [Pc.afterAdd]
    have nw : ∀ t' a, (St.setPc { s with wake := true } t p).pc t' ≠ .wake a := by
      intro t' a hh
      rw [hpcs] at hh
      by_cases e : t' = t
      · rw [if_pos e] at hh; exact nop a hh
      · rw [if_neg e] at hh
        exact e ((h.one t after hpc).2 t' a hh)
    refine h.silent rfl rfl ?_ rfl rfl (Or.inr rfl) ?_ ?_
    · intro t' id
      unfold Calling
      rw [hpcs]
      by_cases e : t' = t
      · rw [if_pos e, e, hpc, ← hp]
        cases after <;> simp [Pc.afterAdd, eq_comm]
      · rw [if_neg e]
    · constructor
      · intro e
        exact absurd hpc ((h.woken.mp e).2 t after)
      · rintro ⟨e, _⟩
        cases e
    · intro t' a hh
      exact absurd hh (nw t' a)
  · simpa using h

theorem inv_take {tr : List Ev} {s : St} (h : Inv tr s) : Inv (tr ++ (step s .take).1) (step s .take).2 := by
  simp only [step]
  split
  · rename_i hc
    have nw : ∀ t a, s.pc t ≠ .wake a := fun t a hh => by have := (h.one t a hh).1; rw [hc.2.1] at this; cases this
    refine h.silent rfl ?_ (fun _ _ => Iff.rfl) rfl rfl (Or.inr rfl) ?_ ?_
    · show s.actions ++ [] = s.todo ++ s.actions
      rw [hc.1]; simp
    · exact ⟨fun _ => ⟨rfl, nw⟩, fun _ => rfl⟩
    · exact fun t a hh => absurd hh (nw t a)
  · simpa using h

theorem inv_step {tr : List Ev} {s : St} (h : Inv tr s) (o : Op) : Inv (tr ++ (step s o).1) (step s o).2 := by
  cases o with
  | dispatch t x => exact inv_push h t false x
  | call t x => exact inv_push h t true x
  | add t => exact inv_add h t
  | ret t => exact inv_ret h t
  | callHere x => exact h.other _ rfl rfl (by simp) (by simp)
  | take => exact inv_take h
  | exec =>
    cases hw : s.todo with
    | nil => simpa [step, hw] using h
    | cons w rest => exact inv_exec h w rest hw
  | stop =>
    show Inv (tr ++ [.stopped]) { s with running := false }
    have ha : accepted (tr ++ [.stopped]) = accepted tr := by rw [accepted_append]; exact List.append_nil _
    have hr : ran (tr ++ [.stopped]) = ran tr := by rw [ran_append]; exact List.append_nil _
    refine ⟨by rw [ha]; exact h.ids, by rw [ha, hr]; exact h.queue, by rw [ha, hr]; exact h.calls, h.notifies, h.signalled, fun _ => rfl, fun a b t id x hx => ?_,
      fun a b hx => ?_, h.woken, h.one⟩
    · rcases split_last hx with ⟨_, e', _⟩ | ⟨b', _, e'⟩
      · cases e'
      · exact h.returned a b' t id x e'
    · rcases split_last hx with ⟨e', _⟩ | ⟨b', e1, e'⟩
      · rw [e']; rfl
      · rw [e1, accepted_append, h.after a b' e']; rfl
  | exit =>
    simp only [step]
    split
    · exact h.silent rfl rfl (fun _ _ => Iff.rfl) rfl rfl (Or.inr rfl) h.woken h.one
    · simpa using h
  | leave =>
    simp only [step]
    split
    · have := h.silent (s' := { s with exited := true }) rfl rfl (fun _ _ => Iff.rfl) rfl rfl (Or.inr rfl) h.woken h.one
      rw [List.append_nil] at this
      exact this.other _ rfl rfl (by simp) (by simp)
    · simpa using h

theorem inv_run (l : List Op) : ∀ {tr : List Ev} {s : St}, Inv tr s → Inv (tr ++ (run l s).1) (run l s).2 := by
  induction l with
  | nil => intro tr s h; simpa [run] using h
  | cons o l ih =>
    intro tr s h
    have := ih (inv_step h o)
    rw [List.append_assoc] at this
    exact this

theorem inv_init : Inv [] {} := by
  refine ⟨rfl, ⟨[], rfl, rfl⟩, ?_, ?_, ?_, ?_, ?_, ?_, ?_, ?_⟩
  · rintro t id (h | h) <;> cases h
  · intro w hw; cases hw
  · intro t ht; cases ht
  · intro h; cases h
  · intro a b t id x h; simp at h
  · intro a b h; simp at h
  · exact ⟨fun _ => ⟨rfl, fun t a h => by cases h⟩, fun _ => rfl⟩
  · intro t a h; cases h

theorem inv_all (ops : List Op) : Inv (run ops {}).1 (run ops {}).2 := by
  have := inv_run ops inv_init
  rwa [List.nil_append] at this

/-! ### C52 -/

/-- C52: what is accepted is run in the order in which it was accepted, no part of it twice, and nothing else is run: at any time
what has been run is an initial part of what has been accepted -/
theorem C52_order_partial (ops : List Op) :
    ran (run ops {}).1 <+: (accepted (run ops {}).1).map (·.id) ∧ ((accepted (run ops {}).1).map (·.id)).Nodup := by
  have h := inv_all ops
  obtain ⟨old, h1, h2⟩ := h.queue
  refine ⟨?_, by rw [h.ids]; exact List.nodup_range⟩
  rw [h1, List.map_append, h2]
  exact List.prefix_append _ _

/-- C52: call() does not return before its function has been run, and it passes on what the function threw, and nothing when it threw nothing -/
theorem C52_call_partial (ops : List Op) (a b : List Ev) (t id : Nat) (threw : Bool) (he : (run ops {}).1 = a ++ .returned t id threw :: b) :
    id ∈ ran a ∧ ∃ w ∈ accepted a, w.id = id ∧ w.notify = some t ∧ w.throws = threw :=
  (inv_all ops).returned a b t id threw he

/-- C52: once the loop is told to stop nothing is accepted -/
theorem C52_stop_partial (ops : List Op) (a b : List Ev) (he : (run ops {}).1 = a ++ .stopped :: b) : accepted b = [] :=
  (inv_all ops).after a b he

/-- C52: no wakeup is lost: when all threads have returned or wait, and the loop has nothing to do, then everything which was accepted has been run,
and whoever waits in call() has been told -/
theorem C52_quiet_partial (ops : List Op) (hq : Quiet (run ops {}).2) :
    ran (run ops {}).1 = (accepted (run ops {}).1).map (·.id) ∧ ∀ t id, Calling (run ops {}).2 t id → (run ops {}).2.signal t = true := by
  have h := inv_all ops
  have ha : (run ops {}).2.actions = [] := h.woken.mpr ⟨hq.asleep, hq.threads⟩
  obtain ⟨old, h1, h2⟩ := h.queue
  rw [hq.done, ha, List.append_nil, List.append_nil] at h1
  refine ⟨by rw [h1, h2], fun t id hc => ?_⟩
  rcases h.calls t id hc with ⟨w, hw, _⟩ | ⟨h1, _⟩
  · rw [hq.done, ha] at hw; cases hw
  · exact h1

/-! ### it can always get there -/

theorem run_append (a b : List Op) : ∀ s, run (a ++ b) s = ((run a s).1 ++ (run b (run a s).2).1, (run b (run a s).2).2) := by
  induction a with
  | nil => intro s; rfl
  | cons o a ih =>
    intro s
    show ((step s o).1 ++ (run (a ++ b) (step s o).2).1, (run (a ++ b) (step s o).2).2) = _
    rw [ih]
    simp only [run, List.append_assoc]

/-- one step of the loop -/
theorem exec_shape (s : St) : (step s .exec).2.todo = s.todo.tail ∧ (step s .exec).2.pc = s.pc ∧ (step s .exec).2.wake = s.wake ∧
    (step s .exec).2.exited = s.exited := by
  cases hw : s.todo with
  | nil =>
    have e : step s .exec = ([], s) := by simp only [step, hw]
    rw [e]; exact ⟨hw, rfl, rfl, rfl⟩
  | cons w rest =>
    cases hn : w.notify with
    | none =>
      have e : step s .exec = ([.ran w.id], { s with todo := rest }) := by simp only [step, hw, hn]
      rw [e]; exact ⟨rfl, rfl, rfl, rfl⟩
    | some t =>
      have e : step s .exec = ([.ran w.id], St.notify { s with todo := rest } t true w.throws) := by simp only [step, hw, hn]
      rw [e]; exact ⟨rfl, rfl, rfl, rfl⟩

theorem exec_all : ∀ (n : Nat) (s : St), s.todo.length ≤ n → (run (List.replicate n .exec) s).2.todo = [] ∧ (run (List.replicate n .exec) s).2.pc = s.pc ∧
    (run (List.replicate n .exec) s).2.wake = s.wake ∧ (run (List.replicate n .exec) s).2.exited = s.exited := by
  intro n
  induction n with
  | zero =>
    intro s h
    have e : s.todo = [] := List.length_eq_zero_iff.mp (by omega)
    exact ⟨e, rfl, rfl, rfl⟩
  | succ n ih =>
    intro s h
    obtain ⟨h1, h2, h3, h4⟩ := exec_shape s
    have := ih (step s .exec).2 (by rw [h1, List.length_tail]; omega)
    rw [h2, h3, h4] at this
    exact this

/-- C52: and as long as the loop has not ended it does get there without any new call: from every state the threads which are inside of dispatch() or call() and the
loop can go on until all is run -/
theorem C52_progress_partial (ops : List Op) (hx : (run ops {}).2.exited = false) :
    ∃ more : List Op, (∀ o ∈ more, o = .take ∨ o = .exec ∨ ∃ t, o = .add t) ∧ Quiet (run (ops ++ more) {}).2 := by
  have h := inv_all ops
  generalize hs : (run ops {}).2 = s at *
  -- let the thread finish
  have hadd : ∃ l1 : List Op, (∀ o ∈ l1, ∃ t, o = .add t) ∧ (∀ t a, (run l1 s).2.pc t ≠ .wake a) ∧ (run l1 s).2.exited = false := by
    by_cases hw : ∃ t a, s.pc t = .wake a
    · obtain ⟨t, a, hw⟩ := hw
      refine ⟨[.add t], by simp, ?_, ?_⟩
      · have e : (run [.add t] s).2 = St.setPc { s with wake := true } t (Pc.afterAdd a) := by simp only [run, step, hw]
        rw [e]
        intro t' a' hh
        have hh : (if t' = t then Pc.afterAdd a else s.pc t') = .wake a' := hh
        split at hh
        · cases a <;> simp [Pc.afterAdd] at hh
        · rename_i hne
          exact hne ((h.one t a hw).2 t' a' hh)
      · have e : (run [.add t] s).2 = St.setPc { s with wake := true } t (Pc.afterAdd a) := by simp only [run, step, hw]
        rw [e]; exact hx
    · exact ⟨[], by simp, fun t a hh => hw ⟨t, a, hh⟩, hx⟩
  obtain ⟨l1, k1, k2, k3⟩ := hadd
  generalize hs1 : (run l1 s).2 = s1 at *
  obtain ⟨e1, e2, e3, e4⟩ := exec_all s1.todo.length s1 (Nat.le_refl _)
  generalize hs2 : (run (List.replicate s1.todo.length .exec) s1).2 = s2 at *
  have htake : ∃ l2 : List Op, (∀ o ∈ l2, o = .take) ∧ (run l2 s2).2.pc = s2.pc ∧ (run l2 s2).2.wake = false := by
    cases hw : s2.wake with
    | false => exact ⟨[], by simp, rfl, hw⟩
    | true =>
      refine ⟨[.take], by simp, ?_⟩
      have e : (run [.take] s2).2 = { s2 with todo := s2.actions, actions := [], wake := false, drain := false } := by
        simp only [run, step]
        rw [if_pos ⟨e1, hw, by rw [e4]; exact k3⟩]
      rw [e]
      exact ⟨rfl, rfl⟩
  obtain ⟨l2, m1, m2, m3⟩ := htake
  generalize hs3 : (run l2 s2).2 = s3 at *
  obtain ⟨f1, f2, f3, f4⟩ := exec_all s3.todo.length s3 (Nat.le_refl _)
  refine ⟨l1 ++ (List.replicate s1.todo.length .exec ++ (l2 ++ List.replicate s3.todo.length .exec)), ?_, ?_⟩
  · intro o ho
    simp only [List.mem_append, List.mem_replicate] at ho
    rcases ho with ho | ⟨_, ho⟩ | ho | ⟨_, ho⟩
    · exact Or.inr (Or.inr (k1 o ho))
    · exact Or.inr (Or.inl ho)
    · exact Or.inl (m1 o ho)
    · exact Or.inr (Or.inl ho)
  · have e : (run (ops ++ (l1 ++ (List.replicate s1.todo.length .exec ++ (l2 ++ List.replicate s3.todo.length .exec)))) {}).2 =
        (run (List.replicate s3.todo.length .exec) s3).2 := by
      rw [run_append, run_append, run_append, run_append]
      simp only [hs, hs1, hs2, hs3]
    rw [e]
    exact ⟨by rw [f2, m2, e2]; exact k2, f1, by rw [f3]; exact m3⟩

/-! ### the end of the loop -/

structure Draining (s : St) : Prop where
  stopped : s.running = false
  asked : s.exitAsked = true
  none : ∀ t a, s.pc t ≠ .wake a
  drain : s.actions ≠ [] → s.drain = true
  empty : s.exited = true → s.todo = [] ∧ s.actions = []

theorem draining_step {s : St} (h : Draining s) (o : Op) : Draining (step s o).2 := by
  have hpush : ∀ t n x, Draining (push s t n x).2 := by
    intro t n x
    unfold push
    split
    · exact h
    · rw [if_pos h.stopped]; exact h
  cases o with
  | dispatch t x => exact hpush t false x
  | call t x => exact hpush t true x
  | add t =>
    simp only [step]
    split
    · rename_i a hpc; exact absurd hpc (h.none t a)
    · exact h
  | ret t =>
    simp only [step]
    split
    · split
      · refine ⟨h.stopped, h.asked, fun t' a hh => ?_, h.drain, h.empty⟩
        have hh : (if t' = t then Pc.idle else s.pc t') = .wake a := hh
        split at hh
        · cases hh
        · exact h.none t' a hh
      · exact h
    · exact h
  | callHere x => exact h
  | take =>
    simp only [step]
    split
    · rename_i hc
      exact ⟨h.stopped, h.asked, h.none, fun e => absurd rfl e, fun e => by have e : s.exited = true := e; rw [hc.2.2] at e; cases e⟩
    · exact h
  | exec =>
    cases hw : s.todo with
    | nil => simpa only [step, hw] using h
    | cons w rest =>
      have ne : s.exited = true → False := fun e => by have := (h.empty e).1; rw [hw] at this; cases this
      cases hn : w.notify <;> simp only [step, hw, hn] <;>
        exact ⟨h.stopped, h.asked, h.none, h.drain, fun e => (ne e).elim⟩
  | stop => exact ⟨rfl, h.asked, h.none, h.drain, h.empty⟩
  | exit =>
    simp only [step]
    rw [if_neg (by rw [h.asked]; simp)]
    exact h
  | leave =>
    simp only [step]
    split
    · rename_i hc
      refine ⟨h.stopped, h.asked, h.none, h.drain, fun _ => ⟨hc.2.1, ?_⟩⟩
      exact Classical.byContradiction fun e => by have := h.drain e; rw [hc.2.2.1] at this; cases this
    · exact h

theorem draining_run (l : List Op) : ∀ {s : St}, Draining s → Draining (run l s).2 := by
  induction l with
  | nil => intro s h; exact h
  | cons o l ih => intro s h; exact ih (draining_step h o)

/-- C52: when the loop is told to exit while no other thread is inside of dispatch() or call() before its event_add() then the loop does not end
before everything which was accepted has been run -/
theorem C52_drains_partial (before later : List Op) (hr : (run before {}).2.running = false) (he : (run before {}).2.exitAsked = false)
    (hn : ∀ t a, (run before {}).2.pc t ≠ .wake a) (hx : (run (before ++ .exit :: later) {}).2.exited = true) :
    ran (run (before ++ .exit :: later) {}).1 = (accepted (run (before ++ .exit :: later) {}).1).map (·.id) := by
  have h := inv_all before
  have hnx : (run before {}).2.exited = false := by
    have key : ∀ (l : List Op) (s : St), (s.exited = true → s.exitAsked = true) → (run l s).2.exited = true → (run l s).2.exitAsked = true := by
      intro l
      induction l with
      | nil => intro s h; exact h
      | cons o l ih =>
        intro s h
        refine ih (step s o).2 ?_
        cases o <;> simp only [step, push] <;> (repeat' split) <;> first | exact h | (intro _; rfl) | (rename_i hc; intro _; exact hc.1)
    cases hc : (run before {}).2.exited with
    | false => rfl
    | true =>
      have := key before {} (by intro e; cases e) hc
      rw [he] at this; cases this
  have hd : Draining (step (run before {}).2 .exit).2 := by
    generalize (run before {}).2 = s at *
    simp only [step]
    rw [if_pos ⟨hr, he⟩]
    refine ⟨hr, rfl, hn, fun ha => ?_, fun e => ?_⟩
    · show s.wake = true
      cases hw : s.wake with
      | true => rfl
      | false => exact absurd (h.woken.mpr ⟨hw, hn⟩) ha
    · have e : s.exited = true := e
      rw [hnx] at e; cases e
  have hend := draining_run later hd
  have hall := inv_all (before ++ .exit :: later)
  have e2 : (run (before ++ .exit :: later) {}).2 = (run later (step (run before {}).2 .exit).2).2 := by rw [run_append]; rfl
  have hempty := hend.empty (by rw [← e2]; exact hx)
  rw [← e2] at hempty
  obtain ⟨old, h1, h2⟩ := hall.queue
  rw [hempty.1, hempty.2, List.append_nil, List.append_nil] at h1
  rw [h1, h2]

/-- C52, what is wrong: a call() which is between its test whether the loop runs and its event_add() when the loop is joined waits forever: its function has been
accepted, and whatever happens from then on it is not run and call() does not return. (dispatch() in the same place has said that it will be run.) -/
theorem C52_lost : ∃ ops : List Op, (∃ w, Ev.accepted w ∈ (run ops {}).1 ∧ w.id = 0 ∧ w.notify = some 7) ∧
    ∀ more : List Op, Calling (run (ops ++ more) {}).2 7 0 ∧ 0 ∉ ran (run (ops ++ more) {}).1 ∧ ∀ t x, Ev.returned t 0 x ∉ (run (ops ++ more) {}).1 := by
  refine ⟨[.call 7 false, .stop, .exit, .leave, .add 7], ⟨⟨0, some 7, false⟩, by decide, rfl, rfl⟩, fun more => ?_⟩
  have start : (fun s : St => s.exited = true ∧ s.todo = [] ∧ s.pc 7 = .wait 0 ∧ s.signal 7 = false ∧ s.running = false ∧ s.exitAsked = true)
      (run [.call 7 false, .stop, .exit, .leave, .add 7] {}).2 := by exact ⟨rfl, rfl, rfl, rfl, rfl, rfl⟩
  have key : ∀ (l : List Op) (s : St), (s.exited = true ∧ s.todo = [] ∧ s.pc 7 = .wait 0 ∧ s.signal 7 = false ∧ s.running = false ∧ s.exitAsked = true) →
      ((run l s).2.pc 7 = .wait 0 ∧ ran (run l s).1 = []) := by
    intro l
    induction l with
    | nil => intro s h; exact ⟨h.2.2.1, rfl⟩
    | cons o l ih =>
      intro s ⟨h1, h2, h3, h4, h5, h6⟩
      have hs : ((step s o).2.exited = true ∧ (step s o).2.todo = [] ∧ (step s o).2.pc 7 = .wait 0 ∧ (step s o).2.signal 7 = false ∧ (step s o).2.running = false ∧
          (step s o).2.exitAsked = true) ∧ ran (step s o).1 = [] := by
        have hpush : ∀ t n x, ((push s t n x).2.exited = true ∧ (push s t n x).2.todo = [] ∧ (push s t n x).2.pc 7 = .wait 0 ∧ (push s t n x).2.signal 7 = false ∧
            (push s t n x).2.running = false ∧ (push s t n x).2.exitAsked = true) ∧ ran (push s t n x).1 = [] := by
          intro t n x
          unfold push
          split
          · exact ⟨⟨h1, h2, h3, h4, h5, h6⟩, rfl⟩
          · exact ⟨⟨h1, h2, h3, h4, h5, h6⟩, rfl⟩
        cases o with
        | dispatch t x => exact hpush t false x
        | call t x => exact hpush t true x
        | add t =>
          simp only [step]
          split
          · rename_i a hpc
            have hne : 7 ≠ t := by rintro rfl; rw [h3] at hpc; cases hpc
            refine ⟨⟨h1, h2, ?_, h4, h5, h6⟩, rfl⟩
            show (if 7 = t then _ else s.pc 7) = _
            rw [if_neg hne]; exact h3
          · exact ⟨⟨h1, h2, h3, h4, h5, h6⟩, rfl⟩
        | ret t =>
          simp only [step]
          split
          · split
            · rename_i hsig
              have hne : 7 ≠ t := by rintro rfl; rw [h4] at hsig; cases hsig
              refine ⟨⟨h1, h2, ?_, ?_, h5, h6⟩, rfl⟩
              · show (if 7 = t then _ else s.pc 7) = _
                rw [if_neg hne]; exact h3
              · show (if 7 = t then _ else s.signal 7) = _
                rw [if_neg hne]; exact h4
            · exact ⟨⟨h1, h2, h3, h4, h5, h6⟩, rfl⟩
          · exact ⟨⟨h1, h2, h3, h4, h5, h6⟩, rfl⟩
        | callHere x => exact ⟨⟨h1, h2, h3, h4, h5, h6⟩, rfl⟩
        | take =>
          simp only [step]
          rw [if_neg (by rw [h1]; simp)]
          exact ⟨⟨h1, h2, h3, h4, h5, h6⟩, rfl⟩
        | exec =>
          have e : step s .exec = ([], s) := by simp only [step, h2]
          rw [e]; exact ⟨⟨h1, h2, h3, h4, h5, h6⟩, rfl⟩
        | stop => exact ⟨⟨h1, h2, h3, h4, rfl, h6⟩, rfl⟩
        | exit => simp only [step]; rw [if_neg (by rw [h6]; simp)]; exact ⟨⟨h1, h2, h3, h4, h5, h6⟩, rfl⟩
        | leave => simp only [step]; rw [if_neg (by rw [h1]; simp)]; exact ⟨⟨h1, h2, h3, h4, h5, h6⟩, rfl⟩
      obtain ⟨k1, k2⟩ := ih _ hs.1
      refine ⟨k1, ?_⟩
      show ran ((step s o).1 ++ (run l (step s o).2).1) = []
      rw [ran_append, hs.2, k2]; rfl
  obtain ⟨k1, k2⟩ := key more _ start
  have hran : ran (run ([.call 7 false, .stop, .exit, .leave, .add 7] ++ more) {}).1 = [] := by
    rw [run_append, ran_append, k2]; rfl
  refine ⟨?_, by rw [hran]; simp, fun t x hm => ?_⟩
  · rw [run_append]; exact Or.inr k1
  · obtain ⟨a, b, hab⟩ := List.append_of_mem hm
    have := (C52_call_partial _ a b t 0 x hab).1
    have sub : ran (run ([.call 7 false, .stop, .exit, .leave, .add 7] ++ more) {}).1 = ran a ++ ran (.returned t 0 x :: b) := by rw [hab, ran_append]
    rw [hran] at sub
    have e := (List.append_eq_nil_iff.mp sub.symm).1
    rw [e] at this; cases this

/-! ### examples -/

/-- two threads, one of which calls a function which throws -/
def twoThreads : List Op := [.dispatch 1 true, .call 2 true, .add 1, .take, .exec, .dispatch 1 false, .exec, .ret 2, .add 1, .take, .exec]

example : (run twoThreads {}).1 = [.accepted ⟨0, none, true⟩, .accepted ⟨1, some 2, true⟩, .ran 0, .accepted ⟨2, none, false⟩, .ran 1, .returned 2 1 true, .ran 2] := by decide
example : (run twoThreads {}).1 = [.accepted ⟨0, none, true⟩, .accepted ⟨1, some 2, true⟩, .ran 0, .accepted ⟨2, none, false⟩, .ran 1] ++ .returned 2 1 true :: [.ran 2] := by decide
/-- call() does not return before that -/
example : (run [.call 2 true, .add 2, .ret 2] {}).1 = [.accepted ⟨0, some 2, true⟩] := by decide
/-- C52_stop -/
example : (run [.dispatch 1 false, .stop, .call 2 false] {}).1 = [.accepted ⟨0, none, false⟩] ++ .stopped :: [.rejected 2] := by decide
/-- C52_quiet -/
example : Quiet (run twoThreads {}).2 := by
  refine ⟨fun t a h => ?_, by decide, by decide⟩
  have e : ∀ t, (run twoThreads {}).2.pc t = .idle := by
    intro t
    by_cases h1 : t = 1
    · subst h1; decide
    · by_cases h2 : t = 2
      · subst h2; decide
      · simp [twoThreads, run, step, push, St.setPc, St.notify, Pc.afterAdd, h1, h2]
  rw [e] at h; cases h
/-- C52_progress -/
example : (run twoThreads {}).2.exited = false := by decide
/-- C52_drains: with something left to do when it is told to exit -/
example : (run ([.dispatch 1 false, .add 1, .stop] ++ .exit :: [.leave, .take, .exec, .leave]) {}).1 =
    [.accepted ⟨0, none, false⟩, .stopped, .ran 0, .exited] ∧ (run ([.dispatch 1 false, .add 1, .stop] ++ .exit :: [.leave, .take, .exec, .leave]) {}).2.exited = true := by decide
example : (run [.dispatch 1 false, .add 1, .stop] {}).2.running = false ∧ (run [.dispatch 1 false, .add 1, .stop] {}).2.exitAsked = false := by decide

end Pvxs.Props.Evl
