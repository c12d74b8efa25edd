import Verif.Spec.Discover
/-! Property C92 -/
namespace Pvxs.Props.Discover
open Pvxs Pvxs.Discover Pvxs.Spec.Discover

def Work.id : Work → Nat
  | .setup d => d
  | .cancel d => d
  | .release d => d

/-- still to be told to d -/
def pend1 (d : Nat) : Option Frame → List Nat
  | none => []
  | some f => if d ∈ f.todo then [f.ev] else []
def pend (d : Nat) (s : St) : List Nat := pend1 d (s.frame .udp) ++ pend1 d (s.frame .tcp)

structure Inv (made : List Nat) (s : St) : Prop where
  fate : s.fate = .ok
  dying : s.dying = []
  qmade : ∀ w ∈ s.queue, Work.id w ∈ made
  tmade : ∀ d, Obs.placed d ∈ s.trace ∨ Obs.removed d ∈ s.trace → d ∈ made
  pw : s.queue.Pairwise (fun a b => ∀ d, b = .setup d → Work.id a ≠ d)
  fresh : ∀ d, Work.setup d ∈ s.queue → Obs.placed d ∉ s.trace ∧ Obs.removed d ∉ s.trace
  here : ∀ d, d ∈ s.disc → Obs.placed d ∈ s.trace ∧ Obs.removed d ∉ s.trace
  nodup : s.disc.Nodup
  place : ∀ d, (s.trace.foldl (watch d) (false, [])).1 = decide (d ∈ s.disc)
  one : ∀ t, s.frame t ≠ none → s.frame t.other = none
  frames : ∀ t f, s.frame t = some f → (∀ d ∈ f.todo, d ∈ s.disc) ∧ f.todo.Nodup ∧ ∀ d, f.inside = some d → d ∈ s.disc
  waits : ∀ t, s.waits t ≠ none → s.frame t = none ∧ s.frame t.other ≠ none
  due : ∀ d, due d s.trace = told d s.trace ++ pend d s
  after : ∀ d a b, s.trace = a ++ Obs.removed d :: b → ∀ ev, Obs.tells d ev ∉ b

theorem upd_same {α : Type} (f : Th → α) (t : Th) (x : α) : upd f t x t = x := by simp [upd]
theorem upd_other {α : Type} (f : Th → α) (t : Th) (x : α) : upd f t x t.other = f t.other := by cases t <;> simp [upd, Th.other]

theorem watch_snoc (d : Nat) (tr : List Obs) (o : Obs) : (tr ++ [o]).foldl (watch d) (false, []) = watch d (tr.foldl (watch d) (false, [])) o := by
  simp

theorem told_snoc (d : Nat) (tr : List Obs) (o : Obs) : told d (tr ++ [o]) = told d tr ++ told d [o] := by
  simp [told]

/-- a split of a longer list -/
theorem split_snoc {α : Type} {l a b : List α} {x y : α} (h : l ++ [x] = a ++ y :: b) : (b = [] ∧ x = y ∧ a = l) ∨ ∃ b', b = b' ++ [x] ∧ l = a ++ y :: b' := by
  rcases List.eq_nil_or_concat b with rfl | ⟨b', z, rfl⟩
  · left
    have h' : l ++ [x] = a ++ [y] := h
    obtain ⟨h1, h2⟩ := List.append_inj' h' rfl
    simp only [List.cons.injEq, and_true] at h2
    exact ⟨rfl, h2, h1.symm⟩
  · right
    have h' : l ++ [x] = (a ++ y :: b') ++ [z] := by simpa using h
    obtain ⟨h1, h2⟩ := List.append_inj' h' rfl
    simp only [List.cons.injEq, and_true] at h2
    exact ⟨b', by rw [h2]; simp, h1⟩

theorem after_snoc {tr : List Obs} (h : ∀ d a b, tr = a ++ Obs.removed d :: b → ∀ ev, Obs.tells d ev ∉ b) (o : Obs)
    (ho : ∀ d ev, o = .tells d ev → Obs.removed d ∉ tr) : ∀ d a b, tr ++ [o] = a ++ Obs.removed d :: b → ∀ ev, Obs.tells d ev ∉ b := by
  intro d a b hs ev hm
  rcases split_snoc hs with ⟨rfl, _, _⟩ | ⟨b', rfl, e⟩
  · cases hm
  · rcases List.mem_append.1 hm with hm | hm
    · exact h d a b' e ev hm
    · rw [List.mem_singleton] at hm
      exact ho d ev hm.symm (by rw [e]; simp)

theorem start_inv : Inv [] {} where
  fate := rfl
  dying := rfl
  qmade := by simp
  tmade := by simp
  pw := List.Pairwise.nil
  fresh := by simp
  here := by simp
  nodup := List.nodup_nil
  place := by simp
  one := by simp
  frames := by simp
  waits := by simp
  due := by intro d; simp [due, told, pend, pend1]
  after := by simp

theorem queue_inv {made : List Nat} {s : St} (h : Inv made s) (w : Work) (made' : List Nat) (hm : ∀ d ∈ made, d ∈ made') (hw : Work.id w ∈ made')
    (hn : ∀ d, w = .setup d → d ∉ made) : Inv made' { s with queue := s.queue ++ [w] } where
  fate := h.fate
  dying := h.dying
  qmade := by
    intro v hv
    rcases List.mem_append.1 hv with hv | hv
    · exact hm _ (h.qmade v hv)
    · rw [List.mem_singleton] at hv; rw [hv]; exact hw
  tmade := fun d hd => hm d (h.tmade d hd)
  pw := by
    refine List.pairwise_append.2 ⟨h.pw, List.pairwise_singleton _ _, ?_⟩
    intro a ha b hb d hd e
    rw [List.mem_singleton] at hb
    subst hb
    exact hn d hd (e ▸ h.qmade a ha)
  fresh := by
    intro d hd
    rcases List.mem_append.1 hd with hd | hd
    · exact h.fresh d hd
    · rw [List.mem_singleton] at hd
      have := hn d hd.symm
      exact ⟨fun hp => this (h.tmade d (.inl hp)), fun hp => this (h.tmade d (.inr hp))⟩
  here := h.here
  nodup := h.nodup
  place := h.place
  one := h.one
  frames := h.frames
  waits := h.waits
  due := h.due
  after := h.after

theorem begin_inv {made : List Nat} {s : St} (h : Inv made s) (t : Th) (ev : Nat) (h0 : ∀ u, s.frame u = none) (hw : s.waits t.other = none) : Inv made (s.begin t ev) where
  fate := h.fate
  dying := h.dying
  qmade := h.qmade
  tmade := by
    intro d hd
    refine h.tmade d ?_
    simpa [St.begin] using hd
  pw := h.pw
  fresh := by
    intro d hd
    have := h.fresh d hd
    simpa [St.begin] using this
  here := by
    intro d hd
    have := h.here d hd
    simpa [St.begin] using this
  nodup := h.nodup
  place := by
    intro d
    have := h.place d
    show ((s.trace ++ [Obs.begins ev]).foldl (watch d) (false, [])).1 = decide (d ∈ s.disc)
    rw [watch_snoc, ← this]
    simp only [watch]
    split <;> rfl
  one := by
    intro u hu
    show upd s.frame t _ u.other = none
    cases u <;> cases t <;> simp [upd, Th.other, St.begin, h0] at hu ⊢
  frames := by
    intro u f hf
    change upd s.frame t _ u = some f at hf
    by_cases e : u = t
    · subst e
      rw [upd_same] at hf
      injection hf with hf
      subst hf
      exact ⟨fun d hd => hd, h.nodup, fun d hd => by cases hd⟩
    · simp only [upd, if_neg e, h0] at hf
      cases hf
  waits := by
    intro u hu
    exfalso
    change upd s.waits t none u ≠ none at hu
    cases u <;> cases t <;> simp [upd, Th.other] at hu hw <;> exact hu hw
  due := by
    intro d
    have h1 := h.due d
    have h2 := h.place d
    have hp : pend d s = [] := by simp [pend, pend1, h0]
    rw [hp, List.append_nil] at h1
    show due d (s.trace ++ [.begins ev]) = told d (s.trace ++ [.begins ev]) ++ pend d (s.begin t ev)
    have e1 : told d (s.trace ++ [.begins ev]) = told d s.trace := by rw [told_snoc]; simp [told]
    have e2 : pend d (s.begin t ev) = if d ∈ s.disc then [ev] else [] := by
      cases t <;> simp [pend, pend1, St.begin, upd, h0]
    rw [e1, e2, ← h1]
    unfold Spec.Discover.due
    rw [watch_snoc]
    simp only [watch, h2]
    by_cases hd : d ∈ s.disc <;> simp [hd]
  after := after_snoc h.after _ (by intro d e he; cases he)

theorem enter_inv {made : List Nat} {s : St} (h : Inv made s) (t : Th) : Inv made (s.enter t) := by
  unfold St.enter
  split
  · rename_i ev d rest hf
    obtain ⟨f1, f2, _⟩ := h.frames t _ hf
    have hd : d ∈ s.disc := f1 d (by simp)
    have hd2 : d ∉ rest := (List.nodup_cons.1 f2).1
    have hone := h.one t (by rw [hf]; simp)
    constructor
    · exact h.fate
    · exact h.dying
    · exact h.qmade
    · intro j hj
      exact h.tmade j (by simpa using hj)
    · exact h.pw
    · intro j hj
      simpa using h.fresh j hj
    · intro j hj
      simpa using h.here j hj
    · exact h.nodup
    · intro j
      show ((s.trace ++ [Obs.tells d ev]).foldl (watch j) (false, [])).1 = decide (j ∈ s.disc)
      rw [watch_snoc]
      exact h.place j
    · intro u hu
      show upd s.frame t _ u.other = none
      change upd s.frame t _ u ≠ none at hu
      cases u <;> cases t <;> simp [upd, Th.other, hone] at hu hone ⊢ <;> first | exact hone | exact hu hone
    · intro u f hff
      change upd s.frame t _ u = some f at hff
      by_cases e : u = t
      · subst e
        rw [upd_same] at hff
        injection hff with hff
        subst hff
        exact ⟨fun j hj => f1 j (List.mem_cons_of_mem _ hj), (List.nodup_cons.1 f2).2, fun j hj => by injection hj with hj; subst hj; exact hd⟩
      · simp only [upd, if_neg e] at hff
        exact h.frames u f hff
    · intro u hu
      obtain ⟨w1, w2⟩ := h.waits u hu
      have hut : u ≠ t := fun e => by rw [e, hf] at w1; cases w1
      constructor
      · show upd s.frame t _ u = none
        simp only [upd, if_neg hut]; exact w1
      · show upd s.frame t _ u.other ≠ none
        cases u <;> cases t <;> simp [upd, Th.other] at hut ⊢
    · intro j
      have h1 := h.due j
      show due j (s.trace ++ [Obs.tells d ev]) = told j (s.trace ++ [Obs.tells d ev]) ++ pend j _
      have e1 : due j (s.trace ++ [Obs.tells d ev]) = due j s.trace := by
        unfold Spec.Discover.due
        rw [watch_snoc]
        rfl
      rw [e1, h1, told_snoc]
      have e2 : told j [Obs.tells d ev] = if d = j then [ev] else [] := by
        unfold told; split <;> simp_all
      rw [e2]
      cases t
      · have ho : s.frame .tcp = none := hone
        by_cases e : d = j
        · subst e
          simp [pend, pend1, upd, hf, ho, hd2]
        · have : ¬ j = d := fun x => e x.symm
          simp [pend, pend1, upd, hf, ho, e, this]
      · have ho : s.frame .udp = none := hone
        by_cases e : d = j
        · subst e
          simp [pend, pend1, upd, hf, ho, hd2]
        · have : ¬ j = d := fun x => e x.symm
          simp [pend, pend1, upd, hf, ho, e, this]
    · refine after_snoc h.after _ ?_
      intro j e he
      injection he with h1 h2
      subst h1
      exact (h.here d hd).2
  · exact h

/-- only one frame changes, and nobody else is still to be told -/
theorem frame_inv {made : List Nat} {s : St} (h : Inv made s) (t : Th) {f g : Frame} (hf : s.frame t = some f) (he : g.ev = f.ev) (ht : g.todo = f.todo) (hi : g.inside = none) :
    Inv made { s with frame := upd s.frame t (some g) } := by
  obtain ⟨f1, f2, _⟩ := h.frames t _ hf
  have hone := h.one t (by rw [hf]; simp)
  constructor
  · exact h.fate
  · exact h.dying
  · exact h.qmade
  · exact h.tmade
  · exact h.pw
  · exact h.fresh
  · exact h.here
  · exact h.nodup
  · exact h.place
  · intro u hu
    show upd s.frame t _ u.other = none
    change upd s.frame t _ u ≠ none at hu
    cases u <;> cases t <;> simp [upd, Th.other, hone] at hu hone ⊢ <;> first | exact hone | exact hu hone
  · intro u k hff
    change upd s.frame t _ u = some k at hff
    by_cases e : u = t
    · subst e
      rw [upd_same] at hff
      injection hff with hff
      subst hff
      rw [ht, hi]
      exact ⟨f1, f2, fun j hj => by cases hj⟩
    · simp only [upd, if_neg e] at hff
      exact h.frames u k hff
  · intro u hu
    obtain ⟨w1, w2⟩ := h.waits u hu
    have hut : u ≠ t := fun e => by rw [e, hf] at w1; cases w1
    constructor
    · show upd s.frame t _ u = none
      simp only [upd, if_neg hut]; exact w1
    · show upd s.frame t _ u.other ≠ none
      cases u <;> cases t <;> simp [upd, Th.other] at hut ⊢
  · intro j
    have h1 := h.due j
    show due j s.trace = told j s.trace ++ pend j _
    rw [h1]
    cases t <;> simp [pend, pend1, upd, hf, he, ht]
  · exact h.after

theorem leave_inv {made : List Nat} {s : St} (h : Inv made s) (t : Th) (a : Act) (ha : ∀ j, a ≠ .cancels j) : Inv made (s.leave t a) := by
  unfold St.leave
  split
  · rename_i ev todo d hf
    have e : s.dying.filter (· != d) = s.dying := by rw [h.dying]; rfl
    have := frame_inv h t (g := { ev := ev, todo := todo, inside := none }) hf rfl rfl rfl
    simp only [h.dying, List.filter_nil, List.not_mem_nil, if_false]
    have e2 : ({ s with frame := upd s.frame t (some { ev := ev, todo := todo, inside := none }), dying := [] } : St) =
        { s with frame := upd s.frame t (some { ev := ev, todo := todo, inside := none }) } := by
      congr 1
      exact h.dying.symm
    cases a with
    | ok => simp only; rw [e2]; exact this
    | throws => simp only; rw [e2]; exact this
    | cancels j => exact absurd rfl (ha j)
  · exact h

/-- the frame has been worked through -/
theorem clear_inv {made : List Nat} {s : St} (h : Inv made s) (t : Th) {f : Frame} (hf : s.frame t = some f) (_hd : f.todo = []) :
    let s1 : St := { s with frame := upd s.frame t none }
    (∀ u, s1.frame u = none) ∧ s.waits t = none := by
  refine ⟨?_, ?_⟩
  · intro u
    have hone := h.one t (by rw [hf]; simp)
    show upd s.frame t none u = none
    cases u <;> cases t <;> simp [upd, Th.other] at hone ⊢ <;> exact hone
  · cases hw : s.waits t with
    | none => rfl
    | some e =>
      have := (h.waits t (by rw [hw]; simp)).1
      rw [hf] at this
      cases this

theorem unframe_inv {made : List Nat} {s : St} (h : Inv made s) (t : Th) {f : Frame} (hf : s.frame t = some f) (hd : f.todo = []) (hw : s.waits t.other = none) :
    Inv made { s with frame := upd s.frame t none } := by
  obtain ⟨h0, hwt⟩ := clear_inv h t hf hd
  constructor
  · exact h.fate
  · exact h.dying
  · exact h.qmade
  · exact h.tmade
  · exact h.pw
  · exact h.fresh
  · exact h.here
  · exact h.nodup
  · exact h.place
  · intro u _
    exact h0 u.other
  · intro u k hff
    rw [h0 u] at hff
    cases hff
  · intro u hu
    exfalso
    cases u <;> cases t <;> simp [Th.other] at hw hwt hu <;> first | exact hu hw | exact hu hwt
  · intro j
    have h1 := h.due j
    show due j s.trace = told j s.trace ++ pend j _
    rw [h1]
    have a1 : pend1 j (s.frame t) = [] := by rw [hf]; simp [pend1, hd]
    cases t <;> simp [pend, upd, a1] <;> rfl
  · exact h.after

theorem unwait_inv {made : List Nat} {s : St} (h : Inv made s) (t : Th) : Inv made { s with waits := upd s.waits t none } :=
  { h with waits := fun u hu => h.waits u (fun e => hu (by show upd s.waits t none u = none; unfold upd; split <;> simp_all)) }

theorem finish_inv {made : List Nat} {s : St} (h : Inv made s) (t : Th) : Inv made (s.finish t) := by
  unfold St.finish
  split
  · rename_i ev0 hf
    simp only
    cases hw : s.waits t.other with
    | none => exact unframe_inv h t hf rfl hw
    | some ev =>
      simp only
      have h2 := unframe_inv (unwait_inv h t.other) t hf rfl (by simp [upd])
      obtain ⟨h0, hwt⟩ := clear_inv (unwait_inv h t.other) t hf rfl
      have e : St.begin { s with frame := upd s.frame t none } t.other ev =
          St.begin { s with frame := upd s.frame t none, waits := upd s.waits t.other none } t.other ev := by
        simp only [St.begin]
        congr 1
        funext u
        unfold upd
        split <;> rfl
      rw [e]
      refine begin_inv h2 t.other ev h0 ?_
      have : t.other.other = t := by cases t <;> rfl
      rw [this]
      exact hwt
  · exact h

theorem start_step {made : List Nat} {s : St} (h : Inv made s) (t : Th) (ev : Nat) : Inv made (s.start t ev) := by
  unfold St.start
  split
  · exact h
  · rename_i hb
    simp only [St.busy, Bool.or_eq_true, Option.isSome_iff_ne_none, ne_eq, not_or, Classical.not_not] at hb
    split
    · rename_i ho
      rw [Option.isSome_iff_ne_none] at ho
      refine { h with waits := ?_ }
      intro u hu
      change upd s.waits t _ u ≠ none at hu
      by_cases e : u = t
      · subst e; exact ⟨hb.1, ho⟩
      · simp only [upd, if_neg e] at hu
        exact h.waits u hu
    · rename_i ho
      rw [Option.isSome_iff_ne_none, ne_eq, Classical.not_not] at ho
      have h0 : ∀ u, s.frame u = none := by
        intro u
        have h1 := hb.1
        cases u <;> cases t <;> first | exact h1 | exact ho
      refine begin_inv h t ev h0 ?_
      cases hw : s.waits t.other with
      | none => rfl
      | some e => exact absurd (h0 _) (h.waits t.other (by rw [hw]; simp)).2

/-- the worker ends d, while no event is reported -/
theorem erase_inv {made : List Nat} {s : St} (h : Inv made s) (h0 : ∀ u, s.frame u = none) (d : Nat) (hd : d ∈ made) (hq : Work.setup d ∉ s.queue) : Inv made (s.erase d) := by
  constructor
  · exact h.fate
  · exact h.dying
  · exact h.qmade
  · intro j hj
    simp only [St.erase, List.mem_append, List.mem_singleton, reduceCtorEq, or_false, Obs.removed.injEq] at hj
    rcases hj with hj | hj | hj
    · exact h.tmade j (.inl hj)
    · exact h.tmade j (.inr hj)
    · rw [hj]; exact hd
  · exact h.pw
  · intro j hj
    have hne : j ≠ d := fun e => hq (e ▸ hj)
    have := h.fresh j hj
    simp [St.erase, this, hne]
  · intro j hj
    simp only [St.erase, List.mem_filter, bne_iff_ne, ne_eq] at hj
    have := h.here j hj.1
    simp [St.erase, this, hj.2]
  · exact h.nodup.filter _
  · intro j
    show ((s.trace ++ [Obs.removed d]).foldl (watch j) (false, [])).1 = decide (j ∈ s.disc.filter (· != d))
    rw [watch_snoc]
    have := h.place j
    by_cases e : d = j
    · subst e
      simp [watch]
    · have e' : j ≠ d := fun x => e x.symm
      simp only [watch, if_neg e, this, List.mem_filter, bne_iff_ne, ne_eq, e', not_false_eq_true, and_true]
  · intro u hu; exact absurd (h0 u) hu
  · intro u f hf; have := h0 u; change s.frame u = some f at hf; rw [this] at hf; cases hf
  · exact h.waits
  · intro j
    have h1 := h.due j
    have e0 : pend j s = [] := by simp [pend, pend1, h0]
    have e1 : pend j (s.erase d) = [] := by simp [pend, pend1, St.erase, h0]
    rw [e1, List.append_nil]
    rw [e0, List.append_nil] at h1
    show due j (s.trace ++ [Obs.removed d]) = told j (s.trace ++ [Obs.removed d])
    rw [told_snoc]
    have e2 : told j [Obs.removed d] = [] := rfl
    rw [e2, List.append_nil, ← h1]
    unfold Spec.Discover.due
    rw [watch_snoc]
    simp only [watch]
    split <;> rfl
  · exact after_snoc h.after _ (by intro j e he; cases he)

/-- the worker puts d in place, while no event is reported -/
theorem place_inv {made : List Nat} {s : St} (h : Inv made s) (h0 : ∀ u, s.frame u = none) (d : Nat) (hd : d ∈ made) (hq : Work.setup d ∉ s.queue)
    (hf : Obs.placed d ∉ s.trace ∧ Obs.removed d ∉ s.trace) : Inv made { s with disc := s.disc ++ [d], trace := s.trace ++ [.placed d] } := by
  have hnd : d ∉ s.disc := fun hm => hf.1 (h.here d hm).1
  constructor
  · exact h.fate
  · exact h.dying
  · exact h.qmade
  · intro j hj
    simp only [List.mem_append, List.mem_singleton, reduceCtorEq, or_false, Obs.placed.injEq] at hj
    rcases hj with (hj | hj) | hj
    · exact h.tmade j (.inl hj)
    · rw [hj]; exact hd
    · exact h.tmade j (.inr hj)
  · exact h.pw
  · intro j hj
    have hne : j ≠ d := fun e => hq (e ▸ hj)
    have := h.fresh j hj
    simp [this, hne]
  · intro j hj
    rcases List.mem_append.1 hj with hj | hj
    · have := h.here j hj
      simp [this]
    · rw [List.mem_singleton] at hj
      subst hj
      simp [hf.2]
  · refine List.nodup_append.2 ⟨h.nodup, List.nodup_cons.2 ⟨by simp, List.nodup_nil⟩, ?_⟩
    intro a ha b hb e
    rw [List.mem_singleton] at hb
    exact hnd (hb ▸ e ▸ ha)
  · intro j
    show ((s.trace ++ [Obs.placed d]).foldl (watch j) (false, [])).1 = decide (j ∈ s.disc ++ [d])
    rw [watch_snoc]
    have := h.place j
    by_cases e : d = j
    · subst e
      simp [watch]
    · have e' : j ≠ d := fun x => e x.symm
      simp [watch, e, this, e']
  · intro u hu; exact absurd (h0 u) hu
  · intro u f hf; have := h0 u; change s.frame u = some f at hf; rw [this] at hf; cases hf
  · exact h.waits
  · intro j
    have h1 := h.due j
    have e0 : pend j s = [] := by simp [pend, pend1, h0]
    have e1 : pend j { s with disc := s.disc ++ [d], trace := s.trace ++ [.placed d] } = [] := by simp [pend, pend1, h0]
    rw [e1, List.append_nil]
    rw [e0, List.append_nil] at h1
    show due j (s.trace ++ [Obs.placed d]) = told j (s.trace ++ [Obs.placed d])
    rw [told_snoc]
    have e2 : told j [Obs.placed d] = [] := rfl
    rw [e2, List.append_nil, ← h1]
    unfold Spec.Discover.due
    rw [watch_snoc]
    simp only [watch]
    split <;> rfl
  · exact after_snoc h.after _ (by intro j e he; cases he)

theorem pop_inv {made : List Nat} {s : St} (h : Inv made s) (w : Work) (q : List Work) (hq : s.queue = w :: q) (r : Bool) :
    Inv made { s with queue := q, raced := r } ∧ Work.id w ∈ made ∧ (∀ d, Work.id w = d → Work.setup d ∉ q) := by
  have hpw := h.pw
  rw [hq] at hpw
  refine ⟨{ h with qmade := fun v hv => h.qmade v (by rw [hq]; exact List.mem_cons_of_mem _ hv), pw := (List.pairwise_cons.1 hpw).2, fresh := fun d hd => h.fresh d (by rw [hq]; exact List.mem_cons_of_mem _ hd) }, h.qmade w (by rw [hq]; simp), ?_⟩
  intro d hd hm
  exact (List.pairwise_cons.1 hpw).1 _ hm d rfl hd

theorem work_inv {made : List Nat} {s : St} (h : Inv made s) (hr : (s.work).raced = false) : Inv made s.work := by
  unfold St.work at hr ⊢
  split
  · exact h
  · rename_i hb
    rw [if_neg hb] at hr
    simp only [St.busy, Bool.or_eq_true, Option.isSome_iff_ne_none, ne_eq, not_or, Classical.not_not] at hb
    have key : (s.raced || (s.frame .udp).isSome) = false → ∀ u, s.frame u = none := by
      intro hx u
      simp only [Bool.or_eq_false_iff, Option.isSome_eq_false_iff, Option.isNone_iff_eq_none] at hx
      cases u
      · exact hx.2
      · exact hb.1
    cases hq : s.queue with
    | nil => exact h
    | cons w q =>
      obtain ⟨p1, p2, p3⟩ := pop_inv h w q hq (s.raced || (s.frame .udp).isSome)
      cases w with
      | setup d =>
        simp only [hq] at hr
        have h0 := key hr
        have hfr := h.fresh d (by rw [hq]; simp)
        exact place_inv p1 h0 d p2 (p3 d rfl) hfr
      | cancel d =>
        simp only [hq] at hr
        have h0 := key hr
        exact erase_inv p1 h0 d p2 (p3 d rfl)
      | release d =>
        simp only [hq] at hr
        have h0 := key hr
        have := erase_inv p1 h0 d p2 (p3 d rfl)
        simp only [h0 .udp, Option.any_none, if_false, Bool.false_eq_true]
        have e : (none : Option Frame).isSome = (s.frame .udp).isSome := by rw [h0 .udp]
        rw [e]
        exact this

theorem raced_step (s : St) (o : Op) (h : (s.step o).raced = false) : s.raced = false := by
  cases hr : s.raced with
  | false => rfl
  | true =>
    rw [← h]
    cases o <;> simp only [St.step, St.start, St.begin, St.enter, St.leave, St.finish, St.work, St.erase]
    all_goals repeat' (first | exact hr.symm | split)
    all_goals simp [hr]

theorem raced_run (os : List Op) (s : St) (h : (run s os).raced = false) : s.raced = false := by
  induction os generalizing s with
  | nil => exact h
  | cons o os ih =>
    unfold run at h
    split at h
    · exact raced_step s o (ih _ h)
    · exact h

def madeAfter (made : List Nat) : Op → List Nat
  | .exec d => d :: made
  | _ => made

theorem step_inv {made : List Nat} {s : St} (h : Inv made s) (o : Op) (os : List Op) (hf : Fair made (o :: os)) (hq : Quiet (o :: os)) (hr : (s.step o).raced = false) :
    Inv (madeAfter made o) (s.step o) ∧ Fair (madeAfter made o) os := by
  cases o with
  | exec d => exact ⟨queue_inv h (.setup d) _ (fun x hx => List.mem_cons_of_mem _ hx) (by simp [Work.id, madeAfter]) (fun j hj => by injection hj with hj; subst hj; exact hf.1), hf.2⟩
  | cancel d => exact ⟨queue_inv h (.cancel d) _ (fun x hx => hx) hf.1 (fun j hj => by cases hj), hf.2⟩
  | release d => exact ⟨queue_inv h (.release d) _ (fun x hx => hx) hf.1 (fun j hj => by cases hj), hf.2⟩
  | work => exact ⟨work_inv h hr, hf⟩
  | start t ev => exact ⟨start_step h t ev, hf⟩
  | enter t => exact ⟨enter_inv h t, hf⟩
  | leave t a => exact ⟨leave_inv h t a (fun j e => hq t j (by rw [e]; simp)), hf⟩
  | finish t => exact ⟨finish_inv h t, hf⟩

theorem run_inv (os : List Op) (s : St) (made : List Nat) (h : Inv made s) (hf : Fair made os) (hq : Quiet os) (hr : (run s os).raced = false) : ∃ made', Inv made' (run s os) := by
  induction os generalizing s made with
  | nil => exact ⟨made, h⟩
  | cons o os ih =>
    unfold run at hr ⊢
    rw [if_pos h.fate] at hr ⊢
    obtain ⟨h1, h2⟩ := step_inv h o os hf hq (raced_run os _ hr)
    exact ih _ _ h1 h2 (fun t j hm => hq t j (List.mem_cons_of_mem _ hm)) hr

/-! ### C92 -/

/-- C92, in part: if the list of listeners is never changed by one thread while the other goes through it, then each listener is told of
the events which came while it was in place, once and in order; when no event is being reported it has been told of all of them.  Missing: see
C92_race. -/
theorem C92_told_partial (os : List Op) (hf : Fair [] os) (hq : Quiet os) (hr : (run {} os).raced = false) (d : Nat) :
    (run {} os).fate = .ok ∧ told d (run {} os).trace <+: due d (run {} os).trace ∧
    (due d (run {} os).trace).length ≤ (told d (run {} os).trace).length + 1 ∧
    (Idle (run {} os) → told d (run {} os).trace = due d (run {} os).trace) := by
  obtain ⟨made, h⟩ := run_inv os {} [] start_inv hf hq hr
  refine ⟨h.fate, ⟨_, (h.due d).symm⟩, ?_, fun hi => ?_⟩
  · rw [h.due d, List.length_append]
    have h1 := h.one .udp
    cases hu : (run {} os).frame .udp with
    | none =>
      simp only [pend, pend1, hu, List.nil_append]
      cases (run {} os).frame .tcp with
      | none => simp
      | some f => simp only; split <;> simp
    | some f =>
      have h2 : (run {} os).frame .tcp = none := h1 (by rw [hu]; simp)
      simp only [pend, pend1, hu, h2, List.append_nil]
      split <;> simp
  · rw [h.due d]
    simp [pend, pend1, (hi .udp).1, (hi .tcp).1]

/-- C92, in part: after cancel() or the release of a listener has taken effect, its callback is not running and is not called again, if the
list of listeners is never changed by one thread while the other goes through it.  Missing: see C92_running. -/
theorem C92_ended_partial (os : List Op) (hf : Fair [] os) (hq : Quiet os) (hr : (run {} os).raced = false) (d : Nat) :
    (∀ a b, (run {} os).trace = a ++ .removed d :: b → ∀ ev, .tells d ev ∉ b) ∧
    (.removed d ∈ (run {} os).trace → ∀ t f, (run {} os).frame t = some f → f.inside ≠ some d ∧ d ∉ f.todo) := by
  obtain ⟨made, h⟩ := run_inv os {} [] start_inv hf hq hr
  refine ⟨h.after d, fun hm t f hff => ?_⟩
  obtain ⟨f1, _, f3⟩ := h.frames t f hff
  exact ⟨fun e => (h.here d (f3 d e)).2 hm, fun e => (h.here d (f1 d e)).2 hm⟩

theorem begun_snoc (tr : List Obs) (o : Obs) : begun (tr ++ [o]) = begun tr ++ begun [o] := by unfold begun; exact List.filterMap_append

def waiting (s : St) : List Nat := (s.waits .udp).toList ++ (s.waits .tcp).toList

theorem count_waits (s : St) (ev : Nat) (t : Th) : (waiting s).count ev = (s.waits t).toList.count ev + (s.waits t.other).toList.count ev := by
  cases t <;> simp [waiting, List.count_append, Th.other, Nat.add_comm]

theorem begin_count (s : St) (t : Th) (ev x : Nat) :
    (begun (s.begin t ev).trace).count x + (waiting (s.begin t ev)).count x = (begun s.trace).count x + [ev].count x + (s.waits t.other).toList.count x := by
  rw [count_waits _ x t]
  simp only [St.begin, begun_snoc, List.count_append, upd_same, upd_other]
  simp [begun]

theorem step_count (s : St) (o : Op) (x : Nat) :
    (begun (s.step o).trace).count x + (waiting (s.step o)).count x = (begun s.trace).count x + (waiting s).count x +
      (match o with | .start t ev => if (s.frame t).isNone ∧ (s.waits t).isNone then [ev].count x else 0 | _ => 0) := by
  cases o with
  | exec d => rfl
  | cancel d => rfl
  | release d => rfl
  | start t ev =>
    simp only [St.step, St.start]
    split
    · rename_i hb
      rw [if_neg]; rfl
      simp only [St.busy, Bool.or_eq_true, Option.isSome_iff_ne_none] at hb
      simp only [Option.isNone_iff_eq_none]
      rintro ⟨h1, h2⟩
      rcases hb with hb | hb
      · exact hb h1
      · exact hb h2
    · rename_i hb
      have hn : (s.frame t).isNone ∧ (s.waits t).isNone := by
        simp only [St.busy, Bool.or_eq_true, Option.isSome_iff_ne_none, ne_eq, not_or, Classical.not_not] at hb
        simp [hb.1, hb.2]
      have hw : s.waits t = none := by simpa using hn.2
      rw [if_pos hn, count_waits s x t, hw]
      split
      · rw [count_waits _ x t]
        simp only [upd_same, upd_other, Option.toList_some, Option.toList_none, List.count_nil]
        omega
      · rw [begin_count]
        simp only [Option.toList_none, List.count_nil]
        omega
  | enter t =>
    simp only [St.step]
    unfold St.enter
    split
    · show (begun (s.trace ++ [_])).count x + _ = _
      rw [begun_snoc]
      simp [begun, waiting]
    · rfl
  | work =>
    simp only [St.step]
    unfold St.work
    split
    · rfl
    · simp only
      split
      · rfl
      · show (begun (s.trace ++ [_])).count x + _ = _
        rw [begun_snoc]
        simp [begun, waiting]
      · show (begun (s.trace ++ [_])).count x + _ = _
        rw [begun_snoc]
        simp [begun, waiting, St.erase]
      · show (begun (s.trace ++ [_])).count x + _ = _
        rw [begun_snoc]
        simp [begun, waiting, St.erase]
  | leave t a =>
    simp only [St.step]
    unfold St.leave
    split
    · simp only
      split
      · rfl
      · split
        · rfl
        · rfl
        · split
          · rfl
          · split <;>
            · show (begun (s.trace ++ [_])).count x + _ = _
              rw [begun_snoc]
              simp [begun, waiting, St.erase]
    · rfl
  | finish t =>
    simp only [St.step]
    unfold St.finish
    split
    · simp only
      cases hw : s.waits t.other with
      | none => rfl
      | some ev =>
        simp only
        rw [begin_count, count_waits s x t.other, hw]
        simp only [Option.toList_some]
        omega
    · rfl

/-- C92: every event which is found is reported, once, also if it has to wait for the other thread: those reported, and those which wait, are those which
were found. -/
theorem C92_found (os : List Op) (x : Nat) :
    (begun (run {} os).trace).count x + ((run {} os).waits .udp).toList.count x + ((run {} os).waits .tcp).toList.count x = (found {} os).count x := by
  suffices ∀ (os : List Op) (s : St), (begun (run s os).trace).count x + (waiting (run s os)).count x = (begun s.trace).count x + (waiting s).count x + (found s os).count x by
    have := this os {}
    simp only [waiting, List.count_append] at this
    have e1 : (begun []).count x = 0 := rfl
    have e2 : (none : Option Nat).toList.count x = 0 := rfl
    omega
  intro os
  induction os with
  | nil => intro s; simp [run, found]
  | cons o os ih =>
    intro s
    unfold run found
    split
    · rw [ih, step_count]
      cases o with
      | start t ev =>
        simp only
        split
        · simp only [List.count_cons, List.count_nil]; omega
        · omega
      | _ => simp
    · simp

/-- two listeners, events on both threads -/
def hist : List Op := [.exec 1, .work, .exec 2, .start .udp 7, .enter .udp, .leave .udp .ok, .finish .udp, .work, .start .tcp 8, .start .udp 9, .enter .tcp, .leave .tcp .throws,
  .enter .tcp, .leave .tcp .ok, .finish .tcp, .enter .udp, .leave .udp .ok, .enter .udp, .leave .udp .ok, .finish .udp, .cancel 1, .work, .release 1, .start .tcp 10,
  .enter .tcp, .leave .tcp .ok, .finish .tcp, .work]

example : Fair [] hist ∧ Quiet hist ∧ (run {} hist).raced = false ∧ told 1 (run {} hist).trace = [7, 8, 9] ∧ told 2 (run {} hist).trace = [8, 9, 10] := by
  refine ⟨by simp [hist, Fair], ?_, by decide, by decide, by decide⟩
  intro t j h
  simp [hist] at h

/-- The code breaks C92: a listener is put in place, or ended, by the worker while a beacon is reported on the other thread, which goes through the
list without a lock: the behaviour is undefined. -/
theorem C92_race :
    Fair [] [.exec 1, .work, .start .udp 7, .exec 2, .work] ∧ Quiet [.exec 1, .work, .start .udp 7, .exec 2, .work] ∧
    (run {} [.exec 1, .work, .start .udp 7, .exec 2, .work]).raced = true := by
  refine ⟨by simp [Fair], by intro t j h; simp at h, by decide⟩

/-- The code breaks C92: cancel() does not wait for a callback which is running on the thread of the UDP collector. -/
theorem C92_running :
    Fair [] [.exec 1, .work, .start .udp 7, .enter .udp, .cancel 1, .work] ∧ Quiet [.exec 1, .work, .start .udp 7, .enter .udp, .cancel 1, .work] ∧
    Obs.removed 1 ∈ (run {} [.exec 1, .work, .start .udp 7, .enter .udp, .cancel 1, .work]).trace ∧
    (run {} [.exec 1, .work, .start .udp 7, .enter .udp, .cancel 1, .work]).frame .udp = some { ev := 7, todo := [], inside := some 1 } := by
  refine ⟨by simp [Fair], by intro t j h; simp at h, by decide, by decide⟩

/-- The code breaks C92: an operation which is released while its callback is running on that thread is destroyed there, and its destructor throws: the
process is ended. -/
theorem C92_terminated :
    Fair [] [.exec 1, .work, .start .udp 7, .enter .udp, .release 1, .work, .leave .udp .ok] ∧
    (run {} [.exec 1, .work, .start .udp 7, .enter .udp, .release 1, .work, .leave .udp .ok]).fate = .terminated := by
  refine ⟨by simp [Fair], by decide⟩

/-- The code breaks C92: a callback which cancels its own operation invalidates the iterator of the loop which calls it, on either thread; -/
theorem C92_self_cancel (t : Th) : (run {} [.exec 1, .work, .start t 7, .enter t, .leave t (.cancels 1)]).fate = .freed := by cases t <;> decide

/-- and one which cancels any operation on the thread of the UDP collector waits for ever, if the worker waits to report another event. -/
theorem C92_deadlock (j : Nat) : (run {} [.exec 1, .work, .start .udp 7, .start .tcp 8, .enter .udp, .leave .udp (.cancels j)]).fate = .deadlock := by rfl

/-- A listener on the worker may cancel others. -/
theorem C92_cancel_other : let s := run {} [.exec 1, .work, .exec 2, .work, .start .tcp 7, .enter .tcp, .leave .tcp (.cancels 2), .finish .tcp]
    s.fate = .ok ∧ told 2 s.trace = [] ∧ Idle s := by
  refine ⟨by decide, by decide, fun t => ?_⟩
  cases t <;> exact ⟨by decide, by decide⟩

/-- The code breaks C92: `pingAll(true)` does not find the servers which are known already: the reply of such a server is no event, so that a
listener which starts after its first beacon is never told of it; -/
theorem C92_ping_known (s : Beacon.St) (now : Int) (m : Beacon.Msg) (cur : Beacon.Info) (h : Beacon.lookup m.key s.track = some cur) (hg : cur.guid = m.guid) (hv : cur.version = m.version) :
    (Beacon.onBeacon now m s).1 = [] := by
  simp [Beacon.onBeacon, h, hg, hv]

theorem C92_ping_late (m : Beacon.Msg) (t1 t2 : Int) (n : Nat) :
    (Beacon.run [.beacon t1 m, .listen n, .beacon t2 m] {}).1.flatMap (·.heard) = [] := by
  have ht : ((Beacon.step {} (.beacon t1 m)).2).track = [(m.key, { guid := m.guid, version := m.version, time := t1 })] := by
    simp only [Beacon.step, Beacon.onBeacon, Beacon.lookup, Beacon.trackLimit, Beacon.poke]
    repeat' (first | rfl | split)
    all_goals simp_all
  have h1 : ((Beacon.step {} (.beacon t1 m)).1).heard = [] := by simp [Beacon.step, Beacon.tell]
  have h2 := C92_ping_known (Beacon.step (Beacon.step {} (.beacon t1 m)).2 (.listen n)).2 t2 m { guid := m.guid, version := m.version, time := t1 }
    (by simp only [Beacon.step] at ht ⊢; simp [ht, Beacon.lookup]) rfl rfl
  have h3 : (Beacon.step (Beacon.step (Beacon.step {} (.beacon t1 m)).2 (.listen n)).2 (.beacon t2 m)).1.heard = [] := by
    show Beacon.tell _ _ = []
    rw [h2]
    rfl
  have h4 : (Beacon.step (Beacon.step {} (.beacon t1 m)).2 (.listen n)).1.heard = [] := rfl
  simp only [Beacon.run, List.flatMap_cons, List.flatMap_nil, h1, h3, h4, List.append_nil]

/-- and no ping is sent if another listener is in place. -/
theorem C92_ping_second (s : St) (d : Nat) (h : d ∈ s.disc) (ping : Bool) : pings s ping = false := by
  unfold pings
  cases hd : s.disc with
  | nil => rw [hd] at h; cases h
  | cons => rfl

/-- C92: the reply of a server which is not known yet is told to all. -/
theorem C92_ping_new (s : Beacon.St) (now : Int) (m : Beacon.Msg) (h : Beacon.lookup m.key s.track = none) (hl : s.track.length < 20000) (n : Nat) (hn : n ∈ s.listeners) :
    ∃ e, e.online = true ∧ e.guid = m.guid ∧ e.key = m.key ∧ (n, e) ∈ (Beacon.step s (.beacon now m)).1.heard := by
  have : ¬ s.track.length ≥ Beacon.trackLimit := by unfold Beacon.trackLimit; omega
  refine ⟨{ online := true, version := m.version, peer := some m.src, key := m.key, guid := m.guid, time := now }, rfl, rfl, rfl, ?_⟩
  simp [Beacon.step, Beacon.onBeacon, h, this, Beacon.tell, hn]

def m0 : Beacon.Msg := { src := ⟨.v4 127 0 0 1, 2⟩, server := ⟨.v4 127 0 0 1, 5075⟩, proto := [116, 99, 112], guid := [1], version := 2 }

example : ∃ e, e.online = true ∧ e.guid = [1] ∧ e.key = m0.key ∧ (4, e) ∈ (Beacon.step { listeners := [3, 4] } (.beacon 5 m0)).1.heard :=
  C92_ping_new _ 5 m0 rfl (by decide) 4 (by decide)

end Pvxs.Props.Discover
