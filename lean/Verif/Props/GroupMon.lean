import Verif.Spec.GroupMon
/-
C69: subscription to a group.
-/
namespace Pvxs.Props.Grm
open Pvxs.GroupMon Spec.GroupMon
open Pvxs.Group (MapType)

/-! ### traces -/

theorem fresh_snoc (es : List Ev) (e : Ev) (it : Item) : fresh (es ++ [e]) it =
    match e with
    | .read it' x => if it' = it then some x else fresh es it
    | .post _ => none := by
  unfold fresh
  rw [List.foldl_append]
  cases e <;> rfl

theorem snoc_split {es : List Ev} {e w : Ev} {a b : List Ev} (h : es ++ [e] = a ++ w :: b) :
    (b = [] ∧ e = w ∧ a = es) ∨ ∃ b', b = b' ++ [e] ∧ es = a ++ w :: b' := by
  rcases List.eq_nil_or_concat b with rfl | ⟨b', x, rfl⟩
  · left
    have h' : es ++ [e] = a ++ [w] := h
    have := List.append_inj' h' rfl
    simp only [List.cons.injEq, and_true] at this
    exact ⟨rfl, this.2, this.1.symm⟩
  · right
    have h' : es ++ [e] = (a ++ w :: b') ++ [x] := by rw [h]; simp
    have := List.append_inj' h' rfl
    simp only [List.cons.injEq, and_true] at this
    exact ⟨b', by rw [this.2]; simp, this.1⟩

theorem silent_snoc_read {es : List Ev} {it : Item} {x : Nat} : Silent (es ++ [.read it x]) ↔ Silent es := by
  unfold Silent
  simp

/-! ### what is true of each state -/

structure Inv (s : St) : Prop where
  marks : ∀ it x, (it, x) ∈ s.marked ↔ fresh s.trace it = some x
  primed : s.primed = true ↔ ¬ Silent s.trace
  posts : ∀ a u b, s.trace = a ++ .post u :: b → (∀ it x, (it, x) ∈ u ↔ fresh a it = some x) ∧ (u ≠ [] ∨ Silent a)

theorem mem_read (s : St) (it' : Item) (y : Nat) (it : Item) (x : Nat) :
    (it, x) ∈ (s.read it' y).marked ↔ (it = it' ∧ x = y) ∨ (it ≠ it' ∧ (it, x) ∈ s.marked) := by
  simp only [St.read, List.mem_cons, Prod.mk.injEq, List.mem_filter, bne_iff_ne, ne_eq]
  constructor
  · rintro (h | ⟨h1, h2⟩)
    · exact Or.inl h
    · exact Or.inr ⟨h2, h1⟩
  · rintro (h | ⟨h1, h2⟩)
    · exact Or.inl h
    · exact Or.inr ⟨h2, h1⟩

theorem inv_read {s : St} (h : Inv s) (it : Item) (x : Nat) : Inv (s.read it x) := by
  refine ⟨?_, ?_, ?_⟩
  · intro it' y
    rw [mem_read]
    show _ ↔ fresh (s.trace ++ [.read it x]) it' = some y
    rw [fresh_snoc]
    simp only
    by_cases e : it = it'
    · subst e
      simp [eq_comm]
    · rw [if_neg e, ← h.marks]
      simp [Ne.symm e]
  · show s.primed = true ↔ ¬ Silent (s.trace ++ [.read it x])
    rw [silent_snoc_read]
    exact h.primed
  · intro a u b hs
    rcases snoc_split (show s.trace ++ [.read it x] = a ++ .post u :: b from hs) with ⟨_, h1, _⟩ | ⟨b', _, h1⟩
    · cases h1
    · exact h.posts a u b' h1

theorem inv_reads {l : List (Item × Nat)} : ∀ {s : St}, Inv s → Inv (s.reads l) := by
  induction l with
  | nil => intro s h; exact h
  | cons p l ih => intro s h; exact ih (inv_read h p.1 p.2)

/-- send, when there is something to send or nothing was sent before -/
theorem inv_send {s : St} (h : Inv s) (hs : s.marked ≠ [] ∨ s.primed = false) : Inv (St.send { s with primed := true }) := by
  refine ⟨?_, ?_, ?_⟩
  · intro it x
    show (it, x) ∈ [] ↔ fresh (s.trace ++ [.post s.marked]) it = some x
    rw [fresh_snoc]
    simp
  · show true = true ↔ ¬ Silent (s.trace ++ [.post s.marked])
    simp only [true_iff]
    intro hsil
    exact hsil s.marked (by simp)
  · intro a u b he
    rcases snoc_split (show s.trace ++ [.post s.marked] = a ++ .post u :: b from he) with ⟨_, h1, h2⟩ | ⟨b', _, h1⟩
    · injection h1 with h1
      subst h1 h2
      refine ⟨h.marks, ?_⟩
      rcases hs with hs | hs
      · exact Or.inl hs
      · right
        refine Classical.byContradiction fun hn => ?_
        rw [h.primed.mpr hn] at hs
        cases hs
    · exact h.posts a u b' h1

theorem inv_congr {s s' : St} (h : Inv s) (h1 : s'.marked = s.marked) (h2 : s'.trace = s.trace) (h3 : s'.primed = s.primed) : Inv s' := by
  refine ⟨?_, ?_, ?_⟩
  · rw [h1, h2]; exact h.marks
  · rw [h2, h3]; exact h.primed
  · rw [h2]; exact h.posts

theorem inv_post {fs : List MField} {s : St} (h : Inv s) : Inv (s.post fs) := by
  unfold St.post
  rcases Bool.eq_false_or_eq_true s.primed with hp | hp
  · rw [if_pos hp]
    split
    · exact h
    · rename_i hm
      have := inv_send h (Or.inl hm)
      exact inv_congr this rfl rfl hp
  · rw [if_neg (by simp [hp])]
    split
    · exact inv_send h (Or.inr hp)
    · exact h

theorem inv_readAll {fs : List MField} {i : Nat} {m : Mask} {db : Nat → Part → Nat} {fails : Nat → Bool} {js : List Nat} :
    ∀ {s : St}, Inv s → Inv (St.readAll fs i m db fails js s).1 := by
  induction js with
  | nil => intro s h; exact h
  | cons j js ih =>
    intro s h
    rw [St.readAll]
    split
    · exact ih h
    · split
      · exact h
      · exact ih (inv_reads h)

theorem inv_init (fs : List MField) : Inv (St.init fs) := by
  refine inv_reads ⟨?_, ?_, ?_⟩
  · intro it x; simp [fresh]
  · simp [Silent]
  · intro a u b h; simp at h

theorem inv_step {fs : List MField} {s : St} (h : Inv s) {op : Op} (hc : Calm [op]) : Inv (s.step fs op) := by
  cases op with
  | start => exact inv_post h
  | value i m db fails =>
    simp only [St.step]
    split
    · exact h
    · split
      · exact h
      · have h' := inv_readAll (fs := fs) (i := i) (m := m) (db := db) (fails := fails) (js := ‹MField›.triggers)
          (inv_congr h (s' := { s with hadValue := fun k => k == i || s.hadValue k }) rfl rfl rfl)
        split
        · exact inv_post h'
        · exact h'
  | props i db fails =>
    simp only [St.step]
    split
    · exact h
    · split
      · exact h
      · split
        · exact inv_congr h rfl rfl rfl
        · exact inv_post (inv_reads (inv_congr h rfl rfl rfl))
  | startPost => exact absurd (by simp) hc.1
  | startUnmark => exact absurd (by simp) hc.2.1
  | valueRead i m db => exact absurd (by simp) (hc.2.2.1 i m db)
  | valuePost => exact absurd (by simp) hc.2.2.2

theorem run_snoc (fs : List MField) (ops : List Op) (op : Op) : run fs (ops ++ [op]) = (run fs ops).step fs op := by
  unfold run
  rw [List.foldl_append]
  rfl

/-- induction over histories -/
theorem snoc_ind {P : List Op → Prop} (h0 : P []) (h1 : ∀ ops op, P ops → P (ops ++ [op])) (ops : List Op) : P ops := by
  have : ∀ l : List Op, P l.reverse := by
    intro l
    induction l with
    | nil => exact h0
    | cons a l ih => rw [List.reverse_cons]; exact h1 _ _ ih
  have := this ops.reverse
  rwa [List.reverse_reverse] at this

theorem calm_snoc {ops : List Op} {op : Op} (h : Calm (ops ++ [op])) : Calm ops ∧ Calm [op] :=
  ⟨⟨fun h1 => h.1 (List.mem_append_left _ h1), fun h1 => h.2.1 (List.mem_append_left _ h1), fun i m db h1 => h.2.2.1 i m db (List.mem_append_left _ h1),
    fun h1 => h.2.2.2 (List.mem_append_left _ h1)⟩,
   fun h1 => h.1 (List.mem_append_right _ h1), fun h1 => h.2.1 (List.mem_append_right _ h1), fun i m db h1 => h.2.2.1 i m db (List.mem_append_right _ h1),
    fun h1 => h.2.2.2 (List.mem_append_right _ h1)⟩

theorem inv_run (fs : List MField) (ops : List Op) (hc : Calm ops) : Inv (run fs ops) := by
  induction ops using snoc_ind with
  | h0 => exact inv_init fs
  | h1 ops op ih =>
    obtain ⟨h1, h2⟩ := calm_snoc hc
    rw [run_snoc]
    exact inv_step (ih h1) h2

/-! ### which events have come -/

/-- what reading leaves as it is -/
def SameHad (s s' : St) : Prop := s'.hadValue = s.hadValue ∧ s'.hadProps = s.hadProps

theorem reads_had {l : List (Item × Nat)} : ∀ (s : St), SameHad s (s.reads l) ∧ (s.reads l).primed = s.primed := by
  induction l with
  | nil => intro s; exact ⟨⟨rfl, rfl⟩, rfl⟩
  | cons p l ih =>
    intro s
    obtain ⟨⟨h1, h2⟩, h3⟩ := ih (s.read p.1 p.2)
    exact ⟨⟨h1, h2⟩, h3⟩

theorem readAll_had {fs : List MField} {i : Nat} {m : Mask} {db : Nat → Part → Nat} {fails : Nat → Bool} {js : List Nat} :
    ∀ (s : St), SameHad s (St.readAll fs i m db fails js s).1 ∧ (St.readAll fs i m db fails js s).1.primed = s.primed := by
  induction js with
  | nil => intro s; exact ⟨⟨rfl, rfl⟩, rfl⟩
  | cons j js ih =>
    intro s
    rw [St.readAll]
    split
    · exact ih s
    · split
      · exact ⟨⟨rfl, rfl⟩, rfl⟩
      · rename_i f _ _
        obtain ⟨⟨h1, h2⟩, h3⟩ := ih (s.reads ((parts f.type (if i = j then m else { value := true, alarm := true })).map
          fun p => (.part j p, if f.type = .const then f.cval else db j p)))
        obtain ⟨⟨h4, h5⟩, h6⟩ := reads_had (l := (parts f.type (if i = j then m else { value := true, alarm := true })).map
          fun p => (.part j p, if f.type = .const then f.cval else db j p)) s
        exact ⟨⟨by rw [h1, h4], by rw [h2, h5]⟩, by rw [h3, h6]⟩

theorem post_had {fs : List MField} (s : St) : SameHad s (s.post fs) := by
  unfold St.post
  split
  · split <;> exact ⟨rfl, rfl⟩
  · split <;> exact ⟨rfl, rfl⟩

theorem complete_congr {fs : List MField} {s s' : St} (h : SameHad s s') : s'.complete fs = s.complete fs := by
  unfold St.complete
  rw [h.1, h.2]

/-- nothing is lost by posting: primed stays, and after it everything complete is primed -/
theorem post_primed {fs : List MField} (s : St) : ((s.post fs).primed = true ↔ s.primed = true ∨ s.complete fs = true) ∧
    ((s.post fs).primed = true → (s.post fs).marked = []) := by
  unfold St.post
  rcases Bool.eq_false_or_eq_true s.primed with hp | hp
  · rw [if_pos hp]
    split
    · rename_i hm
      exact ⟨by simp [hp], fun _ => hm⟩
    · exact ⟨by simp [hp, St.send], fun _ => rfl⟩
  · rw [if_neg (by simp [hp])]
    split
    · rename_i hc
      exact ⟨by simp [St.send, hc], fun _ => rfl⟩
    · rename_i hc
      exact ⟨by simp [hp, hc], fun h => by rw [hp] at h; cases h⟩

/-- the flags say which events have come -/
def Had (fs : List MField) (ops : List Op) (s : St) : Prop :=
  ∀ i f, fs[i]? = some f → f.chan = true →
    (s.hadValue i = true ↔ ∃ m db fails, Op.value i m db fails ∈ ops) ∧
    (hasProps f = true → (s.hadProps i = true ↔ ∃ db fails, Op.props i db fails ∈ ops)) ∧ (hasProps f = false → s.hadProps i = true)

theorem had_step {fs : List MField} {ops : List Op} {s : St} (h : Had fs ops s) (op : Op) (hcalm : Calm [op]) : Had fs (ops ++ [op]) (s.step fs op) := by
  -- it is enough to know the flags
  have flags : ∀ s' : St, (∀ k, s'.hadValue k = ((match op with | .value i _ _ _ => k == i && ((fs[i]?).map (·.chan)).getD false | _ => false) || s.hadValue k)) →
      (∀ k, s'.hadProps k = ((match op with | .props i _ _ => k == i && ((fs[i]?).map (fun f => f.chan && hasProps f)).getD false | _ => false) || s.hadProps k)) →
      Had fs (ops ++ [op]) s' := by
    intro s' hv hp i f hi hc
    obtain ⟨h1, h2, h3⟩ := h i f hi hc
    refine ⟨?_, ?_, ?_⟩
    · rw [hv, Bool.or_eq_true, h1]
      constructor
      · rintro (hx | ⟨m, db, fails, hx⟩)
        · cases op with
          | value j m db fails =>
            simp only [Bool.and_eq_true, beq_iff_eq] at hx
            rw [hx.1]
            exact ⟨m, db, fails, by simp⟩
          | _ => cases hx
        · exact ⟨m, db, fails, List.mem_append_left _ hx⟩
      · rintro ⟨m, db, fails, hx⟩
        rcases List.mem_append.mp hx with hx | hx
        · exact Or.inr ⟨m, db, fails, hx⟩
        · rw [List.mem_singleton] at hx
          subst hx
          left
          simp [hi, hc]
    · intro hh
      rw [hp, Bool.or_eq_true, h2 hh]
      constructor
      · rintro (hx | ⟨db, fails, hx⟩)
        · cases op with
          | props j db fails =>
            simp only [Bool.and_eq_true, beq_iff_eq] at hx
            rw [hx.1]
            exact ⟨db, fails, by simp⟩
          | _ => cases hx
        · exact ⟨db, fails, List.mem_append_left _ hx⟩
      · rintro ⟨db, fails, hx⟩
        rcases List.mem_append.mp hx with hx | hx
        · exact Or.inr ⟨db, fails, hx⟩
        · rw [List.mem_singleton] at hx
          subst hx
          left
          simp [hi, hc, hh]
    · intro hh
      rw [hp, h3 hh, Bool.or_true]
  cases op with
  | start =>
    obtain ⟨h1, h2⟩ := post_had (fs := fs) s
    refine flags _ (fun k => ?_) (fun k => ?_)
    · show (s.post fs).hadValue k = _; rw [h1]; rfl
    · show (s.post fs).hadProps k = _; rw [h2]; rfl
  | value i m db fails =>
    simp only [St.step]
    cases hf : fs[i]? with
    | none => exact flags _ (fun k => by simp [hf]) (fun k => by simp)
    | some f =>
      simp only
      by_cases hc : f.chan = false
      · rw [if_pos hc]
        exact flags _ (fun k => by simp [hf, hc]) (fun k => by simp)
      · rw [if_neg hc]
        have hc' : f.chan = true := by simpa using hc
        obtain ⟨⟨h1, h2⟩, _⟩ := readAll_had (fs := fs) (i := i) (m := m) (db := db) (fails := fails) (js := f.triggers)
          { s with hadValue := fun k => k == i || s.hadValue k }
        split
        · obtain ⟨h3, h4⟩ := post_had (fs := fs) (St.readAll fs i m db fails f.triggers { s with hadValue := fun k => k == i || s.hadValue k }).1
          refine flags _ (fun k => by rw [h3, h1]; simp [hf, hc']) (fun k => by rw [h4, h2]; simp)
        · exact flags _ (fun k => by rw [h1]; simp [hf, hc']) (fun k => by rw [h2]; simp)
  | props i db fails =>
    simp only [St.step]
    cases hf : fs[i]? with
    | none => exact flags _ (fun k => by simp) (fun k => by simp [hf])
    | some f =>
      simp only
      by_cases hc : (f.chan = false || !hasProps f) = true
      · rw [if_pos hc]
        refine flags _ (fun k => by simp) (fun k => ?_)
        have : (f.chan && hasProps f) = false := by
          cases hx : f.chan <;> cases hy : hasProps f <;> simp_all
        simp [hf, this]
      · rw [if_neg hc]
        have hcc : (f.chan && hasProps f) = true := by
          cases hx : f.chan <;> cases hy : hasProps f <;> simp_all
        split
        · exact flags _ (fun k => by simp) (fun k => by simp [hf, hcc])
        · obtain ⟨⟨h1, h2⟩, _⟩ := reads_had (l := (parts f.type { props := true }).map fun p => (Item.part i p, db p))
            { s with hadProps := fun k => k == i || s.hadProps k }
          obtain ⟨h3, h4⟩ := post_had (fs := fs) (St.reads { s with hadProps := fun k => k == i || s.hadProps k } ((parts f.type { props := true }).map fun p => (Item.part i p, db p)))
          exact flags _ (fun k => by rw [h3, h1]; simp) (fun k => by rw [h4, h2]; simp [hf, hcc])
  | startPost => exact absurd (by simp) hcalm.1
  | startUnmark => exact absurd (by simp) hcalm.2.1
  | valueRead i m db => exact absurd (by simp) (hcalm.2.2.1 i m db)
  | valuePost => exact absurd (by simp) hcalm.2.2.2

theorem init_had (fs : List MField) : (∀ i f, fs[i]? = some f → (St.init fs).hadValue i = !f.chan ∧ (St.init fs).hadProps i = (!f.chan || !hasProps f)) ∧
    (St.init fs).primed = false := by
  have h1 : (St.init fs).hadValue = _ := (reads_had (l := (Item.options, 0) :: initial 0 fs) _).1.1
  have h2 : (St.init fs).hadProps = _ := (reads_had (l := (Item.options, 0) :: initial 0 fs) _).1.2
  refine ⟨fun i f hi => ?_, (reads_had (l := (Item.options, 0) :: initial 0 fs) _).2⟩
  rw [h1, h2]
  simp [hi]

theorem had_run (fs : List MField) (ops : List Op) (hcalm : Calm ops) : Had fs ops (run fs ops) := by
  induction ops using snoc_ind with
  | h0 =>
    intro i f hi hc
    obtain ⟨h1, h2⟩ := (init_had fs).1 i f hi
    refine ⟨?_, ?_, ?_⟩
    · show (St.init fs).hadValue i = true ↔ _
      rw [h1]; simp [hc]
    · intro hp
      show (St.init fs).hadProps i = true ↔ _
      rw [h2]; simp [hc, hp]
    · intro hp
      show (St.init fs).hadProps i = true
      rw [h2]; simp [hp]
  | h1 ops op ih => rw [run_snoc]; exact had_step (ih (calm_snoc hcalm).1) op (calm_snoc hcalm).2

/-- a field without channel has nothing to wait for -/
theorem nochan_step {fs : List MField} {s : St} (h : ∀ i f, fs[i]? = some f → f.chan = false → s.hadValue i = true ∧ s.hadProps i = true) (op : Op) (hcalm : Calm [op]) :
    ∀ i f, fs[i]? = some f → f.chan = false → (s.step fs op).hadValue i = true ∧ (s.step fs op).hadProps i = true := by
  have mono : ∀ s' : St, (∀ k, s.hadValue k = true → s'.hadValue k = true) → (∀ k, s.hadProps k = true → s'.hadProps k = true) →
      ∀ i f, fs[i]? = some f → f.chan = false → s'.hadValue i = true ∧ s'.hadProps i = true :=
    fun s' h1 h2 i f hi hc => ⟨h1 i (h i f hi hc).1, h2 i (h i f hi hc).2⟩
  cases op with
  | start =>
    obtain ⟨h1, h2⟩ := post_had (fs := fs) s
    exact mono _ (fun k hk => by show (s.post fs).hadValue k = true; rw [h1]; exact hk) (fun k hk => by show (s.post fs).hadProps k = true; rw [h2]; exact hk)
  | value i m db fails =>
    simp only [St.step]
    cases hf : fs[i]? with
    | none => exact h
    | some f =>
      simp only
      split
      · exact h
      · obtain ⟨⟨h1, h2⟩, _⟩ := readAll_had (fs := fs) (i := i) (m := m) (db := db) (fails := fails) (js := f.triggers)
          { s with hadValue := fun k => k == i || s.hadValue k }
        split
        · obtain ⟨h3, h4⟩ := post_had (fs := fs) (St.readAll fs i m db fails f.triggers { s with hadValue := fun k => k == i || s.hadValue k }).1
          exact mono _ (fun k hk => by rw [h3, h1]; simp [hk]) (fun k hk => by rw [h4, h2]; exact hk)
        · exact mono _ (fun k hk => by rw [h1]; simp [hk]) (fun k hk => by rw [h2]; exact hk)
  | props i db fails =>
    simp only [St.step]
    cases hf : fs[i]? with
    | none => exact h
    | some f =>
      simp only
      split
      · exact h
      · split
        · exact mono _ (fun k hk => hk) (fun k hk => by simp [hk])
        · obtain ⟨⟨h1, h2⟩, _⟩ := reads_had (l := (parts f.type { props := true }).map fun p => (Item.part i p, db p))
            { s with hadProps := fun k => k == i || s.hadProps k }
          obtain ⟨h3, h4⟩ := post_had (fs := fs) (St.reads { s with hadProps := fun k => k == i || s.hadProps k } ((parts f.type { props := true }).map fun p => (Item.part i p, db p)))
          exact mono _ (fun k hk => by rw [h3, h1]; exact hk) (fun k hk => by rw [h4, h2]; simp [hk])
  | startPost => exact absurd (by simp) hcalm.1
  | startUnmark => exact absurd (by simp) hcalm.2.1
  | valueRead i m db => exact absurd (by simp) (hcalm.2.2.1 i m db)
  | valuePost => exact absurd (by simp) hcalm.2.2.2

theorem nochan_run (fs : List MField) (ops : List Op) (hcalm : Calm ops) :
    ∀ i f, fs[i]? = some f → f.chan = false → (run fs ops).hadValue i = true ∧ (run fs ops).hadProps i = true := by
  induction ops using snoc_ind with
  | h0 =>
    intro i f hi hc
    obtain ⟨h1, h2⟩ := (init_had fs).1 i f hi
    show (St.init fs).hadValue i = true ∧ (St.init fs).hadProps i = true
    rw [h1, h2]
    simp [hc]
  | h1 ops op ih => rw [run_snoc]; exact nochan_step (ih (calm_snoc hcalm).1) op (calm_snoc hcalm).2

theorem hasProps_iff (f : MField) : hasProps f = true ↔ (f.type = .scalar ∨ f.type = .metadata) := by
  unfold hasProps
  rw [Bool.or_eq_true, beq_iff_eq, beq_iff_eq]
  exact Or.comm

theorem complete_iff (fs : List MField) (ops : List Op) (hcalm : Calm ops) : (run fs ops).complete fs = true ↔ AllCame fs ops := by
  unfold St.complete AllCame
  rw [List.all_eq_true]
  constructor
  · intro h i f hi hc
    have hlt : i < fs.length := (List.getElem?_eq_some_iff.mp hi).1
    have := h i (List.mem_range.mpr hlt)
    rw [Bool.and_eq_true] at this
    obtain ⟨h1, h2, _⟩ := had_run fs ops hcalm i f hi hc
    exact ⟨h1.mp this.1, fun hp => (h2 ((hasProps_iff f).mpr hp)).mp this.2⟩
  · intro h i hi
    rw [List.mem_range] at hi
    have hf : fs[i]? = some fs[i] := List.getElem?_eq_getElem hi
    rcases Bool.eq_false_or_eq_true fs[i].chan with hc | hc
    · obtain ⟨h1, h2, h3⟩ := had_run fs ops hcalm i _ hf hc
      obtain ⟨g1, g2⟩ := h i _ hf hc
      rw [h1.mpr g1, Bool.true_and]
      rcases Bool.eq_false_or_eq_true (hasProps fs[i]) with hp | hp
      · exact (h2 hp).mpr (g2 ((hasProps_iff _).mp hp))
      · exact h3 hp
    · obtain ⟨h1, h2⟩ := nochan_run fs ops hcalm i _ hf hc
      rw [h1, h2]
      rfl

/-! ### the first update -/

theorem allCame_mono {fs : List MField} {ops : List Op} (h : AllCame fs ops) (op : Op) : AllCame fs (ops ++ [op]) := by
  intro i f hi hc
  obtain ⟨⟨m, db, fl, h1⟩, h2⟩ := h i f hi hc
  refine ⟨⟨m, db, fl, List.mem_append_left _ h1⟩, fun hp => ?_⟩
  obtain ⟨db, fl, h3⟩ := h2 hp
  exact ⟨db, fl, List.mem_append_left _ h3⟩

/-- being primed changes only in `post`, and then everything is complete -/
theorem primed_step {fs : List MField} (s : St) (op : Op) (hcalm : Calm [op]) :
    (s.step fs op).primed = true → s.primed = true ∨ (s.step fs op).complete fs = true := by
  cases op with
  | start =>
    intro h
    rcases (post_primed (fs := fs) s).1.mp h with h | h
    · exact Or.inl h
    · right
      show (s.post fs).complete fs = true
      rw [complete_congr (post_had s)]; exact h
  | value i m db fails =>
    simp only [St.step]
    cases hf : fs[i]? with
    | none => exact fun h => Or.inl h
    | some f =>
      simp only
      split
      · exact fun h => Or.inl h
      · obtain ⟨_, h3⟩ := readAll_had (fs := fs) (i := i) (m := m) (db := db) (fails := fails) (js := f.triggers)
          { s with hadValue := fun k => k == i || s.hadValue k }
        generalize St.readAll fs i m db fails f.triggers { s with hadValue := fun k => k == i || s.hadValue k } = r at h3
        split
        · intro h
          rcases (post_primed (fs := fs) r.1).1.mp h with h | h
          · left; rw [h3] at h; exact h
          · right; rw [complete_congr (post_had r.1)]; exact h
        · intro h; left; rw [h3] at h; exact h
  | props i db fails =>
    simp only [St.step]
    cases hf : fs[i]? with
    | none => exact fun h => Or.inl h
    | some f =>
      simp only
      split
      · exact fun h => Or.inl h
      · split
        · exact fun h => Or.inl h
        · obtain ⟨_, h3⟩ := reads_had (l := (parts f.type { props := true }).map fun p => (Item.part i p, db p))
            { s with hadProps := fun k => k == i || s.hadProps k }
          generalize St.reads { s with hadProps := fun k => k == i || s.hadProps k } ((parts f.type { props := true }).map fun p => (Item.part i p, db p)) = r at h3
          intro h
          rcases (post_primed (fs := fs) r).1.mp h with h | h
          · left; rw [h3] at h; exact h
          · right; rw [complete_congr (post_had r)]; exact h
  | startPost => exact absurd (by simp) hcalm.1
  | startUnmark => exact absurd (by simp) hcalm.2.1
  | valueRead i m db => exact absurd (by simp) (hcalm.2.2.1 i m db)
  | valuePost => exact absurd (by simp) hcalm.2.2.2

/-- an operation which counts, and can read what it has to: afterwards all that could be sent has been -/
theorem counts_step {fs : List MField} (s : St) (op : Op) (hcnt : Counts fs op) (hnf : NoFaults [op]) :
    ((s.step fs op).complete fs = true → (s.step fs op).primed = true) ∧ ((s.step fs op).primed = true → (s.step fs op).marked = []) := by
  have fin : ∀ r : St, ((r.post fs).complete fs = true → (r.post fs).primed = true) ∧ ((r.post fs).primed = true → (r.post fs).marked = []) := by
    intro r
    refine ⟨fun h => ?_, (post_primed r).2⟩
    rw [complete_congr (post_had r)] at h
    exact (post_primed r).1.mpr (Or.inr h)
  cases op with
  | start => exact fin s
  | value i m db fails =>
    obtain ⟨f, hf, hc⟩ := hcnt
    have hfl : ∀ j, fails j = false := hnf.1 i m db fails (by simp)
    simp only [St.step, hf]
    rw [if_neg (by simp [hc])]
    have ok : ∀ (js : List Nat) (s : St), (St.readAll fs i m db fails js s).2 = true := by
      intro js
      induction js with
      | nil => intro s; rfl
      | cons j js ih =>
        intro s
        rw [St.readAll]
        split
        · exact ih s
        · rw [if_neg (by simp [hfl j])]; exact ih _
    rw [if_pos (ok _ _)]
    exact fin _
  | props i db fails =>
    obtain ⟨f, hf, hc, hp⟩ := hcnt
    have hfl : fails = false := hnf.2 i db fails (by simp)
    have hp' := (hasProps_iff f).mpr hp
    simp only [St.step, hf]
    rw [if_neg (by simp [hc, hp']), if_neg (by simp [hfl])]
    exact fin _
  | startPost => exact absurd hcnt id
  | startUnmark => exact absurd hcnt id
  | valueRead i m db => exact absurd hcnt id
  | valuePost => exact absurd hcnt id

/-! ### C69 -/

/-- C69, what is proved of it.  Nothing is sent before the first events of all fields have come.
    Missing: a start which runs at the same time as an event, see `C69_race`; also `C69_unread`. -/
theorem C69_silent_partial (fs : List MField) (ops : List Op) (hc : Calm ops) (h : ¬ Silent (run fs ops).trace) : AllCame fs ops := by
  have hp := (inv_run fs ops hc).primed.mpr h
  clear h
  induction ops using snoc_ind with
  | h0 => rw [show (run fs []).primed = false from (init_had fs).2] at hp; cases hp
  | h1 ops op ih =>
    rw [run_snoc] at hp
    rcases primed_step _ op (calm_snoc hc).2 hp with h | h
    · exact allCame_mono (ih (calm_snoc hc).1 h) op
    · rw [← run_snoc] at h
      exact (complete_iff fs _ hc).mp h

/-- and then it is: an update has been sent once the first events of all fields have come and the last thing that happened was a start, or
    an event for which the records could be read -/
theorem C69_first_partial (fs : List MField) (ops : List Op) (op : Op) (hc : Calm (ops ++ [op])) (hcnt : Counts fs op) (hnf : NoFaults [op])
    (h : AllCame fs (ops ++ [op])) : ¬ Silent (run fs (ops ++ [op])).trace := by
  refine (inv_run fs _ hc).primed.mp ?_
  have := (complete_iff fs _ hc).mpr h
  rw [run_snoc] at this ⊢
  exact (counts_step _ op hcnt hnf).1 this

/-- what an update has: just what was read since the last update, as it was last read.  Only the first can be empty. -/
theorem C69_update_partial (fs : List MField) (ops : List Op) (hc : Calm ops) (a : List Ev) (u : List (Item × Nat)) (b : List Ev)
    (h : (run fs ops).trace = a ++ .post u :: b) :
    (∀ it x, (it, x) ∈ u ↔ fresh a it = some x) ∧ (u ≠ [] ∨ Silent a) := (inv_run fs ops hc).posts a u b h

/-- after the first update, all that an event changes is sent at once: nothing is left to be sent -/
theorem C69_prompt_partial (fs : List MField) (ops : List Op) (op : Op) (hc : Calm (ops ++ [op])) (hcnt : Counts fs op) (hnf : NoFaults [op])
    (h : ¬ Silent (run fs (ops ++ [op])).trace) (it : Item) : fresh (run fs (ops ++ [op])).trace it = none := by
  have hi := inv_run fs _ hc
  have hm : (run fs (ops ++ [op])).marked = [] := by
    have hp := hi.primed.mpr h
    rw [run_snoc] at hp ⊢
    exact (counts_step _ op hcnt hnf).2 hp
  cases hf : fresh (run fs (ops ++ [op])).trace it with
  | none => rfl
  | some x =>
    have := (hi.marks it x).mpr hf
    rw [hm] at this
    cases this

/-! what the first update has -/

theorem reads_trace {l : List (Item × Nat)} : ∀ (s : St), (s.reads l).trace = s.trace ++ l.map fun p => .read p.1 p.2 := by
  induction l with
  | nil => intro s; simp [St.reads]
  | cons p l ih =>
    intro s
    show ((s.read p.1 p.2).reads l).trace = _
    rw [ih]
    simp [St.read]

/-- what is marked stays marked while reading; and what is read is -/
theorem reads_keys {l : List (Item × Nat)} : ∀ (s : St), (∀ it, (∃ x, (it, x) ∈ s.marked) → ∃ x, (it, x) ∈ (s.reads l).marked) ∧
    (∀ p ∈ l, ∃ x, (p.1, x) ∈ (s.reads l).marked) := by
  induction l with
  | nil => intro s; exact ⟨fun it h => h, fun p h => by simp at h⟩
  | cons p l ih =>
    intro s
    obtain ⟨h1, h2⟩ := ih (s.read p.1 p.2)
    refine ⟨fun it ⟨x, hx⟩ => h1 it ?_, fun q hq => ?_⟩
    · by_cases e : it = p.1
      · exact ⟨p.2, (mem_read s p.1 p.2 it p.2).mpr (Or.inl ⟨e, rfl⟩)⟩
      · exact ⟨x, (mem_read s p.1 p.2 it x).mpr (Or.inr ⟨e, hx⟩)⟩
    · rcases List.mem_cons.mp hq with rfl | hq
      · exact h1 q.1 ⟨q.2, (mem_read s q.1 q.2 q.1 q.2).mpr (Or.inl ⟨rfl, rfl⟩)⟩
      · exact h2 q hq

/-- reading values which satisfy something for one item leaves it satisfied -/
theorem reads_const {l : List (Item × Nat)} {it : Item} {c : Nat} (hl : ∀ x, (it, x) ∈ l → x = c) :
    ∀ (s : St), (∀ x, (it, x) ∈ s.marked → x = c) → ∀ x, (it, x) ∈ (s.reads l).marked → x = c := by
  induction l with
  | nil => intro s h; exact h
  | cons p l ih =>
    intro s h
    refine ih (fun x hx => hl x (List.mem_cons_of_mem _ hx)) (s.read p.1 p.2) ?_
    intro x hx
    rcases (mem_read s p.1 p.2 it x).mp hx with ⟨h1, h2⟩ | ⟨_, h2⟩
    · exact hl x (by rw [h1, h2]; simp)
    · exact h x h2

/-- reading all triggered fields -/
theorem readAll_keys {fs : List MField} {i : Nat} {m : Mask} {db : Nat → Part → Nat} {fails : Nat → Bool} (hfl : ∀ j, fails j = false) {js : List Nat} :
    ∀ (s : St), (∀ it, (∃ x, (it, x) ∈ s.marked) → ∃ x, (it, x) ∈ (St.readAll fs i m db fails js s).1.marked) ∧
    (∀ j ∈ js, ∀ f, fs[j]? = some f → ∀ p ∈ parts f.type (if i = j then m else { value := true, alarm := true }),
      ∃ x, (Item.part j p, x) ∈ (St.readAll fs i m db fails js s).1.marked) := by
  induction js with
  | nil => intro s; exact ⟨fun it h => h, fun j h => by simp at h⟩
  | cons j js ih =>
    intro s
    rw [St.readAll]
    cases hf : fs[j]? with
    | none =>
      obtain ⟨h1, h2⟩ := ih s
      refine ⟨h1, fun k hk f hkf => ?_⟩
      rcases List.mem_cons.mp hk with rfl | hk
      · rw [hf] at hkf; cases hkf
      · exact h2 k hk f hkf
    | some g =>
      simp only [hfl j, Bool.false_eq_true, if_false]
      generalize hl : ((parts g.type (if i = j then m else { value := true, alarm := true })).map
        fun p => (Item.part j p, if g.type = .const then g.cval else db j p)) = l
      obtain ⟨h1, h2⟩ := ih (s.reads l)
      obtain ⟨h3, h4⟩ := reads_keys (l := l) s
      refine ⟨fun it h => h1 it (h3 it h), fun k hk f hkf p hp => ?_⟩
      rcases List.mem_cons.mp hk with rfl | hk
      · rw [hf] at hkf
        injection hkf with hkf
        subst hkf
        exact h1 _ (h4 (Item.part k p, if g.type = .const then g.cval else db k p) (by rw [← hl]; exact List.mem_map.mpr ⟨p, hp, rfl⟩))
      · exact h2 k hk f hkf p hp

theorem readAll_const {fs : List MField} {i : Nat} {m : Mask} {db : Nat → Part → Nat} {fails : Nat → Bool} {js : List Nat} {k : Nat} {c : MField}
    (hk : fs[k]? = some c) (ht : c.type = .const) :
    ∀ (s : St), (∀ x, (Item.part k .value, x) ∈ s.marked → x = c.cval) →
      ∀ x, (Item.part k .value, x) ∈ (St.readAll fs i m db fails js s).1.marked → x = c.cval := by
  induction js with
  | nil => intro s h; exact h
  | cons j js ih =>
    intro s h
    rw [St.readAll]
    cases hf : fs[j]? with
    | none => exact ih s h
    | some g =>
      simp only
      split
      · exact h
      · refine ih _ (reads_const ?_ s h)
        intro x hx
        obtain ⟨p, _, he⟩ := List.mem_map.mp hx
        injection he with he1 he2
        injection he1 with he1 _
        subst he1
        rw [hk] at hf
        injection hf with hf
        subst hf
        rw [if_pos ht] at he2
        exact he2.symm

/-- what has been read, as long as nothing has been sent -/
structure Gathered (fs : List MField) (s : St) : Prop where
  vals : ∀ i f, fs[i]? = some f → f.chan = true → s.hadValue i = true → ∀ j ∈ f.triggers, ∀ g, fs[j]? = some g →
    ∀ p, HasPart g p → (p = .value ∨ p = .alarm) → ∃ x, (Item.part j p, x) ∈ s.marked
  props : ∀ i f, fs[i]? = some f → f.chan = true → s.hadProps i = true → f.type = .scalar → ∃ x, (Item.part i .props, x) ∈ s.marked
  consts : ∀ i f, fs[i]? = some f → f.type = .const → ∃ x, (Item.part i .value, x) ∈ s.marked
  same : ∀ i f, fs[i]? = some f → f.type = .const → ∀ x, (Item.part i .value, x) ∈ s.marked → x = f.cval
  opts : ∃ x, (Item.options, x) ∈ s.marked
  forms : ∀ i f, fs[i]? = some f → f.chan = true → f.type = .scalar → ∃ x, (Item.part i .form, x) ∈ s.marked

theorem mem_initial {fs : List MField} : ∀ {k i : Nat} {f : MField}, fs[i]? = some f →
    (f.type = .const → (Item.part (k + i) .value, f.cval) ∈ initial k fs) ∧
    (f.chan = true → f.type = .scalar → (Item.part (k + i) .form, 0) ∈ initial k fs) := by
  induction fs with
  | nil => intro k i f h; simp at h
  | cons g fs ih =>
    intro k i f h
    cases i with
    | zero =>
      simp only [List.getElem?_cons_zero, Option.some.injEq] at h
      subst h
      refine ⟨fun ht => ?_, fun hc ht => ?_⟩
      · simp [initial, ht]
      · simp [initial, ht, hc]
    | succ i =>
      obtain ⟨h1, h2⟩ := ih (k := k + 1) (i := i) (f := f) (by simpa using h)
      rw [show k + 1 + i = k + (i + 1) by omega] at h1 h2
      exact ⟨fun ht => by rw [initial]; exact List.mem_append_right _ (h1 ht), fun hc ht => by rw [initial]; exact List.mem_append_right _ (h2 hc ht)⟩

theorem initial_mem {fs : List MField} : ∀ {k : Nat} {it : Item} {x : Nat}, (it, x) ∈ initial k fs →
    ∃ i f, fs[i]? = some f ∧ ((it = .part (k + i) .value ∧ f.type = .const ∧ x = f.cval) ∨ it = .part (k + i) .form) := by
  induction fs with
  | nil => intro k it x h; simp [initial] at h
  | cons g fs ih =>
    intro k it x h
    rw [initial] at h
    rcases List.mem_append.mp h with h | h
    · refine ⟨0, g, rfl, ?_⟩
      split at h
      · rename_i ht
        rw [List.mem_singleton] at h
        injection h with h1 h2
        exact Or.inl ⟨h1, ht, h2⟩
      · split at h
        · rw [List.mem_singleton] at h
          injection h with h1 h2
          exact Or.inr h1
        · simp at h
    · obtain ⟨i, f, h1, h2⟩ := ih h
      refine ⟨i + 1, f, by simpa using h1, ?_⟩
      rw [show k + (i + 1) = k + 1 + i by omega]
      exact h2

theorem gathered_init (fs : List MField) : Gathered fs (St.init fs) := by
  obtain ⟨hh, _⟩ := init_had fs
  have hk : ∀ p ∈ (Item.options, 0) :: initial 0 fs, ∃ x, (p.1, x) ∈ (St.init fs).marked :=
    (reads_keys (l := (Item.options, 0) :: initial 0 fs) _).2
  refine ⟨?_, ?_, ?_, ?_, ?_, ?_⟩
  · intro i f hi hc hv
    rw [(hh i f hi).1] at hv
    simp [hc] at hv
  · intro i f hi hc hv ht
    rw [(hh i f hi).2] at hv
    simp [hc, hasProps, ht] at hv
  · intro i f hi ht
    exact hk (Item.part i .value, f.cval) (List.mem_cons_of_mem _ (by have := (mem_initial (k := 0) hi).1 ht; rwa [Nat.zero_add] at this))
  · intro i f hi ht x hx
    exact reads_const (l := (Item.options, 0) :: initial 0 fs) (it := Item.part i .value) (c := f.cval) (by
      intro y hy
      rcases List.mem_cons.mp hy with hy | hy
      · injection hy with hy _; cases hy
      · obtain ⟨j, g, hj, h1⟩ := initial_mem hy
        rcases h1 with ⟨h1, _, h3⟩ | h1
        · injection h1 with h1 _
          rw [Nat.zero_add] at h1
          subst h1
          rw [hi] at hj
          injection hj with hj
          rw [hj]; exact h3
        · injection h1 with _ h1; cases h1) _ (by intro y hy; simp at hy) x hx
  · exact hk (Item.options, 0) (by simp)
  · intro i f hi hc ht
    exact hk (Item.part i .form, 0) (List.mem_cons_of_mem _ (by have := (mem_initial (k := 0) hi).2 hc ht; rwa [Nat.zero_add] at this))

theorem has_parts {f : MField} {p : Part} (h : HasPart f p) (hp : p = .value ∨ p = .alarm) {m : Mask} (hm : m.value = true) : p ∈ parts f.type m := by
  rcases hp with rfl | rfl
  · rcases h with h | h | h | h <;> simp [parts, h, hm]
  · rcases h with h | h <;> simp [parts, h, hm]

/-- the trace only grows -/
theorem post_trace {fs : List MField} (s : St) : (s.post fs).trace = s.trace ∨ (s.post fs).trace = s.trace ++ [.post s.marked] := by
  unfold St.post
  split
  · split
    · exact Or.inl rfl
    · exact Or.inr rfl
  · split
    · exact Or.inr rfl
    · exact Or.inl rfl

theorem readAll_trace {fs : List MField} {i : Nat} {m : Mask} {db : Nat → Part → Nat} {fails : Nat → Bool} {js : List Nat} :
    ∀ (s : St), ∃ l : List (Item × Nat), (St.readAll fs i m db fails js s).1.trace = s.trace ++ l.map fun p => .read p.1 p.2 := by
  induction js with
  | nil => intro s; exact ⟨[], by simp [St.readAll]⟩
  | cons j js ih =>
    intro s
    rw [St.readAll]
    split
    · exact ih s
    · split
      · exact ⟨[], by simp⟩
      · rename_i f _ _
        obtain ⟨l, hl⟩ := ih (s.reads ((parts f.type (if i = j then m else { value := true, alarm := true })).map
          fun p => (.part j p, if f.type = .const then f.cval else db j p)))
        rw [reads_trace] at hl
        exact ⟨_ ++ l, by rw [hl, List.append_assoc, ← List.map_append]⟩

theorem step_trace {fs : List MField} (s : St) (op : Op) : ∃ ext, (s.step fs op).trace = s.trace ++ ext := by
  have hpost : ∀ (r : St) (e : List Ev), r.trace = s.trace ++ e → ∃ ext, (r.post fs).trace = s.trace ++ ext := by
    intro r e he
    rcases post_trace (fs := fs) r with h | h
    · exact ⟨e, by rw [h, he]⟩
    · exact ⟨e ++ [.post r.marked], by rw [h, he, List.append_assoc]⟩
  cases op with
  | start => exact hpost s [] (by simp)
  | value i m db fails =>
    simp only [St.step]
    split
    · exact ⟨[], by simp⟩
    · split
      · exact ⟨[], by simp⟩
      · rename_i f _ _
        obtain ⟨l, hl⟩ := readAll_trace (fs := fs) (i := i) (m := m) (db := db) (fails := fails) (js := f.triggers)
          { s with hadValue := fun k => k == i || s.hadValue k }
        split
        · exact hpost _ _ hl
        · exact ⟨_, hl⟩
  | props i db fails =>
    simp only [St.step]
    split
    · exact ⟨[], by simp⟩
    · split
      · exact ⟨[], by simp⟩
      · split
        · exact ⟨[], by simp⟩
        · exact hpost _ _ (reads_trace _)
  | startPost =>
    simp only [St.step]
    split
    · exact ⟨[.post s.marked], rfl⟩
    · exact ⟨[], by simp⟩
  | startUnmark =>
    simp only [St.step]
    split <;> exact ⟨[], by simp⟩
  | valueRead i m db =>
    simp only [St.step]
    split
    · exact ⟨[], by simp⟩
    · split
      · exact ⟨[], by simp⟩
      · obtain ⟨l, hl⟩ := readAll_trace (fs := fs) (i := i) (m := m) (db := db) (fails := fun _ => false) (js := ‹MField›.triggers)
          { s with hadValue := fun k => k == i || s.hadValue k }
        exact ⟨_, hl⟩
  | valuePost => exact hpost s [] (by simp)

/-- an operation reads, and then it posts or not -/
theorem gathered_step {fs : List MField} {s : St} (h : Gathered fs s) (op : Op) (hnf : NoFaults [op]) (hw : Whole [op])
    (hc : Calm [op]) :
    ∃ r : St, Gathered fs r ∧ r.primed = s.primed ∧ (∃ l : List (Item × Nat), r.trace = s.trace ++ l.map fun p => .read p.1 p.2) ∧
      (s.step fs op = r ∨ s.step fs op = r.post fs) := by
  cases op with
  | start => exact ⟨s, h, rfl, ⟨[], by simp⟩, Or.inr rfl⟩
  | value i m db fails =>
    have hfl : ∀ j, fails j = false := hnf.1 i m db fails (by simp)
    have hm : m.value = true := hw i m db fails (by simp)
    simp only [St.step]
    cases hf : fs[i]? with
    | none => exact ⟨s, h, rfl, ⟨[], by simp⟩, Or.inl rfl⟩
    | some f =>
      simp only
      by_cases hc : f.chan = false
      · rw [if_pos hc]; exact ⟨s, h, rfl, ⟨[], by simp⟩, Or.inl rfl⟩
      · rw [if_neg hc]
        obtain ⟨⟨h1, h2⟩, h3⟩ := readAll_had (fs := fs) (i := i) (m := m) (db := db) (fails := fails) (js := f.triggers)
          { s with hadValue := fun k => k == i || s.hadValue k }
        obtain ⟨h4, h5⟩ := readAll_keys (fs := fs) (i := i) (m := m) (db := db) (fails := fails) hfl (js := f.triggers)
          { s with hadValue := fun k => k == i || s.hadValue k }
        have h6 := readAll_trace (fs := fs) (i := i) (m := m) (db := db) (fails := fails) (js := f.triggers)
          { s with hadValue := fun k => k == i || s.hadValue k }
        have h7 := fun k c (hk : fs[k]? = some c) ht => readAll_const (fs := fs) (i := i) (m := m) (db := db) (fails := fails) (js := f.triggers) (k := k) (c := c) hk ht
          { s with hadValue := fun k => k == i || s.hadValue k }
        generalize St.readAll fs i m db fails f.triggers { s with hadValue := fun k => k == i || s.hadValue k } = r at h1 h2 h3 h4 h5 h6 h7
        refine ⟨r.1, ⟨?_, ?_, ?_, ?_, ?_, ?_⟩, h3, h6, ?_⟩
        · intro k g hk hgc hv j hj g' hj' p hp hpv
          rw [h1] at hv
          simp only [Bool.or_eq_true, beq_iff_eq] at hv
          by_cases e : k = i
          · subst e
            rw [hf] at hk
            injection hk with hk
            subst hk
            refine h5 j hj g' hj' p (has_parts hp hpv ?_)
            split
            · exact hm
            · rfl
          · rcases hv with hv | hv
            · exact absurd hv e
            · exact h4 _ (h.vals k g hk hgc hv j hj g' hj' p hp hpv)
        · intro k g hk hgc hv ht
          rw [h2] at hv
          exact h4 _ (h.props k g hk hgc hv ht)
        · intro k g hk ht
          exact h4 _ (h.consts k g hk ht)
        · intro k g hk ht
          exact h7 k g hk ht (h.same k g hk ht)
        · exact h4 _ h.opts
        · intro k g hk hgc ht
          exact h4 _ (h.forms k g hk hgc ht)
        · split
          · exact Or.inr rfl
          · exact Or.inl rfl
  | props i db fails =>
    have hfl : fails = false := hnf.2 i db fails (by simp)
    simp only [St.step]
    cases hf : fs[i]? with
    | none => exact ⟨s, h, rfl, ⟨[], by simp⟩, Or.inl rfl⟩
    | some f =>
      simp only
      by_cases hc : (f.chan = false || !hasProps f) = true
      · rw [if_pos hc]; exact ⟨s, h, rfl, ⟨[], by simp⟩, Or.inl rfl⟩
      · rw [if_neg hc, if_neg (by simp [hfl])]
        have hx : hasProps f = true := by
          cases hx : f.chan <;> cases hy : hasProps f <;> simp_all
        generalize hl : ((parts f.type { props := true }).map fun p => (Item.part i p, db p)) = l
        obtain ⟨⟨h1, h2⟩, h3⟩ := reads_had (l := l) { s with hadProps := fun k => k == i || s.hadProps k }
        obtain ⟨h4, h5⟩ := reads_keys (l := l) { s with hadProps := fun k => k == i || s.hadProps k }
        have h6 := reads_trace (l := l) { s with hadProps := fun k => k == i || s.hadProps k }
        have h7 := fun it c hlc => reads_const (l := l) (it := it) (c := c) hlc { s with hadProps := fun k => k == i || s.hadProps k }
        generalize St.reads { s with hadProps := fun k => k == i || s.hadProps k } l = r at h1 h2 h3 h4 h5 h6 h7
        refine ⟨r, ⟨?_, ?_, ?_, ?_, ?_, ?_⟩, h3, ⟨l, h6⟩, Or.inr rfl⟩
        · intro k g hk hgc hv j hj g' hj' p hp hpv
          rw [h1] at hv
          exact h4 _ (h.vals k g hk hgc hv j hj g' hj' p hp hpv)
        · intro k g hk hgc hv ht
          rw [h2] at hv
          simp only [Bool.or_eq_true, beq_iff_eq] at hv
          by_cases e : k = i
          · subst e
            rw [hf] at hk
            injection hk with hk
            subst hk
            exact h5 (Item.part k .props, db .props) (by rw [← hl]; simp [parts, ht])
          · rcases hv with hv | hv
            · exact absurd hv e
            · exact h4 _ (h.props k g hk hgc hv ht)
        · intro k g hk ht
          exact h4 _ (h.consts k g hk ht)
        · intro k g hk ht
          refine h7 _ g.cval ?_ (h.same k g hk ht)
          intro x hx'
          rw [← hl] at hx'
          obtain ⟨p, _, he⟩ := List.mem_map.mp hx'
          injection he with he1 _
          injection he1 with he1 _
          subst he1
          rw [hf] at hk
          injection hk with hk
          subst hk
          simp [hasProps, ht] at hx
        · exact h4 _ h.opts
        · intro k g hk hgc ht
          exact h4 _ (h.forms k g hk hgc ht)
  | startPost => exact absurd (by simp) hc.1
  | startUnmark => exact absurd (by simp) hc.2.1
  | valueRead i m db => exact absurd (by simp) (hc.2.2.1 i m db)
  | valuePost => exact absurd (by simp) hc.2.2.2

theorem full_of {fs : List MField} {s : St} (h : Gathered fs s) (hc : s.complete fs = true) : Full fs s.marked := by
  unfold St.complete at hc
  rw [List.all_eq_true] at hc
  have hc' : ∀ i f, fs[i]? = some f → s.hadValue i = true ∧ s.hadProps i = true := by
    intro i f hi
    have := hc i (List.mem_range.mpr (List.getElem?_eq_some_iff.mp hi).1)
    rwa [Bool.and_eq_true] at this
  refine ⟨?_, ?_, ?_, h.opts⟩
  · intro i f hi hch
    exact h.vals i f hi hch (hc' i f hi).1
  · intro i f hi hch ht
    exact ⟨h.props i f hi hch (hc' i f hi).2 ht, h.forms i f hi hch ht⟩
  · intro i f hi ht
    obtain ⟨x, hx⟩ := h.consts i f hi ht
    have := h.same i f hi ht x hx
    rw [this] at hx
    exact hx

theorem nofaults_snoc {ops : List Op} {op : Op} (h : NoFaults (ops ++ [op])) : NoFaults ops ∧ NoFaults [op] := by
  refine ⟨⟨fun i m db fl hm => h.1 i m db fl (List.mem_append_left _ hm), fun i db fl hm => h.2 i db fl (List.mem_append_left _ hm)⟩,
    fun i m db fl hm => h.1 i m db fl (List.mem_append_right _ hm), fun i db fl hm => h.2 i db fl (List.mem_append_right _ hm)⟩

theorem whole_snoc {ops : List Op} {op : Op} (h : Whole (ops ++ [op])) : Whole ops ∧ Whole [op] :=
  ⟨fun i m db fl hm => h i m db fl (List.mem_append_left _ hm), fun i m db fl hm => h i m db fl (List.mem_append_right _ hm)⟩

/-- the first update stays the first -/
theorem first_of {t ext a b : List Ev} {u : List (Item × Nat)} (ht : ¬ Silent t) (h : t ++ ext = a ++ .post u :: b) (ha : Silent a) :
    ∃ b', t = a ++ .post u :: b' := by
  rcases List.append_eq_append_iff.mp h with ⟨c, h1, h2⟩ | ⟨c, h1, h2⟩
  · refine absurd ?_ ht
    intro v hv
    exact ha v (by rw [h1]; exact List.mem_append_left _ hv)
  · cases c with
    | nil =>
      rw [List.append_nil] at h1
      rw [h1] at ht
      exact absurd ha ht
    | cons e c =>
      simp only [List.cons_append, List.cons.injEq] at h2
      refine ⟨c, ?_⟩
      rw [h1, h2.1]

theorem silent_reads {t : List Ev} {l : List (Item × Nat)} (h : Silent t) : Silent (t ++ l.map fun p => .read p.1 p.2) := by
  intro u hu
  rcases List.mem_append.mp hu with hu | hu
  · exact h u hu
  · obtain ⟨p, _, he⟩ := List.mem_map.mp hu
    cases he

theorem first_run (fs : List MField) (ops : List Op) (hc : Calm ops) (hnf : NoFaults ops) (hw : Whole ops) :
    (Silent (run fs ops).trace → Gathered fs (run fs ops)) ∧
    (∀ a u b, (run fs ops).trace = a ++ .post u :: b → Silent a → Full fs u) := by
  induction ops using snoc_ind with
  | h0 =>
    refine ⟨fun _ => gathered_init fs, ?_⟩
    intro a u b h ha
    have hp : (run fs []).primed = false := (init_had fs).2
    have := (inv_init fs).primed.mpr (fun hs => hs u (by
      have : (St.init fs).trace = a ++ .post u :: b := h
      rw [this]; simp))
    rw [show (St.init fs).primed = false from hp] at this
    cases this
  | h1 ops op ih =>
    obtain ⟨hc1, hc2⟩ := calm_snoc hc
    obtain ⟨hn1, hn2⟩ := nofaults_snoc hnf
    obtain ⟨hw1, hw2⟩ := whole_snoc hw
    obtain ⟨ih1, ih2⟩ := ih hc1 hn1 hw1
    have hinv := inv_run fs ops hc1
    by_cases hs : Silent (run fs ops).trace
    · obtain ⟨r, hr1, hr2, ⟨l, hr3⟩, hr4⟩ := gathered_step (ih1 hs) op hn2 hw2 hc2
      have hrs : Silent r.trace := by rw [hr3]; exact silent_reads hs
      have hrp : r.primed = false := by
        rw [hr2]
        rcases Bool.eq_false_or_eq_true (run fs ops).primed with hp | hp
        · exact absurd hs (hinv.primed.mp hp)
        · exact hp
      rw [run_snoc]
      have none : ∀ t : List Ev, Silent t → ∀ a u b, t = a ++ .post u :: b → False := by
        intro t ht a u b he
        exact ht u (by rw [he]; simp)
      rcases hr4 with hr4 | hr4
      · rw [hr4]
        exact ⟨fun _ => hr1, fun a u b he _ => absurd (none _ hrs a u b he) id⟩
      · rw [hr4]
        unfold St.post
        rw [if_neg (by simp [hrp])]
        by_cases hcm : r.complete fs = true
        · rw [if_pos hcm]
          have ht : (St.send { r with primed := true }).trace = r.trace ++ [.post r.marked] := rfl
          refine ⟨fun hs' => absurd (hs' r.marked (by rw [ht]; simp)) id, ?_⟩
          intro a u b he ha
          rw [ht] at he
          rcases snoc_split he with ⟨_, h1, h2⟩ | ⟨b', _, h1⟩
          · injection h1 with h1
            rw [← h1]
            exact full_of hr1 hcm
          · exact absurd (none _ hrs a u b' h1) id
        · rw [if_neg hcm]
          exact ⟨fun _ => hr1, fun a u b he _ => absurd (none _ hrs a u b he) id⟩
    · have grow : ∃ ext, (run fs (ops ++ [op])).trace = (run fs ops).trace ++ ext := by
        rw [run_snoc]
        exact step_trace _ op
      obtain ⟨ext, hg⟩ := grow
      refine ⟨fun hs' => absurd (fun u hu => hs' u (by rw [hg]; exact List.mem_append_left _ hu)) hs, ?_⟩
      intro a u b he ha
      rw [hg] at he
      obtain ⟨b', hb⟩ := first_of hs he ha
      exact ih2 a u b' hb ha

/-- when every record can be read, the first update is complete -/
theorem C69_complete_partial (fs : List MField) (ops : List Op) (hc : Calm ops) (hnf : NoFaults ops) (hw : Whole ops)
    (a : List Ev) (u : List (Item × Nat)) (b : List Ev) (h : (run fs ops).trace = a ++ .post u :: b) (ha : Silent a) : Full fs u :=
  (first_run fs ops hc hnf hw).2 a u b h ha

/-! what an event sends -/

theorem reads_val {l : List (Item × Nat)} {it : Item} {c : Nat} (hl : ∀ x, (it, x) ∈ l → x = c) :
    ∀ (s : St), ((it, c) ∈ s.marked ∨ ∃ x, (it, x) ∈ l) → (it, c) ∈ (s.reads l).marked := by
  induction l with
  | nil =>
    intro s h
    rcases h with h | ⟨x, h⟩
    · exact h
    · simp at h
  | cons p l ih =>
    intro s h
    have ih := ih (fun x hx => hl x (List.mem_cons_of_mem _ hx)) (s.read p.1 p.2)
    by_cases e : it = p.1
    · have : p.2 = c := hl p.2 (by rw [e]; simp)
      exact ih (Or.inl ((mem_read s p.1 p.2 it c).mpr (Or.inl ⟨e, this.symm⟩)))
    · rcases h with h | ⟨x, h⟩
      · exact ih (Or.inl ((mem_read s p.1 p.2 it c).mpr (Or.inr ⟨e, h⟩)))
      · rcases List.mem_cons.mp h with h | h
        · exact absurd (by rw [← h]) e
        · exact ih (Or.inr ⟨x, h⟩)

theorem reads_only {l : List (Item × Nat)} : ∀ (s : St) (it : Item) (x : Nat), (it, x) ∈ (s.reads l).marked → (it, x) ∈ s.marked ∨ (it, x) ∈ l := by
  induction l with
  | nil => intro s it x h; exact Or.inl h
  | cons p l ih =>
    intro s it x h
    rcases ih (s.read p.1 p.2) it x h with h | h
    · rcases (mem_read s p.1 p.2 it x).mp h with ⟨h1, h2⟩ | ⟨_, h2⟩
      · right; rw [h1, h2]; simp
      · exact Or.inl h2
    · exact Or.inr (List.mem_cons_of_mem _ h)

theorem readAll_val {fs : List MField} {i : Nat} {m : Mask} {db : Nat → Part → Nat} {fails : Nat → Bool} (hfl : ∀ j, fails j = false)
    {k : Nat} {p : Part} {g : MField} (hk : fs[k]? = some g) (hg : g.type ≠ .const)
    (hp : p ∈ parts g.type (if i = k then m else { value := true, alarm := true })) {js : List Nat} :
    ∀ (s : St), (k ∈ js ∨ (Item.part k p, db k p) ∈ s.marked) → (Item.part k p, db k p) ∈ (St.readAll fs i m db fails js s).1.marked := by
  induction js with
  | nil =>
    intro s h
    rcases h with h | h
    · simp at h
    · exact h
  | cons j js ih =>
    intro s h
    rw [St.readAll]
    cases hf : fs[j]? with
    | none =>
      refine ih s ?_
      rcases h with h | h
      · rcases List.mem_cons.mp h with rfl | h
        · rw [hk] at hf; cases hf
        · exact Or.inl h
      · exact Or.inr h
    | some f =>
      simp only [hfl j, Bool.false_eq_true, if_false]
      refine ih _ ?_
      have hl : ∀ x, (Item.part k p, x) ∈ (parts f.type (if i = j then m else { value := true, alarm := true })).map
          (fun p => (Item.part j p, if f.type = .const then f.cval else db j p)) → x = db k p := by
        intro x hx
        obtain ⟨q, _, he⟩ := List.mem_map.mp hx
        injection he with he1 he2
        injection he1 with he1 he3
        subst he1 he3
        rw [hk] at hf
        injection hf with hf
        subst hf
        rw [if_neg hg] at he2
        exact he2.symm
      rcases h with h | h
      · rcases List.mem_cons.mp h with rfl | h
        · right
          refine reads_val hl s (Or.inr ⟨db k p, ?_⟩)
          rw [hk] at hf
          injection hf with hf
          subst hf
          exact List.mem_map.mpr ⟨p, hp, by rw [if_neg hg]⟩
        · exact Or.inl h
      · exact Or.inr (reads_val hl s (Or.inl h))

theorem readAll_only {fs : List MField} {i : Nat} {m : Mask} {db : Nat → Part → Nat} {fails : Nat → Bool} {js : List Nat} :
    ∀ (s : St) (it : Item) (x : Nat), (it, x) ∈ (St.readAll fs i m db fails js s).1.marked → (it, x) ∈ s.marked ∨ ∃ j ∈ js, ∃ p, it = .part j p := by
  induction js with
  | nil => intro s it x h; exact Or.inl h
  | cons j js ih =>
    intro s it x h
    rw [St.readAll] at h
    cases hf : fs[j]? with
    | none =>
      rw [hf] at h
      rcases ih s it x h with h | ⟨k, hk, p, he⟩
      · exact Or.inl h
      · exact Or.inr ⟨k, List.mem_cons_of_mem _ hk, p, he⟩
    | some f =>
      rw [hf] at h
      simp only at h
      split at h
      · exact Or.inl h
      · rcases ih _ it x h with h | ⟨k, hk, p, he⟩
        · rcases reads_only s it x h with h | h
          · exact Or.inl h
          · obtain ⟨q, _, he⟩ := List.mem_map.mp h
            injection he with he _
            exact Or.inr ⟨j, by simp, q, he.symm⟩
        · exact Or.inr ⟨k, List.mem_cons_of_mem _ hk, p, he⟩

/-- after the first update, an event for a change of a field's value sends the present value, and alarm, of all the fields it updates.
    Other than these it sends only what was read before and not sent (because a record could not be read). -/
theorem C69_event_partial (fs : List MField) (ops : List Op) (i : Nat) (f : MField) (m : Mask) (db : Nat → Part → Nat) (fails : Nat → Bool)
    (hc : Calm ops) (hs : ¬ Silent (run fs ops).trace) (hi : fs[i]? = some f) (hch : f.chan = true) (hm : m.value = true)
    (hfl : ∀ j, fails j = false) (j : Nat) (hj : j ∈ f.triggers) (g : MField) (hg : fs[j]? = some g) (hgc : g.type ≠ .const)
    (p : Part) (hp : HasPart g p) (hpv : p = .value ∨ p = .alarm) :
    ∃ a u, (run fs (ops ++ [.value i m db fails])).trace = a ++ [.post u] ∧ (Item.part j p, db j p) ∈ u ∧
      ∀ it x, (it, x) ∈ u → fresh (run fs ops).trace it = some x ∨ ∃ k ∈ f.triggers, ∃ q, it = .part k q := by
  have hinv := inv_run fs ops hc
  rw [run_snoc]
  generalize run fs ops = s at hs hinv
  simp only [St.step, hi]
  rw [if_neg (by simp [hch])]
  have ok : ∀ (js : List Nat) (s : St), (St.readAll fs i m db fails js s).2 = true := by
    intro js
    induction js with
    | nil => intro s; rfl
    | cons j js ih =>
      intro s
      rw [St.readAll]
      split
      · exact ih s
      · rw [if_neg (by simp [hfl j])]; exact ih _
  rw [if_pos (ok _ _)]
  have hmem := readAll_val (fs := fs) (i := i) (m := m) (db := db) (fails := fails) hfl hg hgc (p := p)
    (has_parts hp hpv (by split <;> simp [hm])) (js := f.triggers) { s with hadValue := fun k => k == i || s.hadValue k } (Or.inl hj)
  have honly := readAll_only (fs := fs) (i := i) (m := m) (db := db) (fails := fails) (js := f.triggers) { s with hadValue := fun k => k == i || s.hadValue k }
  obtain ⟨_, hpr⟩ := readAll_had (fs := fs) (i := i) (m := m) (db := db) (fails := fails) (js := f.triggers) { s with hadValue := fun k => k == i || s.hadValue k }
  generalize (St.readAll fs i m db fails f.triggers { s with hadValue := fun k => k == i || s.hadValue k }).1 = r at hmem honly hpr
  have hrp : r.primed = true := by rw [hpr]; exact hinv.primed.mpr hs
  have hne : r.marked ≠ [] := by
    intro h
    rw [h] at hmem
    cases hmem
  refine ⟨r.trace, r.marked, ?_, hmem, ?_⟩
  · unfold St.post
    rw [if_pos hrp, if_neg hne]
    rfl
  · intro it x hx
    rcases honly it x hx with h | h
    · exact Or.inl ((hinv.marks it x).mp h)
    · exact Or.inr h

/-! ### concrete cases -/

/-- two scalar fields which update each other, a constant, and a field updated by no one -/
def sample : List MField :=
  [{ triggers := [0, 1] }, { triggers := [1], type := .plain }, { type := .const, chan := false, cval := 42 }, { type := .any, triggers := [] }]

def val (i n : Nat) : Op := .value i { value := true, alarm := true } (fun j p => 100 * n + 10 * j + (if p = .alarm then 1 else 0)) (fun _ => false)

def all : List Op := [.start, val 0 1, val 1 2, .props 0 (fun _ => 7) false, val 3 3]

/-- the hypotheses of the theorems can be met: here all fields have had their first events with the last operation, which sends the first
    update -/
example : Calm all ∧ NoFaults all ∧ Whole all ∧ AllCame sample all ∧ Counts sample (val 3 3) ∧
    (run sample all.dropLast).trace.all (fun e => match e with | .post _ => false | _ => true) = true ∧
    (run sample all).trace.getLast? = some (.post [(.part 0 .props, 7), (.part 1 .value, 210), (.part 0 .value, 100), (.part 0 .alarm, 101),
      (.part 2 .value, 42), (.part 0 .form, 0), (.options, 0)]) := by
  refine ⟨by simp [Calm, all, val], ?_, ?_, ?_, ⟨_, rfl, rfl⟩, by decide +kernel, by decide +kernel⟩
  · refine ⟨?_, ?_⟩
    · intro i m db fl h
      simp only [all, val, List.mem_cons, Op.value.injEq, reduceCtorEq, false_or, List.not_mem_nil, or_false] at h
      rcases h with h | h | h <;> (rw [h.2.2.2]; intro _; rfl)
    · intro i db fl h
      simp only [all, val, List.mem_cons, Op.props.injEq, reduceCtorEq, false_or, List.not_mem_nil, or_false] at h
      exact h.2.2
  · intro i m db fl h
    simp only [all, val, List.mem_cons, Op.value.injEq, reduceCtorEq, false_or, List.not_mem_nil, or_false] at h
    rcases h with h | h | h <;> rw [h.2.1]
  · intro i f hi hc
    match i, hi with
    | 0, hi => exact ⟨⟨_, _, _, by unfold all val; exact List.mem_cons_of_mem _ List.mem_cons_self⟩,
        fun _ => ⟨fun _ => 7, false, by simp [all]⟩⟩
    | 1, hi =>
      refine ⟨⟨_, _, _, by unfold all val; exact List.mem_cons_of_mem _ (List.mem_cons_of_mem _ List.mem_cons_self)⟩, fun h => ?_⟩
      cases hi
      simp at h
    | 2, hi => cases hi; cases hc
    | 3, hi =>
      refine ⟨⟨_, _, _, by unfold all val; exact List.mem_cons_of_mem _ (List.mem_cons_of_mem _ (List.mem_cons_of_mem _ (List.mem_cons_of_mem _ List.mem_cons_self)))⟩, fun h => ?_⟩
      cases hi
      simp at h
    | n + 4, hi => simp [sample] at hi

/-- an event after that sends the fields it updates -/
example : (run sample (all ++ [val 0 5])).trace.getLast? = some (.post [(.part 1 .value, 510), (.part 0 .value, 500), (.part 0 .alarm, 501)]) := by
  decide +kernel

/-! ### where it does not hold -/

/-- the full claim on the first update: complete, even if a record could not be read at first -/
def FirstClaim : Prop := ∀ fs ops a u b, Calm ops → Whole ops → (run fs ops).trace = a ++ .post u :: b → Silent a → Full fs u

/-- when the records of the first event of a field cannot be read (ioc/groupsource.cpp:272-307: its event counts as come, then get throws), the
    first update is sent without its value -/
theorem C69_unread : ¬ FirstClaim := by
  intro h
  have hx := h [{ type := .plain, triggers := [0] }, { type := .plain, triggers := [1] }]
    [.value 0 { value := true } (fun _ _ => 1) (fun _ => true), .value 1 { value := true } (fun _ _ => 2) (fun _ => false)]
    [.read .options 0, .read (.part 1 .value) 2] [(.part 1 .value, 2), (.options, 0)] []
    (by simp [Calm])
    (by
      intro i m db fl h
      simp only [List.mem_cons, Op.value.injEq, List.not_mem_nil, or_false] at h
      rcases h with h | h <;> rw [h.2.1])
    (by decide +kernel) (by simp [Silent])
  obtain ⟨x, hx⟩ := hx.1 0 { type := .plain, triggers := [0] } rfl rfl 0 (by simp) _ rfl .value (by simp [HasPart]) (Or.inl rfl)
  simp at hx

/-- the full claims on changes: what is read is sent, unless it is read again first; and it is sent once -/
def NoLossClaim : Prop := ∀ fs ops a b it x, (run fs ops).trace = a ++ .read it x :: b → ¬ Silent a → (run fs ops).marked = [] →
  (∃ u y, Ev.post u ∈ b ∧ (it, y) ∈ u) ∨ ∃ y, Ev.read it y ∈ b

def OnceClaim : Prop := ∀ fs ops a u b, (run fs ops).trace = a ++ .post u :: b → ∀ it x, (it, x) ∈ u → fresh a it = some x

/-- a start whose events come while it is still running -/
def race : List Op :=
  [.valueRead 0 { value := true } (fun _ _ => 5), .startPost, .valuePost, .valueRead 0 { value := true } (fun _ _ => 6), .startUnmark, .valuePost]

/-- events come on another thread than onStart(), and the mutex `eventLock` of the subscription is not taken by anyone
    (ioc/groupsource.cpp:245-253, 207-237).  So an event can come between the post() and the unmark() of a start: what it changes is never
    sent.  Here 5 is sent twice, and 6 not at all. -/
theorem C69_race : ¬ NoLossClaim ∧ ¬ OnceClaim := by
  constructor
  · intro h
    have hx := h [{ type := .plain, triggers := [0] }] race
      [.read .options 0, .read (.part 0 .value) 5, .post [(.part 0 .value, 5), (.options, 0)], .post [(.part 0 .value, 5), (.options, 0)]]
      [] (.part 0 .value) 6 (by decide +kernel) (by simp [Silent]) (by decide +kernel)
    simp at hx
  · intro h
    have hx := h [{ type := .plain, triggers := [0] }] race
      [.read .options 0, .read (.part 0 .value) 5, .post [(.part 0 .value, 5), (.options, 0)]] [(.part 0 .value, 5), (.options, 0)]
      [.read (.part 0 .value) 6] (by decide +kernel) (.part 0 .value) 5 (by simp)
    exact absurd hx (by decide +kernel)

end Pvxs.Props.Grm
