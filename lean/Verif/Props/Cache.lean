import Verif.Spec.Cache
/-
C44: the channels which are kept.
-/
namespace Pvxs.Props.Cch
open Pvxs.Cache Spec.Cache

def keeps (name : Str) (a : Action) (refs : List Nat) (x : Key × Nat) : Bool :=
  decide ((name ≠ [] ∧ x.1.1 ≠ name) ∨ (a = .clean ∧ x.2 ∈ refs))

theorem passLoop_eq (name : Str) (a : Action) (refs : List Nat) (l : List (Key × Nat)) (g : Nat → Bool) :
    (passLoop name a refs l g).1 = l.filter (keeps name a refs) ∧
    (passLoop name a refs l g).2.2 = if a = .disconnect then (l.filter fun x => !keeps name a refs x).map (·.2) else [] := by
  induction l generalizing g with
  | nil => simp [passLoop]
  | cons x l ih =>
    obtain ⟨k, id⟩ := x
    rw [passLoop]
    have hc : (1 + refs.count id ≤ 1) ↔ id ∉ refs := by
      rw [← List.count_eq_zero]; omega
    by_cases h1 : name ≠ [] ∧ k.1 ≠ name
    · have hk : keeps name a refs (k, id) = true := decide_eq_true (Or.inl h1)
      rw [if_pos h1, List.filter_cons_of_pos hk, List.filter_cons_of_neg (by rw [hk]; decide)]
      exact ⟨by dsimp only; rw [(ih g).1], (ih g).2⟩
    · rw [if_neg h1]
      by_cases h2 : a ≠ .clean ∨ 1 + refs.count id ≤ 1
      · have hk : keeps name a refs (k, id) = false := by
          refine decide_eq_false ?_
          rintro (h | ⟨h3, h4⟩)
          · exact h1 h
          · rcases h2 with h | h
            · exact h h3
            · exact hc.mp h h4
        rw [if_pos h2, List.filter_cons_of_neg (by rw [hk]; decide), List.filter_cons_of_pos (by rw [hk]; decide)]
        dsimp only
        rw [if_neg (by simp)]
        refine ⟨(ih _).1, ?_⟩
        dsimp only
        rw [(ih _).2]
        split <;> rfl
      · have hk : keeps name a refs (k, id) = true := by
          refine decide_eq_true (Or.inr ⟨?_, ?_⟩)
          · exact Classical.byContradiction fun h => h2 (Or.inl h)
          · exact Classical.byContradiction fun h => h2 (Or.inr (hc.mpr h))
        rw [if_neg h2, List.filter_cons_of_pos hk, List.filter_cons_of_neg (by rw [hk]; decide)]
        exact ⟨by dsimp only; rw [(ih g).1], (ih g).2⟩

theorem pass_cache (name : Str) (a : Action) (s : St) : (pass name a s).2.cache = s.cache.filter (keeps name a s.refs) := (passLoop_eq ..).1

theorem clear_cache (name : Str) (a : Action) (s : St) : (step s (.clear name a)).2.cache = s.cache.filter (keeps name a s.refs) := by
  show (pass name a (pass name a s).2).2.cache = _
  rw [pass_cache, pass_cache, List.filter_filter]
  congr 1
  funext x
  show (keeps name a s.refs x && keeps name a s.refs x) = _
  rw [Bool.and_self]

/-! ### C44 -/

/-- C44: cleaning, by the timer or by cacheClear(), drops no channel which is used by an operation -/
theorem C44_referenced (s : St) (k : Key) (id : Nat) (h : (k, id) ∈ s.cache) (hu : InUse s id) (name : Str) :
    (k, id) ∈ (step s (.pass name .clean)).2.cache ∧ (k, id) ∈ (step s (.clear name .clean)).2.cache := by
  have hk : keeps name .clean s.refs (k, id) = true := decide_eq_true (Or.inr ⟨rfl, hu⟩)
  constructor
  · show _ ∈ (pass name .clean s).2.cache
    rw [pass_cache]
    exact List.mem_filter.mpr ⟨h, hk⟩
  · rw [clear_cache]
    exact List.mem_filter.mpr ⟨h, hk⟩

/-- a channel which is not used at this time is dropped, even if it was since the last pass: what was claimed in the code for two passes is so for one -/
theorem C44_first_pass (s : St) (k : Key) (id : Nat) (hu : ¬InUse s id) : (k, id) ∉ (step s (.pass [] .clean)).2.cache := by
  show _ ∉ (pass [] .clean s).2.cache
  rw [pass_cache, List.mem_filter]
  rintro ⟨_, h⟩
  rcases of_decide_eq_true h with h | h
  · exact h.1 rfl
  · exact hu h.2

/-- the statement that a channel which was used since the last pass is kept, is false -/
theorem C44_used_dropped : ∃ ops k id, (k, id) ∈ built (run ops {}) ∧ ops = [.pass [] .clean, .build k, .release id, .pass [] .clean] ∧ (run ops {}).2.cache = [] :=
  ⟨[.pass [] .clean, .build ([0x61], []), .release 0, .pass [] .clean], ([0x61], []), 0, by decide, rfl, by decide⟩

/-- C44: nothing which is not used remains after a pass -/
theorem C44_swept (s : St) (x : Key × Nat) (h : x ∈ (step s (.pass [] .clean)).2.cache) : InUse (step s (.pass [] .clean)).2 x.2 :=
  Classical.byContradiction fun hu => C44_first_pass s x.1 x.2 hu h

/-- C44: the other actions drop the channel, or all channels -/
theorem C44_drops (s : St) (o : Op) (k : Key) (id : Nat) (ho : Drops k o) : (k, id) ∉ (step s o).2.cache := by
  have key : ∀ name a, a ≠ Action.clean → (name = [] ∨ name = k.1) → (k, id) ∉ s.cache.filter (keeps name a s.refs) := by
    intro name a h1 h2 h
    rw [List.mem_filter] at h
    rcases of_decide_eq_true h.2 with h | h
    · rcases h2 with h2 | h2
      · exact h.1 h2
      · exact h.2 h2.symm
    · exact h1 h.1
  cases o with
  | pass name a => show _ ∉ (pass name a s).2.cache; rw [pass_cache]; exact key name a ho.1 ho.2
  | clear name a => rw [clear_cache]; exact key name a ho.1 ho.2
  | close => exact List.not_mem_nil
  | build => cases ho
  | release => cases ho

/-! ### sharing -/

structure Inv (b : List (Key × Nat)) (s : St) : Prop where
  keys : (s.cache.map (·.1)).Nodup
  sub : ∀ x ∈ s.cache, x ∈ b
  next : ∀ x ∈ b, x.2 < s.next
  one : ∀ x ∈ b, ∀ y ∈ b, x.2 = y.2 → x = y

theorem find_some {l : List (Key × Nat)} {k : Key} {x : Key × Nat} (h : l.find? (fun x => decide (x.1 = k)) = some x) : x ∈ l ∧ x.1 = k :=
  ⟨List.mem_of_find?_eq_some h, by simpa using List.find?_some h⟩

theorem find_mem {l : List (Key × Nat)} (hn : (l.map (·.1)).Nodup) {k : Key} {id : Nat} (h : (k, id) ∈ l) : l.find? (fun x => decide (x.1 = k)) = some (k, id) := by
  induction l with
  | nil => cases h
  | cons x l ih =>
    rw [List.map_cons, List.nodup_cons] at hn
    rw [List.find?_cons]
    rcases List.mem_cons.mp h with rfl | h
    · simp
    · have : x.1 ≠ k := by
        rintro rfl
        exact hn.1 (List.mem_map.mpr ⟨_, h, rfl⟩)
      simp only [this, decide_false]
      exact ih hn.2 h

theorem Inv.filter {b : List (Key × Nat)} {s : St} (h : Inv b s) (s' : St) (p : Key × Nat → Bool) (hc : s'.cache = s.cache.filter p) (hn : s'.next = s.next) : Inv b s' :=
  ⟨by rw [hc]; exact h.keys.sublist (List.Sublist.map _ (List.filter_sublist ..)), fun x hx => h.sub x (by rw [hc] at hx; exact (List.mem_filter.mp hx).1),
    fun x hx => by rw [hn]; exact h.next x hx, h.one⟩

theorem build_cases (k : Key) (s : St) :
    (s.running = false ∧ build k s = (none, s)) ∨
    (s.running = true ∧ ∃ id, (k, id) ∈ s.cache ∧ (build k s).1 = some id ∧ (build k s).2.cache = s.cache ∧ (build k s).2.next = s.next ∧ (build k s).2.refs = id :: s.refs ∧
      (build k s).2.running = true) ∨
    (s.running = true ∧ (∀ id, (k, id) ∉ s.cache) ∧ (build k s).1 = some s.next ∧ (build k s).2.cache = s.cache ++ [(k, s.next)] ∧ (build k s).2.next = s.next + 1 ∧
      (build k s).2.refs = s.next :: s.refs ∧ (build k s).2.running = true) := by
  unfold build
  cases hr : s.running with
  | false => exact Or.inl ⟨rfl, rfl⟩
  | true =>
    right
    simp only [Bool.true_eq_false, if_false, true_and]
    cases hf : s.cache.find? fun x => decide (x.1 = k) with
    | none =>
      right
      dsimp only
      refine ⟨fun id h => ?_, rfl, rfl, rfl, rfl, rfl⟩
      have := List.find?_eq_none.mp hf _ h
      simp at this
    | some x =>
      obtain ⟨h1, h2⟩ := find_some hf
      obtain ⟨k', id⟩ := x
      dsimp only at h2
      subst h2
      left
      exact ⟨id, h1, rfl, rfl, rfl, rfl, rfl⟩

theorem inv_step {b : List (Key × Nat)} {s : St} (h : Inv b s) (o : Op) : Inv (b ++ (step s o).1.built.toList) (step s o).2 := by
  cases o with
  | build k =>
    show Inv (b ++ ((build k s).1.map fun id => (k, id)).toList) (build k s).2
    rcases build_cases k s with ⟨_, e⟩ | ⟨_, id, h1, h2, h3, h4, h5, _⟩ | ⟨_, h1, h2, h3, h4, h5, _⟩
    · rw [e]
      simpa using h
    · rw [h2]
      have hb : ∀ x, x ∈ b ++ (Option.map (fun id => (k, id)) (some id)).toList ↔ x ∈ b := by
        intro x
        simp only [Option.map_some, Option.toList_some, List.mem_append, List.mem_singleton]
        exact ⟨fun h' => h'.elim (fun h => h) fun e => by rw [e]; exact h.sub _ h1, Or.inl⟩
      exact ⟨by rw [h3]; exact h.keys, fun x hx => (hb x).mpr (h.sub x (by rw [h3] at hx; exact hx)), fun x hx => by rw [h4]; exact h.next x ((hb x).mp hx),
        fun x hx y hy => h.one x ((hb x).mp hx) y ((hb y).mp hy)⟩
    · rw [h2]
      have hb : ∀ x, x ∈ b ++ (Option.map (fun id => (k, id)) (some s.next)).toList ↔ x ∈ b ∨ x = (k, s.next) := by
        intro x
        simp only [Option.map_some, Option.toList_some, List.mem_append, List.mem_singleton]
      refine ⟨?_, fun x hx => ?_, fun x hx => ?_, fun x hx y hy e => ?_⟩
      · rw [h3, List.map_append, List.nodup_append]
        refine ⟨h.keys, by simp, ?_⟩
        intro a ha c hc
        rw [List.map_cons, List.map_nil, List.mem_singleton] at hc
        dsimp only at hc
        subst hc
        rintro rfl
        obtain ⟨y, hy, rfl⟩ := List.mem_map.mp ha
        exact h1 y.2 hy
      · rw [h3, List.mem_append, List.mem_singleton] at hx
        exact (hb x).mpr (hx.imp (h.sub x) fun e => e)
      · rw [h4]
        rcases (hb x).mp hx with hx | rfl
        · have := h.next x hx; omega
        · exact Nat.lt_succ_self _
      · rcases (hb x).mp hx with hx | rfl
        · rcases (hb y).mp hy with hy | rfl
          · exact h.one x hx y hy e
          · have := h.next x hx
            dsimp only at e; omega
        · rcases (hb y).mp hy with hy | rfl
          · have := h.next y hy
            dsimp only at e; omega
          · rfl
  | release id =>
    show Inv (b ++ []) _
    rw [List.append_nil]
    exact h.filter _ (fun _ => true) (by show s.cache = _; exact (List.filter_eq_self.mpr fun _ _ => rfl).symm) rfl
  | pass name a =>
    show Inv (b ++ []) _
    rw [List.append_nil]
    exact h.filter (pass name a s).2 (keeps name a s.refs) (pass_cache name a s) rfl
  | clear name a =>
    show Inv (b ++ []) _
    rw [List.append_nil]
    exact h.filter (step s (.clear name a)).2 (keeps name a s.refs) (clear_cache name a s) rfl
  | close =>
    show Inv (b ++ []) _
    rw [List.append_nil]
    exact h.filter _ (fun _ => false) (by show [] = _; simp) rfl

theorem inv_run (l : List Op) : ∀ {b : List (Key × Nat)} {s : St}, Inv b s → Inv (b ++ built (run l s)) (run l s).2 := by
  induction l with
  | nil => intro b s h; simpa [built, run] using h
  | cons o l ih =>
    intro b s h
    have := ih (inv_step h o)
    have e : built (run (o :: l) s) = (step s o).1.built.toList ++ built (run l (step s o).2) := by
      unfold built
      rw [run]
      dsimp only
      rw [List.filterMap_cons]
      cases (step s o).1.built <;> rfl
    rw [e, ← List.append_assoc]
    exact this

theorem inv_all (ops : List Op) : Inv (built (run ops {})) (run ops {}).2 := by
  have := inv_run ops (b := []) (s := {}) ⟨List.nodup_nil, fun x hx => (by cases hx), fun x hx => (by cases hx), fun x hx => (by cases hx)⟩
  rwa [List.nil_append] at this

/-- C44: operations which are for different names or servers never get the same channel -/
theorem C44_distinct (ops : List Op) (k k' : Key) (id : Nat) (h : (k, id) ∈ built (run ops {})) (h' : (k', id) ∈ built (run ops {})) : k = k' := by
  have := (inv_all ops).one _ h _ h' rfl
  rw [Prod.mk.injEq] at this
  exact this.1

theorem step_running {s : St} {o : Op} (ho : o ≠ .close) : (step s o).2.running = s.running := by
  cases o with
  | build k =>
    show (build k s).2.running = _
    rcases build_cases k s with ⟨_, e⟩ | ⟨h, _, _, _, _, _, _, h'⟩ | ⟨h, _, _, _, _, _, h'⟩
    · rw [e]
    · rw [h, h']
    · rw [h, h']
  | close => exact absurd rfl ho
  | _ => rfl

theorem stays (k : Key) (id : Nat) (l : List Op) : ∀ (s : St), s.running = true → (k, id) ∈ s.cache → (∀ o ∈ l, ¬Drops k o) → (∀ p, p <+: l → InUse (run p s).2 id) →
    (k, id) ∈ (run l s).2.cache ∧ (run l s).2.running = true := by
  induction l with
  | nil => intro s hr hc _ _; exact ⟨hc, hr⟩
  | cons o l ih =>
    intro s hr hc hd hu
    have ho := hd o (List.mem_cons_self ..)
    have hu0 : InUse s id := hu [] (by simp)
    refine ih (step s o).2 ?_ ?_ (fun o' h => hd o' (List.mem_cons_of_mem _ h)) ?_
    · rw [step_running (by rintro rfl; exact ho trivial)]; exact hr
    · have keepit : ∀ name a, ¬(a ≠ Action.clean ∧ (name = [] ∨ name = k.1)) → (k, id) ∈ s.cache.filter (keeps name a s.refs) := by
        intro name a h
        refine List.mem_filter.mpr ⟨hc, decide_eq_true ?_⟩
        by_cases ha : a = .clean
        · exact Or.inr ⟨ha, hu0⟩
        · exact Or.inl ⟨fun e => h ⟨ha, Or.inl e⟩, fun e => h ⟨ha, Or.inr e.symm⟩⟩
      cases o with
      | build k' =>
        show _ ∈ (build k' s).2.cache
        rcases build_cases k' s with ⟨_, e⟩ | ⟨_, _, _, _, h3, _⟩ | ⟨_, _, _, h3, _⟩
        · rw [e]; exact hc
        · rw [h3]; exact hc
        · rw [h3]; exact List.mem_append_left _ hc
      | release => exact hc
      | pass name a => show _ ∈ (pass name a s).2.cache; rw [pass_cache]; exact keepit name a ho
      | clear name a => rw [clear_cache]; exact keepit name a ho
      | close => exact absurd trivial ho
    · intro p hp
      exact hu (o :: p) (by rw [List.cons_prefix_cons]; exact ⟨rfl, hp⟩)

/-- C44: as long as some operation uses the channel, and it is not dropped on request, an operation for the same name and server gets the same -/
theorem C44_share (ops l : List Op) (k : Key) (id : Nat) (h : (step (run ops {}).2 (.build k)).1.built = some (k, id)) (hd : ∀ o ∈ l, ¬Drops k o)
    (hu : ∀ p, p <+: l → InUse (run p (step (run ops {}).2 (.build k)).2).2 id) :
    (step (run l (step (run ops {}).2 (.build k)).2).2 (.build k)).1.built = some (k, id) := by
  have hi := inv_all ops
  generalize (run ops {}).2 = s at *
  have h0 : (build k s).1.map (fun id => (k, id)) = some (k, id) := h
  have hc : (k, id) ∈ (step s (.build k)).2.cache ∧ (step s (.build k)).2.running = true := by
    show _ ∈ (build k s).2.cache ∧ (build k s).2.running = true
    rcases build_cases k s with ⟨_, e⟩ | ⟨_, id', h1, h2, h3, _, _, h6⟩ | ⟨_, h1, h2, h3, _, _, h6⟩
    · rw [e] at h0; cases h0
    · rw [h2] at h0; cases h0; rw [h3]; exact ⟨h1, h6⟩
    · rw [h2] at h0; cases h0; rw [h3]; exact ⟨List.mem_append_right _ (List.mem_singleton.mpr rfl), h6⟩
  obtain ⟨h1, h2⟩ := stays k id l _ hc.2 hc.1 hd hu
  have hi' := inv_run l (inv_step hi (.build k))
  generalize (run l (step s (.build k)).2).2 = t at *
  show (build k t).1.map (fun id => (k, id)) = _
  rcases build_cases k t with ⟨hr, _⟩ | ⟨_, id', h3, h4, _⟩ | ⟨_, h3, _⟩
  · rw [h2] at hr; cases hr
  · rw [h4]
    have e1 := find_mem hi'.keys h1
    rw [find_mem hi'.keys h3] at e1
    rw [Option.some.injEq, Prod.mk.injEq] at e1
    rw [e1.2]
    rfl
  · exact absurd h1 (h3 id)

/-- C44: after it is dropped an operation gets a new one -/
theorem C44_fresh (ops : List Op) (o : Op) (k : Key) (ho : Drops k o) (id : Nat)
    (h : (step (step (run ops {}).2 o).2 (.build k)).1.built = some (k, id)) : ∀ k', (k', id) ∉ built (run ops {}) := by
  have hi := inv_all ops
  generalize (run ops {}).2 = s at *
  generalize built (run ops {}) = b at *
  intro k' hk'
  have hn := hi.next _ hk'
  have hdrop := fun id => C44_drops s o k id ho
  have hnext : (step s o).2.next = s.next := by
    cases o with
    | build => cases ho
    | release => cases ho
    | _ => rfl
  have h0 : (build k (step s o).2).1.map (fun id => (k, id)) = some (k, id) := h
  rcases build_cases k (step s o).2 with ⟨_, e⟩ | ⟨_, id', h1, _⟩ | ⟨_, _, h2, _⟩
  · rw [e] at h0; cases h0
  · exact hdrop _ h1
  · rw [h2, hnext] at h0
    cases h0
    exact absurd hn (Nat.lt_irrefl _)

/-- after close() there are none -/
theorem C44_closed (ops : List Op) (k : Key) : (step (run (ops ++ [.close]) {}).2 (.build k)).1.built = none := by
  have : ∀ s : St, (run (ops ++ [.close]) s).2.running = false := by
    induction ops with
    | nil => intro s; rfl
    | cons o l ih => intro s; exact ih _
  show (build k _).1.map _ = none
  unfold build
  rw [if_pos (this _)]
  rfl

/-! ### examples -/

example : built (run [.build ([0x61], []), .build ([0x62], []), .pass [] .clean, .build ([0x61], []), .release 0, .pass [] .clean, .release 1, .clear [] .clean,
    .build ([0x62], []), .build ([0x61], [])] {}) = [(([0x61], []), 0), (([0x62], []), 1), (([0x61], []), 0), (([0x62], []), 2), (([0x61], []), 0)] := by decide
/-- used by the second operation throughout -/
example : ∀ p, p <+: [Op.build ([0x61], []), .release 0, .pass [] .clean] → InUse (run p (step (run [] {}).2 (.build ([0x61], []))).2).2 0 := by
  intro p hp
  have h := List.prefix_iff_eq_take.mp hp
  have hl := hp.length_le
  unfold InUse
  generalize p.length = n at h hl
  subst h
  match n, hl with
  | 0, _ => decide
  | 1, _ => decide
  | 2, _ => decide
  | 3, _ => decide
example : (step (run [.build ([0x61], [])] {}).2 (.clear [0x61] .disconnect)).1.disconnected = [0] := by decide
example : Drops ([0x61], []) (.clear [0x61] .disconnect) := ⟨by decide, Or.inr rfl⟩
example : (step (step (run [.build ([0x61], [])] {}).2 (.clear [0x61] .disconnect)).2 (.build ([0x61], []))).1.built = some (([0x61], []), 1) := by decide

end Pvxs.Props.Cch
