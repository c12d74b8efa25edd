import Verif.Lemmas.ServerMonGroups
/-
Subscriptions do not influence each other unless they share a Value.
-/
namespace Pvxs.Mon
open Pvxs.Server (OpState)
open Pvxs.Spec.Mon

/-- two servers which are the same for subscription `i` -/
structure Agree (i : Nat) (es : List Ev) (s1 s2 : Sys) : Prop where
  heap : s1.heap.length = s2.heap.length
  mons : s1.mons.length = s2.mons.length
  mon : s1.mons[i]? = s2.mons[i]?
  same : ∀ c, (∀ j mb f, Ev.post j c mb f ∈ es → j = i) → content s1.heap c = content s2.heap c

theorem send_congr (h1 h2 : List Upd) (m : Mon) (h : ∀ c, some c ∈ m.queue → content h1 c = content h2 c) : m.send h1 = m.send h2 := by
  unfold Mon.send
  cases hq : m.queue with
  | nil => rfl
  | cons x q =>
    cases x with
    | none => rfl
    | some c => simp only; rw [h c (by rw [hq]; simp)]

theorem runJob_congr (h1 h2 : List Upd) (m : Mon) (h : ∀ c, some c ∈ m.queue → content h1 c = content h2 c) : m.runJob h1 = m.runJob h2 := by
  unfold Mon.runJob
  split
  · rfl
  · unfold Mon.doReply
    simp only
    split
    · rfl
    · exact send_congr h1 h2 _ h

theorem post_mons (s : Sys) (j c : Nat) (mb f : Bool) : (step s (.post j c mb f)).mons.length = s.mons.length
    ∧ ∀ i, i ≠ j → (step s (.post j c mb f)).mons[i]? = s.mons[i]? := by
  have key : ∀ (g : Mon → Mon) (h : List Upd), (({ s with heap := h }).modMon j g).mons.length = s.mons.length
      ∧ ∀ i, i ≠ j → (({ s with heap := h }).modMon j g).mons[i]? = s.mons[i]? := fun g h =>
    ⟨by simp [Sys.modMon], fun i hi => by simp only [Sys.modMon]; rw [List.getElem?_modify_ne _ _ (Ne.symm hi)]⟩
  simp only [step, postValue]
  split
  · exact ⟨rfl, fun _ _ => rfl⟩
  · split
    · exact ⟨rfl, fun _ _ => rfl⟩
    · split
      · exact key _ s.heap
      · split
        · split
          · exact key _ _
          · exact key _ s.heap
        · exact key _ s.heap

theorem content_modify (heap : List Upd) (f : Upd → Upd) (b c : Nat) :
    content (heap.modify b f) c = if b = c ∧ c < heap.length then f (content heap c) else content heap c := by
  by_cases h : b = c
  · subst h
    by_cases h2 : b < heap.length
    · rw [if_pos ⟨rfl, h2⟩, content_modify_eq _ _ _ h2]
    · rw [if_neg (fun h => h2 h.2)]
      rw [List.modify_eq_self (by omega)]
  · rw [if_neg (fun h' => h h'.1), content_modify_ne _ _ _ _ h]

theorem modMon_agree {i : Nat} {es : List Ev} {s1 s2 : Sys} (h : Agree i es s1 s2) (e : Ev) (f g : Mon → Mon) (j : Nat)
    (hfg : ∀ m, s1.mons[i]? = some m → j = i → f m = g m) : Agree i (es ++ [e]) (s1.modMon j f) (s2.modMon j g) := by
  refine ⟨h.heap, by simp [Sys.modMon, h.mons], ?_, fun c hc => h.same c fun j mb f hm => hc j mb f (by simp [hm])⟩
  simp only [Sys.modMon, List.getElem?_modify, ← h.mon]
  cases hm : s1.mons[i]? with
  | none => rfl
  | some m =>
    by_cases hj : j = i
    · simp [hj, hfg m hm hj]
    · simp [hj]

theorem agree (i : Nat) : ∀ es, PostedOnce es → Agree i es (run start es) (run start (es.filter (about i))) := by
  intro es
  induction hn : es.length generalizing es with
  | zero =>
    intro _
    cases es with
    | nil => exact ⟨rfl, rfl, rfl, fun _ _ => rfl⟩
    | cons => simp at hn
  | succ n ih =>
    intro hp
    rcases List.eq_nil_or_concat es with rfl | ⟨l, e, rfl⟩
    · simp at hn
    simp only [List.concat_eq_append] at hn hp ⊢
    have hpl : PostedOnce l := by
      unfold PostedOnce at hp ⊢
      rw [List.filterMap_append] at hp
      exact (List.nodup_append.1 hp).1
    have h := ih l (by simpa using hn) hpl
    have once : ∀ j1 j2 c mb1 f1 mb2 f2, Ev.post j1 c mb1 f1 ∈ l ++ [e] → Ev.post j2 c mb2 f2 ∈ l ++ [e] → j1 = j2 := by
      intro j1 j2 c mb1 f1 mb2 f2 h1 h2
      have := nodup_filterMap postedCell _ hp _ h1 _ h2 c rfl rfl
      cases this; rfl
    have weaken : ∀ c, (∀ j mb f, Ev.post j c mb f ∈ l ++ [e] → j = i) → content (run start l).heap c = content (run start (l.filter (about i))).heap c :=
      fun c hc => h.same c fun j mb f hm => hc j mb f (by simp [hm])
    rw [List.filter_append, run_snoc]
    cases ha : about i e with
    | false =>
      have hf : [e].filter (about i) = [] := by simp [ha]
      rw [hf, List.append_nil]
      have skip : ∀ j f, j ≠ i → Agree i (l ++ [e]) ((run start l).modMon j f) (run start (l.filter (about i))) := fun j f hj =>
        ⟨h.heap, by simp [Sys.modMon, h.mons], by simp only [Sys.modMon]; rw [List.getElem?_modify_ne _ _ hj]; exact h.mon, weaken⟩
      cases e with
      | value u => simp [about] at ha
      | subscribe => simp [about] at ha
      | post j c mb f =>
        have hj : j ≠ i := by simpa [about] using ha
        obtain ⟨h1, h2⟩ := post_mons (run start l) j c mb f
        refine ⟨?_, by rw [h1, h.mons], by rw [h2 i (Ne.symm hj), h.mon], ?_⟩
        · rw [← h.heap, post_heap]
          split <;> simp
        · intro c' hc'
          rw [← weaken c' hc', post_heap]
          split
          · rename_i b hb
            obtain ⟨m, hm, hb'⟩ := squashTarget_mem hb
            obtain ⟨mb', f', hpost⟩ := run_posted j l m hm b hb'
            rw [content_modify_ne]
            intro he
            subst he
            exact hj (hc' j mb' f' (by simp [hpost]))
          · rfl
      | setup j ok => exact skip j _ (by simpa [about] using ha)
      | finish j => exact skip j _ (by simpa [about] using ha)
      | ctl j a b d => exact skip j _ (by simpa [about] using ha)
      | cancel j => exact skip j _ (by simpa [about] using ha)
      | close j => exact skip j _ (by simpa [about] using ha)
      | work j => exact skip j _ (by simpa [about] using ha)
    | true =>
      have hf : [e].filter (about i) = [e] := by simp [ha]
      rw [hf, run_snoc]
      cases e with
      | value u =>
        refine ⟨by simp [step, h.heap], h.mons, h.mon, fun c hc => ?_⟩
        have := weaken c hc
        simp only [step, content, List.getElem?_append] at this ⊢
        rw [h.heap]
        split
        · exact this
        · rfl
      | subscribe p n q mask =>
        refine ⟨h.heap, by simp [step, h.mons], ?_, weaken⟩
        simp only [step, List.getElem?_append, h.mons]
        split
        · exact h.mon
        · rfl
      | setup j ok => exact modMon_agree h _ _ _ j fun _ _ _ => rfl
      | finish j => exact modMon_agree h _ _ _ j fun _ _ _ => rfl
      | ctl j a b d => exact modMon_agree h _ _ _ j fun _ _ _ => rfl
      | cancel j => exact modMon_agree h _ _ _ j fun _ _ _ => rfl
      | close j => exact modMon_agree h _ _ _ j fun _ _ _ => rfl
      | work j =>
        refine modMon_agree h _ _ _ j fun m hm hj => runJob_congr _ _ m fun c hc => weaken c fun j' mb f hp' => ?_
        obtain ⟨mb', f', hpost⟩ := run_posted i l m hm c hc
        exact once _ _ _ _ _ _ _ hp' (List.mem_append_left _ hpost)
      | post j c mb f =>
        have hj : j = i := by simpa [about] using ha
        subst hj
        have hc : content (run start l).heap c = content (run start (l.filter (about j))).heap c :=
          weaken c fun j' mb' f' hp' => once _ _ _ _ _ _ _ hp' (List.mem_append_right _ (List.mem_singleton.2 rfl))
        generalize run start l = s1 at *
        generalize run start (l.filter (about j)) = s2 at *
        have heap' : ∀ b, Agree j l { s1 with heap := s1.heap.modify b fun u => merge u (content s1.heap c) }
            { s2 with heap := s2.heap.modify b fun u => merge u (content s2.heap c) } := by
          intro b
          refine ⟨by simp [h.heap], h.mons, h.mon, fun c' hc' => ?_⟩
          simp only [content_modify, h.heap, h.same c' hc', hc]
        simp only [step, postValue, ← h.mon, ← hc]
        cases hm : s1.mons[j]? with
        | none => exact ⟨h.heap, h.mons, h.mon, weaken⟩
        | some m =>
          simp only
          split
          · exact ⟨h.heap, h.mons, h.mon, weaken⟩
          · split
            · exact modMon_agree h _ _ _ j fun _ _ _ => rfl
            · split
              · split
                · rename_i b _
                  have := modMon_agree (heap' b) (.post j c mb f) Mon.maybeReply Mon.maybeReply j fun _ _ _ => rfl
                  rw [← hc] at this
                  exact this
                · exact modMon_agree h _ _ _ j fun _ _ _ => rfl
              · exact modMon_agree h _ _ _ j fun _ _ _ => rfl

end Pvxs.Mon
