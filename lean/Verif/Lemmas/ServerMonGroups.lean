import Verif.Lemmas.ServerMonInv
/-
What a subscriber receives: the updates posted, in order, some consecutive ones merged.
-/
namespace Pvxs.Mon
open Pvxs.Server (OpState)
open Pvxs.Spec.Mon

/-- the Value, already in the queue of `j`, into which an update is merged -/
def squashTarget (s : Sys) (j c : Nat) (mb f : Bool) : Option Nat :=
  match s.mons[j]? with
  | none => none
  | some m =>
    if m.state = .creating ∨ m.finished ∨ !testmask m.mask (content s.heap c) ∨ m.queue.length < m.limit ∨ f ∨ mb then none
    else match m.queue.getLast? with
      | some (some b) => some b
      | _ => none

theorem post_heap (s : Sys) (j c : Nat) (mb f : Bool) : (step s (.post j c mb f)).heap =
    match squashTarget s j c mb f with
    | some b => s.heap.modify b fun u => merge u (content s.heap c)
    | none => s.heap := by
  simp only [step, postValue, squashTarget]
  cases h : s.mons[j]? with
  | none => rfl
  | some m =>
    simp only
    by_cases h1 : m.state = .creating ∨ m.finished ∨ !testmask m.mask (content s.heap c)
    · rw [if_pos h1, if_pos (by rcases h1 with h | h | h <;> simp [h])]
    · rw [if_neg h1]
      by_cases h2 : m.queue.length < m.limit ∨ f
      · rw [if_pos h2, if_pos (by rcases h2 with h | h <;> simp [h])]; rfl
      · rw [if_neg h2]
        cases mb with
        | true => simp [Sys.modMon]
        | false =>
          have hn : ¬ (m.state = .creating ∨ m.finished ∨ !testmask m.mask (content s.heap c) ∨ m.queue.length < m.limit ∨ f ∨ false = true) := by
            rintro (h | h | h | h | h | h)
            · exact h1 (.inl h)
            · exact h1 (.inr (.inl h))
            · exact h1 (.inr (.inr h))
            · exact h2 (.inl h)
            · exact h2 (.inr h)
            · cases h
          rw [if_neg hn]
          cases hl : m.queue.getLast? with
          | none => rfl
          | some x => cases x <;> rfl

theorem step_heap (s : Sys) (e : Ev) : (step s e).heap = s.heap ∨ (∃ u, e = .value u ∧ (step s e).heap = s.heap ++ [u])
    ∨ ∃ j c mb f b, e = .post j c mb f ∧ squashTarget s j c mb f = some b ∧
      (step s e).heap = s.heap.modify b fun u => merge u (content s.heap c) := by
  cases e with
  | value u => exact .inr (.inl ⟨u, rfl, rfl⟩)
  | post j c mb f =>
    have := post_heap s j c mb f
    cases h : squashTarget s j c mb f with
    | none => rw [h] at this; exact .inl this
    | some b => rw [h] at this; exact .inr (.inr ⟨j, c, mb, f, b, rfl, h, this⟩)
  | _ => exact .inl rfl

/-- nobody else touches a Value in the queue of `i`, and no Value is put there which already is there -/
def calm (i : Nat) (s : Sys) : Ev → Prop
  | .post j c mb f => ∀ m, s.mons[i]? = some m →
      if j = i then some c ∉ m.queue else ∀ b, squashTarget s j c mb f = some b → some b ∉ m.queue
  | _ => True

def Calm (i : Nat) (es : List Ev) : Prop := ∀ pre e post, es = pre ++ e :: post → calm i (run start pre) e

/-! ### what is accepted -/

def finNow (i : Nat) : Bool → Sys → List Ev → Bool
  | fin, _, [] => fin
  | fin, s, e :: es => finNow i (fin || (connected i s && e == .finish i)) (step s e) es

theorem finNow_snoc (i : Nat) (es : List Ev) (e : Ev) : ∀ fin s, finNow i fin s (es ++ [e])
    = (finNow i fin s es || (connected i (run s es) && e == .finish i)) := by
  induction es with
  | nil => intro fin s; rfl
  | cons a es ih => intro fin s; exact ih _ _

theorem accepted_snoc (i : Nat) (es : List Ev) (e : Ev) : ∀ fin s, accepted i fin s (es ++ [e])
    = accepted i fin s es ++ (if connected i (run s es) && !finNow i fin s es then (offer i (run s es) e).toList else []) := by
  induction es with
  | nil => intro fin s; simp [accepted, finNow, run]
  | cons a es ih =>
    intro fin s
    simp only [List.cons_append, accepted, finNow]
    rw [ih]
    simp only [List.append_assoc]
    rfl

theorem finNow_eq (i : Nat) (es : List Ev) : finNow i false start es =
    match (run start es).mons[i]? with
    | some m => m.finished
    | none => false := by
  induction h : es.length generalizing es with
  | zero =>
    cases es with
    | nil => simp [finNow, run, start]
    | cons => simp at h
  | succ n ih =>
    rcases List.eq_nil_or_concat es with rfl | ⟨l, e, rfl⟩
    · simp at h
    simp only [List.concat_eq_append] at h ⊢
    rw [finNow_snoc, ih l (by simpa using h), run_snoc]
    cases h0 : (run start l).mons[i]? with
    | none =>
      have hc : connected i (run start l) = false := by simp [connected, h0]
      rw [hc]
      cases h1 : (step (run start l) e).mons[i]? with
      | none => rfl
      | some m =>
        simp only
        have hlt := (List.getElem?_eq_some_iff.1 h1).1
        rw [step_len] at hlt
        have hge := List.getElem?_eq_none_iff.1 h0
        cases e with
        | subscribe p w q mask =>
          simp only at hlt
          have hi : i = (run start l).mons.length := by omega
          simp only [step, hi] at h1
          have : newMon p w q mask = m := by simpa using h1
          rw [← this]; rfl
        | _ => simp only at hlt; omega
    | some m =>
      obtain ⟨m', h1, hact⟩ := step_acts h0 e
      have hs := run_sched i l m h0
      rw [h1]
      simp only
      by_cases hf : m.finished = true
      · rw [hf, finished_mono hact hf]; rfl
      · have hf : m.finished = false := by simpa using hf
        rw [hf]
        have hcon : connected i (run start l) = (m.state != .creating) := by simp [connected, h0]
        rw [hcon]
        cases hact with
        | same _ _ h1 h2 h3 h4 => simp [hf, h3]
        | setup ok => simp only [Mon.setup]; split <;> simp [hf]
        | push c mb f _ h1 h2 h3 h4 => rw [(maybeReply_fields _).2.2.2.2.2.1]; simp [hf]
        | poke c mb f _ h1 h2 h3 h4 h5 => rw [(maybeReply_fields _).2.2.2.2.2.1]; simp [hf]
        | finish =>
          unfold Mon.finish
          by_cases hc : m.state = .creating
          · simp [hc, hf]
          · rw [if_neg (by simp [hc, hf]), (maybeReply_fields _).2.2.2.2.2.1]; simp [hc]
        | ctl a b d =>
          rcases ctl_cases m a b d with ⟨h, _⟩ | ⟨hc, h⟩ | ⟨hst, c, h⟩
          · rw [h]; simp [hf]
          · rw [h]; unfold Mon.cleanup; split <;> simp [hf]
          · rw [h]
            have : ((m.ack a).startStop b).finished = false := by
              rw [(startStop_fields (m.ack a) b).2.2.2.2.1, (ack_fields m a).2.2.2.2.2.2.1]; exact hf
            simp [this]
        | cancel => unfold Mon.cancel; split <;> simp [hf]
        | close => unfold Mon.cleanup; split <;> simp [hf]
        | work =>
          rcases runJob_sends (run start l).heap m with ⟨h, _⟩ | ⟨hj, h⟩
          · rw [h]; simp [hf]
          · cases h with
            | nothing h => rw [h]; simp [hf]
            | junk0 h0 hq h => rw [h]; simp [hf]
            | data c' q hq h0 hw h =>
              rw [h, (again_fields _).2.2.2.2.2.1, (consume_fields _).2.2.2.2.2.2.1]; simp [Mon.popped, hf]
            | final q hq h0 h => rw [h]; simp [hf]
            | junk q hq h0 h => rw [h]; simp [hf]

/-! ### the invariant -/

theorem mergeAll_snoc (g : List Upd) (u : Upd) : mergeAll (g ++ [u]) = merge (mergeAll g) u := by
  simp [mergeAll, List.foldl_append]

def cells (q : List (Option Nat)) : List Nat := q.filterMap id

theorem mem_cells {q : List (Option Nat)} {c : Nat} : c ∈ cells q ↔ some c ∈ q := by simp [cells]

structure Groups (heap : List Upd) (m : Mon) (acc : List Upd) : Prop where
  nodup : (cells m.queue).Nodup
  valid : ∀ c ∈ cells m.queue, c < heap.length
  split : ∃ gs1 gs2 : List (List Upd), (∀ g ∈ gs1 ++ gs2, g ≠ []) ∧ (gs1 ++ gs2).flatten = acc
    ∧ dataOf m.sent = (gs1.map mergeAll).map (restrict m.mask) ∧ (cells m.queue).map (content heap) = gs2.map mergeAll

theorem queued_eq (s : Sys) (m : Mon) : queued s m = (cells m.queue).map (content s.heap) := by
  unfold queued cells
  induction m.queue with
  | nil => rfl
  | cons a q ih => cases a <;> simp [ih]

/-- the heap changes, but not what is in the queue -/
theorem Groups.frame {heap heap' : List Upd} {m : Mon} {acc : List Upd} (h : Groups heap m acc)
    (hl : heap.length ≤ heap'.length) (hc : ∀ c ∈ cells m.queue, content heap' c = content heap c) : Groups heap' m acc := by
  obtain ⟨gs1, gs2, a, b, c, d⟩ := h.split
  refine ⟨h.nodup, fun c hm => Nat.lt_of_lt_of_le (h.valid c hm) hl, gs1, gs2, a, b, c, ?_⟩
  rw [← d]
  exact List.map_congr_left hc

/-- only bookkeeping changes -/
theorem Groups.same {heap : List Upd} {m m' : Mon} {acc : List Upd} (h : Groups heap m acc) (h1 : cells m'.queue = cells m.queue)
    (h2 : m'.mask = m.mask) (h3 : dataOf m'.sent = dataOf m.sent) : Groups heap m' acc := by
  obtain ⟨gs1, gs2, a, b, c, d⟩ := h.split
  exact ⟨by rw [h1]; exact h.nodup, by rw [h1]; exact h.valid, gs1, gs2, a, b, by rw [h3, h2]; exact c, by rw [h1]; exact d⟩

theorem content_append (heap : List Upd) (u : Upd) (c : Nat) (h : c < heap.length) : content (heap ++ [u]) c = content heap c := by
  simp [content, List.getElem?_append_left h]

theorem content_modify_ne (heap : List Upd) (f : Upd → Upd) (b c : Nat) (h : b ≠ c) : content (heap.modify b f) c = content heap c := by
  simp only [content, List.getElem?_modify, if_neg h]
  cases heap[c]? <;> rfl

theorem content_modify_eq (heap : List Upd) (f : Upd → Upd) (b : Nat) (h : b < heap.length) : content (heap.modify b f) b = f (content heap b) := by
  simp [content, List.getElem?_eq_getElem h]

theorem testmask_nonempty {mask : List Bool} {heap : List Upd} {c : Nat} (h : testmask mask (content heap c) = true) : c < heap.length := by
  refine Classical.byContradiction fun hn => ?_
  have : content heap c = [] := by simp [content, List.getElem?_eq_none_iff.2 (Nat.le_of_not_lt hn)]
  rw [this] at h
  cases mask with
  | nil => simp [testmask, restrict] at h
  | cons a m => cases a <;> simp [testmask, restrict] at h

theorem cells_append (a b : List (Option Nat)) : cells (a ++ b) = cells a ++ cells b := by simp [cells]

theorem nodup_snoc {l : List Nat} {x : Nat} (h : l.Nodup) (hx : x ∉ l) : (l ++ [x]).Nodup := by
  rw [List.nodup_append]
  refine ⟨h, by simp, ?_⟩
  intro a ha b hb
  have : b = x := by simpa using hb
  subst this
  exact fun e => hx (e ▸ ha)

theorem Groups.push {heap : List Upd} {m : Mon} {acc : List Upd} (h : Groups heap m acc) {c : Nat} (hc : some c ∉ m.queue)
    (hv : c < heap.length) (m' : Mon) (h1 : m'.queue = m.queue ++ [some c]) (h2 : m'.mask = m.mask) (h3 : m'.sent = m.sent) :
    Groups heap m' (acc ++ [content heap c]) := by
  obtain ⟨gs1, gs2, a, b, d, e⟩ := h.split
  have hcells : cells m'.queue = cells m.queue ++ [c] := by rw [h1, cells_append]; rfl
  refine ⟨?_, ?_, gs1, gs2 ++ [[content heap c]], ?_, ?_, by rw [h3, h2]; exact d, ?_⟩
  · rw [hcells]; exact nodup_snoc h.nodup fun hm => hc (mem_cells.1 hm)
  · rw [hcells]; intro x hx
    rcases List.mem_append.1 hx with hx | hx
    · exact h.valid x hx
    · have : x = c := by simpa using hx
      rw [this]; exact hv
  · intro g hg
    rw [← List.append_assoc] at hg
    rcases List.mem_append.1 hg with hg | hg
    · exact a g hg
    · have : g = [content heap c] := by simpa using hg
      rw [this]; simp
  · rw [← List.append_assoc, List.flatten_append, b]; simp
  · rw [hcells, List.map_append, e, List.map_append]; rfl

theorem Groups.squash {heap : List Upd} {m : Mon} {acc : List Upd} (h : Groups heap m acc) {b : Nat}
    (hb : m.queue.getLast? = some (some b)) (u : Upd) (m' : Mon) (h1 : m'.queue = m.queue) (h2 : m'.mask = m.mask) (h3 : m'.sent = m.sent) :
    Groups (heap.modify b fun x => merge x u) m' (acc ++ [u]) := by
  obtain ⟨gs1, gs2, a, hf, d, e⟩ := h.split
  obtain ⟨q, hq⟩ : ∃ q, m.queue = q ++ [some b] := by
    rcases List.eq_nil_or_concat m.queue with hn | ⟨q, x, hx⟩
    · rw [hn] at hb; simp at hb
    · simp only [List.concat_eq_append] at hx
      rw [hx] at hb
      have : x = some b := by simpa using hb
      exact ⟨q, by rw [hx, this]⟩
  have hcells : cells m.queue = cells q ++ [b] := by rw [hq, cells_append]; rfl
  have hnd := h.nodup
  rw [hcells, List.nodup_append] at hnd
  have hbq : ∀ c ∈ cells q, b ≠ c := fun c hc => (hnd.2.2 c hc b (by simp)).symm
  have hbv : b < heap.length := h.valid b (by rw [hcells]; simp)
  rw [hcells, List.map_append] at e
  rcases List.eq_nil_or_concat gs2 with rfl | ⟨gs, g, rfl⟩
  · have := congrArg List.length e; simp at this
  simp only [List.concat_eq_append, List.map_append] at *
  have e' := List.append_inj' e (by simp)
  have eg : content heap b = mergeAll g := by simpa using e'.2
  refine ⟨by rw [h1]; exact h.nodup, ?_, gs1, gs ++ [g ++ [u]], ?_, ?_, by rw [h3, h2]; exact d, ?_⟩
  · rw [h1]; intro c hc; rw [List.length_modify]; exact h.valid c hc
  · intro g' hg'
    rw [← List.append_assoc] at hg'
    rcases List.mem_append.1 hg' with hg' | hg'
    · exact a g' (by rw [← List.append_assoc]; exact List.mem_append_left _ hg')
    · have : g' = g ++ [u] := by simpa using hg'
      rw [this]; simp
  · rw [← hf]; simp
  · rw [h1, hcells, List.map_append, List.map_append]
    congr 1
    · rw [← e'.1]
      exact List.map_congr_left fun c hc => content_modify_ne _ _ _ _ (hbq c hc)
    · simp only [List.map_cons, List.map_nil]
      rw [content_modify_eq _ _ _ hbv, eg, mergeAll_snoc]

theorem Groups.pop {heap : List Upd} {m : Mon} {acc : List Upd} (h : Groups heap m acc) {c : Nat} {q : List (Option Nat)}
    (hq : m.queue = some c :: q) (m' : Mon) (h1 : m'.queue = q) (h2 : m'.mask = m.mask)
    (h3 : m'.sent = m.sent ++ [.data (restrict m.mask (content heap c))]) : Groups heap m' acc := by
  obtain ⟨gs1, gs2, a, b, d, e⟩ := h.split
  have hcells : cells m.queue = c :: cells q := by rw [hq]; rfl
  have hnd := h.nodup
  rw [hcells] at hnd e
  cases gs2 with
  | nil => simp at e
  | cons g gs2 =>
    simp only [List.map_cons, List.cons.injEq] at e
    refine ⟨by rw [h1]; exact (List.nodup_cons.1 hnd).2, fun x hx => h.valid x (by rw [hcells]; rw [h1] at hx; simp [hx]), gs1 ++ [g], gs2, ?_, ?_, ?_, ?_⟩
    · simpa using a
    · simpa using b
    · rw [h3, dataOf_append, d, h2]
      simp [dataOf, e.1]
    · rw [h1]; exact e.2

theorem Groups.popNone {heap : List Upd} {m : Mon} {acc : List Upd} (h : Groups heap m acc) {q : List (Option Nat)}
    (hq : m.queue = none :: q) (m' : Mon) (h1 : m'.queue = q) (h2 : m'.mask = m.mask) (h3 : dataOf m'.sent = dataOf m.sent) : Groups heap m' acc := by
  obtain ⟨gs1, gs2, a, b, d, e⟩ := h.split
  have hcells : cells m.queue = cells q := by rw [hq]; rfl
  refine ⟨by rw [h1, ← hcells]; exact h.nodup, by rw [h1, ← hcells]; exact h.valid, gs1, gs2, a, b, by rw [h2, h3]; exact d, by rw [h1, ← hcells]; exact e⟩

theorem connected_false {i : Nat} {s : Sys} {m : Mon} (h : s.mons[i]? = some m) : connected i s = (m.state != .creating) := by
  simp [connected, h]

theorem accepted_step {i : Nat} {es : List Ev} {m : Mon} (h : (run start es).mons[i]? = some m) (e : Ev) :
    accepted i false start (es ++ [e]) = accepted i false start es ++
      (if m.state ≠ .creating ∧ m.finished = false then (offer i (run start es) e).toList else []) := by
  rw [accepted_snoc, connected_false h, finNow_eq, h]
  simp only
  congr 1
  have : ((m.state != .creating && !m.finished) = true) ↔ (m.state ≠ .creating ∧ m.finished = false) := by simp
  by_cases h1 : m.state ≠ .creating ∧ m.finished = false
  · rw [if_pos h1, if_pos (this.2 h1)]
  · rw [if_neg h1, if_neg fun h => h1 (this.1 h)]

theorem accepted_none {i : Nat} {es : List Ev} (h : (run start es).mons[i]? = none) : accepted i false start es = [] := by
  induction hn : es.length generalizing es with
  | zero => cases es <;> simp_all [accepted]
  | succ n ih =>
    rcases List.eq_nil_or_concat es with rfl | ⟨l, e, rfl⟩
    · simp at hn
    simp only [List.concat_eq_append] at hn h ⊢
    have h0 : (run start l).mons[i]? = none := by
      rw [run_snoc] at h
      rw [List.getElem?_eq_none_iff] at h ⊢
      rw [step_len] at h; omega
    rw [accepted_snoc, ih h0 (by simpa using hn)]
    simp [connected, h0]

theorem run_groups (i : Nat) : ∀ es m, (run start es).mons[i]? = some m → Calm i es →
    Groups (run start es).heap m (accepted i false start es) := by
  apply run_ind i (fun es m => Calm i es → Groups (run start es).heap m (accepted i false start es))
  · intro es p n q mask hi _
    have h0 : (run start es).mons[i]? = none := List.getElem?_eq_none_iff.2 (by omega)
    have : accepted i false start (es ++ [.subscribe p n q mask]) = [] := by
      rw [accepted_snoc, accepted_none h0]; simp [connected, h0]
    rw [this]
    exact ⟨by simp [newMon, cells], by simp [newMon, cells], [], [], by simp, by simp, by simp [newMon, dataOf], by simp [newMon, cells]⟩
  · intro es e m m' hm hact ih hcalm
    have hs := run_sched i es m hm
    have hfin := run_fin i es m hm
    have ih := ih fun pre e' post h => hcalm pre e' (post ++ [e]) (by rw [h]; simp)
    have hc : calm i (run start es) e := hcalm es e [] rfl
    rw [accepted_step hm, run_snoc]
    -- the heap
    have hheap : (∀ c mb f, e ≠ .post i c mb f) → Groups (step (run start es) e).heap m (accepted i false start es) := by
      intro hne
      rcases step_heap (run start es) e with h | ⟨u, _, h⟩ | ⟨j, c, mb, f, b, he, ht, h⟩
      · rw [h]; exact ih
      · rw [h]; exact ih.frame (by simp) fun c hc => content_append _ _ _ (ih.valid c hc)
      · rw [h]
        have hji : j ≠ i := fun hji => hne c mb f (by rw [he, hji])
        subst he
        have := hc m hm
        simp only [if_neg hji] at this
        have := this b ht
        exact ih.frame (by simp) fun c' hc' => content_modify_ne _ _ _ _ fun hbc => this (by rw [hbc]; exact mem_cells.1 hc')
    have nooffer : (∀ c mb f, e ≠ .post i c mb f) → offer i (run start es) e = none := by
      intro hne
      cases e with
      | post j c mb f =>
        have hji : j ≠ i := fun hji => hne c mb f (by rw [hji])
        simp only [offer]
        split
        · simp [hji]
        · rfl
      | _ => rfl
    have plain : (∀ c mb f, e ≠ .post i c mb f) → cells m'.queue = cells m.queue → m'.mask = m.mask → dataOf m'.sent = dataOf m.sent →
        Groups (step (run start es) e).heap m' (accepted i false start es ++
          (if m.state ≠ .creating ∧ m.finished = false then (offer i (run start es) e).toList else [])) := by
      intro hne h1 h2 h3
      rw [nooffer hne]
      have := (hheap hne).same h1 h2 h3
      simpa using this
    cases hact with
    | same _ _ h1 h2 h3 h4 =>
      by_cases hp : ∃ c mb f, e = .post i c mb f
      · obtain ⟨c, mb, f, rfl⟩ := hp
        have hno : (if m.state ≠ .creating ∧ m.finished = false then (offer i (run start es) (.post i c mb f)).toList else []) = [] := by
          rcases h4 c mb f rfl with h | h | h <;> simp [h]
        rw [hno, List.append_nil]
        have ht : squashTarget (run start es) i c mb f = none := by
          simp only [squashTarget, hm]
          rcases h4 c mb f rfl with h | h | h
          · simp only [offer, hm] at h
            split
            · rfl
            · rename_i hn
              exfalso
              rw [if_pos] at h
              · cases h
              · refine ⟨trivial, ?_, ?_⟩
                · cases ht : testmask m.mask (content (run start es).heap c)
                  · exact absurd (.inr (.inr (.inl (by simp [ht])))) hn
                  · rfl
                · left
                  cases mb
                  · rfl
                  · exact absurd (by simp) hn
          · rw [if_pos (.inl h)]
          · rw [if_pos (.inr (.inl h))]
        rw [post_heap, ht]
        exact ih
      · exact plain (fun c mb f h => hp ⟨c, mb, f, h⟩) rfl rfl rfl
    | setup ok =>
      refine plain (by simp) ?_ ?_ ?_ <;> unfold Mon.setup <;> split <;> simp [dataOf]
    | push c mb f _ h1 h2 h3 h4 =>
      obtain ⟨f1, f2, f3, f4, f5, f6, f7, f8, f9, f10⟩ := maybeReply_fields { m with queue := m.queue ++ [some c] }
      have hof : offer i (run start es) (.post i c mb f) = some (content (run start es).heap c) := by
        simp only [offer, hm]
        rw [if_pos]
        exact ⟨trivial, h3, by rcases h4 with h | h <;> simp [h]⟩
      have ht : squashTarget (run start es) i c mb f = none := by
        simp only [squashTarget, hm]
        rw [if_pos]
        rcases h4 with h | h <;> simp [h]
      rw [if_pos ⟨h1, h2⟩, hof, post_heap, ht]
      have hcq := hc m hm
      simp only [if_true] at hcq
      exact ih.push hcq (testmask_nonempty h3) _ f2 f8 f3
    | poke c mb f _ h1 h2 h3 h4 h5 =>
      obtain ⟨f1, f2, f3, f4, f5, f6, f7, f8, f9, f10⟩ := maybeReply_fields m
      rw [if_pos ⟨h1, h2⟩, post_heap]
      -- the last entry of the queue is a Value
      obtain ⟨b, hb⟩ : ∃ b, m.queue.getLast? = some (some b) := by
        rcases List.eq_nil_or_concat m.queue with hn | ⟨q, x, hx⟩
        · have := hs.limit; rw [hn] at h4; simp at h4; omega
        · simp only [List.concat_eq_append] at hx
          cases x with
          | some b => exact ⟨b, by rw [hx]; simp⟩
          | none => have := (hfin.last q [] hx).2; rw [h2] at this; cases this
      cases mb with
      | false =>
        have hof : offer i (run start es) (.post i c false f) = some (content (run start es).heap c) := by
          simp only [offer, hm]
          rw [if_pos]
          exact ⟨trivial, h3, by simp⟩
        have ht : squashTarget (run start es) i c false f = some b := by
          simp only [squashTarget, hm, hb]
          rw [if_neg]
          rintro (h | h | h | h | h | h)
          · exact h1 h
          · rw [h2] at h; cases h
          · simp [h3] at h
          · omega
          · rw [h5] at h; cases h
          · cases h
        rw [hof, ht]
        exact ih.squash hb _ _ f2 f8 f3
      | true =>
        have hof : offer i (run start es) (.post i c true f) = none := by
          simp only [offer, hm]
          rw [if_neg]
          rintro ⟨_, _, h | h | h⟩
          · cases h
          · rw [h5] at h; cases h
          · omega
        have ht : squashTarget (run start es) i c true f = none := by
          simp only [squashTarget, hm]
          rw [if_pos]; simp
        rw [hof, ht]
        simpa using ih.same (by rw [f2]) f8 (by rw [f3])
    | finish =>
      by_cases hn : m.state = .creating ∨ m.finished
      · have h : m.finish = m := by unfold Mon.finish; rw [if_pos hn]
        rw [h] at plain ⊢; exact plain (by simp) rfl rfl rfl
      · obtain ⟨f1, f2, f3, f4, f5, f6, f7, f8, f9, f10⟩ := maybeReply_fields { m with finished := true, queue := m.queue ++ [none] }
        have h : m.finish = ({ m with finished := true, queue := m.queue ++ [none] } : Mon).maybeReply := by unfold Mon.finish; rw [if_neg hn]
        rw [h] at plain ⊢
        refine plain (by simp) ?_ f8 (by rw [f3])
        rw [f2, cells_append]; simp [cells]
    | ctl a b d =>
      rcases ctl_cases m a b d with ⟨h, _⟩ | ⟨hc', h⟩ | ⟨hst, c, h⟩
      · rw [h] at plain ⊢; exact plain (by simp) rfl rfl rfl
      · rw [h] at plain ⊢
        refine plain (by simp) ?_ ?_ ?_ <;> unfold Mon.cleanup <;> split <;> simp
      · rw [h] at plain ⊢
        have a1 := ack_fields m a
        have a2 := startStop_fields (m.ack a) b
        refine plain (by simp) ?_ ?_ ?_
        · show cells ((m.ack a).startStop b).queue = _
          rw [a2.1, a1.2.1]
        · exact a2.2.2.2.2.2.2.1.trans a1.2.2.2.2.2.2.2.2.1
        · show dataOf ((m.ack a).startStop b).sent = _
          rw [a2.2.1, a1.2.2.1]
    | cancel => refine plain (by simp) ?_ ?_ ?_ <;> unfold Mon.cancel <;> split <;> simp
    | close => refine plain (by simp) ?_ ?_ ?_ <;> unfold Mon.cleanup <;> split <;> simp
    | work =>
      rcases runJob_sends (run start es).heap m with ⟨h, _⟩ | ⟨hj, h⟩
      · rw [h] at plain ⊢; exact plain (by simp) rfl rfl rfl
      · have hj1 := runJob_jobs hs hj
        have hno : (if m.state ≠ .creating ∧ m.finished = false then (offer i (run start es) (.work i)).toList else []) = [] := by
          rw [nooffer (by simp)]; simp
        rw [hno, List.append_nil]
        show Groups (run start es).heap _ _
        cases h with
        | nothing h => rw [h]; exact ih.same rfl rfl rfl
        | junk0 h0 hq h => rw [h]; exact ih.same rfl rfl (by rw [dataOf_append]; simp [dataOf])
        | data c' q hq h0 hw h =>
          rw [h]
          obtain ⟨p1, p2, p3, p4, p5, p6, p7, p8, p9, p10, p11, p12⟩ := popped_fields m (run start es).heap c' q hj1
          exact ih.pop hq _ p2 p8 p3
        | final q hq h0 h => rw [h]; exact ih.popNone hq _ rfl rfl (by rw [dataOf_append]; simp [dataOf])
        | junk q hq h0 h => rw [h]; exact ih.popNone hq _ rfl rfl (by rw [dataOf_append]; simp [dataOf])

/-! ### who keeps calm -/

theorem run_posted (i : Nat) : ∀ es m, (run start es).mons[i]? = some m → ∀ c, some c ∈ m.queue → ∃ mb f, Ev.post i c mb f ∈ es := by
  apply run_ind i (fun es m => ∀ c, some c ∈ m.queue → ∃ mb f, Ev.post i c mb f ∈ es)
  · intro es p n q mask _ c h; simp [newMon] at h
  · intro es e m m' hm hact ih
    have ih' : ∀ c, some c ∈ m.queue → ∃ mb f, Ev.post i c mb f ∈ es ++ [e] := fun c hc => by
      obtain ⟨mb, f, h⟩ := ih c hc; exact ⟨mb, f, by simp [h]⟩
    have sub : (∀ x ∈ m'.queue, x ∈ m.queue ∨ x = none) → ∀ c, some c ∈ m'.queue → ∃ mb f, Ev.post i c mb f ∈ es ++ [e] := by
      intro h c hc
      rcases h _ hc with h | h
      · exact ih' c h
      · cases h
    cases hact with
    | same => exact ih'
    | setup ok => apply sub; unfold Mon.setup; split <;> exact fun x hx => .inl hx
    | push c mb f _ h1 h2 h3 h4 =>
      rw [(maybeReply_fields _).2.1]
      intro x hx
      simp only [List.mem_append, List.mem_singleton] at hx
      rcases hx with hx | hx
      · exact ih' x hx
      · cases hx; exact ⟨mb, f, by simp⟩
    | poke c mb f _ h1 h2 h3 h4 h5 => apply sub; rw [(maybeReply_fields _).2.1]; exact fun x hx => .inl hx
    | finish =>
      apply sub; unfold Mon.finish; split
      · exact fun x hx => .inl hx
      · rw [(maybeReply_fields _).2.1]; simp
    | ctl a b d =>
      apply sub
      rcases ctl_cases m a b d with ⟨h, _⟩ | ⟨hc', h⟩ | ⟨hst, c, h⟩
      · rw [h]; exact fun x hx => .inl hx
      · rw [h]; unfold Mon.cleanup; split <;> exact fun x hx => .inl hx
      · rw [h]
        show ∀ x ∈ ((m.ack a).startStop b).queue, _
        rw [(startStop_fields (m.ack a) b).1, (ack_fields m a).2.1]; exact fun x hx => .inl hx
    | cancel => apply sub; unfold Mon.cancel; split <;> exact fun x hx => .inl hx
    | close => apply sub; unfold Mon.cleanup; split <;> exact fun x hx => .inl hx
    | work =>
      apply sub
      rcases runJob_sends (run start es).heap m with ⟨h, _⟩ | ⟨hj, h⟩
      · rw [h]; exact fun x hx => .inl hx
      · cases h with
        | nothing h => rw [h]; exact fun x hx => .inl hx
        | junk0 h0 hq h => rw [h]; exact fun x hx => .inl hx
        | data c' q hq h0 hw h =>
          rw [h, (again_fields _).2.1, (consume_fields _).2.1, hq]
          exact fun x hx => .inl (by simp only [Mon.popped] at hx; simp [hx])
        | final q hq h0 h => rw [h, hq]; exact fun x hx => .inl (by simp only at hx; simp [hx])
        | junk q hq h0 h => rw [h, hq]; exact fun x hx => .inl (by simp only at hx; simp [hx])

theorem squashTarget_mem {s : Sys} {j c : Nat} {mb f : Bool} {b : Nat} (h : squashTarget s j c mb f = some b) :
    ∃ m, s.mons[j]? = some m ∧ some b ∈ m.queue := by
  unfold squashTarget at h
  cases hm : s.mons[j]? with
  | none => rw [hm] at h; cases h
  | some m =>
    rw [hm] at h
    simp only at h
    split at h
    · cases h
    · split at h
      · rename_i hb
        cases h
        exact ⟨m, rfl, List.mem_of_getLast? hb⟩
      · cases h

theorem nodup_filterMap {α β} (f : α → Option β) : ∀ (l : List α), (l.filterMap f).Nodup → ∀ a ∈ l, ∀ b ∈ l, ∀ x, f a = some x → f b = some x → a = b
  | [], _, a, ha, _, _, _, _, _ => by cases ha
  | y :: l, h, a, ha, b, hb, x, h1, h2 => by
    have htail : (l.filterMap f).Nodup := by
      rw [List.filterMap_cons] at h
      cases hy : f y with
      | none => rw [hy] at h; exact h
      | some z => rw [hy] at h; exact (List.nodup_cons.1 h).2
    have hmem : ∀ c ∈ l, f c = some x → f y = some x → False := by
      intro c hc hfc hfy
      rw [List.filterMap_cons, hfy] at h
      exact (List.nodup_cons.1 h).1 (List.mem_filterMap.2 ⟨c, hc, hfc⟩)
    rcases List.mem_cons.1 ha with rfl | ha'
    · rcases List.mem_cons.1 hb with rfl | hb'
      · rfl
      · exact (hmem b hb' h2 h1).elim
    · rcases List.mem_cons.1 hb with rfl | hb'
      · exact (hmem a ha' h1 h2).elim
      · exact nodup_filterMap f l htail a ha' b hb' x h1 h2

theorem calm_of_once {es : List Ev} (h : PostedOnce es) (i : Nat) : Calm i es := by
  intro pre e post he
  subst he
  cases e with
  | post j c mb f =>
    intro m hm
    split
    · intro hc
      obtain ⟨mb', f', hp⟩ := run_posted i pre m hm c hc
      unfold PostedOnce at h
      rw [List.filterMap_append, List.nodup_append] at h
      exact h.2.2 c (List.mem_filterMap.2 ⟨_, hp, rfl⟩) c (by simp [postedCell]) rfl
    · rename_i hji
      intro b hb hmem
      obtain ⟨mb1, f1, hp1⟩ := run_posted i pre m hm b hmem
      obtain ⟨mj, hmj, hbj⟩ := squashTarget_mem hb
      obtain ⟨mb2, f2, hp2⟩ := run_posted j pre mj hmj b hbj
      have := nodup_filterMap postedCell _ h _ (List.mem_append_left _ hp1) _ (List.mem_append_left _ hp2) b rfl rfl
      cases this
      exact hji rfl
  | _ => trivial

end Pvxs.Mon
