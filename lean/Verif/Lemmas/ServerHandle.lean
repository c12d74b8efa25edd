import Verif.Lemmas.ServerLife
/-
Which execution a reply answers.
-/
namespace Pvxs.Server
open Spec

theorem lastExec_append (i : Nat) (l obs : List Obs) (h : ∀ k c, Obs.exec i k c ∉ obs) : lastExec i (l ++ obs) = lastExec i l := by
  unfold lastExec
  rw [List.foldl_append]
  generalize List.foldl _ none l = x
  induction obs generalizing x with
  | nil => rfl
  | cons o obs ih =>
    simp only [List.foldl_cons]
    have ih := ih (fun k c hm => h k c (by simp [hm]))
    cases o with
    | exec j k c =>
      have : j ≠ i := by rintro rfl; exact h k c (by simp)
      simp only [if_neg this]
      exact ih x
    | _ => exact ih x

theorem lastExec_snoc (i k : Nat) (l : List Obs) (c : Call) : lastExec i (l ++ [.exec i k c]) = some k := by
  unfold lastExec
  rw [List.foldl_append]
  simp

theorem cancelledSince_append {k : Nat} {l : List Obs} (h : CancelledSince k l) (obs : List Obs) : CancelledSince k (l ++ obs) := by
  obtain ⟨i, c, a, b, d, rfl⟩ := h
  exact ⟨i, c, a, b, d ++ obs, by simp⟩

theorem cancelledSince_new {i k : Nat} {c : Call} {l : List Obs} (h : Obs.exec i k c ∈ l) (pre post : List Obs) :
    CancelledSince k (l ++ (pre ++ .cancelled i :: post)) := by
  obtain ⟨a, b, rfl⟩ := List.append_of_mem h
  exact ⟨i, c, a, b ++ pre, post, by simp⟩

/-- every reply answers the last execution -/
def AnswersLast (l : List Obs) : Prop :=
  ∀ pre post i k ok, l = pre ++ Obs.replied i (.handle k) ok :: post → lastExec i pre = some k

theorem AnswersLast.snoc {l : List Obs} (h : AnswersLast l) (o : Obs) (ho : ∀ i k ok, o = .replied i (.handle k) ok → lastExec i l = some k) :
    AnswersLast (l ++ [o]) := by
  intro pre post i k ok e
  rcases List.eq_nil_or_concat post with rfl | ⟨q, x, rfl⟩
  · have := List.append_inj' e rfl
    obtain ⟨rfl, e2⟩ := this
    simp at e2
    exact ho i k ok e2
  · rw [List.concat_eq_append] at e
    have e' : l ++ [o] = (pre ++ Obs.replied i (.handle k) ok :: q) ++ [x] := by rw [e]; simp
    exact h pre q i k ok (List.append_inj' e' rfl).1

theorem AnswersLast.append {l : List Obs} (h : AnswersLast l) (obs : List Obs) (ho : ∀ i k ok, Obs.replied i (.handle k) ok ∉ obs) :
    AnswersLast (l ++ obs) := by
  induction obs generalizing l with
  | nil => simpa using h
  | cons o obs ih =>
    have h1 : AnswersLast (l ++ [o]) := h.snoc o (fun i k ok e => absurd (by simp [e]) (ho i k ok))
    have := ih h1 (fun i k ok hm => ho i k ok (by simp [hm]))
    simpa using this

structure HInv (used : List Nat) (s : SConn) : Prop where
  ok : HandlesOK s
  exec : ∀ k i : Nat, s.handles[k]? = some i → ∃ c, Obs.exec i k c ∈ s.log
  spent : ∀ (k i : Nat) op, s.handles[k]? = some i → s.ops[i]? = some op → op.state ≠ .dead →
    k ∈ used ∨ CancelledSince k s.log ∨ (op.state = .executing ∧ lastExec i s.log = some k)
  ans : AnswersLast s.log

/-- a step of an operation other than `i` -/
theorem exec_other {i j n op op' obs b} (st : OpStep j n op op' obs b) (h : j ≠ i) : ∀ k c, Obs.exec i k c ∉ obs := by
  intro k c hm
  have := st.other i (Ne.symm h) _ hm
  simp [Obs.about] at this

theorem Micro.hinv {Q} {used used' : List Nat} {s t : SConn} (m : Micro Q s t) (hs : HInv used s) (hsub : ∀ k ∈ used, k ∈ used')
    (hQ : ∀ (k i : Nat) op, Q k → s.handles[k]? = some i → s.ops[i]? = some op → op.state = .executing → lastExec i s.log = some k)
    (hu : ∀ k, Q k → k ∈ used') : HInv used' t := by
  have hok := m.handlesOK hs.ok
  have hspent := hs.spent
  cases m with
  | quiet obs hq ho hl hh hi =>
    refine ⟨hok, ?_, ?_, ?_⟩
    · intro k i h
      obtain ⟨c, hc⟩ := hs.exec k i (by rw [← hh]; exact h)
      exact ⟨c, by rw [hl]; exact List.mem_append_left _ hc⟩
    · intro k i op h1 h2 h3
      rw [hl]
      rcases hspent k i op (by rw [← hh]; exact h1) (by rw [← ho]; exact h2) h3 with h | h | ⟨h4, h5⟩
      · exact .inl (hsub k h)
      · exact .inr (.inl (cancelledSince_append h _))
      · refine .inr (.inr ⟨h4, ?_⟩)
        rw [lastExec_append]; exact h5
        intro k c hm
        have := hq i _ hm; simp [Obs.about] at this
    · rw [hl]
      refine hs.ans.append _ (fun i k ok hm => ?_)
      have := hq i _ hm; simp [Obs.about] at this
  | new op c h1 h2 h3 h4 h5 ho hl hh hi =>
    have key : ∀ k i : Nat, s.handles[k]? = some i → ∃ o, s.ops[i]? = some o := fun k i h => by
      obtain ⟨o, a, _⟩ := hs.ok k i h; exact ⟨o, a⟩
    refine ⟨hok, ?_, ?_, ?_⟩
    · intro k i h
      obtain ⟨c, hc⟩ := hs.exec k i (by rw [← hh]; exact h)
      exact ⟨c, by rw [hl]; exact List.mem_append_left _ hc⟩
    · intro k i o a1 a2 a3
      rw [hh] at a1
      obtain ⟨o', ho'⟩ := key k i a1
      rw [ho, List.getElem?_append_left (List.getElem?_eq_some_iff.1 ho').1] at a2
      rw [hl]
      rcases hspent k i o a1 a2 a3 with h | h | ⟨h4, h5⟩
      · exact .inl (hsub k h)
      · exact .inr (.inl (cancelledSince_append h _))
      · exact .inr (.inr ⟨h4, by rw [lastExec_append]; exact h5; simp⟩)
    · rw [hl]; exact hs.ans.append _ (by simp)
  | newInfo op c h1 h2 h3 h4 h5 ho hl hh hi =>
    have key : ∀ k i : Nat, s.handles[k]? = some i → ∃ o, s.ops[i]? = some o := fun k i h => by
      obtain ⟨o, a, _⟩ := hs.ok k i h; exact ⟨o, a⟩
    refine ⟨hok, ?_, ?_, ?_⟩
    · intro k i h
      rw [hh] at h
      by_cases hlt : k < s.handles.length
      · rw [List.getElem?_append_left hlt] at h
        obtain ⟨c, hc⟩ := hs.exec k i h
        exact ⟨c, by rw [hl]; exact List.mem_append_left _ hc⟩
      · have hk : k = s.handles.length := by
          have := (List.getElem?_eq_some_iff.1 h).1; simp at this; omega
        subst hk
        simp at h; subst h
        exact ⟨.nothing, by rw [hl]; simp⟩
    · intro k i o a1 a2 a3
      rw [hh] at a1
      rw [hl]
      by_cases hlt : k < s.handles.length
      · rw [List.getElem?_append_left hlt] at a1
        obtain ⟨o', ho'⟩ := key k i a1
        have hil := (List.getElem?_eq_some_iff.1 ho').1
        rw [ho, List.getElem?_append_left hil] at a2
        rcases hspent k i o a1 a2 a3 with h | h | ⟨h4, h5⟩
        · exact .inl (hsub k h)
        · exact .inr (.inl (cancelledSince_append h _))
        · refine .inr (.inr ⟨h4, ?_⟩)
          rw [lastExec_append]; exact h5
          intro k c hm; simp at hm; omega
      · have hk : k = s.handles.length := by
          have := (List.getElem?_eq_some_iff.1 a1).1; simp at this; omega
        subst hk
        simp at a1; subst a1
        rw [ho] at a2; simp at a2; subst a2
        refine .inr (.inr ⟨h1, ?_⟩)
        have : s.log ++ [Obs.created s.ops.length c, .exec s.ops.length s.handles.length .nothing]
          = (s.log ++ [Obs.created s.ops.length c]) ++ [.exec s.ops.length s.handles.length .nothing] := by simp
        rw [this, lastExec_snoc]
    · rw [hl]; exact hs.ans.append _ (by simp)
  | op j op op' obs b h st ho hl hh hr hi =>
    have hlt := (List.getElem?_eq_some_iff.1 h).1
    have hexec : ∀ k i : Nat, s.handles[k]? = some i → ∃ c, Obs.exec i k c ∈ t.log := by
      intro k i hk
      obtain ⟨c, hc⟩ := hs.exec k i hk
      exact ⟨c, by rw [hl]; exact List.mem_append_left _ hc⟩
    have hget : ∀ k i : Nat, t.handles[k]? = some i → s.handles[k]? = some i ∨ (b = true ∧ k = s.handles.length ∧ i = j) := by
      intro k i hk
      rw [hh] at hk
      cases b
      · exact .inl hk
      · simp only [if_true] at hk
        by_cases hl : k < s.handles.length
        · rw [List.getElem?_append_left hl] at hk; exact .inl hk
        · have hk' : k = s.handles.length := by
            have := (List.getElem?_eq_some_iff.1 hk).1; simp at this; omega
          subst hk'
          simp at hk
          exact .inr ⟨rfl, rfl, hk.symm⟩
    -- the handles of other operations
    have hother : ∀ (k i : Nat) o, i ≠ j → s.handles[k]? = some i → t.ops[i]? = some o → o.state ≠ .dead →
        k ∈ used' ∨ CancelledSince k t.log ∨ (o.state = .executing ∧ lastExec i t.log = some k) := by
      intro k i o hij hk ht hd
      rw [ho, List.getElem?_set_ne (Ne.symm hij)] at ht
      rw [hl]
      rcases hspent k i o hk ht hd with h | h | ⟨h4, h5⟩
      · exact .inl (hsub k h)
      · exact .inr (.inl (cancelledSince_append h _))
      · exact .inr (.inr ⟨h4, by rw [lastExec_append _ _ _ (exec_other st (Ne.symm hij))]; exact h5⟩)
    have htj : ∀ o, t.ops[j]? = some o → o = op' := by
      intro o ht
      rw [ho, List.getElem?_set] at ht
      simp [hlt] at ht; exact ht.symm
    -- old handles of `j`, when the step is not an execution
    have hsame : b = false → (op'.state = op.state ∨ op'.state = .dead) → (∀ k c, Obs.exec j k c ∉ obs) →
        ∀ (k : Nat) o, s.handles[k]? = some j → t.ops[j]? = some o → o.state ≠ .dead →
        k ∈ used' ∨ CancelledSince k t.log ∨ (o.state = .executing ∧ lastExec j t.log = some k) := by
      intro _ hst hne k o hk ht hd
      have := htj o ht; subst this
      have hst : o.state = op.state := hst.resolve_right hd
      rw [hl]
      rcases hspent k j op hk h (by rw [← hst]; exact hd) with h | h | ⟨h4, h5⟩
      · exact .inl (hsub k h)
      · exact .inr (.inl (cancelledSince_append h _))
      · exact .inr (.inr ⟨by rw [hst]; exact h4, by rw [lastExec_append _ _ _ hne]; exact h5⟩)
    have fin : (b = true → ∃ c, Obs.exec j s.handles.length c ∈ obs) → (b = true → op'.state = .executing ∧ lastExec j t.log = some s.handles.length) →
        (∀ (k : Nat) o, s.handles[k]? = some j → t.ops[j]? = some o → o.state ≠ .dead →
        k ∈ used' ∨ CancelledSince k t.log ∨ (o.state = .executing ∧ lastExec j t.log = some k)) → AnswersLast t.log → HInv used' t := by
      intro h1 h2 h3 h4
      refine ⟨hok, ?_, ?_, h4⟩
      · intro k i hk
        rcases hget k i hk with hk | ⟨hb, rfl, rfl⟩
        · exact hexec k i hk
        · obtain ⟨c, hc⟩ := h1 hb
          exact ⟨c, by rw [hl]; exact List.mem_append_right _ hc⟩
      · intro k i o hk ht hd
        rcases hget k i hk with hk | ⟨hb, rfl, rfl⟩
        · by_cases e : i = j
          · subst e; exact h3 k o hk ht hd
          · exact hother k i o e hk ht hd
        · have := htj o ht; subst this
          exact .inr (.inr (h2 hb))
    cases st with
    | edit hsm e2 e3 e4 => exact fin (by simp) (by simp) (hsame rfl (.inl e2) (by simp)) (by rw [hl]; exact hs.ans.append _ (by simp))
    | setClose hsm e2 e3 e4 e5 => exact fin (by simp) (by simp) (hsame rfl (.inl e2) (by simp)) (by rw [hl]; exact hs.ans.append _ (by simp))
    | setupOK hsm e1 e2 e3 e4 e5 =>
      refine fin (by simp) (by simp) ?_ (by rw [hl]; exact hs.ans.append _ (by simp))
      intro k o hk ht hd
      obtain ⟨o', a, _, c⟩ := hs.ok k j hk
      rw [h] at a; cases a
      exact absurd e2 c
    | setupErr hsm e1 e2 e3 e4 e5 =>
      exact fin (by simp) (by simp) (hsame rfl (.inr e3) (by simp)) (by rw [hl]; exact hs.ans.append _ (by simp))
    | reply k ok hsm e1 e2 e3 e4 e5 =>
      obtain ⟨hk, _, hq⟩ := hr k ok (by simp)
      have hlast := hQ k j op hq hk h e2
      refine fin (by simp) (by simp) ?_ ?_
      · intro k' o hk' ht hd
        rw [hl]
        rcases hspent k' j op hk' h (by rw [e2]; simp) with h | h | ⟨h4, h5⟩
        · exact .inl (hsub k' h)
        · exact .inr (.inl (cancelledSince_append h _))
        · rw [hlast] at h5; cases h5; exact .inl (hu k hq)
      · rw [hl]
        exact hs.ans.snoc _ (fun i k' ok' e => by cases e; exact hlast)
    | replyLast k ok hsm e1 e2 e3 e4 e5 =>
      obtain ⟨hk, _, hq⟩ := hr k ok (by simp)
      have hlast := hQ k j op hq hk h e2
      refine fin (by simp) (by simp) (hsame rfl (.inr e3) (by simp)) ?_
      rw [hl]
      have : s.log ++ [Obs.replied j (.handle k) ok, .ended j .reply] = (s.log ++ [Obs.replied j (.handle k) ok]) ++ [.ended j .reply] := by simp
      rw [this]
      exact (hs.ans.snoc _ (fun i k' ok' e => by cases e; exact hlast)).append _ (by simp)
    | exec c hsm e1 e2 e3 e4 e5 =>
      refine fin (fun _ => ⟨c, by simp⟩) (fun _ => ⟨e3, by rw [hl, lastExec_snoc]⟩) ?_ (by rw [hl]; exact hs.ans.append _ (by simp))
      intro k o hk ht hd
      rw [hl]
      rcases hspent k j op hk h (by rw [e2]; simp) with h | h | ⟨h4, _⟩
      · exact .inl (hsub k h)
      · exact .inr (.inl (cancelledSince_append h _))
      · rw [e2] at h4; cases h4
    | cancel hsm e2 e3 e4 e5 =>
      refine fin (by simp) (by simp) ?_ ?_
      · intro k o hk ht hd
        rw [hl]
        rcases hspent k j op hk h (by rw [e2]; simp) with h | h | ⟨h4, _⟩
        · exact .inl (hsub k h)
        · exact .inr (.inl (cancelledSince_append h _))
        · obtain ⟨c, hc⟩ := hs.exec k j hk
          obtain ⟨o', a, hm, _⟩ := hs.ok k j hk
          rw [h] at a; cases a
          have : (op.kind != .mon) = true := by simpa using hm
          rw [this]
          simp only [if_true]
          exact .inr (.inl (cancelledSince_new hc _ []))
      · rw [hl]
        refine hs.ans.append _ ?_
        intro i k ok hm
        simp only [List.mem_append] at hm
        rcases hm with hm | hm <;> split at hm <;> simp at hm
    | monRun hsm e1 e2 e3 e4 e5 =>
      refine fin (by simp) (by simp) ?_ (by rw [hl]; exact hs.ans.append _ (by simp))
      intro k o hk ht hd
      obtain ⟨o', a, hm, _⟩ := hs.ok k j hk
      rw [h] at a; cases a
      exact absurd e1 hm
    | monEnd hsm e1 e2 e3 e4 e5 =>
      exact fin (by simp) (by simp) (hsame rfl (.inr e3) (by simp)) (by rw [hl]; exact hs.ans.append _ (by simp))
    | teardown hsm e2 e3 e4 e5 =>
      refine fin (by simp) (by simp) (hsame rfl (.inr e3) ?_) ?_
      · intro k c hm
        simp only [List.mem_append] at hm
        rcases hm with (hm | hm) | hm <;> (try split at hm) <;> simp at hm
      · rw [hl]
        refine hs.ans.append _ ?_
        intro i k ok hm
        simp only [List.mem_append] at hm
        rcases hm with (hm | hm) | hm <;> (try split at hm) <;> simp at hm

theorem Micros.hinv_none {used : List Nat} {s t : SConn} (m : Micros (fun _ => False) s t) : HInv used s → HInv used t := by
  induction m with
  | nil => exact id
  | cons h _ ih => exact fun hs => ih (h.hinv hs (fun _ h => h) (fun _ _ _ h => h.elim) (fun _ h => h.elim))

theorem step_uses {s : SConn} {e : Ev} {k : Nat} (hs : HandlesOK s) (hu : uses e = some k) :
    step s e = s ∨ Micro (· = k) s (step s e) := by
  unfold step
  split
  · exact .inl rfl
  · cases e <;> simp only [uses] at hu <;> cases hu
    · exact useHandle_micro (Q := (· = k)) s k _ _ hs rfl
    · exact useHandle_micro (Q := (· = k)) s k _ _ hs rfl

theorem careful_inv (es : List Ev) : ∀ (used : List Nat) (s : SConn), HInv used s → Careful used s es → AnswersLast (run s es).log := by
  induction es with
  | nil => exact fun used s h _ => h.ans
  | cons e es ih =>
    intro used s h hc
    obtain ⟨h1, h2⟩ := hc
    refine ih _ _ ?_ h2
    cases hu : uses e with
    | none =>
      have := step_micros (Q := fun _ => False) s e h.ok (fun k hk => by rw [hu] at hk; cases hk)
      exact this.hinv_none h
    | some k =>
      obtain ⟨hn, hcs⟩ := h1 k hu
      have hsub : ∀ x ∈ used, x ∈ (some k).toList ++ used := fun x hx => by simp [hx]
      rcases step_uses h.ok hu with hst | m
      · rw [hst]
        refine ⟨h.ok, h.exec, fun k' i op a b c => ?_, h.ans⟩
        rcases h.spent k' i op a b c with h | h
        · exact .inl (hsub k' h)
        · exact .inr h
      · refine m.hinv h hsub ?_ (fun k' hk => by simp [hk])
        rintro k' i op rfl hk ho hx
        rcases h.spent k' i op hk ho (by rw [hx]; simp) with h | h | h
        · exact absurd h hn
        · exact absurd h hcs
        · exact h.2

theorem start_hinv : HInv [] Spec.start :=
  ⟨start_handlesOK, fun k i h => by simp [Spec.start] at h, fun k i op h => by simp [Spec.start] at h,
    fun pre post i k ok h => by simp [Spec.start] at h⟩

end Pvxs.Server
