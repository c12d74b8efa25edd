import Verif.Spec.RecordPut
/-! Property C76 -/
namespace Pvxs.Props.RecPut
open Pvxs Pvxs.RecPut Pvxs.Spec.RecPut
open Pvxs.Group (Chan Tri)

theorem run_append (o : Options) : ∀ (a : List Event) (s : Cache) (b : List Event),
    run o s (a ++ b) = ((run o (run o s a).1 b).1, (run o s a).2 ++ (run o (run o s a).1 b).2)
  | [], s, b => by simp [run]
  | e :: a, s, b => by simp [run, run_append o a]

/-- whose credentials are cached -/
theorem first_who (o : Options) (s : Cache) (w : Nat) : (s.first o w).who = some (s.who.getD w) := by
  unfold Cache.first
  cases h : s.who <;> simp [h]

theorem put_who (o : Options) (s : Cache) (op w d : Nat) (m : Bool) (allow : Nat → Bool) (c : Chan) :
    (put o s op w d m allow c).1.who = some (s.who.getD w) := by
  unfold put
  dsimp only
  split
  · exact first_who o s w
  · split <;> exact first_who o s w

/-- the outputs of a put without notification write this data for this put, if anything -/
theorem direct_writes (f : Tri) (op d : Nat) (c : Chan) (x : Out) (hx : x ∈ direct f op d c) :
    (∀ o' d', (x = .write o' d' ∨ x = .putField o' d') → o' = op ∧ d' = d) ∧ (∀ o' b, x = .reply o' b → o' = op) := by
  unfold direct at hx
  split at hx
  · simp only [List.mem_singleton] at hx; subst hx; simp
  · split at hx
    · simp only [List.mem_cons, List.not_mem_nil, or_false] at hx
      rcases hx with rfl | rfl <;> simp
    · unfold post at hx
      dsimp only at hx
      simp only [List.cons_append, List.mem_cons, List.mem_append, List.not_mem_nil, or_false] at hx
      rcases hx with rfl | hx | rfl
      · simp
      · split at hx
        · split at hx <;> (simp only [List.mem_cons, List.not_mem_nil, or_false] at hx; subst hx; simp)
        · exact absurd hx List.not_mem_nil
      · simp

theorem refused_iff (s : Cache) (p : APut) (w : Nat) (h : s.who = some w) : refused s p.allow p.chan = false ↔ Permitted p w := by
  unfold refused Permitted
  rw [h]
  dsimp only
  cases p.chan.attr <;> cases p.chan.disabled <;> cases p.allow w <;> simp

/-- Whatever happens, in any order: a value is written to the record only if it was sent by a put, while the record accepted changes and the user of the first put was allowed to
write it. -/
theorem C76_permitted (o : Options) (es : List Event) (op d : Nat) (h : .write op d ∈ (run o {} es).2 ∨ .putField op d ∈ (run o {} es).2) :
    ∃ p ∈ puts es, p.data = d ∧ ∀ q, (puts es).head? = some q → Permitted p q.who := by
  suffices H : ∀ (es : List Event) (s : Cache) (done : List APut),
      s.who = done.head?.map (·.who) → (∀ d, s.valueToSet = some d → ∃ p ∈ done, p.data = d ∧ ∀ q, done.head? = some q → Permitted p q.who) →
      (.write op d ∈ (run o s es).2 ∨ .putField op d ∈ (run o s es).2) →
      ∃ p ∈ done ++ puts es, p.data = d ∧ ∀ q, (done ++ puts es).head? = some q → Permitted p q.who by
    simpa using H es {} [] rfl (by simp) h
  clear h es
  intro es
  induction es with
  | nil => intro s done _ _ h; simp [run] at h
  | cons e es ih =>
    intro s done hw hv h
    have mono : ∀ (l : List APut), done ≠ [] → (∀ q, done.head? = some q → (done ++ l).head? = some q) := by
      intro l _ q hq
      rw [List.head?_append, hq]; rfl
    have hne : ∀ p ∈ done, ∀ l : List APut, (∀ q, done.head? = some q → Permitted p q.who) → ∀ q, (done ++ l).head? = some q → Permitted p q.who := by
      intro p hp l hq q hq'
      obtain ⟨z, hz⟩ : ∃ z, done.head? = some z := by
        cases done with
        | nil => exact absurd hp List.not_mem_nil
        | cons z l => exact ⟨z, rfl⟩
      rw [List.head?_append, hz] at hq'
      exact hq q (hz.trans hq')
    simp only [run, List.mem_append] at h
    have hsplit : (.write op d ∈ (step o s e).2 ∨ .putField op d ∈ (step o s e).2) ∨
        (.write op d ∈ (run o (step o s e).1 es).2 ∨ .putField op d ∈ (run o (step o s e).1 es).2) := by
      rcases h with (h | h) | (h | h)
      · exact .inl (.inl h)
      · exact .inr (.inl h)
      · exact .inl (.inr h)
      · exact .inr (.inr h)
    clear h
    cases e with
    | put op' w d' m allow c =>
      let p : APut := ⟨op', w, d', m, allow, c⟩
      have hputs : puts (.put op' w d' m allow c :: es) = p :: puts es := rfl
      rw [hputs, List.append_cons]
      have hwho : (s.first o w).who = some (s.who.getD w) := first_who o s w
      have hhd : ∀ q, (done ++ [p]).head? = some q → q.who = s.who.getD w := by
        intro q hq
        rw [hw]
        cases done with
        | nil => simp at hq; subst hq; rfl
        | cons z l => simp at hq; subst hq; rfl
      have hperm : refused (s.first o w) allow c = false → ∀ q, (done ++ [p]).head? = some q → Permitted p q.who := by
        intro hr q hq
        rw [hhd q hq]
        exact (refused_iff (s.first o w) p _ hwho).mp hr
      have hlast : p ∈ done ++ [p] := List.mem_append_right _ List.mem_cons_self
      rcases hsplit with h | h
      · have hst : (step o s (.put op' w d' m allow c)).2 = (put o s op' w d' m allow c).2 := rfl
        rw [hst] at h
        unfold put at h
        dsimp only at h
        split at h
        · simp at h
        · rename_i hr
          split at h
          · simp at h
          · have hd : d' = d := by
              rcases h with h | h
              · exact ((direct_writes _ _ _ _ _ h).1 op d (.inl rfl)).2.symm
              · exact ((direct_writes _ _ _ _ _ h).1 op d (.inr rfl)).2.symm
            refine ⟨p, List.mem_append_left _ hlast, hd, ?_⟩
            intro q hq
            have : (done ++ [p]).head? = some q := by
              rw [List.head?_append] at hq
              cases hz : (done ++ [p]).head? with
              | none => simp at hz
              | some z => rw [hz] at hq; simpa using hq
            exact hperm (by simpa using hr) q this
      · refine ih _ (done ++ [p]) ?_ ?_ h
        · rw [show (step o s (.put op' w d' m allow c)).1.who = some (s.who.getD w) from put_who o s op' w d' m allow c]
          cases hz : (done ++ [p]).head? with
          | none => simp at hz
          | some z => rw [Option.map_some, hhd z hz]
        · intro d'' hd''
          have hst : (step o s (.put op' w d' m allow c)).1 = (put o s op' w d' m allow c).1 := rfl
          rw [hst] at hd''
          unfold put at hd''
          dsimp only at hd''
          have old : (s.first o w).valueToSet = some d'' → ∃ p_1, p_1 ∈ done ++ [p] ∧ p_1.data = d'' ∧ ∀ q, (done ++ [p]).head? = some q → Permitted p_1 q.who := by
            intro hd''
            have : s.valueToSet = some d'' := by
              rw [← hd'']; unfold Cache.first; cases s.who <;> rfl
            obtain ⟨z, hz, e1, e2⟩ := hv d'' this
            exact ⟨z, List.mem_append_left _ hz, e1, hne z hz [p] e2⟩
          split at hd''
          · exact old hd''
          · rename_i hr
            split at hd''
            · simp only [Option.some.injEq] at hd''
              subst hd''
              exact ⟨p, hlast, rfl, hperm (by simpa using hr)⟩
            · exact old hd''
    | callPut c dis =>
      have hputs : puts (.callPut c dis :: es) = puts es := rfl
      rw [hputs]
      rcases hsplit with h | h
      · have hst : (step o s (.callPut c dis)).2 = (callPut s c dis).2 := rfl
        rw [hst] at h
        unfold callPut at h
        dsimp only at h
        split at h
        · simp at h
        · split at h
          · simp at h
          · rename_i d0 hd0
            split at h
            · simp at h
            · have : d0 = d := by
                rcases h with h | h <;> (simp only [List.mem_singleton] at h; split at h <;> simp at h <;> exact h.2.symm)
              subst this
              obtain ⟨z, hz, e1, e2⟩ := hv d0 hd0
              exact ⟨z, List.mem_append_left _ hz, e1, hne z hz _ e2⟩
      · refine ih _ done ?_ ?_ h
        · rw [← hw]
          show (callPut s c dis).1.who = s.who
          unfold callPut
          dsimp only
          split
          · rfl
          · split
            · rfl
            · split <;> rfl
        · intro d'' hd''
          have : (callPut s c dis).1.valueToSet = none := by
            unfold callPut
            dsimp only
            split
            · rfl
            · split
              · rfl
              · split <;> rfl
          rw [show (step o s (.callPut c dis)).1 = (callPut s c dis).1 from rfl, this] at hd''
          exact absurd hd'' (by simp)
    | callDone st =>
      have hputs : puts (.callDone st :: es) = puts es := rfl
      rw [hputs]
      have hs : (callDone s st).1 = { s with op := none } := by
        unfold callDone
        dsimp only
        split
        · rfl
        · cases st <;> rfl
      rcases hsplit with h | h
      · have hst : (step o s (.callDone st)).2 = (callDone s st).2 := rfl
        rw [hst] at h
        unfold callDone at h
        dsimp only at h
        split at h
        · simp at h
        · cases st <;> simp at h
      · refine ih _ done ?_ ?_ h
        · rw [show (step o s (.callDone st)).1 = (callDone s st).1 from rfl, hs]; exact hw
        · intro d'' hd''
          rw [show (step o s (.callDone st)).1 = (callDone s st).1 from rfl, hs] at hd''
          exact hv d'' hd''

/-- two users, a record of each kind; only the first may write -/
example : ∃ (es : List Event) (d : Nat), .write 1 d ∈ (run {} {} es).2 ∧ (puts es).length = 3 ∧ .write 2 7 ∉ (run {} {} es).2 :=
  ⟨[.put 0 5 9 true (· == 5) { record := 0, disabled := true }, .put 1 5 8 true (· == 5) { record := 0, passive := true }, .put 2 5 7 true (fun _ => false) { record := 0 }], 8,
    by decide⟩

theorem replies_append (op : Nat) (a b : List Out) : replies op (a ++ b) = replies op a ++ replies op b := List.filterMap_append
theorem writes_append (op : Nat) (a b : List Out) : writes op (a ++ b) = writes op a ++ writes op b := List.filterMap_append

theorem replies_none {op : Nat} {l : List Out} (h : ∀ b, .reply op b ∉ l) : replies op l = [] := by
  unfold replies
  rw [List.filterMap_eq_nil_iff]
  intro x hx
  cases x with
  | reply o b => dsimp only; rw [if_neg]; intro e; subst e; exact h b hx
  | _ => rfl

theorem writes_none {op : Nat} {l : List Out} (h : ∀ d, .write op d ∉ l ∧ .putField op d ∉ l) : writes op l = [] := by
  unfold writes
  rw [List.filterMap_eq_nil_iff]
  intro x hx
  cases x with
  | write o d => dsimp only; rw [if_neg]; intro e; subst e; exact (h d).1 hx
  | putField o d => dsimp only; rw [if_neg]; intro e; subst e; exact (h d).2 hx
  | _ => rfl

theorem direct_reply (f : Tri) (op d : Nat) (c : Chan) : (replies op (direct f op d c)).length = 1 := by
  unfold direct
  split
  · simp [replies]
  · split
    · simp [replies]
    · unfold post
      dsimp only
      split
      · split <;> simp [replies, List.filterMap_cons]
      · simp [replies]

/-- Whatever happens, in any order: a put is replied to at most once. -/
theorem C76_one_reply (o : Options) (es : List Event) (hd : ((puts es).map (·.op)).Nodup) (op : Nat) : (replies op (run o {} es).2).length ≤ 1 := by
  suffices H : ∀ (es : List Event) (s : Cache), ((puts es).map (·.op)).Nodup →
      (op ∈ (puts es).map (·.op) → s.op ≠ some op ) →
      (replies op (run o s es).2).length ≤ (if op ∈ (puts es).map (·.op) ∨ s.op = some op then 1 else 0) by
    have := H es {} hd (by intro _; simp)
    refine Nat.le_trans this ?_
    split <;> omega
  clear hd es
  intro es
  induction es with
  | nil => intro s _ _; simp [run, replies]
  | cons e es ih =>
    intro s hd hn
    simp only [run, replies_append, List.length_append]
    cases e with
    | put op' w d' m allow c =>
      have hputs : puts (.put op' w d' m allow c :: es) = ⟨op', w, d', m, allow, c⟩ :: puts es := rfl
      rw [hputs] at hd hn ⊢
      simp only [List.map_cons, List.nodup_cons] at hd
      simp only [List.map_cons, List.mem_cons] at hn ⊢
      have hstep : step o s (.put op' w d' m allow c) = put o s op' w d' m allow c := rfl
      rw [hstep]
      have hsop : (s.first o w).op = s.op := by unfold Cache.first; cases s.who <;> rfl
      have key : (replies op (put o s op' w d' m allow c).2).length = (if op = op' ∧ (put o s op' w d' m allow c).1.op ≠ some op then 1 else 0) ∧
          ((put o s op' w d' m allow c).1.op = s.op ∨ (put o s op' w d' m allow c).1.op = some op') := by
        have hrep : ∀ l : List Out, (∀ x ∈ l, ∀ o' b, x = .reply o' b → o' = op') → (replies op' l).length = 1 → s.op ≠ some op ∨ op ≠ op' →
            (replies op l).length = (if op = op' ∧ s.op ≠ some op then 1 else 0) := by
          intro l h1 h2 h3
          by_cases e : op = op'
          · subst e
            rcases h3 with h3 | h3
            · rw [if_pos ⟨rfl, h3⟩, h2]
            · exact absurd rfl h3
          · rw [if_neg (fun h => e h.1), replies_none (fun b hb => e (h1 _ hb op b rfl))]; rfl
        have h3 : s.op ≠ some op ∨ op ≠ op' := by
          by_cases e : op = op'
          · exact .inl (hn (.inl e))
          · exact .inr e
        unfold put
        dsimp only
        split
        · dsimp only; rw [hsop]
          refine ⟨hrep _ ?_ (by simp [replies]) h3, .inl rfl⟩
          intro x hx o' b e; simp only [List.mem_singleton] at hx; subst hx; cases e; rfl
        · split
          · refine ⟨?_, .inr rfl⟩
            by_cases e : op = op'
            · simp [e, replies]
            · simp [e, replies]
          · dsimp only; rw [hsop]
            exact ⟨hrep _ (fun x hx => (direct_writes _ _ _ _ x hx).2) (direct_reply _ _ _ _) h3, .inl rfl⟩
      have hi := ih (put o s op' w d' m allow c).1 hd.2 (by
        intro hm
        rcases key.2 with e | e
        · rw [e]; exact hn (.inr hm)
        · rw [e]; intro e2; cases e2; exact hd.1 hm)
      rw [key.1]
      by_cases e : op = op'
      · subst e
        have hm : op ∉ (puts es).map (·.op) := hd.1
        rw [if_pos (show (op = op ∨ op ∈ (puts es).map (·.op)) ∨ s.op = some op from .inl (.inl rfl))]
        by_cases e2 : (put o s op w d' m allow c).1.op = some op
        · rw [if_neg (show ¬ (op = op ∧ (put o s op w d' m allow c).1.op ≠ some op) from fun h => h.2 e2)]
          rw [if_pos (.inr e2)] at hi
          omega
        · rw [if_neg (not_or.mpr ⟨hm, e2⟩)] at hi
          split <;> omega
      · rw [if_neg (fun h => e h.1)]
        refine Nat.le_trans (by rw [Nat.zero_add]; exact hi) ?_
        have : (op ∈ (puts es).map (·.op) ∨ (put o s op' w d' m allow c).1.op = some op) → ((op = op' ∨ op ∈ (puts es).map (·.op)) ∨ s.op = some op) := by
          rintro (h | h)
          · exact .inl (.inr h)
          · rcases key.2 with e2 | e2
            · exact .inr (e2 ▸ h)
            · rw [e2] at h; cases h; exact absurd rfl e
        by_cases h : (op ∈ (puts es).map (·.op) ∨ (put o s op' w d' m allow c).1.op = some op)
        · rw [if_pos h, if_pos (this h)]; exact Nat.le_refl _
        · rw [if_neg h]; exact Nat.zero_le _
    | callPut c dis =>
      have hputs : puts (.callPut c dis :: es) = puts es := rfl
      rw [hputs] at hd hn ⊢
      have e1 : (step o s (.callPut c dis)).1.op = s.op ∧ ∀ b, .reply op b ∉ (step o s (.callPut c dis)).2 := by
        show (callPut s c dis).1.op = s.op ∧ ∀ b, .reply op b ∉ (callPut s c dis).2
        unfold callPut
        dsimp only
        split
        · simp
        · split
          · simp
          · split
            · simp
            · refine ⟨rfl, ?_⟩
              intro b h
              simp only [List.mem_singleton] at h
              split at h <;> cases h
      rw [replies_none e1.2]
      have := ih (step o s (.callPut c dis)).1 hd (by rw [e1.1]; exact hn)
      rw [e1.1] at this
      simpa using this
    | callDone st =>
      have hputs : puts (.callDone st :: es) = puts es := rfl
      rw [hputs] at hd hn ⊢
      have e1 : (step o s (.callDone st)).1.op = none ∧ ((replies op (step o s (.callDone st)).2).length ≤ (if s.op = some op then 1 else 0)) := by
        show (callDone s st).1.op = none ∧ (replies op (callDone s st).2).length ≤ (if s.op = some op then 1 else 0)
        unfold callDone
        dsimp only
        cases hs : s.op with
        | none => simp [replies]
        | some op' =>
          have : (some op' = some op) ↔ op' = op := by simp
          simp only [this]
          cases st <;> by_cases e : op' = op <;> simp [replies, e]
      have hi := ih (step o s (.callDone st)).1 hd (by rw [e1.1]; intro _; simp)
      rw [e1.1] at hi
      have h2 := e1.2
      by_cases hs : s.op = some op
      · rw [if_pos (.inr hs)]
        have hm : op ∉ (puts es).map (·.op) := fun h => hn h hs
        rw [if_neg (not_or.mpr ⟨hm, nofun⟩)] at hi
        rw [if_pos hs] at h2
        omega
      · rw [if_neg hs] at h2
        have : (op ∈ (puts es).map (·.op) ∨ none = some op) ↔ (op ∈ (puts es).map (·.op) ∨ s.op = some op) := by simp [hs]
        simp only [this] at hi
        omega

/-- A put to a record which does not accept changes, or by a user who may not write, does nothing to the record, and the client is told. -/
theorem C76_refused (o : Options) (s : Cache) (p : APut) (h : ¬ Permitted p (s.who.getD p.who)) : (step o s p.event).2 = [.reply p.op false] := by
  show (put o s p.op p.who p.data p.marked p.allow p.chan).2 = _
  unfold put
  dsimp only
  have : refused (s.first o p.who) p.allow p.chan = true := by
    cases hr : refused (s.first o p.who) p.allow p.chan with
    | true => rfl
    | false => exact absurd ((refused_iff _ p _ (first_who o s p.who)).mp hr) h
  rw [if_pos this]

/-- the options are those of the request at any time -/
def Kept (o : Options) (s : Cache) : Prop := s.who ≠ none → s.force = o.process ∧ s.doWait = (if o.process = .unset then o.block else false)

theorem first_kept (o : Options) (s : Cache) (h : Kept o s) (w : Nat) :
    (s.first o w).force = o.process ∧ (s.first o w).doWait = (if o.process = .unset then o.block else false) := by
  unfold Cache.first
  cases hs : s.who with
  | none => exact ⟨rfl, rfl⟩
  | some _ => exact h (by rw [hs]; exact nofun)

theorem step_kept (o : Options) (s : Cache) (h : Kept o s) (e : Event) : Kept o (step o s e).1 := by
  cases e with
  | put op w d m allow c =>
    intro _
    show (put o s op w d m allow c).1.force = _ ∧ (put o s op w d m allow c).1.doWait = _
    unfold put
    dsimp only
    split
    · exact first_kept o s h w
    · split <;> exact first_kept o s h w
  | callPut c dis =>
    show Kept o (callPut s c dis).1
    unfold callPut
    dsimp only
    split
    · exact h
    · split
      · exact h
      · split <;> exact h
  | callDone st =>
    show Kept o (callDone s st).1
    unfold callDone
    dsimp only
    split
    · exact h
    · cases st <;> exact h

theorem run_kept (o : Options) : ∀ (es : List Event) (s : Cache), Kept o s → Kept o (run o s es).1
  | [], _, h => h
  | e :: es, s, h => run_kept o es _ (step_kept o s h e)

/-- After any history: a permitted put which sends a value, without waiting, writes this value, then has the record processed if it is to be, and is replied to without error,
unless the value cannot be written, when nothing is, or processing fails, and the client is told.
Missing: a put which sends no value, `C76_unmarked`; links, `C76_link`. -/
theorem C76_partial (o : Options) (es : List Event) (p : APut) (hb : o.block = false ∨ o.process = .no)
    (hp : Permitted p ((run o {} es).1.who.getD p.who)) (hm : p.marked = true) (hl : p.chan.link = false) :
    (p.chan.putFails = true → (step o (run o {} es).1 p.event).2 = [.reply p.op false]) ∧
    (p.chan.putFails = false → ¬ Processes o.process p.chan → (step o (run o {} es).1 p.event).2 = [.write p.op p.data, .reply p.op true]) ∧
    (p.chan.putFails = false → Processes o.process p.chan → (step o (run o {} es).1 p.event).2 =
      if p.chan.active then [.write p.op p.data, .reprocess p.op, .reply p.op true] else [.write p.op p.data, .process p.op, .reply p.op (!p.chan.processFails)]) := by
  have hk := run_kept o es {} (by intro h; exact absurd rfl h)
  generalize (run o {} es).1 = s at hk hp ⊢
  have hst : (step o s p.event).2 = direct o.process p.op p.data p.chan := by
    show (put o s p.op p.who p.data p.marked p.allow p.chan).2 = _
    unfold put
    dsimp only
    have := first_kept o s hk p.who
    rw [if_neg (by rw [(refused_iff _ p _ (first_who o s p.who)).mpr hp]; simp), this.1, this.2]
    have hw : (if o.process = .unset then o.block else false) = false := by
      rcases hb with h | h <;> simp [h]
    rw [hw]; simp
  rw [hst]
  unfold direct post
  have hiff : (p.chan.isProc || decide (o.process = .yes) || (p.chan.passive && decide (o.process = .unset))) = true ↔ Processes o.process p.chan := by
    unfold Processes
    cases p.chan.isProc <;> cases p.chan.passive <;> cases o.process <;> simp
  refine ⟨?_, ?_, ?_⟩
  · intro h; rw [if_pos h]
  · intro h hn
    rw [if_neg (by simp [h]), if_neg (by simp [hl])]
    dsimp only
    rw [if_neg (fun h => hn (hiff.mp h))]; rfl
  · intro h hn
    rw [if_neg (by simp [h]), if_neg (by simp [hl])]
    dsimp only
    rw [if_pos (hiff.mpr hn)]
    split <;> rfl

example : ∃ (o : Options) (p : APut), (o.block = false ∨ o.process = .no) ∧ Permitted p (({} : Cache).who.getD p.who) ∧ p.marked = true ∧ p.chan.link = false ∧
    p.chan.putFails = false ∧ Processes o.process p.chan :=
  ⟨{}, ⟨1, 5, 8, true, (· == 5), { record := 0, passive := true }⟩, .inl rfl, ⟨rfl, rfl, rfl⟩, rfl, rfl, rfl, .inr (.inr ⟨rfl, rfl⟩)⟩

/-- After any history: a permitted put which is to wait for processing does nothing but ask epics-base for it. -/
theorem C76_waits (o : Options) (es : List Event) (p : APut) (hb : o.block = true) (hu : o.process = .unset)
    (hp : Permitted p ((run o {} es).1.who.getD p.who)) : (step o (run o {} es).1 p.event).2 = [.notify p.op p.marked] := by
  have hk := run_kept o es {} (by intro h; exact absurd rfl h)
  generalize (run o {} es).1 = s at hk hp ⊢
  show (put o s p.op p.who p.data p.marked p.allow p.chan).2 = _
  unfold put
  dsimp only
  have := first_kept o s hk p.who
  rw [if_neg (by rw [(refused_iff _ p _ (first_who o s p.who)).mpr hp]; simp), this.2, if_pos hu, hb]
  simp

/-- the outputs of one put alone are its own -/
theorem episode_own (o : Options) (s : Cache) (x : APut × Calls) (y : Out) (hy : y ∈ (episode o s x).2) :
    (∀ o' d', (y = .write o' d' ∨ y = .putField o' d') → o' = x.1.op) ∧ (∀ o' b, y = .reply o' b → o' = x.1.op) := by
  obtain ⟨p, q⟩ := x
  simp only [episode, List.mem_append] at hy
  have hst : step o s p.event = put o s p.op p.who p.data p.marked p.allow p.chan := rfl
  rw [hst] at hy
  unfold put at hy
  dsimp only at hy
  by_cases hr : refused (s.first o p.who) p.allow p.chan = true
  · simp only [if_pos hr] at hy
    simp [run] at hy
    subst hy; simp
  · simp only [if_neg hr] at hy
    by_cases hw : (s.first o p.who).doWait = true
    · simp only [if_pos hw] at hy
      cases hm : p.marked with
      | true =>
        simp only [hm, List.mem_singleton, if_true, run, step, callPut, callDone, List.append_nil] at hy
        rcases hy with rfl | hy
        · simp
        · by_cases h1 : q.disabled = true
          · simp only [h1, if_true, List.nil_append] at hy
            cases hq : q.status <;> simp [hq] at hy <;> (subst hy; simp)
          · by_cases h2 : q.chan.putFails = true
            · simp only [if_neg h1, if_pos h2, List.cons_append, List.mem_cons, List.nil_append] at hy
              rcases hy with rfl | hy
              · simp
              · cases hq : q.status <;> simp [hq] at hy <;> (subst hy; simp)
            · simp only [if_neg h1, if_neg h2, List.cons_append, List.mem_cons, List.nil_append, Option.getD_some] at hy
              rcases hy with rfl | hy
              · split <;> simp
              · cases hq : q.status <;> simp [hq] at hy <;> (subst hy; simp)
      | false =>
        simp [hm, run, step, callDone] at hy
        rcases hy with rfl | hy
        · simp
        · cases hq : q.status <;> simp [hq] at hy <;> (subst hy; simp)
    · simp only [if_neg hw] at hy
      have n1 : Out.notify p.op true ∉ direct (s.first o p.who).force p.op p.data p.chan ∧ Out.notify p.op false ∉ direct (s.first o p.who).force p.op p.data p.chan := by
        unfold direct post
        split
        · simp
        · split
          · simp
          · dsimp only
            split
            · split <;> simp
            · simp
      rw [if_neg n1.1, if_neg n1.2] at hy
      simp only [run, List.not_mem_nil, or_false] at hy
      have := direct_writes _ _ _ _ _ hy
      exact ⟨fun o' d' h => (this.1 o' d' h).1, this.2⟩

/-- one put alone is replied to once, and written once if it sends a value and the reply is positive -/
theorem episode_once (o : Options) (s : Cache) (x : APut × Calls) (hf : x.2.Fine) :
    ∃ ok, replies x.1.op (episode o s x).2 = [ok] ∧ (ok = true → x.1.marked = true → writes x.1.op (episode o s x).2 = [x.1.data]) := by
  obtain ⟨p, q⟩ := x
  obtain ⟨f1, f2, f3⟩ := hf
  dsimp only at f1 f2 f3 ⊢
  have hst : step o s p.event = put o s p.op p.who p.data p.marked p.allow p.chan := rfl
  simp only [episode, hst]
  unfold put
  dsimp only
  by_cases hr : refused (s.first o p.who) p.allow p.chan = true
  · simp only [if_pos hr]
    exact ⟨false, by simp [run, replies], nofun⟩
  · simp only [if_neg hr]
    by_cases hw : (s.first o p.who).doWait = true
    · simp only [if_pos hw]
      cases hm : p.marked with
      | true =>
        simp only [List.mem_singleton, if_true, run, step, callPut, callDone, List.append_nil]
        by_cases h1 : q.disabled = true
        · refine ⟨false, ?_, nofun⟩
          have := f2 h1
          simp only [h1, if_true]
          cases hq : q.status <;> simp_all [replies]
        · have h1' : q.disabled = false := by simpa using h1
          have h2 := f3 h1'
          simp only [if_neg h1, h2, Bool.false_eq_true, if_false, Option.getD_some]
          refine ⟨decide (q.status = .ok), ?_, ?_⟩
          · cases hl : q.chan.link <;> cases hq : q.status <;> simp_all [replies]
          · intro _ _
            cases hl : q.chan.link <;> cases hq : q.status <;> simp_all [writes]
      | false =>
        refine ⟨decide (q.status = .ok), ?_, nofun⟩
        rw [if_neg (by simp), if_pos (by simp)]
        simp only [run, step, callDone]
        cases hq : q.status <;> simp_all [replies]
    · simp only [if_neg hw]
      have n1 : Out.notify p.op true ∉ direct (s.first o p.who).force p.op p.data p.chan ∧ Out.notify p.op false ∉ direct (s.first o p.who).force p.op p.data p.chan := by
        unfold direct post
        split
        · simp
        · split
          · simp
          · dsimp only
            split
            · split <;> simp
            · simp
      rw [if_neg n1.1, if_neg n1.2]
      simp only [run, List.append_nil]
      unfold direct
      split
      · exact ⟨false, by simp [replies], nofun⟩
      · split
        · exact ⟨true, by simp [replies], by intro _ _; simp [writes]⟩
        · unfold post
          dsimp only
          split
          · split
            · exact ⟨true, by simp [replies], by intro _ _; simp [writes]⟩
            · exact ⟨!p.chan.processFails, by simp [replies, List.filterMap_cons], by intro _ _; simp [writes, List.filterMap_cons]⟩
          · exact ⟨true, by simp [replies], by intro _ _; simp [writes]⟩

theorem episodes_own (o : Options) : ∀ (l : List (APut × Calls)) (s : Cache) (y : Out), y ∈ (episodes o s l).2 →
    (∀ o' d', (y = .write o' d' ∨ y = .putField o' d') → o' ∈ l.map (·.1.op)) ∧ (∀ o' b, y = .reply o' b → o' ∈ l.map (·.1.op))
  | [], _, _, h => absurd h List.not_mem_nil
  | x :: l, s, y, h => by
    simp only [episodes, List.mem_append] at h
    rcases h with h | h
    · have := episode_own o s x y h
      exact ⟨fun o' d' e => by rw [this.1 o' d' e]; exact List.mem_cons_self, fun o' b e => by rw [this.2 o' b e]; exact List.mem_cons_self⟩
    · have := episodes_own o l _ y h
      exact ⟨fun o' d' e => List.mem_cons_of_mem _ (this.1 o' d' e), fun o' b e => List.mem_cons_of_mem _ (this.2 o' b e)⟩

/-- Any puts, one after the other, with whatever options: each of them is replied to exactly once, and if the reply is positive and it sent a value, exactly this value was
written for it, once.
Missing: puts which overlap, `C76_lost`; a value which cannot be converted, `C76_escapes`. -/
theorem C76_replied_partial (o : Options) (l : List (APut × Calls)) (hd : (l.map (·.1.op)).Nodup) (hf : ∀ x ∈ l, x.2.Fine) :
    ∀ x ∈ l, ∃ ok, replies x.1.op (episodes o {} l).2 = [ok] ∧ (ok = true → x.1.marked = true → writes x.1.op (episodes o {} l).2 = [x.1.data]) := by
  generalize ({} : Cache) = s
  induction l generalizing s with
  | nil => intro x hx; exact absurd hx List.not_mem_nil
  | cons z l ih =>
    intro x hx
    simp only [List.map_cons, List.nodup_cons] at hd
    simp only [episodes, replies_append, writes_append]
    rcases List.mem_cons.mp hx with rfl | hx
    · obtain ⟨ok, e1, e2⟩ := episode_once o s x (hf x List.mem_cons_self)
      have h1 : replies x.1.op (episodes o (episode o s x).1 l).2 = [] :=
        replies_none fun b hb => hd.1 ((episodes_own o l _ _ hb).2 _ b rfl)
      have h2 : writes x.1.op (episodes o (episode o s x).1 l).2 = [] :=
        writes_none fun d => ⟨fun hb => hd.1 ((episodes_own o l _ _ hb).1 _ d (.inl rfl)), fun hb => hd.1 ((episodes_own o l _ _ hb).1 _ d (.inr rfl))⟩
      rw [h1, h2]
      exact ⟨ok, by rw [e1]; rfl, fun a b => by rw [e2 a b]; rfl⟩
    · obtain ⟨ok, e1, e2⟩ := ih hd.2 (fun y hy => hf y (List.mem_cons_of_mem _ hy)) (episode o s z).1 x hx
      have hne : x.1.op ≠ z.1.op := fun e => hd.1 (e ▸ List.mem_map_of_mem (f := fun y : APut × Calls => y.1.op) hx)
      have h1 : replies x.1.op (episode o s z).2 = [] :=
        replies_none fun b hb => hne ((episode_own o s z _ hb).2 _ b rfl)
      have h2 : writes x.1.op (episode o s z).2 = [] :=
        writes_none fun d => ⟨fun hb => hne ((episode_own o s z _ hb).1 _ d (.inl rfl)), fun hb => hne ((episode_own o s z _ hb).1 _ d (.inr rfl))⟩
      rw [h1, h2]
      exact ⟨ok, e1, e2⟩

/-- a put which waits, and fails, between two which are fine -/
example : let c : Chan := { record := 0 }
    let l : List (APut × Calls) := [(⟨1, 5, 8, true, (· == 5), c⟩, ⟨c, false, .ok⟩), (⟨2, 5, 9, true, (· == 5), c⟩, ⟨c, true, .putDisabled⟩), (⟨3, 5, 8, true, (· == 5), c⟩, ⟨c, false, .ok⟩)]
    (l.map (·.1.op)).Nodup ∧ (∀ x ∈ l, x.2.Fine) ∧
    (episodes { block := true } {} l).2 = [.notify 1 true, .write 1 8, .reply 1 true, .notify 2 true, .reply 2 false, .notify 3 true, .write 3 8, .reply 3 true] := by
  refine ⟨by decide, ?_, by decide⟩
  intro x hx
  simp only [List.mem_cons, List.not_mem_nil, or_false] at hx
  rcases hx with rfl | rfl | rfl <;> exact ⟨by decide, by decide, by decide⟩

/-- a put which sends something, but not the field "value", sets the record to the default of this field, 0 -/
theorem C76_unmarked (p : APut) (hm : p.marked = false) (hz : p.data = 0) (hp : Permitted p p.who) (hl : p.chan.link = false) (hf : p.chan.putFails = false) :
    .write p.op 0 ∈ (step {} {} p.event).2 := by
  have hst : step {} {} p.event = put {} {} p.op p.who p.data p.marked p.allow p.chan := rfl
  rw [hst]
  unfold put
  dsimp only
  rw [if_neg (by rw [(refused_iff _ p _ (first_who {} {} p.who)).mpr hp]; simp), if_neg (by simp [Cache.first])]
  unfold direct
  rw [if_neg (by simp [hf]), if_neg (by simp [hl]), hz]
  exact List.mem_cons_self

/-- when a put which waits is canceled, and the client puts again, no reply is ever made to one of them, and what was sent first is not written -/
theorem C76_lost : let c : Chan := { record := 0 }
    let es : List Event := [.put 1 5 8 true (· == 5) c, .put 2 5 9 true (· == 5) c, .callPut c false, .callDone .ok]
    (run { block := true } {} es).2 = [.notify 1 true, .notify 2 true, .write 2 9, .reply 2 true] := by decide

/-- a value which cannot be converted, with `block=true`: an exception leaves a callback called by C code -/
theorem C76_escapes : let c : Chan := { record := 0, putFails := true }
    (run { block := true } {} [.put 1 5 8 true (· == 5) c, .callPut c false]).2 = [.notify 1 true, .escapes] := by decide

/-- with `process=true` a client is not made to wait, even if it asks with `block=true`: it is replied to when processing was begun -/
theorem C76_not_waited (es : List Event) (p : APut) (hp : Permitted p ((run { block := true, process := .yes } {} es).1.who.getD p.who))
    (hl : p.chan.link = false) (hf : p.chan.putFails = false) (hpf : p.chan.processFails = false) :
    .reply p.op true ∈ (step { block := true, process := .yes } (run { block := true, process := .yes } {} es).1 p.event).2 := by
  have hk := run_kept { block := true, process := .yes } es {} (by intro h; exact absurd rfl h)
  generalize (run { block := true, process := .yes } {} es).1 = s at hk hp ⊢
  show _ ∈ (put _ s p.op p.who p.data p.marked p.allow p.chan).2
  unfold put
  dsimp only
  have := first_kept _ s hk p.who
  rw [if_neg (by rw [(refused_iff _ p _ (first_who _ s p.who)).mpr hp]; simp), this.2, if_neg (by simp)]
  unfold direct post
  rw [if_neg (by simp [hf]), if_neg (by simp [hl]), this.1]
  dsimp only
  rw [if_pos (by simp)]
  split <;> simp [hpf]

/-- a put to a link is not followed by processing, even with `process=true` -/
theorem C76_link : let c : Chan := { record := 0, link := true, passive := true }
    (run { process := .yes } {} [.put 1 5 8 true (· == 5) c]).2 = [.putField 1 8, .reply 1 true] ∧ Processes .yes c := by
  exact ⟨by decide, .inr (.inl rfl)⟩

/-- a client which has become someone else is still allowed what it was when it first put -/
theorem C76_identity : let c : Chan := { record := 0 }
    (run {} {} [.put 1 5 8 true (· == 5) c, .put 2 6 9 true (· == 5) c]).2 = [.write 1 8, .reply 1 true, .write 2 9, .reply 2 true] := by decide

end Pvxs.Props.RecPut
