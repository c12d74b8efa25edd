import Verif.Lemmas.ClientMon
/-
Client subscriptions: the end of the stream, acknowledgements, stalls, pointers.
-/
namespace Pvxs.ClientMon
open Spec Spec.CMon

theorem settled_eq (o : Sub) (f : Sub → Sub × List Out) :
    ∃ c outs0, (outs0 = [] ∨ outs0 = [.called]) ∧ settled o f = ((f { o with owed := c }).1, outs0 ++ (f { o with owed := c }).2) := by
  obtain ⟨c, outs, he, ho⟩ := doNotify_eq o
  refine ⟨c, outs, ho, ?_⟩
  unfold settled
  rw [he]

theorem deliver_eq (o : Sub) : step o .deliver = settled o fun o => (o, []) := by simp [step, settled]

/-! Finished is the last -/

theorem finished_only_last (o : Sub) (latest : Nat → Nat) (e : Ev) : .exc .finished ∉ (arrives o latest e).dropLast := by
  cases e with
  | msg r i =>
    simp only [arrives]
    split
    · split
      · split <;> simp
      · cases r.final
        · simp only [Bool.false_eq_true, if_false, List.append_nil]
          split
          · simp
          · split <;> simp
        · rw [if_pos rfl, List.dropLast_concat]
          split
          · simp
          · split <;> simp
    · split <;> simp
  | up => simp only [arrives]; split <;> simp
  | down => simp only [arrives]; split <;> simp
  | _ => simp [arrives]

theorem finished_last {o : Sub} (hI : Inv o) (latest : Nat → Nat) (es : List Ev) : .exc .finished ∉ (stream o latest es).dropLast := by
  induction es generalizing o latest with
  | nil => simp [stream]
  | cons e es ih =>
    simp only [stream]
    by_cases hf : .exc .finished ∈ arrives o latest e
    · rw [stream_done (finished_step hI latest e hf), List.append_nil]
      exact finished_only_last o latest e
    · intro hm
      rcases List.eq_nil_or_concat (stream (step o e).1 (latestAfter o latest e) es) with h | ⟨l, x, h⟩
      · rw [h, List.append_nil] at hm
        exact hf (List.dropLast_subset _ hm)
      · have hi := ih (inv_step hI e) (latestAfter o latest e)
        rw [h, List.concat_eq_append] at hm hi
        rw [← List.append_assoc, List.dropLast_concat] at hm
        rw [List.dropLast_concat] at hi
        rcases List.mem_append.mp hm with hm | hm
        · exact hf hm
        · exact hi hm

/-! what was acknowledged -/

theorem acked_append (a b : List Out) : acked (a ++ b) = acked a + acked b := by simp [acked]

theorem acked_of_called {outs : List Out} (h : outs = [] ∨ outs = [.called]) : acked outs = 0 := by rcases h with rfl | rfl <;> rfl

/-- popped and not acknowledged yet: `unack` -/
def Bal (o o' : Sub) (outs : List Out) : Prop := acked outs + o'.unack = o.unack + (popped outs).length

theorem bal_popLoop (n : Nat) : ∀ (first : Bool) {o : Sub}, o.pipeline = true → Bal o (popLoop n first o).1 (popLoop n first o).2 := by
  induction n with
  | zero => intro first o _; unfold Bal; simp [popLoop, acked, popped]
  | succ n ih =>
    intro first o hp
    have hh : ∀ q, (popHead o q).unack = o.unack + 1 ∧ (popHead o q).pipeline = true := by
      intro q; unfold popHead; rw [if_pos hp]; exact ⟨rfl, hp⟩
    unfold popLoop
    split
    · unfold Bal; simp [acked, ackOf, popped]
    · split
      · unfold Bal; simp [acked, ackOf, popped, hh]
      · unfold Bal; simp [acked, ackOf, popped]
    · rename_i u rest _
      have := ih false (hh rest).2
      unfold Bal at this ⊢
      rw [(hh rest).1] at this
      generalize popLoop n false (popHead o rest) = y at this ⊢
      show acked ([.popped (.data u)] ++ y.2) + _ = o.unack + (popped ([.popped (.data u)] ++ y.2)).length
      rw [acked_append, popped_append, List.length_append]
      show 0 + acked y.2 + y.1.unack = o.unack + (1 + (popped y.2).length)
      omega

theorem bal_settled {o : Sub} (f : Sub → Sub × List Out) (hf : ∀ c, Bal { o with owed := c } (f { o with owed := c }).1 (f { o with owed := c }).2) :
    Bal o (settled o f).1 (settled o f).2 := by
  obtain ⟨c, outs0, h0, he⟩ := settled_eq o f
  rw [he]
  have := hf c
  unfold Bal at this ⊢
  simp only [acked_append, popped_append, popped_of_called h0, acked_of_called h0, List.nil_append]
  simp only [Nat.zero_add]
  exact this

theorem bal_down (o : Sub) : (chanDown o).unack = o.unack := by
  have he := down_eff o
  generalize chanDown o = o' at he ⊢
  cases he <;> rfl

theorem bal_up (o : Sub) (hc : o.conn = true) : Bal o (createOperations o).1 (createOperations o).2 := by
  have he := up_eff o hc
  generalize (createOperations o).1 = o' at he ⊢
  generalize (createOperations o).2 = outs at he ⊢
  cases he <;> (unfold Bal; simp [acked, ackOf, popped])

theorem bal_msg (o : Sub) (r : Reply) (i : InitAct) : Bal o (msg o r i).1 (msg o r i).2 := by
  have hd := bal_down o
  have he := msg_eff o r i
  generalize (msg o r i).1 = o' at he ⊢
  generalize (msg o r i).2 = outs at he ⊢
  cases he with
  | close => unfold Bal; rw [hd]; simp [acked, ackOf, popped]
  | ready => unfold Bal; split <;> simp [acked, ackOf, popped]
  | readyFinal => unfold Bal; split <;> simp [acked, ackOf, popped]
  | initThrows => unfold Bal; split <;> simp [acked, ackOf, popped]
  | initCancels => unfold Bal; split <;> simp [acked, ackOf, popped]
  | initError => unfold Bal; split <;> simp [acked, ackOf, popped]
  | _ => unfold Bal; simp [acked, ackOf, popped]

theorem bal_step {o : Sub} (hp : o.pipeline = true) (e : Ev) : Bal o (step o e).1 (step o e).2 := by
  cases e with
  | up => exact bal_settled _ fun c => bal_up { o with owed := c, conn := true } rfl
  | down => exact bal_settled _ fun c => by have := bal_down { o with owed := c }; unfold Bal; simp [acked, ackOf, popped, this]
  | msg r i => exact bal_settled _ fun c => bal_msg _ r i
  | pause p =>
    refine bal_settled _ fun c => ?_
    simp only [pause]; split <;> cases p <;> (unfold Bal; simp [acked, ackOf, popped])
  | pop =>
    show Bal o (pop o).1 (pop o).2
    unfold pop popHead
    split
    · unfold Bal; simp [acked, ackOf, popped]
    · rw [if_pos hp]; unfold Bal; simp [acked, ackOf, popped]
  | popN n =>
    have := bal_popLoop (if n = 0 then o.queueSize else n) true hp
    show Bal o (popLoop (if n = 0 then o.queueSize else n) true o).1 ((popLoop (if n = 0 then o.queueSize else n) true o).2 ++ [.ret _])
    unfold Bal at this ⊢
    rw [acked_append, popped_append, List.length_append]
    show _ + 0 + _ = _ + (_ + 0)
    omega
  | cancel =>
    refine bal_settled _ fun c => ?_
    simp only [cancel, cancelImpl]; split <;> (unfold Bal; simp [acked, ackOf, popped])
  | drop =>
    refine bal_settled _ fun c => ?_
    simp only [cancelImpl]; split <;> (unfold Bal; simp [acked, ackOf, popped])
  | tick =>
    refine bal_settled _ fun c => ?_
    simp only [tickAck]
    split
    · unfold Bal; simp [acked, ackOf, popped]
    · split <;> (unfold Bal; simp [acked, ackOf, popped])
  | deliver => rw [deliver_eq]; exact bal_settled (fun o => (o, [])) fun c => by unfold Bal; simp [acked, ackOf, popped]

theorem bal_run {o : Sub} (hp : o.pipeline = true) (es : List Ev) : Bal o (run o es).1 (run o es).2 := by
  induction es generalizing o with
  | nil => unfold Bal; simp [run, acked, popped]
  | cons e es ih =>
    have h1 := bal_step hp e
    have h2 := ih ((same_step o e).pipeline.trans hp)
    unfold Bal at *
    simp only [run, acked_append, popped_append, List.length_append]
    omega

theorem bal_begin (p : Params) (fail up : Bool) : Bal (fresh p) (begin (fresh p) fail up).1 (begin (fresh p) fail up).2 := by
  cases fail
  · cases up
    · unfold Bal; simp [begin, fresh, createOperations, acked, ackOf, popped]
    · exact bal_up { fresh p with conn := true, pending := true } rfl
  · unfold Bal; simp [begin, fresh, acked, ackOf, popped]

/-! the window of a pipeline -/

theorem creditOuts_append (q c : Nat) (a b : List Out) : creditOuts q c (a ++ b) = creditOuts q (creditOuts q c a) b := by
  simp [creditOuts, List.foldl_append]

theorem creditOuts_called (q c : Nat) {outs : List Out} (h : outs = [] ∨ outs = [.called]) : creditOuts q c outs = c := by
  rcases h with rfl | rfl <;> rfl

theorem update_nonfinal {o : Sub} {r : Reply} {e : Option Entry} {cache : Nat → Nat} (hb : Body o r e cache) (hi : r.init = false) (hf : r.final = false) :
    ∃ u, e = some (.data u) := by
  cases hb with
  | error h => rw [success_final h hi] at hf; cases hf
  | data _ => exact ⟨_, rfl⟩
  | none hk hc => simp [Reply.carries, hk, hi, hf] at hc

theorem queueAfter_length {o : Sub} {r : Reply} {e : Option Entry} {cache : Nat → Nat} (hp : o.pipeline = true) (hb : Body o r e cache)
    (hi : r.init = false) (hf : r.final = false) : (queueAfter o r e).length = o.queue.length + 1 := by
  obtain ⟨u, rfl⟩ := update_nonfinal hb hi hf
  have := exact_queueAfter (A := o.queue) (P := []) rfl hp r (some (.data u))
  rw [List.nil_append] at this
  rw [← this]; simp [hf]

/-- the books of a pipelined subscription: `c` is what the server may send -/
structure Led (c : Nat) (o : Sub) : Prop where
  cred : o.state = .creating ∨ o.state = .idle ∨ o.state = .running → c = o.window
  made : o.state = .creating → o.queueSize ≤ o.window
  low : o.state = .creating ∨ o.state = .idle ∨ o.state = .running → o.queueSize ≤ o.window + o.queue.length + o.unack
  late : o.state = .creating ∨ o.state = .idle ∨ o.state = .running →
    o.unack < o.ackAt ∨ o.timer = true ∨ o.queueSize ≤ o.window + o.queue.length
  armed : o.state ≠ .done → o.ackPending = true → o.timer = true

theorem led_popHead {c : Nat} {o : Sub} (h : Led c o) (hp : o.pipeline = true) {e : Entry} {q : List Entry} (hq : o.queue = e :: q) : Led c (popHead o q) := by
  obtain ⟨h1, h2, h3, h4, h5⟩ := h
  have hl : o.queue.length = q.length + 1 := by rw [hq]; rfl
  unfold popHead
  rw [if_pos hp]
  refine ⟨h1, h2, fun hs => ?_, fun hs => ?_, fun hs => ?_⟩
  · have := h3 hs; simp only; omega
  · by_cases ha : o.ackAt ≤ o.unack + 1
    · have h6 := h5 (by simp only at hs; intro hd; rw [hd] at hs; simp at hs)
      refine Or.inr (Or.inl ?_)
      cases hap : o.ackPending with
      | true => simp [h6 hap]
      | false => simp [ha]
    · exact Or.inl (by simp only; omega)
  · have h6 := h5 hs
    cases hap : o.ackPending with
    | true => simp [h6 hap]
    | false => simp; exact fun ha => Or.inr ha

theorem pipeline_popHead (o : Sub) (q : List Entry) : (popHead o q).pipeline = o.pipeline := by unfold popHead; split <;> rfl

theorem led_popLoop (n : Nat) : ∀ (first : Bool) {c : Nat} {o : Sub}, Led c o → o.pipeline = true →
    Led c (popLoop n first o).1 ∧ creditOuts o.queueSize c (popLoop n first o).2 = c := by
  induction n with
  | zero => intro first c o h _; exact ⟨h, rfl⟩
  | succ n ih =>
    intro first c o h hp
    unfold popLoop
    split
    · exact ⟨⟨h.cred, h.made, h.low, h.late, h.armed⟩, rfl⟩
    · rename_i hq
      split
      · exact ⟨led_popHead h hp hq, rfl⟩
      · exact ⟨h, rfl⟩
    · rename_i u rest hq
      have := ih false (led_popHead h hp hq) ((pipeline_popHead o rest).trans hp)
      refine ⟨this.1, ?_⟩
      have hs : (popHead o rest).queueSize = o.queueSize := by unfold popHead; split <;> rfl
      rw [hs] at this
      exact this.2

theorem led_owed {c : Nat} {o : Sub} (h : Led c o) (b : Bool) : Led c { o with owed := b } := ⟨h.cred, h.made, h.low, h.late, h.armed⟩

theorem led_settled {c : Nat} {o : Sub} (h : Led c o) (f : Sub → Sub × List Out) (c' : Nat)
    (hf : ∀ b, Led c { o with owed := b } → Led (creditOuts o.queueSize c' (f { o with owed := b }).2) (f { o with owed := b }).1) :
    Led (creditOuts o.queueSize c' (settled o f).2) (settled o f).1 := by
  obtain ⟨b, outs0, h0, he⟩ := settled_eq o f
  rw [he]
  simp only [creditOuts_append, creditOuts_called _ _ h0]
  exact hf b (led_owed h b)

theorem led_down {c c' : Nat} {o : Sub} (h : Led c o) (hI : Inv o) : Led c' (chanDown o) := by
  have hI' := inv_chanDown hI
  have hr : (chanDown o).reg = false := by
    have he := down_eff o
    generalize chanDown o = o' at he ⊢
    cases he <;> rfl
  have : ¬ ((chanDown o).state = .creating ∨ (chanDown o).state = .idle ∨ (chanDown o).state = .running) := by
    intro hs; have := (hI'.busy hs).1; rw [hr] at this; cases this
  refine ⟨fun hs => absurd hs this, fun hs => absurd (Or.inl hs) this, fun hs => absurd hs this, fun hs => absurd hs this, ?_⟩
  have he := down_eff o
  have ha := h.armed
  generalize chanDown o = o' at he ⊢
  cases he <;> grind

theorem led_up {c : Nat} {o : Sub} (h : Led c o) (hp : o.pipeline = true) (hc : o.conn = true) :
    Led (creditOuts o.queueSize c (createOperations o).2) (createOperations o).1 := by
  have he := up_eff o hc
  generalize (createOperations o).1 = o' at he ⊢
  generalize (createOperations o).2 = outs at he ⊢
  cases he with
  | none _ => exact h
  | dead _ _ => exact ⟨h.cred, h.made, h.low, h.late, h.armed⟩
  | over _ _ _ => exact ⟨h.cred, h.made, h.low, h.late, h.armed⟩
  | init _ _ _ q b b' w hq hw =>
    rw [if_pos hp] at hw
    subst hw
    exact ⟨fun _ => rfl, fun _ => Nat.le_refl _, fun _ => by simp only; omega, fun _ => Or.inr (Or.inr (by simp only; omega)),
      fun _ => h.armed (by simp [*])⟩

theorem led_msg {c : Nat} {o : Sub} (h : Led c o) (hI : Inv o) (hp : o.pipeline = true) (r : Reply) (i : InitAct) :
    Led (creditOuts o.queueSize (if sends o (.msg r i) then c - 1 else c) (msg o r i).2) (msg o r i).1 := by
  have hd := fun c' => led_down (c' := c') h hI
  have he := msg_eff o r i
  generalize (msg o r i).1 = o' at he ⊢
  generalize (msg o r i).2 = outs at he ⊢
  obtain ⟨h1, h2, h3, h4, h5⟩ := h
  cases he with
  | ignore hk =>
    have : sends o (.msg r i) = false := by simp only [sends, Takes]; rcases hk with hk | hk <;> simp [hk]
    rw [this]
    exact ⟨h1, h2, h3, h4, h5⟩
  | crash hr hc hf =>
    have hfit : fits o r = false := by
      cases hx : fits o r
      · rfl
      · have := hI.fl (fits_live hx (carries_init hc).1); rw [hf] at this; cases this
    have : sends o (.msg r i) = false := by simp [sends, hfit]
    rw [this]
    exact ⟨h1, h2, h3, h4, h5⟩
  | close _ _ _ _ => exact hd _
  | ready hr ha hs hi hk hf hn =>
    have : sends o (.msg r i) = false := by simp [sends, hi]
    rw [this]
    have e1 := h1 (Or.inl hs)
    have e2 := h2 hs
    have e3 : creditOuts o.queueSize c (if o.autostart = true then [.sent .start] else []) = c := by split <;> rfl
    simp only [Bool.false_eq_true, if_false, e3]
    refine ⟨fun _ => e1, fun hx => ?_, fun _ => by simp only; omega, fun _ => Or.inr (Or.inr (by simp only; omega)), fun _ => h5 (by rw [hs]; simp)⟩
    simp only at hx
    split at hx <;> cases hx
  | update hr ha hs hi e cache hb n w b b' st rg ap hw hbc hst =>
    have : sends o (.msg r i) = true := by simp [sends, Takes, hr, ha, fits_update hs hi, hi]
    rw [this, if_pos rfl]
    rw [if_pos hp] at hw
    subst hw
    rcases hst with ⟨hf, rfl, rfl, rfl⟩ | ⟨hf, rfl, rfl, rfl⟩
    · exact ⟨by simp, by simp, by simp, by simp, by simp⟩
    · have hl := queueAfter_length hp hb hi hf
      have hs' : o.state = .creating ∨ o.state = .idle ∨ o.state = .running := Or.inr hs
      have e1 := h1 hs'
      have e3 := h3 hs'
      have e4 := h4 hs'
      refine ⟨fun _ => by simp only [creditOuts, List.foldl_nil]; omega, fun hx => ?_, fun _ => by simp only [hl]; omega, fun _ => ?_,
        fun _ => h5 (by rcases hs with hs | hs <;> rw [hs] <;> simp)⟩
      · simp only at hx; rcases hs with hs | hs <;> rw [hs] at hx <;> cases hx
      · simp only [hl]
        rcases e4 with e4 | e4 | e4
        · exact Or.inl e4
        · exact Or.inr (Or.inl e4)
        · exact Or.inr (Or.inr (by omega))
  | _ => exact ⟨by simp, by simp, by simp, by simp, by simp⟩

theorem led_step {c : Nat} {o : Sub} (h : Led c o) (hI : Inv o) (hp : o.pipeline = true) (hA : 1 ≤ o.ackAt) (e : Ev) :
    Led (creditStep o c e) (step o e).1 := by
  unfold creditStep
  cases e with
  | up => exact led_settled h _ c fun b hb => led_up (o := { o with owed := b, conn := true }) ⟨hb.cred, hb.made, hb.low, hb.late, hb.armed⟩ hp rfl
  | down => exact led_settled h _ c fun b hb => led_down hb ⟨hI.regc, hI.busy, hI.wait, hI.fl, hI.dead⟩
  | msg r i =>
    exact led_settled h _ _ fun b hb => led_msg (o := { o with owed := b }) hb ⟨hI.regc, hI.busy, hI.wait, hI.fl, hI.dead⟩ hp r i
  | pause p =>
    refine led_settled h _ c fun b hb => ?_
    simp only [pause]
    split
    · rename_i hk
      have hs : o.state = .creating ∨ o.state = .idle ∨ o.state = .running := by rcases hk with hk | hk <;> simp [hk.1]
      have : creditOuts o.queueSize c [Out.sent (if p = true then Msg.stop else Msg.start)] = c := by cases p <;> rfl
      rw [this]
      refine ⟨fun _ => h.cred hs, fun hx => ?_, fun _ => h.low hs, fun _ => h.late hs,
        fun _ => h.armed (by rcases hs with hs | hs | hs <;> rw [hs] <;> simp)⟩
      simp only at hx; split at hx <;> cases hx
    · exact hb
  | pop =>
    show Led (creditOuts o.queueSize c (pop o).2) (pop o).1
    unfold pop
    split
    · exact ⟨h.cred, h.made, h.low, h.late, h.armed⟩
    · rename_i hq; exact led_popHead h hp hq
  | popN n =>
    have := led_popLoop (if n = 0 then o.queueSize else n) true h hp
    show Led (creditOuts o.queueSize c ((popLoop (if n = 0 then o.queueSize else n) true o).2 ++ [.ret _])) (popLoop (if n = 0 then o.queueSize else n) true o).1
    rw [creditOuts_append, this.2]
    exact this.1
  | cancel =>
    refine led_settled h _ c fun b hb => ?_
    simp only [cancel, cancelImpl]; split <;> exact ⟨by simp, by simp, by simp, by simp, by simp⟩
  | drop =>
    refine led_settled h _ c fun b hb => ?_
    simp only [cancelImpl]; split <;> exact ⟨by simp, by simp, by simp, by simp, by simp⟩
  | tick =>
    refine led_settled h _ c fun b hb => ?_
    simp only [tickAck]
    split
    · exact hb
    · split
      · rename_i hk
        have hs : o.state = .creating ∨ o.state = .idle ∨ o.state = .running := Or.inr hk.1
        have e1 := h.cred hs
        have e3 := h.low hs
        refine ⟨fun _ => ?_, fun hx => ?_, fun _ => by simp only; omega, fun _ => Or.inl (by simp only; omega), fun _ hx => by cases hx⟩
        · show c + o.unack = _; simp only; omega
        · simp only at hx; rcases hk.1 with hs | hs <;> rw [hs] at hx <;> cases hx
      · rename_i hk
        refine ⟨h.cred, h.made, h.low, fun hs => ?_, fun _ hx => by cases hx⟩
        simp only at hs
        rcases hs with hs | hs
        · exact Or.inr (Or.inr (by have := h.made hs; simp only; omega))
        · have : o.unack = 0 := Classical.byContradiction fun hn => hk ⟨hs, hp, hn⟩
          exact Or.inl (by simp only; omega)
  | deliver =>
    rw [deliver_eq]
    exact led_settled h _ c fun b hb => hb

theorem led_run {c : Nat} {o : Sub} (h : Led c o) (hI : Inv o) (hp : o.pipeline = true) (hA : 1 ≤ o.ackAt) (es : List Ev) :
    Led (credit o c es) (run o es).1 := by
  induction es generalizing c o with
  | nil => exact h
  | cons e es ih =>
    have hs := same_step o e
    exact ih (led_step h hI hp hA e) (inv_step hI e) (hs.pipeline.trans hp) (by rw [hs.ackAt]; exact hA)

theorem led_begin (p : Params) (hp : p.pipeline = true) (fail up : Bool) :
    Led (creditOuts p.queueSize 0 (begin (fresh p) fail up).2) (begin (fresh p) fail up).1 := by
  cases fail
  · cases up
    · constructor <;> simp [begin, fresh, createOperations]
    · exact led_up (o := { fresh p with conn := true, pending := true }) ⟨by simp [fresh], by simp [fresh], by simp [fresh], by simp [fresh], by simp [fresh]⟩ hp rfl
  · constructor <;> simp [begin, fresh]

/-! one connection, without events for connections -/

structure Even (o : Sub) : Prop where
  first : o.state = .connecting → o.queue = [] ∧ o.unack = 0
  sum : o.state = .creating ∨ o.state = .idle ∨ o.state = .running → o.window + o.queue.length + o.unack = o.queueSize

theorem even_popHead {o : Sub} (h : Even o) (hp : o.pipeline = true) {e : Entry} {q : List Entry} (hq : o.queue = e :: q) : Even (popHead o q) := by
  obtain ⟨h1, h2⟩ := h
  have hl : o.queue.length = q.length + 1 := by rw [hq]; rfl
  unfold popHead
  rw [if_pos hp]
  refine ⟨fun hs => ?_, fun hs => ?_⟩
  · rw [hq] at h1; have := (h1 hs).1; cases this
  · have := h2 hs; simp only; omega

theorem even_popLoop (n : Nat) : ∀ (first : Bool) {o : Sub}, Even o → o.pipeline = true → Even (popLoop n first o).1 := by
  induction n with
  | zero => intro first o h _; exact h
  | succ n ih =>
    intro first o h hp
    unfold popLoop
    split
    · exact ⟨h.first, h.sum⟩
    · rename_i hq
      split
      · exact even_popHead h hp hq
      · exact h
    · rename_i u rest hq
      exact ih false (even_popHead h hp hq) ((pipeline_popHead o rest).trans hp)

theorem even_settled {o : Sub} (h : Even o) (f : Sub → Sub × List Out) (hn : Out.closed ∉ (settled o f).2)
    (hf : ∀ b, Even { o with owed := b } → Out.closed ∉ (f { o with owed := b }).2 → Even (f { o with owed := b }).1) : Even (settled o f).1 := by
  obtain ⟨b, outs0, h0, he⟩ := settled_eq o f
  rw [he] at hn ⊢
  exact hf b ⟨h.first, h.sum⟩ fun hm => hn (List.mem_append_right _ hm)

theorem even_up {o : Sub} (h : Even o) (hp : o.pipeline = true) (hm : o.maskConn = true) (hc : o.conn = true) : Even (createOperations o).1 := by
  have he := up_eff o hc
  generalize (createOperations o).1 = o' at he ⊢
  generalize (createOperations o).2 = outs at he
  cases he with
  | none _ => exact h
  | dead _ _ => exact ⟨h.first, h.sum⟩
  | over _ _ _ => exact ⟨h.first, h.sum⟩
  | init _ _ hs q b b' w hq hw =>
    rw [if_pos hp] at hw
    rcases hq with ⟨_, rfl, _⟩ | ⟨hm', _⟩
    · have := h.first hs
      refine ⟨by simp, fun _ => ?_⟩
      simp only [this.1, this.2, hw, List.length_nil]; omega
    · rw [hm] at hm'; cases hm'

theorem even_msg {c : Nat} {o : Sub} (h : Even o) (hL : Led c o) (hI : Inv o) (hp : o.pipeline = true) (r : Reply) (i : InitAct)
    (hw0 : sends o (.msg r i) = true → 0 < c) (hn : Out.closed ∉ (msg o r i).2) : Even (msg o r i).1 := by
  have he := msg_eff o r i
  generalize (msg o r i).1 = o' at he ⊢
  generalize (msg o r i).2 = outs at he hn
  obtain ⟨h1, h2⟩ := h
  cases he with
  | ignore hk => exact ⟨h1, h2⟩
  | crash hr hc hf => exact ⟨h1, h2⟩
  | close _ _ _ _ => simp at hn
  | ready hr ha hs hi hk hf hn =>
    refine ⟨fun hx => ?_, fun _ => h2 (Or.inl hs)⟩
    simp only at hx; split at hx <;> cases hx
  | update hr ha hs hi e cache hb n w b b' st rg ap hw hbc hst =>
    have hsd : sends o (.msg r i) = true := by simp [sends, Takes, hr, ha, fits_update hs hi, hi]
    have hc0 := hw0 hsd
    rw [hL.cred (Or.inr hs)] at hc0
    rw [if_pos hp] at hw
    subst hw
    rcases hst with ⟨hf, rfl, rfl, rfl⟩ | ⟨hf, rfl, rfl, rfl⟩
    · exact ⟨by simp, by simp⟩
    · have hl := queueAfter_length hp hb hi hf
      have e2 := h2 (Or.inr hs)
      refine ⟨fun hx => ?_, fun _ => by simp only [hl]; omega⟩
      simp only at hx; rcases hs with hs | hs <;> rw [hs] at hx <;> cases hx
  | _ => exact ⟨by simp, by simp⟩

theorem even_step {c : Nat} {o : Sub} (h : Even o) (hL : Led c o) (hI : Inv o) (hp : o.pipeline = true) (hm : o.maskConn = true) (e : Ev)
    (hd : e ≠ .down) (hw : sends o e = true → 0 < c) (hn : Out.closed ∉ (step o e).2) : Even (step o e).1 := by
  cases e with
  | up => exact even_settled h _ hn fun b hb _ => even_up (o := { o with owed := b, conn := true }) ⟨hb.first, hb.sum⟩ hp hm rfl
  | down => exact absurd rfl hd
  | msg r i =>
    exact even_settled h _ hn fun b hb hn => even_msg (o := { o with owed := b }) hb (led_owed hL b) ⟨hI.regc, hI.busy, hI.wait, hI.fl, hI.dead⟩ hp r i hw hn
  | pause p =>
    refine even_settled h _ hn fun b hb _ => ?_
    simp only [pause]
    split
    · rename_i hk
      refine ⟨fun hx => ?_, fun _ => h.sum (by rcases hk with hk | hk <;> simp [hk.1])⟩
      simp only at hx; split at hx <;> cases hx
    · exact hb
  | pop =>
    show Even (pop o).1
    unfold pop
    split
    · exact ⟨h.first, h.sum⟩
    · rename_i hq; exact even_popHead h hp hq
  | popN n => exact even_popLoop _ _ h hp
  | cancel =>
    refine even_settled h _ hn fun b hb _ => ?_
    simp only [cancel, cancelImpl]; split <;> exact ⟨by simp, by simp⟩
  | drop =>
    refine even_settled h _ hn fun b hb _ => ?_
    simp only [cancelImpl]; split <;> exact ⟨by simp, by simp⟩
  | tick =>
    refine even_settled h _ hn fun b hb _ => ?_
    simp only [tickAck]
    split
    · exact hb
    · split
      · rename_i hk
        have e2 := h.sum (Or.inr hk.1)
        refine ⟨fun hx => ?_, fun _ => by simp only; omega⟩
        simp only at hx; rcases hk.1 with hs | hs <;> rw [hs] at hx <;> cases hx
      · exact ⟨h.first, h.sum⟩
  | deliver =>
    rw [deliver_eq] at hn ⊢
    exact even_settled h _ hn fun b hb _ => hb

theorem even_run {c : Nat} {o : Sub} (h : Even o) (hL : Led c o) (hI : Inv o) (hp : o.pipeline = true) (hA : 1 ≤ o.ackAt) (hm : o.maskConn = true)
    (es : List Ev) (hd : ∀ e ∈ es, e ≠ .down) (hn : Out.closed ∉ (run o es).2) (hw : Within o c es) : Even (run o es).1 := by
  induction es generalizing c o with
  | nil => exact h
  | cons e es ih =>
    have hs := same_step o e
    simp only [run, List.mem_append, not_or] at hn
    exact ih (even_step h hL hI hp hm e (hd e (by simp)) hw.1 hn.1) (led_step hL hI hp hA e) (inv_step hI e) (hs.pipeline.trans hp)
      (Nat.le_trans hA (Nat.le_of_eq hs.ackAt.symm)) (hs.maskConn.trans hm) (fun e' he => hd e' (by simp [he])) hn.2 hw.2

theorem even_begin (p : Params) (hp : p.pipeline = true) (hm : p.maskConn = true) (up : Bool) : Even (begin (fresh p) false up).1 := by
  cases up
  · constructor <;> simp [begin, fresh, createOperations]
  · exact even_up (o := { fresh p with conn := true, pending := true }) ⟨by simp [fresh], by simp [fresh]⟩ hp hm rfl

/-! pointers -/

theorem startedOuts_append (b : Bool) (x y : List Out) : startedOuts b (x ++ y) = startedOuts (startedOuts b x) y := by
  simp [startedOuts, List.foldl_append]

theorem startedOuts_called (b : Bool) {outs : List Out} (h : outs = [] ∨ outs = [.called]) : startedOuts b outs = b := by
  rcases h with rfl | rfl <;> rfl

structure Pol (b : Bool) (o : Sub) : Prop where
  fine : o.crashed = false
  wait : o.pending = true → b = false
  fl : o.reg = true → b = true → o.fl = true

theorem pol_popHead {b : Bool} {o : Sub} (h : Pol b o) (q : List Entry) : Pol b (popHead o q) := by
  unfold popHead; split <;> exact ⟨h.fine, h.wait, h.fl⟩

theorem pol_popLoop (n : Nat) : ∀ (first : Bool) {b : Bool} {o : Sub}, Pol b o →
    Pol b (popLoop n first o).1 ∧ startedOuts b (popLoop n first o).2 = b := by
  induction n with
  | zero => intro first b o h; exact ⟨h, rfl⟩
  | succ n ih =>
    intro first b o h
    unfold popLoop
    split
    · exact ⟨⟨h.fine, h.wait, h.fl⟩, rfl⟩
    · split
      · exact ⟨pol_popHead h _, rfl⟩
      · exact ⟨h, rfl⟩
    · exact ih false (pol_popHead h _)

theorem pol_settled {b : Bool} {o : Sub} (h : Pol b o) (f : Sub → Sub × List Out)
    (hf : ∀ c, Pol b { o with owed := c } → Pol (startedOuts b (f { o with owed := c }).2) (f { o with owed := c }).1) :
    Pol (startedOuts b (settled o f).2) (settled o f).1 := by
  obtain ⟨c, outs0, h0, he⟩ := settled_eq o f
  rw [he]
  simp only [startedOuts_append, startedOuts_called _ h0]
  exact hf c ⟨h.fine, h.wait, h.fl⟩

theorem pol_up {b : Bool} {o : Sub} (h : Pol b o) (hc : o.conn = true) : Pol (startedOuts b (createOperations o).2) (createOperations o).1 := by
  have he := up_eff o hc
  generalize (createOperations o).1 = o' at he ⊢
  generalize (createOperations o).2 = outs at he ⊢
  cases he with
  | none _ => exact h
  | dead _ _ => exact ⟨h.fine, by simp, h.fl⟩
  | over hp _ _ => exact ⟨h.fine, by simp, fun _ hb => by rw [show b = true from hb] at h; have := h.wait hp; cases this⟩
  | init _ _ hs q b b' w hq hw => exact ⟨h.fine, by simp, fun _ hb => by cases hb⟩

theorem pol_down {b : Bool} {o : Sub} (h : Pol b o) : Pol false (chanDown o) := by
  have he := down_eff o
  generalize chanDown o = o' at he ⊢
  cases he <;> exact ⟨h.fine, fun _ => rfl, by simp⟩

theorem pol_msg {b : Bool} {o : Sub} (h : Pol b o) (hI : Inv o) (r : Reply) (i : InitAct) (hr : r.carries = true → b = true) :
    Pol (startedOuts b (msg o r i).2) (msg o r i).1 := by
  have hd := pol_down h
  have he := msg_eff o r i
  generalize (msg o r i).1 = o' at he ⊢
  generalize (msg o r i).2 = outs at he ⊢
  cases he with
  | ignore _ => exact h
  | crash hreg hc hf => have := h.fl hreg (hr hc); rw [hf] at this; cases this
  | close _ _ _ _ => exact hd
  | ready _ _ hs _ _ _ _ => exact ⟨h.fine, fun hx => (by rw [(hI.busy (Or.inl hs)).2.2] at hx; cases hx), fun _ _ => rfl⟩
  | readyFinal _ _ hs _ _ _ _ => exact ⟨h.fine, fun hx => (by rw [(hI.busy (Or.inl hs)).2.2] at hx; cases hx), by simp⟩
  | initThrows _ _ hs _ _ _ _ => exact ⟨h.fine, fun hx => (by rw [(hI.busy (Or.inl hs)).2.2] at hx; cases hx), by simp⟩
  | initCancels _ _ hs _ _ _ _ => exact ⟨h.fine, fun hx => (by rw [(hI.busy (Or.inl hs)).2.2] at hx; cases hx), by simp⟩
  | initError _ _ hs _ _ => exact ⟨h.fine, fun hx => (by rw [(hI.busy (Or.inl hs)).2.2] at hx; cases hx), by simp⟩
  | update hreg ha hs hi e cache hb n w b b' st rg ap hw hbc hst =>
    exact ⟨h.fine, h.wait, fun _ hb => h.fl hreg hb⟩

theorem pol_step {b : Bool} {o : Sub} (h : Pol b o) (hI : Inv o) (e : Ev) (hr : ∀ r i, e = .msg r i → r.carries = true → b = true) :
    Pol (startedAfter o b e) (step o e).1 := by
  cases e with
  | up => exact pol_settled h _ fun c hc => pol_up (o := { o with owed := c, conn := true }) ⟨hc.fine, hc.wait, hc.fl⟩ rfl
  | down =>
    obtain ⟨c, outs0, h0, he⟩ := settled_eq o fun o => (chanDown o, [])
    show Pol false (settled o fun o => (chanDown o, [])).1
    rw [he]
    exact pol_down (b := b) ⟨h.fine, h.wait, h.fl⟩
  | msg r i =>
    exact pol_settled h _ fun c hc => pol_msg (o := { o with owed := c }) hc ⟨hI.regc, hI.busy, hI.wait, hI.fl, hI.dead⟩ r i (hr r i rfl)
  | pause p =>
    refine pol_settled h _ fun c hc => ?_
    simp only [pause]
    split
    · rename_i hk
      have hs : o.state = .idle ∨ o.state = .running := by rcases hk with hk | hk <;> simp [hk.1]
      exact ⟨h.fine, fun hx => (by rw [(hI.busy (Or.inr hs)).2.2] at hx; cases hx), fun _ _ => hI.fl hs⟩
    · exact hc
  | pop =>
    show Pol (startedOuts b (pop o).2) (pop o).1
    unfold pop
    split
    · exact ⟨h.fine, h.wait, h.fl⟩
    · exact pol_popHead h _
  | popN n =>
    have := pol_popLoop (if n = 0 then o.queueSize else n) true h
    show Pol (startedOuts b ((popLoop (if n = 0 then o.queueSize else n) true o).2 ++ [.ret _])) (popLoop (if n = 0 then o.queueSize else n) true o).1
    rw [startedOuts_append, this.2]
    exact this.1
  | cancel =>
    refine pol_settled h _ fun c hc => ?_
    simp only [cancel, cancelImpl]
    split
    · exact ⟨h.fine, h.wait, by simp⟩
    · exact ⟨h.fine, h.wait, h.fl⟩
  | drop =>
    refine pol_settled h _ fun c hc => ?_
    simp only [cancelImpl]
    split
    · exact ⟨h.fine, h.wait, by simp⟩
    · exact ⟨h.fine, h.wait, h.fl⟩
  | tick =>
    refine pol_settled h _ fun c hc => ?_
    simp only [tickAck]
    split
    · exact hc
    · split <;> exact ⟨h.fine, h.wait, h.fl⟩
  | deliver =>
    simp only [startedAfter]
    rw [deliver_eq]
    exact pol_settled h _ fun c hc => hc

theorem pol_run {b : Bool} {o : Sub} (h : Pol b o) (hI : Inv o) (es : List Ev) (hP : Polite o b es) : (run o es).1.crashed = false := by
  induction es generalizing b o with
  | nil => exact h.fine
  | cons e es ih => exact ih (pol_step h hI e hP.1) (inv_step hI e) hP.2

theorem pol_begin (p : Params) (fail up : Bool) : Pol (startedOuts false (begin (fresh p) fail up).2) (begin (fresh p) fail up).1 := by
  cases fail
  · cases up
    · constructor <;> simp [begin, fresh, createOperations, startedOuts]
    · exact pol_up (o := { fresh p with conn := true, pending := true }) ⟨rfl, by simp, by simp⟩ rfl
  · constructor <;> simp [begin, fresh]

theorem freed_popLoop (n : Nat) : ∀ (first : Bool) (o : Sub), (popLoop n first o).1.freed = o.freed := by
  induction n with
  | zero => intro first o; rfl
  | succ n ih =>
    intro first o
    have hh : ∀ q, (popHead o q).freed = o.freed := by intro q; unfold popHead; split <;> rfl
    unfold popLoop
    split
    · rfl
    · split
      · exact hh _
      · rfl
    · exact (ih _ _).trans (hh _)

theorem freed_step {o : Sub} (h : o.freed = false) (e : Ev) (hc : ∀ r, e ≠ .msg r .cancels) : (step o e).1.freed = false := by
  have st : ∀ f : Sub → Sub × List Out, (∀ c, (f { o with owed := c }).1.freed = false) → (settled o f).1.freed = false := by
    intro f hf
    obtain ⟨c, outs0, h0, he⟩ := settled_eq o f
    rw [he]; exact hf c
  have dn : ∀ c, (chanDown { o with owed := c }).freed = false := by
    intro c
    have he := down_eff { o with owed := c }
    generalize chanDown { o with owed := c } = o' at he ⊢
    cases he <;> exact h
  cases e with
  | up =>
    refine st _ fun c => ?_
    have he := up_eff { o with owed := c, conn := true } rfl
    generalize (createOperations { o with owed := c, conn := true }).1 = o' at he ⊢
    generalize (createOperations { o with owed := c, conn := true }).2 = outs at he
    cases he <;> exact h
  | down => exact st _ dn
  | msg r i =>
    refine st _ fun c => ?_
    have he := msg_eff { o with owed := c } r i
    generalize (msg { o with owed := c } r i).1 = o' at he ⊢
    generalize (msg { o with owed := c } r i).2 = outs at he
    cases he with
    | close => exact dn c
    | initCancels _ _ _ _ _ _ hi => exact absurd (by rw [hi]) (hc r)
    | _ => exact h
  | pause p => exact st _ fun c => by simp only [pause]; split <;> exact h
  | pop =>
    show (pop o).1.freed = _
    unfold pop popHead
    split
    · exact h
    · split <;> exact h
  | popN n => exact (freed_popLoop _ _ _).trans h
  | cancel => exact st _ fun c => by simp only [cancel, cancelImpl]; split <;> exact h
  | drop => exact st _ fun c => by simp only [cancelImpl]; split <;> exact h
  | tick =>
    refine st _ fun c => ?_
    simp only [tickAck]
    split
    · exact h
    · split <;> exact h
  | deliver => rw [deliver_eq]; exact st _ fun c => h

theorem freed_run {o : Sub} (h : o.freed = false) (es : List Ev) (hc : ∀ r, .msg r .cancels ∉ es) : (run o es).1.freed = false := by
  induction es generalizing o with
  | nil => exact h
  | cons e es ih =>
    refine ih (freed_step h e fun r hr => hc r (by simp [hr])) fun r hr => hc r (by simp [hr])

theorem freed_begin (p : Params) (fail up : Bool) : (begin (fresh p) fail up).1.freed = false := by
  cases fail
  · cases up
    · rfl
    · have he := up_eff { fresh p with conn := true, pending := true } rfl
      show (createOperations { fresh p with conn := true, pending := true }).1.freed = _
      generalize (createOperations { fresh p with conn := true, pending := true }).1 = o' at he ⊢
      generalize (createOperations { fresh p with conn := true, pending := true }).2 = outs at he
      cases he <;> rfl
  · rfl

/-! the end of a subscription -/

theorem told_step {o : Sub} (hI : Inv o) (hs : o.state ≠ .done) (latest : Nat → Nat) (e : Ev) (hc : Calm [e]) (h : (step o e).1.state = .done) :
    ∃ A x, arrives o latest e = A ++ [.exc x] ∧ (x = .finished ∨ x = .remote) := by
  have st : ∀ f : Sub → Sub × List Out, (settled o f).1.state = .done → ∃ c, (f { o with owed := c }).1.state = .done := by
    intro f hf
    obtain ⟨c, outs0, h0, he⟩ := settled_eq o f
    rw [he] at hf; exact ⟨c, hf⟩
  have dn : ∀ c, (chanDown { o with owed := c }).state ≠ .done := by
    intro c
    have he := down_eff { o with owed := c }
    generalize chanDown { o with owed := c } = o' at he ⊢
    cases he with
    | keep _ => exact hs
    | wait => simp
  cases e with
  | up =>
    obtain ⟨c, h⟩ := st _ h
    have he := up_eff { o with owed := c, conn := true } rfl
    simp only at h
    generalize (createOperations { o with owed := c, conn := true }).1 = o' at he h
    generalize (createOperations { o with owed := c, conn := true }).2 = outs at he
    cases he with
    | init => cases h
    | _ => exact absurd h hs
  | down => obtain ⟨c, h⟩ := st _ h; exact absurd h (dn c)
  | msg r i =>
    obtain ⟨c, h⟩ := st _ h
    obtain ⟨rfl, hnf⟩ : i = .ok ∧ ¬ (r.init = true ∧ r.final = true) := hc (.msg r i) (by simp)
    have he := msg_eff { o with owed := c } r .ok
    generalize (msg { o with owed := c } r .ok).1 = o' at he h
    generalize (msg { o with owed := c } r .ok).2 = outs at he
    cases he with
    | ignore _ => exact absurd h hs
    | crash _ _ _ => exact absurd h hs
    | close => exact absurd h (dn c)
    | ready _ _ _ _ _ _ _ => simp only at h; split at h <;> cases h
    | readyFinal _ _ _ hi _ hf _ => exact absurd ⟨hi, hf⟩ hnf
    | initThrows _ _ _ _ _ _ ht => cases ht
    | initCancels _ _ _ _ _ _ ht => cases ht
    | initError hr ha hs hi hk =>
      simp only [arrives]
      have hT : Takes o = true := by simp only [Takes, Bool.and_eq_true]; exact ⟨hr, ha⟩
      rw [if_pos ⟨hT, fits_init hs hi⟩, if_pos hi, if_neg (by simp [hk])]
      exact ⟨[], _, rfl, Or.inr rfl⟩
    | update hr ha hs' hi e cache hb n w b b' st rg ap hw hbc hst =>
      rcases hst with ⟨hf, _⟩ | ⟨_, rfl, _⟩
      · simp only [arrives]
        have hT : Takes o = true := by simp only [Takes, Bool.and_eq_true]; exact ⟨hr, ha⟩
        rw [if_pos ⟨hT, fits_update hs' hi⟩, if_neg (by simp [hi]), if_pos hf]
        exact ⟨_, _, rfl, Or.inl rfl⟩
      · exact absurd h hs
  | pause p =>
    obtain ⟨c, h⟩ := st _ h
    simp only [pause] at h
    split at h
    · simp only at h; split at h <;> cases h
    · exact absurd h hs
  | pop =>
    refine absurd ?_ hs
    rw [← h]
    show _ = (pop o).1.state
    unfold pop popHead
    split
    · rfl
    · split <;> rfl
  | popN n => exact absurd ((done_popLoop _ _ _).symm.trans h) hs
  | cancel => exact (hc .cancel (by simp)).elim
  | drop => exact (hc .drop (by simp)).elim
  | tick =>
    obtain ⟨c, h⟩ := st _ h
    refine absurd ?_ hs
    rw [← h]
    simp only [tickAck]
    split
    · rfl
    · split <;> rfl
  | deliver =>
    rw [deliver_eq] at h
    obtain ⟨c, h⟩ := st _ h
    exact absurd h hs

theorem told_run {o : Sub} (hI : Inv o) (hs : o.state ≠ .done) (latest : Nat → Nat) (es : List Ev) (hc : Calm es) (h : (run o es).1.state = .done) :
    ∃ A x, stream o latest es = A ++ [.exc x] ∧ (x = .finished ∨ x = .remote) := by
  induction es generalizing o latest with
  | nil => exact absurd h hs
  | cons e es ih =>
    have hc1 : Calm [e] := fun e' he => by simp at he; subst he; exact hc _ (by simp)
    have hc2 : Calm es := fun e' he => hc _ (by simp [he])
    by_cases hd : (step o e).1.state = .done
    · obtain ⟨A, x, ha, hx⟩ := told_step hI hs latest e hc1 hd
      refine ⟨A, x, ?_, hx⟩
      simp only [stream]
      rw [stream_done hd, List.append_nil, ha]
    · obtain ⟨A, x, ha, hx⟩ := ih (inv_step hI e) hd (latestAfter o latest e) hc2 h
      refine ⟨arrives o latest e ++ A, x, ?_, hx⟩
      simp only [stream]
      rw [ha, List.append_assoc]

theorem begin_state (p : Params) (fail up : Bool) : (begin (fresh p) fail up).1.state ≠ .done := by
  cases fail
  · cases up
    · simp [begin, fresh, createOperations]
    · have he := up_eff { fresh p with conn := true, pending := true } rfl
      show (createOperations { fresh p with conn := true, pending := true }).1.state ≠ _
      generalize (createOperations { fresh p with conn := true, pending := true }).1 = o' at he ⊢
      generalize (createOperations { fresh p with conn := true, pending := true }).2 = outs at he
      cases he <;> simp [fresh]
  · simp [begin, fresh]

/-! the newest entry -/

/-- the newest entry holds the latest content -/
structure Cur (latest : Nat → Nat) (o : Sub) : Prop where
  now : o.state = .idle ∨ o.state = .running → ∀ u, o.queue.getLast? = some (.data u) → u.content = latest
  init : o.state = .creating → ∀ u, o.queue.getLast? ≠ some (.data u)
  wait : o.state = .connecting → o.maskDiscon = false → ∀ u, o.queue.getLast? ≠ some (.data u)

theorem getLast_tail {e x : Entry} {q : List Entry} (h : q.getLast? = some x) : (e :: q).getLast? = some x := by
  cases q with
  | nil => cases h
  | cons y ys => exact h

theorem cur_popHead {latest : Nat → Nat} {o : Sub} (h : Cur latest o) {e : Entry} {q : List Entry} (hq : o.queue = e :: q) : Cur latest (popHead o q) := by
  obtain ⟨h1, h2, h3⟩ := h
  rw [hq] at h1 h2 h3
  unfold popHead
  split <;> exact ⟨fun hs u hu => h1 hs u (getLast_tail hu), fun hs u hu => h2 hs u (getLast_tail hu), fun hs hm u hu => h3 hs hm u (getLast_tail hu)⟩

theorem cur_popLoop (n : Nat) : ∀ (first : Bool) {latest : Nat → Nat} {o : Sub}, Cur latest o → Cur latest (popLoop n first o).1 := by
  induction n with
  | zero => intro first latest o h; exact h
  | succ n ih =>
    intro first latest o h
    unfold popLoop
    split
    · exact ⟨h.now, h.init, h.wait⟩
    · rename_i hq
      split
      · exact cur_popHead h hq
      · exact h
    · rename_i u rest hq
      exact ih false (cur_popHead h hq)

theorem cur_settled {latest latest' : Nat → Nat} {o : Sub} (h : Cur latest o) (f : Sub → Sub × List Out)
    (hf : ∀ c, Cur latest { o with owed := c } → Cur latest' (f { o with owed := c }).1) : Cur latest' (settled o f).1 := by
  obtain ⟨c, outs0, h0, he⟩ := settled_eq o f
  rw [he]
  exact hf c ⟨h.now, h.init, h.wait⟩

theorem cur_up {latest : Nat → Nat} {o : Sub} (h : Cur latest o) (hm : o.maskConn = false ∨ o.maskDiscon = false) (hc : o.conn = true) :
    Cur latest (createOperations o).1 := by
  have he := up_eff o hc
  generalize (createOperations o).1 = o' at he ⊢
  generalize (createOperations o).2 = outs at he
  cases he with
  | none _ => exact h
  | dead _ _ => exact ⟨h.now, h.init, h.wait⟩
  | over _ _ _ => exact ⟨h.now, h.init, h.wait⟩
  | init _ _ hs q b b' w hq hw =>
    refine ⟨by simp, fun _ => ?_, by simp⟩
    rcases hq with ⟨hm', rfl, _⟩ | ⟨_, rfl, _⟩
    · rcases hm with hm | hm
      · rw [hm] at hm'; cases hm'
      · exact h.wait hs hm
    · intro u hu; simp at hu

theorem cur_down {latest latest' : Nat → Nat} {o : Sub} (hI : Inv o) (h : Cur latest o) : Cur latest' (chanDown o) := by
  have hI' := inv_chanDown hI
  have he := down_eff o
  generalize chanDown o = o' at he hI' ⊢
  cases he with
  | keep hk =>
    have hb := hI'.busy
    simp only [Bool.false_eq_true, false_and, imp_false, not_or] at hb
    exact ⟨fun hs => hs.elim (fun hs => absurd hs hb.2.1) (fun hs => absurd hs hb.2.2), fun hs => absurd hs hb.1, h.wait⟩
  | wait _ _ hs hd q b c hq =>
    refine ⟨by simp, by simp, fun _ hm => ?_⟩
    rcases hq with ⟨hm', _⟩ | ⟨_, rfl, _⟩
    · rw [show o.maskDiscon = false from hm] at hm'; cases hm'
    · intro u hu; simp at hu

theorem cur_queueAfter {o : Sub} {r : Reply} {e : Option Entry} {cache : Nat → Nat} (hb : Body o r e cache) (hi : r.init = false) (hf : r.final = false)
    (h : ∀ u, o.queue.getLast? = some (.data u) → u.content = o.cache) : ∀ u, (queueAfter o r e).getLast? = some (.data u) → u.content = cache := by
  obtain ⟨u, rfl⟩ := update_nonfinal hb hi hf
  cases hb
  unfold queueAfter
  rw [if_neg (by simp [hf]), List.append_nil]
  have he := enqueue_eff (decide (o.queueSize ≤ o.queue.length) && !o.pipeline) o.queue (some (.data (sync o.cache r)))
  generalize enqueue (decide (o.queueSize ≤ o.queue.length) && !o.pipeline) o.queue (some (.data (sync o.cache r))) = x at he ⊢
  cases he with
  | data _ _ => intro v hv; simp at hv; rw [← hv]
  | merge _ w p _ hq =>
    intro v hv
    simp at hv
    rw [← hv]
    have := h w (by rw [hq]; simp)
    funext i
    simp only [assign, sync, this]
    split <;> rfl

theorem cur_msg {A P : List Entry} {latest : Nat → Nat} {o : Sub} (hI : Inv o) (hS : Streamed A P latest o) (h : Cur latest o) (r : Reply) (i : InitAct) :
    Cur (latestAfter o latest (.msg r i)) (msg o r i).1 := by
  have hdn := fun l => cur_down (latest' := l) hI h
  have he := msg_eff o r i
  generalize (msg o r i).1 = o' at he ⊢
  generalize (msg o r i).2 = outs at he
  simp only [latestAfter]
  cases he with
  | ignore hk =>
    have hT : Takes o = false := by unfold Takes; rcases hk with h | h <;> simp [h]
    simp only [hT, Bool.false_eq_true, false_and, if_false]
    exact h
  | crash hr hc hf =>
    have hfit : fits o r = false := by
      cases hx : fits o r
      · rfl
      · have := hI.fl (fits_live hx (carries_init hc).1); rw [hf] at this; cases this
    simp only [hfit, Bool.false_eq_true, and_false, if_false]
    exact ⟨h.now, h.init, h.wait⟩
  | close _ _ _ _ => exact hdn _
  | ready hr ha hs hi hk hf hn =>
    have := h.init hs
    refine ⟨fun _ u hu => absurd hu (this u), fun hx => ?_, fun hx => ?_⟩ <;> (simp only at hx; split at hx <;> cases hx)
  | update hr ha hs hi e cache hb n w b c st rg ap hw hbc hst =>
    have hca := hS.cache hs
    simp only [Takes, hr, ha, fits_update hs hi, hi, Bool.and_self, and_self, if_true, Bool.false_eq_true, if_false]
    have key : (if r.carries = true then (sync latest r).content else latest) = cache := by
      cases hb with
      | error hk =>
        have hc : r.carries = false := by simp [Reply.carries, hk]
        simp [hc, hca]
      | data hk => simp [hk, hca]
      | none hk hc => simp [hc, hca]
    rw [key]
    rcases hst with ⟨_, rfl, _⟩ | ⟨hf, rfl, _⟩
    · exact ⟨by simp, by simp, by simp⟩
    · have hq := cur_queueAfter hb hi hf (fun u hu => (h.now hs u hu).trans hca.symm)
      refine ⟨fun _ u hu => hq u hu, fun hx => ?_, fun hx => ?_⟩ <;> (simp only at hx; rcases hs with hs | hs <;> rw [hs] at hx <;> cases hx)
  | _ => exact ⟨by simp, by simp, by simp⟩

theorem cur_step {A P : List Entry} {latest : Nat → Nat} {o : Sub} (hI : Inv o) (hS : Streamed A P latest o) (h : Cur latest o)
    (hm : o.maskConn = false ∨ o.maskDiscon = false) (e : Ev) : Cur (latestAfter o latest e) (step o e).1 := by
  cases e with
  | up => exact cur_settled h _ fun c hc => cur_up (o := { o with owed := c, conn := true }) ⟨hc.now, hc.init, hc.wait⟩ hm rfl
  | down => exact cur_settled h _ fun c hc => cur_down ⟨hI.regc, hI.busy, hI.wait, hI.fl, hI.dead⟩ hc
  | msg r i =>
    exact cur_settled h _ fun c hc => cur_msg (o := { o with owed := c }) ⟨hI.regc, hI.busy, hI.wait, hI.fl, hI.dead⟩ ⟨hS.sq, hS.exact, hS.cache⟩ hc r i
  | pause p =>
    refine cur_settled h _ fun c hc => ?_
    simp only [pause]
    split
    · rename_i hk
      have hs : o.state = .idle ∨ o.state = .running := by rcases hk with hk | hk <;> simp [hk.1]
      refine ⟨fun _ => h.now hs, fun hx => ?_, fun hx => ?_⟩ <;> (simp only at hx; split at hx <;> cases hx)
    · exact hc
  | pop =>
    show Cur latest (pop o).1
    unfold pop
    split
    · exact ⟨h.now, h.init, h.wait⟩
    · rename_i hq; exact cur_popHead h hq
  | popN n => exact cur_popLoop _ _ h
  | cancel =>
    refine cur_settled h _ fun c hc => ?_
    simp only [cancel, cancelImpl]; split <;> exact ⟨by simp, by simp, by simp⟩
  | drop =>
    refine cur_settled h _ fun c hc => ?_
    simp only [cancelImpl]; split <;> exact ⟨by simp, by simp, by simp⟩
  | tick =>
    refine cur_settled h _ fun c hc => ?_
    simp only [tickAck]
    split
    · exact hc
    · split <;> exact ⟨h.now, h.init, h.wait⟩
  | deliver =>
    rw [deliver_eq]
    exact cur_settled h _ fun c hc => hc

theorem cur_run {A P : List Entry} {latest : Nat → Nat} {o : Sub} (hI : Inv o) (hS : Streamed A P latest o) (h : Cur latest o)
    (hm : o.maskConn = false ∨ o.maskDiscon = false) (es : List Ev) : Cur (latestOf o latest es) (run o es).1 := by
  induction es generalizing A P latest o with
  | nil => exact h
  | cons e es ih =>
    have hs := same_step o e
    exact ih (inv_step hI e) (streamed_step hI hS e) (cur_step hI hS h hm e) (by rw [hs.maskConn, hs.maskDiscon]; exact hm)

theorem cur_begin (p : Params) (hm : p.maskConn = false ∨ p.maskDiscon = false) (fail up : Bool) (latest : Nat → Nat) :
    Cur latest (begin (fresh p) fail up).1 := by
  cases fail
  · cases up
    · constructor <;> simp [begin, fresh, createOperations]
    · exact cur_up (o := { fresh p with conn := true, pending := true }) ⟨by simp [fresh], by simp [fresh], by simp [fresh]⟩ hm rfl
  · constructor <;> simp [begin, fresh]

/-! one call for one emptied queue -/

def Once (o : Sub) (outs : List Out) : Prop :=
  calls (sinceEmpty outs) + o.owed.toNat + o.needNotify.toNat ≤ 1 ∨
    (o.owed = false ∧ o.pending = false ∧ o.reg = false ∧ calls (sinceEmpty outs) ≤ 1 ∧ (o.state = .connecting ∨ o.state = .done))

theorem once_quiet {o o' : Sub} {outs outs' : List Out} (h : Once o outs) (hq : Quiet o o' outs') : Once o' (outs ++ outs') := by
  obtain ⟨q1, q2, q3, q4, q5⟩ := hq
  have hs : sinceEmpty (outs ++ outs') = sinceEmpty outs ++ outs' := by
    rw [sinceEmpty_append, q1]; simp
  unfold Once
  rw [hs, calls_append, calls_zero q2]
  rcases h with t3 | ⟨t3, t4, t5, t6, t7⟩
  · left
    rcases q4 with ⟨_, hb, hc⟩ | ⟨_, hb, hc, _⟩
    · rw [hb, hc]; omega
    · rw [hb, hc]
      revert t3; cases o.owed <;> cases o.needNotify <;> simp
  · right
    obtain ⟨p1, p2, p3⟩ := q5 t4 t5 t7
    refine ⟨?_, p1, p2, by omega, p3⟩
    rcases q4 with ⟨_, hb, hc⟩ | ⟨_, hb, hc, hx⟩
    · rw [hc, t3]
    · rw [t4, t5] at hx; simp at hx

theorem once_doNotify {o : Sub} {outs : List Out} (h : Once o outs) : Once (doNotify o).1 (outs ++ (doNotify o).2) := by
  unfold doNotify
  split
  · rename_i ho
    unfold Once at h
    rw [ho] at h
    rcases h with t3 | ⟨t3, _⟩
    · cases hev : o.hasEvent
      · simp only [Bool.false_eq_true, if_false, List.append_nil]
        left; simp at t3 ⊢; omega
      · simp only [if_true]
        have hs : sinceEmpty (outs ++ [.called]) = sinceEmpty outs ++ [.called] := by
          rw [sinceEmpty_append]; rfl
        left
        rw [hs, calls_append, show calls [Out.called] = 1 from rfl]; simp at t3 ⊢; omega
    · cases t3
  · simpa using h

theorem once_settled {o : Sub} {outs : List Out} (h : Once o outs) (f : Sub → Sub × List Out)
    (hf : ∀ o, Quiet o (f o).1 (f o).2) : Once (settled o f).1 (outs ++ (settled o f).2) := by
  unfold settled
  have := once_quiet (once_doNotify h) (hf (doNotify o).1)
  rw [List.append_assoc] at this
  exact this

theorem once_empty {o : Sub} {outs : List Out} (ho : o.owed = false) : Once { o with needNotify := true } (outs ++ [.empty]) := by
  have hs : sinceEmpty (outs ++ [.empty]) = [] := by rw [sinceEmpty_append]; rfl
  left
  rw [hs]
  simp [ho, calls]

theorem once_popped {o : Sub} {outs : List Out} (h : Once o outs) (e : Entry) (q : List Entry) :
    Once (popHead o q) (outs ++ [.popped e]) := by
  have hs : sinceEmpty (outs ++ [.popped e]) = sinceEmpty outs ++ [.popped e] := by rw [sinceEmpty_append]; rfl
  have hc : calls (sinceEmpty outs ++ [.popped e]) = calls (sinceEmpty outs) := by rw [calls_append]; rfl
  unfold Once at h ⊢
  rw [hs, hc]
  unfold popHead
  split <;> exact h

theorem once_popLoop (n : Nat) : ∀ (first : Bool) {o : Sub} {outs : List Out}, o.owed = false → Once o outs →
    Once (popLoop n first o).1 (outs ++ (popLoop n first o).2) := by
  induction n with
  | zero => intro first o outs _ h; simpa [popLoop] using h
  | succ n ih =>
    intro first o outs ho h
    have hh : ∀ q, (popHead o q).owed = false := by intro q; unfold popHead; split <;> exact ho
    unfold popLoop
    split
    · exact once_empty ho
    · split
      · exact once_popped h _ _
      · simpa using h
    · rename_i u rest hq
      have := ih false (hh rest) (once_popped h (.data u) rest)
      rw [List.append_assoc] at this
      exact this

theorem once_ret {o : Sub} {outs : List Out} (h : Once o outs) (b : Bool) : Once o (outs ++ [.ret b]) := by
  have hs : sinceEmpty (outs ++ [.ret b]) = sinceEmpty outs ++ [.ret b] := by rw [sinceEmpty_append]; rfl
  have hc : calls (sinceEmpty outs ++ [.ret b]) = calls (sinceEmpty outs) := by rw [calls_append]; rfl
  unfold Once at h ⊢
  rw [hs, hc]; exact h

theorem once_step {o : Sub} {outs : List Out} (h : Once o outs) (e : Ev) (hp : Worker e ∨ o.owed = false) : Once (step o e).1 (outs ++ (step o e).2) := by
  cases e with
  | up => exact once_settled h _ quiet_up
  | down => exact once_settled h _ quiet_down
  | msg r i => exact once_settled h _ fun o => quiet_msg o r i
  | pause p => exact once_settled h _ fun o => quiet_pause o p
  | pop =>
    have ho : o.owed = false := hp.elim False.elim id
    show Once (pop o).1 (outs ++ (pop o).2)
    unfold pop
    split
    · exact once_empty ho
    · exact once_popped h _ _
  | popN n =>
    have ho : o.owed = false := hp.elim False.elim id
    have := once_ret (once_popLoop (if n = 0 then o.queueSize else n) true ho h) (!(popLoop (if n = 0 then o.queueSize else n) true o).1.needNotify)
    rw [List.append_assoc] at this
    exact this
  | cancel => exact once_settled h _ quiet_cancel
  | drop => exact once_settled h _ quiet_drop
  | tick => exact once_settled h _ quiet_tick
  | deliver => exact once_doNotify h

theorem once_run {o : Sub} {outs : List Out} (h : Once o outs) (es : List Ev) (hp : Prompt o es) : Once (run o es).1 (outs ++ (run o es).2) := by
  induction es generalizing o outs with
  | nil => simpa [run] using h
  | cons e es ih =>
    have := ih (once_step h e hp.1) hp.2
    rw [List.append_assoc] at this
    exact this

theorem once_begin (p : Params) (fail up : Bool) : Once (begin (fresh p) fail up).1 (begin (fresh p) fail up).2 := by
  cases fail
  · have h0 : Once { fresh p with conn := up, pending := true } [] := Or.inl (by simp [fresh, calls, sinceEmpty])
    have : Quiet { fresh p with conn := up, pending := true } (createOperations { fresh p with conn := up, pending := true }).1
        (createOperations { fresh p with conn := up, pending := true }).2 := by
      cases up
      · exact ⟨rfl, by simp [createOperations], id, Or.inl ⟨Iff.rfl, rfl, rfl⟩, fun h => by simp at h⟩
      · exact quiet_up _
    exact once_quiet h0 this
  · exact Or.inr ⟨rfl, rfl, rfl, Nat.le_refl 1, Or.inl rfl⟩

/-! the stream from the beginning -/

theorem streamed_begin (p : Params) (fail up : Bool) : Streamed (begun p fail up) [] (fun _ => 0) (begin (fresh p) fail up).1 := by
  cases fail
  · cases up
    · exact ⟨by simpa [begun, begin, fresh, createOperations] using Squashed.nil, by simp [begun, begin, fresh, createOperations], by simp [begin, fresh, createOperations]⟩
    · have := streamed_up (A := []) (P := []) (latest := fun _ => 0) (o := { fresh p with conn := true, pending := true })
        ⟨Squashed.nil, fun _ => rfl, by simp [fresh]⟩ rfl
      have heq : begun p false true = [] ++ if (fresh p).state = .connecting ∧ true = true ∧ (fresh p).alive = true ∧ (fresh p).maskConn = false then [.exc .connected] else [] := by
        simp [begun, fresh]
      rw [heq]
      exact this
  · exact ⟨by simpa [begun, begin, fresh] using Squashed.keep (.exc .setup) Squashed.nil, by simp [begun, begin, fresh], by simp [begin, fresh]⟩

theorem popped_begin (p : Params) (fail up : Bool) : popped (begin (fresh p) fail up).2 = [] := by
  cases fail
  · cases up
    · rfl
    · exact up_sent { fresh p with conn := true, pending := true } rfl
  · rfl

theorem limited_begin (p : Params) (hN : 2 ≤ p.queueSize) (fail up : Bool) : Limited p.queueSize (begin (fresh p) fail up).1.queue := by
  cases fail
  · cases up
    · exact limited_nil _
    · exact limited_up (o := { fresh p with conn := true, pending := true }) (limited_nil _) rfl
  · exact limited_exc (limited_nil _) _

/-! needNotify means an empty queue -/

def Drained (o : Sub) : Prop := o.needNotify = true → o.queue = []

theorem drained_quiet {o o' : Sub} {outs : List Out} (h : Drained o) (hq : Quiet o o' outs) : Drained o' := by
  intro hn
  rcases hq.flags with ⟨h1, h2, _⟩ | ⟨_, h2, _⟩
  · exact h1.mpr (h (h2.symm.trans hn))
  · rw [hn] at h2; cases h2

theorem drained_settled {o : Sub} (h : Drained o) (f : Sub → Sub × List Out) (hf : ∀ o, Quiet o (f o).1 (f o).2) : Drained (settled o f).1 := by
  obtain ⟨c, outs0, h0, he⟩ := settled_eq o f
  rw [he]
  exact drained_quiet (o := { o with owed := c }) h (hf _)

theorem drained_popHead {o : Sub} (h : Drained o) {e : Entry} {q : List Entry} (hq : o.queue = e :: q) : Drained (popHead o q) := by
  intro hn
  have : o.needNotify = true := by revert hn; unfold popHead; split <;> exact id
  rw [h this] at hq; cases hq

theorem drained_popLoop (n : Nat) : ∀ (first : Bool) {o : Sub}, Drained o → Drained (popLoop n first o).1 := by
  induction n with
  | zero => intro first o h; exact h
  | succ n ih =>
    intro first o h
    unfold popLoop
    split
    · rename_i hq; exact fun _ => hq
    · rename_i hq
      split
      · exact drained_popHead h hq
      · exact h
    · rename_i u rest hq
      exact ih false (drained_popHead h hq)

theorem drained_step {o : Sub} (h : Drained o) (e : Ev) : Drained (step o e).1 := by
  cases e with
  | up => exact drained_settled h _ quiet_up
  | down => exact drained_settled h _ quiet_down
  | msg r i => exact drained_settled h _ fun o => quiet_msg o r i
  | pause p => exact drained_settled h _ fun o => quiet_pause o p
  | pop =>
    show Drained (pop o).1
    unfold pop
    split
    · rename_i hq; exact fun _ => hq
    · rename_i hq; exact drained_popHead h hq
  | popN n => exact drained_popLoop _ _ h
  | cancel => exact drained_settled h _ quiet_cancel
  | drop => exact drained_settled h _ quiet_drop
  | tick => exact drained_settled h _ quiet_tick
  | deliver =>
    rw [deliver_eq]
    obtain ⟨c, outs0, h0, he⟩ := settled_eq o fun o => (o, [])
    rw [he]; exact h

theorem drained_run {o : Sub} (h : Drained o) (es : List Ev) : Drained (run o es).1 := by
  induction es generalizing o with
  | nil => exact h
  | cons e es ih => exact ih (drained_step h e)

theorem drained_begin (p : Params) (up : Bool) : Drained (begin (fresh p) false up).1 := by
  cases up
  · exact fun _ => rfl
  · exact drained_quiet (o := { fresh p with conn := true, pending := true }) (fun _ => rfl) (quiet_up _)

end Pvxs.ClientMon
