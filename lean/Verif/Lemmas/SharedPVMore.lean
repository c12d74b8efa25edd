import Verif.Lemmas.SharedPV
/-
SharedPV: order of calls, life cycle.
-/
namespace Pvxs.SPV
open Pvxs.Spec.SPV
open Pvxs.Mon (Upd merge content)

/-- what a step adds to the log -/
theorem step_out (w : World) (e : Ev) : ∃ o, (step w e).out = w.out ++ o := by
  have self : ∃ o, w.out = w.out ++ o := ⟨[], by simp⟩
  cases e with
  | peer e => simp only [step]; split <;> exact self
  | connect j =>
    simp only [step, connect]; split
    · split <;> exact self
    · exact self
  | fan => simp only [step, fan]; split <;> exact self
  | opClosed j => exact self
  | attach => simp only [step]; split; exact self; exact ⟨_, rfl⟩
  | chanClosed c =>
    simp only [step]; split
    · exact self
    · unfold chanClosed; split; exact ⟨_, rfl⟩; exact self
  | op =>
    simp only [step]; split
    · exact self
    · unfold op; split; exact self; exact ⟨_, rfl⟩
  | subscribe p n q mask =>
    simp only [step]; split
    · exact self
    · unfold subscribe; simp only; split; exact self; exact ⟨_, rfl⟩
  | subClosed j => simp only [step]; split <;> exact self
  | insert j =>
    simp only [step]; split
    · exact self
    · unfold insert; split <;> exact self
  | «open» ty v =>
    simp only [step]; split
    · exact self
    · unfold «open»; split <;> exact ⟨_, rfl⟩
  | post ty v =>
    simp only [step]; split
    · exact self
    · unfold post; split
      · exact ⟨_, rfl⟩
      · split <;> exact ⟨_, rfl⟩
  | close => simp only [step]; split; exact self; exact ⟨_, rfl⟩
  | fetch => simp only [step]; split; exact self; exact ⟨_, rfl⟩

theorem calls_value {w : World} (hb : Base w) (i : Nat) (e : Mon.Ev) (h : ∀ c mb f, e ≠ .post i c mb f) : calls i (w.act e) = calls i w := by
  rw [hb.calls_act]
  cases e with
  | post j c mb f =>
    by_cases hj : j = i
    · exact absurd (by rw [hj]) (h c mb f)
    · simp [call, hj]
  | _ => simp [call]

/-- post() of a subscription is only called when it is being attached, or is attached -/
theorem calls_step {w : World} (hb : Base w) (i : Nat) (e : Ev) :
    calls i (step w e) = calls i w ∨ i ∈ (step w e).subscribers ∨ ∃ a ∈ (step w e).attaching, a.sub = i := by
  cases e with
  | peer e =>
    simp only [step]; split
    · rename_i hp
      exact .inl (calls_value hb i e fun c mb f he => by subst he; simp [peerOk] at hp)
    · exact .inl rfl
  | connect j =>
    simp only [step, connect]; split
    · rename_i a m ha hm
      have hmem := List.mem_of_find?_eq_some ha
      have hp := List.find?_some ha
      simp only [Bool.and_eq_true, beq_iff_eq, Bool.not_eq_true'] at hp
      split
      · by_cases hj : j = i
        · subst hj
          refine .inr (.inr ⟨{ a with connected := true }, ?_, hp.1⟩)
          exact List.mem_map.2 ⟨a, hmem, by simp [hp.1]⟩
        · left
          have e1 := calls_value hb i (.setup j true) (by simp)
          have e2 := calls_value (hb.act (.setup j true) (by simp) (by simp)) i (.post j a.cell false false) (fun c mb f he => by cases he; exact hj rfl)
          exact e2.trans e1
      · exact .inl rfl
    · exact .inl rfl
  | fan =>
    simp only [step, fan]; split
    · exact .inl rfl
    · rename_i j rest hf
      by_cases hj : j = i
      · subst hj
        exact .inr (.inl (fan_sub hb (i := j) (by rw [hf]; simp)).1)
      · exact .inl (calls_value hb i _ (fun c mb f he => by cases he; exact hj rfl))
  | opClosed j => exact .inl rfl
  | attach => simp only [step]; split <;> exact .inl rfl
  | chanClosed c =>
    simp only [step]; split
    · exact .inl rfl
    · unfold chanClosed; split <;> exact .inl rfl
  | op =>
    simp only [step]; split
    · exact .inl rfl
    · unfold op; split <;> exact .inl rfl
  | subscribe p n q mask =>
    simp only [step]; split
    · exact .inl rfl
    · have e1 := calls_value hb i (.subscribe p n q mask) (by simp)
      unfold subscribe; simp only; split
      · exact .inl e1
      · rename_i ty v _
        exact .inl ((calls_value (hb.act (.subscribe p n q mask) (by simp) (by simp)) i (.value v) (by simp)).trans e1)
  | subClosed j => simp only [step]; split; exact .inl rfl; exact .inl (calls_value hb i (.close j) (by simp))
  | insert j =>
    simp only [step]; split
    · exact .inl rfl
    · unfold insert; split <;> exact .inl rfl
  | «open» ty v =>
    simp only [step]; split
    · exact .inl rfl
    · unfold «open»; split
      · exact .inl rfl
      · exact .inl (calls_value hb i (.value v) (by simp))
  | post ty v =>
    simp only [step]; split
    · exact .inl rfl
    · unfold post; split
      · exact .inl rfl
      · split
        · exact .inl rfl
        · exact .inl (calls_value hb i (.value v) (by simp))
  | close => simp only [step]; split <;> exact .inl rfl
  | fetch => simp only [step]; split <;> exact .inl rfl

theorem run_prefix (i : Nat) : ∀ es, NoRace i es → calls i (run start es) <+: due i false (run start es).out := by
  apply snoc_ind
  · intro _; exact List.nil_prefix
  · intro es e ih hr
    have hg := run_good i _ hr
    have hb := run_base (es ++ [e])
    have ih := ih fun pre x post he => hr pre x (post ++ [e]) (by rw [he]; simp)
    have key := calls_step (run_base es) i e
    rw [← run_snoc] at key
    have hout := step_out (run start es) e
    rw [← run_snoc] at hout
    rcases key with hk | hk | ⟨a, ha, hs⟩
    · obtain ⟨o, ho⟩ := hout
      rw [hk, ho, due_append]
      exact ih.trans (List.prefix_append _ _)
    · obtain ⟨ty, v, _, _, h3, _⟩ := hg.sub hk
      rw [← h3]; exact List.prefix_append _ _
    · obtain ⟨_, ty, v, _, h3, _, _, h6⟩ := hg.att a ha hs
      cases hc : a.connected
      · rw [hb.idle i (.inr ⟨a, ha, hs, hc⟩)]; exact List.nil_prefix
      · rw [h3, (h6 hc).1]; exact List.prefix_refl _

/-- a subscriber stays one -/
theorem sub_step {w : World} {i : Nat} (h : i ∈ w.subscribers) (e : Ev) (h1 : e ≠ .subClosed i) (h2 : e ≠ .close) : i ∈ (step w e).subscribers := by
  cases e with
  | peer e => simp only [step]; split <;> exact h
  | connect j =>
    simp only [step, connect]; split
    · split <;> exact h
    · exact h
  | fan => simp only [step, fan]; split <;> exact h
  | opClosed j => exact h
  | attach => simp only [step]; split <;> exact h
  | chanClosed c =>
    simp only [step]; split
    · exact h
    · unfold chanClosed; split <;> exact h
  | op =>
    simp only [step]; split
    · exact h
    · unfold op; split <;> exact h
  | subscribe p n q mask =>
    simp only [step]; split
    · exact h
    · unfold subscribe; simp only; split <;> exact h
  | subClosed j =>
    simp only [step]; split
    · exact h
    · exact (List.mem_erase_of_ne (fun hi => h1 (by rw [hi]))).2 h
  | insert j =>
    simp only [step]; split
    · exact h
    · unfold insert; split
      · show i ∈ (if j ∈ w.subscribers then w.subscribers else w.subscribers ++ [j])
        split
        · exact h
        · exact List.mem_append_left _ h
      · exact h
  | «open» ty v =>
    simp only [step]; split
    · exact h
    · unfold «open»; split <;> exact h
  | post ty v =>
    simp only [step]; split
    · exact h
    · unfold post; split
      · exact h
      · split <;> exact h
  | close => exact absurd rfl h2
  | fetch => simp only [step]; split <;> exact h

theorem sub_run {i : Nat} : ∀ (es : List Ev) (w : World), i ∈ w.subscribers → Ev.subClosed i ∉ es → Ev.close ∉ es → i ∈ (run w es).subscribers := by
  intro es
  induction es with
  | nil => intro w h _ _; exact h
  | cons e es ih =>
    intro w h h1 h2
    simp only [List.mem_cons, not_or] at h1 h2
    exact ih (step w e) (sub_step h e (Ne.symm h1.1) (Ne.symm h2.1)) h1.2 h2.2

/-! ### life cycle -/

theorem valueOf_append (a b : List Out) : valueOf (a ++ b) = b.foldl after (valueOf a) := by
  simp [valueOf, List.foldl_append]

/-- output which says nothing of the value -/
def mute : Out → Bool
  | .opened _ _ => false
  | .posted _ _ => false
  | .closed => false
  | _ => true

theorem valueOf_mute (a b : List Out) (h : b.all mute = true) : valueOf (a ++ b) = valueOf a := by
  rw [valueOf_append]
  generalize valueOf a = c
  induction b with
  | nil => rfl
  | cons o b ih =>
    simp only [List.all_cons, Bool.and_eq_true] at h
    rw [List.foldl_cons]
    cases o <;> first | exact ih h.2 | (simp [mute] at h)

structure Life (w : World) : Prop where
  cur : w.current = valueOf w.out
  wait : w.current.isSome → w.pending = [] ∧ w.mpending = []
  live : ∀ c ∈ w.live, c ∈ w.channels ∨ .closeChan c ∈ w.out
  chan : ∀ c ∈ w.channels, c ∈ w.live
  num : ∀ c ∈ w.live, c < w.nchan
  nd : w.live.Nodup ∧ w.channels.Nodup
  ops : ∀ i ∈ w.pending, i < w.nops

theorem Life.congr {w w' : World} (h : Life w) (h0 : ∃ o, o.all mute = true ∧ w'.out = w.out ++ o) (h1 : w'.current = w.current)
    (h2 : w'.pending = w.pending) (h3 : w'.mpending = w.mpending) (h4 : w'.live = w.live) (h5 : w'.channels = w.channels) (h6 : w'.nchan = w.nchan)
    (h7 : w'.nops = w.nops) : Life w' := by
  obtain ⟨o, ho, he⟩ := h0
  refine ⟨by rw [h1, he, valueOf_mute _ _ ho]; exact h.cur, by rw [h1, h2, h3]; exact h.wait, fun c hc => ?_, by rw [h4, h5]; exact h.chan,
    by rw [h4, h6]; exact h.num, by rw [h4, h5]; exact h.nd, by rw [h2, h7]; exact h.ops⟩
  rw [h5, he]
  rcases h.live c (h4 ▸ hc) with h | h
  · exact .inl h
  · exact .inr (List.mem_append_left _ h)

theorem life_step {w : World} (h : Life w) (e : Ev) : Life (step w e) := by
  have self : ∃ o, o.all mute = true ∧ w.out = w.out ++ o := ⟨[], rfl, by simp⟩
  cases e with
  | peer e => simp only [step]; split; exact h.congr self rfl rfl rfl rfl rfl rfl rfl; exact h
  | connect j =>
    simp only [step, connect]; split
    · split <;> exact h.congr self rfl rfl rfl rfl rfl rfl rfl
    · exact h
  | fan => simp only [step, fan]; split; exact h; exact h.congr self rfl rfl rfl rfl rfl rfl rfl
  | opClosed j =>
    exact ⟨h.cur, fun hc => ⟨by show w.pending.erase j = []; rw [(h.wait hc).1]; rfl, (h.wait hc).2⟩, h.live, h.chan, h.num, h.nd,
      fun i hi => h.ops i (List.mem_of_mem_erase hi)⟩
  | attach =>
    simp only [step]; split
    · exact h
    · have hm : ((if w.channels.isEmpty then [Out.firstConnect] else []).all mute) = true := by split <;> rfl
      refine ⟨?_, h.wait, fun c hc => ?_, fun c hc => ?_, fun c hc => ?_, ?_, h.ops⟩
      · show w.current = valueOf (w.out ++ _)
        rw [valueOf_mute _ _ hm]; exact h.cur
      · rcases List.mem_append.1 hc with hc | hc
        · rcases h.live c hc with h | h
          · exact .inl (List.mem_append_left _ h)
          · exact .inr (List.mem_append_left _ h)
        · exact .inl (List.mem_append_right _ hc)
      · rcases List.mem_append.1 hc with hc | hc
        · exact List.mem_append_left _ (h.chan c hc)
        · exact List.mem_append_right _ hc
      · show c < w.nchan + 1
        rcases List.mem_append.1 hc with hc | hc
        · have := h.num c hc; omega
        · rw [List.mem_singleton.1 hc]; omega
      · have hn : w.nchan ∉ w.live := fun hx => Nat.lt_irrefl _ (h.num _ hx)
        exact ⟨Mon.nodup_snoc h.nd.1 hn, Mon.nodup_snoc h.nd.2 fun hx => hn (h.chan _ hx)⟩
  | chanClosed c =>
    simp only [step]; split
    · exact h
    · unfold chanClosed; split
      · have hm : ((if (w.channels.erase c).isEmpty then [Out.lastDisconnect] else []).all mute) = true := by split <;> rfl
        refine ⟨?_, h.wait, fun x hx => ?_, fun x hx => ?_, fun x hx => h.num x (List.mem_of_mem_erase hx), ⟨h.nd.1.erase _, h.nd.2.erase _⟩, h.ops⟩
        · show w.current = valueOf (w.out ++ _)
          rw [valueOf_mute _ _ hm]; exact h.cur
        · have hx' := (List.Nodup.mem_erase_iff h.nd.1).1 hx
          rcases h.live x hx'.2 with hh | hh
          · exact .inl ((List.Nodup.mem_erase_iff h.nd.2).2 ⟨hx'.1, hh⟩)
          · exact .inr (List.mem_append_left _ hh)
        · have hx' := (List.Nodup.mem_erase_iff h.nd.2).1 hx
          exact (List.Nodup.mem_erase_iff h.nd.1).2 ⟨hx'.1, h.chan x hx'.2⟩
      · exact h
  | op =>
    simp only [step]; split
    · exact h
    · unfold op; split
      · rename_i hn
        refine ⟨h.cur, fun hc => ?_, h.live, h.chan, h.num, h.nd, fun i hi => ?_⟩
        · have hc : w.current.isSome := hc
          rw [hn] at hc; cases hc
        · show i < w.nops + 1
          rcases List.mem_append.1 hi with hi | hi
          · have := h.ops i hi; omega
          · rw [List.mem_singleton.1 hi]; omega
      · rename_i ty v hn
        have h' := h.congr (w' := w.say [.connectOp w.nops ty]) ⟨[.connectOp w.nops ty], rfl, rfl⟩ rfl rfl rfl rfl rfl rfl rfl
        exact ⟨h'.cur, h'.wait, h'.live, h'.chan, h'.num, h'.nd, fun i hi => Nat.lt_succ_of_lt (h'.ops i hi)⟩
  | subscribe p n q mask =>
    simp only [step]; split
    · exact h
    · unfold subscribe; simp only; split
      · rename_i hn
        have hn : w.current = none := hn
        refine ⟨h.cur, fun hc => ?_, h.live, h.chan, h.num, h.nd, h.ops⟩
        have hc : w.current.isSome := hc
        rw [hn] at hc; cases hc
      · rename_i ty v _
        exact h.congr ⟨[.attached w.sys.mons.length v], rfl, rfl⟩ rfl rfl rfl rfl rfl rfl rfl
  | subClosed j =>
    simp only [step]; split
    · exact h
    · exact ⟨h.cur, fun hc => ⟨(h.wait hc).1, by show w.mpending.erase j = []; rw [(h.wait hc).2]; rfl⟩, h.live, h.chan, h.num, h.nd, h.ops⟩
  | insert j =>
    simp only [step]; split
    · exact h
    · unfold insert; split
      · exact h.congr self rfl rfl rfl rfl rfl rfl rfl
      · exact h
  | «open» ty v =>
    simp only [step]; split
    · exact h
    · unfold «open»; split
      · exact h.congr ⟨[.refused], rfl, rfl⟩ rfl rfl rfl rfl rfl rfl rfl
      · refine ⟨?_, fun _ => ⟨rfl, rfl⟩, fun c hc => ?_, h.chan, h.num, h.nd, fun i hi => by cases hi⟩
        · show some (ty, v) = valueOf (w.out ++ (.opened ty v :: w.mpending.map (fun i => .attached i v) ++ w.pending.map (fun i => .connectOp i ty)))
          have : (w.mpending.map (fun i => Out.attached i v) ++ w.pending.map (fun i => Out.connectOp i ty)).all mute = true := by
            rw [List.all_eq_true]; intro x hx
            rcases List.mem_append.1 hx with hx | hx <;> obtain ⟨j, _, rfl⟩ := List.mem_map.1 hx <;> rfl
          rw [List.cons_append, ← List.singleton_append, ← List.append_assoc, valueOf_mute _ _ this, valueOf_append]
          rfl
        · rcases h.live c hc with h | h
          · exact .inl h
          · exact .inr (List.mem_append_left _ h)
  | post ty v =>
    simp only [step]; split
    · exact h
    · unfold post; split
      · exact h.congr ⟨[.refused], rfl, rfl⟩ rfl rfl rfl rfl rfl rfl rfl
      · rename_i ty0 u hcur
        split
        · exact h.congr ⟨[.refused], rfl, rfl⟩ rfl rfl rfl rfl rfl rfl rfl
        · refine ⟨?_, fun _ => h.wait (by rw [hcur]; rfl), fun c hc => ?_, h.chan, h.num, h.nd, h.ops⟩
          · show some (ty0, merge u v) = valueOf (w.out ++ [.posted ty v])
            rw [valueOf_append, ← h.cur, hcur]; rfl
          · rcases h.live c hc with h | h
            · exact .inl h
            · exact .inr (List.mem_append_left _ h)
  | close =>
    simp only [step]; split
    · exact h
    · refine ⟨?_, fun hc => (by cases hc), fun c hc => .inr ?_, fun c hc => (by cases hc), h.num, ⟨h.nd.1, List.nodup_nil⟩, h.ops⟩
      · show none = valueOf (w.out ++ (.closed :: w.channels.map .closeChan))
        have : (w.channels.map Out.closeChan).all mute = true := by
          rw [List.all_eq_true]; intro x hx
          obtain ⟨j, _, rfl⟩ := List.mem_map.1 hx; rfl
        rw [← List.singleton_append, ← List.append_assoc, valueOf_mute _ _ this, valueOf_append]
        rfl
      · show Out.closeChan c ∈ w.out ++ (.closed :: w.channels.map .closeChan)
        rcases h.live c hc with h | h
        · simp [h]
        · exact List.mem_append_left _ h
  | fetch => simp only [step]; split; exact h; exact h.congr ⟨[_], rfl, rfl⟩ rfl rfl rfl rfl rfl rfl rfl

theorem run_life : ∀ es, Life (run start es) := by
  apply snoc_ind
  · refine ⟨rfl, ?_, ?_, ?_, ?_, ?_, ?_⟩
    · intro h; cases h
    · intro c hc; cases hc
    · intro c hc; cases hc
    · intro c hc; cases hc
    · exact ⟨List.nodup_nil, List.nodup_nil⟩
    · intro i hi; cases hi
  · intro es e ih
    rw [run_snoc]; exact life_step ih e

/-- operations which are not waiting have been told the type, or are gone -/
theorem run_ops : ∀ es i, i < (run start es).nops → i ∈ (run start es).pending ∨ Ev.opClosed i ∈ es ∨ ∃ ty, .connectOp i ty ∈ (run start es).out := by
  apply snoc_ind (P := fun es => ∀ i, i < (run start es).nops → i ∈ (run start es).pending ∨ Ev.opClosed i ∈ es ∨ ∃ ty, .connectOp i ty ∈ (run start es).out)
  · intro i hi; simp [run, start] at hi
  · intro es e ih i hi
    have old : ∀ i, i < (run start es).nops → i ∈ (run start es).pending ∨ Ev.opClosed i ∈ es ++ [e] ∨ ∃ ty, .connectOp i ty ∈ (run start es).out := fun i h => by
      rcases ih i h with h | h | h
      · exact .inl h
      · exact .inr (.inl (List.mem_append_left _ h))
      · exact .inr (.inr h)
    have memc : Ev.opClosed i ∈ es ++ [.opClosed i] := by simp
    rw [run_snoc] at hi ⊢
    clear ih
    generalize run start es = w at *
    have grow : ∀ o, i < w.nops → i ∈ w.pending ∨ Ev.opClosed i ∈ es ++ [e] ∨ ∃ ty, Out.connectOp i ty ∈ w.out ++ o := fun o h => by
      rcases old i h with h | h | ⟨ty, h⟩
      · exact .inl h
      · exact .inr (.inl h)
      · exact .inr (.inr ⟨ty, List.mem_append_left _ h⟩)
    cases e with
    | peer e => simp only [step] at hi ⊢; split at hi <;> split <;> exact old i hi
    | connect j =>
      have : (connect w j).nops = w.nops ∧ (connect w j).pending = w.pending ∧ (connect w j).out = w.out := by
        unfold connect; split
        · split <;> exact ⟨rfl, rfl, rfl⟩
        · exact ⟨rfl, rfl, rfl⟩
      simp only [step] at hi ⊢; rw [this.1] at hi; rw [this.2.1, this.2.2]; exact old i hi
    | fan =>
      have : (fan w).nops = w.nops ∧ (fan w).pending = w.pending ∧ (fan w).out = w.out := by
        unfold fan; split <;> exact ⟨rfl, rfl, rfl⟩
      simp only [step] at hi ⊢; rw [this.1] at hi; rw [this.2.1, this.2.2]; exact old i hi
    | opClosed j =>
      by_cases hj : j = i
      · subst hj; exact .inr (.inl memc)
      · rcases old i hi with h | h | h
        · exact .inl ((List.mem_erase_of_ne (Ne.symm hj)).2 h)
        · exact .inr (.inl h)
        · exact .inr (.inr h)
    | attach =>
      simp only [step] at hi ⊢
      split at hi
      · rw [if_pos (by assumption)]; exact old i hi
      · rw [if_neg (by assumption)]; exact grow _ hi
    | chanClosed c =>
      have : (chanClosed w c).nops = w.nops ∧ (chanClosed w c).pending = w.pending ∧ ∃ o, (chanClosed w c).out = w.out ++ o := by
        unfold chanClosed; split
        · exact ⟨rfl, rfl, _, rfl⟩
        · exact ⟨rfl, rfl, [], by simp⟩
      obtain ⟨t1, t2, o, t3⟩ := this
      simp only [step] at hi ⊢
      split at hi
      · rw [if_pos (by assumption)]; exact old i hi
      · rw [if_neg (by assumption)]; rw [t1] at hi; rw [t2, t3]; exact grow _ hi
    | op =>
      simp only [step] at hi ⊢
      split at hi
      · rw [if_pos (by assumption)]; exact old i hi
      · rw [if_neg (by assumption)]
        unfold op at hi ⊢
        cases hc : w.current with
        | none =>
          rw [hc] at hi
          have hi : i < w.nops + 1 := hi
          by_cases hn : i = w.nops
          · exact .inl (List.mem_append_right _ (by simp [hn]))
          · rcases old i (by omega) with h | h | h
            · exact .inl (List.mem_append_left _ h)
            · exact .inr (.inl h)
            · exact .inr (.inr h)
        | some p =>
          rw [hc] at hi
          have hi : i < w.nops + 1 := hi
          by_cases hn : i = w.nops
          · exact .inr (.inr ⟨p.1, List.mem_append_right _ (by simp [hn])⟩)
          · exact grow _ (by omega)
    | subscribe p n q mask =>
      have : (subscribe w p n q mask).nops = w.nops ∧ (subscribe w p n q mask).pending = w.pending ∧ ∃ o, (subscribe w p n q mask).out = w.out ++ o := by
        unfold subscribe; simp only; split
        · exact ⟨rfl, rfl, [], by simp [World.act]⟩
        · exact ⟨rfl, rfl, _, rfl⟩
      obtain ⟨t1, t2, o, t3⟩ := this
      simp only [step] at hi ⊢
      split at hi
      · rw [if_pos (by assumption)]; exact old i hi
      · rw [if_neg (by assumption)]; rw [t1] at hi; rw [t2, t3]; exact grow _ hi
    | subClosed j =>
      simp only [step] at hi ⊢
      split at hi
      · rw [if_pos (by assumption)]; exact old i hi
      · rw [if_neg (by assumption)]; exact old i hi
    | insert j =>
      have : (insert w j).nops = w.nops ∧ (insert w j).pending = w.pending ∧ (insert w j).out = w.out := by
        unfold insert; split <;> exact ⟨rfl, rfl, rfl⟩
      simp only [step] at hi ⊢
      split at hi
      · rw [if_pos (by assumption)]; exact old i hi
      · rw [if_neg (by assumption)]; rw [this.1] at hi; rw [this.2.1, this.2.2]; exact old i hi
    | «open» ty v =>
      simp only [step] at hi ⊢
      split at hi
      · rw [if_pos (by assumption)]; exact old i hi
      · rw [if_neg (by assumption)]
        unfold «open» at hi ⊢
        split at hi
        · rw [if_pos (by assumption)]; exact grow _ hi
        · rw [if_neg (by assumption)]
          rcases old i hi with h | h | ⟨t, h⟩
          · refine .inr (.inr ⟨ty, ?_⟩)
            show Out.connectOp i ty ∈ w.out ++ (.opened ty v :: w.mpending.map (fun i => .attached i v) ++ w.pending.map (fun i => .connectOp i ty))
            simp [h]
          · exact .inr (.inl h)
          · exact .inr (.inr ⟨t, List.mem_append_left _ h⟩)
    | post ty v =>
      have : (post w ty v).nops = w.nops ∧ (post w ty v).pending = w.pending ∧ ∃ o, (post w ty v).out = w.out ++ o := by
        unfold post; split
        · exact ⟨rfl, rfl, _, rfl⟩
        · split <;> exact ⟨rfl, rfl, _, rfl⟩
      obtain ⟨t1, t2, o, t3⟩ := this
      simp only [step] at hi ⊢
      split at hi
      · rw [if_pos (by assumption)]; exact old i hi
      · rw [if_neg (by assumption)]; rw [t1] at hi; rw [t2, t3]; exact grow _ hi
    | close =>
      simp only [step] at hi ⊢
      split at hi
      · rw [if_pos (by assumption)]; exact old i hi
      · rw [if_neg (by assumption)]; exact grow _ hi
    | fetch =>
      simp only [step] at hi ⊢
      split at hi
      · rw [if_pos (by assumption)]; exact old i hi
      · rw [if_neg (by assumption)]; exact grow _ hi

/-! ### first and last client -/

def Alt (w : World) : Prop :=
  w.channels = w.live ∧ (∀ k, k < (clients w.out).length → (clients w.out)[k]? = some (k % 2 == 0)) ∧ ((clients w.out).length % 2 = 1 ↔ w.channels ≠ [])

theorem clients_append (a b : List Out) : clients (a ++ b) = clients a ++ clients b := by simp [clients, List.filterMap_append]

theorem Alt.congr {w w' : World} (h : Alt w) (h0 : ∃ o, clients o = [] ∧ w'.out = w.out ++ o) (h1 : w'.channels = w.channels) (h2 : w'.live = w.live) : Alt w' := by
  obtain ⟨o, ho, he⟩ := h0
  unfold Alt
  rw [he, clients_append, ho, List.append_nil, h1, h2]; exact h

theorem clients_map {α} (f : α → Out) (h : ∀ x, clients [f x] = []) (l : List α) : clients (l.map f) = [] := by
  induction l with
  | nil => rfl
  | cons x l ih => rw [List.map_cons, ← List.singleton_append, clients_append, h, ih]; rfl

theorem alt_step {w : World} (h : Alt w) (e : Ev) (hc : e ≠ .close) : Alt (step w e) := by
  have self : ∃ o, clients o = [] ∧ w.out = w.out ++ o := ⟨[], rfl, by simp⟩
  cases e with
  | peer e => simp only [step]; split; exact h.congr self rfl rfl; exact h
  | connect j =>
    simp only [step, connect]; split
    · split <;> exact h.congr self rfl rfl
    · exact h
  | fan => simp only [step, fan]; split; exact h; exact h.congr self rfl rfl
  | opClosed j => exact h.congr self rfl rfl
  | attach =>
    simp only [step]; split
    · exact h
    · obtain ⟨h1, h2, h3⟩ := h
      refine ⟨by show w.channels ++ _ = w.live ++ _; rw [h1], ?_⟩
      show (∀ k, k < (clients (w.out ++ _)).length → (clients (w.out ++ _))[k]? = _) ∧ ((clients (w.out ++ _)).length % 2 = 1 ↔ _ ++ _ ≠ [])
      cases hch : w.channels with
      | nil =>
        have hev : (clients w.out).length % 2 = 0 := by
          rw [hch] at h3
          have : ¬ (clients w.out).length % 2 = 1 := fun hx => h3.1 hx rfl
          omega
        simp only [List.isEmpty_nil, if_true, clients_append]
        have e1 : clients [Out.firstConnect] = [true] := rfl
        rw [e1]
        refine ⟨fun k hk => ?_, by simp; omega⟩
        rw [List.length_append, List.length_singleton] at hk
        rcases Nat.lt_or_ge k (clients w.out).length with hlt | hge
        · rw [List.getElem?_append_left hlt]; exact h2 k hlt
        · have : k = (clients w.out).length := by omega
          subst this
          simp [hev]
      | cons c l =>
        have hodd : (clients w.out).length % 2 = 1 := h3.2 (by rw [hch]; simp)
        simp only [List.isEmpty_cons, Bool.false_eq_true, if_false, List.append_nil]
        exact ⟨h2, by simp [hodd]⟩
  | chanClosed c =>
    simp only [step]; split
    · exact h
    · unfold chanClosed; split
      · rename_i hmem
        obtain ⟨h1, h2, h3⟩ := h
        refine ⟨by show w.channels.erase c = w.live.erase c; rw [h1], ?_⟩
        show (∀ k, k < (clients (w.out ++ _)).length → (clients (w.out ++ _))[k]? = _) ∧ ((clients (w.out ++ _)).length % 2 = 1 ↔ w.channels.erase c ≠ [])
        have hodd : (clients w.out).length % 2 = 1 := h3.2 (by rw [h1]; intro hx; rw [hx] at hmem; cases hmem)
        cases hch : w.channels.erase c with
        | nil =>
          simp only [List.isEmpty_nil, if_true, clients_append]
          have e1 : clients [Out.lastDisconnect] = [false] := rfl
          rw [e1]
          refine ⟨fun k hk => ?_, by simp; omega⟩
          rw [List.length_append, List.length_singleton] at hk
          rcases Nat.lt_or_ge k (clients w.out).length with hlt | hge
          · rw [List.getElem?_append_left hlt]; exact h2 k hlt
          · have : k = (clients w.out).length := by omega
            subst this
            simp [hodd]
        | cons c' l =>
          simp only [List.isEmpty_cons, Bool.false_eq_true, if_false, List.append_nil]
          exact ⟨h2, by simp [hodd]⟩
      · exact h
  | op =>
    simp only [step]; split
    · exact h
    · unfold op; split
      · exact h.congr self rfl rfl
      · exact h.congr ⟨_, rfl, rfl⟩ rfl rfl
  | subscribe p n q mask =>
    simp only [step]; split
    · exact h
    · unfold subscribe; simp only; split
      · exact h.congr self rfl rfl
      · exact h.congr ⟨[.attached w.sys.mons.length _], rfl, rfl⟩ rfl rfl
  | subClosed j => simp only [step]; split; exact h; exact h.congr self rfl rfl
  | insert j =>
    simp only [step]; split
    · exact h
    · unfold insert; split
      · exact h.congr self rfl rfl
      · exact h
  | «open» ty v =>
    simp only [step]; split
    · exact h
    · unfold «open»; split
      · exact h.congr ⟨[.refused], rfl, rfl⟩ rfl rfl
      · refine h.congr ⟨.opened ty v :: w.mpending.map (fun i => .attached i v) ++ w.pending.map (fun i => .connectOp i ty), ?_, rfl⟩ rfl rfl
        rw [List.cons_append, ← List.singleton_append, clients_append, clients_append, clients_map _ (fun _ => rfl), clients_map _ (fun _ => rfl)]; rfl
  | post ty v =>
    simp only [step]; split
    · exact h
    · unfold post; split
      · exact h.congr ⟨[.refused], rfl, rfl⟩ rfl rfl
      · split
        · exact h.congr ⟨[.refused], rfl, rfl⟩ rfl rfl
        · exact h.congr ⟨[.posted ty v], rfl, rfl⟩ rfl rfl
  | close => exact absurd rfl hc
  | fetch => simp only [step]; split; exact h; exact h.congr ⟨[_], rfl, rfl⟩ rfl rfl

theorem run_alt : ∀ es, Ev.close ∉ es → Alt (run start es) := by
  apply snoc_ind
  · intro _
    refine ⟨rfl, ?_, ?_⟩
    · intro k hk; simp [run, start, clients] at hk
    · simp [run, start, clients]
  · intro es e ih hc
    rw [run_snoc]
    simp only [List.mem_append, List.mem_singleton, not_or] at hc
    exact alt_step (ih hc.1) e (Ne.symm hc.2)

end Pvxs.SPV
