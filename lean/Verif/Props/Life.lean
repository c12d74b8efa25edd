import Verif.Spec.Life
/-
C53: starting and stopping a server.
-/
namespace Pvxs.Props.Lif
open Pvxs.Life Spec.Life

theorem phase_append (a b : List Ev) : phase (a ++ b) = b.foldl next (phase a) := by unfold phase; exact List.foldl_append ..

/-- an event which is not one of the four -/
def Plain (e : Ev) : Prop := ∀ p, next p e = p

theorem plain_opened (c : Nat) : Plain (.opened c) := by intro p; cases p <;> rfl
theorem plain_closed (c : Nat) : Plain (.closed c) := by intro p; cases p <;> rfl
theorem plain_beacon : Plain .beacon := by intro p; cases p <;> rfl
theorem plain_searched (i : Nat) : Plain (.searched i) := by intro p; cases p <;> rfl
theorem plain_startRet (t : Nat) (b : Bool) : Plain (.startRet t b) := by intro p; cases p <;> rfl
theorem plain_stopRet (t : Nat) (b : Bool) : Plain (.stopRet t b) := by intro p; cases p <;> rfl

theorem phase_plain (a : List Ev) (e : Ev) (h : Plain e) : phase (a ++ [e]) = phase a := by rw [phase_append]; exact h _

/-- no thread is inside of a call which acts -/
def Free (s : St) : Prop := ∀ t k, s.pc t ≠ .starting k ∧ s.pc t ≠ .stopping k

/-- only this one is -/
def Only (s : St) (t : Nat) : Prop := ∀ t', t' ≠ t → ∀ k, s.pc t' ≠ .starting k ∧ s.pc t' ≠ .stopping k

inductive Where (n : Nat) (tr : List Ev) (s : St) : Prop where
  | off (hp : phase tr = .off) (hs : s.state = .stopped) (hf : Free s) (ha : s.accepting = false) (hb : s.beaconing = false) (hl : ∀ i, s.listening i = false) (hc : s.conns = [])
  | starting (t k : Nat) (hp : phase tr = .starting t) (hs : s.state = .starting) (ht : s.pc t = .starting k) (hf : Only s t) (ha : s.accepting = true) (hb : s.beaconing = false)
      (hk : k ≤ n) (hl : ∀ i, s.listening i = decide (i < k))
  | on (hp : phase tr = .on) (hs : s.state = .running) (hf : Free s) (ha : s.accepting = true) (hb : s.beaconing = true) (hl : ∀ i, s.listening i = decide (i < n))
  | stopping (t k : Nat) (hp : phase tr = .stopping t) (hs : s.state = .stopping) (ht : s.pc t = .stopping k) (hf : Only s t) (ha : s.accepting = true) (hb : s.beaconing = false)
      (hk : k ≤ n) (hl : ∀ i, s.listening i = decide (k ≤ i ∧ i < n))

/-- a thread's place, and what it was last seen to do -/
def TellsAt (t : Nat) (p : Pc) (last : Option Ev) : Prop :=
  match p with
  | .starting _ => last = some (.began t)
  | .started true => last = some (.up t)
  | .stopping _ => last = some (.halting t)
  | .stopped true => last = some (.halted t)
  | _ => True

def Tells (tr : List Ev) (s : St) (t : Nat) : Prop := TellsAt t (s.pc t) (lastOf t tr)

/-- what goes for an event which follows after these -/
def OkAt (a : List Ev) (e : Ev) : Prop :=
  (match e with
    | .beacon => phase a = .on
    | .opened _ => phase a ≠ .off
    | .searched _ => phase a ≠ .off
    | .startRet t true => lastOf t a = some (.up t)
    | .stopRet t true => lastOf t a = some (.halted t)
    | _ => True) ∧ (phase (a ++ [e]) = .off → connected (a ++ [e]) = [])

def Fine (tr : List Ev) : Prop := ∀ a e b, tr = a ++ e :: b → OkAt a e

theorem fine_snoc {tr : List Ev} {e : Ev} (h : Fine tr) (he : OkAt tr e) : Fine (tr ++ [e]) := by
  intro a x b hx
  rcases List.eq_nil_or_concat b with rfl | ⟨b', y, rfl⟩
  · have := List.append_inj' hx rfl
    have e2 : [e] = [x] := this.2
    cases e2
    rw [← this.1]; exact he
  · rw [List.concat_eq_append, ← List.cons_append, ← List.append_assoc] at hx
    exact h a x b' (List.append_inj' hx rfl).1

structure Inv (n : Nat) (tr : List Ev) (s : St) : Prop where
  place : Where n tr s
  conns : s.conns = connected tr
  tells : ∀ t, Tells tr s t
  fine : Fine tr

theorem connected_append (a b : List Ev) : connected (a ++ b) = b.foldl (fun cs e => match e with | .opened c => cs ++ [c] | .closed c => cs.filter fun x => x ≠ c | _ => cs) (connected a) := by
  unfold connected; exact List.foldl_append ..

theorem lastOf_snoc (t : Nat) (a : List Ev) (e : Ev) : lastOf t (a ++ [e]) = (match e with
    | .began t' => if t' = t then some e else lastOf t a
    | .up t' => if t' = t then some e else lastOf t a
    | .startRet t' _ => if t' = t then some e else lastOf t a
    | .halting t' => if t' = t then some e else lastOf t a
    | .halted t' => if t' = t then some e else lastOf t a
    | .stopRet t' _ => if t' = t then some e else lastOf t a
    | _ => lastOf t a) := by
  unfold lastOf; rw [List.foldl_append]; rfl

/-- moving a thread about outside of the parts which act -/
theorem Where.move {n : Nat} {tr tr' : List Ev} {s : St} (h : Where n tr s) (t : Nat) (p : Pc) (hph : phase tr' = phase tr)
    (h1 : ∀ k, s.pc t ≠ .starting k ∧ s.pc t ≠ .stopping k) (h2 : ∀ k, p ≠ .starting k ∧ p ≠ .stopping k) : Where n tr' (s.setPc t p) := by
  have hpc : ∀ t', (s.setPc t p).pc t' = if t' = t then p else s.pc t' := fun _ => rfl
  have free : Free s → Free (s.setPc t p) := by
    intro hf t' k
    rw [hpc]; split
    · exact h2 k
    · exact hf t' k
  have only : ∀ t0, Only s t0 → Only (s.setPc t p) t0 := by
    intro t0 hf t' hne k
    rw [hpc]; split
    · exact h2 k
    · exact hf t' hne k
  cases h with
  | off hp hs hf ha hb hl hc => exact .off (by rw [hph]; exact hp) hs (free hf) ha hb hl hc
  | starting t0 k hp hs ht hf ha hb hk hl =>
    refine .starting t0 k (by rw [hph]; exact hp) hs ?_ (only _ hf) ha hb hk hl
    rw [hpc, if_neg]
    · exact ht
    · rintro rfl; exact (h1 k).1 ht
  | on hp hs hf ha hb hl => exact .on (by rw [hph]; exact hp) hs (free hf) ha hb hl
  | stopping t0 k hp hs ht hf ha hb hk hl =>
    refine .stopping t0 k (by rw [hph]; exact hp) hs ?_ (only _ hf) ha hb hk hl
    rw [hpc, if_neg]
    · exact ht
    · rintro rfl; exact (h1 k).2 ht

theorem Where.silent {n : Nat} {tr tr' : List Ev} {s : St} (h : Where n tr s) (hph : phase tr' = phase tr) : Where n tr' s := by
  cases h with
  | off hp hs hf ha hb hl hc => exact .off (by rw [hph]; exact hp) hs hf ha hb hl hc
  | starting t0 k hp hs ht hf ha hb hk hl => exact .starting t0 k (by rw [hph]; exact hp) hs ht hf ha hb hk hl
  | on hp hs hf ha hb hl => exact .on (by rw [hph]; exact hp) hs hf ha hb hl
  | stopping t0 k hp hs ht hf ha hb hk hl => exact .stopping t0 k (by rw [hph]; exact hp) hs ht hf ha hb hk hl

/-- what other threads were seen to do does not change by an event of this one -/
theorem tells_set {tr : List Ev} {s s' : St} {t : Nat} {p : Pc} {evs : List Ev} (h : ∀ t, Tells tr s t) (hpc : ∀ t', s'.pc t' = if t' = t then p else s.pc t')
    (hl : ∀ t', t' ≠ t → lastOf t' (tr ++ evs) = lastOf t' tr) (hme : TellsAt t p (lastOf t (tr ++ evs))) : ∀ t', Tells (tr ++ evs) s' t' := by
  intro t'
  unfold Tells
  rw [hpc]
  by_cases e : t' = t
  · rw [if_pos e, e]; exact hme
  · rw [if_neg e, hl t' e]; exact h t'

theorem closeAll (cs : List Nat) : ∀ tr, connected (tr ++ cs.map .closed) = (connected tr).filter (fun x => x ∉ cs) ∧ phase (tr ++ cs.map .closed) = phase tr ∧
    ∀ t, lastOf t (tr ++ cs.map .closed) = lastOf t tr := by
  induction cs with
  | nil => intro tr; simp [List.filter_eq_self.mpr]
  | cons c cs ih =>
    intro tr
    have := ih (tr ++ [.closed c])
    rw [List.append_assoc] at this
    obtain ⟨h1, h2, h3⟩ := this
    refine ⟨?_, ?_, fun t => ?_⟩
    · show connected (tr ++ ([.closed c] ++ cs.map .closed)) = _
      rw [h1, connected_append]
      show ((connected tr).filter fun x => x ≠ c).filter _ = _
      rw [List.filter_filter]
      congr 1
      funext x
      simp [Bool.and_comm]
    · show phase (tr ++ ([.closed c] ++ cs.map .closed)) = _
      rw [h2, phase_plain _ _ (plain_closed c)]
    · show lastOf t (tr ++ ([.closed c] ++ cs.map .closed)) = _
      rw [h3 t, lastOf_snoc]

theorem fine_closeAll (cs : List Nat) : ∀ tr, Fine tr → phase tr ≠ .off → Fine (tr ++ cs.map .closed) := by
  induction cs with
  | nil => intro tr h _; simpa using h
  | cons c cs ih =>
    intro tr h hp
    have hph : phase (tr ++ [.closed c]) = phase tr := phase_plain _ _ (plain_closed c)
    have := ih (tr ++ [.closed c]) (fine_snoc h ⟨trivial, fun e => by rw [hph] at e; exact absurd e hp⟩) (by rw [hph]; exact hp)
    rw [List.append_assoc] at this
    exact this

theorem Where.not_off {n : Nat} {tr : List Ev} {s : St} (h : Where n tr s) (hs : s.state ≠ .stopped) : phase tr ≠ .off := by
  cases h with
  | off _ hs' => exact absurd hs' hs
  | starting _ _ hp => rw [hp]; simp
  | on hp => rw [hp]; simp
  | stopping _ _ hp => rw [hp]; simp

theorem inv_start {n : Nat} {tr : List Ev} {s : St} (h : Inv n tr s) (t : Nat) : Inv n (tr ++ (start s t).1) (start s t).2 := by
  unfold start
  by_cases hpc : s.pc t ≠ .idle
  · rw [if_pos hpc]; simpa using h
  rw [if_neg hpc]
  have hidle : s.pc t = .idle := Classical.byContradiction fun e => hpc e
  by_cases hst : s.state ≠ .stopped
  · rw [if_pos hst]
    refine ⟨h.place.move t _ (by simp) (fun k => by rw [hidle]; simp) (fun k => by simp), ?_, ?_, by simpa using h.fine⟩
    · show s.conns = connected (tr ++ [])
      rw [List.append_nil]; exact h.conns
    · exact tells_set h.tells (fun _ => rfl) (fun _ _ => by simp) trivial
  · rw [if_neg hst]
    have hstop : s.state = .stopped := Classical.byContradiction fun e => hst e
    have hpl := h.place
    cases hpl with
    | starting _ _ _ hs => rw [hs] at hstop; cases hstop
    | on _ hs => rw [hs] at hstop; cases hstop
    | stopping _ _ _ hs => rw [hs] at hstop; cases hstop
    | off hp hs hf ha hb hl hc =>
      have hph : phase (tr ++ [.began t]) = .starting t := by rw [phase_append, hp]; rfl
      refine ⟨?_, by rw [connected_append]; exact h.conns, ?_, fine_snoc h.fine ⟨trivial, fun e => by rw [hph] at e; cases e⟩⟩
      · refine .starting t 0 hph rfl ?_ ?_ rfl hb (Nat.zero_le _) ?_
        · show (if t = t then _ else _) = _
          rw [if_pos rfl]
        · intro t' hne k
          show (if t' = t then _ else s.pc t') ≠ _ ∧ (if t' = t then _ else s.pc t') ≠ _
          rw [if_neg hne]; exact hf t' k
        · intro i
          show s.listening i = _
          rw [hl]; simp
      · refine tells_set h.tells (fun _ => rfl) (fun t' e => by rw [lastOf_snoc]; exact if_neg (Ne.symm e)) ?_
        rw [lastOf_snoc]; simp [TellsAt]

theorem inv_stop {n : Nat} {tr : List Ev} {s : St} (h : Inv n tr s) (t : Nat) : Inv n (tr ++ (stop s t).1) (stop s t).2 := by
  unfold stop
  by_cases hpc : s.pc t ≠ .idle
  · rw [if_pos hpc]; simpa using h
  rw [if_neg hpc]
  have hidle : s.pc t = .idle := Classical.byContradiction fun e => hpc e
  by_cases hst : s.state ≠ .running
  · rw [if_pos hst]
    refine ⟨h.place.move t _ (by simp) (fun k => by rw [hidle]; simp) (fun k => by simp), ?_, ?_, by simpa using h.fine⟩
    · show s.conns = connected (tr ++ [])
      rw [List.append_nil]; exact h.conns
    · exact tells_set h.tells (fun _ => rfl) (fun _ _ => by simp) trivial
  · rw [if_neg hst]
    have hstop : s.state = .running := Classical.byContradiction fun e => hst e
    have hpl := h.place
    cases hpl with
    | starting _ _ _ hs => rw [hs] at hstop; cases hstop
    | off _ hs => rw [hs] at hstop; cases hstop
    | stopping _ _ _ hs => rw [hs] at hstop; cases hstop
    | on hp hs hf ha hb hl =>
      have hph : phase (tr ++ [.halting t]) = .stopping t := by rw [phase_append, hp]; rfl
      refine ⟨?_, by rw [connected_append]; exact h.conns, ?_, fine_snoc h.fine ⟨trivial, fun e => by rw [hph] at e; cases e⟩⟩
      · refine .stopping t 0 hph rfl ?_ ?_ ha rfl (Nat.zero_le _) ?_
        · show (if t = t then _ else _) = _
          rw [if_pos rfl]
        · intro t' hne k
          show (if t' = t then _ else s.pc t') ≠ _ ∧ (if t' = t then _ else s.pc t') ≠ _
          rw [if_neg hne]; exact hf t' k
        · intro i
          show s.listening i = _
          rw [hl]; simp
      · refine tells_set h.tells (fun _ => rfl) (fun t' e => by rw [lastOf_snoc]; exact if_neg (Ne.symm e)) ?_
        rw [lastOf_snoc]; simp [TellsAt]

theorem inv_go {n : Nat} {tr : List Ev} {s : St} (h : Inv n tr s) (t : Nat) : Inv n (tr ++ (go n s t).1) (go n s t).2 := by
  have place := h.place
  have tell : Tells tr s t := h.tells t
  unfold Tells at tell
  cases hpc : s.pc t with
  | idle => simp only [go, hpc]; simpa using h
  | started acted =>
    simp only [go, hpc]
    have hph := phase_plain tr _ (plain_startRet t acted)
    refine ⟨place.move t _ hph (fun k => by rw [hpc]; simp) (fun k => by simp), by rw [connected_append]; exact h.conns, ?_, ?_⟩
    · exact tells_set h.tells (fun _ => rfl) (fun t' e => by rw [lastOf_snoc]; exact if_neg (Ne.symm e)) trivial
    · refine fine_snoc h.fine ⟨?_, fun e => ?_⟩
      · cases acted with
        | false => trivial
        | true => rw [hpc] at tell; exact tell
      · rw [hph] at e
        rw [connected_append]
        show connected tr = []
        rw [← h.conns]
        cases place with
        | off _ _ _ _ _ _ hc => exact hc
        | starting _ _ hp => rw [hp] at e; cases e
        | on hp => rw [hp] at e; cases e
        | stopping _ _ hp => rw [hp] at e; cases e
  | stopped acted =>
    simp only [go, hpc]
    have hph := phase_plain tr _ (plain_stopRet t acted)
    refine ⟨place.move t _ hph (fun k => by rw [hpc]; simp) (fun k => by simp), by rw [connected_append]; exact h.conns, ?_, ?_⟩
    · exact tells_set h.tells (fun _ => rfl) (fun t' e => by rw [lastOf_snoc]; exact if_neg (Ne.symm e)) trivial
    · refine fine_snoc h.fine ⟨?_, fun e => ?_⟩
      · cases acted with
        | false => trivial
        | true => rw [hpc] at tell; exact tell
      · rw [hph] at e
        rw [connected_append]
        show connected tr = []
        rw [← h.conns]
        cases place with
        | off _ _ _ _ _ _ hc => exact hc
        | starting _ _ hp => rw [hp] at e; cases e
        | on hp => rw [hp] at e; cases e
        | stopping _ _ hp => rw [hp] at e; cases e
  | starting k =>
    simp only [go, hpc]
    cases place with
    | off _ _ hf => exact absurd hpc (hf t k).1
    | on _ _ hf => exact absurd hpc (hf t k).1
    | stopping t0 k0 hp hs ht hf =>
      by_cases e : t = t0
      · rw [← e, hpc] at ht; cases ht
      · exact absurd hpc (hf t e k).1
    | starting t0 k0 hp hs ht hf ha hb hk hl =>
      have e : t0 = t := Classical.byContradiction fun e => absurd hpc (hf t (Ne.symm e) k).1
      subst e
      rw [hpc] at ht; cases ht
      split
      · rename_i hlt
        refine ⟨?_, by rw [List.append_nil]; exact h.conns, ?_, by rw [List.append_nil]; exact h.fine⟩
        · refine .starting t0 (k + 1) (by rw [List.append_nil]; exact hp) hs ?_ ?_ ha hb hlt ?_
          · show (if t0 = t0 then _ else _) = _
            rw [if_pos rfl]
          · intro t' hne k
            show (if t' = t0 then _ else s.pc t') ≠ _ ∧ (if t' = t0 then _ else s.pc t') ≠ _
            rw [if_neg hne]; exact hf t' hne k
          · intro i
            show (if i = k then true else s.listening i) = _
            rw [hl]
            split
            · rename_i e; simp [e]
            · rename_i e; congr 1; apply propext; omega
        · refine tells_set h.tells (fun _ => rfl) (fun t' e => by simp) ?_
          rw [List.append_nil]
          rw [hpc] at tell; exact tell
      · rename_i hge
        have hkn : k = n := by omega
        subst hkn
        have hph : phase (tr ++ [.up t0]) = .on := by
          rw [phase_append, hp]
          show (if t0 = t0 then Phase.on else _) = _
          rw [if_pos rfl]
        refine ⟨?_, ?_, ?_, ?_⟩
        · refine .on hph rfl ?_ ha rfl hl
          intro t' k
          show (if t' = t0 then _ else s.pc t') ≠ _ ∧ (if t' = t0 then _ else s.pc t') ≠ _
          by_cases e : t' = t0
          · rw [if_pos e]; simp
          · rw [if_neg e]; exact hf t' e k
        · show s.conns = connected (tr ++ [.up t0])
          rw [connected_append]; exact h.conns
        · refine tells_set (evs := [.up t0]) h.tells (fun _ => rfl) (fun t' e => by rw [lastOf_snoc]; exact if_neg (Ne.symm e)) ?_
          rw [lastOf_snoc]; simp [TellsAt]
        · exact fine_snoc h.fine ⟨trivial, fun e => by rw [hph] at e; cases e⟩
  | stopping k =>
    simp only [go, hpc]
    cases place with
    | off _ _ hf => exact absurd hpc (hf t k).2
    | on _ _ hf => exact absurd hpc (hf t k).2
    | starting t0 k0 hp hs ht hf =>
      by_cases e : t = t0
      · rw [← e, hpc] at ht; cases ht
      · exact absurd hpc (hf t e k).2
    | stopping t0 k0 hp hs ht hf ha hb hk hl =>
      have e : t0 = t := Classical.byContradiction fun e => absurd hpc (hf t (Ne.symm e) k).2
      subst e
      rw [hpc] at ht; cases ht
      split
      · rename_i hlt
        refine ⟨?_, by rw [List.append_nil]; exact h.conns, ?_, by rw [List.append_nil]; exact h.fine⟩
        · refine .stopping t0 (k + 1) (by rw [List.append_nil]; exact hp) hs ?_ ?_ ha hb hlt ?_
          · show (if t0 = t0 then _ else _) = _
            rw [if_pos rfl]
          · intro t' hne k
            show (if t' = t0 then _ else s.pc t') ≠ _ ∧ (if t' = t0 then _ else s.pc t') ≠ _
            rw [if_neg hne]; exact hf t' hne k
          · intro i
            show (if i = k then false else s.listening i) = _
            rw [hl]
            split
            · rename_i e; simp [e]; omega
            · rename_i e; congr 1; apply propext; omega
        · refine tells_set h.tells (fun _ => rfl) (fun t' e => by simp) ?_
          rw [List.append_nil]
          rw [hpc] at tell; exact tell
      · rename_i hge
        have hkn : k = n := by omega
        subst hkn
        obtain ⟨c1, c2, c3⟩ := closeAll s.conns tr
        have hcl : connected (tr ++ s.conns.map .closed) = [] := by
          rw [c1, ← h.conns]
          rw [List.filter_eq_nil_iff]
          intro x hx
          simp [hx]
        have hph : phase (tr ++ s.conns.map .closed ++ [.halted t0]) = .off := by
          rw [phase_append, c2, hp]
          show (if t0 = t0 then Phase.off else _) = _
          rw [if_pos rfl]
        have hco : connected (tr ++ s.conns.map .closed ++ [.halted t0]) = [] := by rw [connected_append]; exact hcl
        have hf1 : Fine (tr ++ s.conns.map .closed) := fine_closeAll _ _ h.fine (by rw [hp]; simp)
        show Inv k (tr ++ (s.conns.map .closed ++ [.halted t0])) (stopEnd s t0).2
        refine ⟨?_, ?_, ?_, ?_⟩
        · rw [← List.append_assoc]
          refine .off hph rfl ?_ rfl hb ?_ rfl
          · intro t' k
            show (if t' = t0 then _ else s.pc t') ≠ _ ∧ (if t' = t0 then _ else s.pc t') ≠ _
            by_cases e : t' = t0
            · rw [if_pos e]; simp
            · rw [if_neg e]; exact hf t' e k
          · intro i
            show s.listening i = _
            rw [hl]; simp
        · show [] = _
          rw [← List.append_assoc, hco]
        · refine tells_set h.tells (fun _ => rfl) (fun t' e => ?_) ?_
          · rw [← List.append_assoc, lastOf_snoc]
            show (if t0 = t' then _ else _) = _
            rw [if_neg (Ne.symm e), c3]
          · rw [← List.append_assoc, lastOf_snoc]; simp [TellsAt]
        · rw [← List.append_assoc]
          exact fine_snoc hf1 ⟨trivial, fun _ => hco⟩

/-- nothing but the connections changes -/
theorem Where.conns {n : Nat} {tr tr' : List Ev} {s : St} (h : Where n tr s) (hph : phase tr' = phase tr) (cs : List Nat) (hc : s.conns = [] → s.accepting = false → cs = []) :
    Where n tr' { s with conns := cs } := by
  cases h with
  | off hp hs hf ha hb hl hc0 => exact .off (by rw [hph]; exact hp) hs hf ha hb hl (hc hc0 ha)
  | starting t0 k hp hs ht hf ha hb hk hl => exact .starting t0 k (by rw [hph]; exact hp) hs ht hf ha hb hk hl
  | on hp hs hf ha hb hl => exact .on (by rw [hph]; exact hp) hs hf ha hb hl
  | stopping t0 k hp hs ht hf ha hb hk hl => exact .stopping t0 k (by rw [hph]; exact hp) hs ht hf ha hb hk hl

theorem tells_plain {tr : List Ev} {s s' : St} {e : Ev} (h : ∀ t, Tells tr s t) (hpc : s'.pc = s.pc) (he : ∀ t, lastOf t (tr ++ [e]) = lastOf t tr) : ∀ t, Tells (tr ++ [e]) s' t := by
  intro t
  unfold Tells
  rw [hpc, he]; exact h t

theorem off_empty {n : Nat} {tr : List Ev} {s : St} (h : Inv n tr s) (e : phase tr = .off) : connected tr = [] ∧ s.accepting = false ∧ s.beaconing = false ∧ ∀ i, s.listening i = false := by
  rw [← h.conns]
  cases h.place with
  | off _ _ _ ha hb hl hc => exact ⟨hc, ha, hb, hl⟩
  | starting _ _ hp => rw [hp] at e; cases e
  | on hp => rw [hp] at e; cases e
  | stopping _ _ hp => rw [hp] at e; cases e

theorem inv_step {n : Nat} {tr : List Ev} {s : St} (h : Inv n tr s) (o : Op) : Inv n (tr ++ (step n s o).1) (step n s o).2 := by
  cases o with
  | start t => exact inv_start h t
  | stop t => exact inv_stop h t
  | go t => exact inv_go h t
  | connect c =>
    simp only [step]
    split
    · rename_i hc
      have hph := phase_plain tr _ (plain_opened c)
      have hno : phase tr ≠ .off := fun e => by have := (off_empty h e).2.1; rw [hc.1] at this; cases this
      refine ⟨h.place.conns hph _ (fun _ e => by rw [hc.1] at e; cases e), ?_, tells_plain h.tells rfl (fun t => lastOf_snoc ..), fine_snoc h.fine ⟨hno, fun e => ?_⟩⟩
      · rw [connected_append]
        show s.conns ++ [c] = connected tr ++ [c]
        rw [h.conns]
      · rw [hph] at e; exact absurd e hno
    · simpa using h
  | disconnect c =>
    simp only [step]
    split
    · rename_i hc
      have hph := phase_plain tr _ (plain_closed c)
      have hno : phase tr ≠ .off := fun e => by have := (off_empty h e).1; rw [← h.conns] at this; rw [this] at hc; cases hc
      refine ⟨h.place.conns hph _ (fun e _ => by rw [e]; rfl), ?_, tells_plain h.tells rfl (fun t => lastOf_snoc ..), fine_snoc h.fine ⟨trivial, fun e => ?_⟩⟩
      · rw [connected_append]
        show s.conns.filter _ = (connected tr).filter _
        rw [h.conns]
      · rw [hph] at e; exact absurd e hno
    · simpa using h
  | timer =>
    simp only [step]
    split
    · rename_i hb
      have hph := phase_plain tr _ plain_beacon
      have hon : phase tr = .on := by
        cases h.place with
        | off _ _ _ _ hb' => rw [hb] at hb'; cases hb'
        | starting _ _ _ _ _ _ _ hb' => rw [hb] at hb'; cases hb'
        | on hp => exact hp
        | stopping _ _ _ _ _ _ _ hb' => rw [hb] at hb'; cases hb'
      refine ⟨h.place.silent hph, by rw [connected_append]; exact h.conns, tells_plain h.tells rfl (fun t => lastOf_snoc ..), fine_snoc h.fine ⟨hon, fun e => ?_⟩⟩
      rw [hph, hon] at e; cases e
    · simpa using h
  | search i =>
    simp only [step]
    split
    · rename_i hl
      have hph := phase_plain tr _ (plain_searched i)
      have hno : phase tr ≠ .off := fun e => by have := (off_empty h e).2.2.2 i; rw [hl] at this; cases this
      refine ⟨h.place.silent hph, by rw [connected_append]; exact h.conns, tells_plain h.tells rfl (fun t => lastOf_snoc ..), fine_snoc h.fine ⟨hno, fun e => ?_⟩⟩
      rw [hph] at e; exact absurd e hno
    · simpa using h

theorem inv_run (n : Nat) (l : List Op) : ∀ {tr : List Ev} {s : St}, Inv n tr s → Inv n (tr ++ (run n l s).1) (run n l s).2 := by
  induction l with
  | nil => intro tr s h; simpa [run] using h
  | cons o l ih =>
    intro tr s h
    have := ih (inv_step h o)
    rw [List.append_assoc] at this
    exact this

theorem inv_init (n : Nat) : Inv n [] {} := by
  refine ⟨.off rfl rfl (fun t k => ⟨by simp, by simp⟩) rfl rfl (fun _ => rfl) rfl, rfl, fun t => trivial, fun a e b h => ?_⟩
  simp at h

theorem inv_all (n : Nat) (ops : List Op) : Inv n (run n ops {}).1 (run n ops {}).2 := by
  have := inv_run n ops (inv_init n)
  rwa [List.nil_append] at this

/-! ### C53 -/

/-- C53: whatever threads call start() and stop() at the same time, those which act do so one after the other: start() when the server is stopped and only then, stop() when it
runs and only then, none of them before the one before has ended -/
theorem C53_turns_partial (n : Nat) (ops : List Op) (a b : List Ev) (h : (run n ops {}).1 = a ++ b) : phase a ≠ .wrong := by
  have hw : ∀ (l : List Ev), l.foldl next .wrong = .wrong := by
    intro l
    induction l with
    | nil => rfl
    | cons e l ih => cases e <;> exact ih
  intro ha
  have : phase (run n ops {}).1 = .wrong := by rw [h, phase_append, ha, hw]
  cases (inv_all n ops).place with
  | off hp => rw [hp] at this; cases this
  | starting _ _ hp => rw [hp] at this; cases this
  | on hp => rw [hp] at this; cases this
  | stopping _ _ hp => rw [hp] at this; cases this

/-- C53: a call to start() acts when the server is stopped -/
theorem C53_start_partial (n : Nat) (ops : List Op) (t : Nat) (hi : (run n ops {}).2.pc t = .idle) :
    (step n (run n ops {}).2 (.start t)).1 = if phase (run n ops {}).1 = .off then [.began t] else [] := by
  have h := inv_all n ops
  generalize (run n ops {}).2 = s at *
  generalize (run n ops {}).1 = tr at *
  show (start s t).1 = _
  unfold start
  rw [if_neg (by rw [hi]; simp)]
  cases h.place with
  | off hp hs => rw [if_neg (by rw [hs]; simp), if_pos hp]
  | starting _ _ hp hs => rw [if_pos (by rw [hs]; simp), if_neg (by rw [hp]; simp)]
  | on hp hs => rw [if_pos (by rw [hs]; simp), if_neg (by rw [hp]; simp)]
  | stopping _ _ hp hs => rw [if_pos (by rw [hs]; simp), if_neg (by rw [hp]; simp)]

/-- C53: a call to stop() acts when the server runs -/
theorem C53_stop_partial (n : Nat) (ops : List Op) (t : Nat) (hi : (run n ops {}).2.pc t = .idle) :
    (step n (run n ops {}).2 (.stop t)).1 = if phase (run n ops {}).1 = .on then [.halting t] else [] := by
  have h := inv_all n ops
  generalize (run n ops {}).2 = s at *
  generalize (run n ops {}).1 = tr at *
  show (stop s t).1 = _
  unfold stop
  rw [if_neg (by rw [hi]; simp)]
  cases h.place with
  | on hp hs => rw [if_neg (by rw [hs]; simp), if_pos hp]
  | starting _ _ hp hs => rw [if_pos (by rw [hs]; simp), if_neg (by rw [hp]; simp)]
  | off hp hs => rw [if_pos (by rw [hs]; simp), if_neg (by rw [hp]; simp)]
  | stopping _ _ hp hs => rw [if_pos (by rw [hs]; simp), if_neg (by rw [hp]; simp)]

/-- C53: a call which does not act changes nothing but the thread which makes it: no connection, listener or beacon -/
theorem C53_idle_partial (n : Nat) (s : St) (t : Nat) (o : Op) (ho : o = .start t ∨ o = .stop t) (h : (step n s o).1 = []) :
    (step n s o).2.state = s.state ∧ (step n s o).2.accepting = s.accepting ∧ (step n s o).2.listening = s.listening ∧ (step n s o).2.beaconing = s.beaconing ∧
    (step n s o).2.conns = s.conns ∧ ∀ t', t' ≠ t → (step n s o).2.pc t' = s.pc t' := by
  have hset : ∀ p, ∀ t', t' ≠ t → (s.setPc t p).pc t' = s.pc t' := fun p t' e => by
    show (if t' = t then p else s.pc t') = _
    rw [if_neg e]
  rcases ho with rfl | rfl
  · simp only [step, start] at *
    by_cases h1 : s.pc t ≠ .idle
    · rw [if_pos h1]; exact ⟨rfl, rfl, rfl, rfl, rfl, fun _ _ => rfl⟩
    · rw [if_neg h1] at *
      by_cases h2 : s.state ≠ .stopped
      · rw [if_pos h2]; exact ⟨rfl, rfl, rfl, rfl, rfl, hset _⟩
      · rw [if_neg h2] at h; cases h
  · simp only [step, stop] at *
    by_cases h1 : s.pc t ≠ .idle
    · rw [if_pos h1]; exact ⟨rfl, rfl, rfl, rfl, rfl, fun _ _ => rfl⟩
    · rw [if_neg h1] at *
      by_cases h2 : s.state ≠ .running
      · rw [if_pos h2]; exact ⟨rfl, rfl, rfl, rfl, rfl, hset _⟩
      · rw [if_neg h2] at h; cases h

/-- C53: as long as the server is stopped no connection is open -/
theorem C53_closed_partial (n : Nat) (ops : List Op) (a b : List Ev) (h : (run n ops {}).1 = a ++ b) (hp : phase a = .off) : connected a = [] := by
  have hf := (inv_all n ops).fine
  rcases List.eq_nil_or_concat a with rfl | ⟨a', e, rfl⟩
  · rfl
  · rw [List.concat_eq_append] at *
    rw [List.append_assoc] at h
    exact (hf a' e b h).2 hp

/-- C53: beacons are only sent while the server runs -/
theorem C53_beacon_partial (n : Nat) (ops : List Op) (a b : List Ev) (h : (run n ops {}).1 = a ++ .beacon :: b) : phase a = .on :=
  ((inv_all n ops).fine a _ b h).1

/-- C53: no connection is accepted while the server is stopped -/
theorem C53_accept_partial (n : Nat) (ops : List Op) (a b : List Ev) (c : Nat) (h : (run n ops {}).1 = a ++ .opened c :: b) : phase a ≠ .off :=
  ((inv_all n ops).fine a _ b h).1

/-- C53: and no search is looked at -/
theorem C53_search_partial (n : Nat) (ops : List Op) (a b : List Ev) (i : Nat) (h : (run n ops {}).1 = a ++ .searched i :: b) : phase a ≠ .off :=
  ((inv_all n ops).fine a _ b h).1

/-- C53: start() which acts returns after its work is done -/
theorem C53_started_partial (n : Nat) (ops : List Op) (a b : List Ev) (t : Nat) (h : (run n ops {}).1 = a ++ .startRet t true :: b) : lastOf t a = some (.up t) :=
  ((inv_all n ops).fine a _ b h).1

/-- C53: stop() which acts returns after its work is done -/
theorem C53_stopped_partial (n : Nat) (ops : List Op) (a b : List Ev) (t : Nat) (h : (run n ops {}).1 = a ++ .stopRet t true :: b) : lastOf t a = some (.halted t) :=
  ((inv_all n ops).fine a _ b h).1

/-- C53: a server which runs takes connections and searches on all of its listeners, and sends beacons -/
theorem C53_serves_partial (n : Nat) (ops : List Op) (hp : phase (run n ops {}).1 = .on) :
    (∀ c, c ∉ connected (run n ops {}).1 → (step n (run n ops {}).2 (.connect c)).1 = [.opened c]) ∧ (step n (run n ops {}).2 .timer).1 = [.beacon] ∧
    ∀ i, i < n → (step n (run n ops {}).2 (.search i)).1 = [.searched i] := by
  have h := inv_all n ops
  generalize (run n ops {}).2 = s at *
  generalize (run n ops {}).1 = tr at *
  cases h.place with
  | off hp' => rw [hp] at hp'; cases hp'
  | starting _ _ hp' => rw [hp] at hp'; cases hp'
  | stopping _ _ hp' => rw [hp] at hp'; cases hp'
  | on _ _ _ ha hb hl =>
    refine ⟨fun c hc => ?_, ?_, fun i hi => ?_⟩
    · rw [← h.conns] at hc
      simp only [step]; rw [if_pos ⟨ha, hc⟩]
    · simp only [step]; rw [if_pos hb]
    · simp only [step]; rw [if_pos (by rw [hl]; simpa using hi)]

theorem go_ends (n : Nat) (t : Nat) : ∀ (m k : Nat) (s : St), m + k = n → s.pc t = .starting k ∨ s.pc t = .stopping k →
    ∃ e, (e = .startRet t true ∨ e = .stopRet t true) ∧ e ∈ (run n (List.replicate (m + 2) (.go t)) s).1 ∧ (run n (List.replicate (m + 2) (.go t)) s).2.pc t = .idle := by
  intro m
  induction m with
  | zero =>
    intro k s hk hp
    have hkn : ¬k < n := by omega
    rcases hp with hp | hp
    · refine ⟨.startRet t true, Or.inl rfl, ?_⟩
      have e1 : go n s t = startEnd s t := by simp only [go, hp]; rw [if_neg hkn]
      have e2 : (startEnd s t).2.pc t = .started true := by show (if t = t then _ else _) = _; rw [if_pos rfl]
      have e3 : go n (startEnd s t).2 t = ([.startRet t true], (startEnd s t).2.setPc t .idle) := by simp only [go, e2]
      have er : run n (List.replicate (0 + 2) (.go t)) s = ((startEnd s t).1 ++ ([.startRet t true] ++ []), (startEnd s t).2.setPc t .idle) := by
        show ((go n s t).1 ++ ((go n (go n s t).2 t).1 ++ []), (go n (go n s t).2 t).2) = _
        rw [e1, e3]
      rw [er]
      refine ⟨by simp, ?_⟩
      show (if t = t then _ else _) = _; rw [if_pos rfl]
    · refine ⟨.stopRet t true, Or.inr rfl, ?_⟩
      have e1 : go n s t = stopEnd s t := by simp only [go, hp]; rw [if_neg hkn]
      have e2 : (stopEnd s t).2.pc t = .stopped true := by show (if t = t then _ else _) = _; rw [if_pos rfl]
      have e3 : go n (stopEnd s t).2 t = ([.stopRet t true], (stopEnd s t).2.setPc t .idle) := by simp only [go, e2]
      have er : run n (List.replicate (0 + 2) (.go t)) s = ((stopEnd s t).1 ++ ([.stopRet t true] ++ []), (stopEnd s t).2.setPc t .idle) := by
        show ((go n s t).1 ++ ((go n (go n s t).2 t).1 ++ []), (go n (go n s t).2 t).2) = _
        rw [e1, e3]
      rw [er]
      refine ⟨by simp, ?_⟩
      show (if t = t then _ else _) = _; rw [if_pos rfl]
  | succ m ih =>
    intro k s hk hp
    have hkn : k < n := by omega
    have hs : (go n s t).2.pc t = .starting (k + 1) ∨ (go n s t).2.pc t = .stopping (k + 1) := by
      rcases hp with hp | hp
      · left
        simp only [go, hp]; rw [if_pos hkn]
        show (if t = t then _ else _) = _; rw [if_pos rfl]
      · right
        simp only [go, hp]; rw [if_pos hkn]
        show (if t = t then _ else _) = _; rw [if_pos rfl]
    obtain ⟨e, h1, h2, h3⟩ := ih (k + 1) (go n s t).2 (by omega) hs
    exact ⟨e, h1, List.mem_append_right _ h2, h3⟩

/-- C53: start() and stop() return, other threads are not needed for that -/
theorem C53_returns_partial (n : Nat) (ops : List Op) (t : Nat) (hi : (run n ops {}).2.pc t ≠ .idle) :
    ∃ m, (∃ e acted, (e = .startRet t acted ∨ e = .stopRet t acted) ∧ e ∈ (run n (List.replicate m (.go t)) (run n ops {}).2).1) ∧
      (run n (List.replicate m (.go t)) (run n ops {}).2).2.pc t = .idle := by
  have h := inv_all n ops
  generalize (run n ops {}).2 = s at *
  cases hp : s.pc t with
  | idle => exact absurd hp hi
  | started acted =>
    refine ⟨1, ⟨.startRet t acted, acted, Or.inl rfl, ?_⟩, ?_⟩
    · simp [run, step, go, hp]
    · simp [run, step, go, hp, St.setPc]
  | stopped acted =>
    refine ⟨1, ⟨.stopRet t acted, acted, Or.inr rfl, ?_⟩, ?_⟩
    · simp [run, step, go, hp]
    · simp [run, step, go, hp, St.setPc]
  | starting k =>
    have hk : k ≤ n := by
      cases h.place with
      | off _ _ hf => exact absurd hp (hf t k).1
      | on _ _ hf => exact absurd hp (hf t k).1
      | stopping t0 k0 _ _ ht hf =>
        by_cases e : t = t0
        · rw [← e, hp] at ht; cases ht
        · exact absurd hp (hf t e k).1
      | starting t0 k0 _ _ ht hf _ _ hk =>
        by_cases e : t = t0
        · rw [← e, hp] at ht; cases ht; exact hk
        · exact absurd hp (hf t e k).1
    obtain ⟨e, h1, h2, h3⟩ := go_ends n t (n - k) k s (by omega) (Or.inl hp)
    exact ⟨_, ⟨e, true, h1, h2⟩, h3⟩
  | stopping k =>
    have hk : k ≤ n := by
      cases h.place with
      | off _ _ hf => exact absurd hp (hf t k).2
      | on _ _ hf => exact absurd hp (hf t k).2
      | starting t0 k0 _ _ ht hf =>
        by_cases e : t = t0
        · rw [← e, hp] at ht; cases ht
        · exact absurd hp (hf t e k).2
      | stopping t0 k0 _ _ ht hf _ _ hk =>
        by_cases e : t = t0
        · rw [← e, hp] at ht; cases ht; exact hk
        · exact absurd hp (hf t e k).2
    obtain ⟨e, h1, h2, h3⟩ := go_ends n t (n - k) k s (by omega) (Or.inr hp)
    exact ⟨_, ⟨e, true, h1, h2⟩, h3⟩

/-- C53, what is wrong: stop() which is called while another thread is inside of start() returns at once and does nothing: after both have returned the server runs, for any number of
listeners -/
theorem C53_stop_lost (n : Nat) : ∃ ops : List Op, (∃ a b, (run n ops {}).1 = a ++ .stopRet 2 false :: b ∧ (∃ t, Ev.began t ∈ a) ∧ ∀ t, Ev.began t ∉ b) ∧
    (∀ t, (run n ops {}).2.pc t = .idle) ∧ phase (run n ops {}).1 = .on := by
  have head : (run n [.start 1, .stop 2, .go 2] {}).1 = [.began 1, .stopRet 2 false] := rfl
  have run_append : ∀ (a b : List Op) s, run n (a ++ b) s = ((run n a s).1 ++ (run n b (run n a s).2).1, (run n b (run n a s).2).2) := by
    intro a b
    induction a with
    | nil => intro s; rfl
    | cons o a ih =>
      intro s
      show ((step n s o).1 ++ (run n (a ++ b) (step n s o).2).1, (run n (a ++ b) (step n s o).2).2) = _
      rw [ih]
      simp only [run, List.append_assoc]
  have key : ∀ (m k : Nat) (s : St), m + k = n → s.pc 1 = .starting k → (∀ t, t ≠ 1 → s.pc t = .idle) →
      (run n (List.replicate (m + 2) (.go 1)) s).1 = [.up 1, .startRet 1 true] ∧ ∀ t, (run n (List.replicate (m + 2) (.go 1)) s).2.pc t = .idle := by
    intro m
    induction m with
    | zero =>
      intro k s hk hp ho
      have hkn : ¬k < n := by omega
      have e1 : go n s 1 = startEnd s 1 := by simp only [go, hp]; rw [if_neg hkn]
      have e3 : go n (startEnd s 1).2 1 = ([.startRet 1 true], (startEnd s 1).2.setPc 1 .idle) := rfl
      have er : run n (List.replicate (0 + 2) (.go 1)) s = ((startEnd s 1).1 ++ ([.startRet 1 true] ++ []), (startEnd s 1).2.setPc 1 .idle) := by
        show ((go n s 1).1 ++ ((go n (go n s 1).2 1).1 ++ []), (go n (go n s 1).2 1).2) = _
        rw [e1, e3]
      rw [er]
      refine ⟨rfl, fun t => ?_⟩
      show (if t = 1 then Pc.idle else if t = 1 then _ else s.pc t) = _
      by_cases e : t = 1
      · rw [if_pos e]
      · rw [if_neg e, if_neg e]; exact ho t e
    | succ m ih =>
      intro k s hk hp ho
      have hkn : k < n := by omega
      have e1 : go n s 1 = ([], St.setPc (s.listen k true) 1 (.starting (k + 1))) := by simp only [go, hp]; rw [if_pos hkn]
      have := ih (k + 1) (St.setPc (s.listen k true) 1 (.starting (k + 1))) (by omega) rfl (fun t e => by
        show (if t = 1 then _ else s.pc t) = _
        rw [if_neg e]; exact ho t e)
      have er : run n (List.replicate (m + 1 + 2) (.go 1)) s = run n (List.replicate (m + 2) (.go 1)) (St.setPc (s.listen k true) 1 (.starting (k + 1))) := by
        show ((go n s 1).1 ++ (run n (List.replicate (m + 2) (.go 1)) (go n s 1).2).1, (run n (List.replicate (m + 2) (.go 1)) (go n s 1).2).2) = _
        rw [e1]; rfl
      rw [er]
      exact this
  obtain ⟨k1, k2⟩ := key n 0 (run n [.start 1, .stop 2, .go 2] {}).2 rfl rfl (fun t e => by
    show (if t = 2 then Pc.idle else if t = 2 then _ else if t = 1 then _ else Pc.idle) = _
    by_cases e2 : t = 2
    · rw [if_pos e2]
    · rw [if_neg e2, if_neg e2, if_neg e])
  refine ⟨[.start 1, .stop 2, .go 2] ++ List.replicate (n + 2) (.go 1), ⟨[.began 1], [.up 1, .startRet 1 true], ?_, ⟨1, by simp⟩, by simp⟩, ?_, ?_⟩
  · rw [run_append, head, k1]; rfl
  · rw [run_append]; exact k2
  · rw [run_append, head, k1]; rfl

/-- C53, what is wrong: stop() which is called while another thread is inside of stop() returns at once, while connections are still open -/
theorem C53_stop_early : ∃ ops : List Op, ∃ a, (run 1 ops {}).1 = a ++ [.stopRet 2 false] ∧ connected a ≠ [] ∧ ∀ t, Ev.began t ∉ a.drop 1 := by
  refine ⟨[.start 1, .go 1, .go 1, .go 1, .connect 5, .stop 1, .stop 2, .go 2], [.began 1, .up 1, .startRet 1 true, .opened 5, .halting 1], by decide, by decide, by simp⟩

/-! ### examples -/

/-- two threads, of which the second one's start() comes too late -/
def exampleOps : List Op := [.start 1, .start 2, .search 0, .go 1, .search 0, .connect 5, .go 1, .go 2, .timer, .stop 2, .go 1, .go 2, .search 0, .timer, .connect 6, .go 2, .connect 7, .go 2, .start 1, .go 1]

/-- what is seen up to when the server runs -/
def exampleUp : List Ev := [.began 1, .searched 0, .opened 5, .up 1, .startRet 2 false]
/-- and from there until it is stopped again -/
def exampleDown : List Ev := [.halting 2, .startRet 1 true, .opened 6, .closed 5, .closed 6, .halted 2]

example : (run 1 exampleOps {}).1 = exampleUp ++ .beacon :: (exampleDown ++ [.stopRet 2 true, .began 1]) := by decide
example : phase exampleUp = .on ∧ connected exampleUp = [5] := by decide
/-- C53_closed -/
example : (run 1 exampleOps {}).1 = (exampleUp ++ [.beacon] ++ exampleDown) ++ [.stopRet 2 true, .began 1] ∧ phase (exampleUp ++ [.beacon] ++ exampleDown) = .off := by decide
/-- C53_accept, C53_search, C53_started, C53_stopped -/
example : (run 1 exampleOps {}).1 = [.began 1, .searched 0] ++ .opened 5 :: ([.up 1, .startRet 2 false, .beacon] ++ exampleDown ++ [.stopRet 2 true, .began 1]) := by decide
example : (run 1 exampleOps {}).1 = [.began 1] ++ .searched 0 :: ([.opened 5, .up 1, .startRet 2 false, .beacon] ++ exampleDown ++ [.stopRet 2 true, .began 1]) := by decide
example : (run 1 exampleOps {}).1 = (exampleUp ++ [.beacon, .halting 2]) ++ .startRet 1 true :: [.opened 6, .closed 5, .closed 6, .halted 2, .stopRet 2 true, .began 1] := by decide
example : (run 1 exampleOps {}).1 = (exampleUp ++ [.beacon] ++ exampleDown) ++ .stopRet 2 true :: [.began 1] := by decide
/-- C53_start, C53_stop, both ways -/
example : (run 1 (exampleOps.take 18) {}).2.pc 1 = .idle ∧ phase (run 1 (exampleOps.take 18) {}).1 = .off := by decide
example : (run 1 (exampleOps.take 9) {}).2.pc 2 = .idle ∧ phase (run 1 (exampleOps.take 9) {}).1 = .on := by decide
/-- C53_idle -/
example : (step 1 (run 1 (exampleOps.take 1) {}).2 (.start 2)).1 = [] ∧ (step 1 (run 1 (exampleOps.take 1) {}).2 (.stop 2)).1 = [] := by decide
/-- C53_returns -/
example : (run 1 (exampleOps.take 10) {}).2.pc 2 = .stopping 0 := by decide

end Pvxs.Props.Lif
