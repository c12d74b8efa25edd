import Verif.Lemmas.ClientChan
import Verif.Spec.ClientChan
/-
More of what holds after each event of Verif.Model.ClientChan: connections which are not used are gone, channels answer when servers do,
and nothing which was asked for is lost.
-/
namespace Pvxs.ClientChan

/-- an object nothing refers to goes, and that is all -/
theorem reapOne_frame {s : Ctx} (k : Nat) (h : Inv none [] none none s) :
    (reapOne s k).chans = s.chans ∧ (reapOne s k).sent = s.sent ∧ (reapOne s k).ns = s.ns ∧ (reapOne s k).nchan = s.nchan ∧ (reapOne s k).nconn = s.nconn ∧
    (reapOne s k).ring = s.ring ∧ (∀ k', k' ≠ k → (reapOne s k).conns k' = s.conns k') ∧ (used s k = true → reapOne s k = s) ∧
    (used s k = false → ((reapOne s k).conns k).alive = false) ∧
    ((reapOne s k).byAddr = s.byAddr ∨ (used s k = false ∧ (s.conns k).alive = true ∧ (reapOne s k).byAddr = eraseKey (s.conns k).addr s.byAddr)) := by
  unfold reapOne
  split
  · rename_i hc
    have hn := ofConn_nil h hc.2
    have hcl : cleanup k s = cleared k (shut k s) := by unfold cleanup; rw [hn]; rfl
    rw [hcl]
    have e : ∀ t : Ctx, (cleared k t).chans = t.chans ∧ (cleared k t).sent = t.sent ∧ (cleared k t).ns = t.ns ∧ (cleared k t).nchan = t.nchan ∧ (cleared k t).nconn = t.nconn ∧
        (cleared k t).ring = t.ring ∧ (∀ k', k' ≠ k → (cleared k t).conns k' = t.conns k') ∧ (cleared k t).byAddr = t.byAddr := by
      intro t
      unfold cleared
      split
      · refine ⟨rfl, rfl, rfl, rfl, rfl, rfl, fun k' hk => ?_, rfl⟩
        simp [Ctx.setConn, hk]
      · refine ⟨rfl, rfl, rfl, rfl, rfl, rfl, fun k' hk => ?_, rfl⟩
        simp [Ctx.setConn, hk]
    obtain ⟨a1, a2, a3, a4, a5, a6, a7, a8⟩ := e (shut k s)
    refine ⟨a1, a2, a3, a4, a5, a6, fun k' hk => ?_, fun hu => ?_, fun _ => ?_, ?_⟩
    · simp only [Ctx.setConn, if_neg hk]
      rw [a7 k' hk]; simp [shut, Ctx.setConn, hk]
    · rw [hc.2] at hu; cases hu
    · simp [Ctx.setConn]
    · exact .inr ⟨hc.2, hc.1, a8⟩
  · rename_i hc
    refine ⟨rfl, rfl, rfl, rfl, rfl, rfl, fun _ _ => rfl, fun _ => rfl, fun hu => ?_, .inl rfl⟩
    cases ha : (s.conns k).alive with
    | false => rfl
    | true => exact absurd ⟨ha, hu⟩ hc

theorem used_congr {s t : Ctx} (h1 : t.chans = s.chans) (h2 : t.ns = s.ns) (h3 : t.nchan = s.nchan) (k : Nat) : used t k = used s k := by
  unfold used; rw [h1, h2, h3]

theorem fold_reap : ∀ (l : List Nat) {s : Ctx}, Inv none [] none none s →
    (l.foldl reapOne s).chans = s.chans ∧ (l.foldl reapOne s).sent = s.sent ∧ (l.foldl reapOne s).ns = s.ns ∧ (l.foldl reapOne s).nchan = s.nchan ∧
    (l.foldl reapOne s).nconn = s.nconn ∧ (l.foldl reapOne s).ring = s.ring ∧ (∀ k, used s k = true → (l.foldl reapOne s).conns k = s.conns k) ∧
    (∀ k, k ∈ l → ((l.foldl reapOne s).conns k).alive = true → used s k = true) ∧
    (∀ k, ((l.foldl reapOne s).conns k).alive = true → (l.foldl reapOne s).conns k = s.conns k) ∧
    (∀ a k, (a, k) ∈ s.byAddr → (∀ k', (s.conns k').alive = true → used s k' = false → (s.conns k').addr ≠ a) → (a, k) ∈ (l.foldl reapOne s).byAddr)
  | [], s, _ => ⟨rfl, rfl, rfl, rfl, rfl, rfl, fun _ _ => rfl, fun _ h _ => absurd h List.not_mem_nil, fun _ _ => rfl, fun _ _ h _ => h⟩
  | k :: l, s, h => by
    obtain ⟨a1, a2, a3, a4, a5, a6, a7, a8, a9, a10⟩ := reapOne_frame k h
    obtain ⟨b1, b2, b3, b4, b5, b6, b7, b8, b9, b10⟩ := fold_reap l (inv_reapOne k h)
    have hu := used_congr a1 a3 a4
    show (l.foldl reapOne (reapOne s k)).chans = s.chans ∧ (l.foldl reapOne (reapOne s k)).sent = s.sent ∧ (l.foldl reapOne (reapOne s k)).ns = s.ns ∧
      (l.foldl reapOne (reapOne s k)).nchan = s.nchan ∧ (l.foldl reapOne (reapOne s k)).nconn = s.nconn ∧ (l.foldl reapOne (reapOne s k)).ring = s.ring ∧
      (∀ k', used s k' = true → (l.foldl reapOne (reapOne s k)).conns k' = s.conns k') ∧
      (∀ k', k' ∈ k :: l → ((l.foldl reapOne (reapOne s k)).conns k').alive = true → used s k' = true) ∧
      (∀ k', ((l.foldl reapOne (reapOne s k)).conns k').alive = true → (l.foldl reapOne (reapOne s k)).conns k' = s.conns k') ∧
      (∀ a k', (a, k') ∈ s.byAddr → (∀ k', (s.conns k').alive = true → used s k' = false → (s.conns k').addr ≠ a) → (a, k') ∈ (l.foldl reapOne (reapOne s k)).byAddr)
    have same : ∀ k', ((reapOne s k).conns k').alive = true → (reapOne s k).conns k' = s.conns k' := by
      intro k' ha
      by_cases e : k' = k
      · subst e
        cases huk : used s k' with
        | true => rw [a8 huk]
        | false => rw [a9 huk] at ha; cases ha
      · exact a7 k' e
    refine ⟨b1.trans a1, b2.trans a2, b3.trans a3, b4.trans a4, b5.trans a5, b6.trans a6, fun k' hk' => ?_, fun k' hk' ha => ?_, fun k' ha => ?_, fun a k' hm hd => ?_⟩
    · rw [b7 k' (by rw [hu]; exact hk')]
      by_cases e : k' = k
      · subst e; rw [a8 hk']
      · exact a7 k' e
    · rcases List.mem_cons.1 hk' with e | hk'
      · subst e
        cases huk : used s k' with
        | true => rfl
        | false =>
          rw [b9 k' ha, a9 huk] at ha; cases ha
      · rw [← hu]; exact b8 k' hk' ha
    · have := b9 k' ha
      rw [this]; exact same k' (this ▸ ha)
    · apply b10
      · rcases a10 with e | ⟨e1, e2, e3⟩
        · rw [e]; exact hm
        · rw [e3]; exact mem_eraseKey.2 ⟨hm, fun e => hd k e2 e1 e.symm⟩
      · intro k'' ha'' hu''
        rw [hu] at hu''
        have e := same k'' ha''
        rw [e] at ha'' ⊢
        exact hd k'' ha'' hu''

theorem reap_frame {s : Ctx} (h : Inv none [] none none s) :
    (reap s).chans = s.chans ∧ (reap s).sent = s.sent ∧ (reap s).ns = s.ns ∧ (reap s).nchan = s.nchan ∧ (reap s).nconn = s.nconn ∧ (reap s).ring = s.ring ∧
    (∀ k, used s k = true → (reap s).conns k = s.conns k) ∧ (∀ k, ((reap s).conns k).alive = true → used s k = true) ∧
    (∀ k, ((reap s).conns k).alive = true → (reap s).conns k = s.conns k) ∧
    (∀ a k, (a, k) ∈ s.byAddr → (∀ k', (s.conns k').alive = true → used s k' = false → (s.conns k').addr ≠ a) → (a, k) ∈ (reap s).byAddr) := by
  obtain ⟨b1, b2, b3, b4, b5, b6, b7, b8, b9, b10⟩ := fold_reap (List.range s.nconn) h
  refine ⟨b1, b2, b3, b4, b5, b6, b7, fun k ha => b8 k ?_ ha, b9, b10⟩
  have e : (reap s).conns k = s.conns k := b9 k ha
  have ha' : ((reap s).conns k).alive = true := ha
  rw [e] at ha'
  exact List.mem_range.2 (h.kbound k ha')

theorem used_of {s : Ctx} {c k : Nat} (hc : c < s.nchan) (ha : (s.chans c).alive = true) (hk : (s.chans c).conn = some k) : used s k = true := by
  unfold used
  rw [Bool.or_eq_true]
  exact .inl (List.any_eq_true.2 ⟨c, List.mem_range.2 hc, by simp [ha, hk]⟩)

/-! ### what has been asked for -/

theorem keeps_startOne (c k : Nat) (s : Ctx) (op : Nat) : Keeps s (startOne c k s op) := by
  unfold startOne
  refine (keeps_send s _).trans ((keeps_setConn _ k _).trans (keeps_setChan _ c _ rfl ?_))
  intro o h
  exact h.imp id (fun h => by rw [List.map_append]; exact List.mem_append_left _ h)

theorem startAll_owes (c k : Nat) : ∀ (w : List Nat) (s : Ctx) (op : Nat), op ∈ w → Owes (w.foldl (startOne c k) s) c op
  | o :: w, s, op, h => by
    show Owes (w.foldl (startOne c k) (startOne c k s o)) c op
    rcases List.mem_cons.1 h with e | h
    · subst e
      refine (keeps_foldl _ (fun s a => keeps_startOne c k s a) w _).owes c op (.inr ?_)
      simp [startOne, Ctx.setChan]
    · exact startAll_owes c k w _ op h

theorem keeps_createOperations (c : Nat) (s : Ctx) : Keeps s (createOperations c s) := by
  unfold createOperations
  split
  · exact Keeps.rfl' s
  · split
    · exact keeps_crash s
    · rename_i k _
      have hf := keeps_foldl (startOne c k) (fun s a => keeps_startOne c k s a) (s.chans c).waiting (s.setChan c fun x => { x with waiting := [] })
      refine ⟨fun c' => ?_, fun c' op h => ?_, hf.nchan, hf.nconn⟩
      · rw [hf.alive]; simp only [Ctx.setChan]; split
        · rename_i e; subst e; rfl
        · rfl
      · by_cases e : c' = c
        · subst e
          rcases h with h | h
          · exact startAll_owes c' k _ _ op h
          · refine hf.owes c' op (.inr ?_)
            simpa [Ctx.setChan] using h
        · refine hf.owes c' op ?_
          unfold Owes at *
          simpa [Ctx.setChan, e] using h

/-- events which do not end anything -/
def Harmless : Ev → Prop
  | .newChan _ _ => False
  | .finish _ _ => False
  | .drop _ => False
  | .close => False
  | _ => True

theorem keeps_nsLoop (e : Bool) : ∀ (l : List (Nat × Option Nat)) (s : Ctx), Keeps s (nsLoop e l s).2
  | [], s => Keeps.rfl' s
  | (a, o) :: l, s => by
    unfold nsLoop
    split
    · exact keeps_nsLoop e l s
    · cases hb : build a false e s with
      | mk o t =>
        have := keeps_build (k := 0) hb
        cases o with
        | none => exact this
        | some k => exact this.trans (keeps_nsLoop e l t)

theorem keeps_stepRaw {s : Ctx} {e : Ev} (he : Harmless e) : Keeps s (stepRaw s e) := by
  cases e with
  | newChan _ _ => exact he.elim
  | finish _ _ => exact he.elim
  | drop _ => exact he.elim
  | close => exact he.elim
  | reply c a e =>
    show Keeps s (reply c a e s)
    unfold reply; split
    · cases hb : build a false e s with
      | mk o t =>
        have := keeps_build (k := 0) hb
        cases o with
        | none => exact this
        | some k => exact this.trans (keeps_attach c k t)
    · exact Keeps.rfl' s
  | connected k =>
    simp only [stepRaw]; split
    · exact keeps_setConn s k _
    · exact Keeps.rfl' s
  | validated k =>
    simp only [stepRaw]; split
    · exact (keeps_setConn s k _).trans (keeps_createChannels k _)
    · exact Keeps.rfl' s
  | created k c sid ok =>
    show Keeps s (created k c sid ok s)
    unfold created; split
    · exact Keeps.rfl' s
    · split
      · simp only []; split
        · exact (keeps_setConn s k _).trans (keeps_send _ _)
        · exact keeps_setConn s k _
      · simp only []; split
        · exact (keeps_setConn s k _).trans ((keeps_setChan _ c (fun x => { x with st := .active, sid := sid }) rfl (fun _ h => h)).trans
            ((keeps_setConn _ k _).trans (keeps_createOperations c _)))
        · have := (keeps_setConn s k fun x => { x with creating := eraseCid c x.creating }).trans (keeps_setChan _ c (fun x => { x with st := .searching }) rfl (fun _ h => h))
          exact ⟨this.alive, this.owes, this.nchan, this.nconn⟩
  | destroyed k sid =>
    show Keeps s (destroyed k sid s)
    unfold destroyed; split
    · exact Keeps.rfl' s
    · split
      · split
        · exact (keeps_setConn s k _).trans (keeps_disconnect _ _)
        · exact Keeps.rfl' s
      · exact Keeps.rfl' s
  | lost k =>
    simp only [stepRaw]; split
    · exact (keeps_setConn s k _).trans (keeps_cleanup k _)
    · exact Keeps.rfl' s
  | violation k =>
    simp only [stepRaw]; split
    · exact keeps_cleanup k _
    · exact Keeps.rfl' s
  | retry k e =>
    simp only [stepRaw, retry]; split
    · exact keeps_setConn s k _
    · exact Keeps.rfl' s
  | start c op =>
    simp only [stepRaw]; split
    · refine (keeps_setChan s c _ rfl ?_).trans (keeps_createOperations c _)
      exact fun o h => h.imp (fun h => List.mem_append_left _ h) id
    · exact Keeps.rfl' s
  | kick c =>
    simp only [stepRaw]; split
    · exact keeps_disconnect s c
    · exact Keeps.rfl' s
  | tick => exact ⟨fun _ => rfl, fun _ _ h => h, rfl, Nat.le_refl _⟩
  | nsCheck e =>
    simp only [stepRaw]; split
    · have := keeps_nsLoop e s.ns s
      exact ⟨this.alive, this.owes, this.nchan, this.nconn⟩
    · exact Keeps.rfl' s

theorem start_owes {s : Ctx} {c op : Nat} (ha : (s.chans c).alive = true) : Owes (stepRaw s (.start c op)) c op := by
  simp only [stepRaw, if_pos ha]
  refine (keeps_createOperations c _).owes c op (.inl ?_)
  simp [Ctx.setChan]

open Pvxs.Spec.ClientChan in
/-- what is known of a history -/
structure Knows (t : Told) (s : Ctx) : Prop where
  n : t.n = s.nchan
  live : ∀ c, c ∈ t.live ↔ (s.chans c).alive = true
  todo : ∀ c op, (c, op) ∈ t.todo → (s.chans c).alive = true ∧ Owes s c op

open Pvxs.Spec.ClientChan in
theorem Knows.keeps {t : Told} {s s' : Ctx} (h : Knows t s) (hk : Keeps s s') : Knows t s' :=
  ⟨h.n.trans hk.nchan.symm, fun c => by rw [h.live, hk.alive], fun c op ho => by
    obtain ⟨h1, h2⟩ := h.todo c op ho; exact ⟨by rw [hk.alive]; exact h1, hk.owes c op h2⟩⟩

theorem newChan_frame {s : Ctx} {o : Option Nat} {e : Bool} (hr : s.running = true) :
    Keeps { (s.setChan s.nchan fun _ => { alive := true, forced := o }) with nchan := s.nchan + 1 } (newChan o e s) := by
  unfold newChan
  rw [if_neg (by rw [hr]; exact fun e => (by cases e))]
  cases o with
  | none => exact ⟨fun _ => rfl, fun _ _ h => h, rfl, Nat.le_refl _⟩
  | some a =>
    simp only []
    generalize ({ (s.setChan s.nchan fun _ => { alive := true, forced := some a }) with nchan := s.nchan + 1 } : Ctx) = t
    cases hb : build a false e t with
    | mk o u =>
      have := keeps_build (k := 0) hb
      cases o with
      | none => exact this
      | some k => exact this.trans (keeps_attach _ k u)

open Pvxs.Spec.ClientChan in
theorem knows_step {t : Told} {s : Ctx} {e : Ev} (h : Inv none [] none none s) (hk : Knows t s) (hf : Fair s e) : Knows (tell t e) (step s e) := by
  refine Knows.keeps (s := stepRaw s e) ?_ (keeps_reap _)
  cases e with
  | close => exact hf.elim
  | newChan o e =>
    refine Knows.keeps ?_ (newChan_frame h.running)
    have hd := h.dead
    refine ⟨by simp [tell, hk.n], fun c => ?_, fun c op ho => ?_⟩
    · simp only [tell, List.mem_append, List.mem_singleton, hk.live, hk.n, Ctx.setChan]
      split
      · simp_all
      · simp_all
    · obtain ⟨h1, h2⟩ := hk.todo c op ho
      have e : c ≠ s.nchan := fun e => by rw [e, hd] at h1; cases h1
      unfold Owes at *
      simpa [Ctx.setChan, e] using And.intro h1 h2
  | finish c op =>
    simp only [tell, stepRaw]
    have base : Knows { t with todo := t.todo.filter fun p => p ≠ (c, op) }
        (s.setChan c fun x => { x with waiting := x.waiting.filter fun o => o ≠ op, ops := x.ops.filter fun p => p.1 ≠ op }) := by
      refine ⟨hk.n, fun c' => ?_, fun c' op' ho => ?_⟩
      · rw [hk.live]; simp only [Ctx.setChan]; split
        · rename_i e; subst e; rfl
        · rfl
      · obtain ⟨h1, h2⟩ := List.mem_filter.1 ho
        obtain ⟨h3, h4⟩ := hk.todo c' op' h1
        have h2 : ¬((c', op') = (c, op)) := of_decide_eq_true h2
        unfold Owes at *
        by_cases e : c' = c
        · subst e
          have e' : op' ≠ op := fun e => h2 (by rw [e])
          refine ⟨by simpa [Ctx.setChan] using h3, ?_⟩
          simp only [Ctx.setChan, if_true, List.mem_filter, List.mem_map, decide_eq_true_eq]
          rcases h4 with h4 | h4
          · exact .inl ⟨h4, e'⟩
          · obtain ⟨p, hp, rfl⟩ := List.mem_map.1 h4
            exact .inr ⟨p, ⟨hp, e'⟩, rfl⟩
        · simpa [Ctx.setChan, e] using And.intro h3 h4
    split
    · split
      · exact base.keeps (keeps_setConn _ _ _)
      · exact base
    · rename_i ha
      refine ⟨hk.n, hk.live, fun c' op' ho => hk.todo c' op' (List.mem_filter.1 ho).1⟩
  | drop c =>
    simp only [tell, stepRaw]
    split
    · rename_i ha
      have hd := keeps_detach c s
      refine ⟨hk.n.trans hd.nchan.symm, fun c' => ?_, fun c' op ho => ?_⟩
      · simp only [List.mem_filter, hk.live, decide_eq_true_eq, Ctx.setChan]
        split
        · simp_all
        · rename_i e; rw [hd.alive]; simp [e]
      · obtain ⟨h1, h2⟩ := List.mem_filter.1 ho
        have h2 : c' ≠ c := by simpa using h2
        obtain ⟨h3, h4⟩ := (hk.keeps hd).todo c' op h1
        unfold Owes at *
        simpa [Ctx.setChan, h2] using And.intro h3 h4
    · rename_i ha
      refine ⟨hk.n, fun c' => ?_, fun c' op ho => hk.todo c' op (List.mem_filter.1 ho).1⟩
      simp only [List.mem_filter, hk.live, decide_eq_true_eq]
      exact ⟨fun h => h.1, fun h => ⟨h, fun e => ha (e ▸ h)⟩⟩
  | start c op =>
    have hkk : Keeps s (stepRaw s (.start c op)) := keeps_stepRaw trivial
    simp only [tell]
    split
    · rename_i hl
      have ha := (hk.live c).1 hl
      refine ⟨(hk.keeps hkk).n, (hk.keeps hkk).live, fun c' op' ho => ?_⟩
      rcases List.mem_append.1 ho with ho | ho
      · exact (hk.keeps hkk).todo c' op' ho
      · cases List.mem_singleton.1 ho
        exact ⟨by rw [hkk.alive]; exact ha, start_owes ha⟩
    · exact hk.keeps hkk
  | reply c a e => exact hk.keeps (keeps_stepRaw trivial)
  | connected k => exact hk.keeps (keeps_stepRaw trivial)
  | validated k => exact hk.keeps (keeps_stepRaw trivial)
  | created k c sid ok => exact hk.keeps (keeps_stepRaw trivial)
  | destroyed k sid => exact hk.keeps (keeps_stepRaw trivial)
  | lost k => exact hk.keeps (keeps_stepRaw trivial)
  | violation k => exact hk.keeps (keeps_stepRaw trivial)
  | retry k e => exact hk.keeps (keeps_stepRaw trivial)
  | kick c => exact hk.keeps (keeps_stepRaw trivial)
  | tick => exact hk.keeps (keeps_stepRaw trivial)
  | nsCheck e => exact hk.keeps (keeps_stepRaw trivial)

/-! ### connections which are validated have a socket -/

def Okay (x : Conn) : Prop := (x.ready = true → x.bev = true) ∧ (x.creating ≠ [] ∨ x.active ≠ [] → x.ready = true)

/-- `b`: the connection which is being closed -/
def Sound (b : Option Nat) (s : Ctx) : Prop := ∀ k, (b = some k → (s.conns k).ready = false) ∧ (b ≠ some k → Okay (s.conns k))

theorem Sound.same {b : Option Nat} {s t : Ctx} (h : Sound b s) (e : t.conns = s.conns) : Sound b t := by
  intro k; rw [e]; exact h k

theorem Sound.setConn {b : Option Nat} {s : Ctx} {k : Nat} {f : Conn → Conn} (h : Sound b s)
    (h1 : b = some k → (s.conns k).ready = false → (f (s.conns k)).ready = false) (h2 : b ≠ some k → Okay (s.conns k) → Okay (f (s.conns k))) : Sound b (s.setConn k f) := by
  intro k'
  simp only [Ctx.setConn]
  split
  · rename_i e; subst e; exact ⟨fun hb => h1 hb ((h k').1 hb), fun hb => h2 hb ((h k').2 hb)⟩
  · exact h k'

theorem filter_ne_nil {α : Type} {p : α → Bool} {l : List α} (h : l.filter p ≠ []) : l ≠ [] := fun e => h (by rw [e]; rfl)

theorem forget_okay {c : Nat} {ch : Chan} {x : Conn} (h : Okay x) : Okay (forget c ch x) := by
  refine ⟨h.1, fun hh => h.2 ?_⟩
  rcases hh with hh | hh
  · refine .inl fun e => hh ?_
    simp only [forget]; split
    · simp [e, eraseCid]
    · exact e
  · refine .inr fun e => hh ?_
    simp only [forget]; split
    · simp [e, eraseKey]
    · exact e

theorem sound_createOne {b : Option Nat} {k : Nat} {s : Ctx} (c : Nat) (h : Sound b s ∧ (s.conns k).ready = true) : Sound b (createOne k s c) ∧ ((createOne k s c).conns k).ready = true := by
  unfold createOne
  split
  · refine ⟨?_, by simpa [Ctx.setChan, Ctx.setConn, Ctx.send] using h.2⟩
    refine Sound.same (s := (s.send (.create k c)).setConn k fun x => { x with creating := c :: eraseCid c x.creating }) ?_ rfl
    refine Sound.setConn (Sound.same h.1 rfl) (fun _ hr => hr) (fun _ ho => ⟨ho.1, fun _ => h.2⟩)
  · exact h

theorem sound_createChannels {b : Option Nat} {k : Nat} {s : Ctx} (h : Sound b s) : Sound b (createChannels k s) := by
  unfold createChannels
  split
  · exact h
  · rename_i hr
    have hr : (s.conns k).ready = true := by simpa using hr
    generalize (s.conns k).pending = l
    have h0 : Sound b (s.setConn k fun x => { x with pending := [] }) ∧ ((s.setConn k fun x => { x with pending := [] }).conns k).ready = true :=
      ⟨h.setConn (fun _ h => h) (fun _ h => h), by simpa [Ctx.setConn] using hr⟩
    generalize (s.setConn k fun x => { x with pending := [] }) = t at *
    clear h hr
    induction l generalizing t with
    | nil => exact h0.1
    | cons c l ih => exact ih _ (sound_createOne c h0)

theorem sound_attach {b : Option Nat} {c k : Nat} {s : Ctx} (h : Sound b s) : Sound b (attach c k s) := by
  refine sound_createChannels (Sound.setConn (Sound.same h rfl) (fun _ h => h) (fun _ h => h))

theorem sound_detach {b : Option Nat} {c : Nat} {s : Ctx} (h : Sound b s) : Sound b (detach c s) := by
  unfold detach
  split
  · split
    · exact Sound.same h rfl
    · exact Sound.same h rfl
  · rename_i k _
    refine Sound.setConn (Sound.same h ?_) (fun _ hr => hr) (fun _ ho => forget_okay ho)
    unfold tellGone
    split <;> rfl

theorem sound_build {b : Option Nat} {a : Nat} {r e : Bool} {s t : Ctx} {o : Option Nat} (h : Sound b s) (he : build a r e s = (o, t)) : Sound b t := by
  unfold build at he
  split at he
  · cases he; exact h
  · split at he
    · cases he; exact h
    · cases he
      intro k
      show (b = some k → (if k = s.nconn then newConn a r else s.conns k).ready = false) ∧ (b ≠ some k → Okay (if k = s.nconn then newConn a r else s.conns k))
      split
      · have : (newConn a r).ready = false ∧ (newConn a r).creating = [] ∧ (newConn a r).active = [] := by unfold newConn; split <;> exact ⟨rfl, rfl, rfl⟩
        refine ⟨fun _ => this.1, fun _ => ⟨fun h => ?_, fun h => ?_⟩⟩
        · rw [this.1] at h; cases h
        · rcases h with h | h
          · exact absurd this.2.1 h
          · exact absurd this.2.2 h
      · exact h k

theorem sound_disconnect {b : Option Nat} {s : Ctx} {c : Nat} (h : Sound b s) : Sound b (disconnect s c) := by
  have h := sound_detach (c := c) h
  unfold disconnect
  generalize detach c s = t at *
  simp only []
  split
  · exact Sound.same h rfl
  · rename_i a _
    split
    · cases hb : build a true false t with
      | mk o u =>
        cases o with
        | none => exact sound_build h hb
        | some k => exact sound_attach (sound_build h hb)
    · exact h

theorem sound_fold {b : Option Nat} : ∀ (l : List Nat) {s : Ctx}, Sound b s → Sound b (l.foldl disconnect s)
  | [], _, h => h
  | _ :: l, _, h => sound_fold l (sound_disconnect h)

theorem sound_cleanup {s : Ctx} {k : Nat} (h : Sound none s) (hi : Inv none [] none none s) (ha : (s.conns k).alive = true) : Sound none (cleanup k s) := by
  have hg := (inv_cleanup hi ha).gone
  have h0 : Sound (some k) (shut k s) := by
    intro k'
    simp only [shut, Ctx.setConn]
    split
    · rename_i e; subst e; exact ⟨fun _ => rfl, fun hb => absurd rfl hb⟩
    · rename_i e; exact ⟨fun hb => absurd (Option.some.inj hb).symm e, fun _ => (h k').2 (fun e => by cases e)⟩
  have h1 := sound_fold (ofConn k (shut k s)) h0
  have h2 : Sound (some k) (cleanup k s) := by
    unfold cleanup cleared
    simp only []
    split
    · exact h1.setConn (fun _ h => h) (fun hb _ => absurd rfl hb)
    · exact Sound.setConn (Sound.same h1 rfl) (fun _ h => h) (fun hb _ => absurd rfl hb)
  intro k'
  refine ⟨fun e => (by cases e), fun _ => ?_⟩
  by_cases e : k' = k
  · subst e
    refine ⟨fun hr => ?_, fun hh => ?_⟩
    · rw [(h2 k').1 rfl] at hr; cases hr
    · rcases hh with hh | hh
      · exact absurd hg.2.1 hh
      · exact absurd hg.2.2.1 hh
  · exact (h2 k').2 (fun e' => e (Option.some.inj e').symm)

theorem sound_nsLoop (e : Bool) : ∀ (l : List (Nat × Option Nat)) {s : Ctx}, Sound none s → Sound none (nsLoop e l s).2
  | [], _, h => h
  | (a, o) :: l, s, h => by
    unfold nsLoop
    split
    · exact sound_nsLoop e l h
    · cases hb : build a false e s with
      | mk o t =>
        cases o with
        | none => exact sound_build h hb
        | some k => exact sound_nsLoop e l (sound_build h hb)

theorem sound_startAll {b : Option Nat} {c k : Nat} : ∀ (w : List Nat) {s : Ctx}, Sound b s → Sound b (w.foldl (startOne c k) s)
  | [], _, h => h
  | op :: w, s, h => by
    refine sound_startAll w (s := startOne c k s op) ?_
    refine Sound.same (s := (s.send (.init k (s.chans c).sid (s.conns k).nextIoid op)).setConn k fun x =>
      { x with ops := x.ops ++ [((s.conns k).nextIoid, op)], nextIoid := (s.conns k).nextIoid + 1 }) ?_ rfl
    exact Sound.setConn (Sound.same h rfl) (fun _ h => h) (fun _ h => h)

theorem sound_createOperations {b : Option Nat} {c : Nat} {s : Ctx} (h : Sound b s) : Sound b (createOperations c s) := by
  unfold createOperations
  split
  · exact h
  · split
    · exact Sound.same h rfl
    · exact sound_startAll _ (Sound.same h rfl)

theorem sound_stepRaw {s : Ctx} {e : Ev} (h : Sound none s) (hi : Inv none [] none none s) (hf : Fair s e) : Sound none (stepRaw s e) := by
  cases e with
  | close => exact hf.elim
  | newChan o e =>
    show Sound none (newChan o e s)
    unfold newChan
    split
    · exact h
    · cases o with
      | none => exact Sound.same h rfl
      | some a =>
        simp only []
        have h' : Sound none ({ (s.setChan s.nchan fun _ => { alive := true, forced := some a }) with nchan := s.nchan + 1 } : Ctx) := Sound.same h rfl
        cases hb : build a false e ({ (s.setChan s.nchan fun _ => { alive := true, forced := some a }) with nchan := s.nchan + 1 } : Ctx) with
        | mk o u =>
          cases o with
          | none => exact sound_build h' hb
          | some k => exact sound_attach (sound_build h' hb)
  | reply c a e =>
    show Sound none (reply c a e s)
    unfold reply; split
    · cases hb : build a false e s with
      | mk o t =>
        cases o with
        | none => exact sound_build h hb
        | some k => exact sound_attach (sound_build h hb)
    · exact h
  | connected k =>
    simp only [stepRaw]; split
    · exact h.setConn (fun _ h => h) (fun _ h => h)
    · exact h
  | validated k =>
    simp only [stepRaw]; split
    · rename_i ho
      exact sound_createChannels (h.setConn (fun e => by cases e) (fun _ h => ⟨fun _ => (open_spec ho).2, fun _ => rfl⟩))
    · exact h
  | created k c sid ok =>
    show Sound none (created k c sid ok s)
    unfold created; split
    · exact h
    · have h1 : Sound none (s.setConn k fun x => { x with creating := eraseCid c x.creating }) :=
        h.setConn (fun _ h => h) (fun _ h => ⟨h.1, fun hh => h.2 (hh.imp filter_ne_nil id)⟩)
      split
      · simp only []; split
        · exact Sound.same h1 rfl
        · exact h1
      · rename_i hn
        have hc : c ∈ (s.conns k).creating := Classical.byContradiction fun e => hn (.inl e)
        have hr : (s.conns k).ready = true := ((h k).2 (fun e => by cases e)).2 (.inl (List.ne_nil_of_mem hc))
        simp only []; split
        · refine sound_createOperations (Sound.setConn (Sound.same h1 rfl) (fun e => by cases e) (fun _ h => ⟨h.1, fun _ => ?_⟩))
          simpa [Ctx.setConn, Ctx.setChan] using hr
        · exact Sound.same h1 rfl
  | destroyed k sid =>
    show Sound none (destroyed k sid s)
    unfold destroyed; split
    · exact h
    · split
      · split
        · exact sound_disconnect (h.setConn (fun _ h => h) (fun _ h => ⟨h.1, fun hh => h.2 (hh.imp id filter_ne_nil)⟩))
        · exact h
      · exact h
  | lost k =>
    simp only [stepRaw]; split
    · rename_i ho
      have ⟨o1, o2⟩ := open_spec ho
      refine sound_cleanup (h.setConn (fun _ h => h) (fun _ h => h)) (inv_tweak hi rfl rfl rfl rfl rfl rfl rfl (fun _ => ⟨o1, .inl o2⟩) (.inl rfl)) ?_
      simpa [Ctx.setConn] using o1
    · exact h
  | violation k =>
    simp only [stepRaw]; split
    · rename_i ho; exact sound_cleanup h hi (open_spec ho).1
    · exact h
  | retry k e =>
    simp only [stepRaw, retry]; split
    · refine h.setConn (fun e => by cases e) (fun _ h => ?_)
      split
      · exact h
      · exact ⟨fun _ => rfl, h.2⟩
    · exact h
  | start c op =>
    simp only [stepRaw]; split
    · exact sound_createOperations (Sound.same h rfl)
    · exact h
  | finish c op =>
    simp only [stepRaw]; split
    · split
      · exact Sound.setConn (Sound.same h rfl) (fun _ h => h) (fun _ h => h)
      · exact Sound.same h rfl
    · exact h
  | kick c =>
    simp only [stepRaw]; split
    · exact sound_disconnect h
    · exact h
  | drop c =>
    simp only [stepRaw]; split
    · exact Sound.same (sound_detach h) rfl
    · exact h
  | tick => exact Sound.same h rfl
  | nsCheck e =>
    simp only [stepRaw]; split
    · exact Sound.same (sound_nsLoop e s.ns h) rfl
    · exact h

theorem sound_step {s : Ctx} {e : Ev} (h : Sound none s) (hi : Inv none [] none none s) (hf : Fair s e) : Sound none (step s e) := by
  have h1 := sound_stepRaw h hi hf
  have h2 := inv_stepRaw hi hf
  show Sound none (reap (stepRaw s e))
  unfold reap
  generalize List.range (stepRaw s e).nconn = l
  generalize stepRaw s e = t at *
  induction l generalizing t with
  | nil => exact h1
  | cons k l ih =>
    refine ih (reapOne t k) ?_ (inv_reapOne k h2)
    unfold reapOne
    split
    · rename_i hc
      exact (sound_cleanup h1 h2 hc.1).setConn (fun e => by cases e) (fun _ h => h)
    · exact h1

theorem sound_init (l : List (Nat × Option Nat)) : Sound none { ns := l } := by
  intro k
  exact ⟨fun e => (by cases e), fun _ => ⟨fun e => (by cases e), fun e => (by rcases e with e | e <;> exact absurd rfl e)⟩⟩

theorem inv_init' (l : List (Nat × Option Nat)) : Inv none [] none none { ns := l } := by
  constructor <;> simp

/-! ### the channels of a client -/
open Pvxs.Spec.ClientChan

theorem fair_of {s : Ctx} {e : Ev} {es : List Ev} (h : Inv none [] none none s) (hu : Usual (e :: es) s) : Fair s e ∧ Usual es (step s e) := by
  refine ⟨?_, hu.2⟩
  have hu := hu.1
  cases e with
  | created k c sid ok =>
    intro hok c' hm
    subst hok
    obtain ⟨a1, a2, a3, a4⟩ := h.acti sid c' k hm
    exact hu c' a1 a2 a3 a4
  | newChan o e =>
    cases o with
    | none => intro hh; exact absurd rfl hh
    | some a => intro _; exact hu
  | retry k e => exact hu
  | close => exact hu
  | _ => exact trivial

theorem run_all : ∀ (es : List Ev) {t : Told} {s : Ctx}, Inv none [] none none s → Sound none s → Knows t s → Usual es s →
    Inv none [] none none (run es s) ∧ Sound none (run es s) ∧ Knows (es.foldl tell t) (run es s)
  | [], _, _, h1, h2, h3, _ => ⟨h1, h2, h3⟩
  | e :: es, _, _, h1, h2, h3, h4 => by
    obtain ⟨hf, hu⟩ := fair_of h1 h4
    exact run_all es (inv_step h1 hf) (sound_step h2 h1 hf) (knows_step h1 h3 hf) hu

theorem knows_init (l : List (Nat × Option Nat)) : Knows {} { ns := l } :=
  ⟨rfl, fun c => by simp, fun c op h => by cases h⟩

theorem minded {s : Ctx} {c : Nat} (h : Inv none [] none none s) (h2 : Sound none s) (ha : (s.chans c).alive = true) : Minded s c := by
  by_cases hs : (s.chans c).st = .searching
  · unfold Minded; rw [hs]; exact (h.srch c ha hs).resolve_right (fun e => by cases e)
  · obtain ⟨k, q1, q2, q3, q4⟩ := h.conn c ha hs
    have g : Going (s.conns k) := (q3.resolve_right (fun e => by cases e.1)).1
    have o2 := (h2 k).2 (fun e => by cases e)
    unfold Minded; unfold Listed at q4
    split
    · rename_i e; exact absurd e hs
    · rename_i e; rw [e] at q4
      refine ⟨k, q1, ?_, q4.2.resolve_right (fun e => by cases e), q4.1⟩
      rcases g.2 with g2 | g2
      · exact .inl ⟨q2, g2⟩
      · exact .inr ⟨q2, g2⟩
    · rename_i e; rw [e] at q4
      exact ⟨k, q1, ⟨q2, o2.1 (o2.2 (.inl (List.ne_nil_of_mem q4.1)))⟩, q4.2, q4.1⟩
    · rename_i e; rw [e] at q4
      exact ⟨k, q1, ⟨q2, o2.1 (o2.2 (.inr (List.ne_nil_of_mem q4.1)))⟩, q4.2, q4.1⟩

theorem asked {s : Ctx} {c op : Nat} (h : Inv none [] none none s) (ha : (s.chans c).alive = true) (ho : Owes s c op) : Waits s c op ∨ Asked s c op := by
  by_cases hs : (s.chans c).st = .active
  · refine .inr ⟨hs, ?_⟩
    rcases ho with ho | ho
    · rw [h.wait c ha hs] at ho; cases ho
    · obtain ⟨p, hp, rfl⟩ := List.mem_map.1 ho
      obtain ⟨k, q1, q2, q3⟩ := h.opsA c p.1 p.2 ha hp
      exact ⟨k, p.2, q1, q3, q2, hp⟩
  · refine .inl ⟨hs, ?_⟩
    rcases ho with ho | ho
    · exact ho
    · rw [h.opsN c ha hs] at ho; cases ho

theorem startAll_st {c k : Nat} : ∀ (w : List Nat) (s : Ctx), (s.chans c).st = .active → ((w.foldl (startOne c k) s).chans c).st = .active
  | [], _, h => h
  | op :: w, s, h => startAll_st w (startOne c k s op) (by simpa [startOne, Ctx.setChan, Ctx.setConn, Ctx.send] using h)

/-- an ID no channel has -/
theorem fresh_id : ∀ (l : List (Nat × Nat)), ∃ n, ∀ p ∈ l, p.1 < n
  | [] => ⟨0, fun _ h => nomatch h⟩
  | p :: l => by
    obtain ⟨n, hn⟩ := fresh_id l
    refine ⟨n + p.1 + 1, fun q hq => ?_⟩
    rcases List.mem_cons.1 hq with e | hq
    · subst e; omega
    · have := hn q hq; omega

theorem reach_active {s : Ctx} {c : Nat} (h : Inv none [] none none s) (h2 : Sound none s) (ha : (s.chans c).alive = true) (hs : (s.chans c).st = .creating) :
    ∃ es : List Ev, (∀ e ∈ es, Answer e) ∧ Usual es s ∧ ((run es s).chans c).st = .active := by
  have hm := minded h h2 ha
  unfold Minded at hm; rw [hs] at hm
  obtain ⟨k, q1, ⟨q2, q3⟩, _, q4⟩ := hm
  obtain ⟨n, hn⟩ := fresh_id (s.conns k).active
  have hu : Usual [.created k c n true] s := by
    refine ⟨fun c' a1 a2 a3 a4 => ?_, trivial⟩
    obtain ⟨k', b1, _, _, b4⟩ := h.conn c' a1 (by rw [a2]; exact fun e => (by cases e))
    rw [a3] at b1; cases b1
    unfold Listed at b4; rw [a2] at b4
    have := hn _ b4.1
    simp only [a4] at this
    exact Nat.lt_irrefl _ this
  refine ⟨[.created k c n true], fun e he => by cases List.mem_singleton.1 he; trivial, hu, ?_⟩
  have hr := reap_frame (inv_stepRaw h (fair_of h hu).1)
  show ((reap (stepRaw s (.created k c n true))).chans c).st = .active
  rw [hr.1]
  show ((created k c n true s).chans c).st = .active
  unfold created
  rw [if_neg (by simp [open_, q2, q3]), if_neg (by simp [q4, ha])]
  simp only [if_true]
  rw [createOperations_eq (k := k) (by simp [Ctx.setChan, Ctx.setConn]) (by simpa [Ctx.setChan, Ctx.setConn] using q1)]
  exact startAll_st _ _ (by simp [Ctx.setChan, Ctx.setConn])

theorem usual_append : ∀ (es fs : List Ev) {s : Ctx}, Usual es s → Usual fs (run es s) → Usual (es ++ fs) s
  | [], _, _, _, h => h
  | _ :: es, fs, _, h, h' => ⟨h.1, usual_append es fs h.2 h'⟩

theorem run_append (es fs : List Ev) (s : Ctx) : run (es ++ fs) s = run fs (run es s) := by unfold run; rw [List.foldl_append]

/-- one more event on the way -/
theorem reach_step {s : Ctx} {c : Nat} (e : Ev) (ha : Answer e) (hu : Usual [e] s)
    (h : ∃ es : List Ev, (∀ e ∈ es, Answer e) ∧ Usual es (step s e) ∧ ((run es (step s e)).chans c).st = .active) :
    ∃ es : List Ev, (∀ e ∈ es, Answer e) ∧ Usual es s ∧ ((run es s).chans c).st = .active := by
  obtain ⟨es, h1, h2, h3⟩ := h
  exact ⟨e :: es, fun x hx => (List.mem_cons.1 hx).elim (fun e => e ▸ ha) (h1 x), ⟨hu.1, h2⟩, h3⟩

theorem reach_creating {s : Ctx} {c k : Nat} (h : Inv none [] none none s) (h2 : Sound none s) (ha : (s.chans c).alive = true) (hk : (s.chans c).conn = some k)
    (hs : (s.chans c).st = .connecting) (ho : Open s k) :
    ∃ es : List Ev, (∀ e ∈ es, Answer e) ∧ Usual es s ∧ ((run es s).chans c).st = .active := by
  have hm := minded h h2 ha
  unfold Minded at hm; rw [hs] at hm
  obtain ⟨k', q1, _, q3, q4⟩ := hm
  rw [hk] at q1; cases q1
  have hu : Usual [.validated k] s := ⟨trivial, trivial⟩
  have hf := (fair_of h hu).1
  have hr := reap_frame (inv_stepRaw h hf)
  refine reach_step (.validated k) trivial hu ?_
  refine reach_active (inv_step h hf) (sound_step h2 h hf) ?_ ?_
  · show ((reap (stepRaw s (.validated k))).chans c).alive = true
    rw [(keeps_reap _).alive, (keeps_stepRaw (e := .validated k) trivial).alive]; exact ha
  · show ((reap (stepRaw s (.validated k))).chans c).st = .creating
    rw [hr.1]
    simp only [stepRaw]
    rw [if_pos (by simp [open_, ho.1, ho.2])]
    unfold createChannels
    rw [if_neg (by simp [Ctx.setConn])]
    obtain ⟨X, m, e, _, _⟩ := fold_createOne k (s.conns k).pending ((s.setConn k fun x => { x with ready := true }).setConn k fun x => { x with pending := [] }) (h.pnd k)
      (fun c' hc' => ⟨(h.pend c' k hc').1, (h.pend c' k hc').2.1⟩)
    have e' : ((s.setConn k fun x => { x with ready := true }).conns k).pending = (s.conns k).pending := by simp [Ctx.setConn]
    rw [e', e]
    simp [allCreated, q4]

theorem reach_connecting {s : Ctx} {c : Nat} (h : Inv none [] none none s) (h2 : Sound none s) (ha : (s.chans c).alive = true)
    (hs : (s.chans c).st = .connecting) :
    ∃ es : List Ev, (∀ e ∈ es, Answer e) ∧ Usual es s ∧ ((run es s).chans c).st = .active := by
  have hm := minded h h2 ha
  unfold Minded at hm; rw [hs] at hm
  obtain ⟨k, q1, q2, q3, q4⟩ := hm
  rcases q2 with q2 | q2
  · exact reach_creating h h2 ha q1 hs q2
  · have hu : Usual [.retry k false] s := ⟨rfl, trivial⟩
    have hf := (fair_of h hu).1
    have hr := reap_frame (inv_stepRaw h hf)
    refine reach_step (.retry k false) trivial hu ?_
    have e1 : (stepRaw s (.retry k false)) = s.setConn k fun x => { x with timer := false, ph := .connecting, bev := true } := by
      simp only [stepRaw, retry]
      rw [if_pos ⟨q2.1, q2.2.1, q2.2.2⟩]
      rfl
    have e2 : (step s (.retry k false)).chans = s.chans := by
      show (reap (stepRaw s (.retry k false))).chans = s.chans
      rw [hr.1, e1]; rfl
    have e3 : Open (step s (.retry k false)) k := by
      have hus : used (stepRaw s (.retry k false)) k = true := by
        refine used_of (c := c) ?_ ?_ ?_
        · rw [e1]; exact h.cbound c ha
        · rw [e1]; exact ha
        · rw [e1]; exact q1
      have e4 : (step s (.retry k false)).conns k = (stepRaw s (.retry k false)).conns k := hr.2.2.2.2.2.2.1 k hus
      unfold Open
      rw [e4, e1]
      simp [Ctx.setConn, q2.1]
    exact reach_creating (inv_step h hf) (sound_step h2 h hf) (by rw [e2]; exact ha) (by rw [e2]; exact q1) (by rw [e2]; exact hs) e3

theorem createOne_st {k c : Nat} {s : Ctx} (c' : Nat) (h : (s.chans c).st ≠ .searching ∧ (s.chans c).st ≠ .active) :
    ((createOne k s c').chans c).st ≠ .searching ∧ ((createOne k s c').chans c).st ≠ .active := by
  unfold createOne
  split
  · simp only [Ctx.setChan, Ctx.setConn, Ctx.send]
    split
    · exact ⟨fun e => (by cases e), fun e => (by cases e)⟩
    · exact h
  · exact h

theorem attach_st {c k : Nat} {s : Ctx} : ((attach c k s).chans c).st ≠ .searching ∧ ((attach c k s).chans c).st ≠ .active := by
  unfold attach createChannels
  have h0 : ((((s.setChan c fun x => { x with conn := some k, st := .connecting }).setConn k fun x => { x with pending := c :: eraseCid c x.pending })).chans c).st ≠ .searching ∧
      ((((s.setChan c fun x => { x with conn := some k, st := .connecting }).setConn k fun x => { x with pending := c :: eraseCid c x.pending })).chans c).st ≠ .active := by
    simp [Ctx.setChan, Ctx.setConn]
  generalize ((s.setChan c fun x => { x with conn := some k, st := .connecting }).setConn k fun x => { x with pending := c :: eraseCid c x.pending }) = t at *
  split
  · exact h0
  · generalize (t.conns k).pending = l
    have h0 : (((t.setConn k fun x => { x with pending := [] })).chans c).st ≠ .searching ∧ (((t.setConn k fun x => { x with pending := [] })).chans c).st ≠ .active := h0
    generalize (t.setConn k fun x => { x with pending := [] }) = u at *
    induction l generalizing u with
    | nil => exact h0
    | cons c' l ih => exact ih _ (createOne_st c' h0)

/-- whatever the state of a channel, there are answers by servers which connect it -/
theorem reach {s : Ctx} {c : Nat} (h : Inv none [] none none s) (h2 : Sound none s) (ha : (s.chans c).alive = true) :
    ∃ es : List Ev, (∀ e ∈ es, Answer e) ∧ Usual es s ∧ ((run es s).chans c).st = .active := by
  cases hs : (s.chans c).st with
  | connecting => exact reach_connecting h h2 ha hs
  | creating => exact reach_active h h2 ha hs
  | active => exact ⟨[], fun _ h => (nomatch h), trivial, hs⟩
  | searching =>
    have hu : Usual [.reply c 0 false] s := ⟨trivial, trivial⟩
    have hf := (fair_of h hu).1
    have hr := reap_frame (inv_stepRaw h hf)
    refine reach_step (.reply c 0 false) trivial hu ?_
    obtain ⟨k, t, hb⟩ := build_ok 0 s
    have e1 : stepRaw s (.reply c 0 false) = attach c k t := by
      show reply c 0 false s = _
      unfold reply
      rw [if_pos ⟨h.running, ha, hs⟩, hb]
    have ha' : ((step s (.reply c 0 false)).chans c).alive = true := by
      show ((reap (stepRaw s (.reply c 0 false))).chans c).alive = true
      rw [(keeps_reap _).alive, (keeps_stepRaw (e := .reply c 0 false) trivial).alive]; exact ha
    have hs' : ((step s (.reply c 0 false)).chans c).st ≠ .searching ∧ ((step s (.reply c 0 false)).chans c).st ≠ .active := by
      have e2 : (step s (.reply c 0 false)).chans = (stepRaw s (.reply c 0 false)).chans := hr.1
      rw [e2, e1]; exact attach_st
    have i1 := inv_step h hf
    have i2 := sound_step h2 h hf
    cases hq : ((step s (.reply c 0 false)).chans c).st with
    | searching => exact absurd hq hs'.1
    | active => exact absurd hq hs'.2
    | connecting => exact reach_connecting i1 i2 ha' hq
    | creating => exact reach_active i1 i2 ha' hq

end Pvxs.ClientChan
