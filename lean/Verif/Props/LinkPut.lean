import Verif.Spec.LinkPut
/-
C86: PVA output links.
-/
namespace Pvxs.Props.LinkPut
open Pvxs Pvxs.LinkPut Pvxs.Spec.LinkPut

variable {α : Type}

/-- what waits to be sent, in the order written -/
def pendL (l : Link α) : List α := l.queue.toList ++ l.scratch.toList
def pend (ls : List (Link α)) (i : Nat) : List α := match ls[i]? with
  | none => []
  | some l => pendL l

theorem sentTo_append (i : Nat) (a b : List (Out α)) : sentTo i (a ++ b) = sentTo i a ++ sentTo i b := by
  simp [sentTo]

theorem written_cons (i : Nat) (e : Ev α) (es : List (Ev α)) :
    written i (e :: es) = written i [e] ++ written i es := by
  simp only [written, List.filterMap_cons, List.filterMap_nil]
  split <;> simp_all

theorem pend_map (f : Link α → Link α) (ls : List (Link α)) (i : Nat)
    (h : ∀ l, (pendL (f l)).Sublist (pendL l)) : (pend (ls.map f) i).Sublist (pend ls i) := by
  simp only [pend, List.getElem?_map]
  cases ls[i]? with
  | none => simp
  | some l => exact h l

theorem moveOne_pend (l : Link α) : (pendL (moveOne l)).Sublist (pendL l) := by
  unfold moveOne pendL
  cases hs : l.scratch with
  | none => simp [hs]
  | some v => simp

theorem setScratch_pend (ls : List (Link α)) (i j : Nat) (v : α) :
    (pend (setScratch ls j v) i).Sublist (pend ls i ++ if j = i then [v] else []) := by
  unfold pend setScratch
  rw [List.getElem?_modify]
  by_cases h : j = i
  · subst h
    cases ls[j]? with
    | none => simp
    | some l =>
      simp only [if_true, Option.map_some, pendL, Option.toList_some]
      rw [List.append_assoc]
      apply List.Sublist.append (List.Sublist.refl _)
      simp
  · cases ls[i]? with
    | none => simp
    | some l => simp [h]

theorem chanPut_pend (c : Chan α) (f w : Bool) (i : Nat) :
    (pend (chanPut c f w).2.links i).Sublist (pend c.links i) := by
  unfold chanPut
  dsimp only
  split
  · split
    · exact List.Sublist.refl _
    · exact pend_map moveOne c.links i moveOne_pend
  · exact pend_map moveOne c.links i moveOne_pend

theorem finish_pend (c : Chan α) (ok : Bool) (i : Nat) :
    (pend (finish c ok).ch.links i).Sublist (pend c.links i) ∧ sentTo i (finish c ok).outs = [] := by
  unfold finish
  dsimp only
  constructor
  · cases ok with
    | false => exact List.Sublist.refl _
    | true => exact chanPut_pend _ false true i
  · cases ok <;> rfl

theorem buildLoop_pend (conv : Nat → α → Conv) : ∀ (ls : List (Link α)) (off k : Nat),
    (valsOf (off + k) (buildLoop conv off ls).2.1 ++ pend (buildLoop conv off ls).1 k).Sublist (pend ls k) ∧
    (∀ j, j < off → valsOf j (buildLoop conv off ls).2.1 = []) := by
  intro ls
  induction ls with
  | nil => intro off k; simp [buildLoop, valsOf, pend]
  | cons l ls ih =>
    intro off k
    have hsmall : ∀ j, j < off → valsOf j (buildLoop conv (off+1) ls).2.1 = [] := fun j hj =>
      (ih (off+1) 0).2 j (by omega)
    have hoff : valsOf off (buildLoop conv (off+1) ls).2.1 = [] := (ih (off+1) 0).2 off (by omega)
    have hk : ∀ k, (valsOf (off + (k+1)) (buildLoop conv (off+1) ls).2.1 ++
        pend (buildLoop conv (off+1) ls).1 k).Sublist (pend ls k) := fun k => by
      have := (ih (off+1) k).1
      have e : off + 1 + k = off + (k + 1) := by omega
      rw [e] at this
      exact this
    have consz : ∀ (a : Link α) (as : List (Link α)), pend (a :: as) 0 = pendL a := fun a as => rfl
    have conss : ∀ (a : Link α) (as : List (Link α)) n, pend (a :: as) (n+1) = pend as n := fun a as n => rfl
    unfold buildLoop
    cases hq : l.queue with
    | none =>
      dsimp only
      refine ⟨?_, hsmall⟩
      cases k with
      | zero => rw [consz, consz, Nat.add_zero, hoff]; simp
      | succ n => rw [conss, conss]; exact hk n
    | some v =>
      dsimp only
      have p1 : (pendL { l with queue := none }).Sublist (pendL l) := by simp [pendL, hq]
      cases conv off v with
      | throws =>
        dsimp only
        refine ⟨?_, fun _ _ => rfl⟩
        cases k with
        | zero => rw [consz, consz]; exact p1
        | succ n => rw [conss, conss]; exact List.Sublist.refl _
      | skips =>
        dsimp only
        refine ⟨?_, hsmall⟩
        cases k with
        | zero => rw [consz, consz, Nat.add_zero, hoff]; exact p1
        | succ n => rw [conss, conss]; exact hk n
      | sets =>
        dsimp only
        have hv : ∀ j, valsOf j ((off, v) :: (buildLoop conv (off+1) ls).2.1) =
            (if off = j then [v] else []) ++ valsOf j (buildLoop conv (off+1) ls).2.1 := by
          intro j
          by_cases h : off = j <;> simp [valsOf, h]
        refine ⟨?_, ?_⟩
        · cases k with
          | zero =>
            rw [consz, consz, Nat.add_zero, hv, hoff]
            simp [pendL, hq]
          | succ n =>
            rw [conss, conss, hv, if_neg (by omega)]
            exact hk n
        · intro j hj
          rw [hv, if_neg (by omega), hsmall j hj]; rfl

theorem step_flow (c : Chan α) (e : Ev α) (i : Nat) :
    ((step c e).fate = .ok →
      (sentTo i (step c e).outs ++ pend (step c e).ch.links i).Sublist (pend c.links i ++ written i [e])) ∧
    ((step c e).fate = .deadlock → sentTo i (step c e).outs = []) := by
  have refl : ∀ l : List α, l.Sublist (l ++ []) := fun l => by rw [List.append_nil]; exact List.Sublist.refl _
  cases e with
  | put j v w =>
    have hw : written i [Ev.put j v w] = if j = i then [v] else [] := by
      by_cases h : j = i <;> simp [written, h]
    rw [hw]
    unfold step putValue
    dsimp only
    cases hl : c.links[j]? with
    | none =>
      refine ⟨fun _ => ?_, fun h => by cases h⟩
      show ([] ++ pend c.links i).Sublist _
      exact List.sublist_append_left _ _
    | some l =>
      dsimp only
      split
      · refine ⟨fun _ => ?_, fun h => by cases h⟩
        show ([] ++ pend c.links i).Sublist _
        exact List.sublist_append_left _ _
      · split
        · refine ⟨fun _ => ?_, fun h => by cases h⟩
          exact setScratch_pend c.links i j v
        · refine ⟨fun _ => ?_, fun _ => rfl⟩
          exact (chanPut_pend _ false false i).trans (setScratch_pend c.links i j v)
  | forward j =>
    have hw : written i [(Ev.forward j : Ev α)] = [] := rfl
    rw [hw]
    unfold step forward
    dsimp only
    cases hl : c.links[j]? with
    | none => exact ⟨fun _ => refl _, fun h => by cases h⟩
    | some l =>
      dsimp only
      split
      · exact ⟨fun _ => refl _, fun h => by cases h⟩
      · refine ⟨fun _ => ?_, fun _ => rfl⟩
        rw [List.append_nil]
        exact chanPut_pend c true false i
  | enter => exact ⟨fun _ => refl _, fun h => by cases h⟩
  | build conv =>
    have hw : written i [Ev.build conv] = [] := rfl
    rw [hw]
    unfold step
    cases ho : c.op with
    | none => dsimp only; exact ⟨fun _ => refl _, fun h => by cases h⟩
    | some op =>
      dsimp only
      split
      · have hb := (buildLoop_pend conv c.links 0 i).1
        rw [Nat.zero_add] at hb
        unfold build
        simp only [ho]
        split
        · obtain ⟨h1, h2⟩ := finish_pend { c with links := (buildLoop conv 0 c.links).1, op := some op } false i
          refine ⟨fun _ => ?_, fun _ => h2⟩
          rw [h2, List.append_nil]
          refine h1.trans ?_
          exact (List.sublist_append_right _ _).trans hb
        · refine ⟨fun _ => ?_, fun h => by cases h⟩
          rw [List.append_nil]
          have : sentTo i [Out.sent op.process op.block (buildLoop conv 0 c.links).2.1] =
              valsOf i (buildLoop conv 0 c.links).2.1 := by simp [sentTo]
          rw [this]
          exact hb
      · exact ⟨fun _ => refl _, fun h => by cases h⟩
  | done ok =>
    have hw : written i [(Ev.done ok : Ev α)] = [] := rfl
    rw [hw]
    unfold step
    cases ho : c.op with
    | none => dsimp only; exact ⟨fun _ => refl _, fun h => by cases h⟩
    | some op =>
      dsimp only
      split
      · obtain ⟨h1, h2⟩ := finish_pend c ok i
        refine ⟨fun _ => ?_, fun _ => h2⟩
        rw [h2, List.append_nil]; exact h1
      · exact ⟨fun _ => refl _, fun h => by cases h⟩
  | lost => exact ⟨fun _ => refl _, fun h => by cases h⟩
  | disconnect =>
    have hw : written i [(Ev.disconnect : Ev α)] = [] := rfl
    rw [hw]
    dsimp only [step]
    split
    · refine ⟨fun h => (by cases h), fun _ => rfl⟩
    · refine ⟨fun _ => ?_, fun h => by cases h⟩
      rw [List.append_nil]
      exact pend_map dropVals c.links i (fun l => by simp [pendL, dropVals])
  | connect => exact ⟨fun _ => refl _, fun h => by cases h⟩
  | after =>
    have hw : written i [(Ev.after : Ev α)] = [] := rfl
    rw [hw]
    dsimp only [step]
    split
    · exact ⟨fun _ => refl _, fun h => by cases h⟩
    · refine ⟨fun _ => ?_, fun h => by cases h⟩
      have : sentTo i (c.waiting.map (Out.completed (α := α))) = [] := by
        simp [sentTo, List.flatMap_map]
      dsimp only
      rw [this]
      exact refl _

theorem run_flow (es : List (Ev α)) : ∀ (c : Chan α) (i : Nat),
    (sentTo i (run c es).outs).Sublist (pend c.links i ++ written i es) := by
  induction es with
  | nil => intro c i; simp [run, sentTo]
  | cons e es ih =>
    intro c i
    rw [written_cons]
    unfold run
    dsimp only
    obtain ⟨h1, h2⟩ := step_flow c e i
    cases hf : (step c e).fate with
    | deadlock => dsimp only; rw [h2 hf]; exact List.nil_sublist _
    | ok =>
      dsimp only
      rw [sentTo_append, ← List.append_assoc]
      have h3 := ih (step c e).ch i
      have h4 := h1 hf
      refine List.Sublist.trans (List.Sublist.append (List.Sublist.refl _) h3) ?_
      rw [← List.append_assoc]
      exact List.Sublist.append h4 (List.Sublist.refl _)

/-- C86 (nothing is made up, nothing is sent twice, order is kept), for every history. -/
theorem C86_sound (c : Chan α) (hf : Fresh c) (es : List (Ev α)) (i : Nat) :
    (sentTo i (run c es).outs).Sublist (written i es) := by
  have h := run_flow es c i
  have : pend c.links i = [] := by
    unfold pend
    cases hl : c.links[i]? with
    | none => rfl
    | some l =>
      obtain ⟨h1, h2⟩ := hf.2.2.2.2.2 l (List.mem_of_getElem? hl)
      simp [pendL, h1, h2]
  rw [this] at h
  exact h

/-! ### calm histories -/

/-- nothing waits to be sent without a PUT which is about to be built, or because the link is deferred -/
structure Inv (c : Chan α) : Prop where
  queue : ∀ l, l ∈ c.links → l.queue.isSome → ∃ op, c.op = some op ∧ op.sent = false
  scratch : ∀ l, l ∈ c.links → l.scratch.isSome → l.defer = true
  cb : c.inCb = true → c.op.isSome

theorem moveOne_keeps (l : Link α) : (moveOne l).record = l.record ∧ (moveOne l).proc = l.proc ∧
    (moveOne l).defer = l.defer ∧ (moveOne l).retry = l.retry ∧ (moveOne l).scratch = none := by
  unfold moveOne
  cases h : l.scratch <;> simp [h]

/-- the links as configured -/
def same (l m : Link α) : Prop :=
  m.record = l.record ∧ m.proc = l.proc ∧ m.defer = l.defer ∧ m.retry = l.retry

/-- what a calm step does to the value of one link which waits -/
theorem getLast?_append_congr {a b x y : List α} (h : a.getLast? = b.getLast?)
    (h2 : x.getLast? = y.getLast?) : (a ++ x).getLast? = (b ++ y).getLast? := by
  rw [List.getLast?_append, List.getLast?_append, h, h2]

theorem moveOne_last (l : Link α) : (pendL (moveOne l)).getLast? = (pendL l).getLast? := by
  unfold moveOne pendL
  cases hs : l.scratch with
  | none => simp [hs]
  | some v => simp

theorem pend_map_last (f : Link α → Link α) (ls : List (Link α)) (i : Nat)
    (h : ∀ l, (pendL (f l)).getLast? = (pendL l).getLast?) :
    (pend (ls.map f) i).getLast? = (pend ls i).getLast? := by
  simp only [pend, List.getElem?_map]
  cases ls[i]? with
  | none => rfl
  | some l => exact h l

theorem setScratch_last (ls : List (Link α)) (i j : Nat) (v : α) (hj : j < ls.length) :
    (pend (setScratch ls j v) i).getLast? = (pend ls i ++ if j = i then [v] else []).getLast? := by
  unfold pend setScratch
  rw [List.getElem?_modify]
  by_cases h : j = i
  · subst h
    rw [List.getElem?_eq_getElem hj]
    simp [pendL]
  · cases ls[i]? with
    | none => simp [h]
    | some l => simp [h]

theorem buildLoop_sets (conv : Nat → α → Conv) (hc : ∀ i v, conv i v = .sets) :
    ∀ (ls : List (Link α)) (off : Nat),
    (buildLoop conv off ls).2.2 = false ∧
    (buildLoop conv off ls).1 = ls.map (fun l => { l with queue := none }) ∧
    (∀ k, valsOf (off + k) (buildLoop conv off ls).2.1 =
      match ls[k]? with | none => [] | some l => l.queue.toList) := by
  intro ls
  induction ls with
  | nil => intro off; simp [buildLoop, valsOf]
  | cons l ls ih =>
    intro off
    obtain ⟨i1, i2, i3⟩ := ih (off + 1)
    have hoff := (buildLoop_pend conv ls (off+1) 0).2 off (by omega)
    have hk : ∀ k, valsOf (off + (k+1)) (buildLoop conv (off+1) ls).2.1 =
      match ls[k]? with | none => [] | some l => l.queue.toList := fun k => by
      have e : off + 1 + k = off + (k + 1) := by omega
      rw [← e]; exact i3 k
    unfold buildLoop
    cases hq : l.queue with
    | none =>
      dsimp only
      refine ⟨i1, ?_, ?_⟩
      · rw [i2, List.map_cons, ← hq]
      · intro k
        cases k with
        | zero => rw [Nat.add_zero, hoff]; simp [hq]
        | succ n => rw [hk n]; rfl
    | some v =>
      dsimp only
      simp only [hc off v]
      refine ⟨i1, ?_, ?_⟩
      · rw [i2, List.map_cons]
      · intro k
        have hv : ∀ j, valsOf j ((off, v) :: (buildLoop conv (off+1) ls).2.1) =
            (if off = j then [v] else []) ++ valsOf j (buildLoop conv (off+1) ls).2.1 := by
          intro j
          by_cases h : off = j <;> simp [valsOf, h]
        cases k with
        | zero => rw [hv, Nat.add_zero, hoff]; simp [hq]
        | succ n => rw [hv, if_neg (by omega), hk n]; rfl

/-- chanPut when no callback runs, or on the worker -/
theorem chanPut_calm (c : Chan α) (f w : Bool) (h : c.inCb = false ∨ w = true) :
    (chanPut c f w).1 = .ok ∧ (chanPut c f w).2.links = c.links.map moveOne ∧
    (chanPut c f w).2.connected = c.connected ∧ (chanPut c f w).2.inCb = c.inCb ∧
    (chanPut c f w).2.waiting = c.waiting ∧ (chanPut c f w).2.scans = c.scans ∧
    ((chanPut c f w).2.op = c.op ∧ f = false ∧ (∀ l, l ∈ c.links → l.scratch = none) ∨
     ∃ op, (chanPut c f w).2.op = some op ∧ op.sent = false) := by
  unfold chanPut
  dsimp only
  by_cases hd : (f || c.links.any fun l => l.scratch.isSome) = true
  · rw [if_pos hd]
    have : ¬ ((c.op.isSome && c.inCb && !w) = true) := by
      rcases h with h | h <;> simp [h]
    rw [if_neg this]
    exact ⟨rfl, rfl, rfl, rfl, rfl, rfl, .inr ⟨_, rfl, rfl⟩⟩
  · rw [if_neg hd]
    refine ⟨rfl, rfl, rfl, rfl, rfl, rfl, .inl ⟨rfl, ?_, ?_⟩⟩
    · cases f
      · rfl
      · exact absurd rfl hd
    · intro l hl
      cases hs : l.scratch with
      | none => rfl
      | some v =>
        exfalso
        apply hd
        rw [Bool.or_eq_true]
        exact .inr (List.any_eq_true.mpr ⟨l, hl, by simp [hs]⟩)

theorem chanPut_inv (c : Chan α) (f w : Bool) (h : c.inCb = false ∨ w = true)
    (hcb : c.inCb = true → c.op.isSome)
    (hq : ∀ l, l ∈ c.links → l.queue.isSome → ∃ op, c.op = some op ∧ op.sent = false) :
    Inv (chanPut c f w).2 := by
  obtain ⟨_, h2, _, h4, _, _, h5⟩ := chanPut_calm c f w h
  refine ⟨?_, ?_, ?_⟩
  · intro m hm hs
    rw [h2] at hm
    obtain ⟨l, hl, rfl⟩ := List.mem_map.mp hm
    rcases h5 with ⟨ho, _, hn⟩ | h5
    · rw [ho]
      apply hq l hl
      have : moveOne l = l := by unfold moveOne; rw [hn l hl]
      rw [this] at hs
      exact hs
    · exact h5
  · intro m hm hs
    rw [h2] at hm
    obtain ⟨l, hl, rfl⟩ := List.mem_map.mp hm
    rw [(moveOne_keeps l).2.2.2.2] at hs
    cases hs
  · intro hi
    rcases h5 with ⟨ho, _, _⟩ | ⟨op, h5, _⟩
    · rw [ho]; rw [h4] at hi; exact hcb hi
    · rw [h5]; rfl

/-- the configuration of the links does not change -/
def Cfg (ls : List (Link α)) (i : Nat) (defer retry : Bool) : Prop :=
  ∃ l, ls[i]? = some l ∧ l.defer = defer ∧ l.retry = retry

theorem cfg_map (f : Link α → Link α) (hf : ∀ l, (f l).defer = l.defer ∧ (f l).retry = l.retry)
    (ls : List (Link α)) (i : Nat) (d r : Bool) (h : Cfg ls i d r) : Cfg (ls.map f) i d r := by
  obtain ⟨l, hl, h1, h2⟩ := h
  exact ⟨f l, by simp [hl], by rw [(hf l).1, h1], by rw [(hf l).2, h2]⟩

theorem cfg_move (ls : List (Link α)) (i : Nat) (d r : Bool) (h : Cfg ls i d r) :
    Cfg (ls.map moveOne) i d r :=
  cfg_map moveOne (fun l => ⟨(moveOne_keeps l).2.2.1, (moveOne_keeps l).2.2.2.1⟩) ls i d r h

theorem cfg_set (ls : List (Link α)) (i j : Nat) (v : α) (d r : Bool) (h : Cfg ls i d r) :
    Cfg (setScratch ls j v) i d r := by
  obtain ⟨l, hl, h1, h2⟩ := h
  unfold setScratch Cfg
  rw [List.getElem?_modify, hl]
  by_cases hj : j = i <;> simp [hj, h1, h2]

/-- the part of an event which is accepted -/
def acc1 (retry : Bool) (i : Nat) (connected : Bool) : Ev α → List α
  | .put j v _ => if j = i ∧ (retry = true ∨ connected = true) then [v] else []
  | _ => []
def conn1 (connected : Bool) : Ev α → Bool
  | .connect => true
  | .disconnect => false
  | _ => connected

theorem accepted_cons (retry : Bool) (i : Nat) (k : Bool) (e : Ev α) (es : List (Ev α)) :
    accepted retry i k (e :: es) = acc1 retry i k e ++ accepted retry i (conn1 k e) es := by
  cases e with
  | put j v w =>
    simp only [accepted, acc1, conn1]
    split <;> simp
  | _ => rfl

/-- one event of a calm history -/
def Calm1 (busy : Bool) : Ev α → Prop
  | .put _ _ _ => busy = false
  | .forward _ => busy = false
  | .enter => True
  | .build conv => ∀ i v, conv i v = .sets
  | .done ok => ok = true
  | .lost => False
  | .disconnect => False
  | .connect => True
  | .after => True
def busy1 (busy : Bool) : Ev α → Bool
  | .enter => true
  | .build _ => false
  | .done _ => false
  | _ => busy

theorem calm_cons {b : Bool} {e : Ev α} {es : List (Ev α)} (h : Calm b (e :: es)) :
    Calm1 b e ∧ Calm (busy1 b e) es := by
  cases e <;> simp only [Calm, Calm1, busy1] at h ⊢ <;> first | exact h | exact ⟨trivial, h⟩ | skip

theorem isSome_iff_exists' {a : Option Op} (h : a.isSome) : ∃ o, a = some o := Option.isSome_iff_exists.mp h

theorem step_calm (c : Chan α) (e : Ev α) (b : Bool) (inv : Inv c) (hb : c.inCb = true → b = true)
    (h1 : Calm1 b e) :
    (step c e).fate = .ok ∧ Inv (step c e).ch ∧
    ((step c e).ch.inCb = true → busy1 b e = true) ∧
    (step c e).ch.connected = conn1 c.connected e ∧
    ∀ (i : Nat) (d r : Bool), Cfg c.links i d r →
      Cfg (step c e).ch.links i d r ∧
      (sentTo i (step c e).outs ++ pend (step c e).ch.links i).getLast? =
        (pend c.links i ++ acc1 r i c.connected e).getLast? := by
  have hmove : ∀ (ls : List (Link α)) (i : Nat),
      (pend (ls.map moveOne) i).getLast? = (pend ls i).getLast? :=
    fun ls i => pend_map_last moveOne ls i moveOne_last
  cases e with
  | put j v w =>
    have hb0 : b = false := h1
    have hcb : c.inCb = false := by
      cases h : c.inCb
      · rfl
      · rw [hb h] at hb0; cases hb0
    cases hl : c.links[j]? with
    | none =>
      have hst : step c (.put j v w) = { ch := c } := by simp only [step, putValue, hl]
      rw [hst]
      refine ⟨rfl, inv, fun h => (by rw [hcb] at h; cases h), rfl, ?_⟩
      intro i d r hcfg
      refine ⟨hcfg, ?_⟩
      have : j ≠ i := by
        intro e; subst e
        obtain ⟨l, hl', _⟩ := hcfg
        rw [hl] at hl'; cases hl'
      simp [sentTo, acc1, this]
    | some l =>
      by_cases hr : (!l.retry && !c.connected) = true
      · have hst : step c (.put j v w) = { ch := c, outs := [.refused j] } := by
          simp only [step, putValue, hl, if_pos hr]
        rw [hst]
        refine ⟨rfl, inv, fun h => (by rw [hcb] at h; cases h), rfl, ?_⟩
        intro i d r hcfg
        refine ⟨hcfg, ?_⟩
        have : acc1 r i c.connected (.put j v w) = [] := by
          simp only [acc1]
          apply if_neg
          rintro ⟨rfl, h⟩
          obtain ⟨l', hl', _, hr'⟩ := hcfg
          rw [hl] at hl'; cases hl'
          rw [Bool.and_eq_true] at hr
          rcases h with h | h
          · rw [hr', h] at hr; simp at hr
          · rw [h] at hr; simp at hr
        rw [this]
        simp [sentTo]
      · have hlt : j < c.links.length := by
          have := List.getElem?_eq_some_iff.mp hl
          exact this.1
        have hlast : ∀ (i : Nat) (d r : Bool), Cfg c.links i d r →
            (pend (setScratch c.links j v) i).getLast? =
            (pend c.links i ++ acc1 r i c.connected (.put j v w)).getLast? := by
          intro i d r hcfg
          rw [setScratch_last c.links i j v hlt]
          congr 2
          simp only [acc1]
          by_cases hji : j = i
          · subst hji
            obtain ⟨l', hl', _, hr'⟩ := hcfg
            rw [hl] at hl'; cases hl'
            have : r = true ∨ c.connected = true := by
              rw [← hr']
              cases hx : l.retry <;> cases hy : c.connected <;> simp_all
            simp [this]
          · simp [hji]
        by_cases hd : l.defer = true
        · have hst : step c (.put j v w) =
              { ch := { c with links := setScratch c.links j v,
                               waiting := if w then addRec l.record c.waiting else c.waiting } } := by
            simp only [step, putValue, hl, if_neg hr, if_pos hd]
          rw [hst]
          refine ⟨rfl, ⟨?_, ?_, inv.cb⟩, fun h => (by rw [hcb] at h; cases h), rfl, ?_⟩
          · intro m hm hs
            obtain ⟨k, hk, hget⟩ := List.getElem_of_mem hm
            have hm' : (setScratch c.links j v)[k]? = some m := List.getElem?_eq_some_iff.mpr ⟨hk, hget⟩
            unfold setScratch at hm'
            rw [List.getElem?_modify] at hm'
            obtain ⟨l', hl', hm''⟩ := Option.map_eq_some_iff.mp hm'
            apply inv.queue l' (List.mem_of_getElem? hl')
            subst hm''
            by_cases hjk : j = k <;> simpa [hjk] using hs
          · intro m hm hs
            obtain ⟨k, hk, hget⟩ := List.getElem_of_mem hm
            have hm' : (setScratch c.links j v)[k]? = some m := List.getElem?_eq_some_iff.mpr ⟨hk, hget⟩
            unfold setScratch at hm'
            rw [List.getElem?_modify] at hm'
            obtain ⟨l', hl', hm''⟩ := Option.map_eq_some_iff.mp hm'
            by_cases hjk : j = k
            · subst hjk
              rw [hl] at hl'; cases hl'
              subst hm''; simpa using hd
            · subst hm''
              simp only [hjk, if_false] at hs ⊢
              exact inv.scratch l' (List.mem_of_getElem? hl') hs
          · intro i d r hcfg
            refine ⟨cfg_set _ _ _ _ _ _ hcfg, ?_⟩
            exact hlast i d r hcfg
        · have hst : step c (.put j v w) =
              { fate := (chanPut { c with links := setScratch c.links j v, waiting := if w then addRec l.record c.waiting else c.waiting } false false).1,
                ch := (chanPut { c with links := setScratch c.links j v, waiting := if w then addRec l.record c.waiting else c.waiting } false false).2 } := by
            simp only [step, putValue, hl, if_neg hr, if_neg hd]
          rw [hst]
          have hq : ∀ m, m ∈ setScratch c.links j v → m.queue.isSome →
              ∃ op, c.op = some op ∧ op.sent = false := by
            intro m hm hs
            obtain ⟨k, hk, hget⟩ := List.getElem_of_mem hm
            have hm' : (setScratch c.links j v)[k]? = some m := List.getElem?_eq_some_iff.mpr ⟨hk, hget⟩
            unfold setScratch at hm'
            rw [List.getElem?_modify] at hm'
            obtain ⟨l', hl', hm''⟩ := Option.map_eq_some_iff.mp hm'
            apply inv.queue l' (List.mem_of_getElem? hl')
            subst hm''
            by_cases hjk : j = k <;> simpa [hjk] using hs
          have hcp := chanPut_calm { c with links := setScratch c.links j v, waiting := if w then addRec l.record c.waiting else c.waiting } false false (.inl hcb)
          have hinv := chanPut_inv { c with links := setScratch c.links j v, waiting := if w then addRec l.record c.waiting else c.waiting } false false (.inl hcb) inv.cb hq
          refine ⟨hcp.1, hinv, ?_, hcp.2.2.1, ?_⟩
          · intro h
            dsimp only at h
            rw [hcp.2.2.2.1] at h
            rw [show c.inCb = true from h] at hcb; cases hcb
          · intro i d r hcfg
            dsimp only
            rw [hcp.2.1]
            refine ⟨cfg_move _ _ _ _ (cfg_set _ _ _ _ _ _ hcfg), ?_⟩
            show ([] ++ _).getLast? = _
            rw [List.nil_append, hmove]
            exact hlast i d r hcfg
  | forward j =>
    have hb0 : b = false := h1
    have hcb : c.inCb = false := by
      cases h : c.inCb
      · rfl
      · rw [hb h] at hb0; cases hb0
    cases hl : c.links[j]? with
    | none =>
      have hst : step c (.forward j : Ev α) = { ch := c } := by simp only [step, forward, hl]
      rw [hst]
      refine ⟨rfl, inv, fun h => (by rw [hcb] at h; cases h), rfl, ?_⟩
      intro i d r hcfg
      exact ⟨hcfg, by simp [sentTo, acc1]⟩
    | some l =>
      by_cases hr : (!l.retry && !c.connected) = true
      · have hst : step c (.forward j : Ev α) = { ch := c, outs := [.refused j] } := by
          simp only [step, forward, hl, if_pos hr]
        rw [hst]
        refine ⟨rfl, inv, fun h => (by rw [hcb] at h; cases h), rfl, ?_⟩
        intro i d r hcfg
        exact ⟨hcfg, by simp [sentTo, acc1]⟩
      · have hst : step c (.forward j : Ev α) = { fate := (chanPut c true false).1, ch := (chanPut c true false).2 } := by
          simp only [step, forward, hl, if_neg hr]
        rw [hst]
        have hcp := chanPut_calm c true false (.inl hcb)
        have hinv := chanPut_inv c true false (.inl hcb) inv.cb inv.queue
        refine ⟨hcp.1, hinv, ?_, hcp.2.2.1, ?_⟩
        · intro h
          dsimp only at h
          rw [hcp.2.2.2.1, hcb] at h; cases h
        · intro i d r hcfg
          dsimp only
          rw [hcp.2.1]
          refine ⟨cfg_move _ _ _ _ hcfg, ?_⟩
          show ([] ++ _).getLast? = _
          rw [List.nil_append, hmove]
          simp [acc1]
  | enter =>
    refine ⟨rfl, ⟨inv.queue, inv.scratch, fun h => h⟩, fun _ => rfl, rfl, ?_⟩
    intro i d r hcfg
    exact ⟨hcfg, by simp [step, sentTo, acc1]⟩
  | build conv =>
    have trivialCase : (({ ch := { c with inCb := false } } : Ret α)).fate = .ok ∧ Inv { c with inCb := false } ∧
      (false = true → busy1 b (.build conv : Ev α) = true) ∧ c.connected = conn1 c.connected (.build conv : Ev α) ∧
      ∀ (i : Nat) (d r : Bool), Cfg c.links i d r → Cfg c.links i d r ∧
        (sentTo i [] ++ pend c.links i).getLast? = (pend c.links i ++ acc1 r i c.connected (.build conv)).getLast? := by
      refine ⟨rfl, ⟨inv.queue, inv.scratch, fun h => by cases h⟩, fun h => (by cases h), rfl, ?_⟩
      intro i d r hcfg
      exact ⟨hcfg, by simp [sentTo, acc1]⟩
    cases ho : c.op with
    | none =>
      have hst : step c (.build conv) = { ch := { c with inCb := false } } := by simp only [step, ho]
      rw [hst]; exact trivialCase
    | some op =>
      by_cases hg : (c.inCb && !op.sent) = true
      · obtain ⟨s1, s2, s3⟩ := buildLoop_sets conv h1 c.links 0
        have hst : step c (.build conv) =
            { ch := { c with links := (buildLoop conv 0 c.links).1, op := some { op with sent := true }, inCb := false },
              outs := [.sent op.process op.block (buildLoop conv 0 c.links).2.1] } := by
          simp only [step, ho, if_pos hg, build, s1, Bool.false_eq_true, if_false]
        rw [hst]
        dsimp only
        refine ⟨rfl, ⟨?_, ?_, fun h => by cases h⟩, fun h => (by cases h), rfl, ?_⟩
        · intro m hm hs
          dsimp only at hm
          rw [s2] at hm
          obtain ⟨l, hl, rfl⟩ := List.mem_map.mp hm
          cases hs
        · intro m hm hs
          dsimp only at hm
          rw [s2] at hm
          obtain ⟨l, hl, rfl⟩ := List.mem_map.mp hm
          exact inv.scratch l hl hs
        · intro i d r hcfg
          rw [s2]
          refine ⟨cfg_map (fun l : Link α => { l with queue := none }) (fun l => ⟨rfl, rfl⟩) _ _ _ _ hcfg, ?_⟩
          have hv := s3 i
          rw [Nat.zero_add] at hv
          have : sentTo i [Out.sent op.process op.block (buildLoop conv 0 c.links).2.1] =
              valsOf i (buildLoop conv 0 c.links).2.1 := by simp [sentTo]
          rw [this, hv]
          simp only [acc1, List.append_nil, pend, List.getElem?_map]
          cases c.links[i]? with
          | none => rfl
          | some l => simp [pendL]
      · have hst : step c (.build conv) = { ch := { c with inCb := false } } := by
          simp only [step, ho, if_neg hg]
        rw [hst]; exact trivialCase
  | done ok =>
    have hok : ok = true := h1
    subst hok
    have trivialCase : (({ ch := { c with inCb := false } } : Ret α)).fate = .ok ∧ Inv { c with inCb := false } ∧
      (false = true → busy1 b (.done true : Ev α) = true) ∧ c.connected = conn1 c.connected (.done true : Ev α) ∧
      ∀ (i : Nat) (d r : Bool), Cfg c.links i d r → Cfg c.links i d r ∧
        (sentTo i [] ++ pend c.links i).getLast? = (pend c.links i ++ acc1 r i c.connected (.done true)).getLast? := by
      refine ⟨rfl, ⟨inv.queue, inv.scratch, fun h => by cases h⟩, fun h => (by cases h), rfl, ?_⟩
      intro i d r hcfg
      exact ⟨hcfg, by simp [sentTo, acc1]⟩
    cases ho : c.op with
    | none =>
      have hst : step c (.done true : Ev α) = { ch := { c with inCb := false } } := by simp only [step, ho]
      rw [hst]; exact trivialCase
    | some op =>
      by_cases hs : (c.inCb && (op.sent || !true)) = true
      · have hst : step c (.done true : Ev α) = finish c true := by simp only [step, ho, if_pos hs]
        rw [hst]
        have hsent : op.sent = true := by simp at hs; exact hs.2
        have noq : ∀ l, l ∈ c.links → l.queue = none := by
          intro l hl
          cases hq : l.queue with
          | none => rfl
          | some v =>
            obtain ⟨op', h', hsf⟩ := inv.queue l hl (by simp [hq])
            rw [ho] at h'; cases h'
            rw [hsent] at hsf; cases hsf
        have hcp := chanPut_calm { c with op := none, inCb := false } false true (.inr rfl)
        have hinv := chanPut_inv { c with op := none, inCb := false } false true (.inr rfl)
          (fun h => by cases h) (fun l hl hs => by rw [noq l hl] at hs; cases hs)
        unfold finish
        simp only [if_true]
        refine ⟨trivial, ⟨hinv.queue, hinv.scratch, hinv.cb⟩, ?_, hcp.2.2.1, ?_⟩
        · intro h
          rw [hcp.2.2.2.1] at h; cases h
        · intro i d r hcfg
          rw [hcp.2.1]
          refine ⟨cfg_move _ _ _ _ hcfg, ?_⟩
          show ([] ++ _).getLast? = _
          rw [List.nil_append, hmove]
          simp [acc1]
      · have hst : step c (.done true : Ev α) = { ch := { c with inCb := false } } := by
          simp only [step, ho, if_neg hs]
        rw [hst]; exact trivialCase
  | lost => exact absurd h1 (fun h => h)
  | disconnect => exact absurd h1 (fun h => h)
  | connect =>
    refine ⟨rfl, ⟨inv.queue, inv.scratch, inv.cb⟩, hb, rfl, ?_⟩
    intro i d r hcfg
    exact ⟨hcfg, by simp [step, sentTo, acc1]⟩
  | after =>
    dsimp only [step]
    split
    · refine ⟨rfl, inv, hb, rfl, ?_⟩
      intro i d r hcfg
      exact ⟨hcfg, by simp [sentTo, acc1]⟩
    · refine ⟨rfl, ⟨inv.queue, inv.scratch, inv.cb⟩, hb, rfl, ?_⟩
      intro i d r hcfg
      refine ⟨hcfg, ?_⟩
      have : sentTo i (c.waiting.map (Out.completed (α := α))) = [] := by
        simp [sentTo, List.flatMap_map]
      dsimp only
      rw [this]
      simp [acc1]

theorem run_calm (es : List (Ev α)) : ∀ (c : Chan α) (b : Bool), Inv c → (c.inCb = true → b = true) →
    Calm b es →
    (run c es).fate = .ok ∧ Inv (run c es).ch ∧
    ∀ (i : Nat) (d r : Bool), Cfg c.links i d r →
      Cfg (run c es).ch.links i d r ∧
      (sentTo i (run c es).outs ++ pend (run c es).ch.links i).getLast? =
        (pend c.links i ++ accepted r i c.connected es).getLast? := by
  induction es with
  | nil =>
    intro c b inv _ _
    refine ⟨rfl, inv, ?_⟩
    intro i d r hcfg
    exact ⟨hcfg, by simp [run, sentTo, accepted]⟩
  | cons e es ih =>
    intro c b inv hb hcalm
    obtain ⟨h1, h2⟩ := calm_cons hcalm
    obtain ⟨s1, s2, s3, s4, s5⟩ := step_calm c e b inv hb h1
    obtain ⟨r1, r2, r3⟩ := ih (step c e).ch (busy1 b e) s2 s3 h2
    have hrun : run c (e :: es) = { run (step c e).ch es with
        outs := (step c e).outs ++ (run (step c e).ch es).outs } := by
      simp only [run, s1]
    rw [hrun]
    refine ⟨r1, r2, ?_⟩
    intro i d r hcfg
    obtain ⟨s6, s7⟩ := s5 i d r hcfg
    obtain ⟨r4, r5⟩ := r3 i d r s6
    refine ⟨r4, ?_⟩
    dsimp only
    rw [sentTo_append, accepted_cons, List.append_assoc, List.getLast?_append, r5, s4,
      ← List.getLast?_append, ← List.append_assoc, List.getLast?_append, s7, ← List.getLast?_append,
      List.append_assoc]

theorem fresh_inv (c : Chan α) (hf : Fresh c) : Inv c := by
  obtain ⟨h1, h2, h3, h4, h5, h6⟩ := hf
  refine ⟨?_, ?_, ?_⟩
  · intro l hl h; rw [(h6 l hl).2] at h; cases h
  · intro l hl h; rw [(h6 l hl).1] at h; cases h
  · intro h; rw [h4] at h; cases h

theorem fresh_pend (c : Chan α) (hf : Fresh c) (i : Nat) : pend c.links i = [] := by
  unfold pend
  cases hl : c.links[i]? with
  | none => rfl
  | some l =>
    obtain ⟨h1, h2⟩ := hf.2.2.2.2.2 l (List.mem_of_getElem? hl)
    simp [pendL, h1, h2]

/-- C86 (the last value written is the last value sent), in a calm history, once no PUT is in
progress, for a link without `defer`. -/
theorem C86_last_partial (c : Chan α) (hf : Fresh c) (es : List (Ev α)) (hc : Calm false es) (i : Nat)
    (l : Link α) (hl : c.links[i]? = some l) (hd : l.defer = false) (hop : (run c es).ch.op = none) :
    (sentTo i (run c es).outs).getLast? = (accepted l.retry i false es).getLast? := by
  obtain ⟨_, h2, h3⟩ := run_calm es c false (fresh_inv c hf) (fun h => by rw [hf.2.2.2.1] at h; cases h) hc
  obtain ⟨⟨m, hm, hm1, hm2⟩, h4⟩ := h3 i l.defer l.retry ⟨l, hl, rfl, rfl⟩
  have : pend (run c es).ch.links i = [] := by
    unfold pend
    rw [hm]
    have hmem := List.mem_of_getElem? hm
    have q : m.queue = none := by
      cases hq : m.queue with
      | none => rfl
      | some v =>
        obtain ⟨op, ho, _⟩ := h2.queue m hmem (by simp [hq])
        rw [hop] at ho; cases ho
    have s : m.scratch = none := by
      cases hq : m.scratch with
      | none => rfl
      | some v =>
        have := h2.scratch m hmem (by simp [hq])
        rw [hm1, hd] at this; cases this
    simp [pendL, q, s]
  rw [this, List.append_nil, fresh_pend c hf, List.nil_append, hf.2.2.2.2.1] at h4
  exact h4

theorem run_append (a : List (Ev α)) : ∀ (c : Chan α) (b : List (Ev α)), (run c a).fate = .ok →
    run c (a ++ b) = { run (run c a).ch b with outs := (run c a).outs ++ (run (run c a).ch b).outs } := by
  induction a with
  | nil => intro c b _; simp [run]
  | cons e a ih =>
    intro c b h
    rw [List.cons_append]
    simp only [run] at h ⊢
    cases hf : (step c e).fate with
    | deadlock => rw [hf] at h; dsimp only at h; rw [hf] at h; cases h
    | ok =>
      rw [hf] at h
      dsimp only at h ⊢
      rw [ih _ b h]
      simp

theorem calm_append {es : List (Ev α)} : ∀ {b : Bool} {fs : List (Ev α)}, Calm b es →
    (∀ b', Calm b' fs) → Calm b (es ++ fs) := by
  induction es with
  | nil => intro b fs _ h; exact h b
  | cons e es ih =>
    intro b fs h hfs
    rw [List.cons_append]
    cases e <;> simp only [Calm] at h ⊢
    · exact ⟨h.1, ih h.2 hfs⟩
    · exact ⟨h.1, ih h.2 hfs⟩
    · exact ih h hfs
    · exact ⟨h.1, ih h.2 hfs⟩
    · exact ⟨h.1, ih h.2 hfs⟩
    · exact ih h hfs
    · exact ih h hfs

theorem calm_drain (b : Bool) : Calm b (drain : List (Ev α)) := by
  simp [drain, Calm]

/-- one answer of the server -/
def round : List (Ev α) := [.enter, .build fun _ _ => .sets, .enter, .done true]

/-- after an answer, no link has a value which was not moved, or nothing was in progress -/
theorem round_ends (c : Chan α) :
    ((run c round).ch.op = none ∨ c.op.isSome ∧ ∀ l, l ∈ (run c round).ch.links → l.scratch = none) ∧
    ((∀ l, l ∈ c.links → l.scratch = none) → (run c round).ch.op = none) := by
  have hbl := buildLoop_sets (α := α) (fun _ _ => .sets) (fun _ _ => rfl) c.links 0
  cases ho : c.op with
  | none =>
    have : run c round = { ch := { c with inCb := false } } := by
      simp [run, round, step, ho]
    rw [this]
    exact ⟨.inl ho, fun _ => ho⟩
  | some op =>
    -- the channel just before linkPutDone
    have key : ∃ c1 : Chan α, (run c round).ch.op = (finish c1 true).ch.op ∧
        (run c round).ch.links = (finish c1 true).ch.links ∧
        ((∀ l, l ∈ c.links → l.scratch = none) → ∀ l, l ∈ c1.links → l.scratch = none) := by
      cases hs : op.sent with
      | true =>
        refine ⟨{ c with inCb := true }, ?_, ?_, fun h => h⟩
        · simp [run, round, step, ho, hs, finish]
        · simp [run, round, step, ho, hs, finish]
      | false =>
        refine ⟨{ c with links := (buildLoop (fun _ _ => .sets) 0 c.links).1, op := some { op with sent := true }, inCb := true }, ?_, ?_, ?_⟩
        · simp [run, round, step, ho, hs, build, hbl.1, finish]
        · simp [run, round, step, ho, hs, build, hbl.1, finish]
        · intro h l hl
          dsimp only at hl
          rw [hbl.2.1] at hl
          obtain ⟨m, hm, rfl⟩ := List.mem_map.mp hl
          exact h m hm
    obtain ⟨c1, k1, k2, k3⟩ := key
    have hcp := chanPut_calm { c1 with op := none, inCb := false } false true (.inr rfl)
    have e1 : (finish c1 true).ch.op = (chanPut { c1 with op := none, inCb := false } false true).2.op := by
      simp [finish]
    have e2 : (finish c1 true).ch.links = (chanPut { c1 with op := none, inCb := false } false true).2.links := by
      simp [finish]
    rw [k1, k2, e1, e2]
    refine ⟨.inr ⟨rfl, ?_⟩, ?_⟩
    · intro l hl
      rw [hcp.2.1] at hl
      obtain ⟨m, hm, rfl⟩ := List.mem_map.mp hl
      exact (moveOne_keeps m).2.2.2.2
    · intro h
      have h1 := k3 h
      have hany : (c1.links.any fun l => l.scratch.isSome) = false := by
        rw [List.any_eq_false]
        intro l hl
        simp [h1 l hl]
      simp [chanPut, hany]

theorem calm_round (b : Bool) : Calm b (round : List (Ev α)) := by simp [round, Calm]

/-- C86 (the last value written is sent, and then nothing is in progress), once the server answers,
after any calm history, for a link without `defer`. -/
theorem C86_delivered_partial (c : Chan α) (hf : Fresh c) (es : List (Ev α)) (hc : Calm false es) (i : Nat)
    (l : Link α) (hl : c.links[i]? = some l) (hd : l.defer = false) :
    (run c (es ++ drain)).ch.op = none ∧
    (sentTo i (run c (es ++ drain)).outs).getLast? = (accepted l.retry i false es).getLast? := by
  have hcal : Calm false (es ++ drain) := calm_append hc calm_drain
  have hop : (run c (es ++ drain)).ch.op = none := by
    have h0 := run_calm es c false (fresh_inv c hf) (fun h => by rw [hf.2.2.2.1] at h; cases h) hc
    rw [run_append es c drain h0.1]
    dsimp only
    generalize hc1 : (run c es).ch = c1
    have inv1 : Inv c1 := hc1 ▸ h0.2.1
    have hdr : (drain : List (Ev α)) = round ++ round := rfl
    have h1 := run_calm round c1 true inv1 (fun _ => rfl) (calm_round true)
    rw [hdr, run_append round c1 round h1.1]
    dsimp only
    rcases (round_ends c1).1 with h | ⟨_, h⟩
    · have := (round_ends (run c1 round).ch).1
      rcases this with h2 | ⟨h2, _⟩
      · exact h2
      · rw [h] at h2; cases h2
    · exact (round_ends (run c1 round).ch).2 h
  refine ⟨hop, ?_⟩
  rw [C86_last_partial c hf (es ++ drain) hcal i l hl hd hop]
  have : ∀ (es : List (Ev α)) (k : Bool), accepted l.retry i k (es ++ drain) = accepted l.retry i k es := by
    intro es
    induction es with
    | nil => intro k; rfl
    | cons e es ih => intro k; rw [List.cons_append, accepted_cons, accepted_cons, ih]
  rw [this]

/-! ### the processing asked for -/

/-- the links whose value waits to be built, with their number -/
def queued : Nat → List (Link α) → List (Nat × α)
  | _, [] => []
  | off, l :: ls => (match l.queue with | none => [] | some v => [(off, v)]) ++ queued (off+1) ls

theorem mem_queued (ls : List (Link α)) : ∀ (off : Nat) (x : Nat × α),
    x ∈ queued off ls ↔ ∃ k l, ls[k]? = some l ∧ l.queue = some x.2 ∧ x.1 = off + k := by
  induction ls with
  | nil => intro off x; simp [queued]
  | cons l ls ih =>
    intro off x
    simp only [queued, List.mem_append, ih (off+1) x]
    constructor
    · rintro (h | ⟨k, m, h1, h2, h3⟩)
      · cases hq : l.queue with
        | none => rw [hq] at h; cases h
        | some v =>
          rw [hq] at h
          simp only [List.mem_singleton] at h
          subst h
          exact ⟨0, l, rfl, hq, rfl⟩
      · exact ⟨k+1, m, h1, h2, by omega⟩
    · rintro ⟨k, m, h1, h2, h3⟩
      cases k with
      | zero =>
        simp only [List.getElem?_cons_zero, Option.some.injEq] at h1
        subst h1
        left
        rw [h2]
        simp only [List.mem_singleton]
        exact Prod.ext h3 rfl
      | succ n => exact .inr ⟨n, m, h1, h2, by omega⟩

theorem buildLoop_queued (conv : Nat → α → Conv) (hc : ∀ i v, conv i v = .sets) :
    ∀ (ls : List (Link α)) (off : Nat), (buildLoop conv off ls).2.1 = queued off ls := by
  intro ls
  induction ls with
  | nil => intro off; rfl
  | cons l ls ih =>
    intro off
    unfold buildLoop queued
    cases hq : l.queue with
    | none => simp only [ih]; rfl
    | some v => simp only [hc off v, ih]; rfl

def procsOf (ls : List (Link α)) (i : Nat) : Option Proc := (ls[i]?).map Link.proc

theorem procs_map (f : Link α → Link α) (hf : ∀ l, (f l).proc = l.proc) (ls : List (Link α)) :
    procsOf (ls.map f) = procsOf ls := by
  funext i
  simp only [procsOf, List.getElem?_map]
  cases ls[i]? with
  | none => rfl
  | some l => simp [hf l]

theorem procs_set (ls : List (Link α)) (j : Nat) (v : α) : procsOf (setScratch ls j v) = procsOf ls := by
  funext i
  simp only [procsOf, setScratch, List.getElem?_modify]
  cases ls[i]? with
  | none => rfl
  | some l => by_cases h : j = i <;> simp [h]

/-- a PUT which waits to be built asks for what its links want -/
def Right (procs : Nat → Option Proc) (fw : Bool) (c : Chan α) : Prop :=
  procsOf c.links = procs ∧
  ∀ op, c.op = some op → op.sent = false → Asks procs fw op.process (queued 0 c.links)

theorem any_scratch (ls : List (Link α)) (P : Proc) :
    (ls.any fun l => l.scratch.isSome && l.proc == P) = true ↔
    ∃ (k : Nat) (l : Link α) (v : α), ls[k]? = some l ∧ l.scratch = some v ∧ l.proc = P := by
  rw [List.any_eq_true]
  constructor
  · rintro ⟨l, hl, h⟩
    rw [Bool.and_eq_true] at h
    obtain ⟨k, hk⟩ := List.mem_iff_getElem?.mp hl
    obtain ⟨v, hv⟩ := Option.isSome_iff_exists.mp h.1
    exact ⟨k, l, v, hk, hv, by simpa using h.2⟩
  · rintro ⟨k, l, v, hk, hv, hp⟩
    exact ⟨l, List.mem_of_getElem? hk, by simp [hv, hp]⟩

/-- the option of a new PUT, if nothing waits -/
theorem processOf_asks (force fw : Bool) (ls : List (Link α)) (hfw : force = true → fw = true)
    (hq : ∀ l, l ∈ ls → l.queue = none) :
    Asks (procsOf ls) fw (processOf force ls) (queued 0 (ls.map moveOne)) := by
  have mem : ∀ x, x ∈ queued 0 (ls.map moveOne) ↔ ∃ (k : Nat) (l : Link α), ls[k]? = some l ∧ l.scratch = some x.2 ∧ x.1 = k := by
    intro x
    rw [mem_queued]
    constructor
    · rintro ⟨k, m, h1, h2, h3⟩
      rw [List.getElem?_map] at h1
      obtain ⟨l, hl, rfl⟩ := Option.map_eq_some_iff.mp h1
      refine ⟨k, l, hl, ?_, by omega⟩
      unfold moveOne at h2
      cases hs : l.scratch with
      | none => rw [hs] at h2; dsimp only at h2; rw [hq l (List.mem_of_getElem? hl)] at h2; cases h2
      | some v => rw [hs] at h2; exact h2
    · rintro ⟨k, l, h1, h2, h3⟩
      refine ⟨k, moveOne l, by simp [h1], ?_, by omega⟩
      simp [moveOne, h2]
  have ex : ∀ P, (∃ x, x ∈ queued 0 (ls.map moveOne) ∧ procsOf ls x.1 = some P) ↔
      (ls.any fun l => l.scratch.isSome && l.proc == P) = true := by
    intro P
    rw [any_scratch]
    constructor
    · rintro ⟨x, hx, hp⟩
      obtain ⟨k, l, h1, h2, h3⟩ := (mem x).mp hx
      subst h3
      refine ⟨x.1, l, x.2, h1, h2, ?_⟩
      simpa [procsOf, h1] using hp
    · rintro ⟨k, l, v, h1, h2, h3⟩
      exact ⟨(k, v), (mem _).mpr ⟨k, l, h1, h2, rfl⟩, by simp [procsOf, h1, h3]⟩
  unfold Asks processOf
  rw [ex .pp]
  refine ⟨?_, ?_, ?_, ?_⟩
  · intro h; rw [h]; simp
  · intro h
    by_cases hpp : (ls.any fun l => l.scratch.isSome && l.proc == .pp) = true
    · exact .inr hpp
    · left
      apply hfw
      cases force with
      | true => rfl
      | false =>
        rw [Bool.not_eq_true] at hpp
        simp only [hpp, Bool.or_self, Bool.false_eq_true, if_false] at h
        split at h <;> cases h
  · intro h
    rw [ex .npp]
    split at h
    · cases h
    · split at h
      · assumption
      · cases h
  · intro h x hx
    split at h
    · cases h
    · rename_i h1
      split at h
      · cases h
      · rename_i h2
        obtain ⟨k, l, g1, g2, g3⟩ := (mem x).mp hx
        subst g3
        have n1 : l.proc ≠ .pp := by
          intro e
          apply h1
          rw [Bool.or_eq_true]
          exact .inr ((any_scratch ls .pp).mpr ⟨_, l, _, g1, g2, e⟩)
        have n2 : l.proc ≠ .npp := by
          intro e
          exact h2 ((any_scratch ls .npp).mpr ⟨_, l, _, g1, g2, e⟩)
        simp only [procsOf, g1, Option.map_some]
        cases hp : l.proc <;> simp_all

theorem chanPut_right (c : Chan α) (f w fw : Bool) (h : c.inCb = false ∨ w = true) (procs : Nat → Option Proc)
    (hfw : f = true → fw = true) (hp : procsOf c.links = procs) (hs : ∀ op, c.op = some op → op.sent = true)
    (hq : ∀ l, l ∈ c.links → l.queue = none) : Right procs fw (chanPut c f w).2 := by
  have hl := (chanPut_calm c f w h).2.1
  constructor
  · rw [hl, procs_map moveOne (fun l => (moveOne_keeps l).2.1), hp]
  · intro op ho hsent
    rw [hl]
    have : chanPut c f w = (.ok, { c with links := c.links.map moveOne, op := some { process := processOf f c.links, block := !c.waiting.isEmpty } }) ∨
        (chanPut c f w).2.op = c.op := by
      unfold chanPut
      dsimp only
      split
      · split
        · exact .inr rfl
        · exact .inl rfl
      · exact .inr rfl
    rcases this with e | e
    · rw [e] at ho
      dsimp only at ho
      cases ho
      rw [← hp]
      exact processOf_asks f fw c.links hfw hq
    · rw [e] at ho
      rw [hs op ho] at hsent; cases hsent

theorem noqueue (c : Chan α) (inv : Inv c) (hs : ∀ op, c.op = some op → op.sent = true) :
    ∀ l, l ∈ c.links → l.queue = none := by
  intro l hl
  cases hq : l.queue with
  | none => rfl
  | some v =>
    obtain ⟨op, h1, h2⟩ := inv.queue l hl (by simp [hq])
    rw [hs op h1] at h2; cases h2

theorem set_noqueue (ls : List (Link α)) (j : Nat) (v : α) (h : ∀ l, l ∈ ls → l.queue = none) :
    ∀ l, l ∈ setScratch ls j v → l.queue = none := by
  intro m hm
  obtain ⟨k, hk⟩ := List.mem_iff_getElem?.mp hm
  unfold setScratch at hk
  rw [List.getElem?_modify] at hk
  obtain ⟨l', hl', hm''⟩ := Option.map_eq_some_iff.mp hk
  have := h l' (List.mem_of_getElem? hl')
  subst hm''
  by_cases hjk : j = k <;> simpa [hjk] using this

/-- what is required of an event, by `Alone` -/
def Alone1 (c : Chan α) : Ev α → Prop
  | .put _ _ _ => ∀ op, c.op = some op → op.sent = true
  | .forward _ => ∀ op, c.op = some op → op.sent = true
  | _ => True

theorem alone_cons {c : Chan α} {e : Ev α} {es : List (Ev α)} (h : Alone c (e :: es)) :
    Alone1 c e ∧ Alone (step c e).ch es := by
  cases e <;> simp only [Alone, Alone1] at h ⊢ <;> first | exact h | exact ⟨trivial, h⟩

def fwd1 : Ev α → Bool
  | .forward _ => true
  | _ => false

theorem step_right (c : Chan α) (e : Ev α) (b fw : Bool) (procs : Nat → Option Proc) (inv : Inv c)
    (hb : c.inCb = true → b = true) (h1 : Calm1 b e) (ha : Alone1 c e) (hr : Right procs fw c)
    (hfw : fwd1 e = true → fw = true) :
    Right procs fw (step c e).ch ∧
    ∀ p bl vals, Out.sent p bl vals ∈ (step c e).outs → Asks procs fw p vals := by
  have keep : ∀ c' : Chan α, c'.links = c.links → c'.op = c.op → Right procs fw c' := by
    intro c' e1 e2
    exact ⟨by rw [e1]; exact hr.1, by rw [e1, e2]; exact hr.2⟩
  cases e with
  | put j v w =>
    have hb0 : b = false := h1
    have hcb : c.inCb = false := by
      cases h : c.inCb
      · rfl
      · rw [hb h] at hb0; cases hb0
    have hs : ∀ op, c.op = some op → op.sent = true := ha
    simp only [step, putValue]
    split
    · exact ⟨hr, fun p bl vals h => by cases h⟩
    · split
      · exact ⟨hr, fun p bl vals h => by simp at h⟩
      · split
        · refine ⟨⟨?_, ?_⟩, fun p bl vals h => by cases h⟩
          · dsimp only; rw [procs_set]; exact hr.1
          · intro op ho hsent
            rw [hs op ho] at hsent; cases hsent
        · refine ⟨?_, fun p bl vals h => by cases h⟩
          rename_i l _ _ _
          exact chanPut_right { c with links := setScratch c.links j v, waiting := if w = true then addRec l.record c.waiting else c.waiting } false false fw (.inl hcb) procs (fun h => by cases h)
            (by dsimp only; rw [procs_set]; exact hr.1) hs (set_noqueue _ _ _ (noqueue c inv hs))
  | forward j =>
    have hb0 : b = false := h1
    have hcb : c.inCb = false := by
      cases h : c.inCb
      · rfl
      · rw [hb h] at hb0; cases hb0
    have hs : ∀ op, c.op = some op → op.sent = true := ha
    simp only [step, forward]
    split
    · exact ⟨hr, fun p bl vals h => by cases h⟩
    · split
      · exact ⟨hr, fun p bl vals h => by simp at h⟩
      · refine ⟨?_, fun p bl vals h => by cases h⟩
        exact chanPut_right _ true false fw (.inl hcb) procs (fun _ => hfw rfl) hr.1 hs (noqueue c inv hs)
  | enter => exact ⟨keep _ rfl rfl, fun p bl vals h => by cases h⟩
  | build conv =>
    cases ho : c.op with
    | none =>
      have hst : step c (.build conv) = { ch := { c with inCb := false } } := by simp only [step, ho]
      rw [hst]; exact ⟨keep _ rfl rfl, fun p bl vals h => by cases h⟩
    | some op =>
      by_cases hg : (c.inCb && !op.sent) = true
      · obtain ⟨s1, s2, s3⟩ := buildLoop_sets conv h1 c.links 0
        have hst : step c (.build conv) =
            { ch := { c with links := (buildLoop conv 0 c.links).1, op := some { op with sent := true }, inCb := false },
              outs := [.sent op.process op.block (buildLoop conv 0 c.links).2.1] } := by
          simp only [step, ho, if_pos hg, build, s1, Bool.false_eq_true, if_false]
        rw [hst]
        refine ⟨⟨?_, ?_⟩, ?_⟩
        · dsimp only
          rw [s2, procs_map (fun l : Link α => { l with queue := none }) (fun _ => rfl)]; exact hr.1
        · intro o h hsent
          cases h; cases hsent
        · intro p bl vals h
          simp only [List.mem_singleton, Out.sent.injEq] at h
          obtain ⟨rfl, _, rfl⟩ := h
          rw [buildLoop_queued conv h1]
          exact hr.2 op ho (by simp at hg; exact hg.2)
      · have hst : step c (.build conv) = { ch := { c with inCb := false } } := by
          simp only [step, ho, if_neg hg]
        rw [hst]; exact ⟨keep _ rfl rfl, fun p bl vals h => by cases h⟩
  | done ok =>
    have hok : ok = true := h1
    subst hok
    cases ho : c.op with
    | none =>
      have hst : step c (.done true : Ev α) = { ch := { c with inCb := false } } := by simp only [step, ho]
      rw [hst]; exact ⟨keep _ rfl rfl, fun p bl vals h => by cases h⟩
    | some op =>
      by_cases hs : (c.inCb && (op.sent || !true)) = true
      · have hst : step c (.done true : Ev α) = finish c true := by simp only [step, ho, if_pos hs]
        rw [hst]
        have hsent : op.sent = true := by simp at hs; exact hs.2
        have := chanPut_right { c with op := none, inCb := false } false true fw (.inr rfl) procs (fun h => by cases h)
          hr.1 (fun op h => by cases h) (noqueue c inv (fun o h => by rw [ho] at h; cases h; exact hsent))
        unfold finish
        simp only [if_true]
        exact ⟨⟨this.1, this.2⟩, fun p bl vals h => by cases h⟩
      · have hst : step c (.done true : Ev α) = { ch := { c with inCb := false } } := by
          simp only [step, ho, if_neg hs]
        rw [hst]; exact ⟨keep _ rfl rfl, fun p bl vals h => by cases h⟩
  | lost => exact absurd h1 (fun h => h)
  | disconnect => exact absurd h1 (fun h => h)
  | connect => exact ⟨keep _ rfl rfl, fun p bl vals h => by cases h⟩
  | after =>
    dsimp only [step]
    split
    · exact ⟨hr, fun p bl vals h => by cases h⟩
    · refine ⟨keep _ rfl rfl, fun p bl vals h => ?_⟩
      obtain ⟨r, _, hr'⟩ := List.mem_map.mp h
      cases hr'

theorem run_cons_ok (c : Chan α) (e : Ev α) (es : List (Ev α)) (h : (step c e).fate = .ok) :
    run c (e :: es) = { run (step c e).ch es with outs := (step c e).outs ++ (run (step c e).ch es).outs } := by
  simp only [run, h]

theorem run_right (es : List (Ev α)) : ∀ (c : Chan α) (b fw : Bool) (procs : Nat → Option Proc), Inv c →
    (c.inCb = true → b = true) → Calm b es → Alone c es → Right procs fw c →
    (∀ i, Ev.forward i ∈ es → fw = true) →
    ∀ p bl vals, Out.sent p bl vals ∈ (run c es).outs → Asks procs fw p vals := by
  induction es with
  | nil => intro c b fw procs _ _ _ _ _ _ p bl vals h; cases h
  | cons e es ih =>
    intro c b fw procs inv hb hc ha hr hfw p bl vals h
    obtain ⟨c1, c2⟩ := calm_cons hc
    obtain ⟨a1, a2⟩ := alone_cons ha
    obtain ⟨s1, s2, s3, _, _⟩ := step_calm c e b inv hb c1
    have hf1 : fwd1 e = true → fw = true := by
      intro hh
      cases e with
      | forward i => exact hfw i (List.mem_cons_self ..)
      | _ => cases hh
    obtain ⟨r1, r2⟩ := step_right c e b fw procs inv hb c1 a1 hr hf1
    rw [run_cons_ok c e es s1] at h
    rcases List.mem_append.mp h with h | h
    · exact r2 p bl vals h
    · exact ih _ _ fw procs s2 s3 c2 a2 r1 (fun i hi => hfw i (List.mem_cons_of_mem _ hi)) p bl vals h

open Classical in
/-- C86 (a PUT asks for the processing its links want), in a calm history in which no link is written
while a PUT waits to be built. -/
theorem C86_process_partial (c : Chan α) (hf : Fresh c) (es : List (Ev α)) (hc : Calm false es) (ha : Alone c es)
    (p : Process) (block : Bool) (vals : List (Nat × α)) (h : .sent p block vals ∈ (run c es).outs) :
    Asks (fun i => (c.links[i]?).map Link.proc) (decide (Forwarded es)) p vals := by
  refine run_right es c false (decide (Forwarded es)) _ (fresh_inv c hf) (fun h => by rw [hf.2.2.2.1] at h; cases h)
    hc ha ⟨rfl, ?_⟩ ?_ p block vals h
  · intro op ho
    rw [hf.1] at ho; cases ho
  · intro i hi
    simp only [decide_eq_true_eq]
    exact ⟨i, hi⟩

/-! ### completion of records -/

theorem chanPut_waiting (c : Chan α) (f w : Bool) : (chanPut c f w).2.waiting = c.waiting := by
  unfold chanPut
  dsimp only
  split
  · split <;> rfl
  · rfl

theorem mem_addRec (r s : Nat) (l : List Nat) : r ∈ l → r ∈ addRec s l := by
  intro h
  unfold addRec
  split
  · exact h
  · exact List.mem_append_left _ h

theorem self_addRec (r : Nat) (l : List Nat) : r ∈ addRec r l := by
  unfold addRec
  split
  · assumption
  · exact List.mem_append_right _ (List.mem_singleton.mpr rfl)

theorem finish_waiting (c : Chan α) (ok : Bool) : (finish c ok).ch.waiting = c.waiting := by
  unfold finish
  dsimp only
  cases ok with
  | false => rfl
  | true => simp only [if_true]; rw [chanPut_waiting]

theorem step_waiting (c : Chan α) (e : Ev α) (r : Nat) (h : r ∈ c.waiting) :
    r ∈ (step c e).ch.waiting ∨ .completed r ∈ (step c e).outs := by
  cases e with
  | put j v w =>
    left
    simp only [step, putValue]
    split
    · exact h
    · split
      · exact h
      · split
        · dsimp only; split
          · exact mem_addRec _ _ _ h
          · exact h
        · dsimp only; rw [chanPut_waiting]; dsimp only; split
          · exact mem_addRec _ _ _ h
          · exact h
  | forward j =>
    left
    simp only [step, forward]
    split
    · exact h
    · split
      · exact h
      · dsimp only; rw [chanPut_waiting]; exact h
  | enter => exact .inl h
  | build conv =>
    left
    simp only [step, build]
    split
    · split
      · rename_i op ho _
        simp only [ho]
        split
        · rw [finish_waiting]; exact h
        · exact h
      · exact h
    · exact h
  | done ok =>
    left
    simp only [step]
    split
    · split
      · rw [finish_waiting]; exact h
      · exact h
    · exact h
  | lost => exact .inl h
  | disconnect =>
    left
    simp only [step]
    split <;> exact h
  | connect => exact .inl h
  | after =>
    simp only [step]
    split
    · exact .inl h
    · exact .inr (List.mem_map.mpr ⟨r, h, rfl⟩)

theorem run_waiting (es : List (Ev α)) : ∀ (c : Chan α) (r : Nat), r ∈ c.waiting → (run c es).fate = .ok →
    r ∈ (run c es).ch.waiting ∨ .completed r ∈ (run c es).outs := by
  induction es with
  | nil => intro c r h _; exact .inl h
  | cons e es ih =>
    intro c r h hok
    cases hf : (step c e).fate with
    | deadlock => simp only [run, hf] at hok; cases hok
    | ok =>
      rw [run_cons_ok c e es hf] at hok ⊢
      dsimp only at hok ⊢
      rcases step_waiting c e r h with h1 | h1
      · rcases ih _ r h1 hok with h2 | h2
        · exact .inl h2
        · exact .inr (List.mem_append_right _ h2)
      · exact .inr (List.mem_append_left _ h1)

/-- a record waits only for a PUT in progress, or for its completion to be run -/
def Waits (c : Chan α) : Prop := c.waiting ≠ [] → c.op.isSome ∨ c.scans > 0

theorem chanPut_op (c : Chan α) (f w : Bool) (h : c.op.isSome) : (chanPut c f w).2.op.isSome := by
  unfold chanPut
  dsimp only
  split
  · split
    · exact h
    · rfl
  · exact h

theorem chanPut_scans (c : Chan α) (f w : Bool) : (chanPut c f w).2.scans = c.scans := by
  unfold chanPut
  dsimp only
  split
  · split <;> rfl
  · rfl

theorem step_waits (c : Chan α) (e : Ev α) (b : Bool) (inv : Inv c) (hb : c.inCb = true → b = true)
    (h1 : Calm1 b e) (hw : Waits c)
    (hd : ∀ j v, e = .put j v true → ∀ l, c.links[j]? = some l → l.defer = false) : Waits (step c e).ch := by
  have cp : ∀ (c' : Chan α) (f w : Bool), Waits c' → Waits (chanPut c' f w).2 := by
    intro c' f w h hne
    rw [chanPut_waiting] at hne
    rcases h hne with h | h
    · exact .inl (chanPut_op c' f w h)
    · exact .inr (by rw [chanPut_scans]; exact h)
  cases e with
  | put j v w =>
    have hb0 : b = false := h1
    have hcb : c.inCb = false := by
      cases h : c.inCb
      · rfl
      · rw [hb h] at hb0; cases hb0
    simp only [step, putValue]
    split
    · exact hw
    · rename_i l hl
      split
      · exact hw
      · split
        · rename_i hdef
          cases w with
          | true => rw [hd j v rfl l hl] at hdef; cases hdef
          | false => exact hw
        · -- the value just written is moved, so there is a new PUT
          dsimp only
          intro _
          left
          generalize hc' : ({ c with links := setScratch c.links j v, waiting := if w = true then addRec l.record c.waiting else c.waiting } : Chan α) = c'
          have hcb' : c'.inCb = false := by rw [← hc']; exact hcb
          obtain ⟨_, _, _, _, _, _, h5⟩ := chanPut_calm c' false false (.inl hcb')
          rcases h5 with ⟨_, _, hn⟩ | ⟨op, ho, _⟩
          · exfalso
            have hj : c'.links[j]? = some { l with scratch := some v } := by
              rw [← hc']
              simp [setScratch, hl]
            have := hn _ (List.mem_of_getElem? hj)
            cases this
          · rw [ho]; rfl
  | forward j =>
    simp only [step, forward]
    split
    · exact hw
    · split
      · exact hw
      · exact cp c true false hw
  | enter => exact hw
  | build conv =>
    obtain ⟨s1, _, _⟩ := buildLoop_sets conv h1 c.links 0
    cases ho : c.op with
    | none =>
      have hst : step c (.build conv) = { ch := { c with inCb := false } } := by simp only [step, ho]
      rw [hst]; exact hw
    | some op =>
      by_cases hg : (c.inCb && !op.sent) = true
      · have hst : step c (.build conv) =
            { ch := { c with links := (buildLoop conv 0 c.links).1, op := some { op with sent := true }, inCb := false },
              outs := [.sent op.process op.block (buildLoop conv 0 c.links).2.1] } := by
          simp only [step, ho, if_pos hg, build, s1, Bool.false_eq_true, if_false]
        rw [hst]
        exact fun _ => .inl rfl
      · have hst : step c (.build conv) = { ch := { c with inCb := false } } := by
          simp only [step, ho, if_neg hg]
        rw [hst]; exact hw
  | done ok =>
    simp only [step]
    split
    · split
      · intro hne
        right
        rw [finish_waiting] at hne
        have : (!c.waiting.isEmpty) = true := by
          cases hx : c.waiting with
          | nil => exact absurd hx hne
          | cons a as => rfl
        simp only [finish, this, if_true]
        omega
      · exact hw
    · exact hw
  | lost => exact absurd h1 (fun h => h)
  | disconnect => exact absurd h1 (fun h => h)
  | connect => exact hw
  | after =>
    simp only [step]
    split
    · exact hw
    · intro h; exact absurd rfl h

theorem run_waits (es : List (Ev α)) : ∀ (c c0 : Chan α) (b : Bool), Inv c → (c.inCb = true → b = true) → Calm b es →
    Waits c → WaitsNow c0 es → (∀ i l, c0.links[i]? = some l → Cfg c.links i l.defer l.retry) →
    c0.links.length = c.links.length →
    Waits (run c es).ch ∧ (run c es).fate = .ok := by
  induction es with
  | nil => intro c c0 b _ _ _ h _ _ _; exact ⟨h, rfl⟩
  | cons e es ih =>
    intro c c0 b inv hb hc hw hn hcfg hlen
    obtain ⟨c1, c2⟩ := calm_cons hc
    obtain ⟨s1, s2, s3, _, s5⟩ := step_calm c e b inv hb c1
    have hd : ∀ j v, e = .put j v true → ∀ l, c.links[j]? = some l → l.defer = false := by
      intro j v he l hl
      have hjl : j < c0.links.length := by
        rw [hlen]; exact (List.getElem?_eq_some_iff.mp hl).1
      have h0 : c0.links[j]? = some c0.links[j] := List.getElem?_eq_getElem hjl
      have := hn j v _ (he ▸ List.mem_cons_self ..) h0
      obtain ⟨l', hl', hd', _⟩ := hcfg j _ h0
      rw [hl] at hl'; cases hl'
      rw [hd', this]
    have hw' := step_waits c e b inv hb c1 hw hd
    rw [run_cons_ok c e es s1]
    have hlen' : c0.links.length = (step c e).ch.links.length := by
      -- every configured link is still there, and none is added
      have cpl : ∀ (c' : Chan α) (f w : Bool), (chanPut c' f w).2.links.length = c'.links.length := by
        intro c' f w
        unfold chanPut
        dsimp only
        split
        · split <;> simp
        · simp
      have bl : ∀ (conv : Nat → α → Conv) (ls : List (Link α)) off, (buildLoop conv off ls).1.length = ls.length := by
        intro conv ls
        induction ls with
        | nil => intro off; rfl
        | cons l ls ih2 =>
          intro off
          unfold buildLoop
          cases l.queue with
          | none => simp [ih2]
          | some v => dsimp only; cases conv off v <;> simp [ih2]
      have fl : ∀ (c' : Chan α) ok, (finish c' ok).ch.links.length = c'.links.length := by
        intro c' ok
        unfold finish
        cases ok with
        | false => rfl
        | true => simp only [if_true]; rw [cpl]
      rw [hlen]
      cases e with
      | put j v w =>
        simp only [step, putValue]
        split
        · rfl
        · split
          · rfl
          · split
            · simp [setScratch]
            · dsimp only; rw [cpl]; simp [setScratch]
      | forward j =>
        simp only [step, forward]
        split
        · rfl
        · split
          · rfl
          · dsimp only; rw [cpl]
      | enter => rfl
      | build conv =>
        simp only [step, build]
        split
        · split
          · rename_i op ho _
            simp only [ho]
            split
            · rw [fl]; dsimp only; rw [bl]
            · dsimp only; rw [bl]
          · rfl
        · rfl
      | done ok =>
        simp only [step]
        split
        · split
          · rw [fl]
          · rfl
        · rfl
      | lost => rfl
      | disconnect => simp only [step]; split <;> simp
      | connect => rfl
      | after => simp only [step]; split <;> rfl
    exact ih (step c e).ch c0 (busy1 b e) s2 s3 c2 hw' (fun i v l hi => hn i v l (List.mem_cons_of_mem _ hi))
      (fun i l hl => (s5 i _ _ (hcfg i l hl)).1) hlen'

/-- C86 (a record which waits is completed): a calm history, in which a record writes link `i` and
waits; at the end no PUT is in progress and the worker of links has nothing to do. -/
theorem C86_complete_partial (c : Chan α) (hf : Fresh c) (es fs : List (Ev α)) (i : Nat) (v : α) (l : Link α)
    (hc : Calm false (es ++ .put i v true :: fs)) (hw : WaitsNow c (es ++ .put i v true :: fs))
    (hl : c.links[i]? = some l) (hr : l.retry = true ∨ (run c es).ch.connected = true)
    (hop : (run c (es ++ .put i v true :: fs)).ch.op = none)
    (hsc : (run c (es ++ .put i v true :: fs)).ch.scans = 0) :
    ∃ l', (run c es).ch.links[i]? = some l' ∧
      .completed l'.record ∈ (run (run c es).ch (.put i v true :: fs)).outs := by
  have inv0 := fresh_inv c hf
  have hb0 : c.inCb = true → false = true := fun h => by rw [hf.2.2.2.1] at h; cases h
  have hall := run_waits (es ++ .put i v true :: fs) c c false inv0 hb0 hc
    (fun h => absurd hf.2.1 h) hw (fun i l hl => ⟨l, hl, rfl, rfl⟩) rfl
  have split : ∀ (a : List (Ev α)) (b : List (Ev α)) (k : Bool), Calm k (a ++ b) → Calm k a := by
    intro a
    induction a with
    | nil => intro b k _; trivial
    | cons e a ih =>
      intro b k h
      rw [List.cons_append] at h
      cases e <;> simp only [Calm] at h ⊢
      · exact ⟨h.1, ih _ _ h.2⟩
      · exact ⟨h.1, ih _ _ h.2⟩
      · exact ih _ _ h
      · exact ⟨h.1, ih _ _ h.2⟩
      · exact ⟨h.1, ih _ _ h.2⟩
      · exact ih _ _ h
      · exact ih _ _ h
  have hes := run_calm es c false inv0 hb0 (split es _ false hc)
  obtain ⟨⟨l', hl', hd', hr'⟩, _⟩ := hes.2.2 i l.defer l.retry ⟨l, hl, rfl, rfl⟩
  refine ⟨l', hl', ?_⟩
  have happ := run_append es c (.put i v true :: fs) hes.1
  rw [happ] at hop hsc hall
  dsimp only at hop hsc hall
  generalize hc1 : (run c es).ch = c1 at *
  -- the put makes the record wait
  have hnr : ¬ ((!l'.retry && !c1.connected) = true) := by
    rw [hr']
    rcases hr with h | h <;> simp [h]
  have hmem : l'.record ∈ (step c1 (.put i v true)).ch.waiting := by
    simp only [step, putValue, hl', if_neg hnr]
    split
    · exact self_addRec _ _
    · dsimp only
      rw [chanPut_waiting]
      exact self_addRec _ _
  cases hsf : (step c1 (.put i v true)).fate with
  | deadlock =>
    have := hall.2
    simp only [run, hsf] at this
    cases this
  | ok =>
    rw [run_cons_ok c1 _ fs hsf] at hop hsc hall ⊢
    dsimp only at hop hsc hall ⊢
    rcases run_waiting fs _ _ hmem hall.2 with h | h
    · exfalso
      have hne : (run (step c1 (.put i v true)).ch fs).ch.waiting ≠ [] := by
        intro e; rw [e] at h; cases h
      rcases hall.1 hne with h | h
      · rw [hop] at h; cases h
      · omega
    · exact List.mem_append_right _ h

/-! ### what does not hold -/

/-- two records, each with one link to the same channel -/
def two (p q : Proc) (retry : Bool) : Chan α :=
  { links := [{ record := 1, proc := p, retry := retry }, { record := 2, proc := q, retry := retry }] }

def allSet : Nat → α → Conv := fun _ _ => .sets

/-- nothing is in progress, and no value is held -/
def Empty (c : Chan α) : Prop :=
  c.op = none ∧ c.scans = 0 ∧ ∀ l, l ∈ c.links → l.scratch = none ∧ l.queue = none

theorem empty_step (c : Chan α) (h : Empty c) (e : Ev α) (hi : (∀ i v w, e ≠ .put i v w) ∧ (∀ i, e ≠ .forward i)) :
    Empty (step c e).ch ∧ (step c e).outs = [] ∧ (step c e).fate = .ok := by
  obtain ⟨h1, h2, h3⟩ := h
  cases e with
  | put i v w => exact absurd rfl (hi.1 i v w)
  | forward i => exact absurd rfl (hi.2 i)
  | enter => exact ⟨⟨h1, h2, h3⟩, rfl, rfl⟩
  | build conv => simp only [step, h1]; exact ⟨⟨rfl, h2, h3⟩, by trivial, by trivial⟩
  | done ok => simp only [step, h1]; exact ⟨⟨rfl, h2, h3⟩, by trivial, by trivial⟩
  | lost => simp only [step, h1]; exact ⟨⟨rfl, h2, h3⟩, by trivial, by trivial⟩
  | disconnect =>
    simp only [step, h1, Option.isSome_none, Bool.false_and, Bool.false_eq_true, if_false]
    refine ⟨⟨rfl, h2, ?_⟩, by trivial, by trivial⟩
    intro l hl
    obtain ⟨m, hm, rfl⟩ := List.mem_map.mp hl
    exact ⟨rfl, rfl⟩
  | connect => exact ⟨⟨h1, h2, h3⟩, rfl, rfl⟩
  | after => simp only [step, h2, if_true]; exact ⟨⟨h1, h2, h3⟩, by trivial, by trivial⟩

theorem empty_run (es : List (Ev α)) : ∀ (c : Chan α), Empty c → Idle es → (run c es).outs = [] := by
  induction es with
  | nil => intro c _ _; rfl
  | cons e es ih =>
    intro c h hi
    obtain ⟨h1, h2, h3⟩ := empty_step c h e (hi e (List.mem_cons_self ..))
    rw [run_cons_ok c e es h3]
    dsimp only
    rw [h2, ih _ h1 (fun x hx => hi x (List.mem_cons_of_mem _ hx))]
    rfl

/-- A record waits for a PUT; the channel is disconnected: the record is never completed, whatever
comes next, unless a link of the channel is used again. -/
theorem C86_stuck (v : α) (sent : Bool) (es : List (Ev α)) (hi : Idle es) (r : Nat) :
    let before : List (Ev α) := if sent then [.connect, .put 0 v true, .enter, .build allSet, .lost, .disconnect]
      else [.connect, .put 0 v true, .lost, .disconnect]
    (run (two .dflt .dflt false) before).fate = .ok ∧
    (run (two .dflt .dflt false) before).ch.waiting = [1] ∧
    .completed r ∉ (run (two .dflt .dflt false) (before ++ es)).outs := by
  have key : ∀ before : List (Ev α), (run (two .dflt .dflt false) before).fate = .ok →
      Empty (run (two .dflt .dflt false) before).ch →
      (∀ o, o ∈ (run (two .dflt .dflt false) before).outs → o ≠ .completed r) →
      .completed r ∉ (run (two .dflt .dflt false) (before ++ es)).outs := by
    intro before h1 h2 h3 h
    rw [run_append before _ es h1] at h
    dsimp only at h
    rw [empty_run es _ h2 hi, List.append_nil] at h
    exact h3 _ h rfl
  cases sent with
  | true =>
    refine ⟨rfl, rfl, key _ rfl ⟨rfl, rfl, ?_⟩ ?_⟩
    · intro l hl
      have : l ∈ ([_, _] : List (Link α)) := hl
      simp only [List.mem_cons, List.not_mem_nil, or_false] at this
      rcases this with h | h <;> (subst h; exact ⟨rfl, rfl⟩)
    · intro o ho
      have : o ∈ ([.sent .passive true [(0, v)]] : List (Out α)) := ho
      simp only [List.mem_cons, List.not_mem_nil, or_false] at this
      subst this; nofun
  | false =>
    refine ⟨rfl, rfl, key _ rfl ⟨rfl, rfl, ?_⟩ ?_⟩
    · intro l hl
      have : l ∈ ([_, _] : List (Link α)) := hl
      simp only [List.mem_cons, List.not_mem_nil, or_false] at this
      rcases this with h | h <;> (subst h; exact ⟨rfl, rfl⟩)
    · intro o ho
      have : o ∈ ([] : List (Out α)) := ho
      cases this

/-- The second record writes, and waits, after the PUT of the first is done and before that is
taken: it is completed although its value is not even sent. -/
theorem C86_early (v w : α) :
    let es : List (Ev α) := [.connect, .put 0 v true, .enter, .build allSet, .enter, .done true, .put 1 w true, .after]
    Calm false es ∧ (run (two .dflt .dflt false) es).outs = [.sent .passive true [(0, v)], .completed 1, .completed 2] := by
  refine ⟨?_, rfl⟩
  simp [Calm, allSet]

/-- The PUT is sent, and the connection lost. With `retry` it is made again, without any value, and
this is reported as done: the value is sent only once, although it may not have arrived. -/
theorem C86_retry_empty (v : α) :
    (run (two .dflt .dflt true)
      [.connect, .put 0 v true, .enter, .build allSet, .lost, .enter, .build allSet, .enter, .done true, .after]).outs =
    [.sent .passive true [(0, v)], .sent .passive true [], .completed 1] := rfl

/-- A value written through a link with `retry` while the channel is not connected, or not yet sent
when it is disconnected, is dropped by the disconnect. -/
theorem C86_retry_dropped (v : α) (es : List (Ev α)) (hi : Idle es) :
    (run (two .dflt .dflt true) ([.connect, .put 0 v false, .lost, .disconnect] ++ es)).outs = [] := by
  rw [run_append _ _ es rfl]
  show [] ++ _ = []
  rw [List.nil_append]
  apply empty_run es _ _ hi
  refine ⟨rfl, rfl, ?_⟩
  intro l hl
  have : l ∈ ([_, _] : List (Link α)) := hl
  simp only [List.mem_cons, List.not_mem_nil, or_false] at this
  rcases this with h | h <;> (subst h; exact ⟨rfl, rfl⟩)

/-- A link with PP is written, then another without; one PUT carries both values and does not ask for
processing. -/
theorem C86_process_lost (v w : α) :
    (run (two .pp .dflt false) [.connect, .put 0 v false, .put 1 w false, .enter, .build allSet]).outs =
    [.sent .passive false [(0, v), (1, w)]] ∧
    (run (two .pp .npp false) [.connect, .put 0 v false, .put 1 w false, .enter, .build allSet]).outs =
    [.sent .no false [(0, v), (1, w)]] := ⟨rfl, rfl⟩

/-- A forward link is processed, then a link without PP is written: the target is not processed. -/
theorem C86_forward_lost (w : α) :
    (run (two .dflt .npp false) [.connect, .forward 0, .put 1 w false, .enter, .build allSet]).outs =
    [.sent .no false [(1, w)]] := rfl

/-- A record writes a link while the client is about to build, or to finish, the PUT in progress:
both wait for each other. The same if the channel is disconnected. -/
theorem C86_deadlock (v w : α) :
    (run (two .dflt .dflt false) [.connect, .put 0 v false, .enter, .put 1 w false]).fate = .deadlock ∧
    (run (two .dflt .dflt false) [.connect, .put 0 v false, .enter, .build allSet, .enter, .put 1 w false]).fate = .deadlock ∧
    (run (two .dflt .dflt false) [.connect, .put 0 v false, .enter, .forward 1]).fate = .deadlock ∧
    (run (two .dflt .dflt false) [.connect, .put 0 v false, .enter, .disconnect]).fate = .deadlock := ⟨rfl, rfl, rfl, rfl⟩

/-- nothing is in progress (values may be held) -/
theorem noop_run (es : List (Ev α)) : ∀ (c : Chan α), c.op = none → c.scans = 0 → Idle es → (run c es).outs = [] := by
  induction es with
  | nil => intro c _ _ _; rfl
  | cons e es ih =>
    intro c h1 h2 hi
    obtain ⟨i1, i2⟩ := hi e (List.mem_cons_self ..)
    have hi' : Idle es := fun x hx => hi x (List.mem_cons_of_mem _ hx)
    have key : (step c e).fate = .ok ∧ (step c e).outs = [] ∧ (step c e).ch.op = none ∧ (step c e).ch.scans = 0 := by
      cases e with
      | put i v w => exact absurd rfl (i1 i v w)
      | forward i => exact absurd rfl (i2 i)
      | enter => exact ⟨rfl, rfl, h1, h2⟩
      | build conv => simp only [step, h1]; exact ⟨by trivial, by trivial, by trivial, h2⟩
      | done ok => simp only [step, h1]; exact ⟨by trivial, by trivial, by trivial, h2⟩
      | lost => simp only [step, h1]; exact ⟨by trivial, by trivial, by trivial, h2⟩
      | disconnect => simp only [step, h1]; exact ⟨by trivial, by trivial, by trivial, h2⟩
      | connect => exact ⟨rfl, rfl, h1, h2⟩
      | after => simp only [step, h2, if_true]; exact ⟨by trivial, by trivial, h1, by first | exact h2 | trivial⟩
    rw [run_cons_ok c e es key.1]
    dsimp only
    rw [key.2.1, ih _ key.2.2.1 key.2.2.2 hi']
    rfl

/-- Two records have written, then the first value can not be converted: the second is not sent
either, until a link is used again. -/
theorem C86_one_bad (v w : α) (es : List (Ev α)) (hi : Idle es) :
    (run (two .dflt .dflt false) ([.connect, .put 0 v false, .put 1 w false, .enter,
      .build fun i _ => if i = 0 then .throws else .sets] ++ es)).outs = [.error] := by
  rw [run_append _ _ es rfl]
  dsimp only
  rw [noop_run es _ rfl rfl hi]
  rfl

/-- the hypotheses above are met -/
example : Fresh (two (α := Nat) .pp .npp false) := by
  refine ⟨rfl, rfl, rfl, rfl, rfl, ?_⟩
  intro l hl
  simp only [two, List.mem_cons, List.not_mem_nil, or_false] at hl
  rcases hl with h | h <;> (subst h; exact ⟨rfl, rfl⟩)
example : let es : List (Ev Nat) := [.connect, .put 0 5 true, .enter, .build allSet, .put 1 6 false, .put 0 7 false,
      .enter, .build allSet, .enter, .done true, .after]
    Calm false es ∧ (run (two .pp .npp false) es).ch.op = none ∧ (run (two .pp .npp false) es).ch.scans = 0 ∧
    WaitsNow (two .pp .npp false) es ∧
    sentTo 0 (run (two .pp .npp false) es).outs = [5, 7] ∧ .completed 1 ∈ (run (two .pp .npp false) es).outs := by
  refine ⟨by simp [Calm, allSet], rfl, rfl, ?_, rfl, by decide⟩
  intro i v l hi hl
  simp only [List.mem_cons, List.not_mem_nil, or_false, reduceCtorEq, false_or, Ev.put.injEq, Bool.true_eq_false, Bool.false_eq_true, and_false] at hi
  obtain ⟨rfl, _⟩ := hi
  cases hl; rfl
example : Alone (two (α := Nat) .pp .npp false) [.connect, .put 0 5 true, .enter, .build allSet, .put 1 6 false] ∧
    (run (two (α := Nat) .pp .npp false) [.connect, .put 0 5 true, .enter, .build allSet]).outs = [.sent .yes true [(0, 5)]] := by
  refine ⟨?_, rfl⟩
  refine ⟨?_, ?_, trivial⟩
  · intro op h; cases h
  · intro op h; cases h; rfl
example : Idle ([.enter, .after, .disconnect] : List (Ev Nat)) := by
  intro e he
  simp only [List.mem_cons, List.not_mem_nil, or_false] at he
  rcases he with h | h | h <;> (subst h; exact ⟨nofun, nofun⟩)

end Pvxs.Props.LinkPut
