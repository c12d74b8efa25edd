import Verif.Model.Fifo
/-
C48: the bounded queue.
-/
namespace Pvxs.Props.Ffo
open Fifo

variable {T : Type}

/-- a new queue, and any number of threads -/
def fresh (T : Type) (limit threads : Nat) : Queue T := { limit := limit, threads := List.replicate threads .idle }

def pushedOf : List (Out T) → List T
  | [] => []
  | .pushed _ v :: o => v :: pushedOf o
  | _ :: o => pushedOf o

def poppedOf : List (Out T) → List T
  | [] => []
  | .popped _ v :: o => v :: poppedOf o
  | _ :: o => poppedOf o

theorem pushedOf_append (a b : List (Out T)) : pushedOf (a ++ b) = pushedOf a ++ pushedOf b := by
  induction a with
  | nil => rfl
  | cons x a ih => cases x <;> simp [pushedOf, ih]

theorem poppedOf_append (a b : List (Out T)) : poppedOf (a ++ b) = poppedOf a ++ poppedOf b := by
  induction a with
  | nil => rfl
  | cons x a ih => cases x <;> simp [poppedOf, ih]

def isR : Pc T → Bool
  | .waitR => true
  | .awakeR => true
  | _ => false

def isW : Pc T → Bool
  | .waitW _ => true
  | .awakeW _ => true
  | _ => false

theorem countP_set (f : Pc T → Bool) : ∀ (l : List (Pc T)) (i : Nat) (p p' : Pc T), l[i]? = some p →
    (l.set i p').countP f + (f p).toNat = l.countP f + (f p').toNat
  | [], i, p, p', h => by simp at h
  | x :: l, 0, p, p', h => by
    simp at h; subst h
    simp only [List.set_cons_zero, List.countP_cons]
    cases f x <;> cases f p' <;> simp
  | x :: l, i + 1, p, p', h => by
    have := countP_set f l i p p' (by simpa using h)
    simp only [List.set_cons_succ, List.countP_cons]
    omega

theorem mem_set {l : List (Pc T)} {i : Nat} {p p' x : Pc T} (h : l[i]? = some p) (hx : x ∈ l.set i p') : x = p' ∨ x ∈ l := by
  rcases List.mem_or_eq_of_mem_set hx with h | h
  · exact Or.inr h
  · exact Or.inl h

theorem mem_set_ne : ∀ {l : List (Pc T)} {i : Nat} {p p' x : Pc T}, l[i]? = some p → x ∈ l → x ≠ p → x ∈ l.set i p'
  | [], i, p, p', x, h, hx, hn => by cases hx
  | y :: l, 0, p, p', x, h, hx, hn => by
    simp at h; subst h
    rcases List.mem_cons.mp hx with hx | hx
    · exact absurd hx hn
    · simp [hx]
  | y :: l, i + 1, p, p', x, h, hx, hn => by
    rcases List.mem_cons.mp hx with hx | hx
    · simp [hx]
    · simp only [List.set_cons_succ, List.mem_cons]
      exact Or.inr (mem_set_ne (by simpa using h) hx hn)

theorem mem_set_self {l : List (Pc T)} {i : Nat} {p p' : Pc T} (h : l[i]? = some p) : p' ∈ l.set i p' := by
  have : i < l.length := by
    rcases Nat.lt_or_ge i l.length with h1 | h1
    · exact h1
    · rw [List.getElem?_eq_none h1] at h; cases h
  exact List.mem_set this p'

/-- a wake-up of the readers is on its way -/
def ComingR (s : Queue T) : Prop := s.evR = true ∨ (∃ w, .sig true w ∈ s.threads) ∨ .awakeR ∈ s.threads
/-- a wake-up of the writers is on its way -/
def ComingW (s : Queue T) : Prop := s.evW = true ∨ (∃ r, .sig r true ∈ s.threads) ∨ ∃ v, .awakeW v ∈ s.threads

structure Inv (s : Queue T) : Prop where
  nr : s.nreaders = s.threads.countP isR
  nw : s.nwriters = s.threads.countP isW
  bound : s.limit ≠ 0 → s.q.length ≤ s.limit
  wakeR : s.q ≠ [] → .waitR ∈ s.threads → ComingR s
  wakeW : ∀ v, s.q.length < s.limit → .waitW v ∈ s.threads → ComingW s

theorem none_waitR {l : List (Pc T)} (h : l.countP isR = 0) : .waitR ∉ l := by
  intro hm
  rw [List.countP_eq_zero] at h
  exact h _ hm rfl

theorem none_waitW {l : List (Pc T)} (h : l.countP isW = 0) (v : T) : .waitW v ∉ l := by
  intro hm
  rw [List.countP_eq_zero] at h
  exact h _ hm rfl

/-- a thread `i` at `p` which is neither a waiting reader nor a waiting writer any more pushes -/
theorem inv_lockPush {s : Queue T} {i : Nat} {p : Pc T} {v : T} (hp : s.threads[i]? = some p)
    (nr : s.nreaders = s.threads.countP isR) (nw : s.nwriters + (isW p).toNat = s.threads.countP isW) (hr : isR p = false)
    (hps : ∀ r w, p ≠ .sig r w) (bound : s.limit ≠ 0 → s.q.length ≤ s.limit)
    (wakeR : s.q ≠ [] → .waitR ∈ s.threads → ComingR s)
    (hpw : ∀ v, p ≠ .waitW v) :
    Inv (lockPush s i v).1 := by
  unfold lockPush
  split
  · rename_i hf
    have hcr := countP_set isR s.threads i p (.waitW v) hp
    have hcw := countP_set isW s.threads i p (.waitW v) hp
    refine ⟨?_, ?_, bound, fun hq hm => ?_, fun v' hl hm => ?_⟩
    · simp only [Queue.at]; rw [hr] at hcr; simp [isR] at hcr; omega
    · simp only [Queue.at]; simp [isW] at hcw; simp [isW] at nw; omega
    · simp only [Queue.at] at hm hq ⊢
      rcases mem_set hp hm with h | h
      · cases h
      · rcases wakeR hq h with h | ⟨w, h⟩ | h
        · exact Or.inl h
        · exact Or.inr (Or.inl ⟨w, mem_set_ne hp h (fun h => hps _ _ h.symm)⟩)
        · exact Or.inr (Or.inr (mem_set_ne hp h (fun h => by rw [← h] at hr; cases hr)))
    · simp only [Queue.at] at hl
      omega
  · rename_i hf
    have hcr := countP_set isR s.threads i p (.sig (s.q.isEmpty && s.nreaders != 0) (s.nwriters != 0 && decide ((s.q ++ [v]).length < s.limit))) hp
    have hcw := countP_set isW s.threads i p (.sig (s.q.isEmpty && s.nreaders != 0) (s.nwriters != 0 && decide ((s.q ++ [v]).length < s.limit))) hp
    have e1 : (isR (.sig (s.q.isEmpty && s.nreaders != 0) (s.nwriters != 0 && decide ((s.q ++ [v]).length < s.limit)) : Pc T)).toNat = 0 := rfl
    have e2 : (isW (.sig (s.q.isEmpty && s.nreaders != 0) (s.nwriters != 0 && decide ((s.q ++ [v]).length < s.limit)) : Pc T)).toNat = 0 := rfl
    rw [e1, hr] at hcr
    rw [e2] at hcw
    simp only [Bool.toNat_false] at hcr
    refine ⟨?_, ?_, ?_, fun hq hm => ?_, fun v' hl hm => ?_⟩
    · simp only [Queue.at]; omega
    · simp only [Queue.at]; omega
    · simp only [Queue.at, List.length_append, List.length_cons, List.length_nil]; omega
    · simp only [Queue.at] at hm ⊢
      rcases mem_set hp hm with h | h
      · cases h
      · have hn : s.nreaders ≠ 0 := by intro h0; rw [h0] at nr; exact none_waitR nr.symm h
        by_cases hq0 : s.q = []
        · refine Or.inr (Or.inl ⟨(s.nwriters != 0 && decide ((s.q ++ [v]).length < s.limit)), ?_⟩)
          have : (s.q.isEmpty && s.nreaders != 0) = true := by rw [hq0]; simpa using hn
          simp only [this]
          exact mem_set_self hp
        · rcases wakeR hq0 h with h | ⟨w, h⟩ | h
          · exact Or.inl h
          · exact Or.inr (Or.inl ⟨w, mem_set_ne hp h (fun h => hps _ _ h.symm)⟩)
          · exact Or.inr (Or.inr (mem_set_ne hp h (fun h => by rw [← h] at hr; cases hr)))
    · simp only [Queue.at] at hm hl ⊢
      rcases mem_set hp hm with h | h
      · cases h
      · have hn : s.nwriters ≠ 0 := by
          intro h0
          have hz : (s.threads.set i (.idle : Pc T)).countP isW = 0 := by
            have := countP_set isW s.threads i p .idle hp
            simp [isW] at this nw
            omega
          exact none_waitW hz v' (mem_set_ne hp h (fun h => hpw v' h.symm))
        refine Or.inr (Or.inl ⟨(s.q.isEmpty && s.nreaders != 0), ?_⟩)
        have : (s.nwriters != 0 && decide ((s.q ++ [v]).length < s.limit)) = true := by
          simp only [Bool.and_eq_true, bne_iff_ne, decide_eq_true_eq]; exact ⟨hn, hl⟩
        simp only [this]
        exact mem_set_self hp

theorem inv_lockPop {s : Queue T} {i : Nat} {p : Pc T} (hp : s.threads[i]? = some p)
    (nr : s.nreaders + (isR p).toNat = s.threads.countP isR) (nw : s.nwriters = s.threads.countP isW) (hw : isW p = false)
    (hps : ∀ r w, p ≠ .sig r w) (bound : s.limit ≠ 0 → s.q.length ≤ s.limit)
    (wakeW : ∀ v, s.q.length < s.limit → .waitW v ∈ s.threads → ComingW s)
    (hpr : p ≠ .waitR) :
    Inv (lockPop s i).1 := by
  unfold lockPop
  split
  · rename_i hq
    have hcr := countP_set isR s.threads i p .waitR hp
    have hcw := countP_set isW s.threads i p .waitR hp
    refine ⟨?_, ?_, bound, fun hq' hm => absurd hq hq', fun v' hl hm => ?_⟩
    · simp only [Queue.at]; simp [isR] at hcr nr; omega
    · simp only [Queue.at]; rw [hw] at hcw; simp [isW] at hcw; omega
    · simp only [Queue.at] at hm hl ⊢
      rcases mem_set hp hm with h | h
      · cases h
      · rcases wakeW v' hl h with h | ⟨r, h⟩ | ⟨u, h⟩
        · exact Or.inl h
        · exact Or.inr (Or.inl ⟨r, mem_set_ne hp h (fun h => hps _ _ h.symm)⟩)
        · exact Or.inr (Or.inr ⟨u, mem_set_ne hp h (fun h => by rw [← h] at hw; cases hw)⟩)
  · rename_i v q hq
    have hcr := countP_set isR s.threads i p (.sig (!q.isEmpty && s.nreaders != 0) (s.nwriters != 0)) hp
    have hcw := countP_set isW s.threads i p (.sig (!q.isEmpty && s.nreaders != 0) (s.nwriters != 0)) hp
    have e1 : (isR (.sig (!q.isEmpty && s.nreaders != 0) (s.nwriters != 0) : Pc T)).toNat = 0 := rfl
    have e2 : (isW (.sig (!q.isEmpty && s.nreaders != 0) (s.nwriters != 0) : Pc T)).toNat = 0 := rfl
    rw [e1] at hcr
    rw [e2, hw] at hcw
    simp only [Bool.toNat_false] at hcw
    rw [hq] at bound
    refine ⟨?_, ?_, ?_, fun hq' hm => ?_, fun v' hl hm => ?_⟩
    · simp only [Queue.at]; omega
    · simp only [Queue.at]; omega
    · simp only [Queue.at]; simp at bound; omega
    · simp only [Queue.at] at hm hq' ⊢
      rcases mem_set hp hm with h | h
      · cases h
      · have hn : s.nreaders ≠ 0 := by
          intro h0
          have hz : (s.threads.set i (.idle : Pc T)).countP isR = 0 := by
            have := countP_set isR s.threads i p .idle hp
            simp [isR] at this nr
            omega
          exact none_waitR hz (mem_set_ne hp h (fun h => hpr h.symm))
        refine Or.inr (Or.inl ⟨(s.nwriters != 0), ?_⟩)
        have : (!q.isEmpty && s.nreaders != 0) = true := by
          simp only [Bool.and_eq_true, bne_iff_ne, Bool.not_eq_true', List.isEmpty_eq_false_iff]; exact ⟨hq', hn⟩
        simp only [this]
        exact mem_set_self hp
    · simp only [Queue.at] at hm ⊢
      rcases mem_set hp hm with h | h
      · cases h
      · have hn : s.nwriters ≠ 0 := by intro h0; rw [h0] at nw; exact none_waitW nw.symm v' h
        refine Or.inr (Or.inl ⟨(!q.isEmpty && s.nreaders != 0), ?_⟩)
        have : (s.nwriters != 0) = true := by simpa using hn
        simp only [this]
        exact mem_set_self hp

/-- a step which leaves the queue and the counters alone -/
theorem inv_move {s s' : Queue T} {i : Nat} {p p' : Pc T} (h : Inv s) (hp : s.threads[i]? = some p)
    (ht : s'.threads = s.threads.set i p') (hq : s'.q = s.q) (hl : s'.limit = s.limit) (hr : s'.nreaders = s.nreaders) (hw : s'.nwriters = s.nwriters)
    (hR : isR p' = isR p) (hW : isW p' = isW p) (hnR : p' ≠ .waitR) (hnW : ∀ v, p' ≠ .waitW v)
    (cR : .waitR ∈ s.threads → ComingR s → ComingR s') (cW : ∀ v, .waitW v ∈ s.threads → ComingW s → ComingW s') : Inv s' := by
  have hcr := countP_set isR s.threads i p p' hp
  have hcw := countP_set isW s.threads i p p' hp
  refine ⟨?_, ?_, ?_, fun hq' hm => ?_, fun v hl' hm => ?_⟩
  · rw [hr, ht, h.nr]; rw [hR] at hcr; omega
  · rw [hw, ht, h.nw]; rw [hW] at hcw; omega
  · rw [hq, hl]; exact h.bound
  · rw [ht] at hm
    rcases mem_set hp hm with hx | hx
    · exact absurd hx.symm hnR
    · exact cR hx (h.wakeR (by rw [← hq]; exact hq') hx)
  · rw [ht] at hm
    rcases mem_set hp hm with hx | hx
    · exact absurd hx.symm (hnW v)
    · exact cW v hx (h.wakeW v (by rw [← hq, ← hl]; exact hl') hx)

theorem inv_step {s : Queue T} (h : Inv s) (e : Ev T) : Inv (step s e).1 := by
  -- a thread without a part in any wake-up moves
  have keepR : ∀ {i : Nat} {p p' : Pc T} {s' : Queue T}, s.threads[i]? = some p → s'.threads = s.threads.set i p' →
      (∀ w, p ≠ .sig true w) → p ≠ .awakeR → s'.evR = s.evR → ComingR s → ComingR s' := by
    intro i p p' s' hp ht h1 h2 he hc
    rcases hc with hc | ⟨w, hc⟩ | hc
    · exact Or.inl (he.trans hc)
    · exact Or.inr (Or.inl ⟨w, by rw [ht]; exact mem_set_ne hp hc (fun h => h1 w h.symm)⟩)
    · exact Or.inr (Or.inr (by rw [ht]; exact mem_set_ne hp hc (fun h => h2 h.symm)))
  have keepW : ∀ {i : Nat} {p p' : Pc T} {s' : Queue T}, s.threads[i]? = some p → s'.threads = s.threads.set i p' →
      (∀ r, p ≠ .sig r true) → (∀ v, p ≠ .awakeW v) → s'.evW = s.evW → ComingW s → ComingW s' := by
    intro i p p' s' hp ht h1 h2 he hc
    rcases hc with hc | ⟨r, hc⟩ | ⟨v, hc⟩
    · exact Or.inl (he.trans hc)
    · exact Or.inr (Or.inl ⟨r, by rw [ht]; exact mem_set_ne hp hc (fun h => h1 r h.symm)⟩)
    · exact Or.inr (Or.inr ⟨v, by rw [ht]; exact mem_set_ne hp hc (fun h => h2 v h.symm)⟩)
  cases e with
  | callPush i v =>
    simp only [step]
    split
    · rename_i hp
      exact inv_move h hp rfl rfl rfl rfl rfl rfl rfl (by simp) (by simp)
        (fun _ => keepR hp rfl (by simp) (by simp) rfl) (fun _ _ => keepW hp rfl (by simp) (by simp) rfl)
    · exact h
  | callPop i =>
    simp only [step]
    split
    · rename_i hp
      exact inv_move h hp rfl rfl rfl rfl rfl rfl rfl (by simp) (by simp)
        (fun _ => keepR hp rfl (by simp) (by simp) rfl) (fun _ _ => keepW hp rfl (by simp) (by simp) rfl)
    · exact h
  | lock i =>
    simp only [step]
    split
    · rename_i v hp
      exact inv_lockPush hp h.nr (by simp [isW, h.nw]) rfl (by simp) h.bound h.wakeR (by simp)
    · rename_i v hp
      have hpos : 0 < s.threads.countP isW := List.countP_pos_iff.mpr ⟨_, List.mem_of_getElem? hp, rfl⟩
      exact inv_lockPush (s := { s with nwriters := s.nwriters - 1 }) hp h.nr (by have := h.nw; simp [isW]; omega) rfl (by simp) h.bound
        (fun hq hm => h.wakeR hq hm) (by simp)
    · rename_i hp
      exact inv_lockPop hp (by simp [isR, h.nr]) h.nw rfl (by simp) h.bound h.wakeW (by simp)
    · rename_i hp
      have hpos : 0 < s.threads.countP isR := List.countP_pos_iff.mpr ⟨_, List.mem_of_getElem? hp, rfl⟩
      exact inv_lockPop (s := { s with nreaders := s.nreaders - 1 }) hp (by have := h.nr; simp [isR]; omega) h.nw rfl (by simp) h.bound
        (fun v hq hm => h.wakeW v hq hm) (by simp)
    · exact h
  | wake i =>
    simp only [step]
    split
    · rename_i v hp
      split
      · exact inv_move h hp rfl rfl rfl rfl rfl rfl rfl (by simp) (by simp)
          (fun _ => keepR hp rfl (by simp) (by simp) rfl) (fun _ _ _ => Or.inr (Or.inr ⟨v, mem_set_self hp⟩))
      · exact h
    · rename_i hp
      split
      · exact inv_move h hp rfl rfl rfl rfl rfl rfl rfl (by simp) (by simp)
          (fun _ _ => Or.inr (Or.inr (mem_set_self hp))) (fun _ _ => keepW hp rfl (by simp) (by simp) rfl)
      · exact h
    · exact h
  | signal i =>
    simp only [step]
    split
    · rename_i w hp
      refine inv_move h hp rfl rfl rfl rfl rfl rfl rfl (by simp) (by simp) (fun _ _ => Or.inl rfl) (fun _ _ hc => ?_)
      rcases hc with hc | ⟨r, hc⟩ | ⟨v, hc⟩
      · exact Or.inl hc
      · cases w
        · exact Or.inr (Or.inl ⟨r, mem_set_ne hp hc (by simp)⟩)
        · exact Or.inr (Or.inl ⟨false, mem_set_self hp⟩)
      · exact Or.inr (Or.inr ⟨v, mem_set_ne hp hc (by simp)⟩)
    · rename_i hp
      refine inv_move h hp rfl rfl rfl rfl rfl rfl rfl (by simp) (by simp) (fun _ => keepR hp rfl (by simp) (by simp) rfl) (fun _ _ _ => Or.inl rfl)
    · rename_i hp
      exact inv_move h hp rfl rfl rfl rfl rfl rfl rfl (by simp) (by simp)
        (fun _ => keepR hp rfl (by simp) (by simp) rfl) (fun _ _ => keepW hp rfl (by simp) (by simp) rfl)
    · exact h

theorem inv_run {s : Queue T} (h : Inv s) (es : List (Ev T)) : Inv (run s es).1 := by
  induction es generalizing s with
  | nil => exact h
  | cons e es ih => exact ih (inv_step h e)

theorem inv_fresh (limit n : Nat) : Inv (fresh T limit n) := by
  have hr : (List.replicate n (.idle : Pc T)).countP isR = 0 := by
    rw [List.countP_eq_zero]; intro x hx; rw [List.eq_of_mem_replicate hx]; simp [isR]
  have hw : (List.replicate n (.idle : Pc T)).countP isW = 0 := by
    rw [List.countP_eq_zero]; intro x hx; rw [List.eq_of_mem_replicate hx]; simp [isW]
  exact ⟨hr.symm, hw.symm, fun _ => Nat.zero_le _, fun h => absurd rfl h, fun v _ hm => absurd hm (none_waitW hw v)⟩

theorem order_step (s : Queue T) (e : Ev T) : s.q ++ pushedOf (step s e).2 = poppedOf (step s e).2 ++ (step s e).1.q := by
  have hpush : ∀ (s : Queue T) (i : Nat) (v : T), s.q ++ pushedOf (lockPush s i v).2 = poppedOf (lockPush s i v).2 ++ (lockPush s i v).1.q := by
    intro s i v
    unfold lockPush
    split <;> simp [pushedOf, poppedOf, Queue.at]
  have hpop : ∀ (s : Queue T) (i : Nat), s.q ++ pushedOf (lockPop s i).2 = poppedOf (lockPop s i).2 ++ (lockPop s i).1.q := by
    intro s i
    unfold lockPop
    split
    · rename_i h; simp [pushedOf, poppedOf, Queue.at, h]
    · rename_i v q h; simp [pushedOf, poppedOf, Queue.at, h]
  cases e with
  | callPush i v => simp only [step]; split <;> simp [pushedOf, poppedOf, Queue.at]
  | callPop i => simp only [step]; split <;> simp [pushedOf, poppedOf, Queue.at]
  | lock i =>
    simp only [step]
    split
    · exact hpush _ _ _
    · exact hpush { s with nwriters := s.nwriters - 1 } _ _
    · exact hpop _ _
    · exact hpop { s with nreaders := s.nreaders - 1 } _
    · simp [pushedOf, poppedOf]
  | wake i =>
    simp only [step]
    split
    · split <;> simp [pushedOf, poppedOf, Queue.at]
    · split <;> simp [pushedOf, poppedOf, Queue.at]
    · simp [pushedOf, poppedOf]
  | signal i => simp only [step]; split <;> simp [pushedOf, poppedOf, Queue.at]

theorem order_run (s : Queue T) (es : List (Ev T)) : s.q ++ pushedOf (run s es).2 = poppedOf (run s es).2 ++ (run s es).1.q := by
  induction es generalizing s with
  | nil => simp [run, pushedOf, poppedOf]
  | cons e es ih =>
    simp only [run, pushedOf_append, poppedOf_append]
    rw [← List.append_assoc, order_step s e, List.append_assoc, ih, List.append_assoc]

/-- What was popped, followed by what is in the queue, is what was pushed: in order, each exactly once, whatever the interleaving. -/
theorem C48_order (limit n : Nat) (es : List (Ev T)) :
    pushedOf (run (fresh T limit n) es).2 = poppedOf (run (fresh T limit n) es).2 ++ (run (fresh T limit n) es).1.q := by
  have := order_run (fresh T limit n) es
  simpa [fresh] using this

theorem limit_step (s : Queue T) (e : Ev T) : (step s e).1.limit = s.limit := by
  have hpush : ∀ (s : Queue T) (i : Nat) (v : T), (lockPush s i v).1.limit = s.limit := by
    intro s i v; unfold lockPush; split <;> rfl
  have hpop : ∀ (s : Queue T) (i : Nat), (lockPop s i).1.limit = s.limit := by
    intro s i; unfold lockPop; split <;> rfl
  cases e with
  | lock i =>
    simp only [step]
    split
    · exact hpush _ _ _
    · exact hpush _ _ _
    · exact hpop _ _
    · exact hpop _ _
    · rfl
  | wake i => simp only [step]; split <;> (try split) <;> rfl
  | _ => simp only [step]; split <;> rfl

theorem limit_run (s : Queue T) (es : List (Ev T)) : (run s es).1.limit = s.limit := by
  induction es generalizing s with
  | nil => rfl
  | cons e es ih => exact (ih _).trans (limit_step s e)

/-- A limit is kept. -/
theorem C48_bound (limit n : Nat) (hl : limit ≠ 0) (es : List (Ev T)) : (run (fresh T limit n) es).1.q.length ≤ limit := by
  have h := (inv_run (inv_fresh (T := T) limit n) es).bound
  rw [limit_run] at h
  exact h hl

/-- While there is something in the queue and a reader waits, a wake-up is on its way: the event is set, or some thread is about to set it, or
some other reader has been woken and is about to take the lock. -/
theorem C48_readers (limit n : Nat) (es : List (Ev T)) (i : Nat) (hw : (run (fresh T limit n) es).1.threads[i]? = some .waitR)
    (hq : (run (fresh T limit n) es).1.q ≠ []) : ComingR (run (fresh T limit n) es).1 :=
  (inv_run (inv_fresh (T := T) limit n) es).wakeR hq (List.mem_of_getElem? hw)

/-- The same for writers while there is space. -/
theorem C48_writers (limit n : Nat) (es : List (Ev T)) (i : Nat) (v : T) (hw : (run (fresh T limit n) es).1.threads[i]? = some (.waitW v))
    (hq : (run (fresh T limit n) es).1.q.length < limit) : ComingW (run (fresh T limit n) es).1 := by
  have h := (inv_run (inv_fresh (T := T) limit n) es).wakeW v
  rw [limit_run] at h
  exact h hq (List.mem_of_getElem? hw)

/-- If no thread can go on by itself -- each is outside, or waits for an event which is not set -- then a waiting reader means an empty queue and
a waiting writer means a full one: no thread is left behind. -/
theorem C48_no_lost_wakeup (limit n : Nat) (es : List (Ev T))
    (hb : ∀ p ∈ (run (fresh T limit n) es).1.threads, p = .idle ∨
      (p = .waitR ∧ (run (fresh T limit n) es).1.evR = false) ∨ (∃ v, p = .waitW v ∧ (run (fresh T limit n) es).1.evW = false)) :
    (.waitR ∈ (run (fresh T limit n) es).1.threads → (run (fresh T limit n) es).1.q = []) ∧
    (∀ v, .waitW v ∈ (run (fresh T limit n) es).1.threads → limit ≠ 0 → (run (fresh T limit n) es).1.q.length = limit) := by
  have hi := inv_run (inv_fresh (T := T) limit n) es
  have hl := limit_run (fresh T limit n) es
  generalize (run (fresh T limit n) es).1 = s at *
  have hl : s.limit = limit := hl
  constructor
  · intro hm
    refine Classical.byContradiction fun hq => ?_
    have he : s.evR = false := by
      rcases hb _ hm with h | ⟨_, h⟩ | ⟨v, h, _⟩
      · cases h
      · exact h
      · cases h
    rcases hi.wakeR hq hm with h | ⟨w, h⟩ | h
    · rw [he] at h; cases h
    · rcases hb _ h with h | ⟨h, _⟩ | ⟨v, h, _⟩ <;> cases h
    · rcases hb _ h with h | ⟨h, _⟩ | ⟨v, h, _⟩ <;> cases h
  · intro v hm h0
    refine Classical.byContradiction fun hq => ?_
    have he : s.evW = false := by
      rcases hb _ hm with h | ⟨h, _⟩ | ⟨v, _, h⟩
      · cases h
      · cases h
      · exact h
    have hb' := hi.bound (by omega)
    rcases hi.wakeW v (by omega) hm with h | ⟨w, h⟩ | ⟨u, h⟩
    · rw [he] at h; cases h
    · rcases hb _ h with h | ⟨h, _⟩ | ⟨v, h, _⟩ <;> cases h
    · rcases hb _ h with h | ⟨h, _⟩ | ⟨v, h, _⟩ <;> cases h

/-- the values a thread called push with -/
def calledBy (i : Nat) : List (Out T) → List T
  | [] => []
  | .called j v :: o => if j = i then v :: calledBy i o else calledBy i o
  | _ :: o => calledBy i o

/-- the values a thread pushed -/
def pushedBy (i : Nat) : List (Out T) → List T
  | [] => []
  | .pushed j v :: o => if j = i then v :: pushedBy i o else pushedBy i o
  | _ :: o => pushedBy i o

theorem calledBy_append (i : Nat) (a b : List (Out T)) : calledBy i (a ++ b) = calledBy i a ++ calledBy i b := by
  induction a with
  | nil => rfl
  | cons x a ih => cases x <;> simp only [List.cons_append, calledBy, ih] <;> split <;> simp

theorem pushedBy_append (i : Nat) (a b : List (Out T)) : pushedBy i (a ++ b) = pushedBy i a ++ pushedBy i b := by
  induction a with
  | nil => rfl
  | cons x a ih => cases x <;> simp only [List.cons_append, pushedBy, ih] <;> split <;> simp

/-- the value a thread still has to push -/
def pending : Option (Pc T) → List T
  | some (.push v) => [v]
  | some (.waitW v) => [v]
  | some (.awakeW v) => [v]
  | _ => []

theorem get_set (l : List (Pc T)) (j i : Nat) (p p' : Pc T) (h : l[j]? = some p) : (l.set j p')[i]? = if j = i then some p' else l[i]? := by
  rw [List.getElem?_set]
  split
  · rename_i hj
    have : j < l.length := by
      rcases Nat.lt_or_ge j l.length with h1 | h1
      · exact h1
      · rw [List.getElem?_eq_none h1] at h; cases h
    rw [if_pos this]
  · rfl

theorem each_step (s : Queue T) (e : Ev T) (i : Nat) :
    pending s.threads[i]? ++ calledBy i (step s e).2 = pushedBy i (step s e).2 ++ pending (step s e).1.threads[i]? := by
  have quiet : ∀ (s' : Queue T) (j : Nat) (p p' : Pc T), s.threads[j]? = some p → s'.threads = s.threads.set j p' → pending (some p) = pending (some p') →
      pending s.threads[i]? = pending s'.threads[i]? := by
    intro s' j p p' hp ht hpp
    rw [ht, get_set _ _ _ _ _ hp]
    split
    · rename_i hj; subst hj; rw [hp, hpp]
    · rfl
  have hpush : ∀ (s' : Queue T) (j : Nat) (v : T) (p : Pc T), s.threads[j]? = some p → s'.threads = s.threads → pending (some p) = [v] →
      pending s.threads[i]? ++ calledBy i (lockPush s' j v).2 = pushedBy i (lockPush s' j v).2 ++ pending (lockPush s' j v).1.threads[i]? := by
    intro s' j v p hp ht hv
    unfold lockPush
    split
    · simp only [calledBy, pushedBy, List.append_nil, List.nil_append]
      exact quiet _ j p (.waitW v) hp (by simp [Queue.at, ht]) hv
    · simp only [calledBy, pushedBy, Queue.at, List.append_nil]
      rw [ht, get_set _ _ _ _ _ hp]
      split
      · rename_i hj; subst hj; rw [hp, hv]; rfl
      · rfl
  have hpop : ∀ (s' : Queue T) (j : Nat) (p : Pc T), s.threads[j]? = some p → s'.threads = s.threads → pending (some p) = [] →
      pending s.threads[i]? ++ calledBy i (lockPop s' j).2 = pushedBy i (lockPop s' j).2 ++ pending (lockPop s' j).1.threads[i]? := by
    intro s' j p hp ht hv
    unfold lockPop
    split
    · simp only [calledBy, pushedBy, List.append_nil, List.nil_append]
      exact quiet _ j p .waitR hp (by simp [Queue.at, ht]) hv
    · simp only [calledBy, pushedBy, List.append_nil, List.nil_append]
      rename_i u q hq
      exact quiet _ j p (.sig (!q.isEmpty && s'.nreaders != 0) (s'.nwriters != 0)) hp (by simp [Queue.at, ht]) hv
  cases e with
  | callPush j v =>
    simp only [step]
    split
    · rename_i hp
      simp only [calledBy, pushedBy, Queue.at, List.nil_append]
      rw [get_set _ _ _ _ _ hp]
      split
      · rename_i hj; subst hj; rw [hp]; rfl
      · simp
    · simp [calledBy, pushedBy]
  | callPop j =>
    simp only [step]
    split
    · rename_i hp
      simpa [calledBy, pushedBy] using quiet (s.at j .popping) j _ .popping hp rfl rfl
    · simp [calledBy, pushedBy]
  | lock j =>
    simp only [step]
    split
    · rename_i v hp; exact hpush _ _ _ _ hp rfl rfl
    · rename_i v hp; exact hpush _ _ _ _ hp rfl rfl
    · rename_i hp; exact hpop _ _ _ hp rfl rfl
    · rename_i hp; exact hpop _ _ _ hp rfl rfl
    · simp [calledBy, pushedBy]
  | wake j =>
    simp only [step]
    split
    · rename_i v hp
      split
      · simpa [calledBy, pushedBy] using quiet ({ s with evW := false }.at j (.awakeW v)) j _ (.awakeW v) hp rfl rfl
      · simp [calledBy, pushedBy]
    · rename_i hp
      split
      · simpa [calledBy, pushedBy] using quiet ({ s with evR := false }.at j .awakeR) j _ .awakeR hp rfl rfl
      · simp [calledBy, pushedBy]
    · simp [calledBy, pushedBy]
  | signal j =>
    simp only [step]
    split
    · rename_i w hp
      simpa [calledBy, pushedBy] using quiet ({ s with evR := true }.at j (.sig false w)) j _ (.sig false w) hp rfl rfl
    · rename_i hp
      simpa [calledBy, pushedBy] using quiet ({ s with evW := true }.at j (.sig false false)) j _ (.sig false false) hp rfl rfl
    · rename_i hp
      simpa [calledBy, pushedBy] using quiet (s.at j .idle) j _ .idle hp rfl rfl
    · simp [calledBy, pushedBy]

theorem each_run (s : Queue T) (es : List (Ev T)) (i : Nat) :
    pending s.threads[i]? ++ calledBy i (run s es).2 = pushedBy i (run s es).2 ++ pending (run s es).1.threads[i]? := by
  induction es generalizing s with
  | nil => simp [run, calledBy, pushedBy]
  | cons e es ih =>
    simp only [run, calledBy_append, pushedBy_append]
    rw [← List.append_assoc, each_step s e i, List.append_assoc, ih, List.append_assoc]

/-- Each call of a thread pushes its value exactly once, in the order of the calls; only the call it is in may still be outstanding. -/
theorem C48_each (limit n : Nat) (es : List (Ev T)) (i : Nat) :
    calledBy i (run (fresh T limit n) es).2 = pushedBy i (run (fresh T limit n) es).2 ++ pending (run (fresh T limit n) es).1.threads[i]? := by
  have h := each_run (fresh T limit n) es i
  have hp : pending (fresh T limit n).threads[i]? = [] := by
    simp only [fresh]
    cases hx : (List.replicate n (.idle : Pc T))[i]? with
    | none => rfl
    | some p => rw [List.eq_of_mem_replicate (List.mem_of_getElem? hx)]; rfl
  rw [hp] at h
  simpa using h

/-- Two readers wait; one push, not yet signalled. -/
example : let s := (run (fresh Nat 2 3) [.callPop 0, .lock 0, .callPop 1, .lock 1, .callPush 2 7, .lock 2]).1
    s.threads[1]? = some .waitR ∧ s.q ≠ [] := by decide

/-- The queue is full and a writer waits; a pop makes space. -/
example : let s := (run (fresh Nat 1 3) [.callPush 0 5, .lock 0, .callPush 1 6, .lock 1, .callPop 2, .lock 2]).1
    s.threads[1]? = some (.waitW 6) ∧ s.q.length < 1 := by decide

/-- A writer waits at a full queue and nothing else goes on. -/
example : let s := (run (fresh Nat 1 2) [.callPush 0 5, .lock 0, .signal 0, .callPush 1 6, .lock 1]).1
    s.threads = [.idle, .waitW 6] ∧ s.evW = false ∧ s.q = [5] := by decide

end Pvxs.Props.Ffo
