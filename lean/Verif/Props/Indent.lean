import Verif.Spec.Indent
/-
C125: the indentation and the level of detail of a stream are those of the scopes which are open.
-/
namespace Pvxs.Props.Indent
open Pvxs.Indent Pvxs.Spec.Indent

structure Core (s : St) : Prop where
  idxs : ∀ k i, s.idx k = some i → i < s.next
  distinct : ∀ k k' i, s.idx k = some i → s.idx k' = some i → k = k'
  seen : ∀ o ∈ s.starting, ∀ i, o.seen = some i → s.idx o.kind = some i
  fresh : ∀ strm i, s.next ≤ i → s.word strm i = 0

/-- what index() does -/
structure Got (s : St) (o : Obj) : Prop where
  core : Core (index s o).2
  idx : (index s o).2.idx o.kind = some (index s o).1
  word : (index s o).2.word = s.word
  starting : (index s o).2.starting = s.starting
  live : (index s o).2.live = s.live
  level : ∀ k strm, level (index s o).2 k strm = level s k strm
  keep : ∀ k i, s.idx k = some i → (index s o).2.idx k = some i

theorem got {s : St} {o : Obj} (h : Core s) (ho : ∀ i, o.seen = some i → s.idx o.kind = some i) : Got s o := by
  cases hs : o.seen with
  | some i =>
    have e : index s o = (i, s) := by unfold index; rw [hs]
    have hi := ho i hs
    constructor <;> rw [e] <;> try rfl
    · exact h
    · exact hi
    · intro _ _; rfl
    · intro _ _ q; exact q
  | none =>
    cases hi : s.idx o.kind with
    | some i =>
      have e : index s o = (i, { s with next := s.next + 1 }) := by unfold index; rw [hs]; dsimp only; rw [hi]
      constructor <;> rw [e] <;> try rfl
      · refine ⟨?_, h.distinct, h.seen, ?_⟩
        · intro k j q
          have := h.idxs k j q
          show j < s.next + 1
          omega
        · intro strm j q
          have q' : s.next + 1 ≤ j := q
          exact h.fresh strm j (by omega)
      · exact hi
      · intro _ _; rfl
      · intro _ _ q; exact q
    | none =>
      have e : index s o = (s.next, { s with next := s.next + 1, idx := setIdx s.idx o.kind s.next }) := by
        unfold index; rw [hs]; dsimp only; rw [hi]
      have keep : ∀ k i, s.idx k = some i → setIdx s.idx o.kind s.next k = some i := by
        intro k i q
        unfold setIdx
        by_cases hk : k = o.kind
        · rw [hk, hi] at q; cases q
        · rw [if_neg hk]; exact q
      have back : ∀ k i, setIdx s.idx o.kind s.next k = some i → (k = o.kind ∧ i = s.next) ∨ (s.idx k = some i ∧ i < s.next) := by
        intro k i q
        unfold setIdx at q
        by_cases hk : k = o.kind
        · rw [if_pos hk] at q
          injection q with q
          exact Or.inl ⟨hk, q.symm⟩
        · rw [if_neg hk] at q
          exact Or.inr ⟨q, h.idxs k i q⟩
      constructor <;> rw [e] <;> try rfl
      · refine ⟨?_, ?_, ?_, ?_⟩
        · intro k j q
          show j < s.next + 1
          rcases back k j q with ⟨_, r⟩ | ⟨_, r⟩ <;> omega
        · intro k k' i q q'
          rcases back k i q with ⟨a, b⟩ | ⟨a, b⟩
          · rcases back k' i q' with ⟨c, d⟩ | ⟨c, d⟩
            · rw [a, c]
            · omega
          · rcases back k' i q' with ⟨c, d⟩ | ⟨c, d⟩
            · omega
            · exact h.distinct k k' i a c
        · intro x hx i q
          exact keep _ _ (h.seen x hx i q)
        · intro strm j q
          have q' : s.next + 1 ≤ j := q
          exact h.fresh strm j (by omega)
      · show setIdx s.idx o.kind s.next o.kind = some s.next
        unfold setIdx
        rw [if_pos rfl]
      · intro k strm
        unfold level
        show (match setIdx s.idx o.kind s.next k with | none => 0 | some i => s.word strm i) = _
        unfold setIdx
        by_cases hk : k = o.kind
        · rw [if_pos hk, hk, hi]
          exact h.fresh strm s.next (Nat.le_refl _)
        · rw [if_neg hk]; cases s.idx k <;> rfl
      · exact keep

/-- the level of a stream after a write to the index of a kind -/
theorem level_set {s : St} (h : Core s) {k : Kind} {i : Nat} (hi : s.idx k = some i) (strm : Nat) (v : Int) (l st : List Obj) (k' : Kind) (strm' : Nat) :
    level { s with word := setWord s.word strm i v, live := l, starting := st } k' strm' = if k' = k ∧ strm' = strm then v else level s k' strm' := by
  unfold level
  show (match s.idx k' with | none => 0 | some j => setWord s.word strm i v strm' j) = _
  cases hk : s.idx k' with
  | none =>
    rw [if_neg]
    rintro ⟨rfl, _⟩
    rw [hi] at hk; cases hk
  | some j =>
    show setWord s.word strm i v strm' j = _
    unfold setWord
    by_cases e : k' = k
    · rw [e, hi] at hk
      injection hk with hk
      by_cases e2 : strm' = strm
      · rw [if_pos ⟨e2, hk.symm⟩, if_pos ⟨e, e2⟩]
      · rw [if_neg (fun q => e2 q.1), if_neg (fun q => e2 q.2)]
    · have : j ≠ i := by
        intro q
        rw [q] at hk
        exact e (h.distinct k' k i hk hi)
      rw [if_neg (fun q => this q.2), if_neg (fun q => e q.1)]

theorem core_set {s : St} (h : Core s) {k : Kind} {i : Nat} (hi : s.idx k = some i) (strm : Nat) (v : Int) (l st : List Obj)
    (hst : ∀ o ∈ st, o ∈ s.starting) : Core { s with word := setWord s.word strm i v, live := l, starting := st } := by
  refine ⟨h.idxs, h.distinct, fun o ho => h.seen o (hst o ho), ?_⟩
  intro strm' j q
  show setWord s.word strm i v strm' j = 0
  unfold setWord
  have := h.idxs k i hi
  have q' : s.next ≤ j := q
  rw [if_neg (fun e => by omega)]
  exact h.fresh strm' j q'

/-- the level which a constructor makes, and the object as it is afterwards -/
def entered (s : St) (o : Obj) : Int := match o.kind with | .indent => level s .indent o.strm + o.val | .detail => o.val
def kept (s : St) (o : Obj) : Obj := match o.kind with | .indent => o | .detail => { o with val := level s .detail o.strm }

theorem enter_spec {s : St} {o : Obj} (h : Core s) (ho : ∀ i, o.seen = some i → s.idx o.kind = some i) :
    Core (enter s o) ∧ (enter s o).starting = s.starting ∧ (enter s o).live = kept s o :: s.live ∧
    (∀ k strm, level (enter s o) k strm = if k = o.kind ∧ strm = o.strm then entered s o else level s k strm) ∧
    (∃ i, (enter s o).idx o.kind = some i) ∧ (∀ k i, s.idx k = some i → (enter s o).idx k = some i) := by
  have g := got h ho
  have hw : (index s o).2.word o.strm (index s o).1 = level s o.kind o.strm := by
    rw [← g.level o.kind o.strm]
    unfold level
    rw [g.idx]
  cases hk : o.kind with
  | indent =>
    rw [hk] at hw
    have gi := g.idx
    rw [hk] at gi
    have e : enter s o = { (index s o).2 with word := setWord (index s o).2.word o.strm (index s o).1 (level s .indent o.strm + o.val), live := kept s o :: s.live, starting := (index s o).2.starting } := by
      unfold enter kept
      rw [hk]
      dsimp only
      rw [hw]
    rw [e]
    refine ⟨core_set g.core gi _ _ _ _ (fun _ q => q), g.starting, rfl, ?_, ⟨_, gi⟩, g.keep⟩
    intro k strm
    rw [level_set g.core gi, g.level]
    simp only [entered, hk]
  | detail =>
    rw [hk] at hw
    have gi := g.idx
    rw [hk] at gi
    have e : enter s o = { (index s o).2 with word := setWord (index s o).2.word o.strm (index s o).1 o.val, live := kept s o :: s.live, starting := (index s o).2.starting } := by
      unfold enter kept
      rw [hk]
      dsimp only
      rw [hw]
    rw [e]
    refine ⟨core_set g.core gi _ _ _ _ (fun _ q => q), g.starting, rfl, ?_, ⟨_, gi⟩, g.keep⟩
    intro k strm
    rw [level_set g.core gi, g.level]
    simp only [entered, hk]

theorem kept_kind (s : St) (o : Obj) : (kept s o).kind = o.kind := by
  unfold kept
  split <;> rfl

/-- the level which a destructor leaves -/
def left (s : St) (o : Obj) : Int := match o.kind with | .indent => level s .indent o.strm - o.val | .detail => o.val

theorem leave_spec {s : St} {o : Obj} (h : Core s) {i : Nat} (hi : s.idx o.kind = some i) :
    Core (leave s o) ∧ (leave s o).starting = s.starting ∧ (leave s o).live = s.live ∧ (leave s o).idx = s.idx ∧
    (∀ k strm, level (leave s o) k strm = if k = o.kind ∧ strm = o.strm then left s o else level s k strm) := by
  have hw : s.word o.strm i = level s o.kind o.strm := by unfold level; rw [hi]
  cases hk : o.kind with
  | indent =>
    rw [hk] at hi hw
    have e : leave s o = { s with word := setWord s.word o.strm i (level s .indent o.strm - o.val), live := s.live, starting := s.starting } := by
      unfold leave
      rw [hk, hi]
      dsimp only
      rw [hw]
    rw [e]
    refine ⟨core_set h hi _ _ _ _ (fun _ q => q), rfl, rfl, rfl, ?_⟩
    intro k strm
    rw [level_set h hi]
    simp only [left, hk]
  | detail =>
    rw [hk] at hi hw
    have e : leave s o = { s with word := setWord s.word o.strm i o.val, live := s.live, starting := s.starting } := by
      unfold leave
      rw [hk, hi]
    rw [e]
    refine ⟨core_set h hi _ _ _ _ (fun _ q => q), rfl, rfl, rfl, ?_⟩
    intro k strm
    rw [level_set h hi]
    simp only [left, hk]

/-! ### Lists -/

theorem total_erase (strm id : Nat) : ∀ (l : List Obj) (o : Obj), l.find? (·.id = id) = some o →
    total strm l = (if o.kind = .indent ∧ o.strm = strm then o.val else 0) + total strm (l.eraseP (·.id = id)) ∧ o ∈ l ∧ o.id = id := by
  intro l
  induction l with
  | nil => intro o h; cases h
  | cons x l ih =>
    intro o h
    by_cases hx : x.id = id
    · rw [List.find?_cons_of_pos (by simpa using hx)] at h
      injection h with h
      subst h
      rw [List.eraseP_cons_of_pos (by simpa using hx)]
      exact ⟨rfl, by simp, hx⟩
    · rw [List.find?_cons_of_neg (by simpa using hx)] at h
      obtain ⟨a, b, c⟩ := ih o h
      rw [List.eraseP_cons_of_neg (by simpa using hx)]
      refine ⟨?_, List.mem_cons_of_mem _ b, c⟩
      show _ + total strm l = _ + (_ + total strm _)
      rw [a]
      omega

/-! ### Indentation, for all threads and all orders of destruction -/

structure Inv (s : St) : Prop where
  core : Core s
  have_ : ∀ o ∈ s.live, ∃ i, s.idx o.kind = some i
  sum : ∀ strm, level s .indent strm = total strm s.live

theorem inv_step {s : St} (h : Inv s) (op : Op) : Inv (step s op) := by
  cases op with
  | begin_ id k strm v =>
    refine ⟨⟨h.core.idxs, h.core.distinct, ?_, h.core.fresh⟩, h.have_, h.sum⟩
    intro o ho i hi
    have ho' : o ∈ (⟨id, k, strm, v, s.idx k⟩ : Obj) :: s.starting := ho
    rw [List.mem_cons] at ho'
    rcases ho' with rfl | ho'
    · exact hi
    · exact h.core.seen o ho' i hi
  | finish id =>
    show Inv (finish s id)
    unfold finish
    cases hf : s.starting.find? (·.id = id) with
    | none => exact h
    | some o =>
      have hm : o ∈ s.starting := List.mem_of_find?_eq_some hf
      have hc : Core { s with starting := s.starting.eraseP (·.id = id) } :=
        ⟨h.core.idxs, h.core.distinct, fun x hx => h.core.seen x (List.mem_of_mem_eraseP hx), h.core.fresh⟩
      obtain ⟨a, _, c, d, e, f⟩ := enter_spec (o := o) hc (fun i q => h.core.seen o hm i q)
      refine ⟨a, ?_, ?_⟩
      · intro x hx
        rw [c, List.mem_cons] at hx
        rcases hx with rfl | hx
        · rw [kept_kind]; exact e
        · obtain ⟨i, hi⟩ := h.have_ x hx
          exact ⟨i, f _ _ hi⟩
      · intro strm
        have hs := h.sum strm
        rw [d, c]
        show _ = (if _ then _ else _) + total strm s.live
        rw [← hs]
        cases hk : o.kind with
        | indent =>
          simp only [kept, hk, entered]
          by_cases e2 : strm = o.strm
          · subst e2
            rw [if_pos (by simp), if_pos (by simp)]
            show level s .indent o.strm + o.val = _
            omega
          · rw [if_neg (fun q => e2 q.2), if_neg (fun q => e2 q.2.symm)]
            show level s .indent strm = _
            omega
        | detail =>
          simp only [kept, hk]
          rw [if_neg (fun q => by cases q.1), if_neg (fun q => by cases q.1)]
          show level s .indent strm = _
          omega
  | destroy id =>
    show Inv (destroy s id)
    unfold destroy
    cases hf : s.live.find? (·.id = id) with
    | none => exact h
    | some o =>
      have hm : o ∈ s.live := List.mem_of_find?_eq_some hf
      obtain ⟨i, hi⟩ := h.have_ o hm
      have hc : Core { s with live := s.live.eraseP (·.id = id) } := ⟨h.core.idxs, h.core.distinct, h.core.seen, h.core.fresh⟩
      obtain ⟨a, _, c, d, e⟩ := leave_spec (o := o) hc hi
      refine ⟨a, ?_, ?_⟩
      · intro x hx
        rw [c] at hx
        rw [d]
        exact h.have_ x (List.mem_of_mem_eraseP hx)
      · intro strm
        have hs := h.sum strm
        have ht := (total_erase strm id s.live o hf).1
        rw [e, c]
        show _ = total strm (s.live.eraseP (·.id = id))
        cases hk : o.kind with
        | indent =>
          rw [hk] at ht
          simp only [left, hk]
          by_cases e2 : strm = o.strm
          · subst e2
            rw [if_pos (by simp)] at ht
            rw [if_pos (by simp)]
            show level s .indent o.strm - o.val = _
            omega
          · rw [if_neg (fun q => e2 q.2.symm)] at ht
            rw [if_neg (fun q => e2 q.2)]
            show level s .indent strm = _
            omega
        | detail =>
          rw [hk] at ht
          rw [if_neg (fun q => by cases q.1)] at ht
          rw [if_neg (fun q => by cases q.1)]
          show level s .indent strm = _
          omega
  | move id id' =>
    show Inv (move s id id')
    unfold move
    cases hf : s.live.find? (·.id = id) with
    | none => exact h
    | some o =>
      have hm : o ∈ s.live := List.mem_of_find?_eq_some hf
      refine ⟨⟨h.core.idxs, h.core.distinct, h.core.seen, h.core.fresh⟩, ?_, ?_⟩
      · intro x hx
        have hx' : x ∈ ({ o with id := id' } : Obj) :: s.live.eraseP (·.id = id) := hx
        rw [List.mem_cons] at hx'
        rcases hx' with rfl | hx'
        · exact h.have_ o hm
        · exact h.have_ x (List.mem_of_mem_eraseP hx')
      · intro strm
        exact (h.sum strm).trans (total_erase strm id s.live o hf).1
  | other strm v =>
    have hl : ∀ k strm', level (step s (.other strm v)) k strm' = level s k strm' := by
      intro k strm'
      unfold level
      show (match s.idx k with | none => 0 | some i => setWord s.word strm s.next v strm' i) = _
      cases hk : s.idx k with
      | none => rfl
      | some i =>
        have := h.core.idxs k i hk
        show setWord s.word strm s.next v strm' i = s.word strm' i
        unfold setWord
        rw [if_neg (fun q => by omega)]
    refine ⟨⟨?_, h.core.distinct, h.core.seen, ?_⟩, h.have_, fun st => (hl .indent st).trans (h.sum st)⟩
    · intro k i hi
      have := h.core.idxs k i hi
      show i < s.next + 1
      omega
    · intro strm' j q
      have q' : s.next + 1 ≤ j := q
      show setWord s.word strm s.next v strm' j = 0
      unfold setWord
      rw [if_neg (fun e => by omega)]
      exact h.core.fresh strm' j (by omega)

theorem inv_init : Inv {} := by
  refine ⟨⟨?_, ?_, ?_, ?_⟩, ?_, ?_⟩
  · intro k i q; cases q
  · intro k k' i q; cases q
  · intro o q; cases q
  · intro _ _ _; rfl
  · intro o q; cases q
  · intro _; rfl

theorem inv_run (ops : List Op) : ∀ {s : St}, Inv s → Inv (run s ops) := by
  induction ops with
  | nil => intro s h; exact h
  | cons op ops ih => intro s h; exact ih (inv_step h op)

/-- C125: whatever threads open, move and close scopes, in whatever order, also when several of them are the first: the indentation of a stream is the sum of the
depths of its scopes. -/
theorem C125_indent (ops : List Op) (strm : Nat) : level (run {} ops) .indent strm = total strm (run {} ops).live :=
  (inv_run ops inv_init).sum strm

/-- C125: so a stream which has no scope is not indented. -/
theorem C125_back (ops : List Op) (strm : Nat) (h : ∀ o ∈ (run {} ops).live, o.strm ≠ strm) : level (run {} ops) .indent strm = 0 := by
  rw [C125_indent]
  generalize (run {} ops).live = l at h
  induction l with
  | nil => rfl
  | cons o l ih =>
    show _ + total strm l = 0
    rw [ih (fun x hx => h x (List.mem_cons_of_mem _ hx)), if_neg (fun q => h o (by simp) q.2)]
    rfl

/-- C125: with the scopes of positive depth which all of the library has, four blanks are printed for each level. -/
theorem C125_printed (ops : List Op) (strm : Nat) (h : ∀ o ∈ (run {} ops).live, o.kind = .indent → 0 ≤ o.val) :
    printed (level (run {} ops) .indent strm) = some (String.join (List.replicate (total strm (run {} ops).live).toNat "    ")) := by
  rw [C125_indent]
  have : 0 ≤ total strm (run {} ops).live := by
    generalize (run {} ops).live = l at h
    induction l with
    | nil => exact Int.le_refl 0
    | cons o l ih =>
      show 0 ≤ _ + total strm l
      have a := ih (fun x hx => h x (List.mem_cons_of_mem _ hx))
      have b := h o (by simp)
      split
      · rename_i hc
        have := b hc.1
        omega
      · omega
  unfold printed
  rw [if_neg (by omega)]

/-! ### Nested scopes -/

/-- what an object keeps for its destructor -/
def back_ (s : St) (k : Kind) (strm : Nat) (v : Int) : Int :=
  match k with
  | .indent => v
  | .detail => level s .detail strm

theorem open_spec {s : St} (h : Core s) (k : Kind) (strm : Nat) (v : Int) :
    ∃ o, Core (finish (begin_ s 0 k strm v) 0) ∧ o.id = 0 ∧ o.kind = k ∧ o.strm = strm ∧ o.val = back_ s k strm v ∧
      (finish (begin_ s 0 k strm v) 0).starting = s.starting ∧ (finish (begin_ s 0 k strm v) 0).live = o :: s.live ∧
      (∃ i, (finish (begin_ s 0 k strm v) 0).idx k = some i) ∧
      (∀ k' strm', level (finish (begin_ s 0 k strm v) 0) k' strm' = if k' = k ∧ strm' = strm then inner k (level s k strm) v else level s k' strm') := by
  have e : finish (begin_ s 0 k strm v) 0 = enter s ⟨0, k, strm, v, s.idx k⟩ := by
    unfold finish begin_
    simp
  rw [e]
  obtain ⟨a, b, c, d, f, _⟩ := enter_spec (o := ⟨0, k, strm, v, s.idx k⟩) h (fun i q => q)
  refine ⟨kept s ⟨0, k, strm, v, s.idx k⟩, a, ?_, ?_, ?_, ?_, b, c, f, ?_⟩
  · cases k <;> rfl
  · cases k <;> rfl
  · cases k <;> rfl
  · cases k <;> rfl
  · intro k' strm'
    rw [d]
    cases k <;> rfl

theorem exec_spec (p : Prog) : ∀ (s : St), Core s → Core (exec p s) ∧ (exec p s).live = s.live ∧ (exec p s).starting = s.starting ∧
    (∀ k i, s.idx k = some i → (exec p s).idx k = some i) ∧ ∀ k strm, level (exec p s) k strm = level s k strm := by
  induction p with
  | nop => intro s h; exact ⟨h, rfl, rfl, fun _ _ q => q, fun _ _ => rfl⟩
  | seq p q hp hq =>
    intro s h
    obtain ⟨a, b, c, d, e⟩ := hp s h
    obtain ⟨a', b', c', d', e'⟩ := hq (exec p s) a
    exact ⟨a', b'.trans b, c'.trans c, fun k i r => d' k i (d k i r), fun k st => (e' k st).trans (e k st)⟩
  | scope k strm v body ih =>
    intro s h
    obtain ⟨o, a, b1, b2, b3, b4, c, d, ⟨i, hi⟩, f⟩ := open_spec h k strm v
    have keepIdx : ∀ k' i', s.idx k' = some i' → (finish (begin_ s 0 k strm v) 0).idx k' = some i' := by
      have e : finish (begin_ s 0 k strm v) 0 = enter s ⟨0, k, strm, v, s.idx k⟩ := by
        unfold finish begin_
        simp
      rw [e]
      exact (enter_spec (o := ⟨0, k, strm, v, s.idx k⟩) h (fun i q => q)).2.2.2.2.2
    obtain ⟨a', b', c', d', e'⟩ := ih _ a
    rw [show exec (.scope k strm v body) s = destroy (exec body (finish (begin_ s 0 k strm v) 0)) 0 from rfl]
    generalize hg : exec body (finish (begin_ s 0 k strm v) 0) = t at a' b' c' d' e'
    have hl : t.live = o :: s.live := b'.trans d
    have hd : destroy t 0 = leave { t with live := s.live } o := by
      unfold destroy
      rw [hl, List.find?_cons_of_pos (by simpa using b1), List.eraseP_cons_of_pos (by simpa using b1)]
    rw [hd]
    have hc : Core { t with live := s.live } := ⟨a'.idxs, a'.distinct, a'.seen, a'.fresh⟩
    have hi' : ({ t with live := s.live } : St).idx o.kind = some i := by rw [b2]; exact d' k i hi
    obtain ⟨x1, x2, x3, x4, x5⟩ := leave_spec (o := o) hc hi'
    refine ⟨x1, x3, x2.trans (c'.trans c), ?_, ?_⟩
    · intro k' i' q
      rw [x4]
      exact d' k' i' (keepIdx k' i' q)
    · intro k' strm'
      rw [x5]
      have ht : ∀ k' strm', level ({ t with live := s.live } : St) k' strm' = if k' = k ∧ strm' = strm then inner k (level s k strm) v else level s k' strm' :=
        fun k' strm' => (e' k' strm').trans (f k' strm')
      rw [b2, b3]
      by_cases hk : k' = k ∧ strm' = strm
      · rw [if_pos hk, hk.1, hk.2]
        unfold left
        rw [b2, b3]
        cases k with
        | indent =>
          dsimp only [back_, inner] at b4 ⊢
          rw [ht, if_pos ⟨rfl, rfl⟩, b4]
          dsimp only [inner]
          omega
        | detail => exact b4
      · rw [if_neg hk, ht, if_neg hk]

/-- C125: code with nested scopes leaves the indentation and the level of detail of all streams as it found them, at whatever point of a run it is. -/
theorem C125_scopes (ops : List Op) (p : Prog) (k : Kind) (strm : Nat) : level (exec p (run {} ops)) k strm = level (run {} ops) k strm :=
  (exec_spec p _ (inv_run ops inv_init).core).2.2.2.2 k strm

/-- C125: within a scope, after any inner ones, the level of detail of its stream is the one asked for, the indentation is deeper by the depth, and nothing else
changed. -/
theorem C125_within (ops : List Op) (p : Prog) (k k' : Kind) (strm strm' : Nat) (v : Int) :
    level (exec p (finish (begin_ (run {} ops) 0 k strm v) 0)) k' strm' =
      if k' = k ∧ strm' = strm then inner k (level (run {} ops) k strm) v else level (run {} ops) k' strm' := by
  obtain ⟨o, a, _, _, _, _, _, _, _, f⟩ := open_spec (inv_run ops inv_init).core k strm v
  rw [(exec_spec p _ a).2.2.2.2 k' strm', f]

/-! ### What does not hold -/

/-- the code: a Detailed which outlives one made after it, as one which was moved may, leaves the wrong level behind -/
theorem C125_detail_false : ∃ ops : List Op, (run {} ops).live = [] ∧ (run {} ops).starting = [] ∧ level (run {} ops) .detail 0 ≠ 0 :=
  ⟨[.begin_ 1 .detail 0 1, .finish 1, .begin_ 2 .detail 0 2, .finish 2, .destroy 1, .destroy 2], by decide, by decide, by decide⟩

/-- the code: a negative depth is accepted, and then `indent{}` does not end -/
theorem C125_printed_false : printed (level (run {} [.begin_ 1 .indent 0 (-1), .finish 1]) .indent 0) = none := by decide

/-- two threads which both are the first, on two streams; one object is moved, and they are destroyed in the other order -/
example : let s := run {} [.begin_ 1 .indent 0 1, .begin_ 2 .indent 1 3, .finish 2, .finish 1, .other 0 7, .begin_ 3 .indent 0 2, .finish 3, .move 1 4, .destroy 3]
    level s .indent 0 = 1 ∧ level s .indent 1 = 3 ∧ s.next = 3 := by decide

example : ∀ o ∈ (run {} [.begin_ 1 .indent 0 1, .finish 1, .begin_ 2 .indent 1 3, .finish 2, .destroy 2]).live, o.strm ≠ 1 := by decide

end Pvxs.Props.Indent
