import Verif.Model.SharedArray
/-
C49: shared_array.
-/
namespace Pvxs.Props.Arr
open Pvxs.Arr

structure Inv (s : Heap) : Prop where
  /-- a variable refers to a whole array -/
  whole : ∀ (i : Nat) (r : Ref) (b : Nat), s.vars[i]? = some r → r.buf = some b → ∃ vs : List Elem, s.bufs[b]? = some vs ∧ vs.length = r.count
  empty : ∀ (i : Nat) (r : Ref), s.vars[i]? = some r → r.buf = none → r.count = 0
  /-- no array is both const and not -/
  sep : ∀ (i j : Nat) (r q : Ref) (b : Nat), s.vars[i]? = some r → s.vars[j]? = some q → r.const = true → q.const = false → r.buf = some b → q.buf ≠ some b

theorem unique_sole : ∀ {l : List Ref} {i j : Nat} {r q : Ref} {b : Nat}, l.countP (·.buf == some b) ≤ 1 → l[i]? = some r → l[j]? = some q →
    r.buf = some b → q.buf = some b → i = j
  | [], i, _, _, _, _, _, h1, _, _, _ => by simp at h1
  | x :: l, 0, 0, _, _, _, _, _, _, _, _ => rfl
  | x :: l, 0, j + 1, r, q, b, h, h1, h2, h3, h4 => by
    simp at h1 h2; subst h1
    have : 0 < l.countP (·.buf == some b) := List.countP_pos_iff.mpr ⟨q, List.mem_of_getElem? h2, by simp [h4]⟩
    rw [List.countP_cons, if_pos (by simp [h3])] at h; omega
  | x :: l, i + 1, 0, r, q, b, h, h1, h2, h3, h4 => by
    simp at h1 h2; subst h2
    have : 0 < l.countP (·.buf == some b) := List.countP_pos_iff.mpr ⟨r, List.mem_of_getElem? h1, by simp [h3]⟩
    rw [List.countP_cons, if_pos (by simp [h4])] at h; omega
  | x :: l, i + 1, j + 1, r, q, b, h, h1, h2, h3, h4 => by
    rw [List.countP_cons] at h
    exact congrArg (· + 1) (unique_sole (l := l) (by omega) (by simpa using h1) (by simpa using h2) h3 h4)

theorem get_append_one {α : Type} {l : List α} {x y : α} {i : Nat} (h : (l ++ [x])[i]? = some y) : l[i]? = some y ∨ (i = l.length ∧ y = x) := by
  rw [List.getElem?_append] at h
  split at h
  · exact Or.inl h
  · rename_i hi
    right
    cases hk : i - l.length with
    | zero => rw [hk] at h; simp at h; exact ⟨by omega, h.symm⟩
    | succ k => rw [hk] at h; simp at h

theorem get_set {α : Type} {l : List α} {x y : α} {h i : Nat} (hy : (l.set h x)[i]? = some y) : (i ≠ h ∧ l[i]? = some y) ∨ (i = h ∧ y = x) := by
  rw [List.getElem?_set] at hy
  split at hy
  · rename_i hi
    split at hy
    · injection hy with hy; exact Or.inr ⟨hi.symm, hy.symm⟩
    · cases hy
  · rename_i hi; exact Or.inl ⟨fun h => hi h.symm, hy⟩

theorem bufs_append {l : List (List Elem)} {vs x : List Elem} {b : Nat} (h : l[b]? = some vs) : (l ++ [x])[b]? = some vs := by
  rw [List.getElem?_append_left]
  · exact h
  · rcases Nat.lt_or_ge b l.length with h1 | h1
    · exact h1
    · rw [List.getElem?_eq_none h1] at h; cases h

theorem buf_lt {s : Heap} (h : Inv s) {i : Nat} {r : Ref} {b : Nat} (hr : s.vars[i]? = some r) (hb : r.buf = some b) : b < s.bufs.length := by
  obtain ⟨vs, h1, _⟩ := h.whole i r b hr hb
  rcases Nat.lt_or_ge b s.bufs.length with h2 | h2
  · exact h2
  · rw [List.getElem?_eq_none h2] at h1; cases h1

theorem inv_alloc {s : Heap} (h : Inv s) (c : Bool) (vs : List Elem) : Inv (allocVar s c vs) := by
  refine ⟨fun i r b hr hb => ?_, fun i r hr hb => ?_, fun i j r q b hr hq hc hn hb hqb => ?_⟩
  · rcases get_append_one hr with hr | ⟨_, hr⟩
    · obtain ⟨vs', h1, h2⟩ := h.whole i r b hr hb
      exact ⟨vs', bufs_append h1, h2⟩
    · subst hr; injection hb with hb; subst hb
      exact ⟨vs, by simp [allocVar], rfl⟩
  · rcases get_append_one hr with hr | ⟨_, hr⟩
    · exact h.empty i r hr hb
    · subst hr; cases hb
  · rcases get_append_one hr with hr | ⟨_, hr⟩
    · have h1 := buf_lt h hr hb
      rcases get_append_one hq with hq | ⟨_, hq⟩
      · exact h.sep i j r q b hr hq hc hn hb hqb
      · subst hq; injection hqb with hqb; omega
    · rcases get_append_one hq with hq | ⟨_, hq⟩
      · have h1 := buf_lt h hq hqb
        subst hr; injection hb with hb; omega
      · subst hr; subst hq; simp only at hc hn; rw [hc] at hn; cases hn

theorem inv_clear {s : Heap} (h : Inv s) (v : Nat) (c : Ref) : Inv (clearVar s v c) := by
  refine ⟨fun i r b hr hb => ?_, fun i r hr hb => ?_, fun i j r q b hr hq hc hn hb hqb => ?_⟩
  · rcases get_set hr with ⟨_, hr⟩ | ⟨_, hr⟩
    · exact h.whole i r b hr hb
    · subst hr; cases hb
  · rcases get_set hr with ⟨_, hr⟩ | ⟨_, hr⟩
    · exact h.empty i r hr hb
    · subst hr; rfl
  · rcases get_set hr with ⟨_, hr⟩ | ⟨_, hr⟩
    · rcases get_set hq with ⟨_, hq⟩ | ⟨_, hq⟩
      · exact h.sep i j r q b hr hq hc hn hb hqb
      · subst hq; cases hqb
    · subst hr; cases hb

/-- a unique reference is taken over by a new variable, of either kind -/
theorem inv_take {s : Heap} (h : Inv s) {v : Nat} {c : Ref} (hv : s.vars[v]? = some c) (hu : unique s c = true) (k : Bool) :
    Inv { s with vars := s.vars.set v { const := c.const } ++ [{ c with const := k }] } := by
  have hset : ∀ {i : Nat} {r : Ref} {b : Nat}, (s.vars.set v { const := c.const })[i]? = some r → r.buf = some b → i ≠ v ∧ s.vars[i]? = some r := by
    intro i r b hr hb
    rcases get_set hr with hr | ⟨_, hr⟩
    · exact hr
    · subst hr; cases hb
  have sole : ∀ {i : Nat} {r : Ref} {b : Nat}, i ≠ v → s.vars[i]? = some r → r.buf = some b → c.buf ≠ some b := by
    intro i r b hi hr hb hcb
    unfold unique at hu
    rw [hcb] at hu
    exact hi (unique_sole (of_decide_eq_true hu) hr hv hb hcb)
  refine ⟨fun i r b hr hb => ?_, fun i r hr hb => ?_, fun i j r q b hr hq hc hn hb hqb => ?_⟩
  · rcases get_append_one hr with hr | ⟨_, hr⟩
    · exact h.whole i r b (hset hr hb).2 hb
    · subst hr; exact h.whole v c b hv hb
  · rcases get_append_one hr with hr | ⟨_, hr⟩
    · rcases get_set hr with ⟨_, hr⟩ | ⟨_, hr⟩
      · exact h.empty i r hr hb
      · subst hr; rfl
    · subst hr; exact h.empty v c hv hb
  · rcases get_append_one hr with hr | ⟨_, hr⟩
    · obtain ⟨hi, hr⟩ := hset hr hb
      rcases get_append_one hq with hq | ⟨_, hq⟩
      · exact h.sep i j r q b hr (hset hq hqb).2 hc hn hb hqb
      · subst hq; exact sole hi hr hb hqb
    · rcases get_append_one hq with hq | ⟨_, hq⟩
      · obtain ⟨hj, hq⟩ := hset hq hqb
        subst hr; exact sole hj hq hqb hb
      · subst hr; subst hq; simp only at hc hn; rw [hc] at hn; cases hn

theorem inv_step {s s' : Heap} (h : Inv s) (op : Op) (hs : step s op = some s') : Inv s' := by
  cases op with
  | alloc c vs => injection hs with hs; subst hs; exact inv_alloc h c vs
  | copy v =>
    simp only [step] at hs
    split at hs
    · rename_i c hv
      injection hs with hs; subst hs
      have old : ∀ {i : Nat} {r : Ref}, (s.vars ++ [c])[i]? = some r → ∃ i' : Nat, s.vars[i']? = some r := by
        intro i r hr
        rcases get_append_one hr with hr | ⟨_, hr⟩
        · exact ⟨i, hr⟩
        · subst hr; exact ⟨v, hv⟩
      refine ⟨fun i r b hr hb => ?_, fun i r hr hb => ?_, fun i j r q b hr hq hc hn hb hqb => ?_⟩
      · obtain ⟨i', hr⟩ := old hr; exact h.whole i' r b hr hb
      · obtain ⟨i', hr⟩ := old hr; exact h.empty i' r hr hb
      · obtain ⟨i', hr⟩ := old hr
        obtain ⟨j', hq⟩ := old hq
        exact h.sep i' j' r q b hr hq hc hn hb hqb
    · injection hs with hs; subst hs; exact h
  | assign v g =>
    simp only [step] at hs
    split at hs
    · rename_i c d hv hg
      split at hs
      · injection hs with hs; subst hs
        have old : ∀ {i : Nat} {r : Ref}, (s.vars.set v d)[i]? = some r → ∃ i' : Nat, s.vars[i']? = some r := by
          intro i r hr
          rcases get_set hr with ⟨_, hr⟩ | ⟨_, hr⟩
          · exact ⟨i, hr⟩
          · subst hr; exact ⟨g, hg⟩
        refine ⟨fun i r b hr hb => ?_, fun i r hr hb => ?_, fun i j r q b hr hq hc hn hb hqb => ?_⟩
        · obtain ⟨i', hr⟩ := old hr; exact h.whole i' r b hr hb
        · obtain ⟨i', hr⟩ := old hr; exact h.empty i' r hr hb
        · obtain ⟨i', hr⟩ := old hr
          obtain ⟨j', hq⟩ := old hq
          exact h.sep i' j' r q b hr hq hc hn hb hqb
      · injection hs with hs; subst hs; exact h
    · injection hs with hs; subst hs; exact h
  | write v i x =>
    simp only [step] at hs
    split at hs
    · rename_i c hv
      split at hs
      · injection hs with hs; subst hs; exact h
      · split at hs
        · rename_i b0 hb0
          injection hs with hs; subst hs
          refine ⟨fun j r b hr hb => ?_, h.empty, h.sep⟩
          obtain ⟨vs, h1, h2⟩ := h.whole j r b hr hb
          rw [List.getElem?_modify]
          split
          · exact ⟨vs.set i (some x), by simp [h1], by simpa using h2⟩
          · exact ⟨vs, by simp [h1], h2⟩
        · injection hs with hs; subst hs; exact h
    · injection hs with hs; subst hs; exact h
  | clear v =>
    simp only [step] at hs
    split at hs
    · injection hs with hs; subst hs; exact inv_clear h v _
    · injection hs with hs; subst hs; exact h
  | resize v n =>
    simp only [step] at hs
    split at hs
    · rename_i c hv
      split at hs
      · injection hs with hs; subst hs; exact h
      · rename_i hcc
        split at hs
        · injection hs with hs; subst hs
          refine ⟨fun i r b hr hb => ?_, fun i r hr hb => ?_, fun i j r q b hr hq hc hn hb hqb => ?_⟩
          · rcases get_set hr with ⟨_, hr⟩ | ⟨_, hr⟩
            · obtain ⟨vs', h1, h2⟩ := h.whole i r b hr hb
              exact ⟨vs', bufs_append h1, h2⟩
            · subst hr; injection hb with hb; subst hb
              exact ⟨(data s c).take n ++ List.replicate (n - ((data s c).take n).length) none, by simp, by simp; omega⟩
          · rcases get_set hr with ⟨_, hr⟩ | ⟨_, hr⟩
            · exact h.empty i r hr hb
            · subst hr; cases hb
          · rcases get_set hr with ⟨_, hr⟩ | ⟨_, hr⟩
            · have h1 := buf_lt h hr hb
              rcases get_set hq with ⟨_, hq⟩ | ⟨_, hq⟩
              · exact h.sep i j r q b hr hq hc hn hb hqb
              · subst hq; injection hqb with hqb; omega
            · subst hr; simp only at hc; exact hcc hc
        · injection hs with hs; subst hs; exact h
    · injection hs with hs; subst hs; exact h
  | freeze v =>
    simp only [step] at hs
    split at hs
    · rename_i c hv
      split at hs
      · cases hs
      · rename_i hu
        injection hs with hs; subst hs
        exact inv_take h hv (by simpa using hu) true
    · injection hs with hs; subst hs; exact h
  | thaw v =>
    simp only [step] at hs
    split at hs
    · rename_i c hv
      split at hs
      · rename_i hu
        injection hs with hs; subst hs
        exact inv_take h hv hu false
      · injection hs with hs; subst hs
        exact inv_alloc (inv_clear h v c) false _
    · injection hs with hs; subst hs; exact h

theorem inv_run {s : Heap} (h : Inv s) (ops : List Op) : Inv (run s ops) := by
  induction ops generalizing s with
  | nil => exact h
  | cons op ops ih =>
    refine ih ?_
    cases hs : step s op with
    | none => exact h
    | some s' => exact inv_step h op hs

theorem inv_new : Inv {} := ⟨fun i r b hr => by simp at hr, fun i r hr => by simp at hr, fun i j r q b hr => by simp at hr⟩

/-- the operation gives up, or changes, what the variable `h` itself refers to -/
def Disturbs (h : Nat) : Op → Bool
  | .assign v _ => v == h
  | .clear v => v == h
  | .freeze v => v == h
  | .thaw v => v == h
  | .resize v _ => v == h
  | _ => false

theorem kept_step {s s' : Heap} (hi : Inv s) {h : Nat} {r : Ref} (hr : s.vars[h]? = some r) (hc : r.const = true) (op : Op)
    (hd : Disturbs h op = false) (hs : step s op = some s') : s'.vars[h]? = some r ∧ data s' r = data s r := by
  have hlt : h < s.vars.length := by
    rcases Nat.lt_or_ge h s.vars.length with h2 | h2
    · exact h2
    · rw [List.getElem?_eq_none h2] at hr; cases hr
  have happ : ∀ (x : Ref), (s.vars ++ [x])[h]? = some r := fun x => by rw [List.getElem?_append_left hlt]; exact hr
  have hset : ∀ (v : Nat) (x : Ref), v ≠ h → (s.vars.set v x)[h]? = some r := fun v x hv => by rw [List.getElem?_set_ne hv]; exact hr
  have hsetapp : ∀ (v : Nat) (x y : Ref), v ≠ h → (s.vars.set v x ++ [y])[h]? = some r := fun v x y hv => by
    rw [List.getElem?_append_left (by simpa using hlt)]; exact hset v x hv
  have hdata : ∀ (vs : List Elem) (vars : List Ref), data { bufs := s.bufs ++ [vs], vars := vars } r = data s r := by
    intro vs vars
    unfold data
    cases hb : r.buf with
    | none => rfl
    | some b =>
      obtain ⟨ws, h1, _⟩ := hi.whole h r b hr hb
      simp only [bufs_append h1, h1]
  cases op with
  | alloc c vs => injection hs with hs; subst hs; exact ⟨happ _, hdata _ _⟩
  | copy v =>
    simp only [step] at hs
    split at hs
    · injection hs with hs; subst hs; exact ⟨happ _, rfl⟩
    · injection hs with hs; subst hs; exact ⟨hr, rfl⟩
  | assign v g =>
    simp [Disturbs] at hd
    simp only [step] at hs
    split at hs
    · split at hs
      · injection hs with hs; subst hs; exact ⟨hset _ _ hd, rfl⟩
      · injection hs with hs; subst hs; exact ⟨hr, rfl⟩
    · injection hs with hs; subst hs; exact ⟨hr, rfl⟩
  | write v i x =>
    simp only [step] at hs
    split at hs
    · rename_i c hv
      split at hs
      · injection hs with hs; subst hs; exact ⟨hr, rfl⟩
      · rename_i hcc
        split at hs
        · rename_i b0 hb0
          injection hs with hs; subst hs
          refine ⟨hr, ?_⟩
          unfold data
          cases hb : r.buf with
          | none => rfl
          | some b =>
            have hne : b0 ≠ b := by
              intro he
              exact hi.sep h v r c b hr hv hc (by simpa using hcc) hb (by rw [hb0, he])
            simp only [List.getElem?_modify]
            cases s.bufs[b]? <;> simp [hne]
        · injection hs with hs; subst hs; exact ⟨hr, rfl⟩
    · injection hs with hs; subst hs; exact ⟨hr, rfl⟩
  | clear v =>
    simp [Disturbs] at hd
    simp only [step] at hs
    split at hs
    · injection hs with hs; subst hs; exact ⟨hset _ _ hd, rfl⟩
    · injection hs with hs; subst hs; exact ⟨hr, rfl⟩
  | resize v n =>
    simp [Disturbs] at hd
    simp only [step] at hs
    split at hs
    · split at hs
      · injection hs with hs; subst hs; exact ⟨hr, rfl⟩
      · split at hs
        · injection hs with hs; subst hs; exact ⟨hset _ _ hd, hdata _ _⟩
        · injection hs with hs; subst hs; exact ⟨hr, rfl⟩
    · injection hs with hs; subst hs; exact ⟨hr, rfl⟩
  | freeze v =>
    simp [Disturbs] at hd
    simp only [step] at hs
    split at hs
    · split at hs
      · cases hs
      · injection hs with hs; subst hs; exact ⟨hsetapp _ _ _ hd, rfl⟩
    · injection hs with hs; subst hs; exact ⟨hr, rfl⟩
  | thaw v =>
    simp [Disturbs] at hd
    simp only [step] at hs
    split at hs
    · split at hs
      · injection hs with hs; subst hs; exact ⟨hsetapp _ _ _ hd, rfl⟩
      · injection hs with hs; subst hs; exact ⟨hsetapp _ _ _ hd, hdata _ _⟩
    · injection hs with hs; subst hs; exact ⟨hr, rfl⟩

/-- Whatever led to a state, and whatever is done from there through any other variable: what a shared_array<const T> refers to does not change. -/
theorem C49_frozen (before after : List Op) (h : Nat) (r : Ref) (hr : (run {} before).vars[h]? = some r) (hc : r.const = true)
    (hd : ∀ op ∈ after, Disturbs h op = false) :
    (run {} (before ++ after)).vars[h]? = some r ∧ data (run {} (before ++ after)) r = data (run {} before) r := by
  have happ : ∀ (s : Heap) (a b : List Op), run s (a ++ b) = run (run s a) b := by
    intro s a b
    induction a generalizing s with
    | nil => rfl
    | cons x a ih => exact ih _
  rw [happ]
  have hi := inv_run inv_new before
  generalize run {} before = s at *
  induction after generalizing s with
  | nil => exact ⟨hr, rfl⟩
  | cons op after ih =>
    have hd1 := hd op (by simp)
    have hd2 : ∀ op ∈ after, Disturbs h op = false := fun x hx => hd x (by simp [hx])
    simp only [run]
    cases hs : step s op with
    | none => exact ih hd2 s hr hi
    | some s' =>
      obtain ⟨h1, h2⟩ := kept_step hi hr hc op hd1 hs
      have := ih hd2 s' h1 (inv_step hi op hs)
      rw [h2] at this
      exact this

/-- freeze() throws exactly if another variable refers to the same array; else the new variable refers to the same content and the old one is
empty. -/
theorem C49_freeze (ops : List Op) (h : Nat) (r : Ref) (hr : (run {} ops).vars[h]? = some r) :
    (step (run {} ops) (.freeze h) = none ↔ ∃ (j : Nat) (q : Ref) (b : Nat), j ≠ h ∧ (run {} ops).vars[j]? = some q ∧ q.buf = some b ∧ r.buf = some b) ∧
    ∀ s', step (run {} ops) (.freeze h) = some s' → ∃ q : Ref, s'.vars[(run {} ops).vars.length]? = some q ∧ q.const = true ∧
      data s' q = data (run {} ops) r ∧ s'.vars[h]? = some { const := r.const } := by
  generalize run {} ops = s at *
  have hlt : h < s.vars.length := by
    rcases Nat.lt_or_ge h s.vars.length with h2 | h2
    · exact h2
    · rw [List.getElem?_eq_none h2] at hr; cases hr
  constructor
  · simp only [step, hr]
    constructor
    · intro hs
      split at hs
      · rename_i hu
        unfold unique at hu
        cases hb : r.buf with
        | none => rw [hb] at hu; simp at hu
        | some b =>
          rw [hb] at hu
          simp [useCount] at hu
          -- another variable counts
          have : ∀ (l : List Ref) (h : Nat), l[h]? = some r → 1 < l.countP (·.buf == some b) → ∃ (j : Nat) (q : Ref), j ≠ h ∧ l[j]? = some q ∧ q.buf = some b := by
            intro l
            induction l with
            | nil => intro h hr; simp at hr
            | cons x l ih =>
              intro h hr hcnt
              rw [List.countP_cons] at hcnt
              cases h with
              | zero =>
                have : 0 < l.countP (·.buf == some b) := by split at hcnt <;> omega
                obtain ⟨q, hq, hqb⟩ := List.countP_pos_iff.mp this
                obtain ⟨j, hj⟩ := List.mem_iff_getElem?.mp hq
                exact ⟨j + 1, q, by omega, by simpa using hj, by simpa using hqb⟩
              | succ h =>
                by_cases hx : x.buf = some b
                · exact ⟨0, x, by omega, rfl, hx⟩
                · obtain ⟨j, q, h1, h2, h3⟩ := ih h (by simpa using hr) (by simpa [hx] using hcnt)
                  exact ⟨j + 1, q, by omega, by simpa using h2, h3⟩
          obtain ⟨j, q, h1, h2, h3⟩ := this s.vars h hr (Nat.lt_of_not_le (of_decide_eq_false hu))
          exact ⟨j, q, b, h1, h2, h3, rfl⟩
      · cases hs
    · rintro ⟨j, q, b, h1, h2, h3, h4⟩
      rw [if_pos]
      unfold unique
      rw [h4]
      simp only [Bool.not_eq_true', decide_eq_false_iff_not]
      intro hle
      exact h1 (unique_sole hle h2 hr h3 h4)
  · intro s' hs
    simp only [step, hr] at hs
    split at hs
    · cases hs
    · injection hs with hs; subst hs
      refine ⟨{ r with const := true }, by simp, rfl, rfl, ?_⟩
      rw [List.getElem?_append_left (by simpa using hlt), List.getElem?_set_self hlt]

/-- thaw() gives a variable with the same content which no other variable shares, so that writing through it changes nothing else; the old one is
empty. -/
theorem C49_thaw (ops : List Op) (h : Nat) (r : Ref) (hr : (run {} ops).vars[h]? = some r) :
    ∃ (s' : Heap) (q : Ref), step (run {} ops) (.thaw h) = some s' ∧ s'.vars[(run {} ops).vars.length]? = some q ∧ q.const = false ∧
      data s' q = data (run {} ops) r ∧ s'.vars[h]? = some { const := r.const } ∧
      ∀ (j : Nat) (p : Ref) (b : Nat), j ≠ (run {} ops).vars.length → s'.vars[j]? = some p → q.buf = some b → p.buf ≠ some b := by
  have hi := inv_run inv_new ops
  generalize run {} ops = s at *
  have hlt : h < s.vars.length := by
    rcases Nat.lt_or_ge h s.vars.length with h2 | h2
    · exact h2
    · rw [List.getElem?_eq_none h2] at hr; cases hr
  simp only [step, hr]
  by_cases hu : unique s r = true
  · rw [if_pos hu]
    refine ⟨_, { r with const := false }, rfl, by simp, rfl, rfl, ?_, ?_⟩
    · rw [List.getElem?_append_left (by simpa using hlt), List.getElem?_set_self hlt]
    · intro j p b hj hp hb hpb
      rcases get_append_one hp with hp | ⟨hj', _⟩
      · rcases get_set hp with ⟨hne, hp⟩ | ⟨_, hp⟩
        · unfold unique at hu
          simp only at hb
          rw [hb] at hu
          exact hne (unique_sole (of_decide_eq_true hu) hp hr hpb hb)
        · subst hp; cases hpb
      · simp at hj'; exact hj hj'
  · rw [if_neg hu]
    refine ⟨_, _, rfl, by simp [allocVar, clearVar]; rfl, rfl, ?_, ?_, ?_⟩
    · simp only [data, allocVar, clearVar]
      cases hb : r.buf with
      | none => simp
      | some b =>
        obtain ⟨vs, h1, h2⟩ := hi.whole h r b hr hb
        simp [h1, ← h2]
    · simp only [allocVar, clearVar]
      rw [List.getElem?_append_left (by simpa using hlt), List.getElem?_set_self hlt]
    · intro j p b hj hp hb hpb
      simp only [allocVar, clearVar] at hp hb
      injection hb with hb
      rcases get_append_one hp with hp | ⟨hj', _⟩
      · rcases get_set hp with ⟨_, hp⟩ | ⟨_, hp⟩
        · have := buf_lt hi hp hpb; omega
        · subst hp; cases hpb
      · simp at hj'; exact hj hj'

/-- at() below the size gives the element; above the size it throws. -/
theorem C49_at_partial (ops : List Op) (h : Nat) (r : Ref) (hr : (run {} ops).vars[h]? = some r) (i : Nat) :
    (data (run {} ops) r).length = r.count ∧
    (i < r.count → ∃ e, (data (run {} ops) r)[i]? = some e ∧ at? (run {} ops) r i = .ok e) ∧
    (r.count < i → at? (run {} ops) r i = .throws "out_of_range") := by
  have hi := inv_run inv_new ops
  generalize run {} ops = s at *
  have hlen : (data s r).length = r.count := by
    unfold data
    cases hb : r.buf with
    | none => exact (hi.empty h r hr hb).symm
    | some b =>
      obtain ⟨vs, h1, h2⟩ := hi.whole h r b hr hb
      simp [h1, h2]
  refine ⟨hlen, fun hlt => ?_, fun hgt => by rw [at?, if_pos hgt]⟩
  have hlt' : i < (data s r).length := by omega
  refine ⟨(data s r)[i], List.getElem?_eq_getElem hlt', ?_⟩
  unfold at?
  rw [if_neg (by omega), List.getElem?_eq_getElem hlt']

/-- at(size()) reads beyond the array instead of throwing, for every array: the check is off by one. -/
theorem C49_at_end (ops : List Op) (h : Nat) (r : Ref) (hr : (run {} ops).vars[h]? = some r) : at? (run {} ops) r r.count = .ub := by
  have hl := (C49_at_partial ops h r hr r.count).1
  unfold at?
  rw [if_neg (by omega), List.getElem?_eq_none (by omega)]

/-- resize() keeps what fits, in an array of its own. -/
theorem C49_resize (ops : List Op) (h n : Nat) (r : Ref) (hr : (run {} ops).vars[h]? = some r) (hc : r.const = false) :
    ∃ (s' : Heap) (q : Ref), step (run {} ops) (.resize h n) = some s' ∧ s'.vars[h]? = some q ∧ q.count = n ∧ (data s' q).length = n ∧
      (∀ i, i < n → i < r.count → (data s' q)[i]? = (data (run {} ops) r)[i]?) ∧
      ∀ (j : Nat) (p : Ref) (b : Nat), j ≠ h → s'.vars[j]? = some p → q.buf = some b → p.buf ≠ some b := by
  have hi := inv_run inv_new ops
  have hlen := (C49_at_partial ops h r hr 0).1
  generalize run {} ops = s at *
  have hlt : h < s.vars.length := by
    rcases Nat.lt_or_ge h s.vars.length with h2 | h2
    · exact h2
    · rw [List.getElem?_eq_none h2] at hr; cases hr
  simp only [step, hr, hc, Bool.false_eq_true, if_false]
  split
  · refine ⟨_, _, rfl, List.getElem?_set_self hlt, rfl, ?_, ?_, ?_⟩
    · simp [data]; omega
    · intro i h1 h2
      simp only [data, List.getElem?_concat_length, Option.getD_some]
      rw [List.getElem?_append_left (by rw [List.length_take]; unfold data at hlen; omega), List.getElem?_take]
      simp [h1]
    · intro j p b hj hp hb hpb
      injection hb with hb
      rcases get_set hp with ⟨_, hp⟩ | ⟨hjh, _⟩
      · have := buf_lt hi hp hpb; omega
      · exact hj hjh
  · rename_i hn
    simp at hn
    refine ⟨s, r, rfl, hr, hn.2.symm, by omega, fun _ _ _ => rfl, ?_⟩
    intro j p b hj hp hb hpb
    have hu := hn.1
    unfold unique at hu
    rw [hb] at hu
    exact hj (unique_sole (of_decide_eq_true hu) hp hr hpb hb)

/-- An array is frozen, shared, thawed and written: the other reference keeps its content. -/
example : let s := run {} [.alloc false [some 1, some 2], .freeze 0, .copy 1, .thaw 2, .write 3 0 9]
    s.vars[1]? = some { buf := some 0, count := 2, const := true } ∧ data s { buf := some 0, count := 2, const := true } = [some 1, some 2] ∧
    data s { buf := some 1, count := 2, const := false } = [some 9, some 2] := by decide

/-- A shared array can not be frozen. -/
example : step (run {} [.alloc false [some 1], .copy 0]) (.freeze 0) = none := by decide

end Pvxs.Props.Arr
