import Verif.Lemmas.ValueOps
namespace Pvxs
open Wire Spec

theorem foldl_set_get (js : List Nat) (b : Bool) : ∀ (v : List Bool) (k : Nat),
    (js.foldl (fun v j => v.set j b) v)[k]? = if k ∈ js ∧ k < v.length then some b else v[k]? := by
  induction js with
  | nil => intro v k; simp
  | cons j js ih =>
    intro v k
    rw [List.foldl_cons, ih, List.length_set, List.getElem?_set]
    by_cases hk : k < v.length
    · by_cases h1 : k ∈ js
      · simp [h1, hk]
      · by_cases h2 : j = k
        · subst h2; simp [h1, hk]
        · simp [h1, h2, Ne.symm h2]
    · by_cases h2 : j = k
      · subst h2; simp [hk]
      · simp [hk, h2]

theorem foldl_set_length (js : List Nat) (b : Bool) : ∀ (v : List Bool), (js.foldl (fun v j => v.set j b) v).length = v.length := by
  induction js with
  | nil => intro v; rfl
  | cons j js ih => intro v; rw [List.foldl_cons, ih, List.length_set]

theorem setMarks_get (x : Top) (js : List Nat) (b : Bool) (k : Nat) :
    (setMarks x js b).valid[k]? = if k ∈ js ∧ k < x.valid.length then some b else x.valid[k]? := foldl_set_get js b x.valid k

/-- nothing but marks differs -/
def Frame (h h' : Heap) : Prop :=
  h.length = h'.length ∧ ∀ (i : Nat) (x : Top), h[i]? = some x → ∃ x', h'[i]? = some x' ∧ x'.desc = x.desc ∧ x'.enclosing = x.enclosing ∧
    x'.alive = x.alive ∧ x'.valid.length = x.valid.length

theorem Frame.refl (h : Heap) : Frame h h := ⟨rfl, fun _ x hx => ⟨x, hx, rfl, rfl, rfl, rfl⟩⟩

theorem Frame.trans {a b c : Heap} (h1 : Frame a b) (h2 : Frame b c) : Frame a c := by
  refine ⟨h1.1.trans h2.1, fun i x hx => ?_⟩
  obtain ⟨y, hy, e1, e2, e3, e4⟩ := h1.2 i x hx
  obtain ⟨z, hz, g1, g2, g3, g4⟩ := h2.2 i y hy
  exact ⟨z, hz, g1.trans e1, g2.trans e2, g3.trans e3, g4.trans e4⟩

theorem frame_set {h : Heap} {i : Nat} {y : Top} (hy : h[i]? = some y) (js : List Nat) (b : Bool) :
    Frame h (h.set i (setMarks y js b)) := by
  refine ⟨by simp, fun k x hx => ?_⟩
  have hil := (List.getElem?_eq_some_iff.mp hy).1
  by_cases hk : i = k
  · subst hk
    rw [hy] at hx; cases hx
    refine ⟨_, List.getElem?_set_self hil, rfl, rfl, rfl, foldl_set_length _ _ _⟩
  · exact ⟨x, by rw [List.getElem?_set_ne hk]; exact hx, rfl, rfl, rfl, rfl⟩

theorem Frame.back {h h' : Heap} (hf : Frame h h') {i : Nat} {x' : Top} (hx : h'[i]? = some x') :
    ∃ x, h[i]? = some x ∧ x'.desc = x.desc ∧ x'.enclosing = x.enclosing ∧ x'.alive = x.alive ∧ x'.valid.length = x.valid.length := by
  have hl := (List.getElem?_eq_some_iff.mp hx).1
  rw [← hf.1] at hl
  obtain ⟨y, hy, e⟩ := hf.2 i _ (List.getElem?_eq_getElem hl)
  rw [hx] at hy; cases hy
  exact ⟨_, List.getElem?_eq_getElem hl, e⟩

theorem inside_frame {h h' : Heap} (hf : Frame h h') {f g : Field} (hi : InsideOf h f g) : InsideOf h' f g := by
  induction hi with
  | one f g x y hx he hy ha =>
    obtain ⟨x', hx', _, e2, _, _⟩ := hf.2 _ _ hx
    obtain ⟨y', hy', _, _, g3, _⟩ := hf.2 _ _ hy
    exact .one f g x' y' hx' (e2.trans he) hy' (g3.trans ha)
  | more f g g' _ _ ih1 ih2 => exact .more f g g' ih1 ih2

theorem Frame.symm {h h' : Heap} (hf : Frame h h') : Frame h' h := by
  refine ⟨hf.1.symm, fun i x hx => ?_⟩
  obtain ⟨y, hy, e1, e2, e3, e4⟩ := hf.back hx
  exact ⟨y, hy, e1.symm, e2.symm, e3.symm, e4.symm⟩

theorem inside_frame_iff {h h' : Heap} (hf : Frame h h') {f g : Field} : InsideOf h f g ↔ InsideOf h' f g :=
  ⟨inside_frame hf, inside_frame hf.symm⟩

theorem inside_iff {h : Heap} {f g : Field} : InsideOf h f g ↔ ∃ x y i j, h[f.top]? = some x ∧ x.enclosing = some (i, j) ∧
    h[i]? = some y ∧ y.alive = true ∧ (g = ⟨i, j⟩ ∨ InsideOf h ⟨i, j⟩ g) := by
  constructor
  · intro hi
    induction hi with
    | one f g x y hx he hy ha => exact ⟨x, y, g.top, g.pos, hx, he, hy, ha, Or.inl rfl⟩
    | more f g g' _ h2 ih1 _ =>
      obtain ⟨x, y, i, j, e1, e2, e3, e4, e5⟩ := ih1
      refine ⟨x, y, i, j, e1, e2, e3, e4, Or.inr ?_⟩
      rcases e5 with rfl | e5
      · exact h2
      · exact .more _ _ _ e5 h2
  · rintro ⟨x, y, i, j, e1, e2, e3, e4, rfl | e5⟩
    · exact .one _ _ x y e1 e2 e3 e4
    · exact .more _ ⟨i, j⟩ _ (.one _ _ x y e1 e2 e3 e4) e5

/-- invariant of the heap -/
structure HeapOK (h : Heap) : Prop where
  usable : ∀ (i : Nat) x, h[i]? = some x → Usable x.desc
  len : ∀ (i : Nat) x, h[i]? = some x → x.valid.length = x.desc.length
  enc : ∀ (i : Nat) x, h[i]? = some x → ∀ i' j', x.enclosing = some (i', j') → i' < i ∧ ∃ y, h[i']? = some y ∧ j' < y.desc.length

theorem HeapOK.frame {h h' : Heap} (ok : HeapOK h) (hf : Frame h h') : HeapOK h' := by
  refine ⟨fun i x hx => ?_, fun i x hx => ?_, fun i x hx i' j' he => ?_⟩
  · obtain ⟨y, hy, e1, _⟩ := hf.back hx
    rw [e1]; exact ok.usable i y hy
  · obtain ⟨y, hy, e1, _, _, e4⟩ := hf.back hx
    rw [e4, e1]; exact ok.len i y hy
  · obtain ⟨y, hy, _, e2, _⟩ := hf.back hx
    rw [e2] at he
    obtain ⟨h1, z, hz, h2⟩ := ok.enc i y hy i' j' he
    obtain ⟨z', hz', g1, _⟩ := hf.2 i' z hz
    exact ⟨h1, z', hz', by rw [g1]; exact h2⟩

theorem marked_set {h : Heap} {i : Nat} {y : Top} (hy : h[i]? = some y) (js : List Nat) (b : Bool) (f : Field) :
    Marked (h.set i (setMarks y js b)) f ↔
      if f.top = i ∧ f.pos ∈ js then b = true ∧ f.pos < y.valid.length else Marked h f := by
  have hil := (List.getElem?_eq_some_iff.mp hy).1
  unfold Marked
  by_cases hk : i = f.top
  · subst hk
    rw [List.getElem?_set_self hil]
    simp only [Option.some.injEq, exists_eq_left', setMarks_get, hy, true_and]
    by_cases h1 : f.pos ∈ js
    · by_cases h2 : f.pos < y.valid.length
      · simp [h1, h2]
      · simp [h1, h2]
    · simp [h1]
  · rw [List.getElem?_set_ne hk, if_neg (fun h => hk h.1.symm)]

theorem markOuter_spec : ∀ (n : Nat) (h : Heap) (i j : Nat), HeapOK h → i < n →
    Frame h (markOuter n h i) ∧ ∀ f, Marked (markOuter n h i) f ↔ Marked h f ∨ InsideOf h ⟨i, j⟩ f := by
  intro n
  induction n with
  | zero => intro h i j _ hi; omega
  | succ n ih =>
    intro h i j ok hi
    have stop : (∀ f, ¬ InsideOf h ⟨i, j⟩ f) → Frame h h ∧ ∀ f, Marked h f ↔ Marked h f ∨ InsideOf h ⟨i, j⟩ f :=
      fun hn => ⟨Frame.refl h, fun f => ⟨Or.inl, fun hh => hh.resolve_right (hn f)⟩⟩
    simp only [markOuter]
    cases hx : h[i]? with
    | none =>
      refine stop fun f hi => ?_
      obtain ⟨x, _, _, _, e1, _⟩ := inside_iff.mp hi
      rw [hx] at e1; cases e1
    | some x =>
      simp only
      cases he : x.enclosing with
      | none =>
        refine stop fun f hi => ?_
        obtain ⟨x', _, _, _, e1, e2, _⟩ := inside_iff.mp hi
        simp only [hx, Option.some.injEq] at e1; subst e1
        rw [he] at e2; cases e2
      | some ij =>
        obtain ⟨i', j'⟩ := ij
        obtain ⟨hlt, y, hy, hj⟩ := ok.enc i x hx i' j' he
        simp only [hy]
        by_cases ha : y.alive = true
        · rw [if_pos ha]
          have hfr := frame_set hy [j'] true
          obtain ⟨f1, f2⟩ := ih (h.set i' (setMarks y [j'] true)) i' j' (ok.frame hfr) (by omega)
          refine ⟨hfr.trans f1, fun f => ?_⟩
          rw [f2, marked_set hy]
          have hylen := ok.len i' y hy
          rw [← inside_frame_iff hfr]
          have key : InsideOf h ⟨i, j⟩ f ↔ f = ⟨i', j'⟩ ∨ InsideOf h ⟨i', j'⟩ f := by
            rw [inside_iff]
            constructor
            · rintro ⟨x', y', a, b, e1, e2, e3, e4, e5⟩
              simp only [hx, Option.some.injEq] at e1; subst e1
              rw [he] at e2; cases e2
              exact e5
            · intro e5
              exact ⟨x, y, i', j', hx, he, hy, ha, e5⟩
          rw [key]
          by_cases hf : f = ⟨i', j'⟩
          · subst hf; simp; omega
          · have : ¬ (f.top = i' ∧ f.pos ∈ [j']) := by
              rintro ⟨h1, h2⟩
              simp only [List.mem_singleton] at h2
              exact hf (by cases f; simp_all)
            rw [if_neg this]; simp [hf]
        · rw [if_neg ha]
          refine stop fun f hi => ?_
          obtain ⟨x', y', _, _, e1, e2, e3, e4, _⟩ := inside_iff.mp hi
          simp only [hx, Option.some.injEq] at e1; subst e1
          rw [he] at e2; cases e2
          rw [hy] at e3; cases e3
          exact ha e4

theorem heapOK_step {h : Heap} (ok : HeapOK h) {op : MarkOp} (hl : Legal h op) : HeapOK (markStep h op) := by
  cases op with
  | build t enc =>
    obtain ⟨hu, he⟩ := hl
    have hget : ∀ (i : Nat) x, (h ++ [({ desc := t, valid := t.map fun _ => false, enclosing := enc.map fun f => (f.top, f.pos) } : Top)])[i]? = some x →
        h[i]? = some x ∨ (i = h.length ∧ x = { desc := t, valid := t.map fun _ => false, enclosing := enc.map fun f => (f.top, f.pos) }) := by
      intro i x hx
      rcases Nat.lt_trichotomy i h.length with h1 | h1 | h1
      · rw [List.getElem?_append_left h1] at hx; exact Or.inl hx
      · subst h1
        simp at hx
        exact Or.inr ⟨rfl, hx.symm⟩
      · rw [List.getElem?_append_right (by omega), List.getElem?_eq_none (by simp; omega)] at hx
        cases hx
    refine ⟨fun i x hx => ?_, fun i x hx => ?_, fun i x hx i' j' hen => ?_⟩
    · rcases hget i x hx with h1 | ⟨_, rfl⟩
      · exact ok.usable i x h1
      · exact hu
    · rcases hget i x hx with h1 | ⟨_, rfl⟩
      · exact ok.len i x h1
      · simp
    · rcases hget i x hx with h1 | ⟨rfl, rfl⟩
      · obtain ⟨h2, y, hy, h3⟩ := ok.enc i x h1 i' j' hen
        exact ⟨h2, y, by show (h ++ _)[i']? = _; rw [List.getElem?_append_left (List.getElem?_eq_some_iff.mp hy).1]; exact hy, h3⟩
      · cases enc with
        | none => cases hen
        | some f =>
          simp only [Option.map_some, Option.some.injEq, Prod.mk.injEq] at hen
          obtain ⟨rfl, rfl⟩ := hen
          obtain ⟨y, hy, _, h3⟩ := he f rfl
          have := (List.getElem?_eq_some_iff.mp hy).1
          exact ⟨this, y, by show (h ++ _)[f.top]? = _; rw [List.getElem?_append_left this]; exact hy, h3⟩
  | mark f v =>
    obtain ⟨x, hx, _, _⟩ := hl
    have hfr := frame_set hx [f.pos] v
    simp only [markStep, mark, hx]
    by_cases hv : v = true
    · rw [if_pos hv]
      exact (ok.frame hfr).frame (markOuter_spec _ _ _ 0 (ok.frame hfr) (List.getElem?_eq_some_iff.mp hx).1).1
    · rw [if_neg hv]; exact ok.frame hfr
  | unmark f p c =>
    obtain ⟨x, hx, _, _⟩ := hl
    simp only [markStep, unmark, hx]
    exact ok.frame (frame_set hx _ _)
  | drop i =>
    obtain ⟨x, hx, _⟩ := hl
    have hil := (List.getElem?_eq_some_iff.mp hx).1
    simp only [markStep, hx]
    have hget : ∀ (k : Nat) y, (h.set i { x with alive := false })[k]? = some y → ∃ z, h[k]? = some z ∧ z.desc = y.desc ∧ z.valid = y.valid ∧ z.enclosing = y.enclosing := by
      intro k y hy
      by_cases hk : i = k
      · subst hk
        rw [List.getElem?_set_self hil] at hy; cases hy
        exact ⟨x, hx, rfl, rfl, rfl⟩
      · rw [List.getElem?_set_ne hk] at hy
        exact ⟨y, hy, rfl, rfl, rfl⟩
    refine ⟨fun k y hy => ?_, fun k y hy => ?_, fun k y hy i' j' hen => ?_⟩
    · obtain ⟨z, hz, e, _, _⟩ := hget k y hy
      rw [← e]; exact ok.usable k z hz
    · obtain ⟨z, hz, e, e', _⟩ := hget k y hy
      rw [← e, ← e']; exact ok.len k z hz
    · obtain ⟨z, hz, _, _, e⟩ := hget k y hy
      obtain ⟨h1, w, hw, h2⟩ := ok.enc k z hz i' j' (e.trans hen)
      refine ⟨h1, ?_⟩
      by_cases hk : i = i'
      · subst hk
        rw [hx] at hw; cases hw
        exact ⟨_, List.getElem?_set_self hil, h2⟩
      · exact ⟨w, by rw [List.getElem?_set_ne hk]; exact hw, h2⟩

theorem below_iff {h : Heap} {f g : Field} {x : Top} (hx : h[f.top]? = some x) : Below h f g ↔ f.top = g.top ∧ Within x.desc f.pos g.pos := by
  constructor
  · rintro ⟨t, ⟨h1, y, hy, rfl⟩, h2⟩
    rw [hx] at hy; cases hy
    exact ⟨h1, h2⟩
  · rintro ⟨h1, h2⟩
    exact ⟨x.desc, ⟨h1, x, hx, rfl⟩, h2⟩

theorem unmark_nodes {h : Heap} (ok : HeapOK h) {g f : Field} {x : Top} (hx : h[g.top]? = some x) (hp : g.pos < x.desc.length) (p c : Bool) :
    (f.top = g.top ∧ f.pos ∈ g.pos :: ((if c then subNodes x.desc g.pos else []) ++
        (if p then (ancestors x.desc g.pos g.pos).getD [] else []))) ↔
      (f = g ∨ (c = true ∧ Below h g f) ∨ (p = true ∧ Below h f g)) := by
  obtain ⟨m, hm, hf⟩ := usable_flat (ok.usable _ _ hx)
  rw [hm] at hp
  obtain ⟨l, hl1, hl2⟩ := ancestors_spec hf g.pos g.pos (Nat.le_refl _) hp
  rw [← hm] at hl1 hl2 hp
  rw [below_iff hx, hl1]
  by_cases htop : f.top = g.top
  · rw [below_iff (htop ▸ hx)]
    simp only [htop, true_and, List.mem_cons, List.mem_append, Option.getD_some]
    have e1 : (f.pos ∈ if c = true then subNodes x.desc g.pos else []) ↔ (c = true ∧ Within x.desc g.pos f.pos) := by
      cases c <;> simp [mem_subNodes]
    have e2 : (f.pos ∈ if p = true then l else []) ↔ (p = true ∧ (Within x.desc f.pos g.pos ∧ f.pos ≠ g.pos)) := by
      cases p <;> simp [hl2]
    rw [e1, e2]
    have e3 : f = g ↔ f.pos = g.pos := by
      constructor
      · rintro rfl; rfl
      · intro h; cases f; cases g; simp_all
    rw [e3]
    constructor
    · rintro (h1 | h1 | ⟨h1, h2, h3⟩)
      · exact Or.inl h1
      · exact Or.inr (Or.inl h1)
      · exact Or.inr (Or.inr ⟨h1, h2⟩)
    · rintro (h1 | h1 | ⟨h1, h2⟩)
      · exact Or.inl h1
      · exact Or.inr (Or.inl h1)
      · by_cases h3 : f.pos = g.pos
        · exact Or.inl h3
        · exact Or.inr (Or.inr ⟨h1, h2, h3⟩)
  · constructor
    · rintro ⟨h1, _⟩; exact absurd h1 htop
    · rintro (rfl | ⟨_, h1, _⟩ | ⟨_, h1⟩)
      · exact absurd rfl htop
      · exact absurd h1.symm htop
      · obtain ⟨t, ⟨h2, _⟩, _⟩ := h1
        exact absurd h2 htop

/-- effect of one operation on the mark of one field -/
theorem mark_step {h : Heap} (ok : HeapOK h) {op : MarkOp} (hl : Legal h op) (f : Field) :
    Marked (markStep h op) f ↔ SetsMark h op f ∨ (Marked h f ∧ ¬ ClearsMark h op f) := by
  cases op with
  | build t enc =>
    have hs : ¬ SetsMark h (.build t enc) f := by rintro ⟨_, h, _⟩; cases h
    have hc : ¬ ClearsMark h (.build t enc) f := by rintro (h | ⟨_, _, _, h, _⟩) <;> cases h
    simp only [hs, hc, false_or, not_false_eq_true, and_true]
    unfold Marked markStep
    simp only
    constructor
    · rintro ⟨x, hx, hv⟩
      rcases Nat.lt_trichotomy f.top h.length with h1 | h1 | h1
      · rw [List.getElem?_append_left h1] at hx; exact ⟨x, hx, hv⟩
      · rw [h1] at hx
        simp at hx
        subst hx
        simp at hv
      · rw [List.getElem?_append_right (by omega), List.getElem?_eq_none (by simp; omega)] at hx
        cases hx
    · rintro ⟨x, hx, hv⟩
      exact ⟨x, by rw [List.getElem?_append_left (List.getElem?_eq_some_iff.mp hx).1]; exact hx, hv⟩
  | mark g v =>
    obtain ⟨x, hx, _, hp⟩ := hl
    have hlen := ok.len _ _ hx
    have hfr := frame_set hx [g.pos] v
    have heq : (f.top = g.top ∧ f.pos ∈ [g.pos]) ↔ f = g := by
      simp only [List.mem_singleton]
      constructor
      · rintro ⟨h1, h2⟩; cases f; cases g; simp_all
      · rintro rfl; exact ⟨rfl, rfl⟩
    simp only [markStep, mark, hx]
    cases v with
    | true =>
      rw [if_pos rfl]
      have hsp := (markOuter_spec _ _ g.top g.pos (ok.frame hfr) (List.getElem?_eq_some_iff.mp hx).1).2 f
      rw [hsp, marked_set hx, ← inside_frame_iff hfr]
      have hc : ¬ ClearsMark h (.mark g true) f := by rintro (h | ⟨_, _, _, h, _⟩) <;> cases h
      have hs : SetsMark h (.mark g true) f ↔ f = g ∨ InsideOf h g f := by
        constructor
        · rintro ⟨g', e, h⟩; cases e; exact h
        · intro h; exact ⟨g, rfl, h⟩
      simp only [hc, hs, not_false_eq_true, and_true, heq]
      by_cases hfg : f = g
      · subst hfg; simp; omega
      · simp only [hfg, if_false, false_or]
        exact Or.comm
    | false =>
      rw [if_neg (by simp), marked_set hx]
      have hs : ¬ SetsMark h (.mark g false) f := by rintro ⟨_, h, _⟩; cases h
      have hc : ClearsMark h (.mark g false) f ↔ f = g := by
        constructor
        · rintro (h | ⟨_, _, _, h, _⟩)
          · cases h; rfl
          · cases h
        · rintro rfl; exact Or.inl rfl
      simp only [hs, hc, false_or, heq]
      by_cases hfg : f = g
      · subst hfg; simp
      · simp [hfg]
  | unmark g p c =>
    obtain ⟨x, hx, _, hp⟩ := hl
    have hs : ¬ SetsMark h (.unmark g p c) f := by rintro ⟨_, h, _⟩; cases h
    have hc : ClearsMark h (.unmark g p c) f ↔ (f = g ∨ (c = true ∧ Below h g f) ∨ (p = true ∧ Below h f g)) := by
      constructor
      · rintro (h | ⟨g', p', c', h, h'⟩)
        · cases h
        · cases h; exact h'
      · intro h; exact Or.inr ⟨g, p, c, rfl, h⟩
    simp only [markStep, unmark, hx]
    rw [marked_set hx]
    have hn := unmark_nodes ok hx hp (f := f) p c
    by_cases hh : f = g ∨ (c = true ∧ Below h g f) ∨ (p = true ∧ Below h f g)
    · rw [if_pos (hn.mpr hh)]
      simp only [hs, hc, hh, false_or, not_true_eq_false, and_false]
      simp
    · rw [if_neg (fun h => hh (hn.mp h))]
      simp only [hs, hc, hh, false_or, not_false_eq_true, and_true]
  | drop i =>
    obtain ⟨x, hx, _⟩ := hl
    have hil := (List.getElem?_eq_some_iff.mp hx).1
    have hs : ¬ SetsMark h (.drop i) f := by rintro ⟨_, h, _⟩; cases h
    have hc : ¬ ClearsMark h (.drop i) f := by rintro (h | ⟨_, _, _, h, _⟩) <;> cases h
    simp only [hs, hc, false_or, not_false_eq_true, and_true, markStep, hx]
    unfold Marked
    by_cases hk : i = f.top
    · subst hk
      rw [List.getElem?_set_self hil, hx]
      simp
    · rw [List.getElem?_set_ne hk]

theorem heapOK_run {ops : List MarkOp} : ∀ {h : Heap}, HeapOK h → LegalRun h ops → HeapOK (markRun h ops) := by
  induction ops with
  | nil => intro h ok _; exact ok
  | cons op ops ih => intro h ok hl; exact ih (heapOK_step ok hl.1) hl.2

theorem heapOK_nil : HeapOK [] := ⟨by simp, by simp, by simp⟩

theorem mark_history {ops : List MarkOp} : ∀ {h : Heap}, HeapOK h → LegalRun h ops → ∀ f,
    Marked (markRun h ops) f ↔
      (Marked h f ∧ ∀ pre op post, ops = pre ++ op :: post → ¬ ClearsMark (markRun h pre) op f) ∨
      ∃ pre op post, ops = pre ++ op :: post ∧ SetsMark (markRun h pre) op f ∧
        ∀ mid op' post', post = mid ++ op' :: post' → ¬ ClearsMark (markRun h (pre ++ op :: mid)) op' f := by
  induction ops with
  | nil =>
    intro h _ _ f
    constructor
    · intro hm
      exact Or.inl ⟨hm, by intro pre op post e; simp at e⟩
    · rintro (h | ⟨pre, op, post, e, _⟩)
      · exact h.1
      · simp at e
  | cons op ops ih =>
    intro h ok hl f
    have hrun : ∀ l, markRun h (op :: l) = markRun (markStep h op) l := fun _ => rfl
    rw [hrun, ih (heapOK_step ok hl.1) hl.2 f, mark_step ok hl.1]
    constructor
    · rintro (⟨h1 | ⟨h1, h1'⟩, h2⟩ | ⟨pre, op', post, rfl, h3, h4⟩)
      · refine Or.inr ⟨[], op, ops, rfl, h1, fun mid op' post' e => ?_⟩
        rw [List.nil_append, hrun]
        exact h2 mid op' post' e
      · refine Or.inl ⟨h1, fun pre op' post e => ?_⟩
        cases pre with
        | nil => cases e; exact h1'
        | cons p pre =>
          cases e
          rw [hrun]
          exact h2 pre op' post rfl
      · refine Or.inr ⟨op :: pre, op', post, rfl, by rw [hrun]; exact h3, fun mid op'' post' e => ?_⟩
        rw [List.cons_append, hrun]
        exact h4 mid op'' post' e
    · rintro (⟨h1, h2⟩ | ⟨pre, op', post, e, h3, h4⟩)
      · refine Or.inl ⟨Or.inr ⟨h1, h2 [] op ops rfl⟩, fun pre op' post e => ?_⟩
        have := h2 (op :: pre) op' post (by rw [e]; rfl)
        rwa [hrun] at this
      · cases pre with
        | nil =>
          cases e
          refine Or.inl ⟨Or.inl h3, fun mid op' post' e => ?_⟩
          have := h4 mid op' post' e
          rwa [List.nil_append, hrun] at this
        | cons p pre =>
          cases e
          refine Or.inr ⟨pre, op', post, rfl, by rwa [hrun] at h3, fun mid op'' post' e => ?_⟩
          have := h4 mid op'' post' e
          rwa [List.cons_append, hrun] at this

theorem isMarked_spec {h : Heap} (ok : HeapOK h) {f : Field} (he : Exists h f) (p c : Bool) :
    ∃ b, isMarked h f p c = .ok b ∧
      (b = true ↔ Marked h f ∨ (c = true ∧ ∃ g, Below h f g ∧ Marked h g) ∨ (p = true ∧ ∃ g, Below h g f ∧ Marked h g)) := by
  obtain ⟨x, hx, _, hp⟩ := he
  obtain ⟨m, hm, hf⟩ := usable_flat (ok.usable _ _ hx)
  have hp' := hp
  rw [hm] at hp'
  obtain ⟨l, hl1, hl2⟩ := ancestors_spec hf f.pos f.pos (Nat.le_refl _) hp'
  rw [← hm] at hl1 hl2
  have hmk : ∀ j, Marked h ⟨f.top, j⟩ ↔ x.valid[j]? = some true := by
    intro j
    unfold Marked
    simp [hx]
  refine ⟨_, by simp only [isMarked, hx, hl1]; rfl, ?_⟩
  simp only [Bool.or_eq_true, Bool.and_eq_true, List.any_eq_true, beq_iff_eq, mem_subNodes]
  rw [hmk f.pos |>.symm]
  show (_ ∨ _) ∨ _ ↔ _
  have e1 : (∃ g, Below h f g ∧ Marked h g) ↔ ∃ j, Within x.desc f.pos j ∧ x.valid[j]? = some true := by
    constructor
    · rintro ⟨g, h1, h2⟩
      rw [below_iff hx] at h1
      obtain ⟨h1, h3⟩ := h1
      refine ⟨g.pos, h3, (hmk _).mp ?_⟩
      rw [h1]; exact h2
    · rintro ⟨j, h1, h2⟩
      exact ⟨⟨f.top, j⟩, (below_iff hx).mpr ⟨rfl, h1⟩, (hmk j).mpr h2⟩
  have e2 : (∃ g, Below h g f ∧ Marked h g) ↔ ∃ j, Within x.desc j f.pos ∧ x.valid[j]? = some true := by
    constructor
    · rintro ⟨g, h1, h2⟩
      have h1' := h1
      obtain ⟨t, ⟨h3, _⟩, _⟩ := h1'
      have hx' : h[g.top]? = some x := by rw [h3]; exact hx
      rw [below_iff hx'] at h1
      refine ⟨g.pos, h1.2, (hmk _).mp ?_⟩
      rw [← h3]; exact h2
    · rintro ⟨j, h1, h2⟩
      exact ⟨⟨f.top, j⟩, (below_iff (f := ⟨f.top, j⟩) hx).mpr ⟨rfl, h1⟩, (hmk j).mpr h2⟩
  rw [e1, e2, or_assoc]
  constructor
  · rintro (h1 | h1 | ⟨h1, j, h2, h3⟩)
    · exact Or.inl h1
    · exact Or.inr (Or.inl h1)
    · exact Or.inr (Or.inr ⟨h1, j, ((hl2 j).mp h2).1, h3⟩)
  · rintro (h1 | h1 | ⟨h1, j, h2, h3⟩)
    · exact Or.inl h1
    · exact Or.inr (Or.inl h1)
    · by_cases hj : j = f.pos
      · subst hj; exact Or.inl ((hmk _).mpr h3)
      · exact Or.inr (Or.inr ⟨h1, j, (hl2 j).mpr ⟨h2, hj⟩, h3⟩)

end Pvxs
