import Verif.Lemmas.ValueMore
import Verif.Spec.ValueOps
namespace Pvxs
open Wire Spec

/-! ### obtained types are tables of definitions -/

theorem setParent_zero (m : Member) : setParent 0 (flat m) = flat m := by
  obtain ⟨d, ds, h, _, hp, _⟩ := flat_head m
  rw [h]
  cases d
  simp only at hp; subst hp
  rfl

theorem asRoot_setParent (n : Nat) (m : Member) : asRoot (setParent n (flat m)) = flat m := by
  obtain ⟨d, ds, h, _, hp, _⟩ := flat_head m
  rw [h]
  cases d
  simp only at hp; subst hp
  rfl

theorem nodesOf_flat_append (m : Member) (hf : Full m) (n : Nat) (q : List FieldDesc) :
    nodesOf (setParent n (flat m) ++ q) = setParent n (flat m) := by
  obtain ⟨d, ds, h1, h2, _⟩ := root_size m hf
  rw [h1]
  show ((_ :: ds) ++ q).take d.size = _ :: ds
  have : d.size = (({ d with parentIndex := n } : FieldDesc) :: ds).length := by
    rw [h2, ← flat_length m, h1]; rfl
  rw [this, List.take_left]

theorem nodesOf_flat (m : Member) (hf : Full m) : nodesOf (flat m) = flat m := by
  have := nodesOf_flat_append m hf 0 []
  rwa [setParent_zero, List.append_nil] at this

/-- every sub-table of the table of a definition is the table of a part of the definition -/
theorem sub_flat (m : Member) : Full m → ∀ i, i < count m →
    ∃ m' n, Full m' ∧ (∀ q, nodesOf ((flat m).drop i ++ q) = setParent n (flat m')) := by
  induction m using Member.ind with
  | h m ih =>
    intro hf i hi
    cases i with
    | zero => exact ⟨m, 0, hf, fun q => by rw [List.drop_zero]; have := nodesOf_flat_append m hf 0 q; rwa [setParent_zero] at this ⊢⟩
    | succ i =>
      by_cases hs : m.code = .Struct
      · rw [count_struct m hs] at hi
        obtain ⟨o, c, hk, h1, h2⟩ := flatKids_node (off := 1) (show i < countKids m.children by omega)
        obtain ⟨p, r, h3, h4⟩ := hk.flat true
        have hfc : Full c := (hf.entries hs).2.2 c hk.mem
        have hdrop : (flat m).drop (i+1) = (setParent o (flat c)).drop (i + 1 - o) ++ r := by
          rw [flat_struct m hs, List.drop_succ_cons, h3]
          simp only [if_true]
          have : i = p.length + (i + 1 - o) := by omega
          rw [List.append_assoc]
          have h5 : ∀ k, List.drop (p.length + k) (p ++ (setParent o (flat c) ++ r)) = (setParent o (flat c) ++ r).drop k := by
            intro k; rw [← List.drop_drop, List.drop_left]
          have h6 : List.drop i (p ++ (setParent o (flat c) ++ r)) = (setParent o (flat c) ++ r).drop (i + 1 - o) := by
            rw [← h5, ← this]
          rw [h6, List.drop_append_of_le_length]
          rw [setParent_length, flat_length]; omega
        by_cases hz : i + 1 - o = 0
        · refine ⟨c, o, hfc, fun q => ?_⟩
          rw [hdrop, hz, List.drop_zero, List.append_assoc]
          exact nodesOf_flat_append c hfc o _
        · obtain ⟨m', n, hm', hn⟩ := ih c hk.mem hfc (i + 1 - o) (by omega)
          refine ⟨m', n, hm', fun q => ?_⟩
          rw [hdrop, List.append_assoc, ← hn (r ++ q)]
          congr 2
          obtain ⟨d, ds, hd, _⟩ := flat_head c
          rw [hd]
          obtain ⟨k, hk'⟩ : ∃ k, i + 1 - o = k + 1 := ⟨i - o, by omega⟩
          rw [hk']
          rfl
      · rw [count_other m hs] at hi; omega

/-- every node is the root of the table of some definition -/
theorem node_of (m : Member) : ∀ d ∈ flat m, ∃ c d0 ds n, flat c = d0 :: ds ∧ d = { d0 with parentIndex := n } := by
  induction m using Member.ind with
  | h m ih =>
    intro d hd
    obtain ⟨r, rs, h1, _⟩ := flat_head m
    by_cases hs : m.code = .Struct
    · have h2 := flat_struct m hs
      rw [h2] at hd
      rcases List.mem_cons.mp hd with h | h
      · rw [h2] at h1
        cases h1
        exact ⟨m, structRoot m, _, (structRoot m).parentIndex, h2, by rw [h]; rfl⟩
      · obtain ⟨i, hi, hg⟩ := List.getElem_of_mem h
        obtain ⟨o, c, hk, h3, h4⟩ := flatKids_node (off := 1) (show i < countKids m.children by rw [← flatKids_length true 1]; exact hi)
        have he := embeds_kid hk (structRoot m)
        have hjc : i + 1 - o < (flat c).length := by rw [flat_length]; omega
        obtain ⟨n, hn⟩ := he.get (i + 1 - o) _ (List.getElem?_eq_getElem hjc)
        have hx : (structRoot m :: flatKids true 1 m.children)[o + (i + 1 - o)]? = some d := by
          rw [show o + (i + 1 - o) = i + 1 by omega, List.getElem?_cons_succ, List.getElem?_eq_getElem hi, hg]
        rw [hn] at hx
        obtain ⟨c', d0, ds, n', e1, e2⟩ := ih c hk.mem _ (List.getElem_mem hjc)
        refine ⟨c', d0, ds, n, e1, ?_⟩
        cases hx
        rw [e2]
    · obtain ⟨d', h2, _⟩ := flat_other m hs
      rw [h2] at hd
      simp only [List.mem_singleton] at hd
      subst hd
      exact ⟨m, d, [], d.parentIndex, h2, by cases d; rfl⟩

theorem flat_elem {c : Member} {d : FieldDesc} {ds : List FieldDesc} (h : flat c = d :: ds) (ha : d.code = .StructA ∨ d.code = .UnionA) :
    ∃ m, d.members = flat m := by
  obtain ⟨code, name, id, ch⟩ := c
  obtain ⟨d', ds', h1, h2, _⟩ := flat_head ⟨code, name, id, ch⟩
  rw [h] at h1
  cases h1
  simp only at h2
  rw [h2] at ha
  simp only [flat] at h
  rw [if_pos ha] at h
  cases h
  refine ⟨⟨code.scalarOf, [], id, ch⟩, ?_⟩
  simp only [flat]
  rw [if_neg]
  rcases ha with ha | ha <;> subst ha <;> decide

theorem flat_union {c : Member} {d : FieldDesc} {ds : List FieldDesc} (h : flat c = d :: ds) (hu : d.code = .Union) :
    d = { code := .Union, id := c.id, mlookup := lookKids false [] 0 c.children, miter := kidIter 0 c.children, members := flatKids false 1 c.children } := by
  obtain ⟨code, name, id, ch⟩ := c
  obtain ⟨d', ds', h1, h2, _⟩ := flat_head ⟨code, name, id, ch⟩
  rw [h] at h1
  cases h1
  simp only at h2
  rw [h2] at hu
  subst hu
  simp only [flat, assemble] at h
  rw [if_neg (by decide), if_neg (by simp)] at h
  rw [show (TypeCode.Union == TypeCode.Struct) = false by decide] at h
  cases h
  rfl

/-- the members of a Union which start at a choice -/
theorem choice_drop {ch : List Member} {name : Str} {off : Nat} (h : (name, off) ∈ kidIter 0 ch) :
    ∃ c q, c ∈ ch ∧ c.name = name ∧ (flatKids false 1 ch).drop off = flat c ++ q := by
  obtain ⟨c, hkid, rfl⟩ := mem_kidIter.mp h
  obtain ⟨p, q, h7, h8⟩ := hkid.flat false
  have h9 : flatKids false 1 ch = p ++ flat c ++ q := by rw [flatKids_off 1 ch 0]; simpa using h7
  refine ⟨c, q, hkid.mem, rfl, ?_⟩
  rw [h9, List.append_assoc, show off = p.length by omega, List.drop_left]

theorem full_of_newValue' (m : Member) (q : List FieldDesc) (h : (newValue (flat m ++ q)).isOk = true) : Full m := by
  intro hs
  by_cases hne : m.children = []
  · rw [hne]
    have := lookOf_length_le m hs
    rw [hne] at this
    simp [countKids] at this
    simp [countKids, this]
  · obtain ⟨k, hk⟩ := last_entry m hs hne
    rw [flat_struct m hs] at h
    have hle := lookOf_length_le m hs
    have hc : checkNew (structRoot m :: (flatKids true 1 m.children ++ q)) = .ok () := by
      revert h
      simp only [newValue, List.cons_append]
      cases checkNew (structRoot m :: (flatKids true 1 m.children ++ q)) with
      | ok u => intro _; rfl
      | throws => intro h; cases h
      | ub => intro h; cases h
    simp only [checkNew] at hc
    obtain ⟨u, _, h2⟩ := Res.bind_eq_ok hc
    rw [if_pos (by rfl)] at h2
    have h3 := res_forM_ok h2 (k, countKids m.children) hk
    simp only [initNode] at h3
    split at h3
    · rename_i hlt
      rw [structRoot_size] at hlt
      omega
    · cases h3

theorem cacheOK_msgs : ∀ (msgs : List (Bool × List Byte)) (c : TypeStore), CacheOK c → CacheOK (afterMessages c msgs)
  | [], _, h => h
  | m :: ms, c, h => cacheOK_msgs ms _ (getType_sound 21 c _ h).1

theorem cacheOK_nil : CacheOK [] := by intro k t h; simp [TypeStore.find?] at h

theorem obtained_flat {t : List FieldDesc} (h : Obtained t) : ∃ m, t = flat m := by
  induction h with
  | built m t h => exact ⟨m, build_ok m t h⟩
  | decoded msgs i t ht ok hne =>
    rcases (getType_sound 21 _ i (cacheOK_msgs msgs [] cacheOK_nil)).2 ok with h | ⟨m, _, h⟩
    · exact absurd (ht.symm.trans h) hne
    · exact ⟨m, ht.symm.trans h⟩
  | field t i _ ok hi ih =>
    obtain ⟨m, rfl⟩ := ih
    obtain ⟨m', n, _, h2⟩ := sub_flat m (full_of_newValue m ok) i (by rwa [flat_length] at hi)
    refine ⟨m', ?_⟩
    have := h2 []
    rw [List.append_nil] at this
    rw [subTable, this, asRoot_setParent]
  | choice t d name off _ hd hu hc ok ih =>
    obtain ⟨m, rfl⟩ := ih
    obtain ⟨c, d0, ds, n, h1, h2⟩ := node_of m d hd
    subst h2
    have h3 := flat_union h1 hu
    subst h3
    obtain ⟨c', q, _, _, h4⟩ := choice_drop hc
    refine ⟨c', ?_⟩
    have ok : (newValue ((flatKids false 1 c.children).drop off)).isOk = true := ok
    show nodesOf ((flatKids false 1 c.children).drop off) = _
    rw [h4] at ok ⊢
    have := nodesOf_flat_append c' (full_of_newValue' c' q ok) 0 q
    rwa [setParent_zero] at this
  | elem t d _ hd ha ih =>
    obtain ⟨m, rfl⟩ := ih
    obtain ⟨c, d0, ds, n, h1, h2⟩ := node_of m d hd
    subst h2
    obtain ⟨m', h3⟩ := flat_elem h1 ha
    exact ⟨m', h3⟩

theorem usable_flat {t : List FieldDesc} (h : Usable t) : ∃ m, t = flat m ∧ Full m := by
  obtain ⟨m, rfl⟩ := obtained_flat h.1
  exact ⟨m, rfl, full_of_newValue m h.2⟩

/-! ### sub-trees and parents -/

theorem Within.refl' {t : List FieldDesc} {i : Nat} (h : i < t.length) : Within t i i :=
  ⟨t[i], List.getElem?_eq_getElem h, Nat.le_refl _, by have := size_pos t[i]; omega⟩

theorem within_trans {m : Member} (hf : Full m) {a b c : Nat} (h1 : Within (flat m) a b) (h2 : Within (flat m) b c) : Within (flat m) a c := by
  obtain ⟨d, hd, h3, h4⟩ := h1
  obtain ⟨e, he, h5, h6⟩ := h2
  have := laminar_flat m hf a d hd b e h3 h4 he
  exact ⟨d, hd, by omega, by omega⟩

theorem within_antisymm {t : List FieldDesc} {a b : Nat} (h1 : Within t a b) (h2 : Within t b a) : a = b := by
  obtain ⟨_, _, _, _⟩ := h1
  obtain ⟨_, _, _, _⟩ := h2
  omega

theorem kidAt_cons {off : Nat} {m : Member} {ms : List Member} {o : Nat} {c : Member} :
    KidAt off (m :: ms) o c ↔ (o = off ∧ c = m) ∨ KidAt (off + count m) ms o c := by
  constructor
  · rintro ⟨pre, post, h1, h2⟩
    cases pre with
    | nil => cases h1; exact Or.inl ⟨by simpa [countKids] using h2, rfl⟩
    | cons p pre => cases h1; exact Or.inr ⟨pre, post, rfl, by rw [h2]; simp [countKids]; omega⟩
  · rintro (⟨rfl, rfl⟩ | ⟨pre, post, rfl, rfl⟩)
    · exact ⟨[], ms, rfl, by simp [countKids]⟩
    · exact ⟨m :: pre, post, rfl, by simp [countKids]; omega⟩

theorem kidAt_disjoint {ms : List Member} : ∀ {off o o' : Nat} {c c' : Member}, KidAt off ms o c → KidAt off ms o' c' → o < o' →
    o + count c ≤ o' := by
  induction ms with
  | nil => intro off o o' c c' h; have := h.mem; simp at this
  | cons m ms ih =>
    intro off o o' c c' h h' hlt
    rcases kidAt_cons.mp h with ⟨rfl, rfl⟩ | h1
    · rcases kidAt_cons.mp h' with ⟨rfl, rfl⟩ | h2
      · omega
      · exact h2.bound.1
    · rcases kidAt_cons.mp h' with ⟨rfl, rfl⟩ | h2
      · have := h1.bound.1; have := count_pos c'; omega
      · exact ih h1 h2 hlt

theorem kidAt_unique {ms : List Member} : ∀ {off o : Nat} {c c' : Member}, KidAt off ms o c → KidAt off ms o c' → c = c' := by
  induction ms with
  | nil => intro off o c c' h; have := h.mem; simp at this
  | cons m ms ih =>
    intro off o c c' h h'
    rcases kidAt_cons.mp h with ⟨rfl, rfl⟩ | h1
    · rcases kidAt_cons.mp h' with ⟨_, rfl⟩ | h2
      · rfl
      · have := h2.bound.1; have := count_pos c; omega
    · rcases kidAt_cons.mp h' with ⟨rfl, rfl⟩ | h2
      · have := h1.bound.1; have := count_pos c'; omega
      · exact ih h1 h2

/-- the node `o+k` of a structure is node `k` of its member -/
theorem kid_node {m : Member} (hs : m.code = .Struct) {o : Nat} {c : Member} (hk : KidAt 1 m.children o c) (k : Nat) (hkc : k < count c) :
    ∃ x n, (flat c)[k]? = some x ∧ (flat m)[o + k]? = some { x with parentIndex := n } ∧ (0 < k → n = x.parentIndex) ∧ (k = 0 → n = o) := by
  have he := embeds_kid hk (structRoot m)
  rw [← flat_struct m hs] at he
  have hjc : k < (flat c).length := by rwa [flat_length]
  obtain ⟨n, hn⟩ := he.get k _ (List.getElem?_eq_getElem hjc)
  by_cases h0 : k = 0
  · subst h0
    obtain ⟨d, ds, h1, h2⟩ := kid_root hk (structRoot m)
    rw [← flat_struct m hs] at h2
    refine ⟨d, o, by rw [h1]; rfl, h2, by omega, fun _ => rfl⟩
  · refine ⟨_, _, List.getElem?_eq_getElem hjc, ?_, fun _ => rfl, fun h => absurd h h0⟩
    have := he.keep k _ (by omega) (List.getElem?_eq_getElem hjc)
    rw [this]
    cases (flat c)[k]; rfl

theorem size_parent (x : FieldDesc) (n : Nat) : ({ x with parentIndex := n } : FieldDesc).size = x.size := rfl

/-- the sub-tree at the node `o+k` is that of node `k` of the member -/
theorem within_kid {m : Member} (hf : Full m) (hs : m.code = .Struct) {o : Nat} {c : Member} (hk : KidAt 1 m.children o c) (k : Nat)
    (hkc : k < count c) (b : Nat) :
    Within (flat m) b (o + k) ↔ b = 0 ∨ ∃ k', b = o + k' ∧ Within (flat c) k' k := by
  have hfc : ∀ c ∈ m.children, Full c := (hf.entries hs).2.2
  have hb0 := hk.bound
  constructor
  · rintro ⟨d, hd, h1, h2⟩
    by_cases hb : b = 0
    · exact Or.inl hb
    · have hbl := (List.getElem?_eq_some_iff.mp hd).1
      rw [flat_length, count_struct m hs] at hbl
      obtain ⟨o', c', hk', h3, h4⟩ := flatKids_node (off := 1) (show b - 1 < countKids m.children by omega)
      obtain ⟨k', hk''⟩ : ∃ k', b = o' + k' := ⟨b - o', by omega⟩
      subst hk''
      have hkc' : k' < count c' := by omega
      obtain ⟨x, n, hx1, hx2, _⟩ := kid_node hs hk' k' hkc'
      rw [hx2] at hd; cases hd
      rw [size_parent] at h2
      have hin := (nodeOK_flat c' (hfc c' hk'.mem) k' x hx1).inside
      rw [flat_length] at hin
      rcases Nat.lt_trichotomy o o' with h | h | h
      · have := kidAt_disjoint hk hk' h; omega
      · subst h
        have := kidAt_unique hk hk'
        subst this
        exact Or.inr ⟨k', rfl, x, hx1, by omega, by omega⟩
      · have := kidAt_disjoint hk' hk h; omega
  · rintro (rfl | ⟨k', rfl, x, hx, h1, h2⟩)
    · obtain ⟨r, rs, h1, h2, _⟩ := root_size m hf
      exact ⟨r, by rw [h1]; rfl, by omega, by rw [h2, count_struct m hs]; omega⟩
    · obtain ⟨x', n, hx1, hx2, _⟩ := kid_node hs hk k' (by omega)
      rw [hx] at hx1; cases hx1
      exact ⟨_, hx2, by omega, by rw [size_parent]; omega⟩

theorem within_zero {t : List FieldDesc} (h : t ≠ []) {b : Nat} : Within t b 0 ↔ b = 0 := by
  constructor
  · rintro ⟨d, hd, h1, h2⟩; omega
  · rintro rfl
    exact Within.refl' (List.length_pos_iff.mpr h)

/-- the parent of a node contains it, and everything else that contains it contains the parent -/
theorem parent_within (m : Member) : Full m → ∀ (i : Nat) (d : FieldDesc), 0 < i → (flat m)[i]? = some d →
    0 < d.parentIndex ∧ d.parentIndex ≤ i ∧ ∀ b, (Within (flat m) b i ∧ b ≠ i) ↔ Within (flat m) b (i - d.parentIndex) := by
  induction m using Member.ind with
  | h m ih =>
    intro hf i d hi hd
    have hl := (List.getElem?_eq_some_iff.mp hd).1
    rw [flat_length] at hl
    by_cases hs : m.code = .Struct
    · rw [count_struct m hs] at hl
      obtain ⟨o, c, hk, h3, h4⟩ := flatKids_node (off := 1) (show i - 1 < countKids m.children by omega)
      obtain ⟨k, hk'⟩ : ∃ k, i = o + k := ⟨i - o, by omega⟩
      subst hk'
      have hkc : k < count c := by omega
      have hb0 := hk.bound
      obtain ⟨x, n, hx1, hx2, hx3, hx4⟩ := kid_node hs hk k hkc
      rw [hx2] at hd; cases hd
      by_cases h0 : k = 0
      · subst h0
        rw [hx4 rfl]
        refine ⟨by show 0 < o; omega, by show o ≤ _; omega, fun b => ?_⟩
        show _ ↔ Within (flat m) b (o + 0 - o)
        rw [within_kid hf hs hk 0 hkc, show o + 0 - o = 0 by omega, within_zero (flat_ne_nil m)]
        constructor
        · rintro ⟨h | ⟨k', rfl, h⟩, hne⟩
          · exact h
          · rw [within_zero (flat_ne_nil c)] at h
            omega
        · rintro rfl
          exact ⟨Or.inl rfl, by omega⟩
      · rw [hx3 (by omega)]
        obtain ⟨h5, h6, h7⟩ := ih c hk.mem ((hf.entries hs).2.2 c hk.mem) k x (by omega) hx1
        refine ⟨h5, by show x.parentIndex ≤ _; omega, fun b => ?_⟩
        show _ ↔ Within (flat m) b (o + k - x.parentIndex)
        rw [show o + k - x.parentIndex = o + (k - x.parentIndex) by omega, within_kid hf hs hk k hkc,
          within_kid hf hs hk _ (by omega)]
        constructor
        · rintro ⟨h | ⟨k', rfl, h⟩, hne⟩
          · exact Or.inl h
          · exact Or.inr ⟨k', rfl, (h7 k').mp ⟨h, by omega⟩⟩
        · rintro (rfl | ⟨k', rfl, h⟩)
          · exact ⟨Or.inl rfl, by omega⟩
          · have := (h7 k').mpr h
            exact ⟨Or.inr ⟨k', rfl, this.1⟩, by omega⟩
    · rw [count_other m hs] at hl; omega

/-- the loop over parents visits exactly the enclosing structures -/
theorem ancestors_spec {m : Member} (hf : Full m) : ∀ (f i : Nat), i ≤ f → i < (flat m).length →
    ∃ l, ancestors (flat m) f i = some l ∧ ∀ b, b ∈ l ↔ (Within (flat m) b i ∧ b ≠ i) := by
  intro f
  induction f with
  | zero =>
    intro i hi hl
    have : i = 0 := by omega
    subst this
    refine ⟨[], rfl, fun b => ?_⟩
    rw [within_zero (flat_ne_nil m)]
    simp
  | succ f ih =>
    intro i hi hl
    cases i with
    | zero =>
      refine ⟨[], rfl, fun b => ?_⟩
      rw [within_zero (flat_ne_nil m)]
      simp
    | succ i =>
      have hd := List.getElem?_eq_getElem hl
      obtain ⟨h1, h2, h3⟩ := parent_within m hf (i+1) _ (by omega) hd
      obtain ⟨l, h4, h5⟩ := ih (i + 1 - ((flat m)[i+1]).parentIndex) (by omega) (by omega)
      refine ⟨(i + 1 - ((flat m)[i+1]).parentIndex) :: l, ?_, fun b => ?_⟩
      · simp only [ancestors, hd]
        rw [if_neg (by omega), h4]
        rfl
      · rw [h3, List.mem_cons, h5]
        constructor
        · rintro (rfl | h)
          · exact Within.refl' (by omega)
          · exact h.1
        · intro h
          by_cases hb : b = i + 1 - ((flat m)[i+1]).parentIndex
          · exact Or.inl hb
          · exact Or.inr ⟨h, hb⟩

theorem mem_subNodes {t : List FieldDesc} {i j : Nat} : j ∈ subNodes t i ↔ Within t i j := by
  unfold subNodes Within
  cases h : t[i]? with
  | none => simp
  | some d =>
    simp only [List.mem_map, List.mem_range, Option.some.injEq, exists_eq_left']
    constructor
    · rintro ⟨k, hk, rfl⟩; omega
    · rintro ⟨h1, h2⟩; exact ⟨j - i, by omega, by omega⟩

end Pvxs
