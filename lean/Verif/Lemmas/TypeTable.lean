import Verif.Lemmas.TypeDesc
import Verif.Lemmas.SMap
import Verif.Spec.TypeDesc
/-! Helper lemmas: descriptor tables are well formed. -/
namespace Pvxs
open Wire Spec

mutual
theorem Member.indAux {P : Member → Prop} (h : ∀ m, (∀ c ∈ m.children, P c) → P m) : ∀ m, P m
  | ⟨_, _, _, ch⟩ => h _ (Member.indAuxL h ch)
theorem Member.indAuxL {P : Member → Prop} (h : ∀ m, (∀ c ∈ m.children, P c) → P m) : ∀ ms : List Member, ∀ c ∈ ms, P c
  | [], _, hc => by simp at hc
  | m :: ms, c, hc => by
    rcases List.mem_cons.mp hc with e | hc
    · rw [e]; exact Member.indAux h m
    · exact Member.indAuxL h ms c hc
end

/-- induction over definitions -/
theorem Member.ind {P : Member → Prop} (h : ∀ m, (∀ c ∈ m.children, P c) → P m) (m : Member) : P m := Member.indAux h m

/-- `c` is a child of the list `ms`, whose first node is at offset `o` when the list starts at `off` -/
def KidAt (off : Nat) (ms : List Member) (o : Nat) (c : Member) : Prop :=
  ∃ pre post, ms = pre ++ c :: post ∧ o = off + countKids pre

theorem countKids_append (a b : List Member) : countKids (a ++ b) = countKids a + countKids b := by
  induction a with
  | nil => simp [countKids]
  | cons m a ih => simp [countKids, ih]; omega

theorem KidAt.mem {off : Nat} {ms : List Member} {o : Nat} {c : Member} (h : KidAt off ms o c) : c ∈ ms := by
  obtain ⟨pre, post, rfl, _⟩ := h; simp

theorem KidAt.bound {off : Nat} {ms : List Member} {o : Nat} {c : Member} (h : KidAt off ms o c) :
    off ≤ o ∧ o + count c ≤ off + countKids ms := by
  obtain ⟨pre, post, rfl, rfl⟩ := h
  rw [countKids_append, countKids]; omega

theorem kidIter_append (a b : List Member) (off : Nat) : kidIter off (a ++ b) = kidIter off a ++ kidIter (off + countKids a) b := by
  induction a generalizing off with
  | nil => simp [kidIter, countKids]
  | cons m a ih => simp [kidIter, countKids, ih, Nat.add_assoc]

theorem mem_kidIter {off : Nat} {ms : List Member} {name : Str} {o : Nat} :
    (name, o) ∈ kidIter off ms ↔ ∃ c, KidAt off ms o c ∧ c.name = name := by
  induction ms generalizing off with
  | nil => simp [kidIter, KidAt]
  | cons m ms ih =>
    simp only [kidIter, List.mem_cons, Prod.mk.injEq, ih]
    constructor
    · rintro (⟨rfl, rfl⟩ | ⟨c, ⟨pre, post, rfl, rfl⟩, rfl⟩)
      · exact ⟨m, ⟨[], ms, rfl, by simp [countKids]⟩, rfl⟩
      · exact ⟨c, ⟨m :: pre, post, rfl, by simp [countKids]; omega⟩, rfl⟩
    · rintro ⟨c, ⟨pre, post, h, rfl⟩, rfl⟩
      cases pre with
      | nil =>
        simp only [List.nil_append, List.cons.injEq] at h
        exact Or.inl ⟨by rw [h.1], by simp [countKids]⟩
      | cons q pre =>
        simp only [List.cons_append, List.cons.injEq] at h
        refine Or.inr ⟨c, ⟨pre, post, h.2, ?_⟩, rfl⟩
        rw [h.1]; simp only [countKids]; omega

theorem flatKids_append (st : Bool) (a b : List Member) (off : Nat) :
    flatKids st off (a ++ b) = flatKids st off a ++ flatKids st (off + countKids a) b := by
  induction a generalizing off with
  | nil => simp [flatKids, countKids]
  | cons m a ih => simp [flatKids, countKids, ih, Nat.add_assoc]

/-- the nodes of one child inside the nodes of all -/
theorem KidAt.flat {off : Nat} {ms : List Member} {o : Nat} {c : Member} (h : KidAt off ms o c) (st : Bool) :
    ∃ p q, flatKids st off ms = p ++ (if st then setParent o (flat c) else Pvxs.flat c) ++ q ∧ off + p.length = o := by
  obtain ⟨pre, post, rfl, rfl⟩ := h
  refine ⟨flatKids st off pre, flatKids st (off + countKids pre + count c) post, ?_, ?_⟩
  · rw [flatKids_append]; simp [flatKids]
  · rw [flatKids_length]

theorem KidAt.get {off : Nat} {ms : List Member} {o : Nat} {c : Member} (h : KidAt off ms o c) (st : Bool) (j : Nat)
    (hj : j < count c) :
    (flatKids st off ms)[o - off + j]? = (if st then setParent o (Pvxs.flat c) else Pvxs.flat c)[j]? := by
  obtain ⟨p, q, hf, hp⟩ := h.flat st
  have hlen : (if st then setParent o (Pvxs.flat c) else Pvxs.flat c).length = count c := by
    cases st <;> simp [setParent_length, flat_length]
  rw [hf, List.append_assoc, List.getElem?_append_right (by omega), List.getElem?_append_left (by omega)]
  congr 1; omega

/-- every node belongs to some child -/
theorem flatKids_node {off : Nat} {ms : List Member} {i : Nat} (h : i < countKids ms) :
    ∃ o c, KidAt off ms o c ∧ o ≤ off + i ∧ off + i < o + count c := by
  induction ms generalizing off i with
  | nil => simp [countKids] at h
  | cons m ms ih =>
    simp only [countKids] at h
    by_cases hi : i < count m
    · exact ⟨off, m, ⟨[], ms, rfl, by simp [countKids]⟩, by omega, by omega⟩
    · obtain ⟨o, c, ⟨pre, post, e, ho⟩, h1, h2⟩ := ih (off := off + count m) (i := i - count m) (by omega)
      refine ⟨o, c, ⟨m :: pre, post, by rw [e]; rfl, by rw [ho]; simp only [countKids]; omega⟩, by omega, by omega⟩

/-! ### name tables -/

/-- the pairs inserted for one child of a struct -/
def kidEntries (m : Member) (off : Nat) : List (Str × Nat) :=
  (m.name, off) :: (if m.code = .Struct then (lookOf m).map fun p => (m.name ++ [0x2e] ++ p.1, off + p.2) else [])

def allEntries (off : Nat) : List Member → List (Str × Nat)
  | [] => []
  | m :: ms => kidEntries m off ++ allEntries (off + count m) ms

theorem lookKids_struct (ms : List Member) : ∀ (ml : SMap Nat) (off : Nat),
    lookKids true ml off ms = SMap.insertAll ml (allEntries off ms) := by
  induction ms with
  | nil => intro ml off; rfl
  | cons m ms ih =>
    intro ml off
    rw [lookKids, ih, allEntries, SMap.insertAll_append]
    congr 1
    simp only [kidEntries, SMap.insertAll, List.foldl_cons, Bool.true_and, beq_iff_eq]
    split
    · rw [List.foldl_map]
    · rfl

theorem lookKids_other (ms : List Member) : ∀ (ml : SMap Nat) (off : Nat),
    lookKids false ml off ms = SMap.insertAll ml (kidIter off ms) := by
  induction ms with
  | nil => intro ml off; rfl
  | cons m ms ih =>
    intro ml off
    rw [lookKids, ih, kidIter]
    simp [SMap.insertAll]

theorem lookOf_struct (m : Member) (h : m.code = .Struct) : lookOf m = SMap.insertAll [] (allEntries 1 m.children) := by
  obtain ⟨code, name, id, ch⟩ := m
  simp only at h; subst h
  simp only [lookOf]
  rw [if_neg (by decide)]
  exact lookKids_struct ch [] 1

theorem lookOf_sorted (m : Member) : SMap.Sorted (lookOf m) := by
  obtain ⟨code, name, id, ch⟩ := m
  simp only [lookOf]
  split
  · exact SMap.sorted_nil
  · cases hc : (code == TypeCode.Struct)
    · rw [lookKids_other]; exact SMap.sorted_insertAll SMap.sorted_nil _
    · rw [lookKids_struct]; exact SMap.sorted_insertAll SMap.sorted_nil _

theorem count_struct (m : Member) (h : m.code = .Struct) : count m = 1 + countKids m.children := by
  obtain ⟨code, name, id, ch⟩ := m
  simp only at h; subst h; simp [count]

theorem count_other (m : Member) (h : m.code ≠ .Struct) : count m = 1 := by
  obtain ⟨code, name, id, ch⟩ := m
  simp only at h; simp [count, h]

theorem allEntries_length_le (ms : List Member) (h : ∀ c ∈ ms, c.code = .Struct → (lookOf c).length ≤ countKids c.children) :
    ∀ off, (allEntries off ms).length ≤ countKids ms := by
  induction ms with
  | nil => intro off; simp [allEntries, countKids]
  | cons m ms ih =>
    intro off
    have := ih (fun c hc => h c (by simp [hc])) (off + count m)
    simp only [allEntries, kidEntries, List.length_append, List.length_cons, countKids]
    by_cases hs : m.code = .Struct
    · have := h m (by simp) hs
      have := count_struct m hs
      simp only [hs, if_true, List.length_map]; omega
    · have := count_other m hs
      simp only [hs, if_false, List.length_nil]; omega

theorem lookOf_length_le (m : Member) : m.code = .Struct → (lookOf m).length ≤ countKids m.children := by
  induction m using Member.ind with
  | h m ih =>
    intro hs
    rw [lookOf_struct m hs]
    have := SMap.length_insertAll_le (SMap.sorted_nil (α := Nat)) (allEntries 1 m.children)
    have := allEntries_length_le m.children (fun c hc => ih c hc) 1
    simp at *; omega

/-- no name was lost: the name table of the struct has an entry for every node -/
def Full (m : Member) : Prop := m.code = .Struct → (lookOf m).length = countKids m.children

theorem allEntries_full (ms : List Member) : ∀ off, countKids ms ≤ (allEntries off ms).length → ∀ c ∈ ms, Full c := by
  induction ms with
  | nil => intro off _ c hc; simp at hc
  | cons m ms ih =>
    intro off h
    have hle := allEntries_length_le ms (fun c _ => lookOf_length_le c) (off + count m)
    simp only [allEntries, kidEntries, List.length_append, List.length_cons, countKids] at h
    have hm : Full m ∧ count m ≤ 1 + (if m.code = .Struct then (lookOf m).map fun p => (m.name ++ [0x2e] ++ p.1, off + p.2) else []).length ∧
       (1 + (if m.code = .Struct then (lookOf m).map fun p => (m.name ++ [0x2e] ++ p.1, off + p.2) else []).length ≤ count m) := by
      by_cases hs : m.code = .Struct
      · have := lookOf_length_le m hs
        have := count_struct m hs
        simp only [hs, if_true, List.length_map] at h ⊢
        exact ⟨fun _ => by omega, by omega, by omega⟩
      · have := count_other m hs
        simp only [hs, if_false, List.length_nil] at h ⊢
        exact ⟨fun h => absurd h hs, by omega, by omega⟩
    intro c hc
    rcases List.mem_cons.mp hc with rfl | hc
    · exact hm.1
    · exact ih (off + count m) (by omega) c hc

/-- a full struct: nothing was overwritten, and the structs inside are full -/
theorem Full.entries {m : Member} (hf : Full m) (hs : m.code = .Struct) :
    ((allEntries 1 m.children).map (·.1)).Nodup ∧ (allEntries 1 m.children).length = countKids m.children ∧
    ∀ c ∈ m.children, Full c := by
  have h1 := hf hs
  have h2 := allEntries_length_le m.children (fun c _ => lookOf_length_le c) 1
  have h3 := SMap.length_insertAll_le (SMap.sorted_nil (α := Nat)) (allEntries 1 m.children)
  rw [lookOf_struct m hs] at h1
  simp only [List.length_nil, Nat.zero_add] at h3
  have := SMap.insertAll_full (SMap.sorted_nil (α := Nat)) (l := allEntries 1 m.children) (by simp; omega)
  exact ⟨this.1, by omega, allEntries_full _ 1 (by omega)⟩

theorem Full.mem {m : Member} (hf : Full m) (hs : m.code = .Struct) (q : Str × Nat) :
    q ∈ lookOf m ↔ q ∈ allEntries 1 m.children := by
  rw [lookOf_struct m hs, SMap.mem_insertAll SMap.sorted_nil (hf.entries hs).1 (by simp [SMap.keys])]
  simp

theorem mem_allEntries {ms : List Member} {off : Nat} {q : Str × Nat} :
    q ∈ allEntries off ms ↔ ∃ o c, KidAt off ms o c ∧ q ∈ kidEntries c o := by
  induction ms generalizing off with
  | nil => simp [allEntries, KidAt]
  | cons m ms ih =>
    simp only [allEntries, List.mem_append, ih]
    constructor
    · rintro (h | ⟨o, c, ⟨pre, post, rfl, rfl⟩, h⟩)
      · exact ⟨off, m, ⟨[], ms, rfl, by simp [countKids]⟩, h⟩
      · exact ⟨_, c, ⟨m :: pre, post, rfl, rfl⟩, by simpa [countKids, Nat.add_assoc] using h⟩
    · rintro ⟨o, c, ⟨pre, post, h, rfl⟩, hq⟩
      cases pre with
      | nil =>
        simp only [List.nil_append, List.cons.injEq] at h
        exact Or.inl (by rw [h.1]; simpa [countKids] using hq)
      | cons p pre =>
        simp only [List.cons_append, List.cons.injEq] at h
        refine Or.inr ⟨_, c, ⟨pre, post, h.2, rfl⟩, ?_⟩
        rw [h.1]; simpa [countKids, Nat.add_assoc] using hq

theorem mem_kidEntries {c : Member} {o : Nat} {q : Str × Nat} :
    q ∈ kidEntries c o ↔ q = (c.name, o) ∨ (c.code = .Struct ∧ ∃ p x, (p, x) ∈ lookOf c ∧ q = (c.name ++ [0x2e] ++ p, o + x)) := by
  simp only [kidEntries, List.mem_cons]
  by_cases hs : c.code = .Struct
  · simp only [hs, if_true, List.mem_map, true_and, Prod.exists]
    constructor
    · rintro (h | ⟨p, x, h1, h2⟩)
      · exact Or.inl h
      · exact Or.inr ⟨p, x, h1, h2.symm⟩
    · rintro (h | ⟨p, x, h1, h2⟩)
      · exact Or.inl h
      · exact Or.inr ⟨p, x, h1, h2.symm⟩
  · simp [hs]

/-! ### size of nodes -/

/-- root node of a struct -/
def structRoot (m : Member) : FieldDesc :=
  { code := .Struct, id := m.id, mlookup := lookOf m, miter := kidIter 1 m.children }

theorem flat_struct (m : Member) (h : m.code = .Struct) : flat m = structRoot m :: flatKids true 1 m.children := by
  have e := lookOf_struct m h
  obtain ⟨code, name, id, ch⟩ := m
  simp only at h; subst h
  simp only [flat, assemble, structRoot, e]
  rw [if_neg (by decide), if_pos trivial]
  simp [lookKids_struct]

theorem structRoot_size (m : Member) : (structRoot m).size = 1 + (lookOf m).length := by
  simp [structRoot, FieldDesc.size]

theorem flat_other (m : Member) (h : m.code ≠ .Struct) : ∃ d, flat m = [d] ∧ d.code = m.code ∧ d.parentIndex = 0 := by
  obtain ⟨code, name, id, ch⟩ := m
  simp only at h
  simp only [flat, assemble, h, if_false]
  split
  · exact ⟨_, rfl, rfl, rfl⟩
  · exact ⟨_, rfl, rfl, rfl⟩

theorem flatKids_isEmpty (st : Bool) (off : Nat) (ms : List Member) : (flatKids st off ms).isEmpty = ms.isEmpty := by
  cases ms with
  | nil => rfl
  | cons m ms =>
    have hp := count_pos m
    have := flatKids_length st off (m :: ms)
    simp only [countKids] at this
    cases h : flatKids st off (m :: ms) with
    | nil => rw [h] at this; simp at this; omega
    | cons _ _ => rfl

theorem other_size (m : Member) (h : m.code ≠ .Struct) (d : FieldDesc) (hd : flat m = [d]) : d.size = 1 := by
  obtain ⟨code, name, id, ch⟩ := m
  simp only at h
  simp only [flat, assemble, h, if_false] at hd
  split at hd
  · rename_i hc
    simp only [List.cons.injEq, and_true] at hd
    subst hd
    simp only [FieldDesc.size]
    split <;> simp
  · simp only [List.cons.injEq, and_true] at hd
    subst hd
    simp only [FieldDesc.size, flatKids_isEmpty]
    cases ch with
    | nil => simp [lookKids]
    | cons _ _ => simp

theorem root_size (m : Member) (hf : Full m) : ∃ d ds, flat m = d :: ds ∧ d.size = count m ∧ d.parentIndex = 0 := by
  by_cases hs : m.code = .Struct
  · rw [flat_struct m hs]
    refine ⟨_, _, rfl, ?_, rfl⟩
    rw [structRoot_size, hf hs, count_struct m hs]
  · obtain ⟨d, hd, _, hp⟩ := flat_other m hs
    exact ⟨d, [], hd, by rw [other_size m hs d hd, count_other m hs], hp⟩

/-! ### node consistency -/

/-- `s` occurs in `t` at index `b`, up to the parent index of its first node -/
structure Embeds (s t : List FieldDesc) (b : Nat) : Prop where
  len : b + s.length ≤ t.length
  get : ∀ k x, s[k]? = some x → ∃ n, t[b + k]? = some { x with parentIndex := n }
  keep : ∀ k x, 0 < k → s[k]? = some x → t[b + k]? = some x

theorem NodeOK.embed {s t : List FieldDesc} {b j n : Nat} {d : FieldDesc} (he : Embeds s t b)
    (h : NodeOK s j d)
    (hn : 0 < j → n = d.parentIndex)
    (hp : j = 0 → 0 < b + j → 0 < n ∧ n ≤ b + j ∧
      ∃ p, t[b + j - n]? = some p ∧ p.code = .Struct ∧ ∃ name, (name, n) ∈ p.miter) :
    NodeOK t (b + j) { d with parentIndex := n } := by
  refine ⟨?_, ?_, ?_, h.byName, ?_, h.found, ?_⟩
  · have := h.inside; have := he.len
    show b + j + d.size ≤ _
    omega
  · intro hs name off hm
    obtain ⟨h0, c, h1, h2, h3⟩ := h.child hs name off hm
    refine ⟨h0, c, ?_, h2, h3⟩
    rw [Nat.add_assoc]; exact he.keep _ _ (by omega) h1
  · intro hs x y na oa nb ob ha hb hxy
    obtain ⟨c, h1, h2⟩ := h.disjoint hs x y na oa nb ob ha hb hxy
    have h0 := (h.child hs na oa (List.mem_of_getElem? ha)).1
    refine ⟨c, ?_, h2⟩
    rw [Nat.add_assoc]; exact he.keep _ _ (by omega) h1
  · intro hs name off c p o hm hc hcs hf
    obtain ⟨h0, c', h1, _, _⟩ := h.child hs name off hm
    have := he.keep _ _ (by omega) h1
    rw [Nat.add_assoc, this] at hc
    cases hc
    exact h.byPath hs name off _ p o hm h1 hcs hf
  · intro hpos
    by_cases hj : j = 0
    · exact hp hj hpos
    · have := hn (by omega)
      subst this
      obtain ⟨h0, h1, p, h2, h3, name, h4⟩ := h.parent (by omega)
      obtain ⟨n', h5⟩ := he.get _ _ h2
      refine ⟨h0, ?_, { p with parentIndex := n' }, ?_, h3, name, h4⟩
      · show d.parentIndex ≤ b + j
        omega
      · show t[b + j - d.parentIndex]? = _
        rw [← h5]; congr 1; omega

theorem embeds_kid {ms : List Member} {o : Nat} {c : Member} (h : KidAt 1 ms o c) (r : FieldDesc) :
    Embeds (flat c) (r :: flatKids true 1 ms) o := by
  have hb := h.bound
  have hget : ∀ k, k < count c → (r :: flatKids true 1 ms)[o + k]? = (setParent o (flat c))[k]? := by
    intro k hk
    have := h.get true k hk
    simp only [if_true] at this
    rw [← this]
    have e : o + k = (o - 1 + k) + 1 := by omega
    rw [e, List.getElem?_cons_succ]
  refine ⟨?_, ?_, ?_⟩
  · rw [flat_length, List.length_cons, flatKids_length]; omega
  · intro k x hx
    have hk : k < count c := by rw [← flat_length]; exact (List.getElem?_eq_some_iff.mp hx).1
    rw [hget k hk]
    cases hf : flat c with
    | nil => rw [hf] at hx; simp at hx
    | cons a s =>
      rw [hf] at hx
      cases k with
      | zero => exact ⟨o, by simp only [List.getElem?_cons_zero, Option.some.injEq] at hx; subst hx; rfl⟩
      | succ k =>
        refine ⟨x.parentIndex, ?_⟩
        simp only [setParent, List.getElem?_cons_succ] at hx ⊢
        rw [hx]; cases x; rfl
  · intro k x h0 hx
    have hk : k < count c := by rw [← flat_length]; exact (List.getElem?_eq_some_iff.mp hx).1
    rw [hget k hk]
    cases hf : flat c with
    | nil => rw [hf] at hx; simp at hx
    | cons a s =>
      rw [hf] at hx
      obtain ⟨k, rfl⟩ : ∃ k', k = k' + 1 := ⟨k - 1, by omega⟩
      simpa [setParent] using hx

theorem kid_root {ms : List Member} {o : Nat} {c : Member} (h : KidAt 1 ms o c) (r : FieldDesc) :
    ∃ d ds, flat c = d :: ds ∧ (r :: flatKids true 1 ms)[o]? = some { d with parentIndex := o } := by
  have hb := h.bound
  have := h.get true 0 (count_pos c)
  simp only [if_true] at this
  obtain ⟨d, ds, hf, _⟩ := flat_head c
  refine ⟨d, ds, hf, ?_⟩
  obtain ⟨o, rfl⟩ : ∃ o', o = o' + 1 := ⟨o - 1, by omega⟩
  rw [hf] at this
  rw [List.getElem?_cons_succ]
  simpa [setParent] using this

theorem kidIter_get {ms : List Member} {off a : Nat} {n : Str} {o : Nat} (h : (kidIter off ms)[a]? = some (n, o)) :
    ∃ c, ms[a]? = some c ∧ n = c.name ∧ o = off + countKids (ms.take a) := by
  induction ms generalizing off a with
  | nil => simp [kidIter] at h
  | cons m ms ih =>
    cases a with
    | zero =>
      simp only [kidIter, List.getElem?_cons_zero, Option.some.injEq, Prod.mk.injEq] at h
      exact ⟨m, rfl, h.1.symm, by simp [countKids, h.2]⟩
    | succ a =>
      simp only [kidIter, List.getElem?_cons_succ] at h
      obtain ⟨c, h1, h2, h3⟩ := ih h
      refine ⟨c, by simpa using h1, h2, ?_⟩
      rw [h3]; simp only [List.take_succ_cons, countKids]; omega

theorem countKids_take_lt {ms : List Member} {a b : Nat} {c : Member} (h : ms[a]? = some c) (hab : a < b) :
    countKids (ms.take a) + count c ≤ countKids (ms.take b) := by
  induction ms generalizing a b with
  | nil => simp at h
  | cons m ms ih =>
    obtain ⟨b, rfl⟩ : ∃ b', b = b' + 1 := ⟨b - 1, by omega⟩
    cases a with
    | zero => simp only [List.getElem?_cons_zero, Option.some.injEq] at h; subst h; simp [countKids]
    | succ a =>
      have := ih (a := a) (b := b) (by simpa using h) (by omega)
      simp only [List.take_succ_cons, countKids]; omega

theorem kidAt_take {ms : List Member} {off a : Nat} {c : Member} (h : ms[a]? = some c) :
    KidAt off ms (off + countKids (ms.take a)) c := by
  refine ⟨ms.take a, ms.drop (a+1), ?_, rfl⟩
  have hl := (List.getElem?_eq_some_iff.mp h)
  obtain ⟨hl, e⟩ := hl
  rw [← e, ← List.drop_eq_getElem_cons hl, List.take_append_drop]

theorem nodeOK_flat (m : Member) : Full m → ∀ i d, (flat m)[i]? = some d → NodeOK (flat m) i d := by
  induction m using Member.ind with
  | h m ih =>
    intro hf i d hd
    by_cases hs : m.code = .Struct
    · have hfe := hf.entries hs
      rw [flat_struct m hs] at hd ⊢
      have hlen : (structRoot m :: flatKids true 1 m.children).length = 1 + countKids m.children := by
        rw [List.length_cons, flatKids_length]; omega
      have hsz : (structRoot m).size = 1 + countKids m.children := by rw [structRoot_size, hf hs]
      have hsorted := lookOf_sorted m
      -- the root of a child
      have hkid : ∀ o c, KidAt 1 m.children o c → ∃ r rs, flat c = r :: rs ∧
          (structRoot m :: flatKids true 1 m.children)[o]? = some { r with parentIndex := o } ∧ r.size = count c ∧
          r.code = c.code ∧ (r.code = .Struct → r.mlookup = lookOf c) := by
        intro o c hk
        obtain ⟨r, rs, h1, h2⟩ := kid_root hk (structRoot m)
        obtain ⟨r', rs', h3, h4, _⟩ := root_size c (hfe.2.2 c hk.mem)
        obtain ⟨r2, rs2, h5, h6, _, h7⟩ := flat_head c
        rw [h1] at h3 h5; cases h3; cases h5
        exact ⟨r, rs, h1, h2, h4, h6, h7⟩
      cases i with
      | zero =>
        simp only [List.getElem?_cons_zero, Option.some.injEq] at hd
        subst hd
        refine ⟨by omega, ?_, ?_, ?_, ?_, ?_, by omega⟩
        · intro _ name off hm
          obtain ⟨c, hk, rfl⟩ := mem_kidIter.mp hm
          obtain ⟨r, rs, h1, h2, h3, _⟩ := hkid off c hk
          have := hk.bound
          refine ⟨by omega, { r with parentIndex := off }, by rw [Nat.zero_add]; exact h2, rfl, ?_⟩
          show off + r.size ≤ _
          omega
        · intro _ a b na oa nb ob ha hb hab
          obtain ⟨ca, h1, _, h3⟩ := kidIter_get ha
          obtain ⟨cb, h4, _, h6⟩ := kidIter_get hb
          have hk := kidAt_take (off := 1) h1
          obtain ⟨r, rs, _, h8, h9, _⟩ := hkid _ ca hk
          have := countKids_take_lt h1 hab
          refine ⟨{ r with parentIndex := oa }, by rw [Nat.zero_add, h3]; exact h8, ?_⟩
          show oa + r.size ≤ ob
          omega
        · intro _ name off hm
          obtain ⟨c, hk, rfl⟩ := mem_kidIter.mp hm
          refine (SMap.find?_some hsorted).mpr ((hf.mem hs _).mpr (mem_allEntries.mpr ⟨off, c, hk, ?_⟩))
          exact mem_kidEntries.mpr (Or.inl rfl)
        · intro _ name off c' p o hm hc hcs hfind
          obtain ⟨c, hk, rfl⟩ := mem_kidIter.mp hm
          obtain ⟨r, rs, h1, h2, h3, h4, h5⟩ := hkid off c hk
          rw [Nat.zero_add, h2] at hc
          cases hc
          have hcs' : r.code = .Struct := hcs
          have hfind' : r.mlookup.find? p = some o := hfind
          rw [h5 hcs'] at hfind'
          refine (SMap.find?_some hsorted).mpr ((hf.mem hs _).mpr (mem_allEntries.mpr ⟨off, c, hk, ?_⟩))
          exact mem_kidEntries.mpr (Or.inr ⟨by rw [← h4]; exact hcs', p, o, (SMap.find?_some (lookOf_sorted c)).mp hfind', rfl⟩)
        · intro _ p o hfind
          have := (hf.mem hs _).mp ((SMap.find?_some hsorted).mp hfind)
          obtain ⟨ko, c, hk, hm⟩ := mem_allEntries.mp this
          obtain ⟨r, rs, h1, h2, h3, h4, h5⟩ := hkid ko c hk
          have hb := hk.bound
          have := count_pos c
          rcases mem_kidEntries.mp hm with e | ⟨hcs, p', x, hx, e⟩
          · cases e; exact ⟨by omega, by omega⟩
          · cases e
            have hnode := ih c hk.mem (hfe.2.2 c hk.mem) 0 r (by rw [h1]; rfl)
            have := hnode.found (by rw [h4]; exact hcs) p' x
              (by rw [h5 (by rw [h4]; exact hcs)]; exact (SMap.find?_some (lookOf_sorted c)).mpr hx)
            exact ⟨by omega, by omega⟩
      | succ i =>
        have hi : i < countKids m.children := by
          have := (List.getElem?_eq_some_iff.mp hd).1
          rw [hlen] at this; omega
        obtain ⟨o, c, hk, h1, h2⟩ := flatKids_node (off := 1) hi
        have hb := hk.bound
        have he := embeds_kid hk (structRoot m)
        obtain ⟨j, hj⟩ : ∃ j, i + 1 = o + j := ⟨i + 1 - o, by omega⟩
        have hjc : j < (flat c).length := by rw [flat_length]; omega
        have hnode := ih c hk.mem (hfe.2.2 c hk.mem) j _ (List.getElem?_eq_getElem hjc)
        rw [hj] at hd ⊢
        by_cases hj0 : j = 0
        · subst hj0
          obtain ⟨r, rs, h3, h4, _⟩ := hkid o c hk
          have hr : (flat c)[0] = r := by simp [h3]
          rw [hr] at hnode
          have hd' : d = { r with parentIndex := o } := by
            rw [Nat.add_zero, h4] at hd; cases hd; rfl
          subst hd'
          refine NodeOK.embed he hnode (by omega) ?_
          intro _ _
          refine ⟨by omega, by omega, structRoot m, ?_, rfl, c.name, mem_kidIter.mpr ⟨c, hk, rfl⟩⟩
          simp
        · have hx := he.keep j _ (by omega) (List.getElem?_eq_getElem hjc)
          rw [hx] at hd
          cases hd
          have := NodeOK.embed (n := ((flat c)[j]).parentIndex) he hnode (fun _ => rfl) (fun h => absurd h hj0)
          have e : ∀ (t : List FieldDesc) (i : Nat) (x : FieldDesc), NodeOK t i ⟨x.code, x.id, x.mlookup, x.miter, x.parentIndex, x.members⟩ →
              NodeOK t i x := by intro t i x; cases x; exact id
          exact e _ _ _ this
    · obtain ⟨d', h1, h2, h3⟩ := flat_other m hs
      rw [h1] at hd ⊢
      cases i with
      | succ i => simp at hd
      | zero =>
        simp only [List.getElem?_cons_zero, Option.some.injEq] at hd
        subst hd
        have hns : d'.code ≠ .Struct := by rw [h2]; exact hs
        refine ⟨by rw [other_size m hs d' h1]; simp, fun h => absurd h hns, fun h => absurd h hns, fun h => absurd h hns,
          fun h => absurd h hns, fun h => absurd h hns, by omega⟩

theorem tableOK_flat (m : Member) (hf : Full m) : TableOK (flat m) := by
  refine ⟨?_, nodeOK_flat m hf⟩
  obtain ⟨d, ds, h1, h2, h3⟩ := root_size m hf
  exact ⟨d, by rw [h1]; rfl, by rw [h2, flat_length], h3⟩

/-! ### distinct names -/

theorem distinctAll_mem {ms : List Member} (h : DistinctNamesAll ms) : ∀ c ∈ ms, (0x2e : Byte) ∉ c.name ∧ DistinctNames c := by
  induction ms with
  | nil => intro c hc; simp at hc
  | cons m ms ih =>
    simp only [DistinctNamesAll] at h
    intro c hc
    rcases List.mem_cons.mp hc with rfl | hc
    · exact ⟨h.1, h.2.1⟩
    · exact ih h.2.2 c hc

theorem distinct_kids {m : Member} (h : DistinctNames m) :
    (m.children.map Member.name).Nodup ∧ ∀ c ∈ m.children, (0x2e : Byte) ∉ c.name ∧ DistinctNames c := by
  obtain ⟨code, name, id, ch⟩ := m
  simp only [DistinctNames] at h
  exact ⟨h.1, distinctAll_mem h.2⟩

/-- the part of a key before the first dot -/
def firstPart (k : Str) : Str := k.takeWhile (· ≠ 0x2e)

theorem firstPart_of (n p : Str) (h : (0x2e : Byte) ∉ n) : firstPart (n ++ [0x2e] ++ p) = n ∧ firstPart n = n := by
  induction n with
  | nil => simp [firstPart]
  | cons a n ih =>
    simp only [List.mem_cons, not_or] at h
    have := ih h.2
    have ha : a ≠ 0x2e := fun e => h.1 e.symm
    simp only [firstPart, ne_eq, decide_not, List.cons_append, List.takeWhile_cons] at this ⊢
    have h1 := this.1
    rw [List.append_assoc] at h1
    simp only [List.cons_append, List.nil_append] at h1
    simp [ha, this.2, h1]

theorem kidEntries_key {c : Member} {o : Nat} (h : (0x2e : Byte) ∉ c.name) (q : Str × Nat) (hq : q ∈ kidEntries c o) :
    firstPart q.1 = c.name := by
  rcases mem_kidEntries.mp hq with rfl | ⟨_, p, x, _, rfl⟩
  · exact (firstPart_of c.name [] h).2
  · exact (firstPart_of c.name p h).1

theorem kidEntries_nodup (c : Member) (o : Nat) : ((kidEntries c o).map (·.1)).Nodup := by
  simp only [kidEntries, List.map_cons, List.nodup_cons]
  have hl : ∀ p : Str, c.name ≠ c.name ++ [0x2e] ++ p := by
    intro p e
    have := congrArg List.length e
    simp at this
  split
  · rw [List.map_map]
    constructor
    · intro hm
      obtain ⟨p, _, e⟩ := List.mem_map.mp hm
      exact hl _ e.symm
    · have := SMap.sorted_keys_nodup (lookOf_sorted c)
      unfold SMap.keys at this
      rw [List.Nodup, List.pairwise_map] at this ⊢
      refine List.Pairwise.imp ?_ this
      intro a b hab e
      simp only [Function.comp, List.append_assoc, List.append_cancel_left_eq] at e
      exact hab e
  · simp

theorem allEntries_nodup {ms : List Member} (hn : (ms.map Member.name).Nodup) (hd : ∀ c ∈ ms, (0x2e : Byte) ∉ c.name) :
    ∀ off, ((allEntries off ms).map (·.1)).Nodup := by
  induction ms with
  | nil => intro off; simp [allEntries]
  | cons m ms ih =>
    intro off
    simp only [List.map_cons, List.nodup_cons] at hn
    simp only [allEntries, List.map_append]
    rw [List.nodup_append]
    refine ⟨kidEntries_nodup m off, ih hn.2 (fun c hc => hd c (by simp [hc])) _, ?_⟩
    intro a ha b hb e
    subst e
    obtain ⟨q, hq, rfl⟩ := List.mem_map.mp ha
    obtain ⟨q', hq', e⟩ := List.mem_map.mp hb
    obtain ⟨o, c, hk, hq'⟩ := mem_allEntries.mp hq'
    have h1 := kidEntries_key (hd m (by simp)) q hq
    have h2 := kidEntries_key (hd c (by simp [hk.mem])) q' hq'
    rw [e, h1] at h2
    exact hn.1 (List.mem_map.mpr ⟨c, hk.mem, h2.symm⟩)

theorem allEntries_length_eq (ms : List Member) (h : ∀ c ∈ ms, Full c) : ∀ off, (allEntries off ms).length = countKids ms := by
  induction ms with
  | nil => intro off; simp [allEntries, countKids]
  | cons m ms ih =>
    intro off
    have := ih (fun c hc => h c (by simp [hc])) (off + count m)
    simp only [allEntries, kidEntries, List.length_append, List.length_cons, countKids]
    by_cases hs : m.code = .Struct
    · have := h m (by simp) hs
      have := count_struct m hs
      simp only [hs, if_true, List.length_map]; omega
    · have := count_other m hs
      simp only [hs, if_false, List.length_nil]; omega

theorem full_of_distinct (m : Member) : DistinctNames m → Full m := by
  induction m using Member.ind with
  | h m ih =>
    intro hd hs
    have hk := distinct_kids hd
    rw [lookOf_struct m hs, SMap.length_insertAll SMap.sorted_nil
      (allEntries_nodup hk.1 (fun c hc => (hk.2 c hc).1) 1) (by simp [SMap.keys])]
    rw [allEntries_length_eq m.children (fun c hc => ih c hc (hk.2 c hc).2)]
    simp

theorem kidIter_names (off : Nat) (ms : List Member) : (kidIter off ms).map (·.1) = ms.map Member.name := by
  induction ms generalizing off with
  | nil => rfl
  | cons m ms ih => simp [kidIter, ih]

theorem wellFormed_cases {t : List FieldDesc} (ok : TableOK t)
    (h : ∀ (i : Nat) (d : FieldDesc), t[i]? = some d →
      (d.code = .StructA ∨ d.code = .UnionA → WellFormed d.members ∧ ∃ e : FieldDesc, d.members[0]? = some e ∧ e.code = d.code.scalarOf) ∧
      (d.code = .Union → ∀ name off, (name, off) ∈ d.miter → d.mlookup.find? name = some off ∧
        ∃ e : FieldDesc, d.members[off]? = some e ∧ off + e.size ≤ d.members.length ∧ WellFormed ((d.members.drop off).take e.size))) :
    WellFormed t := by
  refine .mk t ok (fun i d hd hc => ((h i d hd).1 hc).1) (fun i d hd hc => ((h i d hd).1 hc).2) ?_ ?_
  · intro i d hd hc name off hm
    obtain ⟨h1, e, h2, h3, _⟩ := (h i d hd).2 hc name off hm
    exact ⟨h1, e, h2, h3⟩
  · intro i d hd hc name off hm e he
    obtain ⟨h1, e', h2, _, h3⟩ := (h i d hd).2 hc name off hm
    rw [h2] at he; cases he; exact h3

/-- conditions on nested tables, for one node -/
def NestedOK (d : FieldDesc) : Prop :=
  (d.code = .StructA ∨ d.code = .UnionA → WellFormed d.members ∧ ∃ e : FieldDesc, d.members[0]? = some e ∧ e.code = d.code.scalarOf) ∧
  (d.code = .Union → ∀ name off, (name, off) ∈ d.miter → d.mlookup.find? name = some off ∧
    ∃ e : FieldDesc, d.members[off]? = some e ∧ off + e.size ≤ d.members.length ∧ WellFormed ((d.members.drop off).take e.size))

theorem wf_nested {t : List FieldDesc} (h : WellFormed t) (i : Nat) (d : FieldDesc) (hd : t[i]? = some d) : NestedOK d := by
  cases h with
  | mk _ ok elem elemCode choice choiceTable =>
    refine ⟨fun hc => ⟨elem i d hd hc, elemCode i d hd hc⟩, ?_⟩
    intro hc name off hm
    obtain ⟨h1, e, h2, h3⟩ := choice i d hd hc name off hm
    exact ⟨h1, e, h2, h3, choiceTable i d hd hc name off hm e h2⟩

theorem nested_parent {d : FieldDesc} (n : Nat) (h : NestedOK d) : NestedOK { d with parentIndex := n } := h

theorem assemble_struct_wf (id : Str) (ch : List Member) (hd : DistinctNames ⟨.Struct, [], id, ch⟩)
    (ih : ∀ c ∈ ch, WellFormed (flat c)) : WellFormed (flat ⟨.Struct, [], id, ch⟩) := by
  refine wellFormed_cases (tableOK_flat _ (full_of_distinct _ hd)) ?_
  intro i d hi
  rw [flat_struct _ rfl] at hi
  cases i with
  | zero =>
    simp only [List.getElem?_cons_zero, Option.some.injEq] at hi
    subst hi
    refine ⟨fun h => ?_, fun h => ?_⟩
    · rcases h with h | h
      · exact absurd (show TypeCode.Struct = _ from h) (by decide)
      · exact absurd (show TypeCode.Struct = _ from h) (by decide)
    · exact absurd (show TypeCode.Struct = _ from h) (by decide)
  | succ i =>
    have hi' : i < countKids ch := by
      have := (List.getElem?_eq_some_iff.mp hi).1
      simp only [List.length_cons, flatKids_length] at this; omega
    obtain ⟨o, c, hk, h1, h2⟩ := flatKids_node (off := 1) hi'
    have he := embeds_kid hk (structRoot ⟨.Struct, [], id, ch⟩)
    obtain ⟨j, hj⟩ : ∃ j, i + 1 = o + j := ⟨i + 1 - o, by omega⟩
    have hjc : j < (flat c).length := by rw [flat_length]; omega
    obtain ⟨n, hn⟩ := he.get j _ (List.getElem?_eq_getElem hjc)
    rw [hj, hn] at hi
    cases hi
    exact nested_parent n (wf_nested (ih c hk.mem) j _ (List.getElem?_eq_getElem hjc))

theorem tableOK_single (d : FieldDesc) (h : d.code ≠ .Struct) (hs : d.size = 1) (hp : d.parentIndex = 0) : TableOK [d] := by
  refine ⟨⟨d, rfl, by simp [hs], hp⟩, ?_⟩
  intro i x hx
  cases i with
  | succ i => simp at hx
  | zero =>
    simp only [List.getElem?_cons_zero, Option.some.injEq] at hx
    subst hx
    exact ⟨by simp [hs], fun h' => absurd h' h, fun h' => absurd h' h, fun h' => absurd h' h,
      fun h' => absurd h' h, fun h' => absurd h' h, by omega⟩

theorem wf_single (d : FieldDesc) (h : d.code ≠ .Struct) (hs : d.size = 1) (hp : d.parentIndex = 0) (hn : NestedOK d) : WellFormed [d] := by
  refine wellFormed_cases (tableOK_single d h hs hp) ?_
  intro i x hx
  cases i with
  | succ i => simp at hx
  | zero =>
    simp only [List.getElem?_cons_zero, Option.some.injEq] at hx
    subst hx; exact hn

theorem assemble_union_wf (id : Str) (ch : List Member) (hd : DistinctNames ⟨.Union, [], id, ch⟩)
    (ih : ∀ c ∈ ch, WellFormed (flat c)) : WellFormed (flat ⟨.Union, [], id, ch⟩) := by
  have hk := distinct_kids hd
  obtain ⟨d, h1, h2, h3⟩ := flat_other ⟨.Union, [], id, ch⟩ (by simp)
  have h4 := other_size _ (by simp) d h1
  rw [h1]
  refine wf_single d (by rw [h2]; simp) h4 h3 ⟨?_, ?_⟩
  · intro h
    rw [h2] at h
    rcases h with h | h
    · exact absurd h (by simp)
    · exact absurd h (by simp)
  · intro _ name off hm
    have hd' : d = { code := .Union, id := id, mlookup := lookKids false [] 0 ch, miter := kidIter 0 ch, members := flatKids false 1 ch } := by
      simp only [flat, assemble] at h1
      rw [if_neg (by decide), if_neg (by simp)] at h1
      rw [show (TypeCode.Union == TypeCode.Struct) = false by decide] at h1
      simpa using h1.symm
    subst hd'
    obtain ⟨c, hkid, rfl⟩ := mem_kidIter.mp hm
    refine ⟨?_, ?_⟩
    · rw [lookKids_other]
      refine (SMap.find?_some (SMap.sorted_insertAll SMap.sorted_nil _)).mpr ?_
      rw [SMap.mem_insertAll SMap.sorted_nil (by rw [kidIter_names]; exact hk.1) (by simp [SMap.keys])]
      exact Or.inr hm
    · obtain ⟨e, es, h5, h6, _⟩ := root_size c (full_of_distinct c (hk.2 c hkid.mem).2)
      obtain ⟨p, q, h7, h8⟩ := hkid.flat false
      have h9 : flatKids false 1 ch = p ++ flat c ++ q := by rw [flatKids_off 1 ch 0]; simpa using h7
      have hb := hkid.bound
      have h10 : p.length = off := by omega
      refine ⟨e, ?_, ?_, ?_⟩
      · show (flatKids false 1 ch)[off]? = _
        rw [h9, List.append_assoc, List.getElem?_append_right (by omega), h10, h5]; simp
      · show off + e.size ≤ (flatKids false 1 ch).length
        rw [flatKids_length, h6]; omega
      · show WellFormed (((flatKids false 1 ch).drop off).take e.size)
        have : ((flatKids false 1 ch).drop off).take e.size = flat c := by
          rw [h9, ← h10, List.append_assoc, List.drop_left, h6, ← flat_length c, List.take_left]
        rw [this]
        exact ih c hkid.mem

theorem flat_name (code : TypeCode) (name name' id : Str) (ch : List Member) : flat ⟨code, name, id, ch⟩ = flat ⟨code, name', id, ch⟩ := by
  simp only [flat]

theorem distinct_of (code code' : TypeCode) (name name' id id' : Str) (ch : List Member) (h : DistinctNames ⟨code, name, id, ch⟩) :
    DistinctNames ⟨code', name', id', ch⟩ := by
  simpa only [DistinctNames] using h

theorem wellFormed_flat (m : Member) : DistinctNames m → WellFormed (flat m) := by
  induction m using Member.ind with
  | h m ih =>
    intro hd
    have hk := distinct_kids hd
    obtain ⟨code, name, id, ch⟩ := m
    have ih' : ∀ c ∈ ch, WellFormed (flat c) := fun c hc => ih c hc (hk.2 c hc).2
    by_cases h1 : code = .Struct
    · subst h1
      rw [flat_name _ _ []]
      exact assemble_struct_wf id ch (distinct_of _ _ _ _ _ _ _ hd) ih'
    · by_cases h2 : code = .Union
      · subst h2
        rw [flat_name _ _ []]
        exact assemble_union_wf id ch (distinct_of _ _ _ _ _ _ _ hd) ih'
      · obtain ⟨d, h3, h4, h5⟩ := flat_other ⟨code, name, id, ch⟩ h1
        have h6 := other_size _ h1 d h3
        rw [h3]
        refine wf_single d (by rw [h4]; exact h1) h6 h5 ⟨?_, fun h => absurd (h4.symm.trans h) h2⟩
        intro hc
        rw [h4] at hc
        have hfl : d = { code := code, members := assemble code.scalarOf id ch (flatKids (code.scalarOf == .Struct) 1 ch) } := by
          simp only [flat] at h3
          rw [if_pos hc] at h3
          simpa using h3.symm
        subst hfl
        show WellFormed (assemble _ _ _ _) ∧ ∃ e : FieldDesc, (assemble _ _ _ _)[0]? = some e ∧ e.code = code.scalarOf
        rcases hc with hc | hc
        · subst hc
          have e1 : (TypeCode.StructA).scalarOf = .Struct := by decide
          rw [e1]
          have e2 : flat ⟨.Struct, [], id, ch⟩ = assemble .Struct id ch (flatKids (TypeCode.Struct == .Struct) 1 ch) := by
            simp only [flat]; rw [if_neg (by decide)]
          rw [← e2]
          refine ⟨assemble_struct_wf id ch (distinct_of _ _ _ _ _ _ _ hd) ih', ?_⟩
          obtain ⟨e, es, h7, h8, _⟩ := flat_head ⟨.Struct, [], id, ch⟩
          exact ⟨e, by rw [h7]; rfl, h8⟩
        · subst hc
          have e1 : (TypeCode.UnionA).scalarOf = .Union := by decide
          rw [e1]
          have e2 : flat ⟨.Union, [], id, ch⟩ = assemble .Union id ch (flatKids (TypeCode.Union == .Struct) 1 ch) := by
            simp only [flat]; rw [if_neg (by decide)]
          rw [← e2]
          refine ⟨assemble_union_wf id ch (distinct_of _ _ _ _ _ _ _ hd) ih', ?_⟩
          obtain ⟨e, es, h7, h8, _⟩ := flat_head ⟨.Union, [], id, ch⟩
          exact ⟨e, by rw [h7]; rfl, h8⟩

/-! ### decoding yields tables of definitions -/

theorem getSize_le (i : In) : (getSize false i).1 ≤ 0xffffffff := by
  simp only [getSize]
  split
  · simp
  · split
    · have := (getU8 i).1.toNat_lt; simp; omega
    · split
      · simp only [getInt]
        split
        · simp
        · rename_i he
          have hl : (List.take 4 (getU8 i).2.rest).length ≤ 4 := by simp; omega
          have h1 := leVal_lt (if (getU8 i).2.be = true then (List.take 4 (getU8 i).2.rest).reverse else List.take 4 (getU8 i).2.rest)
          have h2 : (if (getU8 i).2.be = true then (List.take 4 (getU8 i).2.rest).reverse else List.take 4 (getU8 i).2.rest).length ≤ 4 := by
            split <;> simp <;> omega
          have h3 : 256 ^ (if (getU8 i).2.be = true then (List.take 4 (getU8 i).2.rest).reverse else List.take 4 (getU8 i).2.rest).length ≤ 256 ^ 4 :=
            Nat.pow_le_pow_right (by omega) h2
          have h4 : (256 : Nat) ^ 4 = 0x100000000 := by decide
          simp only at *
          omega
      · simp

theorem getSize_true (i : In) : (getSize true i).1 = nullSize ∨ (getSize true i).1 ≤ 0xffffffff := by
  have h := getSize_le i
  simp only [getSize] at h ⊢
  split
  · simp
  · rename_i h1
    rw [if_neg h1] at h
    split
    · rename_i h2
      rw [if_pos h2] at h; exact Or.inr h
    · rename_i h2
      rw [if_neg h2] at h
      split
      · rename_i h3
        rw [if_pos h3] at h; exact Or.inr h
      · split
        · exact Or.inl rfl
        · simp

theorem getStr_length (i : In) : (getStr i).1.length ≤ 0xffffffff := by
  simp only [getStr]
  have := getSize_true i
  split
  · simp
  · rename_i h
    have h := this.resolve_left h
    split
    · simp
    · simp; omega

/-- every table in the cache is the table of some definition -/
def CacheOK (c : TypeStore) : Prop := ∀ k t, c.find? k = some t → ∃ m, Encodable m ∧ t = flat m

theorem lookup_append_single (c : TypeStore) (k k' : Nat) (t : List FieldDesc) (h : List.lookup k c = none) :
    List.lookup k' (c ++ [(k, t)]) = if k' = k then some t else List.lookup k' c := by
  induction c with
  | nil =>
    simp only [List.nil_append, List.lookup_cons, List.lookup_nil]
    by_cases hk : k' = k
    · simp [hk]
    · have : (k' == k) = false := by simpa using hk
      simp [hk, this]
  | cons p c ih =>
    rw [List.lookup_cons] at h
    rw [List.cons_append, List.lookup_cons, List.lookup_cons]
    by_cases h1 : k = p.1
    · simp [h1] at h
    · have : (k == p.1) = false := by simpa using h1
      rw [this] at h
      simp only at h
      by_cases h2 : k' = p.1
      · have : k' ≠ k := fun e => h1 (e.symm.trans h2)
        simp [h2]
        intro e; exact absurd (h2.trans e) this
      · have : (k' == p.1) = false := by simpa using h2
        rw [this]; exact ih h

theorem find?_emplace (c : TypeStore) (k k' : Nat) (t : List FieldDesc) :
    (c.emplace k t).find? k' = (match c.find? k' with | some x => some x | none => if k' = k then some t else none) := by
  simp only [TypeStore.emplace, TypeStore.find?]
  cases h : List.lookup k c with
  | some x =>
    simp only
    cases h' : List.lookup k' c with
    | some y => rfl
    | none =>
      simp only
      by_cases hk : k' = k
      · subst hk; rw [h] at h'; cases h'
      · simp [hk]
  | none =>
    simp only
    rw [lookup_append_single c k k' t h]
    by_cases hk : k' = k
    · subst hk; simp [h]
    · simp only [hk, if_false]
      cases List.lookup k' c <;> rfl

theorem CacheOK.emplace {c : TypeStore} (h : CacheOK c) (k : Nat) (m : Member) (hm : Encodable m) : CacheOK (c.emplace k (flat m)) := by
  intro k' t ht
  rw [find?_emplace] at ht
  split at ht
  · rename_i x hx
    cases ht
    exact h k' _ hx
  · split at ht
    · cases ht; exact ⟨m, hm, rfl⟩
    · cases ht

/-- result of decoding a type -/
def Sound (r : (List FieldDesc × TypeStore) × In) : Prop :=
  CacheOK r.1.2 ∧ (r.2.err = false → r.1.1 = [] ∨ ∃ m, Encodable m ∧ r.1.1 = flat m)

theorem stepKids_append (ms ms' : List Member) : ∀ fld kids,
    stepKids fld kids (ms ++ ms') = stepKids (stepKids fld kids ms).1 (stepKids fld kids ms).2 ms' := by
  induction ms with
  | nil => intro fld kids; rfl
  | cons m ms ih => intro fld kids; simp only [List.cons_append, stepKids, ih]

theorem encodableKids_append (a b : List Member) (ha : EncodableKids a) (hb : EncodableKids b) : EncodableKids (a ++ b) := by
  induction a with
  | nil => exact hb
  | cons m a ih =>
    simp only [List.cons_append, EncodableKids] at ha ⊢
    exact ⟨ha.1, ha.2.1, ih ha.2.2⟩

theorem encodable_name (m : Member) (n : Str) (h : Encodable m) : Encodable { m with name := n } := by
  obtain ⟨code, name, id, ch⟩ := m
  simpa only [Encodable] using h

theorem getKids_sound {rec : TypeStore → Dec (List FieldDesc × TypeStore)} (hr : ∀ c i, CacheOK c → Sound (rec c i)) (fld0 : FieldDesc) (n : Nat) :
    ∀ (ms : List Member) (c : TypeStore) (i : In), CacheOK c → EncodableKids ms →
      let r := getKids rec n (stepKids fld0 [] ms).1 (stepKids fld0 [] ms).2 c i
      CacheOK r.1.2 ∧ (r.2.err = false → ∃ ms', r.1.1 = stepKids fld0 [] ms' ∧ EncodableKids ms' ∧ ms'.length = ms.length + n) := by
  induction n with
  | zero =>
    intro ms c i hc hm
    exact ⟨hc, fun _ => ⟨ms, rfl, hm, by simp⟩⟩
  | succ n ih =>
    intro ms c i hc hm
    have hS := hr c (getStr i).2 hc
    simp only [getKids, Dec.bind_apply, failIf]
    split
    · exact ⟨hS.1, fun h => by simp [In.fault] at h⟩
    · rename_i hcond
      simp only [not_or, Bool.not_eq_true] at hcond
      rcases hS.2 hcond.1 with h0 | ⟨m, hme, hmf⟩
      · exact absurd hcond.2 (by simp [h0])
      · have hm2 : EncodableKids (ms ++ [{ m with name := (getStr i).1 }]) :=
          encodableKids_append _ _ hm ⟨getStr_length i, encodable_name m _ hme, trivial⟩
        have key := ih (ms ++ [{ m with name := (getStr i).1 }]) (rec c (getStr i).2).1.2 (rec c (getStr i).2).2 hS.1 hm2
        rw [stepKids_append] at key
        have e : flat { m with name := (getStr i).1 } = (rec c (getStr i).2).1.1 := by
          rw [hmf]; obtain ⟨code, name, id, ch⟩ := m; exact flat_name _ _ _ _ _
        have e2 : stepKids (stepKids fld0 [] ms).1 (stepKids fld0 [] ms).2 [{ m with name := (getStr i).1 }] =
            wireKid (stepKids fld0 [] ms).1 (stepKids fld0 [] ms).2 (getStr i).1 (rec c (getStr i).2).1.1 := by
          rw [← e]
          exact (wireKid_flat _ _ { m with name := (getStr i).1 }).symm
        rw [e2] at key
        simpa [Nat.add_assoc, Nat.add_comm 1 n] using key

theorem getTypeBody_sound {rec : TypeStore → Dec (List FieldDesc × TypeStore)}
    (hr : ∀ c i, CacheOK c → Sound (rec c i)) (c : TypeStore) (hc : CacheOK c) (code : Byte) (i : In) :
    Sound (getTypeBody rec c code i) := by
  unfold getTypeBody
  by_cases h1 : code = 0xff
  · rw [if_pos h1]; exact ⟨hc, fun _ => Or.inl rfl⟩
  rw [if_neg h1]
  by_cases h2 : code = 0xfd
  · rw [if_pos h2]
    simp only [getTypeDefine, Dec.bind_apply, failIf]
    have hS := hr c (getInt 2 i).2 hc
    split
    · exact ⟨hS.1, fun h => by simp [In.fault] at h⟩
    · rename_i hcond
      simp only [not_or, Bool.not_eq_true] at hcond
      rcases hS.2 hcond.1 with h0 | ⟨m, hme, hmf⟩
      · exact absurd hcond.2 (by simp [h0])
      · obtain ⟨d, ds, hf, _, hp, _⟩ := flat_head m
        rw [hmf, hf]
        refine ⟨?_, fun _ => Or.inr ⟨m, hme, ?_⟩⟩
        · have := hS.1.emplace (getInt 2 i).1 m hme
          rw [hf] at this; exact this
        · show { d with parentIndex := 0 } :: ds = flat m
          rw [hf]; cases d; simp only at hp; subst hp; rfl
  rw [if_neg h2]
  by_cases h3 : code = 0xfe
  · rw [if_pos h3]
    simp only [getTypeFetch, Dec.bind_apply]
    cases ht : c.find? (getInt 2 i).1 with
    | none => exact ⟨hc, fun h => by simp [In.fault, failWith] at h⟩
    | some t =>
      simp only [failIf]
      split
      · exact ⟨hc, fun h => by simp [In.fault] at h⟩
      · exact ⟨hc, fun _ => Or.inr (hc _ _ ht)⟩
  rw [if_neg h3]
  by_cases h4 : code &&& 0x10 ≠ 0
  · rw [if_pos h4]; exact ⟨hc, fun h => by simp [In.fault, failWith] at h⟩
  rw [if_neg h4]
  by_cases h5 : code = 0x88 ∨ code = 0x89
  · rw [if_pos h5]
    simp only [getTypeArr, Dec.bind_apply, failIf]
    have hS := hr c i hc
    split
    · exact ⟨hS.1, fun h => by simp [In.fault] at h⟩
    · rename_i hcond
      simp only [not_or, Bool.not_eq_true] at hcond
      rcases hS.2 hcond.1 with h0 | ⟨m, hme, hmf⟩
      · exact absurd hcond.2 (by simp [h0, wrongElem])
      · refine ⟨hS.1, fun _ => Or.inr ?_⟩
        obtain ⟨d, ds, hf, hdc, _⟩ := flat_head m
        have hcode : m.code = (⟨code⟩ : TypeCode).scalarOf := by
          rw [hmf, hf] at hcond
          rw [← hdc]; simpa [wrongElem] using hcond.2
        obtain ⟨mcode, name, id, ch⟩ := m
        simp only at hcode
        simp only [Encodable] at hme
        have h5' : (⟨code⟩ : TypeCode) = .StructA ∨ (⟨code⟩ : TypeCode) = .UnionA := by
          rcases h5 with h | h <;> subst h
          · exact Or.inl rfl
          · exact Or.inr rfl
        refine ⟨⟨⟨code⟩, [], id, ch⟩, ?_, ?_⟩
        · simp only [Encodable]
          refine ⟨?_, Or.inl (struct_ne _ h5'), hme.2.2⟩
          rcases h5' with h | h <;> rw [h] <;> decide
        · show [{ code := ⟨code⟩, members := (rec c i).1.1 : FieldDesc }] = _
          rw [hmf, hcode]
          simp only [flat]
          rw [if_pos h5', if_neg (by rcases h5' with h | h <;> rw [h] <;> decide)]
  rw [if_neg h5]
  by_cases h6 : code = 0x80 ∨ code = 0x81
  · rw [if_pos h6]
    simp only [getTypeCompound]
    have key := getKids_sound hr { code := ⟨code⟩, id := (getStr i).1 } (getSize false (getStr i).2).1 [] c (getSize false (getStr i).2).2 hc trivial
    simp only [stepKids] at key
    refine ⟨key.1, fun h => Or.inr ?_⟩
    obtain ⟨ms, e1, e2, e3⟩ := key.2 h
    have hs := stepKids_start ⟨code⟩ (getStr i).1 ms
    simp only at hs
    have h6' : (⟨code⟩ : TypeCode) = .Struct ∨ (⟨code⟩ : TypeCode) = .Union := by
      rcases h6 with h | h <;> subst h
      · exact Or.inl rfl
      · exact Or.inr rfl
    refine ⟨⟨⟨code⟩, [], (getStr i).1, ms⟩, ?_, ?_⟩
    · simp only [Encodable]
      refine ⟨?_, Or.inl ?_, getStr_length i, ?_, e2⟩
      · rcases h6' with h | h <;> rw [h] <;> decide
      · rcases h6' with h | h
        · left; rw [h]; decide
        · right; rw [h]; decide
      · have := getSize_le (getStr i).2; simp at e3; omega
    · show withKids (getKids rec _ _ _ c _).1.1.1 (getKids rec _ _ _ c _).1.1.2 = _
      rw [e1, hs.2]
      simp only [flat]
      rw [if_neg (by rcases h6' with h | h <;> rw [h] <;> decide)]
  rw [if_neg h6]
  by_cases h7 : (⟨code⟩ : TypeCode).scalarOf ∈ simpleCodes
  · rw [if_pos h7]
    refine ⟨hc, fun _ => Or.inr ⟨⟨⟨code⟩, [], [], []⟩, ?_, ?_⟩⟩
    · have key : ∀ n : Fin 256, (UInt8.ofFin n) &&& 0x10 = 0 → (⟨UInt8.ofFin n⟩ : TypeCode).scalarOf ∈ simpleCodes →
        (⟨UInt8.ofFin n⟩ : TypeCode).valid = true := by decide +kernel
      have hv := key code.toFin (by simpa using h4) (by simpa using h7)
      simp only [Encodable]
      exact ⟨by simpa using hv, Or.inr ⟨trivial, trivial⟩, by simp, by simp, by simp [EncodableKids]⟩
    · simp only [flat, assemble]
      rw [if_neg (by
        rintro (h | h)
        · exact h5 (Or.inl (congrArg TypeCode.code h))
        · exact h5 (Or.inr (congrArg TypeCode.code h))), if_neg (fun h => h6 (Or.inl (congrArg TypeCode.code h)))]
      rfl
  · rw [if_neg h7]
    exact ⟨hc, fun h => by simp [In.fault, failWith] at h⟩

theorem getType_sound (f : Nat) : ∀ (c : TypeStore) (i : In), CacheOK c → Sound (getType f c i) := by
  induction f with
  | zero => intro c i hc; exact ⟨hc, fun h => by simp [getType, In.fault, failWith] at h⟩
  | succ f ih =>
    intro c i hc
    simp only [getType, failIf]
    split
    · exact ⟨hc, fun h => by simp [In.fault] at h⟩
    · simp only [Dec.bind_apply, failIf]
      split
      · exact ⟨hc, fun h => by simp [In.fault] at h⟩
      · exact getTypeBody_sound ih c hc _ _

/-! ### too deep -/

theorem parses_then_err {be : Bool} {d : Dec α} {f : α → Dec β} {bs tail : List Byte} {a : α} (h : Parses be d bs a)
    (h2 : (f a ⟨be, false, tail⟩).2.err = true) : ((d >>= f) ⟨be, false, bs ++ tail⟩).2.err = true := by
  rw [Dec.bind_apply, h]; exact h2

theorem code_err {be : Bool} {f : Nat} {c : TypeStore} {code : Byte} {bs : List Byte}
    (h : (getTypeBody (getType f) c code ⟨be, false, bs⟩).2.err = true) :
    (getType (f+1) c ⟨be, false, code :: bs⟩).2.err = true := by
  have := parses_then_err (f := fun code => failIf false ([], c) (getTypeBody (getType f) c code)) (parses_getU8 be code) (tail := bs)
    (by simpa [failIf] using h)
  simpa [getType, failIf] using this

theorem code_err0 {be : Bool} {c : TypeStore} {bs : List Byte} : (getType 0 c ⟨be, false, bs⟩).2.err = true := by
  simp [getType, failWith, In.fault]

mutual
theorem too_deep (be : Bool) : ∀ (m : Member) (f : Nat) (c : TypeStore) (rest : List Byte), Encodable m → f < levels m →
    (getType f c ⟨be, false, typeBytes be m ++ rest⟩).2.err = true
  | ⟨code, name, id, ch⟩, f, c, rest, h, hf => by
    simp only [Encodable] at h
    obtain ⟨hv, hc, hid, hch, hk⟩ := h
    simp only [levels] at hf
    have comp : ∀ (cd : TypeCode) (f : Nat) (rest : List Byte), f < levelsAll ch →
        (getTypeCompound (getType f) cd c ⟨be, false, (strBytes be id ++ (sizeBytes be ch.length ++ kidBytes be ch)) ++ rest⟩).2.err = true := by
      intro cd f rest hf
      unfold getTypeCompound
      rw [List.append_assoc]
      refine parses_then_err (parses_getStr be id hid) ?_
      rw [List.append_assoc]
      refine parses_then_err (parses_getSize be false _ hch) ?_
      have := too_deep_kids be ch f { code := cd, id := id } [] c rest hk hf
      rw [Dec.bind_apply]
      exact this
    have compT : ∀ (cd : TypeCode) (f : Nat) (rest : List Byte), cd = .Struct ∨ cd = .Union → f < 1 + levelsAll ch →
        (getType f c ⟨be, false, (cd.code :: (strBytes be id ++ (sizeBytes be ch.length ++ kidBytes be ch))) ++ rest⟩).2.err = true := by
      intro cd f rest hcd hf
      cases f with
      | zero => exact code_err0
      | succ f =>
        rw [List.cons_append]
        refine code_err ?_
        have := comp cd f rest (by omega)
        rcases hcd with rfl | rfl
        · exact this
        · exact this
    by_cases hs : code.scalarOf = .Struct ∨ code.scalarOf = .Union
    · have arr : ∀ cd : TypeCode, cd = .StructA ∨ cd = .UnionA → f < 2 + levelsAll ch →
        (getType f c ⟨be, false, (cd.code :: cd.scalarOf.code :: (strBytes be id ++ (sizeBytes be ch.length ++ kidBytes be ch))) ++ rest⟩).2.err = true := by
        intro cd hcd hf
        cases f with
        | zero => exact code_err0
        | succ f =>
          rw [List.cons_append]
          refine code_err ?_
          have := compT cd.scalarOf f rest (by rcases hcd with rfl | rfl <;> decide) (by omega)
          have key : (getTypeArr (getType f) cd c ⟨be, false, (cd.scalarOf.code :: (strBytes be id ++ (sizeBytes be ch.length ++ kidBytes be ch))) ++ rest⟩).2.err = true := by
            unfold getTypeArr
            rw [Dec.bind_apply, failIf, if_pos (Or.inl this)]
            rfl
          rcases hcd with rfl | rfl
          · exact key
          · exact key
      rcases valid_cases code hv hs with h | h | h | h
      · subst h; exact compT .Struct f rest (Or.inl rfl) (by simpa using hf)
      · subst h; exact compT .Union f rest (Or.inr rfl) (by simpa using hf)
      · subst h; exact arr .StructA (Or.inl rfl) (by simpa using hf)
      · subst h; exact arr .UnionA (Or.inr rfl) (by simpa using hf)
    · have h1 : ¬ (code = .StructA ∨ code = .UnionA) := fun h => hs (struct_ne code h)
      obtain ⟨hid0, hch0⟩ := hc.resolve_left hs
      subst hch0
      simp only [h1, if_false, levelsAll] at hf
      obtain rfl : f = 0 := by omega
      exact code_err0
theorem too_deep_kids (be : Bool) : ∀ (ms : List Member) (f : Nat) (fld : FieldDesc) (kids : List FieldDesc) (c : TypeStore)
    (rest : List Byte), EncodableKids ms → f < levelsAll ms →
    (getKids (getType f) ms.length fld kids c ⟨be, false, kidBytes be ms ++ rest⟩).2.err = true
  | [], f, fld, kids, c, rest, h, hf => by simp [levelsAll] at hf
  | m :: ms, f, fld, kids, c, rest, h, hf => by
    simp only [EncodableKids] at h
    obtain ⟨hn, hm, hms⟩ := h
    simp only [levelsAll] at hf
    simp only [kidBytes, List.append_assoc, List.length_cons, getKids]
    refine parses_then_err (parses_getStr be m.name hn) ?_
    by_cases hl : levels m ≤ f
    · have P1 := parses_type be m f c hm hl
      refine parses_then_err P1 ?_
      simp only [failIf]
      split
      · rfl
      · exact too_deep_kids be ms f _ _ c rest hms (by omega)
    · have := too_deep be m f c (kidBytes be ms ++ rest) hm (by omega)
      rw [Dec.bind_apply, failIf, if_pos (Or.inl this)]
      rfl
end

/-! ### definitions accepted by the constructors -/

theorem forM_ok {l : List α} {f : α → Res Unit} (h : l.forM f = .ok ()) : ∀ a ∈ l, f a = .ok () := by
  induction l with
  | nil => intro a ha; simp at ha
  | cons x l ih =>
    simp only [List.forM] at h
    obtain ⟨u, h1, h2⟩ := Res.bind_eq_ok h
    intro a ha
    rcases List.mem_cons.mp ha with rfl | ha
    · exact h1
    · exact ih h2 a ha

theorem validate_ok {m : Member} (h : m.validate = .ok ()) : m.code.valid = true ∧
    (m.id = [] ∨ (m.code.scalarOf = .Struct ∨ m.code.scalarOf = .Union)) ∧
    (m.children = [] ∨ (m.code.scalarOf = .Struct ∨ m.code.scalarOf = .Union)) := by
  unfold Member.validate at h
  obtain ⟨_, _, h⟩ := Res.bind_eq_ok h
  obtain ⟨_, h1, h2⟩ := Res.bind_eq_ok h
  simp only [nodeValidate] at h1
  split at h1
  · cases h1
  · rename_i hid
    split at h1
    · cases h1
    · rename_i hv
      refine ⟨by simpa using hv, ?_, ?_⟩
      · by_cases hi : m.id = []
        · exact Or.inl hi
        · right
          by_cases h3 : m.code.scalarOf = .Struct
          · exact Or.inl h3
          · by_cases h4 : m.code.scalarOf = .Union
            · exact Or.inr h4
            · exact absurd ⟨hi, h3, h4⟩ hid
      · cases hch : m.children with
        | nil => exact Or.inl rfl
        | cons c cs =>
          right
          have := forM_ok h2 c (by simp [hch])
          simp only [nodeValidate] at this
          split at this
          · cases this
          · split at this
            · cases this
            · split at this
              · cases this
              · rename_i h5
                by_cases h3 : m.code.scalarOf = .Struct
                · exact Or.inl h3
                · by_cases h4 : m.code.scalarOf = .Union
                  · exact Or.inr h4
                  · exact absurd ⟨h3, h4⟩ h5

mutual
theorem encodable_of_validated : ∀ m : Member, Validated m → FitsWire m → Encodable m
  | ⟨code, name, id, ch⟩, hv, hf => by
    simp only [Validated] at hv
    simp only [FitsWire] at hf
    obtain ⟨h1, h2, h3⟩ := validate_ok hv.1
    simp only at h1 h2 h3
    simp only [Encodable]
    refine ⟨h1, ?_, by omega, by omega, encodableKids_of_validated ch hv.2 hf.2.2.2⟩
    rcases h2 with h2 | h2
    · rcases h3 with h3 | h3
      · exact Or.inr ⟨h2, h3⟩
      · exact Or.inl h3
    · exact Or.inl h2
theorem encodableKids_of_validated : ∀ ms : List Member, ValidatedAll ms → FitsWireAll ms → EncodableKids ms
  | [], _, _ => trivial
  | m :: ms, hv, hf => by
    simp only [ValidatedAll] at hv
    simp only [FitsWireAll] at hf
    simp only [EncodableKids]
    refine ⟨?_, encodable_of_validated m hv.1 hf.1, encodableKids_of_validated ms hv.2 hf.2⟩
    obtain ⟨code, name, id, ch⟩ := m
    simp only [FitsWire] at hf
    have := hf.1.1
    simp only; omega
end

/-! ### building succeeds when no name is lost -/

theorem buildFinish_start {code : TypeCode} (id : Str) (ch : List Member) (hc : ¬ (code = .StructA ∨ code = .UnionA))
    (hf : Full ⟨code, [], id, ch⟩) :
    buildFinish (stepKids { code := code, id := id } [] ch).1 (stepKids { code := code, id := id } [] ch).2 =
      .ok (flat ⟨code, [], id, ch⟩) := by
  have hs := stepKids_start code id ch
  simp only at hs
  have e : withKids (stepKids { code := code, id := id } [] ch).1 (stepKids { code := code, id := id } [] ch).2 =
      flat ⟨code, [], id, ch⟩ := by
    rw [hs.2]; simp only [flat]; rw [if_neg hc]
  unfold buildFinish
  obtain ⟨d, ds, h1, h2, _⟩ := root_size _ hf
  rw [e, h1]
  simp only
  rw [if_pos]
  rw [h2, ← flat_length, h1]

theorem validate_name {code code' : TypeCode} {name id : Str} {ch : List Member} (h : Member.validate ⟨code, name, id, ch⟩ = .ok ())
    (hv : code'.valid = true) : Member.validate ⟨code', name, [], []⟩ = .ok () := by
  unfold Member.validate at h ⊢
  obtain ⟨_, h1, _⟩ := Res.bind_eq_ok h
  have e2 : nodeValidate none [] code' = .ok () := by simp [nodeValidate, hv]
  simp only at h1 ⊢
  rw [h1]
  simp [e2]

mutual
theorem build_total : ∀ m : Member, Validated m → DistinctNames m → build m = .ok (flat m)
  | ⟨code, name, id, ch⟩, hv, hd => by
    simp only [Validated] at hv
    have hd' := hd
    simp only [DistinctNames] at hd'
    have hk : ∀ fld, buildKids fld [] ch = .ok (stepKids fld [] ch) := fun fld => buildKids_total ch fld [] hv.2 hd'.2
    rw [build]
    split
    · rename_i hc
      have hv2 := validate_name (code' := code.scalarOf) hv.1 (by rcases hc with rfl | rfl <;> decide)
      rw [hv2]
      simp only [Res.bind_ok, hk]
      have hc' : ¬ (code.scalarOf = .StructA ∨ code.scalarOf = .UnionA) := by rcases hc with rfl | rfl <;> decide
      rw [buildFinish_start id ch hc' (full_of_distinct _ (distinct_of _ _ _ _ _ _ _ hd))]
      simp only [Res.bind_ok, flat]
      rw [if_pos hc, if_neg hc']
    · rename_i hc
      simp only [hk, Res.bind_ok]
      rw [buildFinish_start id ch hc (full_of_distinct _ (distinct_of _ _ _ _ _ _ _ hd)), flat_name _ [] name]
theorem buildKids_total : ∀ (ms : List Member) (fld : FieldDesc) (kids : List FieldDesc), ValidatedAll ms → DistinctNamesAll ms →
    buildKids fld kids ms = .ok (stepKids fld kids ms)
  | [], _, _, _, _ => rfl
  | m :: ms, fld, kids, hv, hd => by
    simp only [ValidatedAll] at hv
    simp only [DistinctNamesAll] at hd
    rw [buildKids, build_total m hv.1 hd.2.1]
    simp only [Res.bind_ok, buildKid_flat]
    rw [buildKids_total ms _ _ hv.2 hd.2.2]
    rfl
end

/-! ### a table determines the definition -/

theorem setParent_inj {n : Nat} {m m' : Member} (h : setParent n (flat m) = setParent n (flat m')) : flat m = flat m' := by
  obtain ⟨d, ds, h1, _, h2, _⟩ := flat_head m
  obtain ⟨d', ds', h1', _, h2', _⟩ := flat_head m'
  rw [h1, h1'] at h ⊢
  simp only [setParent, List.cons.injEq] at h
  rw [h.2]
  congr 1
  cases d; cases d'
  simp only at h2 h2'
  subst h2; subst h2'
  have := h.1
  simp only [FieldDesc.mk.injEq] at this ⊢
  exact this

mutual
theorem flat_inj : ∀ m m' : Member, Encodable m → Encodable m' → m.name = m'.name → flat m = flat m' → m = m'
  | ⟨code, name, id, ch⟩, ⟨code', name', id', ch'⟩, he, he', hn, h => by
    have hc : code = code' := by
      obtain ⟨d, ds, h1, h2, _⟩ := flat_head ⟨code, name, id, ch⟩
      obtain ⟨d', ds', h1', h2', _⟩ := flat_head ⟨code', name', id', ch'⟩
      rw [h1, h1'] at h
      cases h
      exact h2.symm.trans h2'
    subst hc
    simp only at hn
    subst hn
    simp only [Encodable] at he he'
    have key : ∀ cd : TypeCode, assemble cd id ch (flatKids (cd == .Struct) 1 ch) = assemble cd id' ch' (flatKids (cd == .Struct) 1 ch') →
        id = id' ∧ ch = ch' := by
      intro cd h
      simp only [assemble] at h
      by_cases hs : cd = .Struct
      · subst hs
        rw [if_pos rfl, if_pos rfl] at h
        simp only [List.cons.injEq, FieldDesc.mk.injEq] at h
        exact ⟨h.1.2.1, flatKids_inj ch ch' true 1 1 he.2.2.2.2 he'.2.2.2.2 h.1.2.2.2.1 h.2⟩
      · rw [if_neg hs, if_neg hs] at h
        have hb : (cd == TypeCode.Struct) = false := by simpa using hs
        simp only [hb, List.cons.injEq, FieldDesc.mk.injEq] at h
        exact ⟨h.1.2.1, flatKids_inj ch ch' false 1 0 he.2.2.2.2 he'.2.2.2.2 h.1.2.2.2.1 h.1.2.2.2.2.2⟩
    have : id = id' ∧ ch = ch' := by
      simp only [flat] at h
      split at h
      · simp only [List.cons.injEq, FieldDesc.mk.injEq] at h
        exact key _ h.1.2.2.2.2.2
      · exact key _ h
    rw [this.1, this.2]
theorem flatKids_inj : ∀ (ms ms' : List Member) (st : Bool) (off ioff : Nat), EncodableKids ms → EncodableKids ms' →
    kidIter ioff ms = kidIter ioff ms' → flatKids st off ms = flatKids st off ms' → ms = ms'
  | [], [], _, _, _, _, _, _, _ => rfl
  | [], _ :: _, _, _, _, _, _, h, _ => by simp [kidIter] at h
  | _ :: _, [], _, _, _, _, _, h, _ => by simp [kidIter] at h
  | m :: ms, m' :: ms', st, off, ioff, he, he', hi, h => by
    simp only [EncodableKids] at he he'
    simp only [kidIter, List.cons.injEq, Prod.mk.injEq] at hi
    simp only [flatKids] at h
    have hcnt : count m = count m' := by
      cases ms with
      | nil =>
        cases ms' with
        | nil =>
          have := congrArg List.length h
          simp only [flatKids, List.append_nil] at this
          cases st <;> simpa [setParent_length, flat_length] using this
        | cons _ _ => simp [kidIter] at hi
      | cons a ms =>
        cases ms' with
        | nil => simp [kidIter] at hi
        | cons a' ms' =>
          simp only [kidIter, List.cons.injEq, Prod.mk.injEq] at hi
          omega
    have hlen : (if st then setParent off (flat m) else flat m).length = (if st then setParent off (flat m') else flat m').length := by
      cases st <;> simp [setParent_length, flat_length, hcnt]
    have hsplit := List.append_inj h hlen
    have h1 : flat m = flat m' := by
      have := hsplit.1
      cases st
      · exact this
      · exact setParent_inj this
    have e1 := flat_inj m m' he.2.1 he'.2.1 hi.1.1 h1
    rw [hcnt] at hi
    have e2 := flatKids_inj ms ms' st (off + count m') (ioff + count m') he.2.2 he'.2.2 hi.2 (by
      have := hsplit.2
      rw [hcnt] at this
      exact this)
    rw [e1, e2]
end

/-! ### names recorded in a table -/

theorem namesOK_cases {t : List FieldDesc} (h : NamesOK t) : ∀ d ∈ t, (d.miter.map (·.1)).Nodup ∧
    (∀ p ∈ d.miter, (0x2e : Byte) ∉ p.1) ∧ NamesOK d.members := by
  cases h with
  | mk _ h1 h2 h3 => intro d hd; exact ⟨h1 d hd, h2 d hd, h3 d hd⟩

theorem namesOK_of {t : List FieldDesc} (h : ∀ d ∈ t, (d.miter.map (·.1)).Nodup ∧
    (∀ p ∈ d.miter, (0x2e : Byte) ∉ p.1) ∧ NamesOK d.members) : NamesOK t :=
  .mk t (fun d hd => (h d hd).1) (fun d hd => (h d hd).2.1) (fun d hd => (h d hd).2.2)

theorem namesOK_kid {ms : List Member} {st : Bool} {off : Nat} (h : NamesOK (flatKids st off ms)) : ∀ c ∈ ms, NamesOK (flat c) := by
  have h' := namesOK_cases h
  clear h
  induction ms generalizing off with
  | nil => intro c hc; simp at hc
  | cons m ms ih =>
    simp only [flatKids, List.mem_append] at h'
    intro c hc
    rcases List.mem_cons.mp hc with rfl | hc
    · refine namesOK_of fun d hd => ?_
      cases st
      · exact h' d (Or.inl hd)
      · cases hf : flat c with
        | nil => exact absurd hf (flat_ne_nil c)
        | cons a s =>
          rw [hf] at h' hd
          simp only [if_true, setParent] at h'
          rcases List.mem_cons.mp hd with rfl | hd
          · exact h' { d with parentIndex := off } (Or.inl (List.mem_cons_self ..))
          · exact h' d (Or.inl (List.mem_cons_of_mem _ hd))
    · exact ih (fun d hd => h' d (Or.inr hd)) c hc

theorem names_kids {off : Nat} {ms : List Member} (h : ∀ p ∈ kidIter off ms, (0x2e : Byte) ∉ p.1) : ∀ c ∈ ms, (0x2e : Byte) ∉ c.name := by
  intro c hc
  have : c.name ∈ (kidIter off ms).map (·.1) := by rw [kidIter_names]; exact List.mem_map.mpr ⟨c, hc, rfl⟩
  obtain ⟨p, hp, e⟩ := List.mem_map.mp this
  rw [← e]; exact h p hp

theorem distinctAll_of {ms : List Member} (h : ∀ c ∈ ms, (0x2e : Byte) ∉ c.name ∧ DistinctNames c) : DistinctNamesAll ms := by
  induction ms with
  | nil => trivial
  | cons m ms ih =>
    simp only [DistinctNamesAll]
    exact ⟨(h m (by simp)).1, (h m (by simp)).2, ih fun c hc => h c (by simp [hc])⟩

theorem encodableKids_mem {ms : List Member} (h : EncodableKids ms) : ∀ c ∈ ms, Encodable c := by
  induction ms with
  | nil => intro c hc; simp at hc
  | cons m ms ih =>
    simp only [EncodableKids] at h
    intro c hc
    rcases List.mem_cons.mp hc with rfl | hc
    · exact h.2.1
    · exact ih h.2.2 c hc

theorem distinct_of_names (m : Member) : Encodable m → NamesOK (flat m) → DistinctNames m := by
  induction m using Member.ind with
  | h m ih =>
    intro he hn
    obtain ⟨code, name, id, ch⟩ := m
    simp only [Encodable] at he
    simp only at ih
    have hke := encodableKids_mem he.2.2.2.2
    have comp : ∀ cd : TypeCode, NamesOK (assemble cd id ch (flatKids (cd == .Struct) 1 ch)) → DistinctNames ⟨code, name, id, ch⟩ := by
      intro cd h
      simp only [assemble] at h
      have hc := namesOK_cases h
      simp only [DistinctNames]
      by_cases hs : cd = .Struct
      · subst hs
        rw [if_pos rfl] at hc
        have h0 := hc _ (List.mem_cons_self ..)
        simp only [kidIter_names] at h0
        have hk : NamesOK (flatKids true 1 ch) := namesOK_of fun d hd => hc d (List.mem_cons_of_mem _ hd)
        refine ⟨h0.1, distinctAll_of fun c hc' => ⟨names_kids h0.2.1 c hc', ih c hc' (hke c hc') (namesOK_kid hk c hc')⟩⟩
      · rw [if_neg hs] at hc
        have h0 := hc _ (List.mem_cons_self ..)
        simp only [kidIter_names] at h0
        refine ⟨h0.1, distinctAll_of fun c hc' => ⟨names_kids h0.2.1 c hc', ih c hc' (hke c hc') (namesOK_kid h0.2.2 c hc')⟩⟩
    simp only [flat] at hn
    split at hn
    · exact comp _ (namesOK_cases hn _ (List.mem_cons_self ..)).2.2
    · exact comp _ hn

theorem namesOK_flatKids {ms : List Member} (h : ∀ c ∈ ms, NamesOK (flat c)) (st : Bool) : ∀ off, NamesOK (flatKids st off ms) := by
  induction ms with
  | nil => intro off; exact namesOK_of fun d hd => by simp [flatKids] at hd
  | cons m ms ih =>
    intro off
    refine namesOK_of fun d hd => ?_
    simp only [flatKids, List.mem_append] at hd
    rcases hd with hd | hd
    · have h1 := namesOK_cases (h m (by simp))
      cases st
      · exact h1 d hd
      · cases hf : flat m with
        | nil => exact absurd hf (flat_ne_nil m)
        | cons a s =>
          rw [hf] at h1 hd
          simp only [if_true, setParent] at hd
          rcases List.mem_cons.mp hd with rfl | hd
          · exact h1 a (List.mem_cons_self ..)
          · exact h1 d (List.mem_cons_of_mem _ hd)
    · exact namesOK_cases (ih (fun c hc => h c (by simp [hc])) _) d hd

theorem names_of_distinct (m : Member) : DistinctNames m → NamesOK (flat m) := by
  induction m using Member.ind with
  | h m ih =>
    intro hd
    have hk := distinct_kids hd
    obtain ⟨code, name, id, ch⟩ := m
    simp only at hk ih
    have hkn : ∀ off, ∀ p ∈ kidIter off ch, (0x2e : Byte) ∉ p.1 := by
      intro off p hp
      obtain ⟨c, hc, e⟩ := mem_kidIter.mp (show (p.1, p.2) ∈ kidIter off ch from hp)
      rw [← e]; exact (hk.2 c hc.mem).1
    have nil : NamesOK [] := namesOK_of fun d hd => by simp at hd
    have comp : ∀ cd : TypeCode, NamesOK (assemble cd id ch (flatKids (cd == .Struct) 1 ch)) := by
      intro cd
      have hkids := namesOK_flatKids (fun c hc => ih c hc (hk.2 c hc).2) (cd == .Struct) 1
      simp only [assemble]
      split
      · refine namesOK_of fun d hd => ?_
        rcases List.mem_cons.mp hd with rfl | hd
        · exact ⟨by simp only [kidIter_names]; exact hk.1, hkn _, nil⟩
        · exact namesOK_cases hkids d hd
      · refine namesOK_of fun d hd => ?_
        simp only [List.mem_singleton] at hd
        subst hd
        exact ⟨by simp only [kidIter_names]; exact hk.1, hkn _, hkids⟩
    simp only [flat]
    split
    · refine namesOK_of fun d hd => ?_
      simp only [List.mem_singleton] at hd
      subst hd
      exact ⟨by simp, by simp, comp _⟩
    · exact comp _

end Pvxs
