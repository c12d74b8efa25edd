import Verif.Spec.BitMask
import Verif.Props.Wire
import Verif.Lemmas.BitMask
/-! Properties C08 and C09 (changed-field bit masks), and their part of C06. -/
namespace Pvxs.Props
open Pvxs Pvxs.Wire Pvxs.Spec Pvxs.BitMask

theorem test_iff (m : BitMask) (i : Nat) : m.test i = some true ↔ m.bit i = true := by
  by_cases h : i < 64 * m.words.length
  · rw [test_eq m i h]; simp
  · have h2 : m.words[i / 64]? = none := List.getElem?_eq_none (by omega)
    rw [bit_ge m i (by omega)]
    simp [test, h2]

theorem valid_wf {m : BitMask} (v : Valid m) : WF m := by
  have := v.store; unfold WF; omega

theorem noTail_clean {m : BitMask} (h : NoTail m) : Clean m := by
  intro i hi
  have := h i hi
  rw [ne_eq, test_iff] at this
  simpa using this

/-! ### C09 -/

/-- A mask made from a list of indices (all below 2^16-1) contains exactly those. -/
theorem C09_construct (bits : List Nat) (nbits : Nat) (hn : nbits < 2 ^ 16) (hb : ∀ b ∈ bits, b < 2 ^ 16 - 1) :
    ∃ m, ofBits bits nbits = some m ∧ Valid m ∧ NoTail m ∧ nbits ≤ m.size ∧ ∀ i, Has m i ↔ i ∈ bits := by
  have fin : ∀ (n : Nat) (m : BitMask), n < 2 ^ 16 → m.size = n → m.words.length = (n + 63) / 64 → nbits ≤ n →
      (∀ b ∈ bits, b < n) → (∀ j, m.bit j = decide (j ∈ bits)) →
      Valid m ∧ NoTail m ∧ nbits ≤ m.size ∧ ∀ i, Has m i ↔ i ∈ bits := by
    intro n m h1 h2 h3 h4 h5 h6
    refine ⟨⟨by omega, by rw [h3, h2]⟩, ?_, by omega, ?_⟩
    · intro i hi h
      rw [test_iff, h6] at h
      have := h5 i (by simpa using h)
      omega
    · intro i
      simp only [Has, test_iff, h6, decide_eq_true_eq, h2]
      exact ⟨fun h => h.2, fun h => ⟨h5 i h, h⟩⟩
  unfold ofBits
  by_cases he : bits.isEmpty
  · obtain ⟨s1, s2, s3, s4⟩ := sized_wf nbits hn
    simp only [he, ↓reduceIte]
    have : bits = [] := by simpa using he
    refine ⟨_, rfl, fin nbits _ hn s2 s3 (Nat.le_refl _) (by simp [this]) ?_⟩
    intro j; rw [s4, this]; simp
  · simp only [he, Bool.false_eq_true, ↓reduceIte]
    have hm := foldl_max_ge bits 0
    have hlt : bits.foldl max 0 < 2 ^ 16 - 1 := by
      have h0 : ∀ (l : List Nat) (a : Nat), a < 2 ^ 16 - 1 → (∀ b ∈ l, b < 2 ^ 16 - 1) → l.foldl max a < 2 ^ 16 - 1 := by
        intro l
        induction l with
        | nil => intro a h _; exact h
        | cons x l ih =>
          intro a h hl
          exact ih _ (by have := hl x (by simp); omega) (fun b hb => hl b (by simp [hb]))
      exact h0 bits 0 (by omega) hb
    obtain ⟨s1, s2, s3, s4⟩ := sized_wf (max nbits (1 + bits.foldl max 0)) (by omega)
    obtain ⟨m, e, es, el, eb⟩ := setAll_spec bits (sized (max nbits (1 + bits.foldl max 0))) (by
      intro b hb'
      have := hm.2 b hb'
      rw [s3]; omega)
    refine ⟨m, e, fin (max nbits (1 + bits.foldl max 0)) m (by omega) (by rw [es, s2]) (by rw [el, s3]) (by omega) ?_ ?_⟩
    · intro b hb'; have := hm.2 b hb'; omega
    · intro j; rw [eb, s4]; simp

example : ∃ m, ofBits [0, 63, 64, 130] 200 = some m ∧ Valid m ∧ NoTail m :=
  have ⟨m, a, b, c, _⟩ := C09_construct [0, 63, 64, 130] 200 (by decide) (by decide)
  ⟨m, a, b, c⟩

/-- `findSet(start)` returns the next member, and never reads outside the storage. -/
theorem C09_findSet (m : BitMask) (v : Valid m) (nt : NoTail m) (start : Nat) :
    ∃ r, m.findSet start = some r ∧ IsNext m start r := by
  obtain ⟨r, h1, h2, h3, h4, h5, h6⟩ := findSet_clean m (valid_wf v) (noTail_clean nt) start
  refine ⟨r, h1, ?_⟩
  have none_below : ∀ i, start ≤ i → i < r → ¬ Has m i := by
    intro i a b h
    have := (test_iff m i).mp h.2
    rw [h4 i a b] at this; cases this
  by_cases hs : start < m.size
  · rcases h5 with h5 | h5
    · right
      refine ⟨h5, fun i hi h => none_below i hi (by have := h.1; omega) h⟩
    · left
      refine ⟨⟨?_, (test_iff m r).mpr h5⟩, h3 hs, none_below⟩
      refine Classical.byContradiction fun hn => ?_
      have := noTail_clean nt r (by omega)
      rw [this] at h5; cases h5
  · right
    exact ⟨h6 (by omega), fun i hi h => by have := h.1; omega⟩

/-- Assigning a bit below the size changes exactly that bit. -/
theorem C09_assign (m : BitMask) (w : Valid m) (b : Nat) (v : Bool) (h : b < m.size) :
    ∃ m', m.set b v = some m' ∧ Valid m' ∧ m'.size = m.size ∧ (NoTail m → NoTail m') ∧
      ∀ i, Has m' i ↔ if i = b then v = true else Has m i := by
  have hs := w.store
  obtain ⟨m', e, es, el, eb⟩ := set_spec m b v (by omega)
  refine ⟨m', e, ⟨by rw [es]; exact w.size16, by rw [el, es]; exact hs⟩, es, ?_, ?_⟩
  · intro nt i hi ht
    rw [test_iff, eb] at ht
    have hne : ¬ i = b := by omega
    simp only [hne, ↓reduceIte] at ht
    exact nt i (by omega) ((test_iff m i).mpr ht)
  · intro i
    simp only [Has, test_iff, eb, es]
    by_cases hib : i = b
    · simp [hib, h]
    · simp [hib]

/-- reading is never out of bounds below the size -/
theorem C09_read_defined (m : BitMask) (v : Valid m) (i : Nat) (h : i < m.size) : ∃ b, m.test i = some b := by
  have := v.store
  exact ⟨_, test_eq m i (by omega)⟩

/-- an index at or beyond the storage is undefined behaviour, for reading and writing: the caller must check -/
theorem C09_out_of_storage (m : BitMask) (i : Nat) (b : Bool) (h : 64 * m.words.length ≤ i) :
    m.test i = none ∧ m.set i b = none := by
  have : m.words[i / 64]? = none := List.getElem?_eq_none (by omega)
  exact ⟨by simp [test, this], set_oob m i b h⟩

/-- and / or agree with intersection / union; complement agrees with the complement below the size. -/
theorem C09_and (a b : BitMask) (va : Valid a) (vb : Valid b) (h : a.size = b.size) :
    ∃ m, BitMask.and a b = .ok m ∧ Valid m ∧ m.size = a.size ∧ (NoTail a → NoTail m) ∧
      ∀ i, Has m i ↔ Has a i ∧ Has b i := by
  have l1 := va.store
  have l2 := vb.store
  have hl : (List.zipWith (· &&& ·) a.words b.words).length = (a.size + 63) / 64 := by
    simp only [List.length_zipWith]; omega
  have e := eval_spec a.size _ va.size16 hl
  refine ⟨⟨List.zipWith (· &&& ·) a.words b.words, a.size⟩, by simp only [BitMask.and, h, ne_eq, not_true, ↓reduceIte]; rw [← h]; exact e, ⟨va.size16, hl⟩, rfl, ?_, ?_⟩
  · intro nt i hi ht
    rw [test_iff, bit_zip_and a.words b.words a.size a.size b.size] at ht
    simp only [Bool.and_eq_true] at ht
    exact nt i hi ((test_iff a i).mpr ht.1)
  · intro i
    simp only [Has, test_iff, bit_zip_and a.words b.words a.size a.size b.size, Bool.and_eq_true, ← h]
    constructor
    · rintro ⟨x, y, z⟩; exact ⟨⟨x, y⟩, x, z⟩
    · rintro ⟨⟨x, y⟩, _, z⟩; exact ⟨x, y, z⟩

theorem C09_or (a b : BitMask) (va : Valid a) (vb : Valid b) (h : a.size = b.size) :
    ∃ m, BitMask.or a b = .ok m ∧ Valid m ∧ m.size = a.size ∧ (NoTail a → NoTail b → NoTail m) ∧
      ∀ i, Has m i ↔ Has a i ∨ Has b i := by
  have l1 := va.store
  have l2 := vb.store
  have hll : a.words.length = b.words.length := by rw [l1, l2, h]
  have hl : (List.zipWith (· ||| ·) a.words b.words).length = (a.size + 63) / 64 := by
    simp only [List.length_zipWith]; omega
  have e := eval_spec a.size _ va.size16 hl
  refine ⟨⟨List.zipWith (· ||| ·) a.words b.words, a.size⟩, by simp only [BitMask.or, h, hll, ne_eq, not_true, ↓reduceIte]; rw [← h]; exact e, ⟨va.size16, hl⟩, rfl, ?_, ?_⟩
  · intro na nb i hi ht
    rw [test_iff, bit_zip_or a.words b.words a.size a.size b.size i hll] at ht
    simp only [Bool.or_eq_true] at ht
    rcases ht with ht | ht
    · exact na i hi ((test_iff a i).mpr ht)
    · exact nb i (by simp only at hi; omega) ((test_iff b i).mpr ht)
  · intro i
    simp only [Has, test_iff, bit_zip_or a.words b.words a.size a.size b.size i hll, Bool.or_eq_true, ← h]
    constructor
    · rintro ⟨x, y | z⟩
      · exact Or.inl ⟨x, y⟩
      · exact Or.inr ⟨x, z⟩
    · rintro (⟨x, y⟩ | ⟨x, z⟩)
      · exact ⟨x, Or.inl y⟩
      · exact ⟨x, Or.inr z⟩

theorem C09_not (a : BitMask) (va : Valid a) :
    ∃ m, BitMask.not a = .ok m ∧ Valid m ∧ m.size = a.size ∧ ∀ i, i < a.size → (Has m i ↔ ¬ Has a i) := by
  have l1 := va.store
  have hl : (a.words.map (~~~ ·)).length = (a.size + 63) / 64 := by simpa using l1
  have e := eval_spec a.size _ va.size16 hl
  refine ⟨⟨a.words.map (~~~ ·), a.size⟩, e, ⟨va.size16, hl⟩, rfl, ?_⟩
  intro i hi
  simp only [Has, test_iff, bit_map_not a.words a.size a.size i (by omega), hi, true_and]
  simp

theorem resize_spec (a : BitMask) (va : Valid a) (n : Nat) (h : n < 2 ^ 16) : Valid (a.resize n) ∧ (a.resize n).size = n ∧
    ∀ i, (a.resize n).bit i = (a.bit i && decide (i / 64 < (n + 63) / 64)) := by
  have hs := storeWords_eq n (by omega)
  refine ⟨⟨by simp only [resize]; omega, ?_⟩, by simp only [resize]; omega, fun i => ?_⟩
  · simp only [resize, vresize_length, hs]
    rw [Nat.mod_eq_of_lt h]
  · simp only [bit, resize, vresize_getD, hs]
    by_cases hi : i / 64 < (n + 63) / 64 <;> simp [hi]

theorem vresize_self (ws : List (BitVec 64)) : vresize ws ws.length = ws := by simp [vresize]

/-- `a |= b`: the size becomes that of `b`.  What is not below this size is lost: `C09_or_assign_shrinks`. -/
theorem C09_or_assign (a b : BitMask) (va : Valid a) (vb : Valid b) :
    ∃ m, orAssign a b = .ok m ∧ Valid m ∧ m.size = b.size ∧ (NoTail a → NoTail b → a.size ≤ b.size → NoTail m) ∧
      ∀ i, NoTail a → (Has m i ↔ i < b.size ∧ (Has a i ∨ Has b i)) := by
  obtain ⟨v', h1, h2⟩ := resize_spec a va b.size vb.size16
  have l1 := v'.store
  have l2 := vb.store
  have hl : (a.resize b.size).words.length = b.words.length := by rw [l1, l2, h1]
  have hb : ∀ s i, bit ⟨List.zipWith (· ||| ·) (a.resize b.size).words b.words, s⟩ i = ((a.resize b.size).bit i || b.bit i) :=
    fun s i => bit_zip_or _ _ _ _ _ i hl
  refine ⟨⟨List.zipWith (· ||| ·) (a.resize b.size).words b.words, (a.resize b.size).size⟩, ?_, ⟨v'.size16, ?_⟩, h1, ?_, ?_⟩
  · simp only [orAssign, hl, Nat.lt_irrefl, if_false, vresize_self]
  · simp only [List.length_zipWith, hl, Nat.min_self, l2, h1]
  · intro na nb hle i hi ht
    rw [test_iff, hb, h2] at ht
    simp only [Bool.or_eq_true, Bool.and_eq_true] at ht
    rw [h1] at hi
    rcases ht with ht | ht
    · exact na i (by omega) ((test_iff a i).mpr ht.1)
    · exact nb i hi ((test_iff b i).mpr ht)
  · intro i na
    simp only [Has, test_iff, hb, h2, h1, Bool.or_eq_true, Bool.and_eq_true, decide_eq_true_eq]
    have key : a.bit i = true → i < a.size := by
      intro hx
      by_cases hlt : i < a.size
      · exact hlt
      · exact absurd ((test_iff a i).mpr hx) (na i (by omega))
    constructor
    · rintro ⟨h, ⟨x, _⟩ | x⟩
      · exact ⟨h, Or.inl ⟨key x, x⟩⟩
      · exact ⟨h, Or.inr ⟨h, x⟩⟩
    · rintro ⟨h, ⟨_, x⟩ | ⟨_, x⟩⟩
      · exact ⟨h, Or.inl ⟨x, by omega⟩⟩
      · exact ⟨h, Or.inr x⟩

/-- `a &= b`: the members of both, with the size of `b` -/
theorem C09_and_assign (a b : BitMask) (va : Valid a) (vb : Valid b) :
    ∃ m, andAssign a b = .ok m ∧ Valid m ∧ m.size = b.size ∧ (NoTail b → NoTail m) ∧
      ∀ i, NoTail a → (Has m i ↔ Has a i ∧ Has b i) := by
  obtain ⟨v', h1, h2⟩ := resize_spec a va b.size vb.size16
  have l1 := v'.store
  have l2 := vb.store
  have hl : (a.resize b.size).words.length = b.words.length := by rw [l1, l2, h1]
  have hb : ∀ s i, bit ⟨List.zipWith (· &&& ·) (a.resize b.size).words b.words, s⟩ i = ((a.resize b.size).bit i && b.bit i) :=
    fun s i => bit_zip_and _ _ _ _ _ i
  refine ⟨⟨List.zipWith (· &&& ·) (a.resize b.size).words b.words, (a.resize b.size).size⟩, ?_, ⟨v'.size16, ?_⟩, h1, ?_, ?_⟩
  · simp only [andAssign, hl, Nat.lt_irrefl, if_false, vresize_self]
  · simp only [List.length_zipWith, hl, Nat.min_self, l2, h1]
  · intro nb i hi ht
    rw [test_iff, hb, h2] at ht
    simp only [Bool.and_eq_true] at ht
    rw [h1] at hi
    exact nb i hi ((test_iff b i).mpr ht.2)
  · intro i na
    simp only [Has, test_iff, hb, h2, h1, Bool.and_eq_true, decide_eq_true_eq]
    have key : a.bit i = true → i < a.size := by
      intro hx
      by_cases hlt : i < a.size
      · exact hlt
      · exact absurd ((test_iff a i).mpr hx) (na i (by omega))
    constructor
    · rintro ⟨h, ⟨x, _⟩, y⟩
      exact ⟨⟨key x, x⟩, h, y⟩
    · rintro ⟨⟨_, x⟩, h, y⟩
      exact ⟨h, ⟨x, by omega⟩, y⟩

/-- {5} of size 64, |= {} of size 3, is {}, and a search for the next member of it finds 5, which is not below its size -/
theorem C09_or_assign_shrinks : ∃ a b m, ofBits [5] 64 = some a ∧ ofBits [] 3 = some b ∧ orAssign a b = .ok m ∧ Has a 5 ∧ (∀ i, ¬ Has m i) ∧ m.findSet 0 = some 5 := by
  refine ⟨⟨[32#64], 64⟩, ⟨[0#64], 3⟩, ⟨[32#64], 3⟩, by decide +kernel, by decide +kernel, by rfl, by decide, ?_, ?_⟩
  · intro i ⟨hi, ht⟩
    have : ∀ i, i < 3 → (⟨[32#64], 3⟩ : BitMask).test i ≠ some true := by decide
    exact this i hi ht
  · rw [findSet]; decide

/-- Two masks are equal just if they have the same size and the same members. -/
theorem C09_equal (a b : BitMask) (va : Valid a) (vb : Valid b) (na : NoTail a) (nb : NoTail b) :
    BitMask.beq a b = true ↔ a.size = b.size ∧ ∀ i, Has a i ↔ Has b i := by
  simp only [BitMask.beq, Bool.and_eq_true, beq_iff_eq]
  constructor
  · rintro ⟨h1, h2⟩
    refine ⟨h1, fun i => ?_⟩
    have : a = b := by cases a; cases b; simp only at h1 h2; rw [h1, h2]
    rw [this]
  · rintro ⟨h1, h2⟩
    refine ⟨h1, ?_⟩
    have hbit : ∀ i, a.bit i = b.bit i := by
      intro i
      rw [Bool.eq_iff_iff, ← test_iff, ← test_iff]
      by_cases hi : i < a.size
      · have := h2 i
        simp only [Has, hi, h1 ▸ hi, true_and] at this
        exact this
      · exact ⟨fun h => absurd h (na i (by omega)), fun h => absurd h (nb i (by omega))⟩
    have hl : a.words.length = b.words.length := by rw [va.store, vb.store, h1]
    apply List.ext_getElem hl
    intro k hk hk'
    apply BitVec.eq_of_getLsbD_eq
    intro j hj
    have := hbit (64 * k + j)
    have e1 : (64 * k + j) / 64 = k := by omega
    have e2 : (64 * k + j) % 64 = j := by omega
    simpa [bit, e1, e2, List.getD_eq_getElem?_getD, hk, hk'] using this

/-- different sizes are refused, not silently mixed -/
theorem C09_size_mismatch (a b : BitMask) (h : a.size ≠ b.size) :
    (∃ w, BitMask.and a b = .throws w) ∧ (∃ w, BitMask.or a b = .throws w) := by
  exact ⟨⟨_, by simp only [BitMask.and, ne_eq, h, not_false_eq_true, ↓reduceIte]; rfl⟩,
    ⟨_, by simp only [BitMask.or, ne_eq, h, not_false_eq_true, ↓reduceIte]; rfl⟩⟩

example : ∃ m, ofBits [1] 3 = some m ∧ ∃ n, BitMask.not m = .ok n ∧ (Has n 0 ∧ ¬ Has n 1 ∧ Has n 2) :=
  ⟨_, rfl, _, rfl, by decide⟩

/-- Full statement of C09 requires the next-member search to be right for every mask the API can produce.  It is not for
complements: bits of the last word above the size are set, and `findSet` reports one of them (an index beyond size()). -/
theorem C09_not_breaks_findSet : ¬ ∀ (a m : BitMask), Valid a → BitMask.not a = .ok m → ∀ start,
    ∃ r, m.findSet start = some r ∧ IsNext m start r := by
  intro h
  obtain ⟨r', k1, k2⟩ := h ⟨[15#64], 3⟩ ⟨[~~~15#64], 3⟩ ⟨by decide, by decide⟩ (by rfl) 0
  have : (⟨[~~~15#64], 3⟩ : BitMask).findSet 0 = some 4 := by
    rw [findSet]; decide
  rw [this] at k1
  have e : r' = 4 := by simpa using k1.symm
  subst e
  rcases k2 with k2 | k2
  · exact absurd k2.1.1 (by decide)
  · exact absurd k2.1 (by decide)

/-- Iterating `onlySet()` yields exactly the members, ascending, and terminates.  Missing from the full statement: masks
with set bits above the size. -/
theorem C09_onlySet_partial (m : BitMask) (v : Valid m) (nt : NoTail m) :
    ∃ fuel, m.onlySet 0 m.size fuel = some ((List.range m.size).filter fun i => decide (Has m i)) := by
  obtain ⟨r, h1, h2, h3, h4, h5, h6⟩ := findSet_clean m (valid_wf v) (noTail_clean nt) 0
  refine ⟨m.size + 1, ?_⟩
  have hw := walk_spec m (valid_wf v) (noTail_clean nt) (m.size + 1) r h2 h5 (by omega)
  simp only [onlySet, h1, hw, Option.some.injEq]
  have e : List.range m.size = List.range' 0 r ++ List.range' (0 + r) (m.size - r) := by
    rw [List.range'_append_1, List.range_eq_range']; congr 1; omega
  rw [e, List.filter_append]
  have hc : ∀ i, i < m.size → decide (Has m i) = m.bit i := by
    intro i hi
    simp only [Has, test_iff, hi, true_and]; simp
  have z : (List.range' 0 r).filter (fun i => decide (Has m i)) = [] :=
    filter_none 0 r (fun i a b => by rw [hc i (by omega)]; exact h4 i a (by omega))
  rw [z, List.nil_append, Nat.zero_add]
  apply List.filter_congr
  intro i hi
  rw [List.mem_range'_1] at hi
  exact (hc i (by omega)).symm

/-- the list of members in that statement, for a concrete mask -/
example : (List.range 70).filter (fun i => decide (Has ⟨[0x8000000000000001#64, 1#64], 70⟩ i)) = [0, 63, 64] := by
  decide +kernel

/-- `onlySet(a, b)` is documented to range over [a, b).  When `b` is not itself a member (and not the size) the loop never
reaches its end. -/
theorem C09_onlySet_range_diverges : ¬ ∀ (m : BitMask) (a b : Nat), Valid m → NoTail m → a ≤ b → b ≤ m.size →
    ∃ fuel, (m.onlySet a b fuel).isSome := by
  intro h
  have v : Valid (⟨[1#64], 3⟩ : BitMask) := ⟨by decide, by decide⟩
  have nt : NoTail (⟨[1#64], 3⟩ : BitMask) := by
    intro i hi ht
    have hi' : 3 ≤ i := hi
    rw [test_iff] at ht
    simp only [bit, List.getD_eq_getElem?_getD] at ht
    by_cases h0 : i / 64 = 0
    · rw [h0] at ht
      simp at ht
      omega
    · have : ([1#64] : List (BitVec 64))[i / 64]? = none := List.getElem?_eq_none (by simp; omega)
      rw [this] at ht; simp at ht
  obtain ⟨fuel, hf⟩ := h ⟨[1#64], 3⟩ 0 1 v nt (by omega) (by decide)
  have f0 : (⟨[1#64], 3⟩ : BitMask).findSet 0 = some 0 := by rw [findSet]; decide
  have fp : ∀ p, p = 0 ∨ p = 3 → (⟨[1#64], 3⟩ : BitMask).findSet (p + 1) = some 3 := by
    intro p hp
    have n1 : (⟨[1#64], 3⟩ : BitMask).findSet 64 = some 3 := by rw [findSet]; decide
    rcases hp with rfl | rfl
    · rw [findSet]
      have : ([1#64] : List (BitVec 64))[(0 + 1) / 64]? = some 1#64 := by decide
      simp only [this, show (0 + 1 < 3) = True from by decide]
      simpa using n1
    · rw [findSet]; decide
  have key : ∀ fuel p, p = 0 ∨ p = 3 → (⟨[1#64], 3⟩ : BitMask).walk 1 fuel p = none := by
    intro fuel
    induction fuel with
    | zero => intro p _; rfl
    | succ n ih =>
      intro p hp
      have hne : ¬ p = 1 := by omega
      simp only [walk, hne, ↓reduceIte, fp p hp, ih 3 (Or.inr rfl), Option.map_none]
  simp [onlySet, f0, key fuel 0 (Or.inl rfl)] at hf

/-! ### C08 -/

/-- The storage bits always survive, and the encoding ends at the last non-zero byte. -/
theorem C08_bits_roundtrip (be : Bool) (m : BitMask) (v : Valid m) :
    ∃ m', RoundTrips be m.toWire fromWire m' ∧ ∀ i, m'.test i = some true ↔ m.test i = some true := by
  have hl : m.words.length < 2 ^ 29 := by have := v.store; have := v.size16; omega
  refine ⟨m.trimmed, roundTrips_of (emits_toWire be m hl) (parses_fromWire be m hl) good_fromWire, ?_⟩
  intro i
  rw [test_iff, test_iff, trimmed_bit]

theorem exists_bit_of_ge (w : BitVec 64) (k : Nat) (h : 256 ^ k ≤ w.toNat) :
    ∃ j, 8 * k ≤ j ∧ j < 64 ∧ w.getLsbD j = true := by
  have hp : (256 : Nat) ^ k = 2 ^ (8 * k) := by rw [Nat.pow_mul]
  rw [hp] at h
  obtain ⟨j, hj, ht⟩ := Nat.exists_ge_and_testBit_of_ge_two_pow h
  refine ⟨j, hj, ?_, ht⟩
  refine Classical.byContradiction fun hn => ?_
  have := BitVec.getLsbD_of_ge w j (by omega)
  rw [BitVec.getLsbD] at this
  rw [this] at ht; cases ht

/-- the number of bytes sent: all members lie in them and the last one is not zero -/
theorem C08_no_trailing_zeros (be : Bool) (m : BitMask) (v : Valid m) :
    ∃ (nbytes : Nat) (payload : List Byte),
      (m.toWire (fresh be)).data = (putSize (fresh be) nbytes).data ++ payload ∧ payload.length = nbytes ∧
      (∀ i, m.test i = some true → i < 8 * nbytes) ∧
      (nbytes = 0 ∨ ∃ i, 8 * (nbytes - 1) ≤ i ∧ i < 8 * nbytes ∧ m.test i = some true) := by
  have hl : m.words.length < 2 ^ 29 := by have := v.store; have := v.size16; omega
  have ts := trim_all m.words
  have hE := emits_toWire be m hl (fresh be) rfl rfl rfl
  rw [hE]
  have h1 := ts.le
  have h2 := ts.extra_lt
  have h4 := ts.extra_word
  have h5 := ts.no_extra
  have h6 := ts.above
  unfold maskBytes
  generalize trim m.words m.words.length = r at *
  obtain ⟨nw, ex⟩ := r
  simp only at *
  have h3 : nw * 8 + ex ≤ 0xffffffff := by
    by_cases he : ex = 0
    · omega
    · have := (h4 he).1; omega
  have hS := emits_putSize be (nw * 8 + ex) h3 (fresh be) rfl rfl rfl
  simp only at hS
  refine ⟨nw * 8 + ex, (m.words.take nw).flatMap (fun w => wireBytes be 8 w.toNat) ++ leBytes ex (m.words.getD nw 0#64).toNat, ?_, ?_, ?_, ?_⟩
  · rw [hS]; rfl
  · have hlen : ∀ l : List (BitVec 64), (l.flatMap (fun w => wireBytes be 8 w.toNat)).length = l.length * 8 := by
      intro l
      induction l with
      | nil => rfl
      | cons w l ih => simp [List.flatMap_cons, wireBytes_length, ih]; omega
    rw [List.length_append, hlen, leBytes_length, List.length_take]; omega
  · intro i ht
    rw [test_iff] at ht
    refine Classical.byContradiction fun hn => ?_
    by_cases hi : i / 64 = nw
    · by_cases he : ex = 0
      · have := (h5 he).1
        simp only [bit, hi, this] at ht
        simp at ht
      · have hb := (h4 he).2.1
        have hp : (256 : Nat) ^ ex = 2 ^ (8 * ex) := by rw [Nat.pow_mul]
        simp only [bit, hi] at ht
        have hlt : (m.words.getD nw 0#64).toNat < 2 ^ (i % 64) := by
          rw [hp] at hb
          exact Nat.lt_of_lt_of_le hb (Nat.pow_le_pow_right (by omega) (by omega))
        rw [BitVec.getLsbD, Nat.testBit_lt_two_pow hlt] at ht; cases ht
    · have : m.words.getD (i / 64) 0#64 = 0#64 := h6 _ (by omega)
      simp only [bit, this] at ht
      simp at ht
  · by_cases he : ex = 0
    · rcases (h5 he).2 with h | h
      · left; omega
      · by_cases hnw : nw = 0
        · left; omega
        right
        obtain ⟨j, j1, j2, j3⟩ := exists_bit_of_ge _ _ h
        refine ⟨(nw - 1) * 64 + j, by omega, by omega, ?_⟩
        rw [test_iff, bit]
        have hd : ((nw - 1) * 64 + j) / 64 = nw - 1 := by omega
        have hm : ((nw - 1) * 64 + j) % 64 = j := by omega
        rw [hd, hm]; exact j3
    · right
      obtain ⟨j, j1, j2, j3⟩ := exists_bit_of_ge _ _ (h4 he).2.2
      have hlt : j < 8 * ex := by
        refine Classical.byContradiction fun hn => ?_
        have hb := (h4 he).2.1
        have hp : (256 : Nat) ^ ex = 2 ^ (8 * ex) := by rw [Nat.pow_mul]
        have hl2 : (m.words.getD nw 0#64).toNat < 2 ^ j := by
          rw [hp] at hb
          exact Nat.lt_of_lt_of_le hb (Nat.pow_le_pow_right (by omega) (by omega))
        rw [BitVec.getLsbD, Nat.testBit_lt_two_pow hl2] at j3; cases j3
      refine ⟨nw * 64 + j, by omega, by omega, ?_⟩
      rw [test_iff, bit]
      have hd : (nw * 64 + j) / 64 = nw := by omega
      have hm : (nw * 64 + j) % 64 = j := by omega
      rw [hd, hm]; exact j3

/-- Full statement of C08: the set of members received is the set sent.  It is false for masks with a member at or above
65528: the receiver's size (8 x bytes) wraps to 0 in its uint16_t. -/
theorem C08_largest_masks_lost : ¬ ∀ (be : Bool) (m : BitMask), Valid m → NoTail m →
    ∃ m', RoundTrips be m.toWire fromWire m' ∧ ∀ i, Has m' i ↔ Has m i := by
  intro h
  obtain ⟨m, _, v, nt, hsz, hm⟩ := C09_construct [65530] 65531 (by decide) (by decide)
  obtain ⟨m', rt, hh⟩ := h false m v nt
  have hl : m.words.length < 2 ^ 29 := by have := v.store; have := v.size16; omega
  have P := parses_fromWire false m hl []
  have R := rt.reads []
  have hE := emits_toWire false m hl (fresh false) rfl rfl rfl
  rw [hE] at R
  have e : m' = m.trimmed := by
    have : (m', input false []) = (m.trimmed, (⟨false, false, []⟩ : In)) := R.symm.trans P
    exact congrArg Prod.fst this
  have h1 : Has m 65530 := (hm 65530).mpr (by simp)
  have h2 := ((hh 65530).mpr h1)
  have hlt := h2.1
  rw [e] at hlt
  -- the last byte sent is byte 8191
  have ts := trim_all m.words
  have hw : m.words.length = 1024 := by
    have := v.store; have := h1.1; have := v.size16; omega
  have hb : (m.words.getD 1023 0#64).getLsbD 58 = true := (test_iff m 65530).mp h1.2
  have hbig : 2 ^ 58 ≤ (m.words.getD 1023 0#64).toNat := Nat.ge_two_pow_of_testBit hb
  have htrim : trim m.words m.words.length = (1024, 0) := by
    have b7 := byte_test (m.words.getD 1023 0#64) 7 (by omega)
    have hx := (m.words.getD 1023 0#64).isLt
    have h3 : (m.words.getD 1023 0#64 &&& 0xff00000000000000#64) ≠ 0#64 := by
      apply b7.mpr; omega
    rw [hw, trim]
    simp only [h3, ne_eq, not_false_eq_true, ↓reduceIte]
  have : m.trimmed.size = 0 := by simp [trimmed, htrim]
  omega

/-- Missing from the full statement: masks with a member at or above 65528. -/
theorem C08_mask_roundtrip_partial (be : Bool) (m : BitMask) (v : Valid m) (nt : NoTail m) (hi : ∀ i, Has m i → i < 65528) :
    ∃ m', RoundTrips be m.toWire fromWire m' ∧ ∀ i, Has m' i ↔ Has m i := by
  have hl : m.words.length < 2 ^ 29 := by have := v.store; have := v.size16; omega
  refine ⟨m.trimmed, roundTrips_of (emits_toWire be m hl) (parses_fromWire be m hl) good_fromWire, ?_⟩
  obtain ⟨nb, pl, h1, h2, h3, h4⟩ := C08_no_trailing_zeros be m v
  have has_of : ∀ i, m.test i = some true → Has m i := by
    intro i ht
    refine ⟨?_, ht⟩
    refine Classical.byContradiction fun hn => nt i (by omega) ht
  have hnb : nb ≤ 8191 := by
    rcases h4 with h4 | ⟨i, i1, i2, i3⟩
    · omega
    · have := hi i (has_of i i3); omega
  -- the size of the received mask is 8 * nb
  have hsz : m.trimmed.size = 8 * nb := by
    have hE := emits_toWire be m hl (fresh be) rfl rfl rfl
    have P := parses_fromWire be m hl []
    have h5 : (maskBytes be m) = (putSize (fresh be) nb).data ++ pl := by
      rw [← h1, hE]; rfl
    have r1 := (C01_size_roundtrip be false nb (by omega)).reads (pl ++ [])
    unfold maskBytes at h5
    have ts := trim_all m.words
    have hle : (trim m.words m.words.length).1 * 8 + (trim m.words m.words.length).2 ≤ 0xffffffff := by
      have h1 := ts.le
      have h2 := ts.extra_lt
      by_cases he : (trim m.words m.words.length).2 = 0
      · omega
      · have := (ts.extra_word he).1; omega
    have p1 := parses_getSize be false _ hle ((List.flatMap (fun w => wireBytes be 8 w.toNat) (List.take (trim m.words m.words.length).fst m.words) ++
        leBytes (trim m.words m.words.length).snd (m.words.getD (trim m.words m.words.length).fst 0#64).toNat) ++ [])
    simp only [List.append_nil] at p1 r1
    simp only at h5
    rw [h5] at p1
    rw [show (input be ((putSize (fresh be) nb).data ++ pl)) = ⟨be, false, (putSize (fresh be) nb).data ++ pl⟩ from rfl, p1] at r1
    have := congrArg Prod.fst r1
    simp only at this
    simp only [trimmed, this]
    exact Nat.mod_eq_of_lt (by omega)
  intro i
  constructor
  · rintro ⟨_, ht⟩
    rw [test_iff, trimmed_bit, ← test_iff] at ht
    exact has_of i ht
  · rintro ⟨_, ht⟩
    refine ⟨by rw [hsz]; exact h3 i ht, ?_⟩
    rw [test_iff, trimmed_bit, ← test_iff]; exact ht

example : ∃ m, ofBits [0, 63, 64, 130] 200 = some m ∧ Valid m ∧ NoTail m ∧ ∀ i, Has m i → i < 65528 := by
  obtain ⟨m, a, b, c, _, d⟩ := C09_construct [0, 63, 64, 130] 200 (by decide) (by decide)
  refine ⟨m, a, b, c, fun i hi => ?_⟩
  have := (d i).mp hi
  simp at this; omega

example : (BitMask.toWire ⟨[0x8000000000000001#64, 0x300#64, 0#64], 130⟩ (fresh true)).data =
    [10, 0x80, 0, 0, 0, 0, 0, 0, 1, 0, 3] := by decide

/-- C06 for bit masks -/
theorem C06_mask_inside : StaysInside fromWire := staysInside_of good_fromWire

end Pvxs.Props
