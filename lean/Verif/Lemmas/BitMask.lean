import Verif.Model.BitMask
import Verif.Lemmas.Wire
/-! Helper lemmas about bit masks (not property statements). -/
namespace Pvxs.BitMask
open Wire

theorem ne_zero_iff (x : BitVec 64) : x ≠ 0#64 ↔ ∃ k, k < 64 ∧ x.getLsbD k = true := by
  constructor
  · intro h
    refine Classical.byContradiction fun hn => h ?_
    apply BitVec.eq_of_getLsbD_eq
    intro i hi
    simp only [BitVec.getLsbD_zero]
    cases hx : x.getLsbD i with
    | false => rfl
    | true => exact absurd ⟨i, hi, hx⟩ hn
  · rintro ⟨k, hk, hx⟩ rfl
    simp at hx

theorem one_shl (k : Nat) : (1#64 <<< k) = BitVec.twoPow 64 k := by
  simp [BitVec.twoPow]

theorem and_one_shl (w : BitVec 64) (k : Nat) (hk : k < 64) :
    (w &&& (1#64 <<< k)) ≠ 0#64 ↔ w.getLsbD k = true := by
  rw [ne_zero_iff]
  constructor
  · rintro ⟨j, hj, h⟩
    rw [one_shl, BitVec.getLsbD_and, BitVec.getLsbD_twoPow] at h
    simp at h
    obtain ⟨h1, h2, h3⟩ := h
    subst h3; exact h1
  · intro h
    refine ⟨k, hk, ?_⟩
    rw [one_shl, BitVec.getLsbD_and, BitVec.getLsbD_twoPow, h]; simp [hk]

theorem lowmask_bit (k i : Nat) (hk : k < 64) :
    ((1#64 <<< k) - 1#64).getLsbD i = decide (i < k) := by
  have h : ((1#64 <<< k) - 1#64).toNat = 2 ^ k - 1 := by
    have h1 : (1#64 <<< k).toNat = 2 ^ k := by
      rw [one_shl, BitVec.toNat_twoPow]
      exact Nat.mod_eq_of_lt (Nat.pow_lt_pow_right (by omega) hk)
    have h2 : (1 : Nat) ≤ 2 ^ k := Nat.one_le_two_pow
    have h3 : (1#64) ≤ (1#64 <<< k) := by
      rw [BitVec.le_def, h1]; simpa using h2
    rw [BitVec.toNat_sub_of_le h3, h1]; rfl
  rw [BitVec.getLsbD, h, Nat.testBit_two_pow_sub_one]

theorem masked_bit (w : BitVec 64) (k i : Nat) (hk : k < 64) :
    (w &&& ~~~((1#64 <<< k) - 1#64)).getLsbD i = (w.getLsbD i && decide (k ≤ i)) := by
  by_cases hi : i < 64
  · rw [BitVec.getLsbD_and, BitVec.getLsbD_not, lowmask_bit k i hk]
    by_cases h : i < k
    · have : ¬ k ≤ i := by omega
      simp [h, this]
    · have : k ≤ i := by omega
      simp [hi, h, this]
  · have h1 : ∀ x : BitVec 64, x.getLsbD i = false := fun x => BitVec.getLsbD_of_ge x i (by omega)
    simp [h1]

/-- the part of `lowBit` after isolating the lowest bit -/
def lowBitOf (m : BitVec 64) : Nat :=
  let bit := 63
  let bit := if m &&& 0x00000000ffffffff#64 ≠ 0#64 then bit - 32 else bit
  let bit := if m &&& 0x0000ffff0000ffff#64 ≠ 0#64 then bit - 16 else bit
  let bit := if m &&& 0x00ff00ff00ff00ff#64 ≠ 0#64 then bit - 8 else bit
  let bit := if m &&& 0x0f0f0f0f0f0f0f0f#64 ≠ 0#64 then bit - 4 else bit
  let bit := if m &&& 0x3333333333333333#64 ≠ 0#64 then bit - 2 else bit
  let bit := if m &&& 0x5555555555555555#64 ≠ 0#64 then bit - 1 else bit
  bit

theorem lowBitOf_twoPow : ∀ k : Fin 64, lowBitOf (BitVec.twoPow 64 k.val) = k.val := by decide +kernel

theorem isolate (x : BitVec 64) (k : Nat) (hk : k < 64) (hx : x.getLsbD k = true)
    (hl : ∀ j < k, x.getLsbD j = false) : x &&& (-x) = BitVec.twoPow 64 k := by
  apply BitVec.eq_of_getLsbD_eq
  intro i hi
  rw [BitVec.getLsbD_and, BitVec.getLsbD_neg, BitVec.getLsbD_twoPow]
  rcases Nat.lt_trichotomy i k with h | h | h
  · have : ¬ k = i := by omega
    simp [hl i h, this]
  · subst h
    have : ¬ ∃ j < i, x.getLsbD j = true := by
      rintro ⟨j, hj, h⟩; rw [hl j hj] at h; cases h
    simp only [this, hx, decide_false]; simp [hi]
  · have h1 : ∃ j < i, x.getLsbD j = true := ⟨k, h, hx⟩
    have h2 : ¬ k = i := by omega
    simp [h1, hi, h2]

theorem exists_lowest (x : BitVec 64) (h : x ≠ 0#64) :
    ∃ k, k < 64 ∧ x.getLsbD k = true ∧ ∀ j < k, x.getLsbD j = false := by
  obtain ⟨k, hk, hx⟩ := (ne_zero_iff x).mp h
  induction k using Nat.strongRecOn with
  | _ k ih =>
    by_cases hn : ∃ j, j < k ∧ x.getLsbD j = true
    · obtain ⟨j, hj, hxj⟩ := hn
      exact ih j hj (by omega) hxj
    · refine ⟨k, hk, hx, fun j hj => ?_⟩
      cases h2 : x.getLsbD j with
      | false => rfl
      | true => exact absurd ⟨j, hj, h2⟩ hn

theorem lowBit_spec (x : BitVec 64) (h : x ≠ 0#64) :
    lowBit x < 64 ∧ x.getLsbD (lowBit x) = true ∧ ∀ j < lowBit x, x.getLsbD j = false := by
  obtain ⟨k, hk, hx, hl⟩ := exists_lowest x h
  have : lowBit x = k := by
    show lowBitOf (x &&& -x) = k
    rw [isolate x k hk hx hl]
    exact lowBitOf_twoPow ⟨k, hk⟩
  rw [this]; exact ⟨hk, hx, hl⟩

/-- membership of an index in the storage, regardless of `_size` -/
def bit (m : BitMask) (i : Nat) : Bool := (m.words.getD (i / 64) 0#64).getLsbD (i % 64)

/-- the class invariant stated at bitmask.h:97 -/
def WF (m : BitMask) : Prop := m.size ≤ 64 * m.words.length

theorem or_mul64 (a b : Nat) (h : b < 64) : a * 64 ||| b = a * 64 + b := by
  have := Nat.shiftLeft_add_eq_or_of_lt (i := 6) (b := b) (by simpa using h) a
  rw [Nat.shiftLeft_eq] at this
  exact this.symm

/-- the result of `findSet`, whatever the tail bits -/
theorem findSet_spec (m : BitMask) (wf : WF m) (start : Nat) :
    ∃ r, m.findSet start = some r ∧
      (start < m.size → start ≤ r) ∧
      (∀ i, start ≤ i → i < r → i < m.size → m.bit i = false) ∧
      (r = m.size ∨ m.bit r = true) ∧ (m.size ≤ start → r = m.size) ∧
      (r < m.size ∨ r = m.size ∨ (r / 64 * 64 < m.size ∧ m.bit r = true)) := by
  induction hd : m.size - start using Nat.strongRecOn generalizing start with
  | _ n ih =>
    rw [findSet]
    by_cases h : start < m.size
    · have hw : start / 64 < m.words.length := by unfold WF at wf; omega
      have hget : m.words[start / 64]? = some (m.words[start/64]) := by simp [hw]
      have hgetD : ∀ i, i / 64 = start / 64 → m.words.getD (i / 64) 0#64 = m.words[start/64] := by
        intro i hi; rw [hi]; simp [List.getD, hw]
      have hk : start % 64 < 64 := Nat.mod_lt _ (by omega)
      simp only [h, ↓reduceDIte, hget]
      by_cases hz : (m.words[start/64] &&& ~~~((1#64 <<< (start % 64)) - 1#64)) = 0#64
      · simp only [hz, ↓reduceIte]
        obtain ⟨r, h1, h2, h3, h4, h5, h6⟩ := ih (m.size - (start / 64 + 1) * 64) (by omega) _ rfl
        refine ⟨r, h1, ?_, ?_, h4, by omega, h6⟩
        · intro _
          by_cases hh : (start / 64 + 1) * 64 < m.size
          · have := h2 hh; omega
          · have := h5 (by omega); omega
        · intro i hi1 hi2 hi3
          by_cases hlt : i < (start / 64 + 1) * 64
          · have hdiv : i / 64 = start / 64 := by omega
            have hb := congrArg (fun x => BitVec.getLsbD x (i % 64)) hz
            simp only [masked_bit _ _ _ hk, BitVec.getLsbD_zero] at hb
            have hle : start % 64 ≤ i % 64 := by omega
            simp only [hle, decide_true, Bool.and_true] at hb
            simp only [bit, hgetD i hdiv]; exact hb
          · exact h3 i (by omega) hi2 hi3
      · obtain ⟨l1, l2, l3⟩ := lowBit_spec _ hz
        simp only [hz, ↓reduceIte]
        rw [or_mul64 _ _ l1]
        generalize hL : lowBit (m.words[start/64] &&& ~~~((1#64 <<< (start % 64)) - 1#64)) = L at *
        rw [masked_bit _ _ _ hk] at l2
        simp only [Bool.and_eq_true, decide_eq_true_eq] at l2
        have hbit : m.bit (start / 64 * 64 + L) = true := by
          have hdiv : (start / 64 * 64 + L) / 64 = start / 64 := by omega
          have hmod : (start / 64 * 64 + L) % 64 = L := by omega
          simp only [bit, hgetD _ hdiv, hmod]; exact l2.1
        refine ⟨_, rfl, ?_, ?_, Or.inr hbit, ?_, ?_⟩
        · intro _; omega
        · intro i hi1 hi2 _
          have hdiv : i / 64 = start / 64 := by omega
          have := l3 (i % 64) (by omega)
          rw [masked_bit _ _ _ hk] at this
          have hle : start % 64 ≤ i % 64 := by omega
          simp only [hle, decide_true, Bool.and_true] at this
          simp only [bit, hgetD i hdiv]; exact this
        · intro hh; omega
        · right; right
          have hdiv : (start / 64 * 64 + L) / 64 = start / 64 := by omega
          refine ⟨by omega, hbit⟩
    · simp only [h, ↓reduceDIte]
      exact ⟨m.size, rfl, False.elim, fun i h1 h2 h3 => by omega, Or.inl rfl, fun _ => rfl, by simp⟩

/-! storage size -/

theorem or63 (n : Nat) : n ||| 63 = n / 64 * 64 + 63 := by
  have h : n = (n / 64) * 64 ||| (n % 64) := by
    rw [or_mul64 _ _ (Nat.mod_lt _ (by omega))]; omega
  have h2 : (n % 64) ||| 63 = 63 := by
    have h3 : ∀ k : Fin 64, k.val ||| 63 = 63 := by decide
    exact h3 ⟨n % 64, Nat.mod_lt _ (by omega)⟩
  conv => lhs; rw [h, Nat.or_assoc, h2]
  exact or_mul64 _ _ (by omega)

theorem storeWords_eq (bits : Nat) (h : bits < 2 ^ 64 - 64) : storeWords bits = (bits + 63) / 64 := by
  unfold storeWords
  rw [or63]
  by_cases h0 : bits = 0
  · subst h0; rfl
  · have : (bits + (2 ^ 64 - 1)) % 2 ^ 64 = bits - 1 := by omega
    rw [this]; omega

theorem vresize_length (ws : List (BitVec 64)) (n : Nat) : (vresize ws n).length = n := by
  simp [vresize]; omega

theorem vresize_getD (ws : List (BitVec 64)) (n k : Nat) :
    (vresize ws n).getD k 0#64 = if k < n then ws.getD k 0#64 else 0#64 := by
  simp only [vresize, List.getD_eq_getElem?_getD, List.getElem?_append, List.length_take,
    List.getElem?_take, List.getElem?_replicate]
  by_cases hk : k < n
  · by_cases hl : k < ws.length
    · have : k < min n ws.length := by omega
      simp [hk, this]
    · have h1 : ¬ k < min n ws.length := by omega
      have h2 : ws[k]? = none := List.getElem?_eq_none (by omega)
      simp only [hk, h1, h2, ↓reduceIte]
      split <;> rfl
  · have h1 : ¬ k < min n ws.length := by omega
    have h2 : ¬ (k - min n ws.length < n - ws.length) := by omega
    simp [hk, h1, h2]

theorem sized_wf (n : Nat) (h : n < 2 ^ 16) : WF (sized n) ∧ (sized n).size = n ∧ (sized n).words.length = (n + 63) / 64 ∧
    ∀ i, (sized n).bit i = false := by
  have hs := storeWords_eq n (by omega)
  refine ⟨?_, ?_, ?_, ?_⟩
  · simp only [WF, sized, resize, vresize_length, hs]; omega
  · simp only [sized, resize]; exact Nat.mod_eq_of_lt h
  · simp [sized, resize, vresize_length, hs]
  · intro i
    simp only [bit, sized, resize, vresize_getD, empty]
    split <;> simp

/-! test and set -/

theorem test_eq (m : BitMask) (i : Nat) (h : i < 64 * m.words.length) : m.test i = some (m.bit i) := by
  have hw : i / 64 < m.words.length := by omega
  have hget : m.words[i / 64]? = some (m.words[i/64]) := by simp [hw]
  have := and_one_shl (m.words[i/64]) (i % 64) (Nat.mod_lt _ (by omega))
  simp only [test, hget, bit, List.getD_eq_getElem?_getD, Option.getD_some, Option.some.injEq]
  rw [Bool.eq_iff_iff, decide_eq_true_iff]; exact this

theorem set_spec (m : BitMask) (i : Nat) (v : Bool) (h : i < 64 * m.words.length) :
    ∃ m', m.set i v = some m' ∧ m'.size = m.size ∧ m'.words.length = m.words.length ∧
      ∀ j, m'.bit j = if j = i then v else m.bit j := by
  have hw : i / 64 < m.words.length := by omega
  have hget : m.words[i / 64]? = some (m.words[i/64]) := by simp [hw]
  have hk : i % 64 < 64 := Nat.mod_lt _ (by omega)
  refine ⟨{ m with words := m.words.set (i / 64) (if v then m.words[i/64] ||| (1#64 <<< (i % 64))
      else m.words[i/64] &&& ~~~(1#64 <<< (i % 64))) }, by simp only [set, hget], rfl, by simp, ?_⟩
  intro j
  by_cases hd : j / 64 = i / 64
  · have hj : j % 64 < 64 := Nat.mod_lt _ (by omega)
    simp only [bit, List.getD_eq_getElem?_getD, hd, List.getElem?_set_self hw, Option.getD_some, hget]
    by_cases hij : j = i
    · subst hij
      cases v <;> simp [hk]
    · have : ¬ (i % 64 = j % 64) := by omega
      cases v <;> simp only [one_shl, Bool.false_eq_true, ↓reduceIte, hij, BitVec.getLsbD_and, BitVec.getLsbD_or,
        BitVec.getLsbD_not, BitVec.getLsbD_twoPow, this] <;> simp [hj]
  · have hij : ¬ j = i := by rintro rfl; exact hd rfl
    have : ¬ i / 64 = j / 64 := by omega
    simp only [bit, List.getD_eq_getElem?_getD, List.getElem?_set, hij, ↓reduceIte, this]

theorem set_oob (m : BitMask) (i : Nat) (v : Bool) (h : 64 * m.words.length ≤ i) : m.set i v = none := by
  have : m.words[i / 64]? = none := List.getElem?_eq_none (by omega)
  simp [set, this]

theorem setAll_spec (bs : List Nat) (m : BitMask) (h : ∀ b ∈ bs, b < 64 * m.words.length) :
    ∃ m', m.setAll bs = some m' ∧ m'.size = m.size ∧ m'.words.length = m.words.length ∧
      ∀ j, m'.bit j = (decide (j ∈ bs) || m.bit j) := by
  induction bs generalizing m with
  | nil => exact ⟨m, rfl, rfl, rfl, by simp⟩
  | cons b bs ih =>
    obtain ⟨m1, e1, s1, l1, b1⟩ := set_spec m b true (h b (by simp))
    obtain ⟨m2, e2, s2, l2, b2⟩ := ih m1 (by intro x hx; rw [l1]; exact h x (by simp [hx]))
    refine ⟨m2, by simp [setAll, e1, e2], by rw [s2, s1], by rw [l2, l1], ?_⟩
    intro j
    rw [b2, b1]
    by_cases hj : j = b
    · simp [hj]
    · simp [hj]

theorem foldl_max_ge (bs : List Nat) (a : Nat) : a ≤ bs.foldl max a ∧ ∀ b ∈ bs, b ≤ bs.foldl max a := by
  induction bs generalizing a with
  | nil => simp
  | cons x bs ih =>
    have := ih (max a x)
    refine ⟨by simp only [List.foldl_cons]; omega, ?_⟩
    intro b hb
    simp only [List.mem_cons] at hb
    rcases hb with rfl | hb
    · simp only [List.foldl_cons]; omega
    · exact this.2 b hb

theorem bit_ge (m : BitMask) (i : Nat) (h : 64 * m.words.length ≤ i) : m.bit i = false := by
  have : m.words[i / 64]? = none := List.getElem?_eq_none (by omega)
  simp [bit, List.getD_eq_getElem?_getD, this]

/-! algebra -/

theorem eval_spec (sz : Nat) (ws : List (BitVec 64)) (hs : sz < 2 ^ 16) (hl : ws.length = (sz + 63) / 64) :
    eval sz ws = .ok ⟨ws, sz⟩ := by
  have h1 := storeWords_eq sz (by omega)
  have h2 : vresize ws (storeWords sz) = ws := by
    simp only [vresize, h1, ← hl]; simp
  have h3 : sz % 2 ^ 16 = sz := Nat.mod_eq_of_lt hs
  have h4 : ws.length ≤ storeWords sz := by omega
  simp [eval, h2, h3, h4]

theorem bit_map_not (ws : List (BitVec 64)) (sz sz' i : Nat) (h : i < 64 * ws.length) :
    bit ⟨ws.map (~~~ ·), sz⟩ i = !bit ⟨ws, sz'⟩ i := by
  have hw : i / 64 < ws.length := by omega
  have hk : i % 64 < 64 := Nat.mod_lt _ (by omega)
  simp [bit, List.getD_eq_getElem?_getD, hw, hk]

theorem bit_zip_and (a b : List (BitVec 64)) (s s1 s2 i : Nat) :
    bit ⟨List.zipWith (· &&& ·) a b, s⟩ i = (bit ⟨a, s1⟩ i && bit ⟨b, s2⟩ i) := by
  simp only [bit, List.getD_eq_getElem?_getD, List.getElem?_zipWith]
  cases a[i / 64]? <;> cases b[i / 64]? <;> simp

theorem bit_zip_or (a b : List (BitVec 64)) (s s1 s2 i : Nat) (h : a.length = b.length) :
    bit ⟨List.zipWith (· ||| ·) a b, s⟩ i = (bit ⟨a, s1⟩ i || bit ⟨b, s2⟩ i) := by
  simp only [bit, List.getD_eq_getElem?_getD, List.getElem?_zipWith]
  by_cases hi : i / 64 < a.length
  · have hb : i / 64 < b.length := by omega
    simp [hi, hb]
  · have h1 : a[i / 64]? = none := List.getElem?_eq_none (by omega)
    have h2 : b[i / 64]? = none := List.getElem?_eq_none (by omega)
    simp [h1, h2]

/-! iteration -/

/-- no bit at or above `_size` is set in the storage -/
def Clean (m : BitMask) : Prop := ∀ i, m.size ≤ i → m.bit i = false

theorem findSet_clean (m : BitMask) (wf : WF m) (c : Clean m) (start : Nat) :
    ∃ r, m.findSet start = some r ∧ r ≤ m.size ∧ (start < m.size → start ≤ r) ∧
      (∀ i, start ≤ i → i < r → m.bit i = false) ∧ (r = m.size ∨ m.bit r = true) ∧ (m.size ≤ start → r = m.size) := by
  obtain ⟨r, h1, h2, h3, h4, h5, h6⟩ := findSet_spec m wf start
  have hr : r ≤ m.size := by
    refine Classical.byContradiction fun hn => ?_
    rcases h4 with h4 | h4
    · omega
    · rw [c r (by omega)] at h4; cases h4
  exact ⟨r, h1, hr, h2, fun i a b => h3 i a b (by omega), h4, h5⟩

theorem filter_none {p : Nat → Bool} (a n : Nat) (h : ∀ i, a ≤ i → i < a + n → p i = false) :
    (List.range' a n).filter p = [] := by
  rw [List.filter_eq_nil_iff]
  intro i hi
  rw [List.mem_range'_1] at hi
  simp [h i hi.1 hi.2]

theorem walk_spec (m : BitMask) (wf : WF m) (c : Clean m) (fuel pos : Nat) (hp : pos ≤ m.size)
    (hb : pos = m.size ∨ m.bit pos = true) (hf : m.size - pos < fuel) :
    m.walk m.size fuel pos = some ((List.range' pos (m.size - pos)).filter m.bit) := by
  induction fuel generalizing pos with
  | zero => omega
  | succ fuel ih =>
    by_cases he : pos = m.size
    · simp [walk, he]
    · have hbit : m.bit pos = true := by rcases hb with h | h; exact absurd h he; exact h
      obtain ⟨r, h1, h2, h3, h4, h5, h6⟩ := findSet_clean m wf c (pos + 1)
      have hle : pos + 1 ≤ r := by
        by_cases h : pos + 1 < m.size
        · exact h3 h
        · have := h6 (by omega); omega
      have hw := ih r h2 h5 (by omega)
      simp only [walk, he, ↓reduceIte, h1, hw, Option.map_some, Option.some.injEq]
      have e1 : m.size - pos = 1 + ((r - (pos + 1)) + (m.size - r)) := by omega
      rw [e1, ← List.range'_append_1, List.filter_append]
      have e2 : (List.range' pos 1).filter m.bit = [pos] := by simp [hbit]
      rw [e2, ← List.range'_append_1, List.filter_append, filter_none (pos + 1) (r - (pos + 1)) (fun i a b => h4 i a (by omega))]
      have e3 : pos + 1 + (r - (pos + 1)) = r := by omega
      simp [e3]

/-! wire -/

theorem and_byte (x k : Nat) : x &&& (255 * 2 ^ (8 * k)) = (x / 2 ^ (8 * k) % 256) * 2 ^ (8 * k) := by
  have h : x / 2 ^ (8 * k) % 256 = (x >>> (8 * k)) &&& (2 ^ 8 - 1) := by
    rw [Nat.and_two_pow_sub_one_eq_mod, Nat.shiftRight_eq_div_pow]
  rw [h, show (255 : Nat) = 2 ^ 8 - 1 from rfl, ← Nat.shiftLeft_eq, ← Nat.shiftLeft_eq]
  apply Nat.eq_of_testBit_eq
  intro i
  simp only [Nat.testBit_and, Nat.testBit_shiftLeft, Nat.testBit_shiftRight]
  by_cases hi : 8 * k ≤ i
  · have : 8 * k + (i - 8 * k) = i := by omega
    simp [hi, this]
  · simp [hi]

theorem byte_test (x : BitVec 64) (k : Nat) (hk : k < 8) :
    (x &&& BitVec.ofNat 64 (255 * 2 ^ (8 * k))) ≠ 0#64 ↔ x.toNat / 2 ^ (8 * k) % 256 ≠ 0 := by
  have hlt : 255 * 2 ^ (8 * k) < 2 ^ 64 := by
    have : 2 ^ (8 * k) ≤ 2 ^ 56 := Nat.pow_le_pow_right (by omega) (by omega)
    omega
  have h : (x &&& BitVec.ofNat 64 (255 * 2 ^ (8 * k))).toNat = (x.toNat / 2 ^ (8 * k) % 256) * 2 ^ (8 * k) := by
    rw [BitVec.toNat_and, BitVec.toNat_ofNat, Nat.mod_eq_of_lt hlt, and_byte]
  rw [ne_eq, ← BitVec.toNat_inj, h]
  have : 0 < 2 ^ (8 * k) := Nat.two_pow_pos _
  simp only [BitVec.toNat_ofNat, Nat.zero_mod, Nat.mul_eq_zero]
  omega

theorem byte_and_zero (x : BitVec 64) (k : Nat) (hk : k < 8) :
    (x &&& BitVec.ofNat 64 (255 * 2 ^ (8 * k))) = 0#64 ↔ x.toNat / 2 ^ (8 * k) % 256 = 0 := by
  have := byte_test x k hk
  constructor
  · intro h; refine Classical.byContradiction fun hn => (this.mpr hn) h
  · intro h; refine Classical.byContradiction fun hn => (this.mp hn) h

theorem step_lt (n k : Nat) (h : n < 2 ^ (k + 8)) (hz : n / 2 ^ k % 256 = 0) : n < 2 ^ k := by
  have h1 : n / 2 ^ k < 256 := Nat.div_lt_of_lt_mul (by rw [Nat.pow_add] at h; exact h)
  rw [Nat.mod_eq_of_lt h1] at hz
  exact (Nat.div_eq_zero_iff_lt (Nat.two_pow_pos k)).mp hz

theorem step_ge (n k : Nat) (hz : ¬ n / 2 ^ k % 256 = 0) : 2 ^ k ≤ n := by
  refine Classical.byContradiction fun hn => hz ?_
  rw [Nat.div_eq_of_lt (by omega)]

/-- `trim`'s case on one word: number of significant bytes -/
theorem extraOf_spec (x : BitVec 64) (h7 : x &&& 0xff00000000000000#64 = 0#64) (h0 : x ≠ 0#64) :
    0 < extraOf x ∧ extraOf x < 8 ∧ x.toNat < 256 ^ extraOf x ∧ 256 ^ (extraOf x - 1) ≤ x.toNat := by
  have b7 : x.toNat / 2 ^ 56 % 256 = 0 := (byte_and_zero x 7 (by omega)).mp h7
  have t6 : (x &&& 0x00ff000000000000#64) ≠ 0#64 ↔ x.toNat / 2 ^ 48 % 256 ≠ 0 := byte_test x 6 (by omega)
  have t5 : (x &&& 0x0000ff0000000000#64) ≠ 0#64 ↔ x.toNat / 2 ^ 40 % 256 ≠ 0 := byte_test x 5 (by omega)
  have t4 : (x &&& 0x000000ff00000000#64) ≠ 0#64 ↔ x.toNat / 2 ^ 32 % 256 ≠ 0 := byte_test x 4 (by omega)
  have t3 : (x &&& 0x00000000ff000000#64) ≠ 0#64 ↔ x.toNat / 2 ^ 24 % 256 ≠ 0 := byte_test x 3 (by omega)
  have t2 : (x &&& 0x0000000000ff0000#64) ≠ 0#64 ↔ x.toNat / 2 ^ 16 % 256 ≠ 0 := byte_test x 2 (by omega)
  have t1 : (x &&& 0x000000000000ff00#64) ≠ 0#64 ↔ x.toNat / 2 ^ 8 % 256 ≠ 0 := byte_test x 1 (by omega)
  have t0 : (x &&& 0x00000000000000ff#64) ≠ 0#64 ↔ x.toNat / 2 ^ 0 % 256 ≠ 0 := byte_test x 0 (by omega)
  have hz : x.toNat ≠ 0 := by
    intro h; exact h0 (BitVec.eq_of_toNat_eq (by simpa using h))
  have l7 := step_lt x.toNat 56 x.isLt b7
  unfold extraOf
  simp only [t6, t5, t4, t3, t2, t1, t0]
  clear t6 t5 t4 t3 t2 t1 t0 b7 h7
  by_cases c6 : x.toNat / 2 ^ 48 % 256 = 0
  · have l6 := step_lt x.toNat 48 l7 c6
    by_cases c5 : x.toNat / 2 ^ 40 % 256 = 0
    · have l5 := step_lt x.toNat 40 l6 c5
      by_cases c4 : x.toNat / 2 ^ 32 % 256 = 0
      · have l4 := step_lt x.toNat 32 l5 c4
        by_cases c3 : x.toNat / 2 ^ 24 % 256 = 0
        · have l3 := step_lt x.toNat 24 l4 c3
          by_cases c2 : x.toNat / 2 ^ 16 % 256 = 0
          · have l2 := step_lt x.toNat 16 l3 c2
            by_cases c1 : x.toNat / 2 ^ 8 % 256 = 0
            · have l1 := step_lt x.toNat 8 l2 c1
              by_cases c0 : x.toNat / 2 ^ 0 % 256 = 0
              · have l0 := step_lt x.toNat 0 l1 c0
                exact absurd (by simpa using l0) hz
              · have := step_ge _ _ c0
                simp only [c6, c5, c4, c3, c2, c1, c0, ne_eq, not_true, not_false_eq_true, ↓reduceIte]
                exact ⟨by omega, by omega, l1, this⟩
            · have := step_ge _ _ c1
              simp only [c6, c5, c4, c3, c2, c1, ne_eq, not_true, not_false_eq_true, ↓reduceIte]
              exact ⟨by omega, by omega, l2, this⟩
          · have := step_ge _ _ c2
            simp only [c6, c5, c4, c3, c2, ne_eq, not_true, not_false_eq_true, ↓reduceIte]
            exact ⟨by omega, by omega, l3, this⟩
        · have := step_ge _ _ c3
          simp only [c6, c5, c4, c3, ne_eq, not_true, not_false_eq_true, ↓reduceIte]
          exact ⟨by omega, by omega, l4, this⟩
      · have := step_ge _ _ c4
        simp only [c6, c5, c4, ne_eq, not_true, not_false_eq_true, ↓reduceIte]
        exact ⟨by omega, by omega, l5, this⟩
    · have := step_ge _ _ c5
      simp only [c6, c5, ne_eq, not_true, not_false_eq_true, ↓reduceIte]
      exact ⟨by omega, by omega, l6, this⟩
  · have := step_ge _ _ c6
    simp only [c6, ne_eq, not_false_eq_true, ↓reduceIte]
    exact ⟨by omega, by omega, l7, this⟩

/-- what `trim` keeps: everything above is zero; the last kept byte is not zero -/
structure TrimSpec (ws : List (BitVec 64)) (r : Nat × Nat) : Prop where
  extra_lt : r.2 < 8
  extra_word : r.2 ≠ 0 → r.1 < ws.length ∧ (ws.getD r.1 0#64).toNat < 256 ^ r.2 ∧ 256 ^ (r.2 - 1) ≤ (ws.getD r.1 0#64).toNat
  no_extra : r.2 = 0 → ws.getD r.1 0#64 = 0#64 ∧ (r.1 = 0 ∨ 256 ^ 7 ≤ (ws.getD (r.1 - 1) 0#64).toNat)
  above : ∀ i, r.1 < i → ws.getD i 0#64 = 0#64
  le : r.1 ≤ ws.length

theorem trim_spec (ws : List (BitVec 64)) (n : Nat) (hn : n ≤ ws.length) (ha : ∀ i, n ≤ i → ws.getD i 0#64 = 0#64) :
    TrimSpec ws (trim ws n) := by
  induction n with
  | zero => exact ⟨by simp [trim], by simp [trim], fun _ => ⟨ha 0 (by omega), Or.inl rfl⟩, fun i _ => ha i (by omega), by simp [trim]⟩
  | succ n ih =>
    simp only [trim]
    by_cases h7 : ws.getD n 0#64 &&& 0xff00000000000000#64 = 0#64
    · simp only [h7, ne_eq, not_true, ↓reduceIte]
      by_cases h0 : ws.getD n 0#64 = 0#64
      · simp only [h0, ↓reduceIte]
        apply ih (by omega)
        intro i hi
        by_cases h : i = n
        · rw [h]; exact h0
        · exact ha i (by omega)
      · simp only [h0, ↓reduceIte]
        obtain ⟨e1, e2, e3, e4⟩ := extraOf_spec _ h7 h0
        exact ⟨e2, fun _ => ⟨by omega, e3, e4⟩, fun h => by simp only at h; omega, fun i hi => ha i hi, by simp only; omega⟩
    · simp only [h7, ne_eq, not_false_eq_true, ↓reduceIte]
      refine ⟨by omega, by simp, fun _ => ⟨ha _ (Nat.le_refl _), Or.inr ?_⟩, fun i hi => ha i (Nat.le_of_lt hi), hn⟩
      have h8 := byte_and_zero (ws.getD n 0#64) 7 (by omega)
      have b7 : ¬ ((ws.getD n 0#64).toNat / 2 ^ 56 % 256 = 0) := fun h => h7 (h8.mpr h)
      simp only [Nat.add_sub_cancel]
      omega

theorem getD_ge (ws : List (BitVec 64)) (i : Nat) (h : ws.length ≤ i) : ws.getD i 0#64 = 0#64 := by
  simp [List.getD_eq_getElem?_getD, List.getElem?_eq_none h]

theorem trim_all (ws : List (BitVec 64)) : TrimSpec ws (trim ws ws.length) :=
  trim_spec ws ws.length (Nat.le_refl _) (fun i hi => getD_ge ws i hi)

theorem emits_putWords (be : Bool) (ws : List (BitVec 64)) :
    Emits be (fun o => putWords o ws) (ws.flatMap fun w => wireBytes be 8 w.toNat) := by
  induction ws with
  | nil => exact Emits.id be
  | cons w ws ih => simpa [putWords] using Emits.comp (emits_putInt be 8 w.toNat) ih

theorem emits_putLow (be : Bool) (w : BitVec 64) (i n : Nat) :
    Emits be (fun o => putLow o w i n) (leBytes n (w.toNat / 256 ^ i)) := by
  induction n generalizing i with
  | zero => exact Emits.id be
  | succ n ih =>
    have h1 := emits_putU8 be (UInt8.ofNat ((w >>> (8 * i)).toNat % 256))
    have h2 := Emits.comp h1 (ih (i + 1))
    have e1 : (w >>> (8 * i)).toNat = w.toNat / 256 ^ i := by
      rw [BitVec.toNat_ushiftRight, Nat.shiftRight_eq_div_pow, Nat.pow_mul]
    have e2 : w.toNat / 256 ^ (i + 1) = w.toNat / 256 ^ i / 256 := by
      rw [Nat.pow_succ, Nat.div_div_eq_div_mul]
    rw [e2, e1] at h2
    simp only [leBytes, putLow, e1]
    exact h2

/-- the bytes of a mask on the wire -/
def maskBytes (be : Bool) (m : BitMask) : List Byte :=
  let r := trim m.words m.words.length
  sizeBytes be (r.1 * 8 + r.2) ++ ((m.words.take r.1).flatMap (fun w => wireBytes be 8 w.toNat) ++
    leBytes r.2 (m.words.getD r.1 0#64).toNat)

theorem emits_toWire (be : Bool) (m : BitMask) (h : m.words.length < 2 ^ 29) :
    Emits be m.toWire (maskBytes be m) := by
  have ts := trim_all m.words
  have h1 := ts.le
  have h2 := ts.extra_lt
  have h3 : (trim m.words m.words.length).1 * 8 + (trim m.words m.words.length).2 ≤ 0xffffffff := by
    by_cases he : (trim m.words m.words.length).2 = 0
    · omega
    · have := (ts.extra_word he).1; omega
  have hA := Emits.comp (emits_putSize be _ h3) (emits_putWords be (m.words.take (trim m.words m.words.length).1))
  by_cases he : (trim m.words m.words.length).2 = 0
  · intro o hb he' hr
    have := hA o hb he' hr
    simp only [toWire, he, maskBytes, leBytes, List.append_nil, ne_eq, not_true, ↓reduceIte]
    simp only [he] at this
    exact this
  · have hB := Emits.comp hA (emits_putLow be (m.words.getD (trim m.words m.words.length).1 0#64) 0
      (trim m.words m.words.length).2)
    intro o hb he' hr
    have := hB o hb he' hr
    simp only [Nat.pow_zero, Nat.div_one, List.append_assoc] at this
    simp only [toWire, he, maskBytes, ne_eq, not_false_eq_true, ↓reduceIte]
    exact this

theorem good_getWords (n : Nat) : Good (getWords n) := by
  induction n with
  | zero => exact Good.pure []
  | succ n ih => exact Good.bind (good_getInt 8) fun v => Good.bind ih fun ws => Good.pure (BitVec.ofNat 64 v :: ws)

theorem parses_getWords (be : Bool) (ws : List (BitVec 64)) :
    Parses be (getWords ws.length) (ws.flatMap fun w => wireBytes be 8 w.toNat) ws := by
  induction ws with
  | nil => intro rest; rfl
  | cons w ws ih =>
    intro rest
    have h1 := parses_getInt be 8 w.toNat (by have := w.isLt; omega) (ws.flatMap (fun w => wireBytes be 8 w.toNat) ++ rest)
    simp only [List.length_cons, getWords, List.flatMap_cons, List.append_assoc, h1, ih rest]
    simp

theorem good_getLow (k : Nat) (acc : BitVec 64) (n : Nat) : Good (getLow k acc n) := by
  induction n generalizing k acc with
  | zero => exact Good.pure acc
  | succ n ih => exact Good.bind good_getU8 fun b => ih (k + 1) (acc ||| (BitVec.ofNat 64 b.toNat <<< (8 * k)))

theorem acc_or (acc : BitVec 64) (k b : Nat) (hk : k < 8) (ha : acc.toNat < 256 ^ k) (hb : b < 256) :
    (acc ||| (BitVec.ofNat 64 b <<< (8 * k))).toNat = acc.toNat + b * 256 ^ k := by
  have hp : (256 : Nat) ^ k = 2 ^ (8 * k) := by rw [Nat.pow_mul]
  have hk7 : 2 ^ (8 * k) ≤ 2 ^ 56 := Nat.pow_le_pow_right (by omega) (by omega)
  have hlt : b * 2 ^ (8 * k) < 2 ^ 64 := by
    calc b * 2 ^ (8 * k) ≤ 255 * 2 ^ 56 := Nat.mul_le_mul (by omega) hk7
      _ < 2 ^ 64 := by omega
  rw [BitVec.toNat_or, BitVec.toNat_shiftLeft, BitVec.toNat_ofNat, Nat.mod_eq_of_lt (by omega : b < 2 ^ 64),
    Nat.shiftLeft_eq, Nat.mod_eq_of_lt hlt, Nat.or_comm, ← Nat.shiftLeft_eq,
    ← Nat.shiftLeft_add_eq_or_of_lt (hp ▸ ha) b, Nat.shiftLeft_eq, hp, Nat.add_comm]

theorem parses_getLow (be : Bool) (n k v : Nat) (acc : BitVec 64) (hkn : k + n ≤ 8) (ha : acc.toNat < 256 ^ k) (hv : v < 256 ^ n) :
    Parses be (getLow k acc n) (leBytes n v) (BitVec.ofNat 64 (acc.toNat + v * 256 ^ k)) := by
  induction n generalizing k v acc with
  | zero =>
    intro rest
    have : v = 0 := by simpa using hv
    simp [getLow, leBytes, this]
  | succ n ih =>
    intro rest
    have hb : (UInt8.ofNat (v % 256)).toNat = v % 256 := by simp
    have hacc := acc_or acc k (v % 256) (by omega) ha (by omega)
    have hs : (256 : Nat) ^ (k + 1) = 256 * 256 ^ k := by rw [Nat.pow_succ, Nat.mul_comm]
    have h1 : acc.toNat + (v % 256) * 256 ^ k < 256 ^ (k + 1) := by
      have : (v % 256) * 256 ^ k ≤ 255 * 256 ^ k := Nat.mul_le_mul_right _ (by omega)
      rw [hs]; omega
    have h2 : v / 256 < 256 ^ n := by
      rw [Nat.pow_succ] at hv; exact Nat.div_lt_of_lt_mul (by omega)
    have h3 := ih (k + 1) (v / 256) (acc ||| (BitVec.ofNat 64 (v % 256) <<< (8 * k))) (by omega) (by rw [hacc]; exact h1) h2 rest
    have e : acc.toNat + v % 256 * 256 ^ k + v / 256 * 256 ^ (k + 1) = acc.toNat + v * 256 ^ k := by
      rw [hs, Nat.add_assoc, ← Nat.mul_assoc, ← Nat.add_mul]
      congr 2; omega
    simp only [getLow, leBytes, List.cons_append, getU8, In.ensure]
    simp only [hacc] at h3 ⊢
    rw [← e]
    simpa using h3

theorem good_getTail (ex : Nat) : Good (getTail ex) :=
  Good.ite' (c := ex ≠ 0) (Good.bind (good_getLow 0 0#64 ex) fun l => Good.pure [l]) (Good.pure [])

theorem good_fromWire : Good fromWire :=
  Good.bind (good_getSize false) fun nbytes =>
    Good.stop BitMask.empty (Good.bind (good_getWords (nbytes / 8)) fun ws =>
      Good.bind (good_getTail (nbytes % 8)) fun tail =>
        Good.pure (⟨ws ++ tail, (8 * nbytes) % 2^16⟩ : BitMask))

/-- the mask reconstructed by the receiver -/
def trimmed (m : BitMask) : BitMask :=
  let r := trim m.words m.words.length
  ⟨m.words.take r.1 ++ (if r.2 ≠ 0 then [m.words.getD r.1 0#64] else []), (8 * (r.1 * 8 + r.2)) % 2 ^ 16⟩

theorem parses_fromWire (be : Bool) (m : BitMask) (h : m.words.length < 2 ^ 29) :
    Parses be fromWire (maskBytes be m) m.trimmed := by
  have ts := trim_all m.words
  have h1 := ts.le
  have h2 := ts.extra_lt
  have h4 := ts.extra_word
  unfold trimmed maskBytes
  generalize trim m.words m.words.length = r at *
  obtain ⟨nw, ex⟩ := r
  simp only at *
  have h3 : nw * 8 + ex ≤ 0xffffffff := by
    by_cases he : ex = 0
    · omega
    · have := (h4 he).1; omega
  intro rest
  have hl : (m.words.take nw).length = nw := by simp; omega
  have p1 := parses_getSize be false _ h3 ((m.words.take nw).flatMap (fun w => wireBytes be 8 w.toNat) ++
    (leBytes ex (m.words.getD nw 0#64).toNat ++ rest))
  have p2 := parses_getWords be (m.words.take nw) (leBytes ex (m.words.getD nw 0#64).toNat ++ rest)
  rw [hl] at p2
  have hdiv : (nw * 8 + ex) / 8 = nw := by omega
  have hmod : (nw * 8 + ex) % 8 = ex := by omega
  simp only [fromWire, getTail, List.append_assoc, p1, hdiv, hmod, p2, Bool.false_eq_true, ↓reduceIte]
  by_cases he : ex = 0
  · simp [he, leBytes]
  · have p3 := parses_getLow be ex 0 (m.words.getD nw 0#64).toNat 0#64 (by omega) (by simp) (h4 he).2.1 rest
    simp only [Nat.pow_zero, Nat.mul_one, BitVec.toNat_ofNat, Nat.zero_mod, Nat.zero_add] at p3
    rw [BitVec.ofNat_toNat, BitVec.setWidth_eq] at p3
    simp only [ne_eq, he, not_false_eq_true, ↓reduceIte, p3]

theorem trimmed_bit (m : BitMask) (i : Nat) : m.trimmed.bit i = m.bit i := by
  have ts := trim_all m.words
  have h1 := ts.le
  have h4 := ts.extra_word
  have h5 := ts.no_extra
  have h6 := ts.above
  unfold trimmed
  generalize trim m.words m.words.length = r at *
  obtain ⟨nw, ex⟩ := r
  simp only at *
  have hl : (m.words.take nw).length = nw := by simp; omega
  suffices hs : ∀ k, (m.words.take nw ++ (if ex ≠ 0 then [m.words.getD nw 0#64] else [])).getD k 0#64 = m.words.getD k 0#64 by
    simp only [bit, hs]
  intro k
  rcases Nat.lt_trichotomy k nw with hk | hk | hk
  · simp only [List.getD_eq_getElem?_getD, List.getElem?_append, hl, hk, ↓reduceIte, List.getElem?_take]
  · subst hk
    by_cases he : ex = 0
    · have := (h5 he).1
      rw [this, getD_ge]
      simp [he]; omega
    · simp [List.getD_eq_getElem?_getD, hl, he]
  · rw [h6 k hk]
    by_cases he : ex = 0
    · rw [getD_ge]
      simp [he]; omega
    · rw [getD_ge]
      simp [he]; omega

end Pvxs.BitMask
