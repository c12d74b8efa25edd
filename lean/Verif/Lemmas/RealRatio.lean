import Verif.Model.RealParse
import Verif.Spec.RealParse
import Verif.Lemmas.Real
import Verif.Lemmas.RealText
/-
A ratio rounded to a double, for C90.
-/
namespace Pvxs.Lemmas.RealRatio
open Pvxs Pvxs.RealParse Pvxs.RealScalar Pvxs.Spec.ArrayConv Pvxs.Lemmas.Real
open Pvxs.Lemmas.RealText (roundDiv_near)

theorem shift_spec (N d : Nat) (hd : 0 < d) :
    (1 ≤ shiftOf N d → 2 ^ 52 * (d * 2 ^ shiftOf N d) ≤ N) ∧ N < 2 ^ 53 * (d * 2 ^ shiftOf N d) := by
  have hm := Nat.div_add_mod N d
  have hr := Nat.mod_lt N hd
  unfold shiftOf
  generalize hU : N / d = U at *
  have hlt : U < 2 ^ (U.log2 + 1) := Nat.lt_log2_self
  constructor
  · intro h
    have hU0 : U ≠ 0 := by intro h0; rw [h0] at h; simp at h
    have h1 : 2 ^ U.log2 ≤ U := Nat.log2_self_le hU0
    have e : 2 ^ 52 * (d * 2 ^ (U.log2 - 52)) = d * 2 ^ U.log2 := by
      rw [Nat.mul_left_comm, ← Nat.pow_add]; congr 2; omega
    rw [e]
    have := Nat.mul_le_mul_left d h1
    omega
  · have e : 2 ^ 53 * (d * 2 ^ (U.log2 - 52)) = d * 2 ^ (53 + (U.log2 - 52)) := by
      rw [Nat.mul_left_comm, ← Nat.pow_add]
    rw [e]
    have h1 : U + 1 ≤ 2 ^ (53 + (U.log2 - 52)) := Nat.le_trans hlt (Nat.pow_le_pow_right (by decide) (by omega))
    have := Nat.mul_le_mul_left d h1
    rw [Nat.mul_add] at this
    omega

theorem mant_spec (N d : Nat) (hd : 0 < d) (k G q : Nat) (hk : k = shiftOf N d) (hG : G = d * 2 ^ k) (hq : q = roundDiv N G) :
    q ≤ 2 ^ 53 ∧ (1 ≤ k → 2 ^ 52 ≤ q) := by
  have hs := shift_spec N d hd
  rw [← hk, ← hG] at hs
  have hGp : 0 < G := by rw [hG]; exact Nat.mul_pos hd (Nat.two_pow_pos _)
  have hn := roundDiv_near N G hGp
  rw [← hq] at hn
  have h1 : N / G < 2 ^ 53 := by rw [Nat.div_lt_iff_lt_mul hGp]; exact hs.2
  refine ⟨by omega, fun hk1 => ?_⟩
  have h2 : 2 ^ 52 ≤ N / G := by rw [Nat.le_div_iff_mul_le hGp]; exact hs.1 hk1
  omega

theorem units_bits (N d : Nat) (hd : 0 < d) (k q : Nat) (hk : k = shiftOf N d) (hq : q = roundDiv N (d * 2 ^ k))
    (h : bitsOf N d < infBits) (s : Nat) (hs : s < 2) : units 52 11 (s * 2 ^ 63 + bitsOf N d) = some (signed s (q * 2 ^ k)) := by
  obtain ⟨m1, m2⟩ := mant_spec N d hd k _ q hk rfl hq
  have hb : bitsOf N d = k * 2 ^ 52 + q := by unfold bitsOf; rw [← hk, ← hq]
  rw [hb] at h ⊢
  unfold infBits at h
  by_cases c1 : q < 2 ^ 52
  · have hk0 : k = 0 := by omega
    have := units_mk 52 11 (s := s) (e := 0) (m := q) c1 (by decide) hs
    rw [show s * 2 ^ 63 + (k * 2 ^ 52 + q) = s * 2 ^ (52 + 11) + 0 * 2 ^ 52 + q by rw [hk0]; omega, this]
    unfold mag
    rw [if_pos rfl, hk0]; simp
  · by_cases c2 : q < 2 ^ 53
    · have he : k + 1 < 2 ^ 11 - 1 := by omega
      have := units_mk 52 11 (s := s) (e := k + 1) (m := q - 2 ^ 52) (by omega) he hs
      rw [show s * 2 ^ 63 + (k * 2 ^ 52 + q) = s * 2 ^ (52 + 11) + (k + 1) * 2 ^ 52 + (q - 2 ^ 52) by omega, this]
      unfold mag
      rw [if_neg (by omega), Nat.add_sub_cancel, show 2 ^ 52 + (q - 2 ^ 52) = q by omega]
    · have hq3 : q = 2 ^ 53 := by omega
      have he : k + 2 < 2 ^ 11 - 1 := by omega
      have := units_mk 52 11 (s := s) (e := k + 2) (m := 0) (by decide) he hs
      rw [show s * 2 ^ 63 + (k * 2 ^ 52 + q) = s * 2 ^ (52 + 11) + (k + 2) * 2 ^ 52 + 0 by omega, this]
      unfold mag
      rw [if_neg (by omega), hq3]
      congr 2
      rw [Nat.add_zero, ← Nat.pow_add, ← Nat.pow_add]
      congr 1; omega

theorem roundDiv_nearest (N G : Nat) (hG : 0 < G) (j : Int) :
    ((roundDiv N G : Int) * G - N).natAbs ≤ (j * G - N).natAbs ∧
    (j ≠ roundDiv N G → ((roundDiv N G : Int) * G - N).natAbs = (j * G - N).natAbs → roundDiv N G % 2 = 0) := by
  have hn := roundDiv_near N G hG
  generalize roundDiv N G = q at *
  obtain ⟨h1, -, -, h2⟩ := hn
  push_cast at h1 h2
  have key : j = q ∨ j * G ≤ q * G - G ∨ (q : Int) * G + G ≤ j * G := by
    rcases Int.lt_trichotomy j q with h | h | h
    · have := Int.mul_le_mul_of_nonneg_right (show j + 1 ≤ q by omega) (show (0 : Int) ≤ G by omega)
      rw [Int.add_mul, Int.one_mul] at this
      omega
    · exact Or.inl h
    · have := Int.mul_le_mul_of_nonneg_right (show (q : Int) + 1 ≤ j by omega) (show (0 : Int) ≤ G by omega)
      rw [Int.add_mul, Int.one_mul] at this
      omega
  rcases key with h | h
  · subst h
    exact ⟨Nat.le_refl _, fun hne => absurd rfl hne⟩
  · generalize (q : Int) * G = a at *
    generalize j * (G : Int) = b at *
    constructor
    · omega
    · intro _ he
      apply h2
      omega

/-- the bits are the nearest double, and of two the even one; all in units of 2^-1074 over d -/
theorem bits_nearest (N d : Nat) (hd : 0 < d) (h : bitsOf N d < infBits) (s : Nat) (hs : s < 2) :
    ∃ u : Nat, units 52 11 (s * 2 ^ 63 + bitsOf N d) = some (signed s u) ∧
      (∀ z w, units 52 11 z = some w → ((u : Int) * d - N).natAbs ≤ (w * d - N).natAbs) ∧
      (∀ z w, units 52 11 z = some w → w ≠ u → ((u : Int) * d - N).natAbs = (w * d - N).natAbs → bitsOf N d % 2 = 0) := by
  generalize hk : shiftOf N d = k
  generalize hq : roundDiv N (d * 2 ^ k) = q
  refine ⟨q * 2 ^ k, units_bits N d hd k q hk.symm hq.symm h s hs, ?_⟩
  have hsp := (shift_spec N d hd).1
  rw [hk] at hsp
  have hK : 0 < 2 ^ k := Nat.two_pow_pos k
  have hGp : 0 < d * 2 ^ k := Nat.mul_pos hd hK
  have hR := roundDiv_nearest N (d * 2 ^ k) hGp
  rw [hq] at hR
  have hpar : q % 2 = 0 → bitsOf N d % 2 = 0 := by
    intro hq2
    unfold bitsOf
    rw [hk, hq]; omega
  have eu : ((q * 2 ^ k : Nat) : Int) * d = (q : Int) * (d * 2 ^ k : Nat) := by
    push_cast; rw [Int.mul_assoc, Int.mul_comm (2 ^ k : Int)]
  have ew : ∀ j : Int, j * 2 ^ k * d = j * (d * 2 ^ k : Nat) := by
    intro j; push_cast; rw [Int.mul_assoc, Int.mul_comm (2 ^ k : Int)]
  have hc : ∀ z w, units 52 11 z = some w → (w.natAbs < 2 ^ 52 * 2 ^ k ∧ 1 ≤ k) ∨ ∃ j : Int, w = j * 2 ^ k := by
    intro z w hz
    rcases units_coarse 52 11 z (k + 1) (by omega) hz with h1 | h1
    · by_cases hk0 : k = 0
      · right; exact ⟨w, by rw [hk0]; simp⟩
      · left
        rw [← Nat.pow_add]
        exact ⟨h1, by omega⟩
    · right; exact h1
  have far : ∀ w : Int, w.natAbs < 2 ^ 52 * 2 ^ k ∧ 1 ≤ k → ((q : Int) * (d * 2 ^ k : Nat) - N).natAbs < (w * d - N).natAbs := by
    intro w ⟨h1, h2⟩
    have h3 := hsp h2
    have h4 := (hR (2 ^ 52 : Nat)).1
    have h5 : w.natAbs * d < 2 ^ 52 * 2 ^ k * d := Nat.mul_lt_mul_of_pos_right h1 hd
    have e5 : 2 ^ 52 * 2 ^ k * d = 2 ^ 52 * (d * 2 ^ k) := by rw [Nat.mul_assoc, Nat.mul_comm (2 ^ k)]
    rw [e5] at h5
    have e6 : (w * d).natAbs = w.natAbs * d := by rw [Int.natAbs_mul]; rfl
    rw [← e6] at h5
    have e7 : ((2 ^ 52 : Nat) : Int) * (d * 2 ^ k : Nat) = ((2 ^ 52 * (d * 2 ^ k) : Nat) : Int) := (Int.natCast_mul ..).symm
    rw [e7] at h4
    generalize (q : Int) * (d * 2 ^ k : Nat) = a at *
    generalize w * (d : Int) = b at *
    generalize 2 ^ 52 * (d * 2 ^ k) = c at *
    omega
  constructor
  · intro z w hz
    rw [eu]
    rcases hc z w hz with h1 | ⟨j, rfl⟩
    · exact Nat.le_of_lt (far w h1)
    · rw [ew]; exact (hR j).1
  · intro z w hz hne he
    rw [eu] at he
    rcases hc z w hz with h1 | ⟨j, rfl⟩
    · exact absurd he (Nat.ne_of_lt (far w h1))
    · rw [ew] at he
      refine hpar ((hR j).2 (fun hj => hne ?_) he)
      rw [hj]; push_cast; rfl

/-- when it is below infinity -/
theorem bits_fit (N d : Nat) (hd : 0 < d) (P : Nat) (hP : P = 2 ^ 2044) : bitsOf N d < infBits ↔ N < (2 ^ 54 - 1) * (P * d) := by
  generalize hk : shiftOf N d = k
  generalize hG : d * 2 ^ k = G
  generalize hq : roundDiv N G = q
  obtain ⟨m1, m2⟩ := mant_spec N d hd k G q hk.symm hG.symm hq.symm
  have hb : bitsOf N d = k * 2 ^ 52 + q := by unfold bitsOf; rw [hk, hG, hq]
  have hGp : 0 < G := by rw [← hG]; exact Nat.mul_pos hd (Nat.two_pow_pos _)
  obtain ⟨s1, s2⟩ := shift_spec N d hd
  rw [hk, hG] at s1 s2
  obtain ⟨n1, -, -, n4⟩ := roundDiv_near N G hGp
  rw [hq] at n1 n4
  rw [hb]
  unfold infBits
  -- G against P*d
  have g1 : k = 2045 → G = 2 * (P * d) := by
    intro h
    rw [← hG, h, hP, show (2 : Nat) ^ 2045 = 2 ^ 2044 * 2 from Nat.pow_succ ..]
    rw [Nat.mul_comm d, Nat.mul_right_comm, Nat.mul_comm]
  have g2 : k ≤ 2044 → G ≤ P * d := by
    intro h
    rw [← hG, hP, Nat.mul_comm]
    exact Nat.mul_le_mul_right _ (Nat.pow_le_pow_right (by decide) h)
  have g3 : 2046 ≤ k → 4 * (P * d) ≤ G := by
    intro h
    have : 4 * 2 ^ 2044 ≤ 2 ^ k := by
      rw [show (4 : Nat) = 2 ^ 2 from rfl, ← Nat.pow_add]
      exact Nat.pow_le_pow_right (by decide) (by omega)
    rw [← hG, hP, Nat.mul_comm d, ← Nat.mul_assoc]
    exact Nat.mul_le_mul_right _ this
  generalize P * d = D at *
  have hqG : 2 * ((q * G : Nat) - (N : Int)).natAbs ≤ G := n1
  rcases Nat.lt_trichotomy k 2045 with hk' | hk' | hk'
  · have := g2 (by omega)
    constructor
    · intro _; omega
    · intro _; omega
  · have := g1 hk'
    constructor
    · intro h
      have hq2 : q + 1 ≤ 2 ^ 53 := by omega
      by_cases hq3 : q + 2 ≤ 2 ^ 53
      · have := Nat.mul_le_mul_right G hq3
        rw [Nat.add_mul] at this
        omega
      · have hq4 : q = 2 ^ 53 - 1 := by omega
        have e : q * G = (2 ^ 53 - 1) * G := by rw [hq4]
        have hne : ¬(2 * ((q * G : Nat) - (N : Int)).natAbs = G) := fun h => by have := n4 h; omega
        omega
    · intro h
      have : q < 2 ^ 53 := by
        refine Nat.lt_of_not_le fun hge => ?_
        have := Nat.mul_le_mul_right G hge
        omega
      omega
  · have := g3 (by omega)
    have := s1 (by omega)
    have := m2 (by omega)
    constructor
    · intro h; omega
    · intro h; omega

end Pvxs.Lemmas.RealRatio
