import Verif.Model.Float
namespace Pvxs

theorem roundShift_exact (m k : Nat) : roundShift (m * 2 ^ k) k = m := by
  have h : 0 < 2 ^ k := Nat.two_pow_pos k
  simp only [roundShift, Nat.mul_div_cancel _ h, Nat.mul_mod_left, Nat.mul_zero, Nat.not_lt_zero, false_or]
  rw [if_neg]
  omega

theorem widen_lt (x : Nat) : widen x < 2 ^ 64 := by
  simp only [widen]
  have hm : x % 2 ^ 23 < 2 ^ 23 := Nat.mod_lt _ (by decide)
  have he : x / 2 ^ 23 % 256 < 256 := Nat.mod_lt _ (by decide)
  have hs : x / 2 ^ 31 % 2 < 2 := Nat.mod_lt _ (by decide)
  generalize x % 2 ^ 23 = m at *
  generalize x / 2 ^ 23 % 256 = e at *
  generalize x / 2 ^ 31 % 2 = s at *
  split
  · split
    · omega
    · split <;> omega
  · split
    · split
      · omega
      · rename_i h0
        have hl : m.log2 < 23 := (Nat.log2_lt h0).mpr hm
        have h1 : 2 ^ m.log2 ≤ m := Nat.log2_self_le h0
        have h2 : m < 2 ^ (m.log2 + 1) := Nat.lt_log2_self
        have h3 : (m - 2 ^ m.log2) * 2 ^ (52 - m.log2) < 2 ^ 52 := by
          have e1 : 2 ^ 52 = 2 ^ m.log2 * 2 ^ (52 - m.log2) := by rw [← Nat.pow_add]; congr 1; omega
          rw [e1]
          apply Nat.mul_lt_mul_of_pos_right
          · rw [Nat.pow_succ] at h2; omega
          · exact Nat.two_pow_pos _
        omega
    · omega

/-- a float that is not a signalling NaN survives widening and narrowing -/
theorem narrow_widen (x : Nat) (hx : x < 2 ^ 32) (hn : ¬ (x / 2 ^ 23 % 256 = 255 ∧ 0 < x % 2 ^ 23 ∧ x % 2 ^ 23 < 2 ^ 22)) :
    narrow (widen x) = x := by
  have hm : x % 2 ^ 23 < 2 ^ 23 := Nat.mod_lt _ (by decide)
  have he : x / 2 ^ 23 % 256 < 256 := Nat.mod_lt _ (by decide)
  have hs : x / 2 ^ 31 % 2 < 2 := Nat.mod_lt _ (by decide)
  have hdec : x = (x / 2 ^ 31 % 2) * 2 ^ 31 + (x / 2 ^ 23 % 256) * 2 ^ 23 + x % 2 ^ 23 := by omega
  generalize hm' : x % 2 ^ 23 = m at *
  generalize he' : x / 2 ^ 23 % 256 = e at *
  generalize hs' : x / 2 ^ 31 % 2 = s at *
  -- components of a composed double
  have comp : ∀ E M, E < 2048 → M < 2 ^ 52 →
      (s * 2 ^ 63 + E * 2 ^ 52 + M) / 2 ^ 63 % 2 = s ∧ (s * 2 ^ 63 + E * 2 ^ 52 + M) / 2 ^ 52 % 2048 = E ∧
      (s * 2 ^ 63 + E * 2 ^ 52 + M) % 2 ^ 52 = M := by
    intro E M hE hM
    omega
  have key : ∀ w E M, w = s * 2 ^ 63 + E * 2 ^ 52 + M → E < 2048 → M < 2 ^ 52 → narrow w =
      (if E = 2047 then
        s * 2 ^ 31 + 255 * 2 ^ 23 + (if M = 0 then 0 else if M < 2 ^ 51 then M / 2 ^ 29 + 2 ^ 22 else M / 2 ^ 29)
      else if 897 ≤ E then s * 2 ^ 31 + min ((E - 896) * 2 ^ 23 + roundShift M 29) (255 * 2 ^ 23)
      else if E = 0 then s * 2 ^ 31
      else s * 2 ^ 31 + roundShift (2 ^ 52 + M) (926 - E)) := by
    intro w E M hw hE hM
    obtain ⟨a, b, c⟩ := comp E M hE hM
    rw [hw]
    simp only [narrow, a, b, c]
  have hw : widen x = (if e = 255 then
      s * 2 ^ 63 + 2047 * 2 ^ 52 + (if m = 0 then 0 else if m < 2 ^ 22 then (m + 2 ^ 22) * 2 ^ 29 else m * 2 ^ 29)
    else if e = 0 then
      if m = 0 then s * 2 ^ 63
      else s * 2 ^ 63 + (m.log2 + 874) * 2 ^ 52 + (m - 2 ^ m.log2) * 2 ^ (52 - m.log2)
    else s * 2 ^ 63 + (e + 896) * 2 ^ 52 + m * 2 ^ 29) := by
    simp only [widen, hm', he', hs']
  rw [hw]
  by_cases h1 : e = 255
  · rw [if_pos h1]
    by_cases h2 : m = 0
    · rw [if_pos h2, key _ 2047 0 rfl (by decide) (by decide)]
      simp; omega
    · rw [if_neg h2, if_neg (by omega), key _ 2047 (m * 2 ^ 29) rfl (by decide) (by omega)]
      rw [if_pos rfl, if_neg (by omega), if_neg (by omega), Nat.mul_div_cancel _ (by decide)]
      omega
  · rw [if_neg h1]
    by_cases h2 : e = 0
    · rw [if_pos h2]
      by_cases h3 : m = 0
      · rw [if_pos h3, key _ 0 0 (by omega) (by decide) (by decide)]
        simp; omega
      · rw [if_neg h3]
        have hl : m.log2 < 23 := (Nat.log2_lt h3).mpr hm
        have l1 : 2 ^ m.log2 ≤ m := Nat.log2_self_le h3
        have l2 : m < 2 ^ (m.log2 + 1) := Nat.lt_log2_self
        have e1 : 2 ^ 52 = 2 ^ m.log2 * 2 ^ (52 - m.log2) := by rw [← Nat.pow_add]; congr 1; omega
        have h4 : (m - 2 ^ m.log2) * 2 ^ (52 - m.log2) < 2 ^ 52 := by
          rw [e1]
          apply Nat.mul_lt_mul_of_pos_right
          · rw [Nat.pow_succ] at l2; omega
          · exact Nat.two_pow_pos _
        rw [key _ (m.log2 + 874) _ rfl (by omega) h4]
        rw [if_neg (by omega), if_neg (by omega), if_neg (by omega)]
        have e2 : 2 ^ 52 + (m - 2 ^ m.log2) * 2 ^ (52 - m.log2) = m * 2 ^ (52 - m.log2) := by
          conv => lhs; lhs; rw [e1]
          rw [← Nat.add_mul]; congr 1; omega
        have e3 : 926 - (m.log2 + 874) = 52 - m.log2 := by omega
        rw [e2, e3, roundShift_exact]
        omega
    · rw [if_neg h2, key _ (e + 896) (m * 2 ^ 29) rfl (by omega) (by omega)]
      rw [if_neg (by omega), if_pos (by omega), roundShift_exact, Nat.min_eq_left (by omega)]
      omega

end Pvxs
