import Verif.Lemmas.RealRatio
import Verif.Props.RealScalar
/-
A double printed, read again and printed again.
-/
namespace Pvxs.Lemmas.RealBack
open Pvxs Pvxs.RealScalar Pvxs.RealParse Pvxs.Lemmas.RealText Pvxs.Lemmas.RealRatio
open Pvxs.Spec.ArrayConv (units one)

/-- ten to the `Z` is `up Z / dn Z` -/
def up (Z : Int) : Nat := 10 ^ Z.toNat
def dn (Z : Int) : Nat := 10 ^ (-Z).toNat

theorem up_pos (Z : Int) : 0 < up Z := Nat.pow_pos (by decide)
theorem dn_pos (Z : Int) : 0 < dn Z := Nat.pow_pos (by decide)

theorem cross (Y Z : Int) (k : Nat) (h : Y = Z + k) : up Y * dn Z = up Z * 10 ^ k * dn Y := by
  unfold up dn
  rw [← Nat.pow_add, ← Nat.pow_add, ← Nat.pow_add]
  congr 1
  omega

theorem roundDiv_eq (N D d : Nat) (hD : 0 < D) (h1 : 2 * N < 2 * (d * D) + D) (h2 : 2 * (d * D) < 2 * N + D) : roundDiv N D = d := by
  obtain ⟨h, -⟩ := roundDiv_near N D hD
  generalize roundDiv N D = q at *
  have a1 : q * D < (d + 1) * D := by rw [Nat.add_mul, Nat.one_mul]; omega
  have a2 : d * D < (q + 1) * D := by rw [Nat.add_mul, Nat.one_mul]; omega
  have := Nat.lt_of_mul_lt_mul_right a1
  have := Nat.lt_of_mul_lt_mul_right a2
  omega

theorem six_eq (n : Nat) (X : Int) (h : firstDigit n = X) : sixDigits n = roundDiv (n * dn (X - 5)) (one 52 11 * up (X - 5)) := by
  have h1 : one 52 11 = 2 ^ 1074 := rfl
  unfold sixDigits up dn
  rw [h, h1]
  dsimp only
  split
  · have e : (-(X - 5)).toNat = 0 := by omega
    rw [e, Nat.pow_zero, Nat.mul_one]
  · have e : (X - 5).toNat = 0 := by omega
    have e' : -(X - 5) = 5 - X := by omega
    rw [e, e', Nat.pow_zero, Nat.mul_one]

theorem one_pos : 0 < one 52 11 := Nat.two_pow_pos _
attribute [local irreducible] one

/-- the digits, without the sign -/
def text (n : Nat) : Str :=
  if sixDigits n = 10 ^ 6 then digitsText (10 ^ 5) (firstDigit n + 1) else digitsText (sixDigits n) (firstDigit n)

theorem first_eq (n : Nat) (hn : 0 < n) (X Z : Int) (k : Nat) (hZ : X = Z + k) (h1 : 10 ^ k * (one 52 11 * up Z) ≤ n * dn Z)
    (h2 : n * dn Z < 10 ^ (k + 1) * (one 52 11 * up Z)) : firstDigit n = X := by
  have hc := cross X Z k hZ
  refine Props.RealScalar.firstDigit_eq n hn X ?_ ?_
  · show up X * one 52 11 ≤ n * dn X
    refine Nat.le_of_mul_le_mul_right (c := dn Z) ?_ (dn_pos Z)
    calc up X * one 52 11 * dn Z = up X * dn Z * one 52 11 := by ac_rfl
      _ = 10 ^ k * (one 52 11 * up Z) * dn X := by rw [hc]; ac_rfl
      _ ≤ n * dn Z * dn X := Nat.mul_le_mul_right _ h1
      _ = _ := by ac_rfl
  · show n * dn X < up X * one 52 11 * 10
    refine Nat.lt_of_mul_lt_mul_right (a := dn Z) ?_
    calc n * dn X * dn Z = n * dn Z * dn X := by ac_rfl
      _ < 10 ^ (k + 1) * (one 52 11 * up Z) * dn X := Nat.mul_lt_mul_of_pos_right h2 (dn_pos X)
      _ = up Z * 10 ^ k * dn X * one 52 11 * 10 := by rw [Nat.pow_succ]; ac_rfl
      _ = _ := by rw [← hc]; ac_rfl

/-- what is very near to six digits is printed with these digits -/
theorem text_near50 (n d : Nat) (X : Int) (hn : 0 < n) (h1 : 10 ^ 5 ≤ d) (h2 : d < 10 ^ 6)
    (lo : (2 ^ 50 - 1) * (d * (one 52 11 * up (X - 5))) ≤ 2 ^ 50 * (n * dn (X - 5)))
    (hi : 2 ^ 50 * (n * dn (X - 5)) ≤ (2 ^ 50 + 1) * (d * (one 52 11 * up (X - 5)))) : text n = digitsText d X := by
  have hT := one_pos
  have hG : 0 < one 52 11 * up (X - 5) := Nat.mul_pos hT (up_pos _)
  by_cases hb : 10 ^ 5 * (one 52 11 * up (X - 5)) ≤ n * dn (X - 5)
  · have hf : firstDigit n = X := by
      refine first_eq n hn X (X - 5) 5 (by omega) hb ?_
      generalize one 52 11 * up (X - 5) = G at *
      have : d * G ≤ (10 ^ 6 - 1) * G := Nat.mul_le_mul_right _ (by omega)
      omega
    have hs : sixDigits n = d := by
      rw [six_eq n X hf]
      generalize one 52 11 * up (X - 5) = G at *
      have : d * G ≤ (10 ^ 6 - 1) * G := Nat.mul_le_mul_right _ (by omega)
      exact roundDiv_eq _ _ _ hG (by omega) (by omega)
    unfold text
    rw [hs, hf, if_neg (by omega)]
  · have hd : d = 10 ^ 5 := by
      refine Classical.byContradiction fun hne => hb ?_
      have : (10 ^ 5 + 1) * (one 52 11 * up (X - 5)) ≤ d * (one 52 11 * up (X - 5)) := Nat.mul_le_mul_right _ (by omega)
      generalize one 52 11 * up (X - 5) = G at *
      omega
    subst hd
    have hc := cross (X - 5) (X - 6) 1 (by omega)
    have k1 : 10 ^ 5 * (one 52 11 * up (X - 5)) * dn (X - 6) = 10 ^ 6 * (one 52 11 * up (X - 6)) * dn (X - 5) := by
      calc _ = 10 ^ 5 * (one 52 11 * (up (X - 5) * dn (X - 6))) := by ac_rfl
        _ = _ := by rw [hc, Nat.pow_succ 10 5]; ac_rfl
    have lo' : (2 ^ 50 - 1) * (10 ^ 6 * (one 52 11 * up (X - 6))) ≤ 2 ^ 50 * (n * dn (X - 6)) := by
      refine Nat.le_of_mul_le_mul_right (c := dn (X - 5)) ?_ (dn_pos _)
      have := Nat.mul_le_mul_right (dn (X - 6)) lo
      rw [Nat.mul_assoc, k1] at this
      calc _ = (2 ^ 50 - 1) * (10 ^ 6 * (one 52 11 * up (X - 6)) * dn (X - 5)) := by rw [Nat.mul_assoc (2 ^ 50 - 1)]
        _ ≤ _ := this
        _ = _ := by ac_rfl
    have hi' : n * dn (X - 6) < 10 ^ 6 * (one 52 11 * up (X - 6)) := by
      refine Nat.lt_of_mul_lt_mul_right (a := dn (X - 5)) ?_
      rw [← k1]
      calc _ = n * dn (X - 5) * dn (X - 6) := by ac_rfl
        _ < _ := Nat.mul_lt_mul_of_pos_right (Nat.lt_of_not_le hb) (dn_pos _)
    have hG' : 0 < one 52 11 * up (X - 6) := Nat.mul_pos hT (up_pos _)
    have hf : firstDigit n = X - 1 := by
      refine first_eq n hn (X - 1) (X - 6) 5 (by omega) ?_ hi'
      generalize one 52 11 * up (X - 6) = G at *
      omega
    have hs : sixDigits n = 10 ^ 6 := by
      rw [six_eq n (X - 1) hf, show X - 1 - 5 = X - 6 by omega]
      generalize one 52 11 * up (X - 6) = G at *
      exact roundDiv_eq _ _ _ hG' (by omega) (by omega)
    unfold text
    rw [hs, hf, if_pos rfl, show X - 1 + 1 = X by omega]

/-- what is as near to six digits as a double can be -/
theorem text_near (n d : Nat) (X : Int) (hn : 0 < n) (h1 : 10 ^ 5 ≤ d) (h2 : d < 10 ^ 6)
    (lo : (2 ^ 53 - 1) * (d * (one 52 11 * up (X - 5))) ≤ 2 ^ 53 * (n * dn (X - 5)))
    (hi : 2 ^ 53 * (n * dn (X - 5)) ≤ (2 ^ 53 + 1) * (d * (one 52 11 * up (X - 5)))) : text n = digitsText d X := by
  refine text_near50 n d X hn h1 h2 ?_ ?_ <;>
  · generalize d * (one 52 11 * up (X - 5)) = y at *
    generalize n * dn (X - 5) = x at *
    omega

/-- how far a rounded ratio can be off -/
theorem bits_error (N d : Nat) (hd : 0 < d) (h : 2 ^ 52 * d ≤ N) (hf : bitsOf N d < infBits) (s : Nat) (hs : s < 2) :
    ∃ u : Nat, units 52 11 (s * 2 ^ 63 + bitsOf N d) = some (Lemmas.Real.signed s u) ∧ 0 < u ∧
      (2 ^ 53 - 1) * N ≤ 2 ^ 53 * (u * d) ∧ 2 ^ 53 * (u * d) ≤ (2 ^ 53 + 1) * N := by
  generalize hk : shiftOf N d = k
  generalize hq : roundDiv N (d * 2 ^ k) = q
  have hG : 0 < d * 2 ^ k := Nat.mul_pos hd (Nat.two_pow_pos _)
  have hb : 2 ^ 52 * (d * 2 ^ k) ≤ N := by
    by_cases h1 : 1 ≤ k
    · have := (shift_spec N d hd).1 (by omega)
      rw [hk] at this
      exact this
    · have : k = 0 := by omega
      rw [this, Nat.pow_zero, Nat.mul_one]
      exact h
  obtain ⟨h1, -⟩ := roundDiv_near N (d * 2 ^ k) hG
  rw [hq] at h1
  have e : q * 2 ^ k * d = q * (d * 2 ^ k) := by ac_rfl
  refine ⟨q * 2 ^ k, units_bits N d hd k q hk.symm hq.symm hf s hs, ?_, ?_, ?_⟩
  · refine Nat.mul_pos (Nat.pos_of_ne_zero fun h0 => ?_) (Nat.two_pow_pos _)
    rw [h0, Nat.zero_mul] at h1
    generalize d * 2 ^ k = G at *
    omega
  · rw [e]
    generalize d * 2 ^ k = G at *
    generalize q * G = x at *
    omega
  · rw [e]
    generalize d * 2 ^ k = G at *
    generalize q * G = x at *
    omega

/-- the digits printed, and how near they are -/
theorem text_digits (n : Nat) (hn : 0 < n) : ∃ d : Nat, ∃ X : Int, text n = digitsText d X ∧ 10 ^ 5 ≤ d ∧ d < 10 ^ 6 ∧
    2 * (d * (one 52 11 * up (X - 5))) ≤ 2 * (n * dn (X - 5)) + one 52 11 * up (X - 5) ∧
    2 * (n * dn (X - 5)) ≤ 2 * (d * (one 52 11 * up (X - 5))) + one 52 11 * up (X - 5) := by
  obtain ⟨f1, f2⟩ := Props.RealScalar.first_of n hn
  obtain ⟨d1, d2, d3, -⟩ := six_spec n (one 52 11) one_pos (firstDigit n) f1 f2 (sixDigits n) (by
    have h1 : one 52 11 = 2 ^ 1074 := by unfold one; rfl
    rw [h1]; rfl)
  unfold text
  generalize firstDigit n = X at *
  generalize sixDigits n = d at *
  have e : 5 - X = -(X - 5) := by omega
  rw [e] at d3
  have e1 : 10 ^ (X - 5).toNat * one 52 11 = one 52 11 * up (X - 5) := by unfold up; ac_rfl
  have e2 : 10 ^ (-(X - 5)).toNat = dn (X - 5) := rfl
  rw [e1, e2] at d3
  by_cases hd : d = 10 ^ 6
  · rw [if_pos hd]
    refine ⟨10 ^ 5, X + 1, rfl, by decide, by decide, ?_⟩
    subst hd
    rw [show X + 1 - 5 = X - 4 by omega]
    have hc := cross (X - 4) (X - 5) 1 (by omega)
    have k1 : one 52 11 * up (X - 4) * dn (X - 5) = 10 * (one 52 11 * up (X - 5)) * dn (X - 4) := by
      rw [Nat.mul_assoc, hc]; ac_rfl
    have p1 := dn_pos (X - 5)
    have hx : n * dn (X - 5) < 10 ^ 6 * (one 52 11 * up (X - 5)) := by
      have hc' := cross X (X - 5) 5 (by omega)
      refine Nat.lt_of_mul_lt_mul_right (a := dn X) ?_
      have f2 : n * dn X < up X * one 52 11 * 10 := f2
      calc n * dn (X - 5) * dn X = n * dn X * dn (X - 5) := by ac_rfl
        _ < up X * one 52 11 * 10 * dn (X - 5) := Nat.mul_lt_mul_of_pos_right f2 p1
        _ = up X * dn (X - 5) * (one 52 11 * 10) := by ac_rfl
        _ = _ := by rw [hc', Nat.pow_succ 10 5]; ac_rfl
    constructor
    · refine Nat.le_of_mul_le_mul_right (c := dn (X - 5)) ?_ p1
      rw [Nat.add_mul, k1, Nat.mul_assoc, Nat.mul_assoc (10 ^ 5), k1]
      have : 2 * (10 ^ 6 * (one 52 11 * up (X - 5))) ≤ 2 * (n * dn (X - 5)) + one 52 11 * up (X - 5) := by omega
      have := Nat.mul_le_mul_right (dn (X - 4)) this
      rw [Nat.add_mul] at this
      have e3 : 2 * (n * dn (X - 4)) * dn (X - 5) = 2 * (n * dn (X - 5)) * dn (X - 4) := by ac_rfl
      rw [e3]
      generalize 2 * (n * dn (X - 5)) * dn (X - 4) = y at *
      rw [Nat.mul_assoc 2, Nat.mul_assoc (10 ^ 6)] at this
      rw [Nat.mul_assoc 10]
      generalize one 52 11 * up (X - 5) * dn (X - 4) = z at *
      omega
    · refine Nat.le_of_mul_le_mul_right (c := dn (X - 5)) ?_ p1
      rw [Nat.add_mul, k1, Nat.mul_assoc 2 (10 ^ 5 * _), Nat.mul_assoc (10 ^ 5), k1]
      have := Nat.mul_le_mul_right (dn (X - 4)) (Nat.le_of_lt hx)
      have e3 : 2 * (n * dn (X - 4)) * dn (X - 5) = 2 * (n * dn (X - 5) * dn (X - 4)) := by ac_rfl
      rw [e3]
      generalize n * dn (X - 5) * dn (X - 4) = y at *
      rw [Nat.mul_assoc (10 ^ 6)] at this
      rw [Nat.mul_assoc 10]
      generalize one 52 11 * up (X - 5) * dn (X - 4) = z at *
      omega
  · rw [if_neg hd]
    refine ⟨d, X, rfl, d1, by omega, ?_⟩
    generalize one 52 11 * up (X - 5) = G at *
    generalize d * G = y at *
    omega

end Pvxs.Lemmas.RealBack
