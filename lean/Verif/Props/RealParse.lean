import Verif.Lemmas.RealRatio
import Verif.Lemmas.RealParse
import Verif.Lemmas.RealBack
import Verif.Props.RealScalar
import Verif.Props.ArrayConv
/-
C90: text read as a real.
-/
namespace Pvxs.Props.RealParse
open Pvxs Pvxs.RealParse Pvxs.RealScalar Pvxs.Lemmas.RealRatio Pvxs.Lemmas.RealParse
open Pvxs.Spec.ArrayConv (units one)
open Pvxs.Spec.RealParse
open Pvxs.Spec.Scl (Digits Blank)

theorem number_base {t : Str} {M B : Nat} {E : Int} (h : Number t M B E) : 0 < B := by
  cases h <;> decide

theorem around_base {s : Str} {neg : Bool} {M B : Nat} {E : Int} (h : Says s neg M B E) : 0 < B := by
  cases h with
  | pos _ h _ => exact number_base h
  | plus _ h _ => exact number_base h
  | minus _ h _ => exact number_base h

theorem den_pos {B : Nat} (h : 0 < B) (E : Int) : 0 < den B E := Nat.pow_pos h

theorem parse_says (after : Bool) {s : Str} {neg : Bool} {M B : Nat} {E : Int} (h : Says s neg M B E) :
    parseDouble after s = (roundBits after (num M B E * one 52 11) (den B E)).map fun y => signBit neg + y :=
  parse_of after (p := .num ⟨M, B, E⟩) h

theorem fit_iff (n d : Nat) (hd : 0 < d) : bitsOf (n * one 52 11) d < infBits ↔ BelowMax n d := by
  rw [bits_fit _ _ hd _ rfl]
  unfold BelowMax
  have hone : one 52 11 = 2 ^ 1074 := rfl
  have e1 : (2 ^ 1024 - 2 ^ 970 : Nat) = (2 ^ 54 - 1) * 2 ^ 970 := by decide +kernel
  have e2 : (2 : Nat) ^ 2044 = 2 ^ 970 * 2 ^ 1074 := (Nat.pow_add 2 970 1074)
  rw [e1, e2, hone]
  have hp : 0 < (2 : Nat) ^ 1074 := Nat.two_pow_pos _
  generalize (2 : Nat) ^ 1074 = P at *
  generalize (2 : Nat) ^ 970 = Q at *
  generalize (2 ^ 54 - 1 : Nat) = R at *
  have e3 : R * (Q * P * d) = R * Q * d * P := by simp only [Nat.mul_assoc, Nat.mul_comm P]
  rw [e3]
  exact Nat.mul_lt_mul_right hp

theorem tiny_false (after : Bool) (N d : Nat) (h : 2 ^ 52 * d ≤ N) : tiny after N d = false := by
  unfold tiny
  cases after
  · rw [if_neg (by decide), decide_eq_false_iff_not]; omega
  · rw [if_pos rfl, decide_eq_false_iff_not]; omega

theorem tiny_true (after : Bool) (N d : Nat) (h : 4 * N < (2 ^ 54 - 1) * d) : tiny after N d = true := by
  unfold tiny
  cases after
  · rw [if_neg (by decide), decide_eq_true_eq]; omega
  · rw [if_pos rfl, decide_eq_true_eq]; exact h

theorem not_tiny (after : Bool) (n d : Nat) (h : Normal n d) : tiny after (n * one 52 11) d = false := by
  refine tiny_false after _ d ?_
  have e : one 52 11 = 2 ^ 1022 * 2 ^ 52 := Nat.pow_add 2 1022 52
  rw [e, ← Nat.mul_assoc, Nat.mul_comm]
  exact Nat.mul_le_mul_right _ h

/-- the result, with its sign, is what `Rounds` says -/
theorem rounds_of (n d : Nat) (hd : 0 < d) (h : bitsOf (n * one 52 11) d < infBits) (neg : Bool) :
    Rounds (signBit neg + bitsOf (n * one 52 11) d) (Spec.RealParse.signed neg n) d := by
  have hsb : signBit neg = (if neg then 1 else 0) * 2 ^ 63 := by cases neg <;> rfl
  have hev : signBit neg % 2 = 0 := by cases neg <;> decide
  obtain ⟨u, h1, h2, h3⟩ := bits_nearest (n * one 52 11) d hd h (if neg then 1 else 0) (by cases neg <;> decide)
  rw [← hsb] at h1
  refine ⟨_, h1, ?_⟩
  have hflip : ∀ z w, units 52 11 z = some w → ∃ z', units 52 11 z' = some (-w) := by
    intro z w hz
    obtain ⟨s, e, m, hm, he, hs, rfl, -⟩ := Lemmas.Real.units_of 52 11 z hz
    refine ⟨_, (Lemmas.Real.units_mk 52 11 (s := 1 - s) hm he (by omega)).trans ?_⟩
    congr 1
    unfold Lemmas.Real.signed
    rcases (show s = 0 ∨ s = 1 by omega) with rfl | rfl
    · rw [if_pos rfl, if_neg (by decide)]
    · rw [if_neg (by decide), if_pos rfl, Int.neg_neg]
  cases neg with
  | false =>
    show (∀ z w, units 52 11 z = some w → ((u : Int) * d - (n : Int) * one 52 11).natAbs ≤ _) ∧ _
    push_cast at h2 h3
    refine ⟨h2, fun z w hz hne he => ?_⟩
    have := h3 z w hz hne he
    omega
  | true =>
    show (∀ z w, units 52 11 z = some w → (-(u : Int) * d - (-(n : Int)) * one 52 11).natAbs ≤ _) ∧
      (∀ z w, units 52 11 z = some w → w ≠ -(u : Int) → (-(u : Int) * d - (-(n : Int)) * one 52 11).natAbs = _ → _)
    push_cast at h2 h3
    have e : ∀ a : Int, (a * d - -(n : Int) * one 52 11).natAbs = (-a * d - n * one 52 11).natAbs := by
      intro a
      rw [Int.neg_mul, Int.neg_mul]
      generalize a * (d : Int) = x
      generalize (n : Int) * (one 52 11 : Nat) = y
      omega
    constructor
    · intro z w hz
      obtain ⟨z', hz'⟩ := hflip z w hz
      have := h2 z' _ hz'
      show (-(u : Int) * d - -(n : Int) * one 52 11).natAbs ≤ (w * d - -(n : Int) * one 52 11).natAbs
      rw [e, e, Int.neg_neg]
      exact this
    · intro z w hz hne he
      obtain ⟨z', hz'⟩ := hflip z w hz
      have he' : (-(u : Int) * d - -(n : Int) * one 52 11).natAbs = (w * d - -(n : Int) * one 52 11).natAbs := he
      rw [e, e, Int.neg_neg] at he'
      have := h3 z' _ hz' (by omega) he'
      omega

theorem sign_of (neg : Bool) (b : Nat) (h : b < infBits) : (signBit neg + b) / 2 ^ 63 = if neg then 1 else 0 := by
  unfold infBits at h
  cases neg
  · show (0 + b) / 2 ^ 63 = 0; omega
  · show (2 ^ 63 + b) / 2 ^ 63 = 1; omega

theorem zero_bits (d : Nat) : bitsOf 0 d = 0 ∧ 0 % d = 0 := by
  constructor
  · unfold bitsOf shiftOf
    rw [Nat.zero_div]
    have : roundDiv 0 (d * 2 ^ ((0 : Nat).log2 - 52)) = 0 := by
      unfold roundDiv
      simp
    rw [this]
    rfl
  · exact Nat.zero_mod d

/-- C90: the text of a number, of any length, which is 0 or at least 2^-1022 and not too large, is read as the nearest double.
Missing: smaller numbers, see C90_tiny. -/
theorem C90_nearest_partial (after : Bool) (s : Str) (neg : Bool) (M B : Nat) (E : Int) (h : Says s neg M B E)
    (hmax : BelowMax (num M B E) (den B E)) (hn : M = 0 ∨ Normal (num M B E) (den B E)) :
    ∃ y, parseDouble after s = some y ∧ Rounds y (signed neg (num M B E)) (den B E) ∧ y / 2 ^ 63 = if neg then 1 else 0 := by
  have hd := den_pos (around_base h) E
  have hf := (fit_iff _ _ hd).mpr hmax
  refine ⟨signBit neg + bitsOf (num M B E * one 52 11) (den B E), ?_, rounds_of _ _ hd hf neg, sign_of neg _ hf⟩
  rw [parse_says after h]
  unfold roundBits
  rw [if_neg, if_neg (by omega)]
  · rfl
  · rcases hn with h0 | hn
    · have : num M B E = 0 := by unfold num; rw [h0, Nat.zero_mul]
      rw [this, Nat.zero_mul, Nat.zero_mod]
      simp
    · rw [not_tiny after _ _ hn]; simp

/-- " -0.1e0": the hypotheses hold -/
example : Says [0x20, 0x2d, 0x30, 0x2e, 0x31, 0x65, 0x30] true 1 10 (-1) ∧ BelowMax (num 1 10 (-1)) (den 10 (-1)) ∧ Normal (num 1 10 (-1)) (den 10 (-1)) := by
  refine ⟨?_, by unfold BelowMax; decide +kernel, by unfold Normal; decide +kernel⟩
  refine Around.minus (b := [0x20]) (s := [0x30, 0x2e, 0x31, 0x65, 0x30]) (b' := []) ?_ ?_ ?_
  · intro c hc; cases hc with | head => decide | tail _ h => cases h
  · refine Number.dec (m := [0x30, 0x2e, 0x31]) (x := [0x65, 0x30]) (M := 1) (k := 1) (X := 0) (.point (w := [0x30]) (f := [0x31]) ?_) (.plain (.inl rfl) ?_)
    · exact (digits_iff (by decide) _ _).mpr (by decide)
    · exact (digits_iff (by decide) _ _).mpr (by decide)
  · intro c hc; cases hc
example : parseDouble true [0x20, 0x2d, 0x30, 0x2e, 0x31, 0x65, 0x30] = some 0xbfb999999999999a := by decide +kernel

/-- C90: what is exactly a double is read as this double. -/
theorem C90_exact (after : Bool) (s : Str) (neg : Bool) (M B : Nat) (E : Int) (h : Says s neg M B E) (z : Nat) (w : Int) (hz : units 52 11 z = some w)
    (hw : w * den B E = signed neg (num M B E) * one 52 11) :
    ∃ y, parseDouble after s = some y ∧ units 52 11 y = some w ∧ y / 2 ^ 63 = if neg then 1 else 0 := by
  have hd := den_pos (around_base h) E
  have habs : w.natAbs * den B E = num M B E * one 52 11 := by
    have := congrArg Int.natAbs hw
    rw [Int.natAbs_mul, Int.natAbs_mul] at this
    have e : (signed neg (num M B E)).natAbs = num M B E := by unfold Spec.RealParse.signed; split <;> omega
    rw [e] at this
    exact this
  have hfit : bitsOf (num M B E * one 52 11) (den B E) < infBits := by
    rw [bits_fit _ _ hd _ rfl, ← habs, ← Nat.mul_assoc]
    refine Nat.mul_lt_mul_of_pos_right ?_ hd
    obtain ⟨sg, e, m, hm, he, hs, rfl, -⟩ := Lemmas.Real.units_of 52 11 z hz
    rw [Lemmas.Real.signed_natAbs]
    unfold Lemmas.Real.mag
    split
    · exact Nat.lt_trans hm (by decide +kernel)
    · have h1 : (2 ^ 52 + m) * 2 ^ (e - 1) ≤ (2 ^ 53 - 1) * 2 ^ 2045 :=
        Nat.mul_le_mul (by omega) (Nat.pow_le_pow_right (by decide) (by omega))
      exact Nat.lt_of_le_of_lt h1 (by decide +kernel)
  refine ⟨signBit neg + bitsOf (num M B E * one 52 11) (den B E), ?_, ?_, sign_of neg _ hfit⟩
  · rw [parse_says after h]
    unfold roundBits
    rw [if_neg, if_neg (by omega)]
    · rfl
    · have : num M B E * one 52 11 % den B E = 0 := by rw [← habs, Nat.mul_mod_left]
      rw [this]; simp
  · obtain ⟨u, h1, h2, -⟩ := rounds_of _ _ hd hfit neg
    have := h2 z w hz
    rw [hw] at this
    rw [h1]
    have h3 : u * (den B E : Int) = w * den B E := by
      rw [hw]
      generalize u * (den B E : Int) = a at *
      generalize Spec.RealParse.signed neg (num M B E) * (one 52 11 : Nat) = b at *
      omega
    rw [Int.eq_of_mul_eq_mul_right (by omega) h3]

/-- "0x1.8p1" is 3 -/
example : parseDouble false [0x30, 0x78, 0x31, 0x2e, 0x38, 0x70, 0x31] = some 0x4008000000000000 := by decide +kernel

/-- C90: what is too large is refused, not read as infinity or as the largest double. -/
theorem C90_large (after : Bool) (s : Str) (neg : Bool) (M B : Nat) (E : Int) (h : Says s neg M B E) (hmax : ¬BelowMax (num M B E) (den B E)) :
    parseDouble after s = none := by
  have hd := den_pos (around_base h) E
  have hf : ¬bitsOf (num M B E * one 52 11) (den B E) < infBits := fun hf => hmax ((fit_iff _ _ hd).mp hf)
  rw [parse_says after h]
  unfold roundBits
  split
  · rfl
  · rw [if_pos (by omega)]; rfl

/-- "1e309"; "1.797693134862315807e308" is still the largest double -/
example : parseDouble true [0x31, 0x65, 0x33, 0x30, 0x39] = none ∧ ¬BelowMax (num 1 10 309) (den 10 309) := ⟨by decide +kernel, by unfold BelowMax; decide +kernel⟩

/-- C90: the words. -/
theorem C90_words (after : Bool) (s : Str) (neg : Bool) :
    (Around Infinity s neg → parseDouble after s = some ((if neg then 2 ^ 63 else 0) + 2047 * 2 ^ 52)) ∧
    (Around NotANumber s neg → ∃ y, parseDouble after s = some y ∧ y / 2 ^ 52 % 2048 = 2047 ∧ y % 2 ^ 52 ≠ 0) := by
  constructor
  · intro h
    rw [parse_of after (p := .inf) h]
    rfl
  · intro h
    refine ⟨_, by rw [parse_of after (p := .nan) h]; rfl, ?_⟩
    cases neg <;> decide

/-- C90: any other text is refused. -/
theorem C90_only (after : Bool) (s : Str) (y : Nat) (h : parseDouble after s = some y) :
    ∃ neg, (∃ M B E, Says s neg M B E ∧ BelowMax (num M B E) (den B E)) ∨ Around Infinity s neg ∨ Around NotANumber s neg := by
  obtain ⟨neg, p, hp⟩ := parse_sound h
  refine ⟨neg, ?_⟩
  cases p with
  | num n =>
    refine .inl ⟨n.m, n.base, n.exp, hp, ?_⟩
    refine Classical.byContradiction fun hm => ?_
    rw [C90_large after s neg _ _ _ hp hm] at h
    cases h
  | inf => exact .inr (.inl hp)
  | nan => exact .inr (.inr hp)

/-- Contrary to C90: what is below 2^-1022 and not exactly a double is refused, although there is a nearest double. -/
theorem C90_tiny (after : Bool) (s : Str) (neg : Bool) (M B : Nat) (E : Int) (h : Says s neg M B E)
    (h1 : 4 * (num M B E * one 52 11) < (2 ^ 54 - 1) * den B E) (h2 : ∀ z w, units 52 11 z = some w → w * den B E ≠ num M B E * one 52 11) :
    parseDouble after s = none := by
  have hd := den_pos (around_base h) E
  rw [parse_says after h]
  have hm : num M B E * one 52 11 % den B E ≠ 0 := by
    intro h0
    obtain ⟨m, hm⟩ := Nat.dvd_of_mod_eq_zero h0
    have hlt : m < 2 ^ 52 := by
      have : 4 * (den B E * m) < (2 ^ 54 - 1) * den B E := by rw [← hm]; exact h1
      refine Nat.lt_of_not_le fun hge => ?_
      have := Nat.mul_le_mul_left (den B E) hge
      omega
    have hu := Lemmas.Real.units_mk 52 11 (s := 0) (e := 0) (m := m) hlt (by decide) (by decide)
    refine h2 _ _ hu ?_
    have e : Lemmas.Real.signed 0 (Lemmas.Real.mag 52 0 m) = (m : Int) := by unfold Lemmas.Real.signed Lemmas.Real.mag; simp
    rw [e]
    have : ((num M B E * one 52 11 : Nat) : Int) = (den B E * m : Nat) := by rw [hm]
    push_cast at this
    rw [this, Int.mul_comm]
  have ht := tiny_true after (num M B E * one 52 11) (den B E) h1
  unfold roundBits
  rw [if_pos]
  · rfl
  · rw [ht]
    simpa using hm

/-- "1e-310" meets the hypotheses -/
example : 4 * (num 1 10 (-310) * one 52 11) < (2 ^ 54 - 1) * den 10 (-310) ∧ parseDouble true [0x31, 0x65, 0x2d, 0x33, 0x31, 0x30] = none :=
  ⟨by decide +kernel, by decide +kernel⟩

/-! ### text which was written from a double -/

open Pvxs.Spec.RealScalar (ExpText Stands Is)
open Pvxs.Lemmas.RealBack

theorem exp_of {e : Str} {X : Int} (h : ExpText e X) : Exponent 0x65 0x45 e X := by
  cases h with
  | none => exact .none
  | pos s n h => exact .plus (.inl rfl) h
  | neg s n h => exact .minus (.inl rfl) h

theorem says_of {s : Str} {neg : Bool} {M : Nat} {E : Int} (h : Stands s neg M E) : Says s neg M 10 E := by
  have blank : Blank [] := fun c h => by cases h
  have wrap : ∀ (neg : Bool) (t : Str), Number t M 10 E → Says ((if neg then [0x2d] else []) ++ t) neg M 10 E := by
    intro neg t ht
    cases neg with
    | false =>
      have := Around.pos (P := fun t => Number t M 10 E) (b' := []) blank ht blank
      rw [List.append_nil] at this
      exact this
    | true =>
      have := Around.minus (P := fun t => Number t M 10 E) (b' := []) blank ht blank
      rw [List.append_nil] at this
      exact this
  cases h with
  | whole neg w e M X hw he =>
    rw [List.append_assoc]
    have := Number.dec (.whole hw) (exp_of he)
    rw [Int.natCast_zero, Int.sub_zero] at this
    exact wrap neg _ this
  | point neg w f e M X hw hf hd he =>
    rw [List.append_assoc, List.append_assoc]
    have := Number.dec (.point hd) (exp_of he)
    rw [List.append_assoc] at this
    exact wrap neg _ this

theorem show_text {b : Nat} {u : Int} (hu : units 52 11 b = some u) (h0 : u ≠ 0) :
    showDouble b = (if decide (u < 0) then [0x2d] else []) ++ text u.natAbs := by
  obtain ⟨hm, hfin, hsg⟩ := RealScalar.magnitude_of hu
  have hsg := hsg h0
  have hsign : (if b / 2 ^ 63 % 2 = 1 then [0x2d] else ([] : Str)) = if decide (u < 0) then [0x2d] else [] := by
    by_cases hu0 : u < 0
    · rw [if_pos (hsg.mpr hu0), if_pos (by simpa using hu0)]
    · rw [if_neg (fun h => hu0 (hsg.mp h)), if_neg (by simpa using hu0)]
  unfold showDouble text
  dsimp only
  rw [if_neg hfin, hm, if_neg (by omega), hsign]

theorem mag_max {b : Nat} {u : Int} (hu : units 52 11 b = some u) : u.natAbs ≤ (2 ^ 53 - 1) * 2 ^ 2045 := by
  obtain ⟨sg, e, m, hm, he, hs, rfl, -⟩ := Lemmas.Real.units_of 52 11 b hu
  rw [Lemmas.Real.signed_natAbs]
  unfold Lemmas.Real.mag
  split
  · exact Nat.le_trans (Nat.le_of_lt hm) (by decide +kernel)
  · exact Nat.mul_le_mul (by omega) (Nat.pow_le_pow_right (by decide) (by omega))

/-- six digits near a double are below the limit -/
theorem digits_max (n d : Nat) (Z : Int) (hn : n ≤ (2 ^ 53 - 1) * 2 ^ 2045) (h1 : 10 ^ 5 ≤ d) (h2 : d < 10 ^ 6)
    (lo : 2 * (d * (one 52 11 * up Z)) ≤ 2 * (n * dn Z) + one 52 11 * up Z) : d * up Z < (2 ^ 1024 - 2 ^ 970) * dn Z := by
  have hT : one 52 11 = 2 ^ 1074 := rfl
  rw [hT] at lo
  by_cases c1 : Z ≤ 302
  · have a1 : up Z ≤ 10 ^ 302 := Nat.pow_le_pow_right (by decide) (by omega)
    have a2 : d * up Z ≤ 10 ^ 6 * 10 ^ 302 := Nat.mul_le_mul (by omega) a1
    have a3 : (10 : Nat) ^ 6 * 10 ^ 302 < 2 ^ 1024 - 2 ^ 970 := by decide +kernel
    exact Nat.lt_of_le_of_lt a2 (Nat.lt_of_lt_of_le a3 (Nat.le_mul_of_pos_right _ (dn_pos Z)))
  · have hc : dn Z = 1 := by unfold dn; rw [show (-Z).toNat = 0 by omega, Nat.pow_zero]
    rw [hc, Nat.mul_one] at lo ⊢
    have lo' : (2 * d - 1) * (2 ^ 1074 * up Z) ≤ 2 * ((2 ^ 53 - 1) * 2 ^ 2045) := by
      rw [Nat.sub_mul, Nat.one_mul, Nat.mul_assoc]
      generalize (2 ^ 53 - 1) * 2 ^ 2045 = U at *
      generalize (2 ^ 1074 * up Z : Nat) = G at *
      omega
    by_cases c2 : Z = 303
    · have hu : up Z = 10 ^ 303 := by rw [c2]; rfl
      rw [hu] at lo' ⊢
      have a1 : d ≤ 179769 := by
        refine Nat.le_of_not_lt fun hlt => ?_
        have b1 : (2 * 179770 - 1) * (2 ^ 1074 * 10 ^ 303) ≤ (2 * d - 1) * (2 ^ 1074 * 10 ^ 303) := Nat.mul_le_mul_right _ (by omega)
        have b2 := Nat.le_trans b1 lo'
        revert b2
        decide +kernel
      have a2 : (179769 : Nat) * 10 ^ 303 < 2 ^ 1024 - 2 ^ 970 := by decide +kernel
      exact Nat.lt_of_le_of_lt (Nat.mul_le_mul_right _ a1) a2
    · exfalso
      have hu : 10 ^ 304 ≤ up Z := Nat.pow_le_pow_right (by decide) (by omega)
      have b1 : (2 * 10 ^ 5 - 1) * (2 ^ 1074 * 10 ^ 304) ≤ (2 * d - 1) * (2 ^ 1074 * up Z) :=
        Nat.mul_le_mul (by omega) (Nat.mul_le_mul_left _ hu)
      have b2 := Nat.le_trans b1 lo'
      revert b2
      decide +kernel

/-- the same ratio, with the zeros at the end of the digits moved to the exponent -/
theorem ratio_zeros (M d z : Nat) (E Z : Int) (hd : d = M * 10 ^ z) (hE : E = Z + z) : num M 10 E * dn Z = d * up Z * den 10 E := by
  have h := cross E Z z hE
  unfold num den
  show M * up E * dn Z = d * up Z * dn E
  rw [Nat.mul_assoc, h, hd]
  ac_rfl

/-- C90: a double which is at least 2^-1021 in magnitude, written as text and read again, is not changed by more than a hundred-thousandth,
and is then written as the same text. -/
theorem C90_back (after : Bool) (b : Nat) (u : Int) (hu : units 52 11 b = some u) (h : 2 ^ 53 ≤ u.natAbs) :
    ∃ s y w, ofReal b .str = .ok (.str s) ∧ parseDouble after s = some y ∧ units 52 11 y = some w ∧ 10 ^ 5 * (w - u).natAbs ≤ u.natAbs ∧
      ofReal y .str = .ok (.str s) := by
  have h0 : u ≠ 0 := by omega
  obtain ⟨d, X, ht, d1, d2, lo, hi⟩ := text_digits u.natAbs (by omega)
  obtain ⟨z, M, hz, hst⟩ := Lemmas.RealText.digitsText_spec (decide (u < 0)) d X d1 d2
  have hs := show_text hu h0
  rw [ht] at hs
  rw [← hs] at hst
  have hsay := says_of hst
  have hr := ratio_zeros M d z (X - 5 + z) (X - 5) hz rfl
  generalize hE : X - 5 + (z : Int) = E at *
  have hdp : 0 < den 10 E := den_pos (by decide) E
  have hmax : BelowMax (num M 10 E) (den 10 E) := by
    have := digits_max u.natAbs d (X - 5) (mag_max hu) d1 d2 lo
    unfold BelowMax
    refine Nat.lt_of_mul_lt_mul_right (a := dn (X - 5)) ?_
    rw [hr, Nat.mul_assoc (2 ^ 1024 - 2 ^ 970), Nat.mul_comm (den 10 E), ← Nat.mul_assoc (2 ^ 1024 - 2 ^ 970)]
    exact Nat.mul_lt_mul_of_pos_right this hdp
  have hf := (fit_iff _ _ hdp).mpr hmax
  have hG : 0 < one 52 11 * up (X - 5) := Nat.mul_pos one_pos (up_pos _)
  have hbig : 2 ^ 52 * dn (X - 5) ≤ d * (one 52 11 * up (X - 5)) := by
    have h1 : 2 ^ 53 * dn (X - 5) ≤ u.natAbs * dn (X - 5) := Nat.mul_le_mul_right _ h
    generalize one 52 11 * up (X - 5) = G at *
    have h2 : 10 ^ 5 * G ≤ d * G := Nat.mul_le_mul_right _ d1
    generalize u.natAbs * dn (X - 5) = x at *
    generalize d * G = y at *
    omega
  have hr' : num M 10 E * one 52 11 * dn (X - 5) = d * (one 52 11 * up (X - 5)) * den 10 E := by
    generalize one 52 11 = T at *
    calc num M 10 E * T * dn (X - 5) = num M 10 E * dn (X - 5) * T := by ac_rfl
      _ = _ := by rw [hr]; ac_rfl
  have hnorm : 2 ^ 52 * den 10 E ≤ num M 10 E * one 52 11 := by
    refine Nat.le_of_mul_le_mul_right (c := dn (X - 5)) ?_ (dn_pos _)
    rw [hr', Nat.mul_assoc, Nat.mul_comm (den 10 E), ← Nat.mul_assoc]
    exact Nat.mul_le_mul_right _ hbig
  have hsb : signBit (decide (u < 0)) = (if decide (u < 0) then 1 else 0) * 2 ^ 63 := by cases decide (u < 0) <;> rfl
  obtain ⟨v, v1, v2, v3, v4⟩ := bits_error (num M 10 E * one 52 11) (den 10 E) hdp hnorm hf (if decide (u < 0) then 1 else 0)
    (by cases decide (u < 0) <;> decide)
  rw [← hsb] at v1
  have v3' : (2 ^ 53 - 1) * (d * (one 52 11 * up (X - 5))) ≤ 2 ^ 53 * (v * dn (X - 5)) := by
    refine Nat.le_of_mul_le_mul_right (c := den 10 E) ?_ hdp
    rw [Nat.mul_assoc, ← hr']
    have := Nat.mul_le_mul_right (dn (X - 5)) v3
    rw [Nat.mul_assoc] at this
    refine Nat.le_trans this (Nat.le_of_eq ?_)
    ac_rfl
  have v4' : 2 ^ 53 * (v * dn (X - 5)) ≤ (2 ^ 53 + 1) * (d * (one 52 11 * up (X - 5))) := by
    refine Nat.le_of_mul_le_mul_right (c := den 10 E) ?_ hdp
    rw [Nat.mul_assoc (2 ^ 53 + 1), ← hr']
    have := Nat.mul_le_mul_right (dn (X - 5)) v4
    rw [Nat.mul_assoc (2 ^ 53 + 1)] at this
    refine Nat.le_trans (Nat.le_of_eq ?_) this
    ac_rfl
  have hw : Lemmas.Real.signed (if decide (u < 0) then 1 else 0) v = if u < 0 then -(v : Int) else v := by
    unfold Lemmas.Real.signed
    by_cases hneg : u < 0
    · rw [if_pos (by simpa using hneg), if_pos hneg]
    · rw [if_neg (by simpa using hneg), if_neg hneg]
  rw [hw] at v1
  refine ⟨_, _, _, rfl, ?_, v1, ?_, ?_⟩
  · rw [parse_says after hsay]
    unfold roundBits
    rw [tiny_false after _ _ hnorm]
    simp only [Bool.false_and, Bool.false_eq_true, if_false]
    rw [if_neg (by omega)]
    rfl
  · have key : 10 ^ 5 * ((v : Int) - u.natAbs).natAbs ≤ u.natAbs := by
      refine Nat.le_of_mul_le_mul_right (c := dn (X - 5)) ?_ (dn_pos _)
      have hP : ∀ x y c : Nat, ((x : Int) - (y : Int)).natAbs * c = ((x * c : Nat) - (y * c : Nat) : Int).natAbs := by
        intro x y c
        have : ((x * c : Nat) : Int) - (y * c : Nat) = ((x : Int) - y) * c := by push_cast; rw [Int.sub_mul]
        rw [this, Int.natAbs_mul]
        rfl
      rw [Nat.mul_assoc, hP]
      generalize u.natAbs * dn (X - 5) = x at *
      generalize v * dn (X - 5) = y at *
      generalize one 52 11 * up (X - 5) = G at *
      have g1 : 10 ^ 5 * G ≤ d * G := Nat.mul_le_mul_right _ d1
      have g2 : d * G ≤ 10 ^ 6 * G := Nat.mul_le_mul_right _ (by omega)
      generalize d * G = q at *
      omega
    split <;> omega
  · show Res.ok (Datum.str (showDouble _)) = _
    rw [show_text v1 (by split <;> omega), hs]
    have e1 : (if u < 0 then -(v : Int) else v).natAbs = v := by split <;> omega
    have e2 : decide ((if u < 0 then -(v : Int) else v) < 0) = decide (u < 0) := by
      by_cases hneg : u < 0
      · rw [if_pos hneg, decide_eq_true hneg, decide_eq_true (by omega)]
      · rw [if_neg hneg, decide_eq_false hneg, decide_eq_false (by omega)]
    rw [e1, e2, text_near v d X v2 d1 d2 v3' v4']

/-- the hypotheses hold for -0.1 -/
example : ∃ u, units 52 11 0xbfb999999999999a = some u ∧ 2 ^ 53 ≤ u.natAbs := ⟨_, rfl, by decide +kernel⟩

/-- Contrary to C90: the text written for the smallest normal double can not be read. -/
theorem C90_min : ∃ b s, units 52 11 b = some (2 ^ 52) ∧ ofReal b .str = .ok (.str s) ∧ ∀ after, parseDouble after s = none := by
  refine ⟨2 ^ 52, digitsText 222507 (-308), by decide +kernel, ?_, ?_⟩
  · refine congrArg (fun s => Res.ok (Datum.str s)) ?_
    have hu : units 52 11 (2 ^ 52) = some (2 ^ 52) := by decide +kernel
    have hf : firstDigit (2 ^ 52) = -308 := RealScalar.firstDigit_eq _ (by decide) _ (by decide +kernel) (by decide +kernel)
    have hs : sixDigits (2 ^ 52) = 222507 := by rw [six_eq _ _ hf]; decide +kernel
    rw [show_text hu (by decide)]
    have e : (2 ^ 52 : Int).natAbs = 2 ^ 52 := by decide
    rw [e, if_neg (by decide)]
    unfold text
    rw [hs, hf, if_neg (by decide)]
    rfl
  · intro after
    cases after <;> decide +kernel

/-- C90: whole numbers below a million are written and read without loss. -/
theorem C90_whole (after : Bool) (b : Nat) (v : Int) (hu : units 52 11 b = some (v * one 52 11)) (h0 : v ≠ 0) (hv : v.natAbs < 10 ^ 6) :
    ∃ s y, ofReal b .str = .ok (.str s) ∧ parseDouble after s = some y ∧ units 52 11 y = some (v * one 52 11) := by
  obtain ⟨s, M, E, h1, h2, h3⟩ := RealScalar.C83_text_exact b v hu h0 hv
  obtain ⟨y, h4, h5, -⟩ := C90_exact after s _ M 10 E (says_of h2) b _ hu (by
    have h3 : num M 10 E = v.natAbs * den 10 E := h3
    rw [h3]
    generalize one 52 11 = T
    generalize den 10 E = D
    unfold Spec.RealParse.signed
    by_cases hn : v < 0
    · rw [if_pos (by simpa using hn), Int.natCast_mul, ← Int.neg_mul, show -((v.natAbs : Nat) : Int) = v by omega]
      ac_rfl
    · rw [if_neg (by simpa using hn), Int.natCast_mul, show ((v.natAbs : Nat) : Int) = v by omega]
      ac_rfl)
  exact ⟨s, y, h1, h4, h5⟩

example : units 52 11 0xc0f869f000000000 = some ((-99999 : Int) * one 52 11) := by decide +kernel

/-- C90: zero and the infinities are read again as what they were, not-a-number as not-a-number. -/
theorem C90_special (after : Bool) (b : Nat) (hb : b < 2 ^ 64) :
    (units 52 11 b = some 0 → ∃ s, ofReal b .str = .ok (.str s) ∧ parseDouble after s = some b) ∧
    (units 52 11 b = none → ∃ s y, ofReal b .str = .ok (.str s) ∧ parseDouble after s = some y ∧ units 52 11 y = none ∧
      (b % 2 ^ 52 = 0 → y = b)) := by
  have t0 : ∀ neg : Bool, parseDouble after ((if neg then [0x2d] else []) ++ [0x30]) = some (if neg then 2 ^ 63 else 0) := by
    intro neg; cases neg <;> cases after <;> decide +kernel
  have t1 : ∀ neg : Bool, parseDouble after ((if neg then [0x2d] else []) ++ [0x69, 0x6e, 0x66]) = some ((if neg then 2 ^ 63 else 0) + 2047 * 2 ^ 52) := by
    intro neg; cases neg <;> cases after <;> decide +kernel
  have t2 : ∀ neg : Bool, ∃ y, parseDouble after ((if neg then [0x2d] else []) ++ [0x6e, 0x61, 0x6e]) = some y ∧ units 52 11 y = none := by
    intro neg; cases neg <;> cases after <;> exact ⟨_, rfl, by decide +kernel⟩
  have hsign : (if b / 2 ^ 63 % 2 = 1 then [0x2d] else ([] : Str)) = if decide (b / 2 ^ 63 % 2 = 1) then [0x2d] else [] := by
    by_cases h : b / 2 ^ 63 % 2 = 1 <;> simp [h]
  have hbit : (if decide (b / 2 ^ 63 % 2 = 1) then 2 ^ 63 else 0) = b / 2 ^ 63 * 2 ^ 63 := by
    by_cases h : b / 2 ^ 63 % 2 = 1
    · rw [if_pos (by simpa using h)]; omega
    · rw [if_neg (by simpa using h)]; omega
  constructor
  · intro hu
    obtain ⟨hm, hfin, -⟩ := RealScalar.magnitude_of hu
    refine ⟨_, rfl, ?_⟩
    have e : showDouble b = (if decide (b / 2 ^ 63 % 2 = 1) then [0x2d] else []) ++ [0x30] := by
      unfold showDouble
      dsimp only
      rw [if_neg hfin, hm, if_pos (by rfl), hsign]
    have h0 := (ArrayConv.units_zero 52 11 b (by decide)).mp hu
    rw [e, t0, hbit]
    congr 1
    omega
  · intro hu
    have hinf : b / 2 ^ 52 % 2048 = 2047 := by
      simp only [units] at hu
      split at hu
      · assumption
      · cases hu
    by_cases h0 : b % 2 ^ 52 = 0
    · have e : showDouble b = (if decide (b / 2 ^ 63 % 2 = 1) then [0x2d] else []) ++ [0x69, 0x6e, 0x66] := by
        unfold showDouble
        dsimp only
        rw [if_pos hinf, if_pos h0, hsign]
      refine ⟨_, b, rfl, ?_, hu, fun _ => rfl⟩
      rw [e, t1, hbit]
      congr 1
      omega
    · have e : showDouble b = (if decide (b / 2 ^ 63 % 2 = 1) then [0x2d] else []) ++ [0x6e, 0x61, 0x6e] := by
        unfold showDouble
        dsimp only
        rw [if_pos hinf, if_neg h0, hsign]
      obtain ⟨y, y1, y2⟩ := t2 (decide (b / 2 ^ 63 % 2 = 1))
      exact ⟨_, y, rfl, by rw [e]; exact y1, y2, fun h => absurd h h0⟩

/-! ### fields and arrays -/

/-- C90: what is assigned to a field of type Float64, and what is read as a real from a field of type String. -/
theorem C90_field (after : Bool) (s : Str) :
    (∀ y, parseDouble after s = some y → assignToReal (parseDouble after) .Float64 (.str s) = .ok (.real y) ∧ readReal (parseDouble after) (.str s) = .ok y) ∧
    (parseDouble after s = none → ∀ code, assignToReal (parseDouble after) code (.str s) = .throws "NoConvert" ∧
      readReal (parseDouble after) (.str s) = .throws "NoConvert") := by
  refine ⟨fun y h => ?_, fun h code => ?_⟩
  · have := (RealScalar.C83_parse (parseDouble after) s .Float64).2 y h
    exact ⟨this.2, this.1⟩
  · have := (RealScalar.C83_parse (parseDouble after) s code).1 h
    exact ⟨this.2, this.1⟩

/-- C90: an array of strings as an array of doubles: each element is read, or all is refused. -/
theorem C90_array (after : Bool) (ss : List Str) (hne : ss ≠ []) :
    ((∀ s ∈ ss, parseDouble after s ≠ none) →
      ∃ ys, ArrayConv.convertTo (reals after) .f64 ⟨.str, .strs ss⟩ = .ok ⟨.f64, .pods ys⟩ ∧
        ArrayConv.assignArr (reals after) .f64 ⟨.str, .strs ss⟩ = .ok ⟨.f64, .pods ys⟩ ∧ Spec.ArrayConv.Each (fun s y => parseDouble after s = some y) ss ys) ∧
    ((∃ s ∈ ss, parseDouble after s = none) →
      ArrayConv.convertTo (reals after) .f64 ⟨.str, .strs ss⟩ = .throws "NoConvert" ∧
        ArrayConv.assignArr (reals after) .f64 ⟨.str, .strs ss⟩ = .throws "NoConvert") := by
  have hone : ∀ s, ArrayConv.parseOne (reals after) .f64 s = Pvxs.ArrayConv.orThrow "NoConvert" (parseDouble after s) := fun s => rfl
  constructor
  · intro h
    obtain ⟨ys, h1, h2, h3⟩ := ArrayConv.strs_both (reals after) .f64 .f64 ss (fun s y => parseDouble after s = some y) rfl hne (by
      intro s hs
      cases hp : parseDouble after s with
      | none => exact absurd hp (h s hs)
      | some y => exact ⟨y, by rw [hone, hp]; rfl, rfl⟩)
    exact ⟨ys, h1, h2, h3⟩
  · rintro ⟨s, hs, hp⟩
    refine ArrayConv.strs_fail (reals after) .f64 .f64 ss "NoConvert" rfl (fun t _ => ?_) ⟨s, hs, by rw [hone, hp]; rfl⟩
    cases hp : parseDouble after t with
    | none => exact .inr (by rw [hone, hp]; rfl)
    | some y => exact .inl ⟨y, by rw [hone, hp]; rfl⟩

/-- C90: an array of strings as an array of floats: each is the float nearest to the double which is read. -/
theorem C90_array_float (after : Bool) (ss : List Str) (hne : ss ≠ []) (h : ∀ s ∈ ss, parseDouble after s ≠ none) :
    ∃ ys, ArrayConv.convertTo (reals after) .f32 ⟨.str, .strs ss⟩ = .ok ⟨.f32, .pods ys⟩ ∧
      ArrayConv.assignArr (reals after) .f32 ⟨.str, .strs ss⟩ = .ok ⟨.f32, .pods ys⟩ ∧
      Spec.ArrayConv.Each (fun s y => ∃ z, parseDouble after s = some z ∧ ∀ u, units 52 11 z = some u →
        Spec.ArrayConv.Nearest 23 8 y u (one 52 11) ∨ (units 23 8 y = none ∧ (2 ^ 25 - 1) * 2 ^ (925 + 252) ≤ u.natAbs)) ss ys := by
  refine ArrayConv.strs_both (reals after) .f32 .f32 ss _ rfl hne fun s hs => ?_
  cases hp : parseDouble after s with
  | none => exact absurd hp (h s hs)
  | some z =>
    refine ⟨narrow z, ?_, z, rfl, fun u hu => Lemmas.Real.narrow_nearest z hu⟩
    show Pvxs.ArrayConv.orThrow "NoConvert" ((parseDouble after s).map narrow) = _
    rw [hp]
    rfl

/-- C90: an array of doubles as an array of strings: each is the text of the double (see C83). -/
theorem C90_array_text (after : Bool) (xs : List Nat) (hne : xs ≠ []) :
    ∃ ss, ArrayConv.convertTo (reals after) .str ⟨.f64, .pods xs⟩ = .ok ⟨.str, .strs ss⟩ ∧
      ArrayConv.assignArr (reals after) .str ⟨.f64, .pods xs⟩ = .ok ⟨.str, .strs ss⟩ ∧ Spec.ArrayConv.Each (fun x s => ofReal x .str = .ok (.str s)) xs ss :=
  ArrayConv.pods_text (reals after) .f64 xs _ .f64 rfl hne fun _ _ => rfl

/-- C90: an array of floats as an array of strings: each is the text of the double of the same value. -/
theorem C90_array_text_float (after : Bool) (xs : List Nat) (hne : xs ≠ []) :
    ∃ ss, ArrayConv.convertTo (reals after) .str ⟨.f32, .pods xs⟩ = .ok ⟨.str, .strs ss⟩ ∧
      ArrayConv.assignArr (reals after) .str ⟨.f32, .pods xs⟩ = .ok ⟨.str, .strs ss⟩ ∧
      Spec.ArrayConv.Each (fun x s => ∀ u, units 23 8 x = some u → ∃ b v, units 52 11 b = some v ∧ v * one 23 8 = u * one 52 11 ∧ ofReal b .str = .ok (.str s)) xs ss := by
  refine ArrayConv.pods_text (reals after) .f32 xs _ .f32 rfl hne fun x _ u hu => ⟨widen x, _, Lemmas.Real.widen_exact x 925 rfl hu, ?_, rfl⟩
  rw [Lemmas.Real.one_ratio 925 rfl, Int.natCast_mul, Int.mul_assoc]

end Pvxs.Props.RealParse
