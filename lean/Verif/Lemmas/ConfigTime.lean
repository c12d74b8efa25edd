import Verif.Model.ConfigTime
import Verif.Props.RealParse
import Mathlib.Algebra.Order.Field.Rat
import Mathlib.Tactic.Linarith
import Mathlib.Tactic.NormNum
import Mathlib.Tactic.FieldSimp
import Mathlib.Tactic.Positivity
import Mathlib.Tactic.Ring
/-
Rounding as seen from the rationals.
-/
namespace Pvxs.Lemmas.ConfigTime
open Pvxs Pvxs.Cfg Pvxs.RealScalar Pvxs.RealParse Pvxs.Lemmas.RealBack Pvxs.Props.RealParse
open Pvxs.Spec.ArrayConv (units one)
open Pvxs.Spec.RealParse (Says num den BelowMax Normal)

/-- 2^1074 -/
def T : Rat := 2 ^ 1074
theorem T_pos : 0 < T := by unfold T; positivity
theorem T_one : ((one 52 11 : Nat) : Rat) = T := by
  have : one 52 11 = 2 ^ 1074 := rfl
  rw [this]; unfold T; push_cast; rfl

theorem ofBits_units {b u : Nat} (hu : units 52 11 b = some (u : Int)) (h0 : 0 < u) : ofBits b = .fin ((u : Rat) / T) := by
  obtain ⟨hm, hfin, hsg⟩ := Props.RealScalar.magnitude_of hu
  have hsg := hsg (by omega)
  unfold ofBits
  dsimp only
  rw [if_neg hfin, if_neg (fun h => absurd (hsg.mp h) (by omega)), hm]
  rfl

/-- near: to one part in 2^k -/
def Near (k : Nat) (x q : Rat) : Prop := (2 ^ k - 1) * q ≤ 2 ^ k * x ∧ 2 ^ k * x ≤ (2 ^ k + 1) * q

theorem near_iff (k : Nat) (u O n d : Rat) (hO : 0 < O) (hd : 0 < d) :
    Near k (u / O) (n / d) ↔ (2 ^ k - 1) * (n * O) ≤ 2 ^ k * (u * d) ∧ 2 ^ k * (u * d) ≤ (2 ^ k + 1) * (n * O) := by
  unfold Near
  generalize (2 : Rat) ^ k = K at *
  rw [← mul_div_assoc, ← mul_div_assoc, ← mul_div_assoc, div_le_div_iff₀ hd hO, div_le_div_iff₀ hO hd]
  simp only [mul_assoc]

theorem near_nat (n d u : Nat) (hd : 0 < d) (u3 : (2 ^ 53 - 1) * (n * one 52 11) ≤ 2 ^ 53 * (u * d))
    (u4 : 2 ^ 53 * (u * d) ≤ (2 ^ 53 + 1) * (n * one 52 11)) : Near 53 ((u : Rat) / T) ((n : Rat) / d) := by
  rw [← T_one]
  have hO := one_pos
  generalize one 52 11 = O at *
  have hO : (0 : Rat) < O := by exact_mod_cast hO
  have hdr : (0 : Rat) < d := by exact_mod_cast hd
  have u3 : (9007199254740991 : Rat) * (n * O) ≤ 9007199254740992 * (u * d) := by exact_mod_cast u3
  have u4 : (9007199254740992 : Rat) * (u * d) ≤ 9007199254740993 * (n * O) := by exact_mod_cast u4
  exact (near_iff _ _ _ _ _ hO hdr).mpr ⟨by linarith, by linarith⟩

theorem in_range (n d : Nat) (hd : 0 < d) (a1 : d ≤ n) (a2 : n ≤ 2 ^ 100 * d) :
    bitsOf (n * one 52 11) d < infBits ∧ 2 ^ 52 * d ≤ n * one 52 11 := by
  have hT : one 52 11 = 2 ^ 1074 := rfl
  constructor
  · refine (fit_iff n d hd).mpr ?_
    unfold Spec.RealParse.BelowMax
    refine Nat.lt_of_le_of_lt a2 (Nat.mul_lt_mul_of_pos_right ?_ hd)
    decide +kernel
  · rw [Nat.mul_comm]
    exact Nat.mul_le_mul a1 (by rw [hT]; exact Nat.pow_le_pow_right (by decide) (by decide))

theorem rounded_eq (q : Rat) (h1 : 1 ≤ q) (h2 : q ≤ 2 ^ 100) : ∃ n d : Nat, 0 < d ∧ q = (n : Rat) / d ∧
    rounded q = 0 * 2 ^ 63 + bitsOf (n * one 52 11) d ∧ bitsOf (n * one 52 11) d < infBits ∧ 2 ^ 52 * d ≤ n * one 52 11 := by
  have hq : q = (q.num.natAbs : Rat) / (q.den : Rat) := by
    have h0 : 0 ≤ q.num := by
      refine Rat.num_nonneg.mpr ?_; linarith
    have : ((q.num.natAbs : Nat) : Rat) = (q.num : Rat) := by
      have : ((q.num.natAbs : Nat) : Int) = q.num := by omega
      exact (Int.cast_natCast _).symm.trans (congrArg _ this)
    rw [this]
    exact (Rat.num_div_den q).symm
  have hd : 0 < q.den := q.den_pos
  generalize hn : q.num.natAbs = n at *
  generalize hdd : q.den = d at *
  have hdr : (0 : Rat) < d := by exact_mod_cast hd
  have hnd : (q : Rat) * d = n := by rw [hq]; field_simp
  have a1 : d ≤ n := by
    have : (d : Rat) ≤ n := by rw [← hnd]; nlinarith
    exact_mod_cast this
  have a2 : n ≤ 2 ^ 100 * d := by
    have : (n : Rat) ≤ 2 ^ 100 * d := by rw [← hnd]; nlinarith
    exact_mod_cast this
  obtain ⟨hf, hb⟩ := in_range n d hd a1 a2
  refine ⟨n, d, hd, hq, ?_, hf, hb⟩
  have hT : one 52 11 = 2 ^ 1074 := rfl
  unfold rounded
  rw [hn, hdd, if_neg (by linarith), ← hT, Nat.min_eq_left (Nat.le_of_lt hf), Nat.zero_mul]

theorem rounded_near (q : Rat) (h1 : 1 ≤ q) (h2 : q ≤ 2 ^ 100) : ∃ u : Nat, 0 < u ∧ units 52 11 (rounded q) = some (u : Int) ∧ Near 53 ((u : Rat) / T) q := by
  obtain ⟨n, d, hd, hq, hr, hf, hb⟩ := rounded_eq q h1 h2
  obtain ⟨u, u1, u2, u3, u4⟩ := bits_error (n * one 52 11) d hd hb hf 0 (by decide)
  refine ⟨u, u2, by rw [hr]; exact u1, ?_⟩
  rw [hq]
  exact near_nat n d u hd u3 u4

theorem rounded_again {b u : Nat} (hu : units 52 11 b = some (u : Int)) (h1 : 1 ≤ (u : Rat) / T) (h2 : (u : Rat) / T ≤ 2 ^ 100) :
    units 52 11 (rounded ((u : Rat) / T)) = some (u : Int) := by
  obtain ⟨n, d, hd, hq, hr, hf, hb⟩ := rounded_eq _ h1 h2
  obtain ⟨v, v1, v2, -⟩ := Lemmas.RealRatio.bits_nearest (n * one 52 11) d hd hf 0 (by decide)
  rw [hr, v1]
  have v2 := v2 b u hu
  have hdr : (0 : Rat) < d := by exact_mod_cast hd
  have key : ∀ O : Nat, (u : Rat) * d = n * O → u * d = n * O := fun O h => by exact_mod_cast h
  have e : u * d = n * one 52 11 := by
    refine key _ ?_
    have h := (div_eq_div_iff (ne_of_gt T_pos) (ne_of_gt hdr)).mp hq
    exact h.trans (congrArg _ T_one.symm)
  have e' : (u : Int) * d = ((n * one 52 11 : Nat) : Int) := by rw [← e, Int.natCast_mul]
  rw [e', Int.sub_self] at v2
  have v3 : (v : Int) * d = (u : Int) * d := by
    rw [e']
    exact Int.sub_eq_zero.mp (Int.natAbs_eq_zero.mp (Nat.le_zero.mp v2))
  have : (v : Int) = u := Int.eq_of_mul_eq_mul_right (by omega) v3
  rw [← this]
  rfl

/-- the text of a value which is a double -/
theorem print_text {b u : Nat} (after : Bool) (hu : units 52 11 b = some (u : Int)) (h0 : 0 < u) (h1 : 1 ≤ (u : Rat) / T) (h2 : (u : Rat) / T ≤ 2 ^ 100) :
    (flt after).print (.fin ((u : Rat) / T)) = text u := by
  show showDouble (rounded ((u : Rat) / T)) = text u
  rw [show_text (rounded_again hu h1 h2) (by omega), if_neg (by simp), List.nil_append, Int.natAbs_natCast]

/-- what is read -/
theorem read_near (after : Bool) {s : Str} {M B : Nat} {E : Int} (h : Says s false M B E) (h1 : 1 ≤ (num M B E : Rat) / den B E)
    (h2 : (num M B E : Rat) / den B E ≤ 2 ^ 100) :
    ∃ u : Nat, 0 < u ∧ (flt after).read s = some (.fin ((u : Rat) / T)) ∧ Near 53 ((u : Rat) / T) ((num M B E : Rat) / den B E) := by
  have hd := den_pos (around_base h) E
  have hp := parse_says after h
  generalize num M B E = n at *
  generalize den B E = d at *
  have hdr : (0 : Rat) < d := by exact_mod_cast hd
  have a1 : d ≤ n := by
    have := (one_le_div hdr).mp h1
    exact_mod_cast this
  have a2 : n ≤ 2 ^ 100 * d := by
    have := (div_le_iff₀ hdr).mp h2
    exact_mod_cast this
  obtain ⟨hf, hb⟩ := in_range n d hd a1 a2
  obtain ⟨u, u1, u2, u3, u4⟩ := bits_error (n * one 52 11) d hd hb hf 0 (by decide)
  refine ⟨u, u2, ?_, near_nat n d u hd u3 u4⟩
  have hp : parseDouble after s = some (0 * 2 ^ 63 + bitsOf (n * one 52 11) d) := by
    rw [hp]
    unfold roundBits
    rw [tiny_false after _ _ hb]
    simp only [Bool.false_and, Bool.false_eq_true, if_false]
    rw [if_neg (by omega)]
    rfl
  show (parseDouble after s).map ofBits = _
  rw [hp, Option.map_some, ofBits_units u1 u2]

end Pvxs.Lemmas.ConfigTime
