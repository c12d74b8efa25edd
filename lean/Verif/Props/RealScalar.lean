import Verif.Model.RealScalar
import Verif.Spec.RealScalar
import Verif.Props.ArrayConv
import Verif.Lemmas.RealText
/-! Property C83 -/
namespace Pvxs.Props.RealScalar
open Pvxs Wire Pvxs.ArrayConv Pvxs.RealScalar Pvxs.Spec.ArrayConv Pvxs.Spec.RealScalar
open Pvxs.Spec.Scl (Digits Holds SameMod InSigned InUnsigned)
open Pvxs.Lemmas.Real

/-! ### integers to reals -/

theorem small_of {x : Datum} {v : Int} (hs : Holds x) (hx : Spec.Scl.number x = some v) : v.natAbs.log2 + 1 + 1023 < 2 ^ 11 - 1 := by
  have : v.natAbs < 2 ^ 64 := by
    cases x <;> simp only [Spec.Scl.number, Option.some.injEq, reduceCtorEq] at hx <;> subst hx <;> simp only [Holds] at hs
    · omega
    · omega
    · split <;> decide
  by_cases h0 : v.natAbs = 0
  · rw [h0]; decide
  · have := (Nat.log2_lt h0).mpr this
    omega

theorem readReal_number {x : Datum} {v : Int} (hx : Spec.Scl.number x = some v) (parse : Str → Option Nat) : readReal parse x = .ok (realOfInt 52 1023 63 v) := by
  cases x <;> simp only [Spec.Scl.number, Option.some.injEq, reduceCtorEq] at hx <;> subst hx <;> rfl

/-- An integer or boolean field read as a double, or assigned to a field of type Float64: the nearest double, exact below 2^53. -/
theorem C83_to_double (parse : Str → Option Nat) (x : Datum) (v : Int) (hs : Holds x) (hx : Spec.Scl.number x = some v) :
    ∃ y, readReal parse x = .ok y ∧ assignToReal parse .Float64 x = .ok (.real y) ∧ Nearest 52 11 y v 1 ∧
      (v.natAbs < 2 ^ 53 → units 52 11 y = some (v * one 52 11)) := by
  have h := readReal_number hx parse
  have hf := small_of hs hx
  refine ⟨_, h, ?_, nearest_realOfInt 52 11 1023 v (by decide) (by decide) hf, fun hv => exact_realOfInt 52 11 1023 v (by decide) (by decide) hf hv⟩
  unfold assignToReal
  rw [h]
  rfl

example : readReal (fun _ => none) (.int (-3)) = .ok 0xc008000000000000 := by decide
example : ∃ y, readReal (fun _ => none) (.uint (2 ^ 64 - 1)) = .ok y ∧ y = 0x43f0000000000000 := ⟨_, rfl, by decide⟩

theorem nearest_scale {f : Nat} {v : Int} {k : Nat} (hk : 0 < k) (h : Nearest 23 8 f (v * k) k) : Nearest 23 8 f v 1 := by
  obtain ⟨u, h1, h2⟩ := h
  refine ⟨u, h1, fun z w hz => ?_⟩
  have := h2 z w hz
  have e : ∀ a : Int, a * (k : Int) - v * k * (one 23 8 : Nat) = (a * 1 - v * (one 23 8 : Nat)) * k := by
    intro a
    rw [Int.sub_mul, Int.mul_one, Int.mul_right_comm]
  rw [e, e, Int.natAbs_mul, Int.natAbs_mul] at this
  exact Nat.le_of_mul_le_mul_right this (by simpa using hk)

/-- read as a double, and then narrowed: the nearest float -/
theorem narrow_read (parse : Str → Option Nat) (x : Datum) (v : Int) (hs : Holds x) (hx : Spec.Scl.number x = some v) (hv : v.natAbs < 2 ^ 53) :
    ∃ b, readReal parse x = .ok b ∧ Nearest 23 8 (narrow b) v 1 := by
  have hf := small_of hs hx
  have hu := exact_realOfInt 52 11 1023 v (by decide) (by decide) hf hv
  refine ⟨_, readReal_number hx parse, ?_⟩
  rcases narrow_nearest _ hu with h1 | ⟨_, h2⟩
  · exact nearest_scale (by unfold one; exact Nat.two_pow_pos _) h1
  · exfalso
    rw [Int.natAbs_mul] at h2
    have h3 : v.natAbs * one 52 11 ≤ 2 ^ 53 * one 52 11 := Nat.mul_le_mul_right _ (by omega)
    have h4 : ((one 52 11 : Nat) : Int).natAbs = one 52 11 := rfl
    rw [h4] at h2
    have h5 : 2 ^ 53 * one 52 11 < (2 ^ 25 - 1) * 2 ^ (925 + 252) := by decide +kernel
    exact absurd (Nat.le_trans h2 h3) (Nat.not_le_of_lt h5)

/-- Assigned to a field of type Float32: the nearest float, if the magnitude is below 2^53.  Missing: larger integers, see C83_double_rounding. -/
theorem C83_to_float_partial (parse : Str → Option Nat) (x : Datum) (v : Int) (hs : Holds x) (hx : Spec.Scl.number x = some v) (hv : v.natAbs < 2 ^ 53) :
    ∃ f, assignToReal parse .Float32 x = .ok (.real (widen f)) ∧ Nearest 23 8 f v 1 := by
  obtain ⟨b, h, hn⟩ := narrow_read parse x v hs hx hv
  refine ⟨narrow b, ?_, hn⟩
  unfold assignToReal
  rw [h]
  rfl

example : assignToReal (fun _ => none) .Float32 (.int 16777217) = .ok (.real (widen 0x4b800000)) := by rfl

/-- Contrary to C83: a larger integer is rounded twice, to a double and then to a float, and what is stored is not the nearest float. -/
theorem C83_double_rounding : ∃ v : Int, Holds (.int v) ∧ ∃ f, (∀ parse, assignToReal parse .Float32 (.int v) = .ok (.real (widen f))) ∧ ¬Nearest 23 8 f v 1 := by
  refine ⟨2 ^ 60 + 2 ^ 36 + 1, by simp only [Holds]; decide, 0x5d800000, fun parse => by rfl, ?_⟩
  rintro ⟨u, h1, h2⟩
  have e1 : units 23 8 0x5d800000 = some (2 ^ 60 * 2 ^ 149) := by decide
  have e2 : units 23 8 0x5d800001 = some ((2 ^ 60 + 2 ^ 37) * 2 ^ 149) := by decide
  rw [e1] at h1
  cases h1
  have := h2 _ _ e2
  revert this
  decide

/-! ### reals to reals -/

/-- A double in a field of type Float64 is kept; in a field of type Float32 it becomes the nearest float (or, if it is too large, an infinity), which
is then read as exactly this number; assigning that number again changes nothing. -/
theorem C83_real (parse : Str → Option Nat) (b : Nat) : assignToReal parse .Float64 (.real b) = .ok (.real b) ∧ readReal parse (.real b) = .ok b ∧
    ∃ f y, assignToReal parse .Float32 (.real b) = .ok (.real y) ∧ assignReal .Float32 b = .ok (.real y) ∧
      (∀ u, units 52 11 b = some u → Nearest 23 8 f u (one 52 11) ∨ (units 23 8 f = none ∧ (2 ^ 25 - 1) * 2 ^ (925 + 252) ≤ u.natAbs)) ∧
      (∀ u, units 23 8 f = some u → ∃ w, units 52 11 y = some w ∧ w * one 23 8 = u * one 52 11) := by
  refine ⟨rfl, rfl, narrow b, widen (narrow b), rfl, by rfl, fun u hu => narrow_nearest b hu, fun u hu => ⟨_, widen_exact _ 925 rfl hu, ?_⟩⟩
  rw [one_ratio 925 rfl, Int.natCast_mul, Int.mul_assoc]

example : assignToReal (fun _ => none) .Float32 (.real 0x3fb999999999999a) = .ok (.real 0x3fb99999a0000000) := by rfl

/-! ### reals to integers -/

theorem trunc_signed {b : Nat} {u : Int} (hu : units 52 11 b = some u) (h : InSigned 8 (u.tdiv (one 52 11))) :
    ∃ n, truncTo (.sint 8) (truncated 52 11 b) = .ok n ∧ intOf 8 n = u.tdiv (one 52 11) := by
  rw [truncated_some 52 11 b (by decide) hu]
  refine ⟨intBits 8 (u.tdiv (one 52 11)), ?_, ?_⟩
  · unfold truncTo
    exact if_pos h
  · exact Scl.sameMod_unique_signed (Scl.SameMod_trans (Scl.sameMod_intOf 8 _) (Scl.sameMod_intBits 8 _)) (Scl.inSigned_intOf (by decide) (Scl.intBits_lt 8 _)) h

theorem trunc_unsigned {b : Nat} {u : Int} (hu : units 52 11 b = some u) (h : InUnsigned 8 (u.tdiv (one 52 11))) :
    ∃ n : Nat, truncTo (.uint 8) (truncated 52 11 b) = .ok n ∧ (n : Int) = u.tdiv (one 52 11) := by
  rw [truncated_some 52 11 b (by decide) hu]
  refine ⟨intBits 8 (u.tdiv (one 52 11)), ?_, ?_⟩
  · unfold truncTo
    exact if_pos h
  · refine Scl.sameMod_unique_unsigned (Scl.sameMod_intBits 8 _) ⟨Int.natCast_nonneg _, ?_⟩ h
    have := Scl.intBits_lt 8 (u.tdiv (one 52 11))
    omega

/-- A double read as a signed or unsigned integer: its fraction is dropped, if what is left is in the range of 64 bits. -/
theorem C83_read_int (b : Nat) (u : Int) (hu : units 52 11 b = some u) :
    (InSigned 8 (u.tdiv (one 52 11)) → ofReal b .int = .ok (.int (u.tdiv (one 52 11)))) ∧
    (InUnsigned 8 (u.tdiv (one 52 11)) → ∃ n : Nat, ofReal b .uint = .ok (.uint n) ∧ (n : Int) = u.tdiv (one 52 11)) := by
  constructor
  · intro h
    obtain ⟨n, h1, h2⟩ := trunc_signed hu h
    unfold ofReal
    rw [h1]
    show Res.ok (Datum.int (intOf 8 n)) = _
    rw [h2]
  · intro h
    obtain ⟨n, h1, h2⟩ := trunc_unsigned hu h
    refine ⟨n, ?_, h2⟩
    unfold ofReal
    rw [h1]
    rfl

/-- A double assigned to an integer field of w bytes: its fraction is dropped, and what is left is taken modulo 256^w; so it is exact if it fits. -/
theorem C83_assign_int (code : TypeCode) (w b : Nat) (u : Int) (hu : units 52 11 b = some u) :
    (code.wireKind = .int w → InSigned 8 (u.tdiv (one 52 11)) → ∃ r, assignReal code b = .ok (.int r) ∧ InSigned w r ∧
      SameMod (256 ^ w) r (u.tdiv (one 52 11)) ∧ (InSigned w (u.tdiv (one 52 11)) → r = u.tdiv (one 52 11))) ∧
    (code.wireKind = .uint w → InUnsigned 8 (u.tdiv (one 52 11)) → ∃ r : Nat, assignReal code b = .ok (.uint r) ∧ InUnsigned w r ∧
      SameMod (256 ^ w) r (u.tdiv (one 52 11)) ∧ (InUnsigned w (u.tdiv (one 52 11)) → (r : Int) = u.tdiv (one 52 11))) := by
  constructor
  · intro hk h
    obtain ⟨n, h1, h2⟩ := trunc_signed hu h
    have hw := Scl.wireKind_width code w (Or.inl hk)
    have hin := Scl.inSigned_intOf hw.1 (Scl.intBits_lt w (intOf 8 n))
    have hsm := Scl.SameMod_trans (Scl.sameMod_intOf w (intBits w (intOf 8 n))) (Scl.sameMod_intBits w (intOf 8 n))
    rw [h2] at hsm hin
    refine ⟨intOf w (intBits w (u.tdiv (one 52 11))), ?_, hin, hsm, fun h' => Scl.sameMod_unique_signed hsm hin h'⟩
    unfold assignReal
    rw [hk]
    dsimp only
    rw [h1]
    show Res.ok (Datum.int (intOf w (intBits w (intOf 8 n)))) = _
    rw [h2]
  · intro hk h
    obtain ⟨n, h1, h2⟩ := trunc_unsigned hu h
    have hin : InUnsigned w ((n % 256 ^ w : Nat) : Int) := ⟨Int.natCast_nonneg _, by exact_mod_cast Nat.mod_lt _ (Nat.pow_pos (by decide : 0 < 256))⟩
    have hsm := Scl.sameMod_mod w n
    rw [h2] at hsm
    refine ⟨n % 256 ^ w, ?_, hin, hsm, fun h' => Scl.sameMod_unique_unsigned hsm hin h'⟩
    unfold assignReal
    rw [hk]
    dsimp only
    rw [h1]
    rfl

/-- -2.5; 300.75 in one byte -/
example : ofReal 0xc004000000000000 .int = .ok (.int (-2)) ∧ assignReal .UInt8 0x4072cc0000000000 = .ok (.uint 44) := ⟨by rfl, by rfl⟩

/-- Contrary to C83: what is out of the range of 64 bits, or not a number, is not refused: the behaviour is undefined.  So for -1.0 as unsigned. -/
theorem C83_real_ub (code : TypeCode) (w b : Nat) :
    ((∀ u, units 52 11 b = some u → ¬InSigned 8 (u.tdiv (one 52 11))) → ofReal b .int = .ub ∧ (code.wireKind = .int w → assignReal code b = .ub)) ∧
    ((∀ u, units 52 11 b = some u → ¬InUnsigned 8 (u.tdiv (one 52 11))) → ofReal b .uint = .ub ∧ (code.wireKind = .uint w → assignReal code b = .ub)) := by
  have ht : truncated 52 11 b = none ∨ ∃ u, units 52 11 b = some u ∧ truncated 52 11 b = some (u.tdiv (one 52 11)) := by
    cases h : units 52 11 b with
    | none => exact Or.inl (truncated_none 52 11 b h)
    | some u => exact Or.inr ⟨u, rfl, truncated_some 52 11 b (by decide) h⟩
  constructor
  · intro h
    have hub : truncTo (.sint 8) (truncated 52 11 b) = .ub := by
      rcases ht with ht | ⟨u, hu, ht⟩
      · rw [ht]; rfl
      · rw [ht]; exact if_neg (h u hu)
    refine ⟨by unfold ofReal; rw [hub]; rfl, fun hk => ?_⟩
    unfold assignReal; rw [hk]; dsimp only; rw [hub]; rfl
  · intro h
    have hub : truncTo (.uint 8) (truncated 52 11 b) = .ub := by
      rcases ht with ht | ⟨u, hu, ht⟩
      · rw [ht]; rfl
      · rw [ht]; exact if_neg (h u hu)
    refine ⟨by unfold ofReal; rw [hub]; rfl, fun hk => ?_⟩
    unfold assignReal; rw [hk]; dsimp only; rw [hub]; rfl

/-- the hypotheses hold for 1e30, not-a-number, and -1.0 -/
example : ofReal 0x46293e5939a08cea .int = .ub ∧ ofReal 0x7ff8000000000000 .uint = .ub ∧ assignReal .UInt8 0xbff0000000000000 = .ub := ⟨by rfl, by rfl, by rfl⟩

/-- A double read as a boolean tells whether it is anything but zero.  A boolean field refuses a double. -/
theorem C83_bool (b : Nat) (hb : b < 2 ^ 64) : ofReal b .bool = .ok (.bool (!decide (units 52 11 b = some 0))) ∧ assignReal .Bool b = .throws "NoConvert" := by
  refine ⟨?_, rfl⟩
  have h := ArrayConv.units_zero 52 11 b (by decide)
  unfold ofReal
  by_cases h0 : b % 2 ^ 63 = 0
  · have : units 52 11 b = some 0 := h.mpr h0
    simp [h0, this]
  · have : ¬units 52 11 b = some 0 := fun e => h0 (h.mp e)
    simp [this]
    omega

/-- copying a field of type Float64 or Float32 to another (C17) stores what assigning its content does -/
theorem C83_copy (env : CopyEnv) (parse : Str → Option Nat) (code sc : TypeCode) (hk : code = .Float64 ∨ code = .Float32) (b : Nat) :
    copyScalar env code sc (.real b) = assignToReal parse code (.real b) := by
  rcases hk with rfl | rfl <;> rfl

/-- text which can not be read is refused, and text which can is stored like the double it is read as -/
theorem C83_parse (parse : Str → Option Nat) (s : Str) (code : TypeCode) :
    (parse s = none → readReal parse (.str s) = .throws "NoConvert" ∧ assignToReal parse code (.str s) = .throws "NoConvert") ∧
    (∀ b, parse s = some b → readReal parse (.str s) = .ok b ∧ assignToReal parse code (.str s) = assignToReal parse code (.real b)) := by
  constructor
  · intro h
    constructor
    · simp only [readReal, h, orThrow]
    · simp only [assignToReal, readReal, h, orThrow]; rfl
  · intro b h
    constructor
    · simp only [readReal, h, orThrow]
    · simp only [assignToReal, readReal, h, orThrow]

/-! ### the text of a double -/

theorem magnitude_of {b : Nat} {u : Int} (hu : units 52 11 b = some u) : magnitude b = u.natAbs ∧ b / 2 ^ 52 % 2048 ≠ 2047 ∧
    (u ≠ 0 → (b / 2 ^ 63 % 2 = 1 ↔ u < 0)) := by
  obtain ⟨s, e, m, hm, he, hs, rfl, rfl, rfl, rfl⟩ := units_of 52 11 b hu
  refine ⟨by rw [signed_natAbs]; rfl, by omega, fun h0 => ?_⟩
  unfold signed at *
  generalize mag 52 _ _ = n at *
  show b / 2 ^ (52 + 11) % 2 = 1 ↔ _
  split at h0 <;> rename_i hh
  · rw [if_pos hh]; omega
  · rw [if_neg hh]; omega

theorem one_bits : one 52 11 = 2 ^ 1074 := rfl

theorem first_of (n : Nat) (hn : 0 < n) : 10 ^ (firstDigit n).toNat * one 52 11 ≤ n * 10 ^ (-firstDigit n).toNat ∧
    n * 10 ^ (-firstDigit n).toNat < 10 ^ (firstDigit n).toNat * one 52 11 * 10 :=
  Lemmas.RealText.first_spec n (one 52 11) hn (by unfold one; exact Nat.two_pow_pos _) (by decide +kernel) (firstDigit n) rfl

/-- The text of a double which is neither zero nor infinite nor not-a-number: where 10^X is the power of ten of its first digit, the text stands
for the nearest multiple d of 10^(X-5), the even one of two: six significant digits. -/
theorem C83_text (b : Nat) (u : Int) (hu : units 52 11 b = some u) (h0 : u ≠ 0) :
    ∃ s, ∃ M z d : Nat, ∃ E X : Int, ofReal b .str = .ok (.str s) ∧ (∀ code, code.wireKind = .str → assignReal code b = .ok (.str s)) ∧
      Stands s (decide (u < 0)) M E ∧
      10 ^ X.toNat * one 52 11 ≤ u.natAbs * 10 ^ (-X).toNat ∧ u.natAbs * 10 ^ (-X).toNat < 10 ^ X.toNat * one 52 11 * 10 ∧
      d = M * 10 ^ z ∧ E = X - 5 + z ∧ 10 ^ 5 ≤ d ∧ d ≤ 10 ^ 6 ∧
      2 * ((d * (10 ^ (X - 5).toNat * one 52 11) : Nat) - (u.natAbs * 10 ^ (5 - X).toNat : Nat) : Int).natAbs ≤ 10 ^ (X - 5).toNat * one 52 11 ∧
      (2 * ((d * (10 ^ (X - 5).toNat * one 52 11) : Nat) - (u.natAbs * 10 ^ (5 - X).toNat : Nat) : Int).natAbs = 10 ^ (X - 5).toNat * one 52 11 → d % 2 = 0) := by
  obtain ⟨hm, hfin, hsg⟩ := magnitude_of hu
  have hsg := hsg h0
  have hn : 0 < u.natAbs := by omega
  obtain ⟨f1, f2⟩ := first_of u.natAbs hn
  obtain ⟨d1, d2, d3⟩ := Lemmas.RealText.six_spec u.natAbs (one 52 11) (by unfold one; exact Nat.two_pow_pos _) (firstDigit u.natAbs) f1 f2 (sixDigits u.natAbs) rfl
  have hsign : (if b / 2 ^ 63 % 2 = 1 then [0x2d] else ([] : Str)) = if decide (u < 0) then [0x2d] else [] := by
    by_cases hu0 : u < 0
    · rw [if_pos (hsg.mpr hu0), if_pos (by simpa using hu0)]
    · rw [if_neg (fun h => hu0 (hsg.mp h)), if_neg (by simpa using hu0)]
  have hshow : showDouble b = (if decide (u < 0) then [0x2d] else []) ++
      (if sixDigits u.natAbs = 10 ^ 6 then digitsText (10 ^ 5) (firstDigit u.natAbs + 1) else digitsText (sixDigits u.natAbs) (firstDigit u.natAbs)) := by
    unfold showDouble
    dsimp only
    rw [if_neg hfin, hm, if_neg (by omega), hsign]
  generalize firstDigit u.natAbs = X at *
  generalize sixDigits u.natAbs = d at *
  by_cases hd : d = 10 ^ 6
  · rw [if_pos hd] at hshow
    obtain ⟨z, M, e1, e2⟩ := Lemmas.RealText.digitsText_spec (decide (u < 0)) (10 ^ 5) (X + 1) (Nat.le_refl _) (by decide)
    refine ⟨_, M, z + 1, d, X + 1 - 5 + z, X, rfl, fun code hc => by unfold assignReal; rw [hc], hshow ▸ e2, f1, f2, ?_, by push_cast; omega, d1, d2, d3⟩
    rw [hd, Nat.pow_succ 10 z, ← Nat.mul_assoc, ← e1]
  · rw [if_neg hd] at hshow
    obtain ⟨z, M, e1, e2⟩ := Lemmas.RealText.digitsText_spec (decide (u < 0)) d X d1 (by omega)
    exact ⟨_, M, z, d, X - 5 + z, X, rfl, fun code hc => by unfold assignReal; rw [hc], hshow ▸ e2, f1, f2, e1, rfl, d1, d2, d3⟩

/-- the hypotheses hold for -0.1 -/
example : ∃ u, units 52 11 0xbfb999999999999a = some u ∧ u ≠ 0 := ⟨_, rfl, by decide +kernel⟩

/-- the other doubles -/
theorem C83_text_special (b : Nat) : (units 52 11 b = some 0 → ofReal b .str = .ok (.str [0x30]) ∨ ofReal b .str = .ok (.str [0x2d, 0x30])) ∧
    (units 52 11 b = none → ∃ neg : Bool, ∃ s : Str, ofReal b .str = .ok (.str ((if neg then [0x2d] else []) ++ s)) ∧
      (s = [0x69, 0x6e, 0x66] ∨ s = [0x6e, 0x61, 0x6e])) := by
  constructor
  · intro hu
    obtain ⟨hm, hfin, _⟩ := magnitude_of hu
    simp only [ofReal, showDouble, if_neg hfin, hm]
    by_cases h : b / 2 ^ 63 % 2 = 1
    · right; rw [if_pos h]; rfl
    · left; rw [if_neg h]; rfl
  · intro hu
    have hinf : b / 2 ^ 52 % 2048 = 2047 := by
      simp only [units] at hu
      split at hu
      · assumption
      · cases hu
    refine ⟨decide (b / 2 ^ 63 % 2 = 1), (if b % 2 ^ 52 = 0 then [0x69, 0x6e, 0x66] else [0x6e, 0x61, 0x6e]), ?_, ?_⟩
    · simp only [ofReal, showDouble, if_pos hinf, decide_eq_true_eq]
    · split
      · exact Or.inl rfl
      · exact Or.inr rfl

example : units 52 11 0xfff0000000000000 = none ∧ units 52 11 0x8000000000000000 = some 0 := ⟨rfl, rfl⟩

/-- A whole number of at most six digits is exact. -/
theorem C83_text_exact (b : Nat) (v : Int) (hu : units 52 11 b = some (v * one 52 11)) (h0 : v ≠ 0) (hv : v.natAbs < 10 ^ 6) :
    ∃ s M E, ofReal b .str = .ok (.str s) ∧ Stands s (decide (v < 0)) M E ∧ Is M E v.natAbs := by
  have hpos : 0 < one 52 11 := by unfold one; exact Nat.two_pow_pos _
  generalize hP : one 52 11 = P at hu hpos
  have hP0 : (P : Int) ≠ 0 := by omega
  obtain ⟨s, M, z, d, E, X, h1, _, h2, f1, f2, e1, e2, d1, d2, d3⟩ := C83_text b _ hu (Int.mul_ne_zero h0 hP0)
  rw [hP] at f1 f2 d3
  have hneg : decide (v * (P : Int) < 0) = decide (v < 0) := by
    refine decide_eq_decide.mpr ⟨fun h => ?_, fun h => Int.mul_neg_of_neg_of_pos h (by omega)⟩
    refine Classical.byContradiction fun hn => ?_
    have := Int.mul_nonneg (a := v) (b := (P : Int)) (by omega) (by omega)
    omega
  rw [hneg] at h2
  refine ⟨s, M, E, h1, h2, ?_⟩
  have hab : (v * (P : Int)).natAbs = v.natAbs * P := by rw [Int.natAbs_mul]; rfl
  rw [hab] at f1 f2 d3
  have hn0 : 0 < v.natAbs := by omega
  generalize v.natAbs = n at *
  clear hu hneg h0 hab h1 h2 hP hP0
  -- 0 ≤ X
  have hX0 : 0 ≤ X := by
    refine Classical.byContradiction fun hX => ?_
    have x1 : X.toNat = 0 := by omega
    rw [x1, Nat.pow_zero, Nat.one_mul] at f2
    obtain ⟨j, hj⟩ : ∃ j, (-X).toNat = j + 1 := ⟨(-X).toNat - 1, by omega⟩
    rw [hj, Nat.pow_succ] at f2
    have : P * 10 ≤ n * P * (10 ^ j * 10) := by
      have p : 1 ≤ 10 ^ j := Nat.pow_pos (by decide)
      calc P * 10 = 1 * P * (1 * 10) := by simp
        _ ≤ _ := Nat.mul_le_mul (Nat.mul_le_mul_right _ hn0) (Nat.mul_le_mul_right _ p)
    omega
  have x2 : (-X).toNat = 0 := by omega
  rw [x2, Nat.pow_zero, Nat.mul_one] at f1
  have f1' : 10 ^ X.toNat ≤ n := Nat.le_of_mul_le_mul_right f1 hpos
  have hX5 : X.toNat < 6 := (Nat.pow_lt_pow_iff_right (by decide : 1 < 10)).mp (Nat.lt_of_le_of_lt f1' hv)
  have x3 : (X - 5).toNat = 0 := by omega
  rw [x3, Nat.pow_zero, Nat.one_mul] at d3
  obtain ⟨j, hj⟩ : ∃ j : Nat, X = 5 - (j : Int) := ⟨(5 - X).toNat, by omega⟩
  have x4 : (5 - X).toNat = j := by omega
  rw [x4] at d3
  have hdn : d = n * 10 ^ j := by
    have e : ((d * P : Nat) : Int) - (n * P * 10 ^ j : Nat) = ((d : Int) - (n * 10 ^ j : Nat)) * (P : Int) := by
      rw [Int.sub_mul, ← Int.natCast_mul, ← Int.natCast_mul]
      have : n * P * 10 ^ j = n * 10 ^ j * P := by ac_rfl
      rw [this]
    rw [e, Int.natAbs_mul] at d3
    have hc : ((P : Nat) : Int).natAbs = P := rfl
    rw [hc] at d3
    refine Classical.byContradiction fun hne => ?_
    have hge : 1 ≤ ((d : Int) - (n * 10 ^ j : Nat)).natAbs := by omega
    have := Nat.mul_le_mul_right P hge
    omega
  unfold Is
  by_cases hE : 0 ≤ E
  · obtain ⟨k, hk⟩ : ∃ k : Nat, z = k + j := ⟨z - j, by omega⟩
    have y1 : E.toNat = k := by omega
    have y2 : (-E).toNat = 0 := by omega
    rw [y1, y2, Nat.pow_zero, Nat.mul_one]
    have hp : 0 < 10 ^ j := Nat.pow_pos (by decide)
    refine Nat.eq_of_mul_eq_mul_right hp ?_
    rw [← hdn, e1, hk, Nat.pow_add, Nat.mul_assoc]
  · obtain ⟨k, hk⟩ : ∃ k : Nat, j = k + z := ⟨j - z, by omega⟩
    have y1 : E.toNat = 0 := by omega
    have y2 : (-E).toNat = k := by omega
    rw [y1, y2, Nat.pow_zero, Nat.mul_one]
    have hp : 0 < 10 ^ z := Nat.pow_pos (by decide)
    refine Nat.eq_of_mul_eq_mul_right hp ?_
    rw [← e1, hdn, hk, Nat.pow_add, Nat.mul_assoc]

/-- -100000 and 999999 -/
example : units 52 11 0xc0f86a0000000000 = some ((-100000 : Int) * one 52 11) ∧ units 52 11 0x412e847e00000000 = some (999999 * one 52 11) :=
  ⟨by decide +kernel, by decide +kernel⟩

theorem firstDigit_eq (n : Nat) (hn : 0 < n) (X : Int) (h1 : 10 ^ X.toNat * one 52 11 ≤ n * 10 ^ (-X).toNat)
    (h2 : n * 10 ^ (-X).toNat < 10 ^ X.toNat * one 52 11 * 10) : firstDigit n = X :=
  Lemmas.RealText.first_unique n (one 52 11) (first_of n hn).1 (first_of n hn).2 h1 h2

theorem six_of (n : Nat) (hf : firstDigit n = 6) : sixDigits n = roundDiv n (2 ^ 1074 * 10) := by
  have h1 : ((6 : Int) - 5).toNat = 1 := by decide
  simp only [sixDigits, hf]
  rw [if_pos (by decide), h1, Nat.pow_one]

theorem show_of (b n d : Nat) (h1 : b / 2 ^ 63 % 2 ≠ 1) (h2 : b / 2 ^ 52 % 2048 ≠ 2047) (h3 : magnitude b = n) (h4 : n ≠ 0) (h5 : firstDigit n = 6)
    (h6 : roundDiv n (2 ^ 1074 * 10) = d) (h7 : d ≠ 10 ^ 6) : showDouble b = digitsText d 6 := by
  unfold showDouble
  dsimp only
  rw [if_neg h2, h3, if_neg h4, six_of n h5, h6, if_neg h7, if_neg h1, h5]
  rfl

/-- Contrary to what a user of strings may expect, the text is not enough to get the number back: 1234567 and 1234568 have the same text. -/
theorem C83_text_lossy : ∃ b1 b2 s, units 52 11 b1 = some (1234567 * one 52 11) ∧ units 52 11 b2 = some (1234568 * one 52 11) ∧
    ofReal b1 .str = .ok (.str s) ∧ ofReal b2 .str = .ok (.str s) := by
  refine ⟨0x4132d68700000000, 0x4132d68800000000, digitsText 123457 6, by decide +kernel, by decide +kernel, ?_, ?_⟩
  · refine congrArg (fun s => Res.ok (Datum.str s)) (show_of _ (1234567 * one 52 11) 123457 (by decide +kernel) (by decide +kernel) (by decide +kernel) (by decide +kernel) ?_ (by decide +kernel) (by decide))
    exact firstDigit_eq _ (by decide +kernel) 6 (by decide +kernel) (by decide +kernel)
  · refine congrArg (fun s => Res.ok (Datum.str s)) (show_of _ (1234568 * one 52 11) 123457 (by decide +kernel) (by decide +kernel) (by decide +kernel) (by decide +kernel) ?_ (by decide +kernel) (by decide))
    exact firstDigit_eq _ (by decide +kernel) 6 (by decide +kernel) (by decide +kernel)

end Pvxs.Props.RealScalar
