import Verif.Model.RealScalar
import Verif.Spec.RealScalar
import Verif.Lemmas.Scalar
import Verif.Lemmas.Real
/-! Lemmas for C83: the text of a double -/
namespace Pvxs.Lemmas.RealText
open Pvxs Wire Pvxs.RealScalar Pvxs.Spec.RealScalar
open Pvxs.Spec.Scl (Digits)

theorem digitsVal_zeros (s : Str) (z : Nat) : digitsVal 10 (s ++ List.replicate z 0x30) = digitsVal 10 s * 10 ^ z := by
  induction z with
  | zero => simp
  | succ z ih =>
    rw [List.replicate_succ', ← List.append_assoc, digitsVal_snoc, ih]
    have : digitVal 0x30 = 0 := by decide
    rw [this, Nat.pow_succ, Nat.add_zero, Nat.mul_assoc]

theorem digitsVal_lead (z : Nat) (s : Str) : digitsVal 10 (List.replicate z 0x30 ++ s) = digitsVal 10 s := by
  unfold digitsVal
  rw [List.foldl_append]
  congr 1
  have := digitsVal_zeros [] z
  simpa [digitsVal] using this

theorem stripZeros_spec (s : Str) : ∃ z, s = stripZeros s ++ List.replicate z 0x30 := by
  refine ⟨(s.reverse.takeWhile fun c => c == 0x30).length, ?_⟩
  have h : (s.reverse.takeWhile fun c => c == 0x30) = List.replicate (s.reverse.takeWhile fun c => c == 0x30).length 0x30 := by
    rw [List.eq_replicate_iff]
    refine ⟨rfl, fun b hb => ?_⟩
    have := List.all_eq_true.mp (takeWhile_all_scl (fun c => c == 0x30) s.reverse) b hb
    simpa using this
  have h2 := List.takeWhile_append_dropWhile (p := fun c : Byte => c == 0x30) (l := s.reverse)
  have h3 : s = ((s.reverse.takeWhile fun c => c == 0x30) ++ (s.reverse.dropWhile fun c => c == 0x30)).reverse := by rw [h2, List.reverse_reverse]
  rw [List.reverse_append] at h3
  unfold stripZeros
  rw [← List.reverse_replicate, ← h]
  exact h3

theorem showNat_bounds (n : Nat) : n < 10 ^ (showNat n).length ∧ (n ≠ 0 → 10 ^ ((showNat n).length - 1) ≤ n) := by
  induction n using Nat.strongRecOn with
  | ind n ih =>
    rw [showNat]
    by_cases h : n < 10
    · rw [if_pos h]
      simp only [List.length_singleton, Nat.pow_one, Nat.sub_self, Nat.pow_zero]
      omega
    · rw [if_neg h]
      obtain ⟨h1, h2⟩ := ih (n / 10) (by omega)
      have h3 := h2 (by omega)
      have hl : 1 ≤ (showNat (n / 10)).length := by
        cases hs : showNat (n / 10) with
        | nil => exact absurd hs (showNat_ne _)
        | cons c r => simp
      rw [List.length_append, List.length_singleton, Nat.pow_succ, Nat.add_sub_cancel]
      refine ⟨by omega, fun _ => ?_⟩
      have : 10 ^ (showNat (n / 10)).length = 10 ^ ((showNat (n / 10)).length - 1) * 10 := by
        rw [← Nat.pow_succ]; congr 1; omega
      omega

theorem showNat_length {n k : Nat} (h1 : 10 ^ k ≤ n) (h2 : n < 10 ^ (k + 1)) : (showNat n).length = k + 1 := by
  have h0 : n ≠ 0 := by have := Nat.pow_pos (n := k) (by decide : 0 < 10); omega
  obtain ⟨b1, b2⟩ := showNat_bounds n
  have b2 := b2 h0
  have c1 : k < (showNat n).length := (Nat.pow_lt_pow_iff_right (by decide : 1 < 10)).mp (Nat.lt_of_le_of_lt h1 b1)
  have c2 : (showNat n).length - 1 < k + 1 := (Nat.pow_lt_pow_iff_right (by decide : 1 < 10)).mp (Nat.lt_of_le_of_lt b2 h2)
  omega

/-- all digits -/
def AllD (s : Str) : Prop := s.all (isDigit 10) = true

theorem allD_app {s t : Str} : AllD (s ++ t) ↔ AllD s ∧ AllD t := by simp [AllD]

theorem digits_of {s : Str} (h0 : s ≠ []) (h : AllD s) : Digits 10 s (digitsVal 10 s) := (digits_iff (by omega) _ _).mpr ⟨h0, h, rfl⟩

theorem expText_spec (X : Int) : ExpText (expText X) X := by
  have hd : Digits 10 (if (showNat X.natAbs).length < 2 then 0x30 :: showNat X.natAbs else showNat X.natAbs) X.natAbs := by
    have h := showNat_digits X.natAbs
    split
    · have h' := (digits_iff (by omega) _ _).mp h
      refine (digits_iff (by omega) _ _).mpr ⟨by simp, ?_, ?_⟩
      · rw [List.all_cons, h'.2.1]; decide
      · have := digitsVal_lead 1 (showNat X.natAbs)
        exact this.trans h'.2.2
    · exact h
  unfold expText
  by_cases hX : X < 0
  · have := ExpText.neg _ _ hd
    have e : -(X.natAbs : Int) = X := by omega
    rw [e] at this
    simpa [hX] using this
  · have := ExpText.pos _ _ hd
    have e : (X.natAbs : Int) = X := by omega
    rw [e] at this
    simpa [hX] using this

theorem withPoint_spec (neg : Bool) (w f e : Str) (X : Int) (hw : w ≠ []) (hd : AllD (w ++ f)) (he : ExpText e X) :
    Stands ((if neg then [0x2d] else []) ++ (withPoint w f ++ e)) neg (digitsVal 10 (w ++ f)) (X - f.length) := by
  unfold withPoint
  by_cases hf : f = []
  · subst hf
    rw [if_pos rfl, List.append_nil] at *
    have := Stands.whole neg w e _ X (digits_of hw hd) he
    simpa using this
  · rw [if_neg hf]
    have := Stands.point neg w f e _ X hw hf (digits_of (by simp [hw]) hd) he
    simpa using this

theorem digitsText_spec (neg : Bool) (d : Nat) (X : Int) (h1 : 10 ^ 5 ≤ d) (h2 : d < 10 ^ 6) :
    ∃ z M : Nat, d = M * 10 ^ z ∧ Stands ((if neg then [0x2d] else []) ++ digitsText d X) neg M (X - 5 + z) := by
  have hl := showNat_length h1 h2
  obtain ⟨_, hall, hval⟩ := (digits_iff (by omega) _ _).mp (showNat_digits d)
  have hall : AllD (showNat d) := hall
  generalize hds : showNat d = ds at hl hall hval
  have key : ∀ k : Nat, k ≤ 5 → ∀ e Y, ExpText e Y → (Y - (5 - k : Int) = X - 5) →
      ∃ z M : Nat, d = M * 10 ^ z ∧ Stands ((if neg then [0x2d] else []) ++ (withPoint (ds.take (k + 1)) (stripZeros (ds.drop (k + 1))) ++ e)) neg M (X - 5 + z) := by
    intro k hk e Y he hY
    obtain ⟨z, hz⟩ := stripZeros_spec (ds.drop (k + 1))
    have hsplit : ds = ds.take (k + 1) ++ stripZeros (ds.drop (k + 1)) ++ List.replicate z 0x30 := by
      rw [List.append_assoc, ← hz, List.take_append_drop]
    have hlen := congrArg List.length hz
    rw [List.length_drop, hl, List.length_append, List.length_replicate] at hlen
    have hA : AllD (ds.take (k + 1) ++ stripZeros (ds.drop (k + 1))) := by
      rw [hsplit] at hall; exact (allD_app.mp hall).1
    refine ⟨z, digitsVal 10 (ds.take (k + 1) ++ stripZeros (ds.drop (k + 1))), ?_, ?_⟩
    · rw [← hval]; conv => lhs; rw [hsplit]
      exact digitsVal_zeros _ _
    · have hw : ds.take (k + 1) ≠ [] := by
        intro h
        have := congrArg List.length h
        rw [List.length_take, hl] at this
        simp only [List.length_nil] at this
        omega
      have := withPoint_spec neg _ _ e Y hw hA he
      have ee : Y - ((stripZeros (ds.drop (k + 1))).length : Int) = X - 5 + z := by omega
      rwa [ee] at this
  unfold digitsText
  rw [hds]
  dsimp only
  by_cases hX : -4 ≤ X ∧ X < 6
  · rw [if_pos hX]
    by_cases hX0 : 0 ≤ X
    · rw [if_pos hX0]
      have := key X.toNat (by omega) [] 0 ExpText.none (by omega)
      simpa using this
    · rw [if_neg hX0]
      obtain ⟨z, hz⟩ := stripZeros_spec (List.replicate ((-X).toNat - 1) 0x30 ++ ds)
      generalize hf : stripZeros (List.replicate ((-X).toNat - 1) 0x30 ++ ds) = f at hz
      have hlen := congrArg List.length hz
      simp only [List.length_append, List.length_replicate, hl] at hlen
      have hA : AllD ([0x30] ++ f) := by
        have : AllD (List.replicate ((-X).toNat - 1) 0x30 ++ ds) := by
          refine allD_app.mpr ⟨?_, hall⟩
          unfold AllD
          rw [List.all_replicate]
          simp
          exact Or.inr (by decide)
        rw [hz] at this
        exact allD_app.mpr ⟨by unfold AllD; decide, (allD_app.mp this).1⟩
      refine ⟨z, digitsVal 10 ([0x30] ++ f), ?_, ?_⟩
      · have h3 := digitsVal_lead 1 f
        have h4 := digitsVal_zeros f z
        have h5 := digitsVal_lead ((-X).toNat - 1) ds
        rw [hz, h4, hval] at h5
        have h3 : digitsVal 10 ([0x30] ++ f) = digitsVal 10 f := h3
        rw [h3]; exact h5.symm
      · have := withPoint_spec neg [0x30] f [] 0 (by simp) hA ExpText.none
        have ee : (0 : Int) - (f.length : Int) = X - 5 + z := by omega
        rw [ee, List.append_nil] at this
        exact this
  · rw [if_neg hX]
    exact key 0 (by omega) (expText X) X (expText_spec X) (by omega)

theorem roundDiv_near (n D : Nat) (hD : 0 < D) : 2 * ((roundDiv n D * D : Nat) - (n : Int)).natAbs ≤ D ∧ n / D ≤ roundDiv n D ∧ roundDiv n D ≤ n / D + 1 ∧
    (2 * ((roundDiv n D * D : Nat) - (n : Int)).natAbs = D → roundDiv n D % 2 = 0) := by
  have h1 := Nat.div_add_mod n D
  have h2 := Nat.mod_lt n hD
  unfold roundDiv
  dsimp only
  generalize n / D = q at *
  generalize n % D = r at *
  have e : (q + 1) * D = D * q + D := by rw [Nat.add_mul, Nat.one_mul, Nat.mul_comm]
  have e2 : q * D = D * q := Nat.mul_comm _ _
  split
  · rw [e]; omega
  · rw [e2]; omega

/-- the exponent of the first digit -/
theorem first_spec (n P : Nat) (hn : 0 < n) (hP : 0 < P) (hp : P ≤ 10 ^ 324) (X : Int)
    (hX : X = ((showNat (n * 10 ^ 324 / P)).length : Int) - 1 - 324) :
    10 ^ X.toNat * P ≤ n * 10 ^ (-X).toNat ∧ n * 10 ^ (-X).toNat < 10 ^ X.toNat * P * 10 := by
  generalize hK : 324 = K at *
  have hL : 0 < n * 10 ^ K / P := Nat.div_pos (Nat.le_trans hp (Nat.le_mul_of_pos_left _ hn)) hP
  obtain ⟨b1, b2⟩ := showNat_bounds (n * 10 ^ K / P)
  have b2 := b2 (by omega)
  have hl : 1 ≤ (showNat (n * 10 ^ K / P)).length := by
    cases hs : showNat (n * 10 ^ K / P) with
    | nil => exact absurd hs (showNat_ne _)
    | cons c r => simp
  generalize (showNat (n * 10 ^ K / P)).length = l at *
  rw [Nat.le_div_iff_mul_le hP] at b2
  rw [Nat.div_lt_iff_lt_mul hP] at b1
  obtain ⟨k, rfl⟩ : ∃ k, l = k + 1 := ⟨l - 1, by omega⟩
  rw [Nat.add_sub_cancel] at b2
  rw [Nat.pow_succ] at b1
  have hX : X = (k : Int) - (K : Int) := by subst hK; omega
  by_cases hk : K ≤ k
  · obtain ⟨j, rfl⟩ : ∃ j, k = j + K := ⟨k - K, by omega⟩
    have e1 : X.toNat = j := by omega
    have e2 : (-X).toNat = 0 := by omega
    rw [e1, e2, Nat.pow_zero, Nat.mul_one]
    rw [Nat.pow_add] at b1 b2
    have hpos : 0 < 10 ^ K := Nat.pow_pos (by decide)
    constructor
    · refine Nat.le_of_mul_le_mul_right ?_ hpos
      calc 10 ^ j * P * 10 ^ K = 10 ^ j * 10 ^ K * P := by ac_rfl
        _ ≤ _ := b2
    · refine Nat.lt_of_mul_lt_mul_right (a := 10 ^ K) ?_
      calc n * 10 ^ K < _ := b1
        _ = _ := by ac_rfl
  · obtain ⟨j, rfl⟩ : ∃ j, K = j + k := ⟨K - k, by omega⟩
    have e1 : X.toNat = 0 := by omega
    have e2 : (-X).toNat = j := by omega
    rw [e1, e2, Nat.pow_zero, Nat.one_mul]
    rw [Nat.pow_add] at b1 b2
    have hpos : 0 < 10 ^ k := Nat.pow_pos (by decide)
    constructor
    · refine Nat.le_of_mul_le_mul_right ?_ hpos
      calc P * 10 ^ k = 10 ^ k * P := by ac_rfl
        _ ≤ _ := b2
        _ = _ := by ac_rfl
    · refine Nat.lt_of_mul_lt_mul_right (a := 10 ^ k) ?_
      calc n * 10 ^ j * 10 ^ k = n * (10 ^ j * 10 ^ k) := by ac_rfl
        _ < _ := b1
        _ = _ := by ac_rfl

theorem first_unique (n P : Nat) {X Y : Int} (hX1 : 10 ^ X.toNat * P ≤ n * 10 ^ (-X).toNat) (hX2 : n * 10 ^ (-X).toNat < 10 ^ X.toNat * P * 10)
    (hY1 : 10 ^ Y.toNat * P ≤ n * 10 ^ (-Y).toNat) (hY2 : n * 10 ^ (-Y).toNat < 10 ^ Y.toNat * P * 10) : X = Y := by
  have key : ∀ A B : Int, 10 ^ A.toNat * P ≤ n * 10 ^ (-A).toNat → n * 10 ^ (-B).toNat < 10 ^ B.toNat * P * 10 → A ≤ B := by
    intro A B h1 h2
    refine Classical.byContradiction fun hlt => ?_
    have hlt : B + 1 ≤ A := by omega
    have m1 : 10 ^ A.toNat * P * 10 ^ (-B).toNat ≤ n * 10 ^ (-A).toNat * 10 ^ (-B).toNat := Nat.mul_le_mul_right _ h1
    have m2 : n * 10 ^ (-B).toNat * 10 ^ (-A).toNat < 10 ^ B.toNat * P * 10 * 10 ^ (-A).toNat := Nat.mul_lt_mul_of_pos_right h2 (Nat.pow_pos (by decide))
    have m3 : 10 ^ A.toNat * 10 ^ (-B).toNat * P < 10 ^ B.toNat * 10 * 10 ^ (-A).toNat * P := by
      calc _ = 10 ^ A.toNat * P * 10 ^ (-B).toNat := by ac_rfl
        _ ≤ _ := m1
        _ = n * 10 ^ (-B).toNat * 10 ^ (-A).toNat := by ac_rfl
        _ < _ := m2
        _ = _ := by ac_rfl
    have m4 := Nat.lt_of_mul_lt_mul_right m3
    rw [← Nat.pow_add, ← Nat.pow_succ, ← Nat.pow_add] at m4
    have := (Nat.pow_lt_pow_iff_right (by decide : 1 < 10)).mp m4
    omega
  exact Int.le_antisymm (key X Y hX1 hY2) (key Y X hY1 hX2)

/-- six digits -/
theorem six_spec (n P : Nat) (hP : 0 < P) (X : Int) (h1 : 10 ^ X.toNat * P ≤ n * 10 ^ (-X).toNat) (h2 : n * 10 ^ (-X).toNat < 10 ^ X.toNat * P * 10)
    (d : Nat) (hd : d = if 5 ≤ X then roundDiv n (P * 10 ^ (X - 5).toNat) else roundDiv (n * 10 ^ (5 - X).toNat) P) :
    10 ^ 5 ≤ d ∧ d ≤ 10 ^ 6 ∧ 2 * ((d * (10 ^ (X - 5).toNat * P) : Nat) - (n * 10 ^ (5 - X).toNat : Nat) : Int).natAbs ≤ 10 ^ (X - 5).toNat * P ∧
    (2 * ((d * (10 ^ (X - 5).toNat * P) : Nat) - (n * 10 ^ (5 - X).toNat : Nat) : Int).natAbs = 10 ^ (X - 5).toNat * P → d % 2 = 0) := by
  have gen : ∀ N D : Nat, 0 < D → 10 ^ 5 * D ≤ N → N < 10 ^ 6 * D → d = roundDiv N D →
      10 ^ 5 ≤ d ∧ d ≤ 10 ^ 6 ∧ 2 * ((d * D : Nat) - (N : Int)).natAbs ≤ D ∧ (2 * ((d * D : Nat) - (N : Int)).natAbs = D → d % 2 = 0) := by
    intro N D hD a1 a2 e
    obtain ⟨r1, r2, r3, r4⟩ := roundDiv_near N D hD
    have q1 : 10 ^ 5 ≤ N / D := (Nat.le_div_iff_mul_le hD).mpr a1
    have q2 : N / D < 10 ^ 6 := (Nat.div_lt_iff_lt_mul hD).mpr a2
    rw [e]
    exact ⟨by omega, by omega, r1, r4⟩
  by_cases hX : 5 ≤ X
  · rw [if_pos hX] at hd
    obtain ⟨j, hj⟩ : ∃ j : Nat, X = j + 5 := ⟨(X - 5).toNat, by omega⟩
    have e1 : X.toNat = j + 5 := by omega
    have e2 : (-X).toNat = 0 := by omega
    have e3 : (X - 5).toNat = j := by omega
    have e4 : (5 - X).toNat = 0 := by omega
    rw [e1, e2, Nat.pow_zero, Nat.mul_one] at h1 h2
    rw [e3] at hd
    rw [e3, e4, Nat.pow_zero, Nat.mul_one]
    have e5 : P * 10 ^ j = 10 ^ j * P := Nat.mul_comm _ _
    rw [e5] at hd
    rw [Nat.pow_add] at h1 h2
    refine gen n (10 ^ j * P) (Nat.mul_pos (Nat.pow_pos (by decide)) hP) ?_ ?_ hd
    · calc 10 ^ 5 * (10 ^ j * P) = 10 ^ j * 10 ^ 5 * P := by ac_rfl
        _ ≤ _ := h1
    · calc n < _ := h2
        _ = 10 ^ 6 * (10 ^ j * P) := by rw [Nat.pow_succ 10 5]; ac_rfl
  · rw [if_neg hX] at hd
    obtain ⟨j, hj⟩ : ∃ j : Nat, X = 5 - (j : Int) := ⟨(5 - X).toNat, by omega⟩
    have e3 : (X - 5).toNat = 0 := by omega
    have e4 : (5 - X).toNat = j := by omega
    rw [e4] at hd
    rw [e3, e4, Nat.pow_zero, Nat.one_mul]
    have e5 : X.toNat + j = 5 + (-X).toNat := by omega
    have p5 : 10 ^ X.toNat * 10 ^ j = 10 ^ 5 * 10 ^ (-X).toNat := by rw [← Nat.pow_add, e5, Nat.pow_add]
    have hpos : 0 < 10 ^ (-X).toNat := Nat.pow_pos (by decide)
    have hj0 : 0 < 10 ^ j := Nat.pow_pos (by decide)
    refine gen (n * 10 ^ j) P hP ?_ ?_ hd
    · refine Nat.le_of_mul_le_mul_right (c := 10 ^ (-X).toNat) ?_ hpos
      calc 10 ^ 5 * P * 10 ^ (-X).toNat = 10 ^ 5 * 10 ^ (-X).toNat * P := by ac_rfl
        _ = 10 ^ X.toNat * P * 10 ^ j := by rw [← p5]; ac_rfl
        _ ≤ n * 10 ^ (-X).toNat * 10 ^ j := Nat.mul_le_mul_right _ h1
        _ = _ := by ac_rfl
    · refine Nat.lt_of_mul_lt_mul_right (a := 10 ^ (-X).toNat) ?_
      calc n * 10 ^ j * 10 ^ (-X).toNat = n * 10 ^ (-X).toNat * 10 ^ j := by ac_rfl
        _ < 10 ^ X.toNat * P * 10 * 10 ^ j := Nat.mul_lt_mul_of_pos_right h2 hj0
        _ = 10 ^ X.toNat * 10 ^ j * P * 10 := by ac_rfl
        _ = 10 ^ 5 * 10 ^ (-X).toNat * P * 10 := by rw [p5]
        _ = 10 ^ 6 * P * 10 ^ (-X).toNat := by rw [Nat.pow_succ 10 5]; ac_rfl

end Pvxs.Lemmas.RealText
