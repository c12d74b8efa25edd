import Verif.Model.RealParse
import Verif.Spec.RealParse
import Verif.Lemmas.Scalar
/-
The text of a real, for C90.
-/
namespace Pvxs.Lemmas.RealParse
open Pvxs Pvxs.RealParse
open Pvxs.Spec.RealParse (Mantissa Exponent Number Around Letters Infinity NotANumber NanChar)
open Pvxs.Spec.Scl (Digits Blank)
open Pvxs.Wire (Byte)

/-- what stops a row of digits -/
def Stop (base : Nat) (r : Str) : Prop := ∀ c t, r = c :: t → isDigit base c = false

theorem take_digits {base : Nat} {w r : Str} (hw : w.all (isDigit base) = true) (hr : Stop base r) :
    (w ++ r).takeWhile (isDigit base) = w ∧ (w ++ r).dropWhile (isDigit base) = r := by
  induction w with
  | nil =>
    cases r with
    | nil => exact ⟨rfl, rfl⟩
    | cons c t => simp [hr c t rfl]
  | cons c w ih =>
    simp only [List.all_cons, Bool.and_eq_true] at hw
    obtain ⟨h1, h2⟩ := ih hw.2
    simp [hw.1, h1, h2]

theorem mantissa_complete {base : Nat} (hb : base ≤ 36) (hp : isDigit base 0x2e = false) {m r : Str} {M k : Nat} (h : Mantissa base m M k)
    (hr : Stop base r) (hd : ∀ t, r ≠ 0x2e :: t) : mantissa base (m ++ r) = some (M, k, r) := by
  cases h with
  | whole h =>
    obtain ⟨h0, h1, h2⟩ := (digits_iff hb _ _).mp h
    obtain ⟨t1, t2⟩ := take_digits h1 hr
    unfold mantissa
    rw [t1, t2]
    dsimp only
    split
    · rename_i t; exact absurd rfl (hd t)
    · rw [if_neg h0, h2]
  | @point w f _ h =>
    obtain ⟨h0, h1, h2⟩ := (digits_iff hb _ _).mp h
    rw [List.all_append, Bool.and_eq_true] at h1
    have hs : Stop base (0x2e :: (f ++ r)) := by
      intro c t e; injection e with e1 _; rw [← e1]; exact hp
    obtain ⟨t1, t2⟩ := take_digits h1.1 hs
    obtain ⟨t3, t4⟩ := take_digits h1.2 hr
    unfold mantissa
    rw [List.append_assoc, List.cons_append, t1, t2]
    show (if w ++ (f ++ r).takeWhile (isDigit base) = [] then _ else _) = _
    rw [t3, t4, if_neg h0, h2]

theorem mantissa_sound {base : Nat} (hb : base ≤ 36) {s r : Str} {M k : Nat} (h : mantissa base s = some (M, k, r)) :
    ∃ m, s = m ++ r ∧ Mantissa base m M k := by
  have e1 : s = s.takeWhile (isDigit base) ++ s.dropWhile (isDigit base) := List.takeWhile_append_dropWhile.symm
  have d1 := takeWhile_all_scl (isDigit base) s
  unfold mantissa at h
  generalize s.takeWhile (isDigit base) = w at *
  dsimp only at h
  split at h
  · rename_i t ht
    have e2 : t = t.takeWhile (isDigit base) ++ t.dropWhile (isDigit base) := List.takeWhile_append_dropWhile.symm
    have d2 := takeWhile_all_scl (isDigit base) t
    generalize t.takeWhile (isDigit base) = f at *
    split at h
    · cases h
    · rename_i hne
      injection h with h
      injection h with h1 h
      injection h with h2 h3
      refine ⟨w ++ 0x2e :: f, ?_, ?_⟩
      · rw [e1, ht, e2, h3]; simp
      · rw [← h2]
        exact .point ((digits_iff hb _ _).mpr ⟨hne, by rw [List.all_append, d1, d2]; rfl, h1⟩)
  · split at h
    · cases h
    · rename_i hne
      injection h with h
      injection h with h1 h
      injection h with h2 h3
      refine ⟨w, ?_, ?_⟩
      · rw [← h3]; exact e1
      · rw [← h2]
        exact .whole ((digits_iff hb _ _).mpr ⟨hne, d1, h1⟩)

theorem blank_stop {base : Nat} (hb : base ≤ 36) {b : Str} (h : Blank b) : Stop base b := by
  intro c t e
  rw [blank_iff, e] at h
  simp only [List.all_cons, Bool.and_eq_true] at h
  exact space_not_digit hb h.1

theorem expDigits_complete {neg : Bool} {s b : Str} {n : Nat} (h : Digits 10 s n) (hb : Blank b) :
    expDigits neg (s ++ b) = some (if neg then -(n : Int) else (n : Int), b) := by
  obtain ⟨h0, h1, h2⟩ := (digits_iff (by decide) _ _).mp h
  obtain ⟨t1, t2⟩ := take_digits h1 (blank_stop (by decide) hb)
  unfold expDigits
  rw [t1, t2]
  dsimp only
  rw [if_neg h0, h2]

theorem digits_head {base : Nat} (hb : base ≤ 36) {s : Str} {n : Nat} (h : Digits base s n) : ∃ c t, s = c :: t ∧ isDigit base c = true := by
  obtain ⟨h0, h1, -⟩ := (digits_iff hb _ _).mp h
  cases s with
  | nil => exact absurd rfl h0
  | cons c t =>
    simp only [List.all_cons, Bool.and_eq_true] at h1
    exact ⟨c, t, rfl, h1.1⟩

theorem exponent_complete {low up : Byte} (hl : isSpace low = false) (hu : isSpace up = false) {x b : Str} {X : Int} (h : Exponent low up x X)
    (hb : Blank b) : exponent low up (x ++ b) = (X, b) := by
  cases h with
  | none =>
    cases b with
    | nil => rfl
    | cons c t =>
      have hc : isSpace c = true := by
        rw [blank_iff] at hb
        simp only [List.all_cons, Bool.and_eq_true] at hb
        exact hb.1
      show (if c = low ∨ c = up then _ else _) = _
      rw [if_neg]
      rintro (rfl | rfl)
      · rw [hl] at hc; cases hc
      · rw [hu] at hc; cases hc
  | @plain c s n hc hd =>
    have e := expDigits_complete (neg := false) hd hb
    obtain ⟨a, t, rfl, ha⟩ := digits_head (by decide) hd
    show (if c = low ∨ c = up then (expSigned (a :: t ++ b)).getD _ else _) = _
    rw [if_pos hc]
    have : expSigned (a :: t ++ b) = expDigits false (a :: t ++ b) := by
      rw [List.cons_append]
      unfold expSigned
      split
      · rename_i e1; injection e1 with e1 _; subst e1; exact absurd ha (by decide)
      · rename_i e1; injection e1 with e1 _; subst e1; exact absurd ha (by decide)
      · rfl
    rw [this, e]
    rfl
  | @plus c s n hc hd =>
    have e := expDigits_complete (neg := false) hd hb
    show (if c = low ∨ c = up then (expSigned (0x2b :: (s ++ b))).getD _ else _) = _
    rw [if_pos hc, show expSigned (0x2b :: (s ++ b)) = expDigits false (s ++ b) from rfl, e]
    rfl
  | @minus c s n hc hd =>
    have e := expDigits_complete (neg := true) hd hb
    show (if c = low ∨ c = up then (expSigned (0x2d :: (s ++ b))).getD _ else _) = _
    rw [if_pos hc, show expSigned (0x2d :: (s ++ b)) = expDigits true (s ++ b) from rfl, e]
    rfl

theorem expDigits_sound {neg : Bool} {s r : Str} {X : Int} (h : expDigits neg s = some (X, r)) :
    ∃ t n, s = t ++ r ∧ Digits 10 t n ∧ X = if neg then -(n : Int) else (n : Int) := by
  have e1 : s = s.takeWhile (isDigit 10) ++ s.dropWhile (isDigit 10) := List.takeWhile_append_dropWhile.symm
  have d1 := takeWhile_all_scl (isDigit 10) s
  unfold expDigits at h
  generalize s.takeWhile (isDigit 10) = w at *
  dsimp only at h
  split at h
  · cases h
  · rename_i hne
    injection h with h
    injection h with h1 h2
    exact ⟨w, digitsVal 10 w, by rw [← h2]; exact e1, (digits_iff (by decide) _ _).mpr ⟨hne, d1, rfl⟩, h1.symm⟩

theorem exponent_sound {low up : Byte} (s : Str) : ∃ x, s = x ++ (exponent low up s).2 ∧ Exponent low up x (exponent low up s).1 := by
  cases s with
  | nil => exact ⟨[], rfl, .none⟩
  | cons c r =>
    by_cases hc : c = low ∨ c = up
    · have e : exponent low up (c :: r) = (expSigned r).getD (0, c :: r) := if_pos hc
      rw [e]
      cases h : expSigned r with
      | none => exact ⟨[], rfl, .none⟩
      | some p =>
        obtain ⟨X, t⟩ := p
        show ∃ x, c :: r = x ++ t ∧ Exponent low up x X
        unfold expSigned at h
        split at h
        · obtain ⟨w, n, e1, e2, e3⟩ := expDigits_sound h
          exact ⟨c :: 0x2d :: w, by rw [e1]; rfl, by rw [e3]; exact .minus hc e2⟩
        · obtain ⟨w, n, e1, e2, e3⟩ := expDigits_sound h
          exact ⟨c :: 0x2b :: w, by rw [e1]; rfl, by rw [e3]; exact .plus hc e2⟩
        · obtain ⟨w, n, e1, e2, e3⟩ := expDigits_sound h
          exact ⟨c :: w, by rw [e1]; rfl, by rw [e3]; exact .plain hc e2⟩
    · have e : exponent low up (c :: r) = (0, c :: r) := if_neg hc
      rw [e]
      exact ⟨[], rfl, .none⟩

theorem number_sound {s r : Str} {n : Num} (h : number s = some (n, r)) : ∃ t, s = t ++ r ∧ Number t n.m n.base n.exp := by
  unfold number at h
  split at h
  · rename_i p hp
    injection h with h
    subst h
    rw [Option.bind_eq_some_iff] at hp
    obtain ⟨q, h1, h2⟩ := hp
    unfold hexNumber at h2
    rw [Option.map_eq_some_iff] at h2
    obtain ⟨⟨M, k, q'⟩, h3, h4⟩ := h2
    injection h4 with h5 h6
    obtain ⟨m, e1, hm⟩ := mantissa_sound (by decide) h3
    obtain ⟨x, e2, hx⟩ := exponent_sound (low := 0x70) (up := 0x50) q'
    obtain ⟨c, hc, e3⟩ : ∃ c, (c = 0x78 ∨ c = 0x58) ∧ s = 0x30 :: c :: q := by
      unfold afterHex at h1
      split at h1
      · split at h1
        · rename_i c q2 hc
          injection h1 with h1
          exact ⟨c, hc, by rw [h1]⟩
        · cases h1
      · cases h1
    refine ⟨0x30 :: c :: (m ++ x), ?_, ?_⟩
    · rw [e3, e1, ← h6]
      show _ = 0x30 :: c :: ((m ++ x) ++ _)
      rw [List.append_assoc, ← e2]
    · rw [← h5]
      exact .hex hc hm hx
  · unfold decimal at h
    rw [Option.map_eq_some_iff] at h
    obtain ⟨⟨M, k, q'⟩, h3, h4⟩ := h
    injection h4 with h5 h6
    obtain ⟨m, e1, hm⟩ := mantissa_sound (by decide) h3
    obtain ⟨x, e2, hx⟩ := exponent_sound (low := 0x65) (up := 0x45) q'
    refine ⟨m ++ x, ?_, ?_⟩
    · rw [e1, ← h6, List.append_assoc]
      show m ++ q' = m ++ (x ++ (exponent 0x65 0x45 q').2)
      rw [← e2]
    · rw [← h5]
      exact .dec hm hx

/-- what comes after the digits -/
theorem after_stop {base : Nat} (hb : base ≤ 36) {low up : Byte} (hl : isDigit base low = false ∧ low ≠ 0x2e) (hu : isDigit base up = false ∧ up ≠ 0x2e)
    {x b : Str} {X : Int} (h : Exponent low up x X) (hbl : Blank b) : Stop base (x ++ b) ∧ ∀ t, x ++ b ≠ 0x2e :: t := by
  have key : ∀ c t, (c = low ∨ c = up) → Stop base (c :: t) ∧ ∀ t', c :: t ≠ 0x2e :: t' := by
    intro c t hc
    constructor
    · intro c' t' e; injection e with e1 _; rw [← e1]
      rcases hc with rfl | rfl
      · exact hl.1
      · exact hu.1
    · intro t' e; injection e with e1 _
      rcases hc with rfl | rfl
      · exact hl.2 e1
      · exact hu.2 e1
  cases h with
  | none =>
    refine ⟨blank_stop hb hbl, fun t e => ?_⟩
    rw [List.nil_append] at e
    rw [blank_iff, e] at hbl
    revert hbl
    simp only [List.all_cons, Bool.and_eq_true]
    rintro ⟨h, -⟩
    revert h; decide
  | plain hc _ => exact key _ _ hc
  | plus hc _ => exact key _ _ hc
  | minus hc _ => exact key _ _ hc

theorem decimal_complete {m x b : Str} {M k : Nat} {X : Int} (hm : Mantissa 10 m M k) (hx : Exponent 0x65 0x45 x X) (hb : Blank b) :
    decimal (m ++ x ++ b) = some (⟨M, 10, X - k⟩, b) := by
  obtain ⟨s1, s2⟩ := after_stop (base := 10) (by decide) (by decide) (by decide) hx hb
  unfold decimal
  rw [List.append_assoc, mantissa_complete (by decide) (by decide) hm s1 s2]
  show some (Num.mk M 10 ((exponent 0x65 0x45 (x ++ b)).1 - k), (exponent 0x65 0x45 (x ++ b)).2) = _
  rw [exponent_complete (by decide) (by decide) hx hb]

theorem hexNumber_complete {m x b : Str} {M k : Nat} {X : Int} (hm : Mantissa 16 m M k) (hx : Exponent 0x70 0x50 x X) (hb : Blank b) :
    hexNumber (m ++ x ++ b) = some (⟨M, 2, X - 4 * k⟩, b) := by
  obtain ⟨s1, s2⟩ := after_stop (base := 16) (by decide) (by decide) (by decide) hx hb
  unfold hexNumber
  rw [List.append_assoc, mantissa_complete (by decide) (by decide) hm s1 s2]
  show some (Num.mk M 2 ((exponent 0x70 0x50 (x ++ b)).1 - 4 * k), (exponent 0x70 0x50 (x ++ b)).2) = _
  rw [exponent_complete (by decide) (by decide) hx hb]

/-- the first characters of a decimal number -/
theorem mantissa_head {base : Nat} (hb : base ≤ 36) {m : Str} {M k : Nat} (h : Mantissa base m M k) :
    ∃ c t, m = c :: t ∧ (isDigit base c = true ∨ c = 0x2e) ∧ ∀ c2 t2, t = c2 :: t2 → isDigit base c2 = true ∨ c2 = 0x2e := by
  cases h with
  | whole h =>
    obtain ⟨h0, h1, -⟩ := (digits_iff hb _ _).mp h
    match m, h0, h1 with
    | c :: t, _, h1 =>
      simp only [List.all_cons, Bool.and_eq_true] at h1
      refine ⟨c, t, rfl, .inl h1.1, fun c2 t2 e => ?_⟩
      rw [e] at h1
      simp only [List.all_cons, Bool.and_eq_true] at h1
      exact .inl h1.2.1
  | @point w f _ h =>
    obtain ⟨h0, h1, -⟩ := (digits_iff hb _ _).mp h
    rw [List.all_append, Bool.and_eq_true] at h1
    match w, h1.1 with
    | [], _ =>
      refine ⟨0x2e, f, rfl, .inr rfl, fun c2 t2 e => ?_⟩
      have h2 := h1.2
      rw [e] at h2
      simp only [List.all_cons, Bool.and_eq_true] at h2
      exact .inl h2.1
    | [c], h2 =>
      simp only [List.all_cons, Bool.and_eq_true] at h2
      exact ⟨c, 0x2e :: f, rfl, .inl h2.1, fun c2 t2 e => by injection e with e _; exact .inr e.symm⟩
    | c :: c' :: t, h2 =>
      simp only [List.all_cons, Bool.and_eq_true] at h2
      exact ⟨c, c' :: t ++ 0x2e :: f, rfl, .inl h2.1, fun c2 t2 e => by
        rw [List.cons_append] at e
        injection e with e _; exact .inl (e ▸ h2.2.1)⟩

theorem number_complete {t b : Str} {M B : Nat} {E : Int} (h : Number t M B E) (hb : Blank b) : number (t ++ b) = some (⟨M, B, E⟩, b) := by
  cases h with
  | @dec m x _ k X hm hx =>
    have hnot : afterHex (m ++ x ++ b) = none := by
      obtain ⟨s1, s2⟩ := after_stop (base := 10) (by decide) (low := 0x65) (up := 0x45) (by decide) (by decide) hx hb
      obtain ⟨c, t, rfl, -, h2⟩ := mantissa_head (by decide) hm
      unfold afterHex
      split
      · rename_i y r e
        rw [List.append_assoc, List.cons_append] at e
        injection e with _ e
        rw [if_neg]
        rintro hy
        cases t with
        | nil =>
          rw [List.nil_append] at e
          cases hx with
          | none =>
            rw [List.nil_append] at e
            rw [blank_iff, e] at hb
            simp only [List.all_cons, Bool.and_eq_true] at hb
            rcases hy with rfl | rfl <;> exact absurd hb.1 (by decide)
          | plain hc _ =>
            injection e with e _; subst e
            rcases hy with rfl | rfl <;> exact absurd hc (by decide)
          | plus hc _ =>
            injection e with e _; subst e
            rcases hy with rfl | rfl <;> exact absurd hc (by decide)
          | minus hc _ =>
            injection e with e _; subst e
            rcases hy with rfl | rfl <;> exact absurd hc (by decide)
        | cons c2 t2 =>
          injection e with e _; subst e
          have := h2 _ _ rfl
          rcases hy with rfl | rfl <;> exact absurd this (by decide)
      · rfl
    unfold number
    rw [hnot]
    show decimal (m ++ x ++ b) = _
    exact decimal_complete hm hx hb
  | @hex c m x _ k X hc hm hx =>
    have hyes : afterHex (0x30 :: c :: (m ++ x) ++ b) = some (m ++ x ++ b) := by
      show (if c = 0x78 ∨ c = 0x58 then _ else _) = _
      rw [if_pos hc]
      rfl
    unfold number
    rw [hyes]
    show (match hexNumber (m ++ x ++ b) with | some p => some p | none => _) = _
    rw [hexNumber_complete hm hx hb]

/-! ### words -/

theorem lower_iff (a b : Byte) (ha : 0x61 ≤ a.toNat ∧ a.toNat ≤ 0x7a) : lower b = a ↔ b = a ∨ b.toNat + 0x20 = a.toNat := by
  unfold lower
  have hb : b.toNat < 256 := b.toNat_lt
  by_cases h : 0x41 ≤ b ∧ b ≤ 0x5a
  · rw [if_pos h]
    have h1 : 0x41 ≤ b.toNat := h.1
    have h2 : b.toNat ≤ 0x5a := h.2
    have e : (b + 0x20).toNat = b.toNat + 0x20 := by
      rw [UInt8.toNat_add]
      show (b.toNat + 32) % 256 = _
      omega
    rw [← UInt8.toNat_inj, ← UInt8.toNat_inj, e]
    omega
  · rw [if_neg h]
    have h' : ¬(0x41 ≤ b.toNat ∧ b.toNat ≤ 0x5a) := h
    constructor
    · exact .inl
    · rintro (h1 | h1)
      · exact h1
      · omega

theorem letters_iff {w : Str} (hw : ∀ a ∈ w, 0x61 ≤ a.toNat ∧ a.toNat ≤ 0x7a) (s : Str) : Letters w s ↔ s.map lower = w := by
  unfold Letters
  induction w generalizing s with
  | nil =>
    cases s with
    | nil => simp
    | cons b s => simp
  | cons a w ih =>
    cases s with
    | nil => simp
    | cons b s =>
      have ih' := ih (fun x hx => hw x (List.mem_cons_of_mem _ hx)) s
      rw [List.map_cons, List.cons.injEq, ← ih', lower_iff a b (hw a List.mem_cons_self)]
      constructor
      · rintro ⟨h1, h2⟩
        refine ⟨h2 0 a b rfl rfl, by simpa using h1, fun i a' b' e1 e2 => h2 (i + 1) a' b' e1 e2⟩
      · rintro ⟨h1, h2, h3⟩
        refine ⟨by simpa using h2, fun i a' b' e1 e2 => ?_⟩
        cases i with
        | zero =>
          simp only [List.getElem?_cons_zero, Option.some.injEq] at e1 e2
          subst e1; subst e2; exact h1
        | succ i => exact h3 i a' b' e1 e2

theorem word_sound {w : Str} (hw : ∀ a ∈ w, 0x61 ≤ a.toNat ∧ a.toNat ≤ 0x7a) {s r : Str} (h : word w s = some r) : ∃ t, s = t ++ r ∧ Letters w t := by
  unfold word at h
  split at h
  · rename_i h1
    injection h with h
    exact ⟨s.take w.length, by rw [← h, List.take_append_drop], (letters_iff hw _).mpr h1⟩
  · cases h

theorem word_complete {w : Str} (hw : ∀ a ∈ w, 0x61 ≤ a.toNat ∧ a.toNat ≤ 0x7a) {t r : Str} (h : Letters w t) : word w (t ++ r) = some r := by
  have hl : t.length = w.length := h.1
  unfold word
  rw [← hl, List.take_left, List.drop_left, if_pos ((letters_iff hw _).mp h)]

theorem nanChar_iff (c : Byte) : nanChar c = true ↔ NanChar c := by
  unfold nanChar NanChar
  rw [Bool.or_eq_true, decide_eq_true_eq, beq_iff_eq, digitVal_eq, ← UInt8.toNat_inj]
  show _ ∨ c.toNat = 0x5f ↔ _
  have hc : c.toNat < 256 := c.toNat_lt
  repeat' split
  all_goals omega

/-- what is read -/
def Text (t : Str) : Parsed → Prop
  | .num n => Number t n.m n.base n.exp
  | .inf => Infinity t
  | .nan => NotANumber t

theorem low_inf : ∀ a ∈ ([0x69, 0x6e, 0x66] : Str), 0x61 ≤ a.toNat ∧ a.toNat ≤ 0x7a := by decide
theorem low_infinity : ∀ a ∈ ([0x69, 0x6e, 0x66, 0x69, 0x6e, 0x69, 0x74, 0x79] : Str), 0x61 ≤ a.toNat ∧ a.toNat ≤ 0x7a := by decide
theorem low_nan : ∀ a ∈ ([0x6e, 0x61, 0x6e] : Str), 0x61 ≤ a.toNat ∧ a.toNat ≤ 0x7a := by decide

theorem nanTail_sound (s : Str) : nanTail s = s ∨ ∃ t, s = 0x28 :: t ++ [0x29] ++ nanTail s ∧ ∀ c ∈ t, NanChar c := by
  unfold nanTail
  split
  · rename_i t
    have e1 : t = t.takeWhile nanChar ++ t.dropWhile nanChar := List.takeWhile_append_dropWhile.symm
    have d1 := takeWhile_all_scl nanChar t
    split
    · rename_i u hu
      right
      refine ⟨t.takeWhile nanChar, ?_, ?_⟩
      · rw [hu] at e1
        rw [List.append_assoc]
        show 0x28 :: t = 0x28 :: (t.takeWhile nanChar ++ (0x29 :: u))
        rw [← e1]
      · intro c hc
        exact (nanChar_iff c).mp (List.all_eq_true.mp d1 c hc)
    · left; rfl
  · left; rfl

theorem magnitude_sound {s r : Str} {p : Parsed} (h : magnitudeText s = some (p, r)) : ∃ t, s = t ++ r ∧ Text t p := by
  unfold magnitudeText at h
  split at h
  · rename_i r' h1
    injection h with h; injection h with h2 h3
    subst h2; subst h3
    obtain ⟨t, e, hl⟩ := word_sound low_infinity h1
    exact ⟨t, e, .inr hl⟩
  · split at h
    · rename_i r' h1
      injection h with h; injection h with h2 h3
      subst h2; subst h3
      obtain ⟨t, e, hl⟩ := word_sound low_inf h1
      exact ⟨t, e, .inl hl⟩
    · split at h
      · rename_i r' h1
        injection h with h; injection h with h2 h3
        subst h2; subst h3
        obtain ⟨t, e, hl⟩ := word_sound low_nan h1
        rcases nanTail_sound r' with h4 | ⟨u, h4, h5⟩
        · exact ⟨t, by rw [h4]; exact e, .plain hl⟩
        · refine ⟨t ++ 0x28 :: u ++ [0x29], ?_, .paren hl h5⟩
          rw [e]
          conv => lhs; rw [h4]
          simp only [List.append_assoc, List.cons_append, List.nil_append]
      · rw [Option.map_eq_some_iff] at h
        obtain ⟨⟨n, q⟩, h1, h2⟩ := h
        injection h2 with h2 h3
        subst h2; subst h3
        exact number_sound h1

/-- a text which starts with another character is not this word -/
theorem word_none {w : Str} {a : Byte} {w' : Str} (hw : w = a :: w') {c : Byte} {t : Str} (h : lower c ≠ a) : word w (c :: t) = none := by
  unfold word
  rw [if_neg]
  rw [hw]
  simp only [List.length_cons, List.take_succ_cons, List.map_cons, List.cons.injEq, not_and]
  exact fun e => absurd e h

theorem mapGet {s : Str} {i : Nat} {a : Byte} {w : Str} {n : Nat} (h : (s.take n).map lower = w) (ha : w[i]? = some a) : ∃ c, s[i]? = some c ∧ lower c = a := by
  rw [← h] at ha
  simp only [List.getElem?_map, Option.map_eq_some_iff] at ha
  obtain ⟨c, h1, h2⟩ := ha
  rw [List.getElem?_take] at h1
  split at h1
  · exact ⟨c, h1, h2⟩
  · cases h1

theorem space_lower {c : Byte} (h : isSpace c = true) : lower c = c := by
  unfold lower
  rw [isSpace_iff] at h
  rw [if_neg]
  rintro ⟨h1, h2⟩
  have : 0x41 ≤ c.toNat := h1
  omega

theorem number_head {t : Str} {M B : Nat} {E : Int} (h : Number t M B E) : ∃ c r, t = c :: r ∧ (isDigit 10 c = true ∨ c = 0x2e) := by
  cases h with
  | dec hm hx =>
    obtain ⟨c, t, rfl, h1, -⟩ := mantissa_head (by decide) hm
    exact ⟨c, _, rfl, h1⟩
  | hex hc hm hx => exact ⟨0x30, _, rfl, .inl (by decide)⟩

theorem digit_not_letter {c : Byte} (h : isDigit 10 c = true ∨ c = 0x2e) : lower c ≠ 0x69 ∧ lower c ≠ 0x6e ∧ isSpace c = false ∧ c ≠ 0x2d ∧ c ≠ 0x2b := by
  have hn : c.toNat = 0x2e ∨ (0x30 ≤ c.toNat ∧ c.toNat ≤ 0x39) := by
    rcases h with h | rfl
    · obtain ⟨h1, h2⟩ := (isDigit_iff (by decide) c).mp h
      omega
    · exact .inl rfl
  have hl : lower c = c := by
    unfold lower
    rw [if_neg]
    rintro ⟨h1, -⟩
    have : 0x41 ≤ c.toNat := h1
    omega
  rw [hl]
  have ne : ∀ a : Byte, c.toNat ≠ a.toNat → c ≠ a := fun a h e => h (by rw [e])
  refine ⟨ne _ (by show _ ≠ 0x69; omega), ne _ (by show _ ≠ 0x6e; omega), ?_, ne _ (by show _ ≠ 0x2d; omega), ne _ (by show _ ≠ 0x2b; omega)⟩
  cases hs : isSpace c with
  | false => rfl
  | true => rw [isSpace_iff] at hs; omega

theorem magnitude_complete {t b : Str} {p : Parsed} (h : Text t p) (hb : Blank b) : magnitudeText (t ++ b) = some (p, b) := by
  cases p with
  | num n =>
    obtain ⟨c, r, e, h1⟩ := number_head h
    obtain ⟨l1, l2, -⟩ := digit_not_letter h1
    have hn := number_complete h hb
    rw [e] at hn ⊢
    unfold magnitudeText
    rw [List.cons_append] at hn ⊢
    rw [word_none rfl l1, word_none rfl l1, word_none rfl l2]
    dsimp only
    rw [hn]
    rfl
  | inf =>
    rcases h with h | h
    · have hno : word [0x69, 0x6e, 0x66, 0x69, 0x6e, 0x69, 0x74, 0x79] (t ++ b) = none := by
        unfold word
        rw [if_neg]
        intro e
        obtain ⟨c, h1, h2⟩ := mapGet (i := 3) e rfl
        have hl : t.length = 3 := h.1
        rw [List.getElem?_append_right (by omega), hl] at h1
        have hm := List.mem_of_getElem? h1
        rw [blank_iff] at hb
        have hs := List.all_eq_true.mp hb c hm
        rw [space_lower hs] at h2
        subst h2; revert hs; decide
      unfold magnitudeText
      rw [hno, word_complete low_inf h]
    · unfold magnitudeText
      rw [word_complete low_infinity h]
  | nan =>
    have first : ∀ {s : Str}, Letters [0x6e, 0x61, 0x6e] s → ∃ c r, s = c :: r ∧ lower c ≠ 0x69 := by
      intro s hs
      have := (letters_iff low_nan s).mp hs
      cases s with
      | nil => cases this
      | cons c r =>
        injection this with h1 _
        exact ⟨c, r, rfl, by rw [h1]; decide⟩
    cases h with
    | plain h =>
      obtain ⟨c, r, e, hc⟩ := first h
      have hw := word_complete low_nan (r := b) h
      unfold magnitudeText
      rw [hw, e, List.cons_append, word_none rfl hc, word_none rfl hc]
      dsimp only
      have : nanTail b = b := by
        unfold nanTail
        split
        · rw [blank_iff] at hb
          simp only [List.all_cons, Bool.and_eq_true] at hb
          exact absurd hb.1 (by decide)
        · rfl
      rw [this]
    | @paren s u h hu =>
      obtain ⟨c, r, e, hc⟩ := first h
      have hw := word_complete low_nan (r := 0x28 :: u ++ [0x29] ++ b) h
      have e2 : s ++ 0x28 :: u ++ [0x29] ++ b = s ++ (0x28 :: u ++ [0x29] ++ b) := by simp only [List.append_assoc]
      rw [e2]
      unfold magnitudeText
      rw [hw, e, List.cons_append, word_none rfl hc, word_none rfl hc]
      dsimp only
      have ht : ∀ v : Str, (∀ c ∈ v, NanChar c) → (v ++ 0x29 :: b).dropWhile nanChar = 0x29 :: b := by
        intro v
        induction v with
        | nil => intro _; rfl
        | cons a v ih =>
          intro hv
          have h1 := (nanChar_iff a).mpr (hv a List.mem_cons_self)
          rw [List.cons_append, List.dropWhile_cons, if_pos h1]
          exact ih (fun c hc => hv c (List.mem_cons_of_mem _ hc))
      have : nanTail (0x28 :: u ++ [0x29] ++ b) = b := by
        rw [show 0x28 :: u ++ [0x29] ++ b = 0x28 :: (u ++ 0x29 :: b) by simp only [List.append_assoc, List.cons_append, List.nil_append]]
        show (match (u ++ 0x29 :: b).dropWhile nanChar with | 0x29 :: u => u | _ => _) = _
        rw [ht u hu]
        rfl
      rw [this]

theorem text_head {t : Str} {p : Parsed} (h : Text t p) : ∃ c r, t = c :: r ∧ isSpace c = false ∧ c ≠ 0x2d ∧ c ≠ 0x2b := by
  have hl : ∀ {s w : Str} {a : Byte}, Letters (a :: w) s → (0x61 ≤ a.toNat ∧ a.toNat ≤ 0x7a) → ∃ c r, s = c :: r ∧ isSpace c = false ∧ c ≠ 0x2d ∧ c ≠ 0x2b := by
    intro s w a h ha
    cases s with
    | nil => cases h.1
    | cons c r =>
      refine ⟨c, r, rfl, ?_⟩
      have h1 := h.2 0 a c rfl rfl
      have h2 : c.toNat = a.toNat ∨ c.toNat + 0x20 = a.toNat := by rcases h1 with h1 | h1; exact .inl (by rw [h1]); exact .inr h1
      refine ⟨?_, ?_, ?_⟩
      · cases hs : isSpace c with
        | false => rfl
        | true => rw [isSpace_iff] at hs; omega
      · rintro rfl; revert h2; show 0x2d = _ ∨ 0x2d + 0x20 = _ → False; omega
      · rintro rfl; revert h2; show 0x2b = _ ∨ 0x2b + 0x20 = _ → False; omega
  cases p with
  | num n =>
    obtain ⟨c, r, e, h1⟩ := number_head h
    exact ⟨c, r, e, (digit_not_letter h1).2.2⟩
  | inf =>
    rcases h with h | h
    · exact hl h (by decide)
    · exact hl h (by decide)
  | nan =>
    cases h with
    | plain h => exact hl h (by decide)
    | paren h _ =>
      obtain ⟨c, r, e, h1⟩ := hl h (by decide)
      exact ⟨c, _, by rw [e]; rfl, h1⟩

/-- the sign bit -/
def signBit (neg : Bool) : Nat := if neg then 2 ^ 63 else 0

theorem parseUnsigned_of (after neg : Bool) {t b : Str} {p : Parsed} (h : Text t p) (hb : Blank b) :
    parseUnsigned after neg (t ++ b) = (bits after p).map fun y => signBit neg + y := by
  unfold parseUnsigned
  rw [magnitude_complete h hb]
  show (if b.all isSpace = true then _ else _) = _
  rw [if_pos ((blank_iff _).mp hb)]
  rfl

theorem parse_of (after : Bool) {s : Str} {neg : Bool} {p : Parsed} (h : Around (fun t => Text t p) s neg) :
    parseDouble after s = (bits after p).map fun y => signBit neg + y := by
  cases h with
  | pos hb hs hb' =>
    obtain ⟨c, r, e, h1, h2, h3⟩ := text_head hs
    have hm := parseUnsigned_of after false hs hb'
    unfold parseDouble
    rw [List.append_assoc, e, List.cons_append, dropWhile_blank hb c _ h1]
    rw [e] at hm
    split
    · rename_i h; injection h with h _; exact absurd h h2
    · rename_i h; injection h with h _; exact absurd h h3
    · rw [← List.cons_append, hm]
  | plus hb hs hb' =>
    have hm := parseUnsigned_of after false hs hb'
    unfold parseDouble
    rw [List.append_assoc, List.cons_append, dropWhile_blank hb _ _ (by decide)]
    exact hm
  | minus hb hs hb' =>
    have hm := parseUnsigned_of after true hs hb'
    unfold parseDouble
    rw [List.append_assoc, List.cons_append, dropWhile_blank hb _ _ (by decide)]
    exact hm

theorem parseUnsigned_sound {after neg : Bool} {s : Str} {y : Nat} (h : parseUnsigned after neg s = some y) : ∃ t b p, s = t ++ b ∧ Text t p ∧ Blank b := by
  unfold parseUnsigned at h
  rw [Option.bind_eq_some_iff] at h
  obtain ⟨⟨p, r⟩, h1, h2⟩ := h
  obtain ⟨t, e, ht⟩ := magnitude_sound h1
  dsimp only at h2
  split at h2
  · rename_i hb
    exact ⟨t, r, p, e, ht, (blank_iff _).mpr hb⟩
  · cases h2

theorem parse_sound {after : Bool} {s : Str} {y : Nat} (h : parseDouble after s = some y) : ∃ neg p, Around (fun t => Text t p) s neg := by
  have hcat : s = s.takeWhile isSpace ++ s.dropWhile isSpace := List.takeWhile_append_dropWhile.symm
  have hB : Blank (s.takeWhile isSpace) := (blank_iff _).mpr (takeWhile_all_scl _ _)
  generalize s.takeWhile isSpace = b at hcat hB
  unfold parseDouble at h
  split at h
  · rename_i r hr
    obtain ⟨t, b', p, e, hN, hB'⟩ := parseUnsigned_sound h
    refine ⟨true, p, ?_⟩
    rw [hcat, hr, e]
    simpa using Around.minus (P := fun t => Text t p) hB hN hB'
  · rename_i r hr
    obtain ⟨t, b', p, e, hN, hB'⟩ := parseUnsigned_sound h
    refine ⟨false, p, ?_⟩
    rw [hcat, hr, e]
    simpa using Around.plus (P := fun t => Text t p) hB hN hB'
  · obtain ⟨t, b', p, e, hN, hB'⟩ := parseUnsigned_sound h
    refine ⟨false, p, ?_⟩
    rw [hcat, e]
    simpa using Around.pos (P := fun t => Text t p) hB hN hB'

end Pvxs.Lemmas.RealParse
