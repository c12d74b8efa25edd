import Verif.Model.Scalar
import Verif.Spec.Scalar
/-
Lemmas for C58: the text of a number.
-/
namespace Pvxs
open Wire (Byte)
open Spec.Scl

theorem digitVal_eq (c : Byte) : digitVal c =
    if 0x30 ≤ c.toNat ∧ c.toNat ≤ 0x39 then c.toNat - 0x30
    else if 0x61 ≤ c.toNat ∧ c.toNat ≤ 0x7a then c.toNat - 0x61 + 10
    else if 0x41 ≤ c.toNat ∧ c.toNat ≤ 0x5a then c.toNat - 0x41 + 10
    else 36 := by
  unfold digitVal
  simp only [UInt8.le_iff_toNat_le]
  rfl

theorem digit_iff {base : Nat} (hb : base ≤ 36) (c : Byte) (d : Nat) : Digit base c d ↔ digitVal c = d ∧ d < base := by
  rw [digitVal_eq]
  unfold Digit
  constructor
  · rintro ⟨h, h1 | h1 | h1⟩
    · rw [if_pos (by omega)]; omega
    · rw [if_neg (by omega), if_pos (by omega)]; omega
    · rw [if_neg (by omega), if_neg (by omega), if_pos (by omega)]; omega
  · rintro ⟨h, h1⟩
    refine ⟨h1, ?_⟩
    split at h
    · left; omega
    · split at h
      · right; left; omega
      · split at h
        · right; right; omega
        · omega

theorem isDigit_iff {base : Nat} (hb : base ≤ 36) (c : Byte) : isDigit base c = true ↔ Digit base c (digitVal c) := by
  rw [digit_iff hb]; simp [isDigit]

theorem digitsVal_snoc (base : Nat) (s : Str) (c : Byte) : digitsVal base (s ++ [c]) = digitsVal base s * base + digitVal c := by
  simp [digitsVal, List.foldl_append]

theorem snoc_induction {P : Str → Prop} (h0 : P []) (h1 : ∀ s c, P s → P (s ++ [c])) (s : Str) : P s := by
  have : ∀ n (s : Str), s.length = n → P s := by
    intro n
    induction n with
    | zero => intro s hs; rw [List.length_eq_zero_iff.mp hs]; exact h0
    | succ n ih =>
      intro s hs
      rcases List.eq_nil_or_concat s with h | ⟨t, c, h⟩
      · subst h; exact h0
      · rw [List.concat_eq_append] at h
        subst h
        exact h1 t c (ih t (by simp at hs; exact hs))
  exact this s.length s rfl

theorem digits_iff {base : Nat} (hb : base ≤ 36) (s : Str) (n : Nat) :
    Digits base s n ↔ s ≠ [] ∧ s.all (isDigit base) = true ∧ digitsVal base s = n := by
  constructor
  · intro h
    induction h with
    | one h =>
      have h' := (digit_iff hb _ _).mp h
      exact ⟨by simp, by simp [isDigit, h'], by simp [digitsVal, h'.1]⟩
    | snoc hs h ih =>
      have h' := (digit_iff hb _ _).mp h
      exact ⟨by simp, by simp only [List.all_append, ih.2.1]; simp [isDigit, h'], by rw [digitsVal_snoc, ih.2.2, h'.1]⟩
  · rintro ⟨h0, h1, h2⟩
    subst h2
    induction s using snoc_induction with
    | h0 => exact absurd rfl h0
    | h1 s c ih =>
      simp only [List.all_append, Bool.and_eq_true, List.all_cons, List.all_nil, Bool.and_true] at h1
      have hc := (isDigit_iff hb c).mp h1.2
      by_cases hs : s = []
      · subst hs
        simpa [digitsVal] using Digits.one hc
      · rw [digitsVal_snoc]
        exact Digits.snoc (ih hs h1.1) hc

theorem isSpace_iff (c : Byte) : isSpace c = true ↔ c.toNat = 0x20 ∨ (9 ≤ c.toNat ∧ c.toNat ≤ 13) := by
  simp only [isSpace, Bool.or_eq_true, beq_iff_eq, Bool.and_eq_true, decide_eq_true_eq, UInt8.le_iff_toNat_le]
  rw [← UInt8.toNat_inj]
  rfl

theorem blank_iff (s : Str) : Blank s ↔ s.all isSpace = true := by
  simp only [Blank, List.all_eq_true, isSpace_iff]

theorem isDigit_not_space {base : Nat} (hb : base ≤ 36) {c : Byte} (h : isDigit base c = true) : isSpace c = false := by
  cases hs : isSpace c with
  | false => rfl
  | true =>
    rw [isSpace_iff] at hs
    have := (isDigit_iff hb c).mp h
    unfold Digit at this
    omega

theorem space_not_digit {base : Nat} (hb : base ≤ 36) {c : Byte} (h : isSpace c = true) : isDigit base c = false := by
  cases hs : isDigit base c with
  | false => rfl
  | true => rw [isDigit_not_space hb hs] at h; cases h

theorem takeWhile_digits {base : Nat} (hb : base ≤ 36) {s b : Str} (hs : s.all (isDigit base) = true) (hw : Blank b) :
    (s ++ b).takeWhile (isDigit base) = s ∧ (s ++ b).dropWhile (isDigit base) = b := by
  induction s with
  | nil =>
    cases b with
    | nil => exact ⟨rfl, rfl⟩
    | cons c b =>
      rw [blank_iff] at hw
      simp only [List.all_cons, Bool.and_eq_true] at hw
      simp [space_not_digit hb hw.1]
  | cons c s ih =>
    simp only [List.all_cons, Bool.and_eq_true] at hs
    obtain ⟨h1, h2⟩ := ih hs.2
    simp [hs.1, h1, h2]

theorem takeWhile_all_scl (p : Byte → Bool) (s : Str) : (s.takeWhile p).all p = true := by
  induction s with
  | nil => rfl
  | cons c s ih => simp only [List.takeWhile_cons]; split <;> simp_all

theorem dropWhile_head (p : Byte → Bool) (s : Str) (c : Byte) (r : Str) (h : s.dropWhile p = c :: r) : p c = false := by
  induction s with
  | nil => cases h
  | cons x s ih =>
    simp only [List.dropWhile_cons] at h
    split at h
    · exact ih h
    · rename_i hx
      injection h with h1 h2
      subst h1; simpa using hx

/-- what the digits of both parsers come to -/
def parseMag (s : Str) : Option Nat :=
  let (base, s) := numBase s
  let ds := s.takeWhile (isDigit base)
  if ds = [] ∨ !((s.dropWhile (isDigit base)).all isSpace) then none
  else some (digitsVal base ds)

theorem numBase_le (s : Str) : (numBase s).1 ≤ 36 := by
  unfold numBase
  repeat' split
  all_goals simp

theorem parseMag_sound {s : Str} {n : Nat} (h : parseMag s = some n) : ∃ t b, s = t ++ b ∧ Numeral t n ∧ Blank b := by
  unfold parseMag at h
  simp only at h
  split at h
  · cases h
  · rename_i hc
    simp only [not_or, Bool.not_eq_true', Bool.not_eq_false] at hc
    obtain ⟨h0, h1⟩ := hc
    injection h with h
    have hD : Digits (numBase s).1 ((numBase s).2.takeWhile (isDigit (numBase s).1)) n :=
      (digits_iff (numBase_le s) _ _).mpr ⟨h0, takeWhile_all_scl _ _, h⟩
    have hB : Blank ((numBase s).2.dropWhile (isDigit (numBase s).1)) := (blank_iff _).mpr h1
    have hcat : (numBase s).2 = (numBase s).2.takeWhile (isDigit (numBase s).1) ++ (numBase s).2.dropWhile (isDigit (numBase s).1) :=
      (List.takeWhile_append_dropWhile).symm
    generalize ht : (numBase s).2.takeWhile (isDigit (numBase s).1) = t at *
    generalize hb : (numBase s).2.dropWhile (isDigit (numBase s).1) = b at *
    have hhead : t.head? = ((numBase s).2).head? := by
      rw [hcat]; cases t with
      | nil => exact absurd rfl h0
      | cons a t => rfl
    clear ht hb h1 h
    unfold numBase at hD hcat hhead
    split at hD
    · rename_i c r
      simp only at hcat hhead
      split at hD
      · rename_i hd
        rw [if_pos hd] at hcat
        exact ⟨0x30 :: 0x78 :: t, b, by simp only at hcat; simp [hcat], Numeral.hex (Or.inl rfl) hD, hB⟩
      · rename_i hd
        rw [if_neg hd] at hcat hhead
        exact ⟨t, b, hcat, Numeral.oct hD hhead, hB⟩
    · rename_i c r
      simp only at hcat hhead
      split at hD
      · rename_i hd
        rw [if_pos hd] at hcat
        exact ⟨0x30 :: 0x58 :: t, b, by simp only at hcat; simp [hcat], Numeral.hex (Or.inr rfl) hD, hB⟩
      · rename_i hd
        rw [if_neg hd] at hcat hhead
        exact ⟨t, b, hcat, Numeral.oct hD hhead, hB⟩
    · exact ⟨t, b, by simpa using hcat, Numeral.oct hD (by simpa using hhead), hB⟩
    · rename_i hx1 hx2 hx3
      refine ⟨t, b, by simpa using hcat, Numeral.dec hD ?_, hB⟩
      rw [show t.head? = s.head? by simpa using hhead]
      intro h30
      clear hD hhead hcat
      cases s with
      | nil => cases h30
      | cons a r => simp at h30; exact hx3 r (by rw [h30])

theorem numBase_dec {s : Str} (h : s.head? ≠ some 0x30) : numBase s = (10, s) := by
  unfold numBase
  split
  · simp at h
  · simp at h
  · simp at h
  · rfl

theorem numBase_hex {x : Byte} {c : Byte} {s : Str} (hx : x = 0x78 ∨ x = 0x58) (hc : isDigit 16 c = true) :
    numBase (0x30 :: x :: c :: s) = (16, c :: s) := by
  rcases hx with hx | hx <;> subst hx <;> simp [numBase, hc]

theorem parseMag_complete {t b : Str} {n : Nat} (h : Numeral t n) (hb : Blank b) : parseMag (t ++ b) = some n := by
  -- digits of some base, followed by blanks
  have main : ∀ (base : Nat) (s t : Str), base ≤ 36 → numBase s = (base, t ++ b) → Digits base t n → parseMag s = some n := by
    intro base s t hbase hs hD
    obtain ⟨h0, h1, h2⟩ := (digits_iff hbase _ _).mp hD
    obtain ⟨e1, e2⟩ := takeWhile_digits hbase h1 hb
    unfold parseMag
    rw [hs]
    simp only [e1, e2]
    rw [if_neg (by simp [h0, (blank_iff b).mp hb]), h2]
  cases h with
  | dec h h0 =>
    refine main 10 _ t (by omega) (numBase_dec ?_) h
    have := ((digits_iff (by omega) _ _).mp h).1
    cases t with
    | nil => exact absurd rfl this
    | cons a t => exact h0
  | oct h h0 =>
    refine main 8 _ t (by omega) ?_ h
    obtain ⟨h1, h2, _⟩ := (digits_iff (by omega) _ _).mp h
    cases t with
    | nil => exact absurd rfl h1
    | cons a t =>
      simp at h0; subst h0
      -- an "x" does not follow
      have hx : ∀ (x : Byte), (x = 0x78 ∨ x = 0x58) → ∀ r, t ++ b ≠ x :: r := by
        intro x hx r he
        cases t with
        | nil =>
          simp at he; subst he
          have := hb x (by simp)
          rcases hx with hx | hx <;> subst hx <;> revert this <;> decide
        | cons a t =>
          simp at he
          obtain ⟨e, _⟩ := he
          subst e
          simp at h2
          rcases hx with hx | hx <;> subst hx <;> revert h2 <;> simp [isDigit, digitVal]
      show numBase (0x30 :: (t ++ b)) = (8, 0x30 :: (t ++ b))
      generalize t ++ b = r at hx
      unfold numBase
      split
      · rename_i h; injection h with _ h; exact absurd h (hx _ (Or.inl rfl) _)
      · rename_i h; injection h with _ h; exact absurd h (hx _ (Or.inr rfl) _)
      · rfl
      · rename_i h; exact absurd rfl (h _)
  | hex hx h =>
    rename_i x s
    obtain ⟨h1, h2, _⟩ := (digits_iff (by omega) _ _).mp h
    refine main 16 _ s (by omega) ?_ h
    cases s with
    | nil => exact absurd rfl h1
    | cons c s =>
      simp only [List.all_cons, Bool.and_eq_true] at h2
      exact numBase_hex hx h2.1

theorem numeral_head {t : Str} {n : Nat} (h : Numeral t n) : ∃ c r, t = c :: r ∧ isSpace c = false ∧ c ≠ 0x2d ∧ c ≠ 0x2b := by
  have main : ∀ (base : Nat) (t : Str), base ≤ 36 → Digits base t n → ∃ c r, t = c :: r ∧ isSpace c = false ∧ c ≠ 0x2d ∧ c ≠ 0x2b := by
    intro base t hb hD
    obtain ⟨h1, h2, _⟩ := (digits_iff hb _ _).mp hD
    cases t with
    | nil => exact absurd rfl h1
    | cons c r =>
      simp only [List.all_cons, Bool.and_eq_true] at h2
      refine ⟨c, r, rfl, isDigit_not_space hb h2.1, ?_, ?_⟩
      · intro h; subst h; have := h2.1; simp [isDigit, digitVal] at this; omega
      · intro h; subst h; have := h2.1; simp [isDigit, digitVal] at this; omega
  cases h with
  | dec h _ => exact main 10 _ (by omega) h
  | oct h _ => exact main 8 _ (by omega) h
  | hex hx h => exact ⟨_, _, rfl, by decide, by decide, by decide⟩

/-- the sign, and the magnitude -/
def parseBoth (s : Str) : Option (Bool × Nat) :=
  match s.dropWhile isSpace with
  | 0x2d :: r => (parseMag r).map (true, ·)
  | 0x2b :: r => (parseMag r).map (false, ·)
  | r => (parseMag r).map (false, ·)

theorem dropWhile_blank {b : Str} (hb : Blank b) (c : Byte) (r : Str) (hc : isSpace c = false) :
    (b ++ c :: r).dropWhile isSpace = c :: r := by
  rw [blank_iff] at hb
  induction b with
  | nil => simp [hc]
  | cons x b ih =>
    simp only [List.all_cons, Bool.and_eq_true] at hb
    simp [hb.1, ih hb.2]

theorem parseBoth_iff (s : Str) (neg : Bool) (n : Nat) : parseBoth s = some (neg, n) ↔ Says s neg n := by
  constructor
  · intro h
    have hcat : s = s.takeWhile isSpace ++ s.dropWhile isSpace := List.takeWhile_append_dropWhile.symm
    have hB : Blank (s.takeWhile isSpace) := (blank_iff _).mpr (takeWhile_all_scl _ _)
    generalize s.takeWhile isSpace = b at hcat hB
    unfold parseBoth at h
    split at h
    · rename_i r hr
      rw [hr] at hcat
      cases hm : parseMag r with
      | none => simp [hm] at h
      | some m =>
        simp [hm] at h
        obtain ⟨t, b', e, hN, hB'⟩ := parseMag_sound hm
        subst e; rw [hcat, h.1, ← h.2]
        simpa using Says.minus hB hN hB'
    · rename_i r hr
      rw [hr] at hcat
      cases hm : parseMag r with
      | none => simp [hm] at h
      | some m =>
        simp [hm] at h
        obtain ⟨t, b', e, hN, hB'⟩ := parseMag_sound hm
        subst e; rw [hcat, h.1, ← h.2]
        simpa using Says.plus hB hN hB'
    · rename_i r h1 h2
      cases hm : parseMag (s.dropWhile isSpace) with
      | none => simp [hm] at h
      | some m =>
        simp [hm] at h
        obtain ⟨t, b', e, hN, hB'⟩ := parseMag_sound hm
        rw [e] at hcat; rw [hcat, h.1, ← h.2]
        simpa using Says.pos hB hN hB'
  · intro h
    cases h with
    | pos hb hs hb' =>
      obtain ⟨c, r, e, h1, h2, h3⟩ := numeral_head hs
      have hm := parseMag_complete hs hb'
      unfold parseBoth
      rw [List.append_assoc, e, List.cons_append, dropWhile_blank hb c _ h1]
      rw [e] at hm
      split
      · rename_i h; injection h with h _; exact absurd h h2
      · rename_i h; injection h with h _; exact absurd h h3
      · rw [← List.cons_append, hm]; rfl
    | plus hb hs hb' =>
      have hm := parseMag_complete hs hb'
      unfold parseBoth
      rw [List.append_assoc, List.cons_append, dropWhile_blank hb _ _ (by decide)]
      simp [hm]
    | minus hb hs hb' =>
      have hm := parseMag_complete hs hb'
      unfold parseBoth
      rw [List.append_assoc, List.cons_append, dropWhile_blank hb _ _ (by decide)]
      simp [hm]

theorem parseDigits_eq (neg : Bool) (s : Str) :
    parseDigits neg s = (parseMag s).bind fun n => if 2 ^ 64 ≤ n then none else some (if neg then (2 ^ 64 - n) % 2 ^ 64 else n) := by
  unfold parseDigits parseMag
  simp only
  by_cases h0 : (numBase s).2.takeWhile (isDigit (numBase s).1) = []
  · simp [h0]
  · by_cases h1 : ((numBase s).2.dropWhile (isDigit (numBase s).1)).all isSpace = true
    · simp only [h0, h1, Bool.not_true, Bool.false_eq_true, or_false, false_or, if_false, Option.bind_some]
    · simp only [h0, h1, Bool.not_eq_true] at *
      simp [h1]

theorem parseSigned_eq (neg : Bool) (s : Str) :
    parseSigned neg s = (parseMag s).bind fun n => if (if neg then 2 ^ 63 < n else 2 ^ 63 ≤ n) then none else some (if neg then -(n : Int) else n) := by
  unfold parseSigned parseMag
  simp only
  by_cases h0 : (numBase s).2.takeWhile (isDigit (numBase s).1) = []
  · simp [h0]
  · by_cases h1 : ((numBase s).2.dropWhile (isDigit (numBase s).1)).all isSpace = true
    · simp only [h0, h1, Bool.not_true, Bool.false_eq_true, or_false, false_or, if_false, Option.bind_some]
    · simp only [h0, h1, Bool.not_eq_true] at *
      simp [h1]

theorem parseU64_eq (s : Str) :
    parseU64 s = (parseBoth s).bind fun x => if 2 ^ 64 ≤ x.2 then none else some (if x.1 then (2 ^ 64 - x.2) % 2 ^ 64 else x.2) := by
  unfold parseU64 parseBoth
  generalize s.dropWhile isSpace = r
  split
  · simp only [parseDigits_eq]; rename_i r; cases parseMag r <;> rfl
  · simp only [parseDigits_eq]; rename_i r; cases parseMag r <;> rfl
  · rename_i h1 h2
    simp only [parseDigits_eq]
    cases parseMag r <;> rfl

theorem parseI64_eq (s : Str) :
    parseI64 s = (parseBoth s).bind fun x => if (if x.1 then 2 ^ 63 < x.2 else 2 ^ 63 ≤ x.2) then none else some (if x.1 then -(x.2 : Int) else x.2) := by
  unfold parseI64 parseBoth
  generalize s.dropWhile isSpace = r
  split
  · simp only [parseSigned_eq]; rename_i r; cases parseMag r <;> rfl
  · simp only [parseSigned_eq]; rename_i r; cases parseMag r <;> rfl
  · rename_i h1 h2
    simp only [parseSigned_eq]
    cases parseMag r <;> rfl

/-! ### printing -/

theorem digit_show {d : Nat} (h : d < 10) : Digit 10 (UInt8.ofNat (0x30 + d)) d := by
  refine ⟨h, Or.inl ⟨h, ?_⟩⟩
  rw [UInt8.toNat_ofNat']; omega

theorem showNat_digits (n : Nat) : Digits 10 (showNat n) n := by
  induction n using Nat.strongRecOn with
  | ind n ih =>
    rw [showNat]
    split
    · rename_i h; exact Digits.one (digit_show h)
    · rename_i h
      have := Digits.snoc (ih (n / 10) (by omega)) (digit_show (d := n % 10) (by omega))
      rwa [show n / 10 * 10 + n % 10 = n by omega] at this

theorem showNat_ne (n : Nat) : showNat n ≠ [] := ((digits_iff (by omega) _ _).mp (showNat_digits n)).1

theorem showNat_head (n : Nat) (h : n ≠ 0) : (showNat n).head? ≠ some 0x30 := by
  induction n using Nat.strongRecOn with
  | ind n ih =>
    rw [showNat]
    split
    · rename_i h10
      simp only [List.head?_cons]
      intro hx
      injection hx with hx
      have := congrArg UInt8.toNat hx
      rw [UInt8.toNat_ofNat'] at this
      simp at this
      omega
    · rename_i h10
      have h1 := showNat_ne (n / 10)
      have h2 := ih (n / 10) (by omega) (by omega)
      cases hs : showNat (n / 10) with
      | nil => exact absurd hs h1
      | cons a r => rw [hs] at h2; exact h2

theorem showNat_numeral (n : Nat) : Numeral (showNat n) n := by
  by_cases h : n = 0
  · subst h
    have : showNat 0 = [0x30] := by rw [showNat]; rfl
    rw [this]
    exact Numeral.oct (Digits.one ⟨by omega, Or.inl ⟨by omega, rfl⟩⟩) rfl
  · exact Numeral.dec (showNat_digits n) (showNat_head n h)

theorem blank_nil : Blank [] := fun _ h => by cases h

theorem showNat_says (n : Nat) : Says (showNat n) false n := by
  simpa using Says.pos blank_nil (showNat_numeral n) blank_nil

theorem showInt_says (v : Int) : Says (showInt v) (decide (v < 0)) v.natAbs := by
  unfold showInt
  split
  · rename_i h
    simpa [h] using Says.minus blank_nil (showNat_numeral v.natAbs) blank_nil
  · rename_i h
    simpa [h] using Says.pos blank_nil (showNat_numeral v.natAbs) blank_nil

end Pvxs
