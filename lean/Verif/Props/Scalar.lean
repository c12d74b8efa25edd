import Verif.Lemmas.Scalar
/-
C58: an integer read or assigned through another type.
-/
namespace Pvxs.Props.Scl
open Spec.Scl

theorem sameMod_intBits (w : Nat) (v : Int) : SameMod (256 ^ w) ((intBits w v : Nat) : Int) v := by
  refine ⟨-(v / (256 ^ w : Nat)), ?_⟩
  unfold intBits
  have hpos : (0 : Int) < ((256 ^ w : Nat) : Int) := by exact_mod_cast Nat.pow_pos (by omega : 0 < 256)
  generalize ((256 ^ w : Nat) : Int) = m at *
  have h1 := Int.emod_nonneg v (by omega : m ≠ 0)
  have h2 := Int.emod_add_mul_ediv v m
  rw [Int.toNat_of_nonneg h1, Int.neg_mul, Int.mul_comm]
  omega

theorem intBits_lt (w : Nat) (v : Int) : intBits w v < 256 ^ w := by
  unfold intBits
  have hpos : (0 : Int) < ((256 ^ w : Nat) : Int) := by exact_mod_cast Nat.pow_pos (by omega : 0 < 256)
  have h1 := Int.emod_nonneg v (by omega : ((256 ^ w : Nat) : Int) ≠ 0)
  have h2 := Int.emod_lt_of_pos v hpos
  omega

theorem even256 {w : Nat} (hw : w ≠ 0) : 2 * (256 ^ w / 2) = 256 ^ w := by
  cases w with
  | zero => exact absurd rfl hw
  | succ w => rw [Nat.pow_succ]; omega

theorem sameMod_intOf (w : Nat) (n : Nat) : SameMod (256 ^ w) (intOf w n) n := by
  unfold intOf
  split
  · exact ⟨0, by simp⟩
  · exact ⟨-1, by omega⟩

theorem inSigned_intOf {w : Nat} (hw : w ≠ 0) {n : Nat} (hn : n < 256 ^ w) : InSigned w (intOf w n) := by
  have h := even256 hw
  unfold intOf InSigned
  generalize 256 ^ w = m at *
  split <;> omega

theorem SameMod_trans {m : Nat} {a b c : Int} (h1 : SameMod m a b) (h2 : SameMod m b c) : SameMod m a c := by
  obtain ⟨k, h1⟩ := h1; obtain ⟨l, h2⟩ := h2
  exact ⟨k + l, by rw [h1, h2, Int.add_mul]; omega⟩

theorem SameMod_symm {m : Nat} {a b : Int} (h1 : SameMod m a b) : SameMod m b a := by
  obtain ⟨k, h1⟩ := h1
  exact ⟨-k, by rw [h1, Int.neg_mul]; omega⟩

/-- in a smaller modulus -/
theorem SameMod_narrow {w : Nat} (hw : w ≤ 8) {a b : Int} (h : SameMod (256 ^ 8) a b) : SameMod (256 ^ w) a b := by
  obtain ⟨k, h⟩ := h
  refine ⟨k * (256 ^ (8 - w) : Nat), ?_⟩
  rw [h, Int.mul_assoc]
  congr 2
  rw [← Int.natCast_mul, ← Nat.pow_add, show 8 - w + w = 8 by omega]

def upTo8 : WireKind → Bool
  | .int w => decide (w ≠ 0 ∧ w ≤ 8)
  | .uint w => decide (w ≠ 0 ∧ w ≤ 8)
  | _ => true

theorem wireKind_width (c : TypeCode) (w : Nat) : (c.wireKind = .int w ∨ c.wireKind = .uint w) → w ≠ 0 ∧ w ≤ 8 := by
  have h : upTo8 c.wireKind = true := by
    unfold TypeCode.wireKind
    repeat refine iteInduction (motive := fun k => upTo8 k = true) (fun _ => rfl) (fun _ => ?_)
    rfl
  rintro (hk | hk) <;> rw [hk] at h <;> simp [upTo8] at h <;> omega

/-- Two numbers of the range of a type which differ by a multiple of its size are the same. -/
theorem sameMod_unique_signed {w : Nat} {a b : Int} (h : SameMod (256 ^ w) a b) (ha : InSigned w a) (hb : InSigned w b) : a = b := by
  obtain ⟨k, h⟩ := h
  unfold InSigned at ha hb
  generalize 256 ^ w = m at *
  have h1 : k < 1 := by
    refine Classical.byContradiction fun hk => ?_
    have := Int.mul_le_mul_of_nonneg_right (show (1 : Int) ≤ k by omega) (show (0 : Int) ≤ m by omega)
    omega
  have h2 : -1 < k := by
    refine Classical.byContradiction fun hk => ?_
    have := Int.mul_le_mul_of_nonneg_right (show k ≤ (-1 : Int) by omega) (show (0 : Int) ≤ m by omega)
    omega
  have : k = 0 := by omega
  subst this; simpa using h

theorem sameMod_unique_unsigned {w : Nat} {a b : Int} (h : SameMod (256 ^ w) a b) (ha : InUnsigned w a) (hb : InUnsigned w b) : a = b := by
  obtain ⟨k, h⟩ := h
  unfold InUnsigned at ha hb
  generalize 256 ^ w = m at *
  have h1 : k < 1 := by
    refine Classical.byContradiction fun hk => ?_
    have := Int.mul_le_mul_of_nonneg_right (show (1 : Int) ≤ k by omega) (show (0 : Int) ≤ m by omega)
    omega
  have h2 : -1 < k := by
    refine Classical.byContradiction fun hk => ?_
    have := Int.mul_le_mul_of_nonneg_right (show k ≤ (-1 : Int) by omega) (show (0 : Int) ≤ m by omega)
    omega
  have : k = 0 := by omega
  subst this; simpa using h

theorem sameMod_mod (w n : Nat) : SameMod (256 ^ w) ((n % 256 ^ w : Nat) : Int) n := by
  refine ⟨-((n / 256 ^ w : Nat) : Int), ?_⟩
  have h : (256 ^ w : Nat) * (n / 256 ^ w) + n % 256 ^ w = n := Nat.div_add_mod n (256 ^ w)
  generalize hm : 256 ^ w = m at *
  have h' : ((m : Nat) : Int) * ((n / m : Nat) : Int) + ((n % m : Nat) : Int) = (n : Int) := by exact_mod_cast h
  rw [Int.neg_mul, Int.mul_comm]
  omega

/-- Assigning a number to a signed field stores the one number of the field's range which differs from it by a multiple of
two to the number of bits: in particular the number itself if it is in range. -/
theorem C58_assign_signed (code : TypeCode) (w : Nat) (hk : code.wireKind = .int w) (x : Datum) (v : Int) (hx : number x = some v) :
    ∃ r, copyIn code x = some (.int r) ∧ InSigned w r ∧ SameMod (256 ^ w) r v ∧ (InSigned w v → r = v) := by
  obtain ⟨hw0, hw8⟩ := wireKind_width code w (Or.inl hk)
  have key : ∀ u : Int, SameMod (256 ^ w) u v →
      InSigned w (intOf w (intBits w u)) ∧ SameMod (256 ^ w) (intOf w (intBits w u)) v ∧ (InSigned w v → intOf w (intBits w u) = v) := by
    intro u hu
    have h1 := inSigned_intOf hw0 (intBits_lt w u)
    have h2 := SameMod_trans (SameMod_trans (sameMod_intOf w _) (sameMod_intBits w u)) hu
    exact ⟨h1, h2, fun hv => sameMod_unique_signed h2 h1 hv⟩
  cases x with
  | int u =>
    injection hx with hx; subst hx
    exact ⟨_, by simp only [copyIn, hk], key u ⟨0, by simp⟩⟩
  | uint n =>
    injection hx with hx; subst hx
    exact ⟨_, by simp only [copyIn, hk], key _ (SameMod_narrow hw8 (sameMod_intOf 8 n))⟩
  | bool b =>
    injection hx with hx; subst hx
    exact ⟨_, by simp only [copyIn, hk], key (if b then 1 else 0) ⟨0, by simp⟩⟩
  | _ => cases hx

/-- The same for an unsigned field. -/
theorem C58_assign_unsigned (code : TypeCode) (w : Nat) (hk : code.wireKind = .uint w) (x : Datum) (v : Int) (hx : number x = some v) :
    ∃ r : Nat, copyIn code x = some (.uint r) ∧ InUnsigned w r ∧ SameMod (256 ^ w) r v ∧ (InUnsigned w v → (r : Int) = v) := by
  obtain ⟨hw0, hw8⟩ := wireKind_width code w (Or.inr hk)
  have key : ∀ u : Nat, SameMod (256 ^ w) u v →
      InUnsigned w (u % 256 ^ w : Nat) ∧ SameMod (256 ^ w) (u % 256 ^ w : Nat) v ∧ (InUnsigned w v → ((u % 256 ^ w : Nat) : Int) = v) := by
    intro u hu
    have h1 : InUnsigned w (u % 256 ^ w : Nat) := by
      have := Nat.mod_lt u (Nat.pow_pos (by omega : 0 < 256) : 0 < 256 ^ w)
      exact ⟨Int.natCast_nonneg _, by exact_mod_cast this⟩
    have h2 := SameMod_trans (sameMod_mod w u) hu
    exact ⟨h1, h2, fun hv => sameMod_unique_unsigned h2 h1 hv⟩
  cases x with
  | int u =>
    injection hx with hx; subst hx
    exact ⟨_, by simp only [copyIn, hk], key _ (SameMod_narrow hw8 (sameMod_intBits 8 u))⟩
  | uint n =>
    injection hx with hx; subst hx
    exact ⟨_, by simp only [copyIn, hk], key n ⟨0, by simp⟩⟩
  | bool b =>
    injection hx with hx; subst hx
    exact ⟨_, by simp only [copyIn, hk], key (if b then 1 else 0) ⟨0, by cases b <;> simp⟩⟩
  | _ => cases hx

/-- Reading a number as int64_t. -/
theorem C58_read_signed (x : Datum) (v : Int) (hs : Holds x) (hx : number x = some v) :
    ∃ r, copyOut x .int = some (.int r) ∧ InSigned 8 r ∧ SameMod (2 ^ 64) r v ∧ (InSigned 8 v → r = v) := by
  cases x with
  | int u =>
    injection hx with hx; subst hx
    exact ⟨u, rfl, by unfold Holds at hs; unfold InSigned; omega, ⟨0, by simp⟩, fun _ => rfl⟩
  | uint n =>
    injection hx with hx; subst hx
    have hn : n < 256 ^ 8 := by unfold Holds at hs; omega
    have h1 := inSigned_intOf (w := 8) (by omega) hn
    have h2 := sameMod_intOf 8 n
    exact ⟨_, rfl, h1, by simpa using h2, fun hv => sameMod_unique_signed h2 h1 hv⟩
  | bool b =>
    injection hx with hx; subst hx
    exact ⟨_, rfl, by cases b <;> simp [InSigned], ⟨0, by simp⟩, fun _ => rfl⟩
  | _ => cases hx

/-- Reading a number as uint64_t. -/
theorem C58_read_unsigned (x : Datum) (v : Int) (hs : Holds x) (hx : number x = some v) :
    ∃ r : Nat, copyOut x .uint = some (.uint r) ∧ InUnsigned 8 r ∧ SameMod (2 ^ 64) r v ∧ (InUnsigned 8 v → (r : Int) = v) := by
  cases x with
  | int u =>
    injection hx with hx; subst hx
    have h1 : InUnsigned 8 (intBits 8 u : Nat) := ⟨Int.natCast_nonneg _, by exact_mod_cast intBits_lt 8 u⟩
    have h2 := sameMod_intBits 8 u
    exact ⟨_, rfl, h1, by simpa using h2, fun hv => sameMod_unique_unsigned h2 h1 hv⟩
  | uint n =>
    injection hx with hx; subst hx
    exact ⟨n, rfl, by unfold Holds at hs; unfold InUnsigned; omega, ⟨0, by simp⟩, fun _ => rfl⟩
  | bool b =>
    injection hx with hx; subst hx
    exact ⟨_, rfl, by cases b <;> simp [InUnsigned], ⟨0, by cases b <;> simp⟩, fun _ => by cases b <;> rfl⟩
  | _ => cases hx

theorem intBits8_zero {v : Int} (h : -2 ^ 63 ≤ v ∧ v < 2 ^ 63) : intBits 8 v = 0 ↔ v = 0 := by
  unfold intBits
  have e : ((256 ^ 8 : Nat) : Int) = 18446744073709551616 := rfl
  rw [e]
  omega

/-- A boolean tells whether the number is zero, whether the field is read or assigned. -/
theorem C58_bool (x : Datum) (v : Int) (hs : Holds x) (hx : number x = some v) :
    copyOut x .bool = some (.bool (decide (v ≠ 0))) ∧ copyIn .Bool x = some (.bool (decide (v ≠ 0))) := by
  have hk : TypeCode.wireKind .Bool = .bool := by decide
  cases x with
  | int u =>
    injection hx with hx; subst hx
    refine ⟨by simp [copyOut]; exact Bool.eq_iff_iff.mpr (by simp), ?_⟩
    simp only [copyIn, hk]
    have := intBits8_zero hs
    congr 2
    exact Bool.eq_iff_iff.mpr (by simp [this])
  | uint n =>
    injection hx with hx; subst hx
    have e : (n != 0) = decide ((n : Int) ≠ 0) := Bool.eq_iff_iff.mpr (by simp)
    exact ⟨by simp only [copyOut, e], by simp only [copyIn, hk, e]⟩
  | bool b =>
    injection hx with hx; subst hx
    cases b <;> exact ⟨rfl, by simp only [copyIn, hk]; rfl⟩
  | _ => cases hx

/-- The text accepted for an unsigned field, and the number it gives: with a sign, modulo two to the 64. -/
theorem C58_text_unsigned (s : Str) (n : Nat) :
    parseU64 s = some n ↔ ∃ neg m, Says s neg m ∧ m < 2 ^ 64 ∧ n = if neg then (2 ^ 64 - m) % 2 ^ 64 else m := by
  rw [parseU64_eq, Option.bind_eq_some_iff]
  constructor
  · rintro ⟨⟨neg, m⟩, h, h1⟩
    simp only at h1
    split at h1
    · cases h1
    · injection h1 with h1
      exact ⟨neg, m, (parseBoth_iff s neg m).mp h, by omega, h1.symm⟩
  · rintro ⟨neg, m, h, h1, h2⟩
    refine ⟨(neg, m), (parseBoth_iff s neg m).mpr h, ?_⟩
    simp only
    rw [if_neg (by omega), h2]

/-- The text accepted for a signed field, and the number it gives. -/
theorem C58_text_signed (s : Str) (v : Int) :
    parseI64 s = some v ↔ ∃ neg m, Says s neg m ∧ v = (if neg then -(m : Int) else m) ∧ -2 ^ 63 ≤ v ∧ v < 2 ^ 63 := by
  rw [parseI64_eq, Option.bind_eq_some_iff]
  constructor
  · rintro ⟨⟨neg, m⟩, h, h1⟩
    have h' := (parseBoth_iff s neg m).mp h
    cases neg with
    | true =>
      simp only [if_true] at h1
      split at h1
      · cases h1
      · injection h1 with h1
        exact ⟨true, m, h', h1.symm, by omega, by omega⟩
    | false =>
      simp only [Bool.false_eq_true, if_false] at h1
      split at h1
      · cases h1
      · injection h1 with h1
        exact ⟨false, m, h', h1.symm, by omega, by omega⟩
  · rintro ⟨neg, m, h, h1, h2⟩
    refine ⟨(neg, m), (parseBoth_iff s neg m).mpr h, ?_⟩
    simp only
    rw [if_neg (by cases neg <;> simp at h1 ⊢ <;> omega), h1]

/-- A number says one thing only. -/
theorem says_unique {s : Str} {a b : Bool} {m n : Nat} (h1 : Says s a m) (h2 : Says s b n) : a = b ∧ m = n := by
  have e1 := (parseBoth_iff s a m).mpr h1
  have e2 := (parseBoth_iff s b n).mpr h2
  rw [e1] at e2
  injection e2 with e2
  injection e2 with e2 e3
  exact ⟨e2, e3⟩

/-- Assigning text to a field is assigning the number it stands for, or is refused. -/
theorem C58_assign_text (code : TypeCode) (w : Nat) (s : Str) :
    (code.wireKind = .int w → copyIn code (.str s) = (parseI64 s).bind fun v => copyIn code (.int v)) ∧
    (code.wireKind = .uint w → copyIn code (.str s) = (parseU64 s).bind fun n => copyIn code (.uint n)) := by
  constructor
  · intro hk; simp only [copyIn, hk]; cases parseI64 s <;> rfl
  · intro hk; simp only [copyIn, hk]; cases parseU64 s <;> rfl

/-- An integer read as text, or assigned to a text field, gives text which stands for that integer... -/
theorem C58_print (x : Datum) (v : Int) (hb : ∀ b, x ≠ .bool b) (hx : number x = some v) :
    ∃ s, copyOut x .str = some (.str s) ∧ copyIn .String x = some (.str s) ∧ Says s (decide (v < 0)) v.natAbs := by
  have hk : TypeCode.wireKind .String = .str := by decide
  cases x with
  | int u =>
    injection hx with hx; subst hx
    exact ⟨showInt u, rfl, by simp only [copyIn, hk], showInt_says u⟩
  | uint n =>
    injection hx with hx; subst hx
    exact ⟨showNat n, rfl, by simp only [copyIn, hk], by rw [show decide ((n : Int) < 0) = false by simp]; exact showNat_says n⟩
  | bool b => exact absurd rfl (hb b)
  | _ => cases hx

/-- ...so that reading a field as text and assigning the text to a field of the same type changes nothing. -/
theorem C58_text_roundtrip (v : Int) (h : -2 ^ 63 ≤ v ∧ v < 2 ^ 63) : parseI64 (showInt v) = some v :=
  (C58_text_signed _ _).mpr ⟨_, _, showInt_says v, by split <;> rename_i hv <;> simp at hv <;> omega, h⟩

theorem C58_text_roundtrip_unsigned (n : Nat) (h : n < 2 ^ 64) : parseU64 (showNat n) = some n :=
  (C58_text_unsigned _ _).mpr ⟨false, n, showNat_says n, h, rfl⟩

/-- Booleans and text. -/
theorem C58_bool_text (s : Str) (b : Bool) :
    (copyIn .Bool (.str s) = some (.bool b) ↔ s = if b then trueText else falseText) ∧
    (copyOut (.str s) .bool = some (.bool b) ↔ s = if b then trueText else falseText) ∧
    copyOut (.bool b) .str = some (.str (if b then trueText else falseText)) := by
  have hk : TypeCode.wireKind .Bool = .bool := by decide
  have h : (parseBool s).map Datum.bool = some (.bool b) ↔ s = if b then trueText else falseText := by
    unfold parseBool
    by_cases h1 : s = trueText
    · subst h1; cases b <;> simp [trueText, falseText]
    · by_cases h2 : s = falseText
      · subst h2; cases b <;> simp [trueText, falseText]
      · cases b <;> simp [h1, h2]
  exact ⟨by simpa only [copyIn, hk] using h, by simpa only [copyOut] using h, rfl⟩

/-- Copying one field to another stores what assigning its content does. -/
theorem C58_copy (env : CopyEnv) (code sc : TypeCode) (x y : Datum) (hs : Holds x) (hnb : code.wireKind = .bool ∨ ∀ b, x ≠ .bool b)
    (hst : code.wireKind = .str ↔ ∃ s, x = .str s)
    (h : copyIn code x = some y) : copyScalar env code sc x = .ok y := by
  unfold copyIn at h
  unfold copyScalar
  split at h
  · rename_i w v hk; simp only [hk]; injection h with h; rw [h]
  · rename_i w n hk
    simp only [hk]; injection h with h; rw [← h]
    obtain ⟨hw0, hw8⟩ := wireKind_width code w (Or.inl hk)
    congr 2
    have h1 := inSigned_intOf hw0 (intBits_lt w (intOf 8 n))
    have h2 := inSigned_intOf hw0 (Nat.mod_lt n (Nat.pow_pos (by omega : 0 < 256) : 0 < 256 ^ w))
    refine sameMod_unique_signed ?_ h2 h1
    refine SameMod_trans (sameMod_intOf w _) (SameMod_trans (sameMod_mod w n) (SameMod_symm ?_))
    exact SameMod_trans (sameMod_intOf w _) (SameMod_trans (sameMod_intBits w _) (SameMod_narrow hw8 (sameMod_intOf 8 n)))
  · rename_i w b hk
    rcases hnb with h1 | h1
    · rw [hk] at h1; cases h1
    · exact absurd rfl (h1 b)
  · rename_i w s hk
    have := hst.mpr ⟨s, rfl⟩
    rw [hk] at this; cases this
  · rename_i w v hk
    simp only [hk]; injection h with h; rw [← h]
    obtain ⟨hw0, hw8⟩ := wireKind_width code w (Or.inr hk)
    congr 2
    have h1 : InUnsigned w (intBits w v : Nat) := ⟨Int.natCast_nonneg _, by exact_mod_cast intBits_lt w v⟩
    have h2 : InUnsigned w (intBits 8 v % 256 ^ w : Nat) :=
      ⟨Int.natCast_nonneg _, by exact_mod_cast Nat.mod_lt _ (Nat.pow_pos (by omega : 0 < 256))⟩
    have h3 := sameMod_unique_unsigned (SameMod_trans (sameMod_intBits w v) (SameMod_symm (SameMod_trans (sameMod_mod w _)
      (SameMod_narrow hw8 (sameMod_intBits 8 v))))) h1 h2
    exact_mod_cast h3
  · rename_i w n hk; simp only [hk]; injection h with h; rw [h]
  · rename_i w b hk
    rcases hnb with h1 | h1
    · rw [hk] at h1; cases h1
    · exact absurd rfl (h1 b)
  · rename_i w s hk
    have := hst.mpr ⟨s, rfl⟩
    rw [hk] at this; cases this
  · rename_i v hk
    simp only [hk]; injection h with h; rw [← h]
    congr 2
    exact Bool.eq_iff_iff.mpr (by simp [intBits8_zero hs])
  · rename_i n hk; simp only [hk]; injection h with h; rw [h]
  · rename_i b hk; simp only [hk]; injection h with h; rw [h]
  · rename_i s hk
    have := hst.mpr ⟨s, rfl⟩
    rw [hk] at this; cases this
  · rename_i v hk; obtain ⟨s, hs⟩ := hst.mp hk; cases hs
  · rename_i v hk; obtain ⟨s, hs⟩ := hst.mp hk; cases hs
  · rename_i v hk; obtain ⟨s, hs⟩ := hst.mp hk; cases hs
  · rename_i s hk; simp only [hk]; injection h with h; rw [h]
  · cases h

/-- -1 assigned to a UInt8 is 255, 300 is 44; 200 assigned to an Int8 is -56. -/
example : copyIn .UInt8 (.int (-1)) = some (.uint 255) ∧ copyIn .UInt8 (.int 300) = some (.uint 44) ∧ copyIn .Int8 (.uint 200) = some (.int (-56)) := by
  refine ⟨rfl, rfl, rfl⟩

/-- " -0x10 " is a number. -/
example : Says [0x20, 0x2d, 0x30, 0x78, 0x31, 0x30, 0x20] true 16 :=
  Says.minus (b := [0x20]) (s := [0x30, 0x78, 0x31, 0x30]) (b' := [0x20]) (by unfold Blank; decide)
    (Numeral.hex (Or.inl rfl) (Digits.snoc (s := [0x31]) (n := 1) (Digits.one (by unfold Digit; decide)) (c := 0x30) (d := 0)
      (by unfold Digit; decide))) (by unfold Blank; decide)

end Pvxs.Props.Scl
