import Verif.Spec.RecordVal
import Verif.Lemmas.Float
import Verif.Lemmas.Value
/-
C96: what a client puts to the value of a record is what the record then holds, and what is then read.
-/
namespace Pvxs.Props.RecVal
open Pvxs Wire Pvxs.ArrayConv Pvxs.RealScalar Pvxs.RecVal Pvxs.Spec.RecVal

/-! ### lemmas -/

theorem cstr_clean {s : Str} (h : Clean s) : cText s = s := by
  unfold cText
  have : ∀ (l : Str), (0 : UInt8) ∉ l → l.takeWhile (fun c => c != 0) = l := by
    intro l
    induction l with
    | nil => intro _; rfl
    | cons a t ih =>
      intro h
      have ha : a ≠ 0 := fun e => h (by simp [e])
      have ht : (0 : UInt8) ∉ t := fun e => h (by simp [e])
      simp [ha, ih ht]
  exact this s h

theorem cstr_append_zero {s : Str} (h : Clean s) (t : Str) : cText (s ++ 0 :: t) = s := by
  induction s with
  | nil => rfl
  | cons a r ih =>
    have ha : a ≠ 0 := fun e => h (by simp [e])
    have hr : Clean r := fun e => h (by simp [e])
    show ((a :: (r ++ 0 :: t)).takeWhile fun c => c != 0) = a :: r
    rw [List.takeWhile_cons]
    simp only [bne_iff_ne, ne_eq, ha, not_false_eq_true, ite_true]
    exact congrArg (a :: ·) (ih hr)

theorem clean_take {s : Str} (h : Clean s) (n : Nat) : Clean (s.take n) := fun e => h (List.mem_of_mem_take e)

theorem cstr_isClean (s : Str) : Clean (cText s) := by
  intro e
  have : ∀ (l : Str), (0 : UInt8) ∈ l.takeWhile (fun c => c != 0) → False := by
    intro l
    induction l with
    | nil => intro h; cases h
    | cons a t ih =>
      rw [List.takeWhile_cons]
      split
      · rename_i hne
        intro h
        cases h with
        | head => simp at hne
        | tail _ h => exact ih h
      · intro h; cases h
  exact this s e

theorem cstr_replicate {s : Str} (h : Clean s) (n : Nat) : cText (s ++ List.replicate n 0) = s := by
  cases n with
  | zero => rw [List.replicate_zero, List.append_nil]; exact cstr_clean h
  | succ k => rw [List.replicate_succ]; exact cstr_append_zero h _

theorem cstr_take (s : Str) (n : Nat) : cText (s.take n) = (cText s).take n := by
  unfold cText
  induction s generalizing n with
  | nil => simp
  | cons a t ih =>
    cases n with
    | zero => simp
    | succ n =>
      rw [List.take_succ_cons, List.takeWhile_cons, List.takeWhile_cons]
      split
      · rw [List.take_succ_cons, ih]
      · rw [List.take_nil]

theorem cstr_zeros (s : Str) (n : Nat) : cText (s ++ List.replicate n 0) = cText s := by
  induction s with
  | nil =>
    cases n with
    | zero => rfl
    | succ n => rw [List.nil_append, List.replicate_succ]; rfl
  | cons a t ih =>
    unfold cText at *
    rw [List.cons_append, List.takeWhile_cons, List.takeWhile_cons, ih]

theorem cutTo_short {size : Nat} {s : Str} (h : s.length < min size 40) : cutTo size s = s := by
  unfold cutTo maxString
  exact List.take_of_length_le (by omega)

theorem map_ofNat_toNat (s : Str) : (s.map UInt8.toNat).map UInt8.ofNat = s := by
  induction s with
  | nil => rfl
  | cons a t ih => rw [List.map_cons, List.map_cons, ih, UInt8.ofNat_toNat]

theorem codeOf_eq (t : Dbr) : fromDbrType t = codeOf t := by cases t <;> rfl

theorem arrayCodeOf_eq (t : Dbr) : (fromDbrType t).arrayOf = arrayCodeOf t := by cases t <;> rfl

theorem array_not_string (t : Dbr) : arrayCodeOf t ≠ .String := by cases t <;> decide

theorem intBits_emod (w : Nat) (v : Int) (x : Nat) (h : (x : Int) = v % ((256 ^ w : Nat) : Int)) : intBits w v = x := by
  unfold intBits
  omega

/-! ### reading -/

theorem ofBits_int (c : TypeCode) (w : Nat) (h : c.wireKind = .int w) (x : Nat) : ofBitsAs c x = .ok ⟨c, .int (intOf w x)⟩ := by
  simp only [ofBitsAs, h]

theorem ofBits_uint (c : TypeCode) (w : Nat) (h : c.wireKind = .uint w) (x : Nat) : ofBitsAs c x = .ok ⟨c, .uint (x % 256 ^ w)⟩ := by
  simp only [ofBitsAs, h]

theorem ofBits_f32 (x : Nat) : ofBitsAs .Float32 x = .ok ⟨.Float32, .real (widen (narrow (widen x)))⟩ := by
  have h : TypeCode.Float32.wireKind = .f32 := rfl
  simp only [ofBitsAs, h, storeReal, if_true]

theorem ofBits_f64 (x : Nat) : ofBitsAs .Float64 x = .ok ⟨.Float64, .real x⟩ := by
  have h : TypeCode.Float64.wireKind = .f64 := rfl
  simp only [ofBitsAs, h]

theorem ofBits_number (t : Dbr) (x : Nat) (d : Datum) (ht : t ≠ .string) (h : IsNumber t x d) : ofBitsAs (codeOf t) x = .ok ⟨codeOf t, d⟩ := by
  have sg : ∀ w : Nat, (∃ v : Int, d = .int v ∧ -((256 ^ w : Nat) : Int) ≤ 2 * v ∧ 2 * v < ((256 ^ w : Nat) : Int) ∧ (x : Int) = v % ((256 ^ w : Nat) : Int)) →
      d = .int (intOf w x) := by
    intro w ⟨v, hd, h1, h2, h3⟩
    rw [hd, ← intBits_emod w v x h3, intOf_intBits w v h1 h2]
  have us : ∀ w : Nat, (x < 256 ^ w ∧ d = .uint x) → d = .uint (x % 256 ^ w) := by
    intro w ⟨h1, h2⟩
    rw [h2, Nat.mod_eq_of_lt h1]
  cases t with
  | string => exact absurd rfl ht
  | float =>
    obtain ⟨h1, h2, h3⟩ := h
    rw [h3]
    show ofBitsAs .Float32 x = .ok ⟨.Float32, _⟩
    rw [ofBits_f32, narrow_widen x h1 h2]
  | double => rw [show d = .real x from h]; exact ofBits_f64 x
  | char => rw [sg 1 h]; exact ofBits_int _ 1 rfl x
  | short => rw [sg 2 h]; exact ofBits_int _ 2 rfl x
  | long => rw [sg 4 h]; exact ofBits_int _ 4 rfl x
  | int64 => rw [sg 8 h]; exact ofBits_int _ 8 rfl x
  | uchar => rw [us 1 h]; exact ofBits_uint _ 1 rfl x
  | ushort => rw [us 2 h]; exact ofBits_uint _ 2 rfl x
  | ulong => rw [us 4 h]; exact ofBits_uint _ 4 rfl x
  | uint64 => rw [us 8 h]; exact ofBits_uint _ 8 rfl x
  | enum => rw [us 2 h]; exact ofBits_uint _ 2 rfl x

theorem codeOf_num (t : Dbr) (ht : t ≠ .string) : codeOf t ≠ .String ∧ codeOf t ≠ .Struct := by
  cases t <;> first | exact absurd rfl ht | decide

theorem isNumber_type (t : Dbr) (x : Nat) (d : Datum) (h : IsNumber t x d) : t ≠ .string := by
  intro e
  subst e
  exact h

theorem begins_cstr {s : Str} {b : List Nat} (n : Nat) (hs : s.length < n) (hb : b.length ≤ n) (h : Begins s b) :
    cText (((b.map fun (k : Nat) => UInt8.ofNat k) ++ List.replicate (n - b.length) 0).take (n - 1)) = s := by
  obtain ⟨hc, h | ⟨rest, h⟩⟩ := h
  · subst h
    have hm : ((s.map UInt8.toNat).map fun (k : Nat) => UInt8.ofNat k) = s := map_ofNat_toNat s
    rw [hm, List.take_append, List.take_of_length_le (by omega), List.take_replicate]
    exact cstr_replicate hc _
  · subst h
    have hm : ((s.map UInt8.toNat).map fun (k : Nat) => UInt8.ofNat k) = s := map_ofNat_toNat s
    rw [List.map_append, List.map_cons, hm, List.append_assoc, List.take_append, List.take_of_length_le (by omega)]
    generalize (n - 1 - s.length) = k
    cases k with
    | zero => rw [List.take_zero, List.append_nil]; exact cstr_clean hc
    | succ k => exact cstr_append_zero hc _

/-- what a record holds is what is read, for every type of field, whoever wrote it -/
theorem C96_get (m : Mapping) (ch : Chan) (st : Store) (v : PVal) (h : Has m ch st v) : readValue m ch st = .ok v := by
  cases h with
  | num x d he hn hx =>
    have ht := isNumber_type _ _ _ hx
    have hl : leafType m ch = codeOf ch.type := by
      unfold leafType valueType
      rw [if_neg hn, if_neg (by intro h; exact h.2.1 he), if_neg (by intro h; exact h he), codeOf_eq]
    unfold readValue
    rw [if_pos he, hl]
    simp only [getScalar, dbGet, he]
    rw [if_neg (codeOf_num _ ht).1, if_neg (codeOf_num _ ht).2]
    exact ofBits_number _ _ _ ht hx
  | choice i he hm ht hi =>
    have hl : leafType m ch = .Struct := by unfold leafType; rw [if_pos ⟨hm, ht⟩]
    unfold readValue
    rw [if_pos he, hl]
    simp only [getScalar, dbGet, he]
    rw [if_neg (by decide), if_pos trivial, if_pos ht]
    have : intOf 4 i = (i : Int) := by
      unfold intOf
      have : (256 : Nat) ^ 4 = 4294967296 := by decide
      rw [this]
      have h2 : i % 4294967296 = i := Nat.mod_eq_of_lt (by omega)
      split <;> omega
    show Res.ok (PVal.mk _ (.int (intOf 4 i))) = _
    rw [this]
  | string s he ht hc hs =>
    have hl : leafType m ch = .String := by
      unfold leafType valueType
      rw [ht, if_neg (by intro h; cases h.2), if_neg (by intro h; cases h.1), if_neg (by intro h; exact h he)]
      rfl
    unfold readValue
    rw [if_pos he, hl]
    simp only [getScalar, dbGet, he]
    rw [if_pos trivial]
    show Res.ok (PVal.mk _ (.str (cText ((cutTo ch.size s).take (maxString - 1))))) = _
    rw [cutTo_short hs, List.take_of_length_le (by unfold maxString; omega), cstr_clean hc]
  | long s b ht he hx hs hb hlen =>
    have hl : leafType m ch = .String := by
      unfold leafType valueType
      rw [ht, if_neg (by intro h; cases h.2), if_pos ⟨rfl, he, hx⟩]
    unfold readValue
    rw [if_neg he, hl]
    simp only [getArray, dbGet]
    rw [if_pos ⟨ht, trivial, by omega⟩]
    unfold longBuf
    rw [List.take_of_length_le hlen, begins_cstr ch.elems hs hlen hb]
  | array xs he hns hnt hne hlen =>
    have hl : leafType m ch = arrayCodeOf ch.type := by
      unfold leafType valueType
      rw [if_neg hne, if_neg (by intro h; exact hnt ⟨h.1, h.2.2⟩), if_pos he, arrayCodeOf_eq]
    unfold readValue
    rw [if_neg he, hl]
    simp only [getArray, dbGet]
    rw [List.take_of_length_le hlen]
    cases ht : ch.type <;> first | exact absurd ht hns | rfl
  | strings ss he ht hlen hall =>
    have hl : leafType m ch = .StringA := by
      unfold leafType valueType
      rw [ht, if_neg (by intro h; cases h.2), if_neg (by intro h; cases h.1), if_pos he]
      rfl
    unfold readValue
    rw [if_neg he, hl]
    simp only [getArray, dbGet]
    rw [if_pos trivial, List.take_of_length_le hlen, List.map_map]
    have : ss.map (cText ∘ cutTo ch.size) = ss := by
      have : ∀ s ∈ ss, (cText ∘ cutTo ch.size) s = s := by
        intro s hs
        show cText (cutTo ch.size s) = s
        rw [cutTo_short (hall s hs).2, cstr_clean (hall s hs).1]
      rw [List.map_congr_left this]
      exact List.map_id' ss
    rw [this]

/-- a field of each kind: a number, a choice, a text of 40 bytes in a long string field, an array -/
example : ∃ ch v, ch.type = .short ∧ readValue .scalar ch (.nums [0xfffe]) = .ok v ∧ v.data = .int (-2) :=
  ⟨⟨.short, 1, 2, false, false⟩, ⟨.Int16, .int (-2)⟩, rfl,
   C96_get _ _ _ _ (.num 0xfffe (.int (-2)) rfl (by decide) ⟨-2, rfl, by decide, by decide, by decide⟩), rfl⟩

example : readValue .scalar ⟨.enum, 1, 2, false, false⟩ (.nums [3]) = .ok ⟨.Int32, .int 3⟩ := C96_get _ _ _ _ (.choice 3 rfl rfl rfl (by decide))

/-! ### writing -/

theorem stored_one (ch : Chan) (st : Store) (n : Nat) (he : ch.elems = 1) (hs : Sized ch st) : stored ch st (.nums [n]) = .nums [n] := by
  unfold stored
  cases st with
  | strs _ => simp [he]
  | nums old =>
    have hl : old.length ≤ 1 := he ▸ hs.2.1
    simp only [he]
    split
    · rfl
    · show Store.nums ([n] ++ old.drop 1) = _
      rw [List.drop_eq_nil_of_le hl]
      rfl

theorem asInt_of (w : Nat) (v : Int) : asInt w (.int v) = .ok (intBits w v) := rfl
theorem asUInt_of (w n : Nat) : asUInt w (.uint n) = .ok (n % 256 ^ w) := rfl

theorem scalarNum_number (parse : Str → Option Nat) (t : Dbr) (x : Nat) (d : Datum) (h : IsNumber t x d) :
    scalarNum parse t d = .ok x ∨ t = .enum := by
  have sg : ∀ w : Nat, (∃ v : Int, d = .int v ∧ -((256 ^ w : Nat) : Int) ≤ 2 * v ∧ 2 * v < ((256 ^ w : Nat) : Int) ∧ (x : Int) = v % ((256 ^ w : Nat) : Int)) →
      asInt w d = .ok x := by
    intro w ⟨v, hd, _, _, h3⟩
    rw [hd, asInt_of, intBits_emod w v x h3]
  have us : ∀ w : Nat, (x < 256 ^ w ∧ d = .uint x) → asUInt w d = .ok x := by
    intro w ⟨h1, h2⟩
    rw [h2, asUInt_of, Nat.mod_eq_of_lt h1]
  cases t with
  | string => exact False.elim h
  | float =>
    obtain ⟨h1, h2, h3⟩ := h
    left
    rw [h3]
    show Res.ok (narrow (widen x)) = _
    rw [narrow_widen x h1 h2]
  | double => left; rw [show d = .real x from h]; rfl
  | char => exact .inl (sg 1 h)
  | short => exact .inl (sg 2 h)
  | long => exact .inl (sg 4 h)
  | int64 => exact .inl (sg 8 h)
  | uchar => exact .inl (us 1 h)
  | ushort => exact .inl (us 2 h)
  | ulong => exact .inl (us 4 h)
  | uint64 => exact .inl (us 8 h)
  | enum => exact .inr rfl

theorem enum_uint (parse : Str → Option Nat) (x : Nat) (h : x < 256 ^ 2) : scalarNum parse .enum (.uint x) = .ok x := by
  show Res.ok (intBits 2 (intOf 8 x)) = _
  have : intBits 2 (intOf 8 x) = x := by
    apply intBits_emod
    unfold intOf
    have h8 : (256 : Nat) ^ 8 = 18446744073709551616 := by decide
    have h2 : (256 : Nat) ^ 2 = 65536 := by decide
    rw [h8, h2]
    rw [h2] at h
    split <;> omega
  rw [this]

theorem enum_index (parse : Str → Option Nat) (i : Int) : scalarNum parse .enum (.int i) = .ok (i % 65536).toNat := rfl

theorem dbPut_same (conv : Convert) (ch : Chan) (st new : Store) : dbPut conv ch st ch.type new = .ok (stored ch st new) := by
  unfold dbPut
  rw [if_pos (.inl rfl)]

theorem length_toNat (s : Str) : (s.map UInt8.toNat).length = s.length := List.length_map ..

/-- a value which a field can hold is held after it was put -/
theorem C96_put (parse : Str → Option Nat) (conv : Convert) (m : Mapping) (ch : Chan) (st : Store) (v : PVal) (hs : Sized ch st) (h : CanHold m ch v) :
    ∃ st', writeValue parse conv ch st v = .ok st' ∧ Has m ch st' v ∧ Sized ch st' := by
  obtain ⟨⟨st0, h⟩, hall⟩ := h
  cases h with
  | num x d he hn hx =>
    have ht := isNumber_type _ _ _ hx
    have hnum : scalarNum parse ch.type d = .ok x := by
      cases scalarNum_number parse ch.type x d hx with
      | inl h => exact h
      | inr h =>
        rw [h] at hx ⊢
        obtain ⟨h1, h2⟩ := hx
        rw [h2]
        exact enum_uint parse x h1
    refine ⟨.nums [x], ?_, .num x d he hn hx, ht, ?_, ?_⟩
    · unfold writeValue putScalar
      rw [if_pos he, if_neg ht]
      show (scalarNum parse ch.type d).bind _ = _
      rw [hnum]
      show dbPut conv ch st ch.type (.nums [x]) = _
      rw [dbPut_same, stored_one ch st x he hs]
    · rw [he]; exact Nat.le_refl 1
    · intro _; rw [he]; rfl
  | choice i he hm ht hi =>
    refine ⟨.nums [i], ?_, .choice i he hm ht hi, by rw [ht]; decide, ?_, ?_⟩
    · unfold writeValue putScalar
      rw [if_pos he, if_neg (by rw [ht]; decide)]
      show (scalarNum parse ch.type (.int i)).bind _ = _
      rw [ht, enum_index]
      have : ((i : Int) % 65536).toNat = i := by omega
      rw [this]
      show dbPut conv ch st .enum (.nums [i]) = _
      rw [← ht, dbPut_same, stored_one ch st i he hs]
    · rw [he]; exact Nat.le_refl 1
    · intro _; rw [he]; rfl
  | string s he ht hc hl =>
    refine ⟨.strs [s], ?_, .string s he ht hc hl, ht, ?_⟩
    · unfold writeValue putScalar
      rw [if_pos he, if_pos ht]
      show dbPut conv ch st .string (.strs [cText (scalarBuf s)]) = _
      have : cText (scalarBuf s) = s := by
        unfold scalarBuf
        rw [cstr_clean hc, List.take_of_length_le (by unfold maxString; omega)]
        exact cstr_replicate hc _
      rw [this, ← ht, dbPut_same]
      simp [stored, he, cutTo_short hl]
    · show 1 ≤ ch.elems
      omega
  | long s b ht he hx hl hb hlen =>
    have hw : writeValue parse conv ch st ⟨.String, .str s⟩ = .ok (stored ch st (.nums ((s ++ [0]).map UInt8.toNat))) := by
      unfold writeValue
      rw [if_neg he, if_pos ⟨ht, rfl⟩]
      show dbPut conv ch st .char _ = _
      rw [← ht, dbPut_same]
    have hlen' : ((s ++ [0]).map UInt8.toNat).length ≤ ch.elems := by
      rw [length_toNat, List.length_append]
      exact hl
    have e0 : (s ++ [0]).map UInt8.toNat = s.map UInt8.toNat ++ [0] := by rw [List.map_append]; rfl
    rw [hw]
    cases st with
    | strs ss => exact absurd (ht.symm.trans hs.1) (by decide)
    | nums old =>
      simp only [stored]
      rw [List.take_of_length_le hlen']
      have hns : ch.type ≠ .string := by rw [ht]; decide
      split
      · rename_i hc
        refine ⟨_, rfl, .long s _ ht he hx hl ⟨hb.1, .inr ⟨[], e0⟩⟩ hlen', hns, hlen', ?_⟩
        intro hc'
        rw [hc] at hc'
        cases hc'
      · rename_i hc
        have hold : old.length = ch.elems := hs.2.2 (by simpa using hc)
        have hlen2 : ((s ++ [0]).map UInt8.toNat ++ old.drop ((s ++ [0]).map UInt8.toNat).length).length = ch.elems := by
          rw [List.length_append, List.length_drop]
          omega
        refine ⟨_, rfl, .long s _ ht he hx hl ⟨hb.1, .inr ⟨old.drop ((s ++ [0]).map UInt8.toNat).length, ?_⟩⟩ (by omega), hns, by omega, fun _ => hlen2⟩
        rw [e0, List.append_assoc]
        rfl
  | array xs he hns hnt hne hlen =>
    have hdbr : ∃ dbr, arrayDbr (arrayCodeOf ch.type) = some dbr ∧ (dbr = ch.type ∨ (dbr = .ushort ∧ ch.type = .enum)) := by
      cases ht : ch.type <;> first | exact absurd ht hns | exact ⟨_, rfl, .inl rfl⟩ | exact ⟨_, rfl, .inr ⟨rfl, rfl⟩⟩
    obtain ⟨dbr, h1, h2⟩ := hdbr
    have hw : writeValue parse conv ch st ⟨arrayCodeOf ch.type, .pods xs⟩ = .ok (stored ch st (.nums xs)) := by
      unfold writeValue
      rw [if_neg he, if_neg (fun h => array_not_string ch.type h.2), if_neg hns]
      simp only [putArray, h1]
      unfold dbPut
      rw [if_pos h2]
    rw [hw]
    have hst : stored ch st (.nums xs) = .nums xs := by
      cases st with
      | strs ss => exact absurd hs.1 hns
      | nums old =>
        simp only [stored]
        rw [List.take_of_length_le hlen]
        split
        · rfl
        · rename_i hc
          have hx : xs.length = ch.elems := by
            cases hall xs rfl with
            | inl h => exact absurd h hc
            | inr h => exact h
          rw [List.drop_eq_nil_of_le (by rw [hx]; exact hs.2.1), List.append_nil]
    rw [hst]
    refine ⟨_, rfl, .array xs he hns hnt hne hlen, hns, hlen, ?_⟩
    intro hc
    cases hall xs rfl with
    | inl h => rw [h] at hc; cases hc
    | inr h => exact h
  | strings ss he ht hlen hcl =>
    have hb : ss.map (fun s => cText (elemBuf s)) = ss := by
      have : ∀ s ∈ ss, cText (elemBuf s) = s := by
        intro s hs
        unfold elemBuf
        have := (hcl s hs).2
        rw [List.take_of_length_le (by unfold maxString; omega)]
        exact cstr_replicate (hcl s hs).1 _
      rw [List.map_congr_left this]
      exact List.map_id' ss
    have hw : writeValue parse conv ch st ⟨.StringA, .strs ss⟩ = .ok (stored ch st (.strs ss)) := by
      unfold writeValue
      rw [if_neg he, if_neg (fun h => absurd (ht.symm.trans h.1) (by decide)), if_pos ht]
      simp only [putStringArray]
      rw [hb, ← ht, dbPut_same]
    rw [hw]
    refine ⟨_, rfl, ?_, ?_⟩
    · simp only [stored]
      rw [List.take_of_length_le hlen]
      have : ss.map (cutTo ch.size) = ss := by
        have : ∀ s ∈ ss, cutTo ch.size s = s := fun s hs => cutTo_short (hcl s hs).2
        rw [List.map_congr_left this]
        exact List.map_id' ss
      rw [this]
      exact .strings ss he ht hlen hcl
    · refine ⟨ht, ?_⟩
      rw [List.length_map, List.length_take]
      exact Nat.min_le_left ..

/-- what is put is what is then read -/
theorem C96_same (parse : Str → Option Nat) (conv : Convert) (m : Mapping) (ch : Chan) (st : Store) (v : PVal) (hs : Sized ch st) (h : CanHold m ch v) :
    ∃ st', writeValue parse conv ch st v = .ok st' ∧ readValue m ch st' = .ok v := by
  obtain ⟨st', h1, h2, _⟩ := C96_put parse conv m ch st v hs h
  exact ⟨st', h1, C96_get m ch st' v h2⟩

/-- a long string put to a char array which holds another one -/
example (parse : Str → Option Nat) (conv : Convert) : ∃ st', writeValue parse conv ⟨.char, 8, 1, true, true⟩ (.nums [65, 66, 67, 68, 69]) ⟨.String, .str [0x61, 0x62]⟩ = .ok st' ∧
    readValue .scalar ⟨.char, 8, 1, true, true⟩ st' = .ok ⟨.String, .str [0x61, 0x62]⟩ :=
  C96_same parse conv .scalar _ _ _ ⟨by decide, by decide, by decide⟩
    ⟨⟨.nums [0x61, 0x62], .long _ _ rfl (by decide) rfl (by decide) ⟨by unfold Clean; decide, .inl rfl⟩ (by decide)⟩, by intro xs h; cases h⟩

/-! ### what becomes of values which a field can not hold -/

/-- a string of any length and content -/
theorem C96_text (parse : Str → Option Nat) (conv : Convert) (m : Mapping) (ch : Chan) (st : Store) (s : Str) (he : ch.elems = 1) (ht : ch.type = .string) :
    ∃ st', writeValue parse conv ch st ⟨.String, .str s⟩ = .ok st' ∧
      readValue m ch st' = .ok ⟨.String, .str ((s.takeWhile fun c => c != 0).take (min ch.size 40 - 1))⟩ := by
  have hb : cText (scalarBuf s) = (cText s).take 39 := by
    unfold scalarBuf
    exact cstr_replicate (clean_take (cstr_isClean s) _) _
  refine ⟨.strs [cutTo ch.size ((cText s).take 39)], ?_, ?_⟩
  · unfold writeValue putScalar
    rw [if_pos he, if_pos ht]
    show dbPut conv ch st .string (.strs [cText (scalarBuf s)]) = _
    rw [hb, ← ht, dbPut_same]
    simp [stored, he]
  · have hl : leafType m ch = .String := by
      unfold leafType valueType
      rw [ht, if_neg (by intro h; cases h.2), if_neg (by intro h; cases h.1), if_neg (by intro h; exact h he)]
      rfl
    unfold readValue
    rw [if_pos he, hl]
    simp only [getScalar, dbGet, he]
    rw [if_pos trivial]
    show Res.ok (PVal.mk _ (.str (cText ((cutTo ch.size (cutTo ch.size ((cText s).take 39))).take (maxString - 1))))) = _
    have : (cutTo ch.size (cutTo ch.size ((cText s).take 39))).take (maxString - 1) = (cText s).take (min ch.size 40 - 1) := by
      unfold cutTo maxString
      rw [List.take_take, List.take_take, List.take_take]
      congr 1
      omega
    rw [this, cstr_clean (clean_take (cstr_isClean s) _)]
    rfl

/-- the violation: a string of 40 bytes is cut, and the put succeeds -/
theorem C96_cut : ∃ (ch : Chan) (s t : Str), t ≠ s ∧ ∀ parse conv st, ∃ st', writeValue parse conv ch st ⟨.String, .str s⟩ = .ok st' ∧
    readValue .scalar ch st' = .ok ⟨.String, .str t⟩ := by
  refine ⟨⟨.string, 1, 40, false, false⟩, List.replicate 40 0x61, List.replicate 39 0x61, by decide, fun parse conv st => ?_⟩
  exact C96_text parse conv .scalar _ st _ rfl rfl

/-- the violation: a string is cut at a NUL, and the put succeeds -/
theorem C96_nul : ∃ (ch : Chan) (s t : Str), s.length = 3 ∧ t ≠ s ∧ ∀ parse conv st, ∃ st', writeValue parse conv ch st ⟨.String, .str s⟩ = .ok st' ∧
    readValue .scalar ch st' = .ok ⟨.String, .str t⟩ := by
  refine ⟨⟨.string, 1, 40, false, false⟩, [0x61, 0, 0x62], [0x61], rfl, by decide, fun parse conv st => ?_⟩
  exact C96_text parse conv .scalar _ st _ rfl rfl

/-- the index of a choice, whatever it is: only its lower 16 bits count -/
theorem C96_index (parse : Str → Option Nat) (conv : Convert) (ch : Chan) (st : Store) (i : Int) (hs : Sized ch st) (he : ch.elems = 1) (ht : ch.type = .enum) :
    ∃ st', writeValue parse conv ch st ⟨.Int32, .int i⟩ = .ok st' ∧ readValue .scalar ch st' = .ok ⟨.Int32, .int (i % 65536)⟩ := by
  refine ⟨.nums [(i % 65536).toNat], ?_, ?_⟩
  · unfold writeValue putScalar
    rw [if_pos he, if_neg (by rw [ht]; decide)]
    show (scalarNum parse ch.type (.int i)).bind _ = _
    rw [ht, enum_index]
    show dbPut conv ch st .enum _ = _
    rw [← ht, dbPut_same, stored_one ch st _ he hs]
  · have h := C96_get .scalar ch _ _ (.choice (i % 65536).toNat he rfl ht (by omega))
    have e : (((i % 65536).toNat : Nat) : Int) = i % 65536 := by omega
    rw [e] at h
    exact h

/-- the violation: the index 65537 selects the choice 1, and the put succeeds -/
theorem C96_wraps : ∃ (ch : Chan) (i j : Int), i ≠ j ∧ ∀ parse conv st, Sized ch st → ∃ st', writeValue parse conv ch st ⟨.Int32, .int i⟩ = .ok st' ∧
    readValue .scalar ch st' = .ok ⟨.Int32, .int j⟩ :=
  ⟨⟨.enum, 1, 2, false, false⟩, 65537, 1, by decide, fun parse conv st hs => C96_index parse conv _ st 65537 hs rfl rfl⟩

/-- the violation: an array of choices can neither be read nor written -/
theorem C96_choices (ch : Chan) (he : ch.elems ≠ 1) (ht : ch.type = .enum) :
    (∀ st, ∀ v, readValue .scalar ch st ≠ .ok v) ∧
    ∀ parse conv st i st', writeValue parse conv ch st ⟨.Int32, .int i⟩ ≠ .ok st' := by
  constructor
  · intro st v
    have hl : leafType .scalar ch = .Struct := by unfold leafType; rw [if_pos ⟨rfl, ht⟩]
    unfold readValue
    rw [if_neg he, hl]
    cases st with
    | strs ss =>
      simp only [getArray, dbGet]
      rw [if_neg (by decide)]
      intro h
      cases h
    | nums xs =>
      simp only [getArray, dbGet]
      rw [if_neg (by rw [ht]; intro h; exact absurd h.1 (by decide))]
      intro h
      cases h
  · intro parse conv st i st'
    unfold writeValue
    rw [if_neg he, if_neg (by rw [ht]; intro h; exact absurd h.1 (by decide)), if_neg (by rw [ht]; decide)]
    intro h
    cases h

example : ∃ ch : Chan, ch.elems ≠ 1 ∧ ch.type = .enum := ⟨⟨.enum, 4, 2, false, true⟩, by decide, rfl⟩

/-- an array of numbers of any length, to a field which counts its elements: those which have no place are dropped -/
theorem C96_array (parse : Str → Option Nat) (conv : Convert) (m : Mapping) (ch : Chan) (st : Store) (xs : List Nat) (hs : Sized ch st) (hc : ch.counted = true)
    (he : ch.elems ≠ 1) (hns : ch.type ≠ .string) (hnt : ¬(ch.type = .char ∧ ch.text = true)) (hne : ¬(m = .scalar ∧ ch.type = .enum)) :
    ∃ st', writeValue parse conv ch st ⟨arrayCodeOf ch.type, .pods xs⟩ = .ok st' ∧ readValue m ch st' = .ok ⟨arrayCodeOf ch.type, .pods (xs.take ch.elems)⟩ := by
  have hdbr : ∃ dbr, arrayDbr (arrayCodeOf ch.type) = some dbr ∧ (dbr = ch.type ∨ (dbr = .ushort ∧ ch.type = .enum)) := by
    cases ht : ch.type <;> first | exact absurd ht hns | exact ⟨_, rfl, .inl rfl⟩ | exact ⟨_, rfl, .inr ⟨rfl, rfl⟩⟩
  obtain ⟨dbr, h1, h2⟩ := hdbr
  refine ⟨.nums (xs.take ch.elems), ?_, ?_⟩
  · unfold writeValue
    rw [if_neg he, if_neg (fun h => array_not_string ch.type h.2), if_neg hns]
    simp only [putArray, h1]
    unfold dbPut
    rw [if_pos h2]
    cases st with
    | strs ss => exact absurd hs.1 hns
    | nums old => simp only [stored, hc, if_true]
  · exact C96_get m ch _ _ (.array _ he hns hnt hne (by rw [List.length_take]; exact Nat.min_le_left ..))

/-- the violation: an array which is too long is cut, and the put succeeds -/
theorem C96_array_cut : ∃ (ch : Chan) (xs ys : List Nat), ys ≠ xs ∧ ∀ parse conv st, Sized ch st → ∃ st', writeValue parse conv ch st ⟨.Int32A, .pods xs⟩ = .ok st' ∧
    readValue .scalar ch st' = .ok ⟨.Int32A, .pods ys⟩ :=
  ⟨⟨.long, 2, 4, false, true⟩, [1, 2, 3], [1, 2], by decide, fun parse conv st hs =>
    C96_array parse conv .scalar _ st [1, 2, 3] hs rfl (by decide) (by decide) (by decide) (by decide)⟩

/-- a long string of any length and content, to a field which counts its elements -/
theorem C96_long (parse : Str → Option Nat) (conv : Convert) (m : Mapping) (ch : Chan) (st : Store) (s : Str) (hs : Sized ch st) (hc : ch.counted = true)
    (he : ch.elems ≠ 1) (h0 : ch.elems ≠ 0) (ht : ch.type = .char) (hx : ch.text = true) :
    ∃ st', writeValue parse conv ch st ⟨.String, .str s⟩ = .ok st' ∧
      readValue m ch st' = .ok ⟨.String, .str ((s.takeWhile fun c => c != 0).take (ch.elems - 1))⟩ := by
  refine ⟨.nums (((s ++ [0]).map UInt8.toNat).take ch.elems), ?_, ?_⟩
  · unfold writeValue
    rw [if_neg he, if_pos ⟨ht, rfl⟩]
    show dbPut conv ch st .char _ = _
    rw [← ht, dbPut_same]
    cases st with
    | strs ss => exact absurd (ht.symm.trans hs.1) (by decide)
    | nums old => simp only [stored, hc, if_true]
  · have hl : leafType m ch = .String := by
      unfold leafType valueType
      rw [ht, if_neg (by intro h; cases h.2), if_pos ⟨rfl, he, hx⟩]
    unfold readValue
    rw [if_neg he, hl]
    simp only [getArray, dbGet]
    rw [if_pos ⟨ht, trivial, h0⟩]
    have key : cText (longBuf ch ((((s ++ [0]).map UInt8.toNat).take ch.elems).take ch.elems)) = (cText s).take (ch.elems - 1) := by
      unfold longBuf
      rw [List.take_take, Nat.min_self, List.map_take]
      have hm : ((s ++ [0]).map UInt8.toNat).map (fun (k : Nat) => UInt8.ofNat k) = s ++ [0] := map_ofNat_toNat _
      rw [hm, cstr_take, cstr_zeros, cstr_take, show s ++ [0] = s ++ List.replicate 1 0 from rfl, cstr_zeros, List.take_take]
      congr 1
      omega
    rw [key]
    rfl

/-- the violation: a char array which is full of text, without a NUL, is read without its last character -/
theorem C96_full : ∃ (ch : Chan) (s t : Str), s.length = ch.elems ∧ t ≠ s ∧ readValue .scalar ch (.nums (s.map UInt8.toNat)) = .ok ⟨.String, .str t⟩ :=
  ⟨⟨.char, 4, 1, true, true⟩, [0x61, 0x62, 0x63, 0x64], [0x61, 0x62, 0x63], rfl, by decide, rfl⟩

/-- the violation: a description of 40 characters, for which a record has place, is read without the last one -/
theorem C96_description : ∃ (f : RecVal.Field) (s t : Str), s.length < f.size ∧ t ≠ s ∧ readValue .scalar (openField f) (.strs [s]) = .ok ⟨.String, .str t⟩ :=
  ⟨{ type := .string, elems := 1, size := 41 }, List.replicate 40 0x61, List.replicate 39 0x61, by decide, by decide, rfl⟩

/-- a longer string field is read in full -/
theorem C96_extra (f : RecVal.Field) (s : Str) (st : Store) (m : Mapping) (ht : f.type = .string) (he : f.elems = 1) (hz : 41 < f.size) (hs : s.length < f.size)
    (hb : ∃ b, st = .nums b ∧ Begins s b ∧ b.length = f.size) : readValue m (openField f) st = .ok ⟨.String, .str s⟩ := by
  obtain ⟨b, rfl, hb, hl⟩ := hb
  have ho : openField f = { type := .char, elems := f.size, size := 1, text := true, counted := false } := by
    unfold openField
    rw [if_pos ⟨ht, he, hz⟩]
  rw [ho]
  exact C96_get m _ _ _ (.long s b rfl (by show f.size ≠ 1; omega) rfl hs hb (by show b.length ≤ f.size; omega))

/-- the violation: an array which can have one element, and has none, is read as the number zero -/
theorem C96_none : readValue .scalar ⟨.long, 1, 4, false, true⟩ (.nums []) = .ok ⟨.Int32, .int 0⟩ := rfl

end Pvxs.Props.RecVal
