import Verif.Lemmas.TypeTable
import Verif.Props.Wire
/-!
Properties C10-C12: type descriptions.
-/
namespace Pvxs.Props
open Pvxs.Wire Pvxs.Spec

/-! ### examples used below -/

/-- struct "S" { int32 value; struct { string s; } a; union { int32 i; string[] t; } u; struct[] { any v; } arr; } -/
def exampleType : Member :=
  { code := .Struct, id := [0x53], children :=
    [{ code := .Int32, name := [0x76] },
     { code := .Struct, name := [0x61], children := [{ code := .String, name := [0x73] }] },
     { code := .Union, name := [0x75], children := [{ code := .Int32, name := [0x69] }, { code := .StringA, name := [0x74] }] },
     { code := .StructA, name := [0x72], children := [{ code := .Any, name := [0x76] }] }] }

theorem exampleType_ok : Validated exampleType ∧ FitsWire exampleType ∧ DistinctNames exampleType ∧ levels exampleType = 4 := by
  refine ⟨?_, ?_, ?_, ?_⟩ <;>
    simp [exampleType, Validated, ValidatedAll, FitsWire, FitsWireAll, DistinctNames, DistinctNamesAll, levels, levelsAll] <;> decide

/-! ### C10 -/

/-- a definition accepted by the constructors, with distinct sibling names, can always be built -/
theorem C10_build (m : Member) (hv : Validated m) (hd : DistinctNames m) : ∃ t, build m = .ok t ∧ t ≠ [] :=
  ⟨flat m, build_total m hv hd, flat_ne_nil m⟩

/-- what the peer decodes is the identical table; the cache of the connection is left alone -/
theorem C10_type_roundtrip (be : Bool) (m : Member) (t : List FieldDesc) (c : TypeStore) (hv : Validated m) (hw : FitsWire m)
    (hb : build m = .ok t) (hl : levels m ≤ 21) : RoundTrips be (putType t) (getTypeTop c) (t, c) := by
  obtain rfl := build_ok m t hb
  have he := encodable_of_validated m hv hw
  have E := emits_type be m [] he
  rw [List.append_nil] at E
  exact roundTrips_of E (parses_type be m 21 c he hl) (good_getType 21 c)

/-- a description nested deeper than the limit is refused, whatever follows it -/
theorem C10_too_deep (be : Bool) (m : Member) (t : List FieldDesc) (c : TypeStore) (rest : List Byte) (hv : Validated m)
    (hw : FitsWire m) (hb : build m = .ok t) (hl : 21 < levels m) :
    (putType t (fresh be)).err = false ∧ (getTypeTop c (input be ((putType t (fresh be)).data ++ rest))).2.err = true := by
  obtain rfl := build_ok m t hb
  have he := encodable_of_validated m hv hw
  have E := emits_type be m [] he
  rw [List.append_nil] at E
  have := E (fresh be) rfl rfl rfl
  rw [this]
  exact ⟨rfl, too_deep be m 21 c rest he hl⟩

/-- the table is a faithful representation: definitions with the same table are the same (code, id, names, order,
children; the name given to the root is not part of a type) -/
theorem C10_faithful (m m' : Member) (t : List FieldDesc) (hv : Validated m) (hw : FitsWire m) (hv' : Validated m') (hw' : FitsWire m')
    (hb : build m = .ok t) (hb' : build m' = .ok t) : { m with name := [] } = { m' with name := [] } := by
  have h1 := build_ok m t hb
  have h2 := build_ok m' t hb'
  have e1 := encodable_of_validated m hv hw
  have e2 := encodable_of_validated m' hv' hw'
  refine flat_inj _ _ (encodable_name m [] e1) (encodable_name m' [] e2) rfl ?_
  obtain ⟨a, b, c, d⟩ := m
  obtain ⟨a', b', c', d'⟩ := m'
  show flat ⟨a, [], c, d⟩ = flat ⟨a', [], c', d'⟩
  rw [flat_name a [] b, flat_name a' [] b', ← h1, ← h2]

/-- different types never have the same encoding -/
theorem C10_injective (be : Bool) (m m' : Member) (t t' : List FieldDesc) (x y : List Byte) (hv : Validated m) (hw : FitsWire m)
    (hb : build m = .ok t) (hl : levels m ≤ 21) (hv' : Validated m') (hw' : FitsWire m') (hb' : build m' = .ok t')
    (hl' : levels m' ≤ 21) (h : (putType t (fresh be)).data ++ x = (putType t' (fresh be)).data ++ y) :
    t = t' ∧ x = y := by
  have a := (C10_type_roundtrip be m t [] hv hw hb hl).reads x
  have b := (C10_type_roundtrip be m' t' [] hv' hw' hb' hl').reads y
  rw [h, b] at a
  simp only [Prod.mk.injEq, input, In.mk.injEq, true_and, and_true] at a
  exact ⟨a.1.symm, a.2.symm⟩

/-- hypotheses are met: a type with every kind of nesting -/
example : ∃ t, build exampleType = .ok t ∧ RoundTrips true (putType t) (getTypeTop []) (t, []) := by
  obtain ⟨t, h, _⟩ := C10_build _ exampleType_ok.1 exampleType_ok.2.2.1
  exact ⟨t, h, C10_type_roundtrip true _ t [] exampleType_ok.1 exampleType_ok.2.1 h (by rw [exampleType_ok.2.2.2]; decide)⟩

/-- nested structs, n levels above an integer -/
def nest : Nat → Member
  | 0 => { code := .Int32, name := [0x61] }
  | n+1 => { code := .Struct, name := [0x61], children := [nest n] }

theorem nest_ok (n : Nat) : Validated (nest n) ∧ FitsWire (nest n) ∧ DistinctNames (nest n) ∧ levels (nest n) = n + 1 ∧
    (nest n).name = [0x61] ∧ (nest n).id = [] ∧ (nest n).code.valid = true := by
  induction n with
  | zero =>
    refine ⟨?_, ?_, ?_, ?_, rfl, rfl, by decide⟩ <;>
      simp [nest, Validated, ValidatedAll, FitsWire, FitsWireAll, DistinctNames, DistinctNamesAll, levels, levelsAll]
    decide
  | succ n ih =>
    obtain ⟨h1, h2, h3, h4, h5, h6, h7⟩ := ih
    refine ⟨?_, ?_, ?_, ?_, rfl, rfl, by simp [nest]; decide⟩
    · simp only [nest, Validated, ValidatedAll, h1, and_true]
      have e : nodeValidate (some TypeCode.Struct) (nest n).id (nest n).code = .ok () := by
        rw [h6]; simp [nodeValidate, h7]; decide
      have e1 : nodeValidate none [] TypeCode.Struct = .ok () := by decide
      have e2 : ifNamed [0x61] (nameValidate [0x61]) = .ok () := by decide
      simp only [Member.validate, e2, e1, Res.bind_ok, List.forM, e]
      rfl
    · simp [nest, FitsWire, FitsWireAll, h2]
    · simp [nest, DistinctNames, DistinctNamesAll, h3, h5]
    · simp [nest, levels, levelsAll, h4]; omega

/-- hypotheses of C10_too_deep are met, at the first depth that is refused; one less is accepted -/
example : ∃ t, build (nest 21) = .ok t ∧ 21 < levels (nest 21) := by
  obtain ⟨t, h, _⟩ := C10_build _ (nest_ok 21).1 (nest_ok 21).2.2.1
  exact ⟨t, h, by rw [(nest_ok 21).2.2.2.1]; decide⟩
example : levels (nest 20) ≤ 21 := by rw [(nest_ok 20).2.2.2.1]; decide

/-! ### C06, for types -/

/-- decoding a type stays inside the buffer, for all bytes, caches and depth limits -/
theorem C06_type_inside (f : Nat) (c : TypeStore) : StaysInside (getType f c) := staysInside_of (good_getType f c)

/-! ### C11 -/

theorem key_bytes (be : Bool) (k : Nat) : (if be then [UInt8.ofNat (k / 256), UInt8.ofNat k] else [UInt8.ofNat k, UInt8.ofNat (k / 256)]) =
    wireBytes be 2 k := by
  have h : ∀ a : Nat, UInt8.ofNat (a % 256) = UInt8.ofNat a := by
    intro a; apply UInt8.toNat_inj.mp; simp
  cases be <;> simp [wireBytes, leBytes, h]

/-- "define" followed by the bytes of a type: yields the type; the key is now bound, to this type when it was free -/
theorem C11_define (be : Bool) (k : Nat) (hk : k < 65536) (m : Member) (t : List FieldDesc) (c : TypeStore) (rest : List Byte)
    (hv : Validated m) (hw : FitsWire m) (hb : build m = .ok t) (hl : levels m ≤ 20) :
    getTypeTop c (input be (defineMsg be k (putType t (fresh be)).data ++ rest)) = ((t, c.emplace k t), input be rest) := by
  obtain rfl := build_ok m t hb
  have he := encodable_of_validated m hv hw
  have E := emits_type be m [] he
  rw [List.append_nil] at E
  have := E (fresh be) rfl rfl rfl
  rw [this, defineMsg, key_bytes]
  have P := parses_type be m 20 c he hl
  obtain ⟨d, ds, hf, _, hp, _⟩ := flat_head m
  have hd : { d with parentIndex := 0 } = d := by cases d; simp only at hp; subst hp; rfl
  have key : Parses be (getTypeBody (getType 20) c 0xfd) (wireBytes be 2 k ++ typeBytes be m) (flat m, c.emplace k (flat m)) := by
    show Parses be (getTypeDefine (getType 20) c) _ _
    unfold getTypeDefine
    refine Parses.bind (parses_getInt be 2 k hk) (Parses.bind0 P (parses_failIf _ _ (by simp [flat_ne_nil]) ?_))
    simp only [hf, hd]
    exact Parses.pure be _
  exact parses_code key rest

/-- "reference": yields the bound type, or is refused -/
theorem C11_reference (be : Bool) (k : Nat) (hk : k < 65536) (c : TypeStore) (rest : List Byte) (t : List FieldDesc) (ht : t ≠ [])
    (h : c.find? k = some t) : getTypeTop c (input be (refMsg be k ++ rest)) = ((t, c), input be rest) := by
  rw [refMsg, key_bytes]
  have key : Parses be (getTypeBody (getType 20) c 0xfe) (wireBytes be 2 k) (t, c) := by
    show Parses be (getTypeFetch c) _ _
    unfold getTypeFetch
    refine Parses.bind0 (parses_getInt be 2 k hk) ?_
    simp only [h]
    exact parses_failIf _ _ (by simpa using ht) (Parses.pure be _)
  exact parses_code key rest

theorem C11_undefined_refused (be : Bool) (k : Nat) (hk : k < 65536) (c : TypeStore) (rest : List Byte)
    (h : c.find? k = none) : (getTypeTop c (input be (refMsg be k ++ rest))).2.err = true := by
  rw [refMsg, key_bytes]
  refine code_err ?_
  show (getTypeFetch c _).2.err = true
  unfold getTypeFetch
  have := parses_then_err (be := be) (tail := rest) (f := fun key => (match c.find? key with
    | none => failWith ([], c)
    | some t => failIf t.isEmpty ([], c) (pure (t, c)) : Dec (List FieldDesc × TypeStore))) (parses_getInt be 2 k hk)
    (by simp only [h]; rfl)
  exact this

/-- no message, whatever its bytes, changes or removes a key that is already bound -/
theorem find_stable_body {rec : TypeStore → Dec (List FieldDesc × TypeStore)}
    (hr : ∀ c i k t, c.find? k = some t → (rec c i).1.2.find? k = some t) (c : TypeStore) (code : Byte) (i : In) (k : Nat)
    (t : List FieldDesc) (h : c.find? k = some t) : (getTypeBody rec c code i).1.2.find? k = some t := by
  have kids : ∀ n fld kids c i, c.find? k = some t → (getKids rec n fld kids c i).1.2.find? k = some t := by
    intro n
    induction n with
    | zero => intro fld kids c i h; exact h
    | succ n ih =>
      intro fld kids c i h
      have h1 := hr c (getStr i).2 k t h
      simp only [getKids, Dec.bind_apply, failIf]
      split
      · exact h1
      · exact ih _ _ _ _ h1
  unfold getTypeBody
  by_cases h1 : code = 0xff
  · rw [if_pos h1]; exact h
  rw [if_neg h1]
  by_cases h2 : code = 0xfd
  · rw [if_pos h2]
    have h3 := hr c (getInt 2 i).2 k t h
    simp only [getTypeDefine, Dec.bind_apply, failIf]
    split
    · exact h3
    · cases hn : (rec c (getInt 2 i).2).1.1 with
      | nil => exact h3
      | cons d more =>
        show (TypeStore.emplace _ _ _).find? k = _
        rw [find?_emplace, h3]
  rw [if_neg h2]
  by_cases h3 : code = 0xfe
  · rw [if_pos h3]
    simp only [getTypeFetch, Dec.bind_apply]
    cases c.find? (getInt 2 i).1 with
    | none => exact h
    | some t' =>
      simp only [failIf]
      split <;> exact h
  rw [if_neg h3]
  by_cases h4 : code &&& 0x10 ≠ 0
  · rw [if_pos h4]; exact h
  rw [if_neg h4]
  by_cases h5 : code = 0x88 ∨ code = 0x89
  · rw [if_pos h5]
    have h6 := hr c i k t h
    simp only [getTypeArr, Dec.bind_apply, failIf]
    split <;> exact h6
  rw [if_neg h5]
  by_cases h6 : code = 0x80 ∨ code = 0x81
  · rw [if_pos h6]
    exact kids _ _ _ _ _ h
  rw [if_neg h6]
  split <;> exact h

theorem find_stable (f : Nat) : ∀ (c : TypeStore) (i : In) (k : Nat) (t : List FieldDesc), c.find? k = some t →
    (getType f c i).1.2.find? k = some t := by
  induction f with
  | zero => intro c i k t h; exact h
  | succ f ih =>
    intro c i k t h
    simp only [getType, failIf]
    split
    · exact h
    · simp only [Dec.bind_apply, failIf]
      split
      · exact h
      · exact find_stable_body ih c _ _ k t h

theorem find_stable_msgs (msgs : List (Bool × List Byte)) (c : TypeStore) (k : Nat) (t : List FieldDesc) (h : c.find? k = some t) :
    (afterMessages c msgs).find? k = some t := by
  induction msgs generalizing c with
  | nil => exact h
  | cons m ms ih => exact ih _ (find_stable 21 c _ k t h)

/-- The claim of C11 with "the *first* definition" in place of "the most recent one": on any connection, once key `k`
has been defined as type `t` (it was free before), then after any further messages whatsoever - including attempts to
redefine `k` - a reference to `k` is decoded as exactly `t`.  Missing with respect to C11: a second definition of the
same key is ignored by the code, see `C11_redefinition_ignored`. -/
theorem C11_replay_partial (be be' : Bool) (k : Nat) (hk : k < 65536) (m : Member) (t : List FieldDesc) (rest rest' : List Byte)
    (before after : List (Bool × List Byte))
    (hv : Validated m) (hw : FitsWire m) (hb : build m = .ok t) (hl : levels m ≤ 20)
    (hfree : (afterMessages [] before).find? k = none) :
    let c := afterMessages [] (before ++ (be, defineMsg be k (putType t (fresh be)).data ++ rest) :: after)
    getTypeTop c (input be' (refMsg be' k ++ rest')) = ((t, c), input be' rest') := by
  intro c
  have ht : t ≠ [] := by rw [build_ok m t hb]; exact flat_ne_nil m
  refine C11_reference be' k hk c rest' t ht ?_
  have hdef := C11_define be k hk m t (afterMessages [] before) rest hv hw hb hl
  have hc : c = afterMessages ((afterMessages [] before).emplace k t) after := by
    show afterMessages [] (before ++ _) = _
    unfold afterMessages
    rw [List.foldl_append, List.foldl_cons]
    congr 1
    have : afterMessage (afterMessages [] before) (be, defineMsg be k (putType t (fresh be)).data ++ rest) =
        (getTypeTop (afterMessages [] before) (input be (defineMsg be k (putType t (fresh be)).data ++ rest))).1.2 := rfl
    rw [hdef] at this
    exact this
  rw [hc]
  refine find_stable_msgs after _ k t ?_
  rw [find?_emplace, hfree]
  simp

example : ((afterMessages [] [(true, defineMsg true 7 [0x22])]).find? 8).isNone = true ∧
    ((afterMessages [] [(true, defineMsg true 7 [0x22])]).find? 7).isSome = true := by decide

/-- the code keeps the first definition: the literal statement of C11 is false -/
theorem C11_redefinition_ignored : ∃ be k c,
    c = afterMessages [] [(be, defineMsg be k [0x22]), (be, defineMsg be k [0x60])] ∧
    (getTypeTop c (input be (refMsg be k))).1.1.map (·.code) = [TypeCode.Int32] ∧
    (getTypeTop c (input be (refMsg be k))).2.err = false ∧
    (getTypeTop c (input be (defineMsg be k [0x60]))).1.1.map (·.code) = [TypeCode.String] :=
  ⟨true, 7, _, rfl, by decide, by decide, by decide⟩

/-! ### C12 -/

/-- Whatever messages were received before, and whatever bytes are decoded now: if the decoder accepts a (non-null)
description whose member names are distinct among siblings and contain no dot, then the resulting table, and every table
nested in it, is consistent.  Missing with respect to C12: the decoder also accepts descriptions with duplicate or
dotted names (`C12_duplicate_accepted`); those can not be instantiated, see `C12_unusable_or_consistent`. -/
theorem C12_wellformed_partial (msgs : List (Bool × List Byte)) (i : In) (t : List FieldDesc)
    (ht : (getTypeTop (afterMessages [] msgs) i).1.1 = t) (hok : (getTypeTop (afterMessages [] msgs) i).2.err = false)
    (hne : t ≠ []) (hn : NamesOK t) : WellFormed t := by
  have hc : ∀ msgs : List (Bool × List Byte), ∀ c, CacheOK c → CacheOK (afterMessages c msgs) := by
    intro msgs
    induction msgs with
    | nil => intro c h; exact h
    | cons m ms ih => intro c h; exact ih _ (getType_sound 21 c _ h).1
  have h0 : CacheOK (afterMessages [] msgs) := hc msgs [] (by intro k t h; simp [TypeStore.find?] at h)
  rcases (getType_sound 21 _ i h0).2 hok with h | ⟨m, hm, h⟩
  · exact absurd (ht.symm.trans h) hne
  · have e : t = flat m := ht.symm.trans h
    subst e
    exact wellFormed_flat m (distinct_of_names m hm hn)

/-- user definitions too -/
theorem C12_built_wellformed (m : Member) (t : List FieldDesc) (hd : DistinctNames m) (hb : build m = .ok t) :
    WellFormed t := by
  rw [build_ok m t hb]; exact wellFormed_flat m hd

/-- struct { int32 a; int32 a; } is accepted from the network -/
theorem C12_duplicate_accepted : ∃ bytes : List Byte,
    (getTypeTop [] (input true bytes)).2.err = false ∧ ¬ TableOK (getTypeTop [] (input true bytes)).1.1 := by
  refine ⟨[0x80, 0, 2, 1, 0x61, 0x22, 1, 0x61, 0x22], by decide, ?_⟩
  intro h
  obtain ⟨d, h1, h2, _⟩ := h.root
  have e1 : ((getTypeTop [] (input true [0x80, 0, 2, 1, 0x61, 0x22, 1, 0x61, 0x22])).1.1).length = 3 := by decide
  have e2 : ((getTypeTop [] (input true [0x80, 0, 2, 1, 0x61, 0x22, 1, 0x61, 0x22])).1.1)[0]?.map FieldDesc.size = some 2 := by decide
  rw [h1] at e2
  simp only [Option.map_some, Option.some.injEq] at e2
  omega

/-- hypotheses of C12_wellformed_partial are met by the encoding of `exampleType`, after other messages -/
example : ∃ msgs i t, (getTypeTop (afterMessages [] msgs) i).1.1 = t ∧ (getTypeTop (afterMessages [] msgs) i).2.err = false ∧
    t ≠ [] ∧ NamesOK t ∧ msgs ≠ [] := by
  obtain ⟨t, h, hne⟩ := C10_build _ exampleType_ok.1 exampleType_ok.2.2.1
  have hr := (C10_type_roundtrip true _ t (afterMessages [] [(true, [1, 2, 3])]) exampleType_ok.1 exampleType_ok.2.1 h
    (by rw [exampleType_ok.2.2.2]; decide)).reads []
  refine ⟨[(true, [1, 2, 3])], input true ((putType t (fresh true)).data ++ []), t, by rw [hr], by rw [hr]; rfl, hne, ?_, by simp⟩
  rw [build_ok _ t h]
  exact names_of_distinct _ exampleType_ok.2.2.1

end Pvxs.Props
