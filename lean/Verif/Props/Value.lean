import Verif.Lemmas.ValueMore
import Verif.Props.TypeDesc
import Verif.Props.BitMask
/-!
Properties C13 and C14 (values), and the parts of C06 and C12 about values.
-/
namespace Pvxs.Props
open Pvxs.Wire Pvxs.Spec

/-! ### examples used below -/

def strsT : List FieldDesc := [{ code := .StringA }]
def elemT : List FieldDesc :=
  [{ code := .Struct, mlookup := [([0x76], 1)], miter := [([0x76], 1)] }, { code := .Any, parentIndex := 1 }]
/-- the table of `exampleType` -/
def exT : List FieldDesc :=
  [{ code := .Struct, id := [0x53], mlookup := [([0x61], 2), ([0x61, 0x2e, 0x73], 3), ([0x72], 5), ([0x75], 4), ([0x76], 1)],
     miter := [([0x76], 1), ([0x61], 2), ([0x75], 4), ([0x72], 5)] },
   { code := .Int32, parentIndex := 1 },
   { code := .Struct, mlookup := [([0x73], 1)], miter := [([0x73], 1)], parentIndex := 2 },
   { code := .String, parentIndex := 1 },
   { code := .Union, mlookup := [([0x69], 0), ([0x74], 1)], miter := [([0x69], 0), ([0x74], 1)], parentIndex := 4,
     members := [{ code := .Int32 }, { code := .StringA }] },
   { code := .StructA, parentIndex := 5, members := elemT }]

theorem exT_eq : flat exampleType = exT := rfl

/-- v = -5, a.s = "hi", u selects t = ["a", ""], r = [null, {v: (double) 1.0}]; v and u are marked, and a if `s` -/
def exV (s : Bool) : Val := .mk exT
  [.mk false .null, .mk true (.int (-5)), .mk s .null, .mk false (.str [0x68, 0x69]),
   .mk true (.union 1 (.mk strsT [.mk false (.strs [[0x61], []])])),
   .mk false (.vals [.null, .mk elemT [.mk false .null, .mk true (.any (.mk [{ code := .Float64 }]
     [.mk false (.real 0x3ff0000000000000)]))]])]

theorem exV_ok (s : Bool) : ValOK (exV s) ∧ NoUnionArrays (exV s) ∧ nesting (exV s) = 3 := by
  refine ⟨?_, ?_, by cases s <;> rfl⟩
  · have : Sendable [{ code := .Float64 }] :=
      ⟨{ code := .Float64 }, by simp [Validated, ValidatedAll]; decide, by simp [FitsWire, FitsWireAll],
        by simp [levels, levelsAll], rfl⟩
    simp only [exV, ValOK]
    refine ⟨rfl, rfl, by simp [exT], ?_⟩
    simp [exT, CellsOK, DatumOK, SameElemsOK, AnyOK, ValOK, elemT, this]
    exact ⟨⟨⟨rfl, rfl, by simp [strsT], by simp [strsT, CellsOK, DatumOK]⟩, rfl⟩, rfl, rfl, rfl, rfl⟩
  · simp [exV, exT, NoUnionArrays, NoUnionArraysCells, NoUnionArraysDatum, NoUnionArraysVals, strsT, elemT]

/-! ### C13 -/

/-- Sending a complete value: the peer, which knows the type, obtains a value of the same type with the same content in
every field at every depth (`unmarked` forgets which fields are marked).  The limit `f` is the recursion depth available
to the receiver.  Missing with respect to C13: Union[], see `C13_union_array` and `C13_union_array_flattened`. -/
theorem C13_value_partial (be : Bool) (v : Val) (f : Nat) (c : TypeStore) (ok : ValOK v) (hu : NoUnionArrays v)
    (hf : nesting v ≤ f) : ∃ w, RoundTrips be (putVal v) (getVal f c v.desc) (w, c) ∧ unmarked w = unmarked v := by
  obtain ⟨bs, e, p⟩ := codec_val be f v hf ok
  exact ⟨received v, roundTrips_of e (p f c hf) (good_getVal f c v.desc), unmarked_received v hu ok⟩

example : ∃ v f, ValOK v ∧ NoUnionArrays v ∧ nesting v ≤ f := ⟨exV true, 3, (exV_ok _).1, (exV_ok _).2.1, by rw [(exV_ok _).2.2]; decide⟩

/-- with Union[] too; `received` says exactly what arrives, marks included -/
theorem C13_union_array (be : Bool) (v : Val) (f : Nat) (c : TypeStore) (ok : ValOK v) (hf : nesting v ≤ f) :
    RoundTrips be (putVal v) (getVal f c v.desc) (received v, c) := by
  obtain ⟨bs, e, p⟩ := codec_val be f v hf ok
  exact roundTrips_of e (p f c hf) (good_getVal f c v.desc)

/-- a value sent together with its type (as in an RPC) -/
theorem C13_type_and_value_partial (be : Bool) (v : Val) (f : Nat) (c : TypeStore) (ok : ValOK v) (hu : NoUnionArrays v)
    (hs : Sendable v.desc) (hf : nesting v ≤ f) :
    ∃ w, RoundTrips be (fun o => putVal v (putType v.desc o)) (getTypeAndValue f c) (w, c) ∧ unmarked w = unmarked v := by
  cases v with
  | null => simp only [ValOK] at ok
  | mk t cs =>
    obtain ⟨m, h1, h2, h3, h4⟩ := hs
    have h4' : t = flat m := build_ok m t h4
    subst h4'
    obtain ⟨bs, e, p⟩ := codec_val be f _ hf ok
    have he := encodable_of_validated m h1 h2
    have E := emits_type be m [] he
    rw [List.append_nil] at E
    refine ⟨received (.mk (flat m) cs), roundTrips_of (Emits.comp E e) ?_ (good_getTyped (good_getVal f) c),
      unmarked_received _ hu ok⟩
    refine Parses.bind (parses_type be m 21 c he h3) (parses_failIf _ _ rfl ?_)
    have hne : (flat m).isEmpty = false := by
      cases h : flat m with
      | nil => exact absurd h (flat_ne_nil m)
      | cons a b => rfl
    simp only [hne, Bool.false_eq_true, if_false]
    exact p f c hf

example : Sendable (exV true).desc := by
  obtain ⟨h1, h2, h3, h4⟩ := exampleType_ok
  exact ⟨exampleType, h1, h2, by rw [h4]; decide, build_total _ h1 h3⟩

/-- union[] { int32 a; string b; } -/
def unionT : List FieldDesc :=
  [{ code := .Union, mlookup := [([0x61], 0), ([0x62], 1)], miter := [([0x61], 0), ([0x62], 1)],
     members := [{ code := .Int32 }, { code := .String }] }]
def unionsT : List FieldDesc := [{ code := .UnionA, members := unionT }]

/-- one element, which selects `b` = "x" -/
def unionsV : Val := .mk unionsT [.mk false (.vals [.mk unionT
  [.mk false (.union 1 (.mk [{ code := .String }] [.mk false (.str [0x78])]))]])]

def valCodes : Val → List (List TypeCode)
  | .mk _ [.mk _ (.vals vs)] => vs.map fun v => v.desc.map (·.code)
  | _ => []

/-- C13 does not hold for Union[]: what is received holds strings where the sender has unions, and forwarding what was
received produces a message without selectors, which a third party reads differently (here: it fails) -/
theorem C13_union_array_flattened :
    ValOK unionsV ∧ (RoundTrips true (putVal unionsV) (getVal 3 [] unionsT) (received unionsV, []) ∧
    valCodes unionsV = [[.Union]] ∧ valCodes (received unionsV) = [[.String]] ∧
    (getVal 3 [] unionsT (input true (putVal (received unionsV) (fresh true)).data)).2.err = true) := by
  have ok : ValOK unionsV := by
    simp only [unionsV, ValOK]
    refine ⟨rfl, rfl, by simp [unionsT], ?_⟩
    simp [unionsT, unionT, CellsOK, DatumOK, SameElemsOK, ValOK]
    exact ⟨rfl, rfl, ⟨rfl, rfl⟩, rfl⟩
  refine ⟨ok, C13_union_array true unionsV 3 [] ok (by decide), by rfl, by rfl, by rfl⟩

/-- the elements of a bool[] are copied from the message as they are: a received `bool` may be neither 0 nor 1 -/
theorem C13_bool_array_raw : ∃ bytes : List Byte, (getVal 1 [] [{ code := .BoolA }] (input true bytes)).2 = input true [] ∧
    ∃ b x, (getVal 1 [] [{ code := .BoolA }] (input true bytes)).1.1.cells = [.mk b (.pods [x])] ∧ 2 ≤ x :=
  ⟨[1, 7], by rfl, false, 7, by rfl, by decide⟩

/-! ### C14 -/

/-- An update for a structure of fewer than 2^16 fields: the receiver `ws` of the same type ends up as `ws'`, where
* a field which is neither marked (and within the mask) nor part of a sub-structure which is, is left as it was;
* a field which is has the content sent, and is marked;
* a node which is itself a sub-structure becomes marked exactly if it was marked and selected as such by the sender.
Missing with respect to C14: the content of Union[] fields, which arrives as described by `C13_union_array`. -/
theorem C14_update_partial (be : Bool) (m : Member) (t : List FieldDesc) (cs ws : List Cell) (mask : Option BitMask) (f : Nat)
    (c : TypeStore) (hb : build m = .ok t) (hs : m.code = .Struct) (ht : t.length < 2 ^ 16) (ok : ValOK (.mk t cs))
    (hm : ∀ k, mask = some k → k.size = t.length) (hf : nesting (.mk t cs) ≤ f + 1) (hw : ws.length = t.length) :
    ∃ ws', RoundTrips be (putValid mask (.mk t cs)) (getValid f c (.mk t ws)) (.mk t ws', c) ∧ ws'.length = t.length ∧
      ∀ i d x y, t[i]? = some d → cs[i]? = some x → ws[i]? = some y →
        (¬ Transferred mask t cs i → ws'[i]? = some y) ∧
        (Transferred mask t cs i → d.code ≠ .Struct → ∃ z, ws'[i]? = some (.mk true z) ∧
          (d.code ≠ .UnionA → NoUnionArraysDatum x.data → unmarkedDatum z = unmarkedDatum x.data)) ∧
        (Transferred mask t cs i → d.code = .Struct →
          ∃ b, ws'[i]? = some (.mk b y.data) ∧ (b = true ↔ y.valid = true ∨ Outermost mask t cs i)) := by
  simp only [ValOK] at ok
  obtain ⟨bytes, e, p⟩ := codec_valid be m t cs mask hb hs ht ok.2.2.2 hm
  obtain ⟨ws', h1, h2, h3⟩ := p f c ws (by simp only [nesting] at hf; omega) hw
  refine ⟨ws', roundTrips_of e h1 (good_getValid f c _), h2, ?_⟩
  intro i d x y hd hx hy
  obtain ⟨h4, h5, h6⟩ := h3 i d x y hd hx hy
  refine ⟨h4, fun ht' hc => ⟨_, h5 ht' hc, fun hu hn => ?_⟩, h6⟩
  exact unmarked_receivedDatum d x.data hu hn (cellsOK_get ok.2.2.2 hd hx)

/-- hypotheses are met: v, a (a sub-structure) and u are marked, the mask excludes u -/
example : ∃ m t cs mask, build m = .ok t ∧ m.code = .Struct ∧ t.length < 2 ^ 16 ∧ ValOK (.mk t cs) ∧
    (∀ k, some mask = some k → k.size = t.length) ∧ nesting (.mk t cs) ≤ 2 + 1 ∧
    Transferred (some mask) t cs 3 ∧ ¬ Transferred (some mask) t cs 4 := by
  obtain ⟨h1, h2, h3, h4⟩ := exampleType_ok
  refine ⟨exampleType, exT, (exV true).cells, ⟨[0x2f#64], 6⟩, ?_, rfl, by decide, (exV_ok true).1, ?_, ?_, ?_, ?_⟩
  · rw [← exT_eq]; exact build_total _ h1 h3
  · intro k hk; cases hk; rfl
  · exact Nat.le_of_eq (exV_ok true).2.2
  · refine ⟨2, ⟨⟨_, rfl, rfl⟩, ?_⟩, ⟨_, rfl, by decide, by decide⟩⟩
    intro k hk; cases hk; decide
  · rintro ⟨b, ⟨⟨x, hx, hv⟩, hk⟩, d, hd, hb1, hb2⟩
    have hk := hk _ rfl
    match b with
    | 0 => cases hx; cases hv
    | 1 => cases hd; simp [FieldDesc.size] at hb2
    | 2 => cases hd; simp [FieldDesc.size] at hb2
    | 3 => cases hx; cases hv
    | 4 => revert hk; decide
    | n+5 => omega

/-! ### C06, for values -/

/-- decoding a value of a known type -/
theorem C06_value_inside (f : Nat) (c : TypeStore) (t : List FieldDesc) : StaysInside (getVal f c t) :=
  staysInside_of (good_getVal f c t)

/-- decoding a type and a value of this type -/
theorem C06_typed_value_inside (f : Nat) (c : TypeStore) : StaysInside (getTypeAndValue f c) :=
  staysInside_of (good_getTyped (good_getVal f) c)

/-- decoding an update -/
theorem C06_update_inside (f : Nat) (c : TypeStore) (v : Val) : StaysInside (getValid f c v) :=
  staysInside_of (good_getValid f c v)

/-- The decoder of the model has an explicit recursion depth, the code does not.  A limit above the number of bytes in the
message makes no difference: whatever is decoded with any limit is decoded with this one, to the same result. -/
theorem C06_value_depth (f n : Nat) (c : TypeStore) (t : List FieldDesc) (i : In) (hn : i.rest.length < n)
    (ok : (getVal f c t i).2.err = false) : getVal n c t i = getVal f c t i := getVal_enough n f c t i hn ok

example : ∃ f c t i, (getVal f c t i).2.err = false ∧ i.rest.length = 5 :=
  ⟨1, [], [{ code := .Int32 }], input true [1, 2, 3, 4, 5], by decide, rfl⟩

theorem getVal_any (f : Nat) (c : TypeStore) (be : Bool) (bs : List Byte) :
    getVal (f+1) c [{ code := .Any }] ⟨be, false, 0x82 :: bs⟩ =
      ((.mk [{ code := .Any }] [.mk false (.any (getVal f c [{ code := .Any }] ⟨be, false, bs⟩).1.1)],
        (getVal f c [{ code := .Any }] ⟨be, false, bs⟩).1.2), (getVal f c [{ code := .Any }] ⟨be, false, bs⟩).2) := by
  simp only [getVal, failIf]
  rw [if_neg (by decide)]
  have hT : getTypeTop c ⟨be, false, 0x82 :: bs⟩ = (([{ code := .Any }], c), ⟨be, false, bs⟩) := by
    have he : Encodable { code := .Any } := encodable_of_validated _ (by simp [Validated, ValidatedAll]; decide)
      (by simp [FitsWire, FitsWireAll])
    exact parses_type be { code := .Any } 21 c he (by simp [levels, levelsAll]) bs
  have hn : nodesOf [{ code := .Any }] = [{ code := .Any }] := rfl
  have hk : TypeCode.Any.wireKind = .any := rfl
  have hs : isStruct [{ code := .Any }] = false := rfl
  have hne : TypeCode.Any ≠ .Struct := by decide
  simp [hn, hs, hk, hne, getCells, getCell, getDatum, getTyped, Dec.bind_apply, hT, failIf]

/-- ... and there is no smaller bound: a message of n+1 bytes makes the decoder recurse n+1 levels deep.  The code does
not limit this. -/
theorem C06_depth_unbounded (n : Nat) (be : Bool) (c : TypeStore) :
    ∃ bytes : List Byte, bytes.length = n + 1 ∧ (getVal (n+1) c [{ code := .Any }] (input be bytes)).2 = input be [] ∧
      (getVal n c [{ code := .Any }] (input be bytes)).2.err = true := by
  refine ⟨List.replicate n 0x82 ++ [0xff], by simp, ?_, ?_⟩
  · induction n with
    | zero => rfl
    | succ n ih =>
      rw [List.replicate_succ, List.cons_append]
      show (getVal (n+1+1) c [{ code := .Any }] ⟨be, false, _⟩).2 = _
      rw [getVal_any]
      exact ih
  · induction n with
    | zero => rfl
    | succ n ih =>
      rw [List.replicate_succ, List.cons_append]
      show (getVal (n+1) c [{ code := .Any }] ⟨be, false, _⟩).2.err = true
      rw [getVal_any]
      exact ih

/-! ### C12, the descriptions accepted with duplicate names -/

/-- Whatever was received: a description which the decoder accepts is consistent, or no value of this type can be
constructed (the constructor throws). -/
theorem C12_unusable_or_consistent (msgs : List (Bool × List Byte)) (i : In) (t : List FieldDesc)
    (ht : (getTypeTop (afterMessages [] msgs) i).1.1 = t) (hok : (getTypeTop (afterMessages [] msgs) i).2.err = false)
    (hne : t ≠ []) (hv : ∃ v, newValue t = .ok v) : TableOK t := by
  have hc : ∀ msgs : List (Bool × List Byte), ∀ c, CacheOK c → CacheOK (afterMessages c msgs) := by
    intro msgs
    induction msgs with
    | nil => intro c h; exact h
    | cons m ms ih => intro c h; exact ih _ (getType_sound 21 c _ h).1
  have h0 : CacheOK (afterMessages [] msgs) := hc msgs [] (by intro k t h; simp [TypeStore.find?] at h)
  rcases (getType_sound 21 _ i h0).2 hok with h | ⟨m, hm, h⟩
  · exact absurd (ht.symm.trans h) hne
  · have e : t = flat m := ht.symm.trans h
    subst e
    obtain ⟨v, hv⟩ := hv
    exact tableOK_flat m (full_of_newValue m (by rw [hv]; rfl))

example : ∃ v, newValue exT = .ok v := ⟨_, rfl⟩

/-- ... and never reads outside of the table while checking -/
theorem C12_construct_safe (msgs : List (Bool × List Byte)) (i : In) (t : List FieldDesc)
    (ht : (getTypeTop (afterMessages [] msgs) i).1.1 = t) (hok : (getTypeTop (afterMessages [] msgs) i).2.err = false) :
    newValue t ≠ .ub := by
  have hc : ∀ msgs : List (Bool × List Byte), ∀ c, CacheOK c → CacheOK (afterMessages c msgs) := by
    intro msgs
    induction msgs with
    | nil => intro c h; exact h
    | cons m ms ih => intro c h; exact ih _ (getType_sound 21 c _ h).1
  have h0 : CacheOK (afterMessages [] msgs) := hc msgs [] (by intro k t h; simp [TypeStore.find?] at h)
  rcases (getType_sound 21 _ i h0).2 hok with h | ⟨m, hm, h⟩
  · rw [show t = [] from ht.symm.trans h]; intro h; cases h
  · rw [show t = flat m from ht.symm.trans h]; exact newValue_safe m

end Pvxs.Props
