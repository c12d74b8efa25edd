import Verif.Lemmas.Wire
import Verif.Spec.TypeDesc
/-! Helper lemmas about type descriptions. -/
namespace Pvxs
open Wire Spec

theorem fault_of_err (i : In) (h : i.err = true) : i.fault = i := by
  cases i; simp_all [In.fault]

theorem good_failIf {d : Dec α} (c : Bool) (a : α) (g : Good d) : Good (failIf c a d) := by
  cases c
  · refine Good.congr ?_ (Good.stop a g)
    intro i
    by_cases hi : i.err = true
    · simp [failIf, hi, fault_of_err i hi]
    · simp [failIf, hi]
  · refine Good.congr ?_ (Good.faultWith a)
    intro i; simp [failIf]

theorem good_failWith (a : α) : Good (failWith a) := Good.faultWith a

theorem good_getKids {rec : TypeStore → Dec (List FieldDesc × TypeStore)} (h : ∀ c, Good (rec c)) (n : Nat) :
    ∀ fld kids c, Good (getKids rec n fld kids c) := by
  induction n with
  | zero => intro fld kids c; exact Good.pure _
  | succ n ih =>
    intro fld kids c
    exact Good.bind good_getStr fun name => Good.bind (h c) fun r => good_failIf _ _ (ih _ _ r.2)

theorem good_getTypeBody {rec : TypeStore → Dec (List FieldDesc × TypeStore)} (h : ∀ c, Good (rec c)) (c : TypeStore)
    (code : Byte) : Good (getTypeBody rec c code) := by
  unfold getTypeBody
  refine Good.ite (Good.pure _) (Good.ite ?_ (Good.ite ?_ (Good.ite (good_failWith _)
    (Good.ite ?_ (Good.ite ?_ (Good.ite (Good.pure _) (good_failWith _)))))))
  · refine Good.bind (good_getInt 2) fun key => Good.bind (h c) fun r => good_failIf _ _ ?_
    split <;> exact Good.pure _
  · refine Good.bind (good_getInt 2) fun key => ?_
    split
    · exact good_failWith _
    · exact good_failIf _ _ (Good.pure _)
  · exact Good.bind (h c) fun r => good_failIf _ _ (Good.pure _)
  · exact Good.bind good_getStr fun id => Good.bind (good_getSize false) fun n =>
        Good.bind (good_getKids h n _ _ c) fun r => Good.pure _

theorem good_getType (f : Nat) : ∀ c, Good (getType f c) := by
  induction f with
  | zero => intro c; exact good_failWith _
  | succ f ih =>
    intro c
    exact good_failIf _ _ (Good.bind good_getU8 fun code => good_failIf _ _ (good_getTypeBody ih c code))

/-! ### the table of a definition, in closed form -/

mutual
/-- number of table nodes of a member: a Struct and all its members, otherwise one -/
def count : Member → Nat
  | ⟨code, _, _, ch⟩ => if code = .Struct then 1 + countKids ch else 1
def countKids : List Member → Nat
  | [] => 0
  | m :: ms => count m + countKids ms
end

/-- child list with offsets -/
def kidIter (off : Nat) : List Member → List (Str × Nat)
  | [] => []
  | m :: ms => (m.name, off) :: kidIter (off + count m) ms

mutual
/-- name lookup of the root node of a (non array) member -/
def lookOf : Member → SMap Nat
  | ⟨code, _, _, ch⟩ =>
    if code = .StructA ∨ code = .UnionA then []
    else lookKids (code == .Struct) [] (if code = .Struct then 1 else 0) ch
def lookKids (st : Bool) (ml : SMap Nat) (off : Nat) : List Member → SMap Nat
  | [] => ml
  | m :: ms =>
    lookKids st (if st && m.code == .Struct then
        (lookOf m).foldl (fun ml (p : Str × Nat) => ml.insert (m.name ++ [0x2e] ++ p.1) (off + p.2)) (ml.insert m.name off)
      else ml.insert m.name off) (off + count m) ms
end

def setParent (n : Nat) : List FieldDesc → List FieldDesc
  | [] => []
  | d :: ds => { d with parentIndex := n } :: ds

/-- root node plus nodes of the members -/
def assemble (code : TypeCode) (id : Str) (ch : List Member) (kids : List FieldDesc) : List FieldDesc :=
  if code = .Struct then
    { code := code, id := id, mlookup := lookKids true [] 1 ch, miter := kidIter 1 ch } :: kids
  else
    [{ code := code, id := id, mlookup := lookKids false [] 0 ch, miter := kidIter 0 ch, members := kids }]

mutual
/-- the descriptor table of a member -/
def flat : Member → List FieldDesc
  | ⟨code, _, id, ch⟩ =>
    if code = .StructA ∨ code = .UnionA then
      [{ code := code, members := assemble code.scalarOf id ch (flatKids (code.scalarOf == .Struct) 1 ch) }]
    else assemble code id ch (flatKids (code == .Struct) 1 ch)
/-- nodes of the members; for a Struct each child's root gets its offset as parent index -/
def flatKids (st : Bool) (off : Nat) : List Member → List FieldDesc
  | [] => []
  | m :: ms => (if st then setParent off (flat m) else flat m) ++ flatKids st (off + count m) ms
end

theorem setParent_length (n : Nat) (t : List FieldDesc) : (setParent n t).length = t.length := by
  cases t <;> rfl

mutual
theorem flat_length : ∀ m : Member, (flat m).length = count m
  | ⟨code, name, id, ch⟩ => by
    simp only [flat, count, assemble]
    by_cases h : code = .Struct
    · have h1 : ¬ (code = .StructA ∨ code = .UnionA) := by subst h; decide
      simp only [h, if_true]
      have := flatKids_length true 1 ch
      simp [this]; omega
    · simp only [h, if_false]
      split <;> rfl
theorem flatKids_length : ∀ (st : Bool) (off : Nat) (ms : List Member), (flatKids st off ms).length = countKids ms
  | _, _, [] => rfl
  | st, off, m :: ms => by
    simp only [flatKids, List.length_append, countKids, flatKids_length st _ ms]
    cases st <;> simp [setParent_length, flat_length m]
end

theorem flat_head (m : Member) : ∃ d ds, flat m = d :: ds ∧ d.code = m.code ∧ d.parentIndex = 0 ∧
    (d.code = .Struct → d.mlookup = lookOf m) := by
  obtain ⟨code, name, id, ch⟩ := m
  simp only [flat, assemble]
  by_cases h : code = .StructA ∨ code = .UnionA
  · simp only [h, if_true]
    refine ⟨_, _, rfl, rfl, rfl, ?_⟩
    intro h2; simp only at h2; subst h2; simp at h
  · simp only [h, if_false]
    by_cases hs : code = .Struct
    · simp only [hs, if_true]
      refine ⟨_, _, rfl, rfl, rfl, ?_⟩
      intro _
      simp [lookOf]
    · simp only [hs, if_false]
      exact ⟨_, _, rfl, rfl, rfl, fun h => absurd h hs⟩

theorem flat_ne_nil (m : Member) : flat m ≠ [] := by
  obtain ⟨d, ds, h, _⟩ := flat_head m
  simp [h]

theorem count_pos (m : Member) : 0 < count m := by
  rw [← flat_length]
  exact List.length_pos_iff.mpr (flat_ne_nil m)

/-- one step of the loops, in closed form -/
def stepKid (fld : FieldDesc) (kids : List FieldDesc) (m : Member) : FieldDesc × List FieldDesc :=
  let off := if fld.code = .Struct then kids.length + 1 else kids.length
  ({ fld with
      mlookup := if fld.code == .Struct && m.code == .Struct then
        (lookOf m).foldl (fun ml (p : Str × Nat) => ml.insert (m.name ++ [0x2e] ++ p.1) (off + p.2)) (fld.mlookup.insert m.name off)
      else fld.mlookup.insert m.name off
      miter := fld.miter ++ [(m.name, off)] },
   kids ++ (if fld.code == .Struct then setParent off (flat m) else flat m))

theorem wireKid_flat (fld : FieldDesc) (kids : List FieldDesc) (m : Member) :
    wireKid fld kids m.name (flat m) = stepKid fld kids m := by
  obtain ⟨d, ds, h, hc, hp, hl⟩ := flat_head m
  simp only [wireKid, h, stepKid, ← hc]
  by_cases hs : fld.code = .Struct
  · simp only [hs, if_true, setParent]
    by_cases h2 : d.code = .Struct
    · simp [h2, hl h2]
    · simp [h2, Ne.symm h2]
  · simp [hs]

theorem buildKid_flat (fld : FieldDesc) (kids : List FieldDesc) (m : Member) :
    buildKid fld kids m.name (flat m) = stepKid fld kids m := by
  obtain ⟨d, ds, h, hc, hp, hl⟩ := flat_head m
  simp only [buildKid, h, stepKid, ← hc]
  by_cases hs : fld.code = .Struct
  · simp only [hs, if_true, setParent]
    by_cases h2 : d.code = .Struct
    · simp [h2, hl h2]
    · simp [h2]
  · simp [hs]

def stepKids (fld : FieldDesc) (kids : List FieldDesc) : List Member → FieldDesc × List FieldDesc
  | [] => (fld, kids)
  | m :: ms => stepKids (stepKid fld kids m).1 (stepKid fld kids m).2 ms

theorem stepKids_eq (ms : List Member) : ∀ (fld : FieldDesc) (kids : List FieldDesc) (off : Nat),
    off = (if fld.code = .Struct then kids.length + 1 else kids.length) →
    stepKids fld kids ms =
      ({ fld with mlookup := lookKids (fld.code == .Struct) fld.mlookup off ms, miter := fld.miter ++ kidIter off ms },
       kids ++ flatKids (fld.code == .Struct) off ms) := by
  induction ms with
  | nil => intro fld kids off h; cases fld; simp [stepKids, lookKids, kidIter, flatKids]
  | cons m ms ih =>
    intro fld kids off h
    simp only [stepKids]
    have hlen : (stepKid fld kids m).2.length = kids.length + count m := by
      simp only [stepKid]
      split <;> simp [setParent_length, flat_length]
    have hcode : (stepKid fld kids m).1.code = fld.code := rfl
    rw [ih _ _ (off + count m) (by rw [hcode, hlen, h]; split <;> omega)]
    simp only [hcode]
    simp only [stepKid, ← h, kidIter, flatKids, lookKids, List.append_assoc, List.cons_append, List.nil_append]

theorem flatKids_off (off : Nat) (ms : List Member) : ∀ off', flatKids false off ms = flatKids false off' ms := by
  induction ms generalizing off with
  | nil => intro _; rfl
  | cons m ms ih => intro off'; simp only [flatKids, Bool.false_eq_true, if_false]; rw [ih _ (off' + count m)]

/-- what the loops leave behind, starting from an empty node -/
theorem stepKids_start (code : TypeCode) (id : Str) (ch : List Member) :
    let r := stepKids { code := code, id := id } [] ch
    r.1.code = code ∧
    withKids r.1 r.2 = assemble code id ch (flatKids (code == .Struct) 1 ch) := by
  intro r
  have h := stepKids_eq ch { code := code, id := id } [] (if code = .Struct then 1 else 0) (by simp)
  have hr : r = _ := h
  by_cases hs : code = .Struct
  · subst hs
    simp [hr, assemble, withKids]
  · have : (code == TypeCode.Struct) = false := by simpa using hs
    simp only [hs, if_false, this, hr, assemble, withKids]
    simp [flatKids_off 1 ch 0]

/-! ### build_tree -/

theorem buildFinish_ok {fld : FieldDesc} {kids t : List FieldDesc} (h : buildFinish fld kids = .ok t) :
    t = withKids fld kids := by
  simp only [buildFinish] at h
  split at h
  · simp at h
  · rename_i he
    split at h
    · rw [he]; simpa using h.symm
    · simp at h

theorem Res.bind_eq_ok {x : Res α} {f : α → Res β} {b : β} (h : (x >>= f) = .ok b) : ∃ a, x = .ok a ∧ f a = .ok b := by
  cases x with
  | ok a => exact ⟨a, rfl, h⟩
  | throws w => simp at h
  | ub => simp at h

mutual
theorem build_ok : ∀ (m : Member) (t : List FieldDesc), build m = .ok t → t = flat m
  | ⟨code, name, id, ch⟩, t, h => by
    simp only [build] at h
    split at h
    · rename_i hc
      obtain ⟨_, _, h⟩ := Res.bind_eq_ok h
      obtain ⟨r, h1, h⟩ := Res.bind_eq_ok h
      obtain ⟨next, h2, h⟩ := Res.bind_eq_ok h
      have hk := buildKids_ok _ _ ch r h1
      have hs := stepKids_start code.scalarOf id ch
      simp only at hs
      have hf := buildFinish_ok h2
      rw [hk, hs.2] at hf
      simp only [flat, hc, if_true, ← hf]
      simpa using h.symm
    · rename_i hc
      obtain ⟨r, h1, h⟩ := Res.bind_eq_ok h
      have hk := buildKids_ok _ _ ch r h1
      have hs := stepKids_start code id ch
      simp only at hs
      have hf := buildFinish_ok h
      rw [hk, hs.2] at hf
      simp only [flat, hc, if_false, hf]
theorem buildKids_ok : ∀ (fld : FieldDesc) (kids : List FieldDesc) (ms : List Member) (r : FieldDesc × List FieldDesc),
    buildKids fld kids ms = .ok r → r = stepKids fld kids ms
  | fld, kids, [], r, h => by
    simp only [buildKids, Res.ok.injEq] at h
    exact h.symm
  | fld, kids, m :: ms, r, h => by
    simp only [buildKids] at h
    obtain ⟨sub, h1, h⟩ := Res.bind_eq_ok h
    have e := build_ok m sub h1
    subst e
    rw [buildKid_flat] at h
    exact buildKids_ok _ _ ms r h
end

/-! ### wire form of a definition -/

mutual
/-- the bytes describing a member (without its name) -/
def typeBytes (be : Bool) : Member → List Byte
  | ⟨code, _, id, ch⟩ =>
    if code = .StructA ∨ code = .UnionA then
      code.code :: code.scalarOf.code :: (strBytes be id ++ (sizeBytes be ch.length ++ kidBytes be ch))
    else if code = .Struct ∨ code = .Union then
      code.code :: (strBytes be id ++ (sizeBytes be ch.length ++ kidBytes be ch))
    else [code.code]
def kidBytes (be : Bool) : List Member → List Byte
  | [] => []
  | m :: ms => strBytes be m.name ++ (typeBytes be m ++ kidBytes be ms)
end

mutual
/-- encodable: codes valid, ids and children only where they have a meaning, strings and counts within the wire's range -/
def Encodable : Member → Prop
  | ⟨code, _, id, ch⟩ => code.valid = true ∧
      ((code.scalarOf = .Struct ∨ code.scalarOf = .Union) ∨ (id = [] ∧ ch = [])) ∧
      id.length ≤ 0xffffffff ∧ ch.length ≤ 0xffffffff ∧ EncodableKids ch
def EncodableKids : List Member → Prop
  | [] => True
  | m :: ms => m.name.length ≤ 0xffffffff ∧ Encodable m ∧ EncodableKids ms
end

theorem kidIter_length (off : Nat) (ms : List Member) : (kidIter off ms).length = ms.length := by
  induction ms generalizing off with
  | nil => rfl
  | cons m ms ih => simp [kidIter, ih]

/-- the bits of the parent index do not influence the encoding -/
theorem putType_setParent (n : Nat) (t rest : List FieldDesc) (o : Out) (h : t ≠ []) :
    putType (setParent n t ++ rest) o = putType (t ++ rest) o := by
  cases t with
  | nil => exact absurd rfl h
  | cons d ds =>
    simp only [setParent, List.cons_append]
    rw [putType, putType]

theorem emits_parent (be : Bool) (st : Bool) (off : Nat) (m : Member) (rest : List FieldDesc) (bs : List Byte)
    (h : Emits be (putType (flat m ++ rest)) bs) :
    Emits be (putType ((if st then setParent off (flat m) else flat m) ++ rest)) bs := by
  cases st
  · exact h
  · intro o hb he hr
    simp only [if_true]
    rw [putType_setParent _ _ _ _ (flat_ne_nil m)]
    exact h o hb he hr

theorem valid_cases (c : TypeCode) (hv : c.valid = true) (h : c.scalarOf = .Struct ∨ c.scalarOf = .Union) :
    c = .Struct ∨ c = .Union ∨ c = .StructA ∨ c = .UnionA := by
  have : ∀ n : Fin 256, (⟨UInt8.ofFin n⟩ : TypeCode).valid = true →
      ((⟨UInt8.ofFin n⟩ : TypeCode).scalarOf = .Struct ∨ (⟨UInt8.ofFin n⟩ : TypeCode).scalarOf = .Union) →
      ((⟨UInt8.ofFin n⟩ : TypeCode) = .Struct ∨ (⟨UInt8.ofFin n⟩ : TypeCode) = .Union ∨
       (⟨UInt8.ofFin n⟩ : TypeCode) = .StructA ∨ (⟨UInt8.ofFin n⟩ : TypeCode) = .UnionA) := by decide +kernel
  obtain ⟨b⟩ := c
  have := this b.toFin
  simpa using this (by simpa using hv) (by simpa using h)

theorem struct_ne (c : TypeCode) (h : c = .StructA ∨ c = .UnionA) : c.scalarOf = .Struct ∨ c.scalarOf = .Union := by
  rcases h with h | h <;> subst h <;> decide

mutual
theorem emits_type (be : Bool) : ∀ (m : Member) (rest : List FieldDesc), Encodable m →
    Emits be (putType (flat m ++ rest)) (typeBytes be m)
  | ⟨code, name, id, ch⟩, rest, h => by
    simp only [Encodable] at h
    obtain ⟨hv, hc, hid, hch, hk⟩ := h
    have hst : ∀ rest, Emits be (putType (assemble .Struct id ch (flatKids true 1 ch) ++ rest))
        (0x80 :: (strBytes be id ++ (sizeBytes be ch.length ++ kidBytes be ch))) := by
      intro rest o hb he hr
      have E := Emits.comp (emits_putU8 be 0x80) (Emits.comp (emits_putStr be id hid) (Emits.comp (emits_putSize be _ hch)
        (emits_kids be ch true 1 1 [] rest (flatKids true 1 ch ++ rest) (by simp) (by simp) hk))) o hb he hr
      simp only [assemble, if_true, List.cons_append]
      rw [putType]
      simp only [kidIter_length]
      exact E
    have hun : ∀ rest, Emits be (putType (assemble .Union id ch (flatKids false 1 ch) ++ rest))
        (0x81 :: (strBytes be id ++ (sizeBytes be ch.length ++ kidBytes be ch))) := by
      intro rest o hb he hr
      have E := Emits.comp (emits_putU8 be 0x81) (Emits.comp (emits_putStr be id hid) (Emits.comp (emits_putSize be _ hch)
        (emits_kids be ch false 0 0 [] [] (flatKids false 1 ch) (by simp [flatKids_off 1 ch 0]) (by simp) hk))) o hb he hr
      simp only [assemble]
      rw [if_neg (by decide), List.cons_append, putType]
      simp only [kidIter_length]
      exact E
    by_cases hs : code.scalarOf = .Struct ∨ code.scalarOf = .Union
    · rcases valid_cases code hv hs with h | h | h | h
      · subst h; simpa [flat, typeBytes] using hst rest
      · subst h; simpa [flat, typeBytes, show (TypeCode.Union == TypeCode.Struct) = false by decide] using hun rest
      · subst h
        intro o hb he hr
        have e1 : (TypeCode.StructA).scalarOf = .Struct := by decide
        have E := Emits.comp (emits_putU8 be 0x88) (hst []) o hb he hr
        simp only [flat, e1, typeBytes, true_or, if_true, List.cons_append]
        rw [putType]
        simp only [true_or, if_true]
        rw [if_neg (by simp [assemble])]
        simp only [List.append_nil] at E
        exact E
      · subst h
        intro o hb he hr
        have e1 : (TypeCode.UnionA).scalarOf = .Union := by decide
        have E := Emits.comp (emits_putU8 be 0x89) (hun []) o hb he hr
        simp only [flat, e1, typeBytes, or_true, if_true, List.cons_append]
        rw [putType]
        simp only [or_true, if_true]
        rw [if_neg (by simp [assemble])]
        simp only [List.append_nil] at E
        exact E
    · have h1 : ¬ (code = .StructA ∨ code = .UnionA) := fun h => hs (struct_ne code h)
      have h2 : code ≠ .Struct := by rintro rfl; exact hs (Or.inl (by decide))
      have h3 : code ≠ .Union := by rintro rfl; exact hs (Or.inr (by decide))
      intro o hb he hr
      simp only [flat, h1, if_false, assemble, h2, typeBytes, h3, or_self, List.cons_append]
      rw [putType]
      simp only [h1, h2, h3, if_false]
      exact emits_putU8 be code.code o hb he hr
theorem emits_kids (be : Bool) : ∀ (ms : List Member) (st : Bool) (cref off : Nat) (pre rest base : List FieldDesc),
    base = pre ++ flatKids st off ms ++ rest → off = cref + pre.length → EncodableKids ms →
    Emits be (putTypeKids base cref (kidIter off ms)) (kidBytes be ms)
  | [], st, cref, off, pre, rest, base, hb0, ho, h => by
    intro o hb he hr
    simp only [kidIter]
    rw [putTypeKids]
    exact Emits.id be o hb he hr
  | m :: ms, st, cref, off, pre, rest, base, hb0, ho, h => by
    simp only [EncodableKids] at h
    obtain ⟨hn, hm, hms⟩ := h
    have hlen : (if st then setParent off (flat m) else flat m).length = count m := by
      cases st <;> simp [setParent_length, flat_length]
    have hpos := count_pos m
    have E1 := emits_parent be st off m (flatKids st (off + count m) ms ++ rest) _
      (emits_type be m (flatKids st (off + count m) ms ++ rest) hm)
    have E2 := emits_kids be ms st cref (off + count m) (pre ++ (if st then setParent off (flat m) else flat m)) rest base
      (by rw [hb0]; simp [flatKids]) (by simp only [List.length_append, hlen]; omega) hms
    have hoff : off - cref = pre.length := by omega
    have hdrop : base.drop (off - cref) = (if st then setParent off (flat m) else flat m) ++ (flatKids st (off + count m) ms ++ rest) := by
      rw [hoff, hb0]; simp [flatKids]
    have hbl : ¬ (off < cref ∨ base.length ≤ off - cref) := by
      rw [hoff, hb0]; simp only [flatKids, List.length_append, hlen]; omega
    intro o hb he hr
    have E := Emits.comp (emits_putStr be m.name hn) (Emits.comp E1 E2) o hb he hr
    simp only [kidIter]
    rw [putTypeKids]
    simp only [hbl, if_false, hdrop]
    exact E
end

theorem Wire.Parses.bind {be : Bool} {d : Dec α} {f : α → Dec β} {bs bs' : List Byte} {a : α} {b : β}
    (h1 : Parses be d bs a) (h2 : Parses be (f a) bs' b) : Parses be (d >>= f) (bs ++ bs') b := by
  intro rest
  rw [Dec.bind_apply, List.append_assoc, h1]
  exact h2 rest

theorem Wire.Parses.pure (be : Bool) (a : α) : Parses be (Pure.pure a) [] a := fun _ => rfl

theorem Wire.Parses.map {be : Bool} {d : Dec α} {bs : List Byte} {a : α} (h : Parses be d bs a) (g : α → β) :
    Parses be (d >>= fun r => Pure.pure (g r)) bs (g a) := by
  have := Parses.bind (f := fun r => Pure.pure (g r)) h (Parses.pure be (g a))
  simpa using this

theorem Wire.Parses.bind0 {be : Bool} {d : Dec α} {f : α → Dec β} {bs : List Byte} {a : α} {b : β}
    (h1 : Parses be d bs a) (h2 : Parses be (f a) [] b) : Parses be (d >>= f) bs b := by
  have := Parses.bind h1 h2
  simpa using this

theorem parses_failIf {be : Bool} {d : Dec α} {bs : List Byte} {a : α} (a' : α) (c : Bool) (hc : c = false)
    (h : Parses be d bs a) : Parses be (failIf c a' d) bs a := by
  intro rest
  subst hc
  simpa [failIf] using h rest

theorem parses_code {be : Bool} {f : Nat} {c : TypeStore} {code : Byte} {bs : List Byte} {r : List FieldDesc × TypeStore}
    (h : Parses be (getTypeBody (getType f) c code) bs r) : Parses be (getType (f+1) c) (code :: bs) r :=
  parses_failIf _ _ rfl (Parses.bind (parses_getU8 be code) (parses_failIf _ _ rfl h))

theorem simple_valid (c : TypeCode) (hv : c.valid = true) (h : ¬ (c.scalarOf = .Struct ∨ c.scalarOf = .Union)) :
    c.code ≠ 0xff ∧ c.code ≠ 0xfd ∧ c.code ≠ 0xfe ∧ c.code &&& 0x10 = 0 ∧ ¬ (c.code = 0x88 ∨ c.code = 0x89) ∧
    ¬ (c.code = 0x80 ∨ c.code = 0x81) ∧ c.scalarOf ∈ simpleCodes := by
  have key : ∀ n : Fin 256, (⟨UInt8.ofFin n⟩ : TypeCode).valid = true →
      ¬ ((⟨UInt8.ofFin n⟩ : TypeCode).scalarOf = .Struct ∨ (⟨UInt8.ofFin n⟩ : TypeCode).scalarOf = .Union) →
      ((⟨UInt8.ofFin n⟩ : TypeCode).code ≠ 0xff ∧ (⟨UInt8.ofFin n⟩ : TypeCode).code ≠ 0xfd ∧
       (⟨UInt8.ofFin n⟩ : TypeCode).code ≠ 0xfe ∧ (⟨UInt8.ofFin n⟩ : TypeCode).code &&& 0x10 = 0 ∧
       ¬ ((⟨UInt8.ofFin n⟩ : TypeCode).code = 0x88 ∨ (⟨UInt8.ofFin n⟩ : TypeCode).code = 0x89) ∧
       ¬ ((⟨UInt8.ofFin n⟩ : TypeCode).code = 0x80 ∨ (⟨UInt8.ofFin n⟩ : TypeCode).code = 0x81) ∧
       (⟨UInt8.ofFin n⟩ : TypeCode).scalarOf ∈ simpleCodes) := by decide +kernel
  obtain ⟨b⟩ := c
  have := key b.toFin
  simpa using this (by simpa using hv) (by simpa using h)

mutual
theorem parses_type (be : Bool) : ∀ (m : Member) (f : Nat) (c : TypeStore), Encodable m → levels m ≤ f →
    Parses be (getType f c) (typeBytes be m) (flat m, c)
  | ⟨code, name, id, ch⟩, f, c, h, hf => by
    simp only [Encodable] at h
    obtain ⟨hv, hc, hid, hch, hk⟩ := h
    simp only [levels] at hf
    have comp : ∀ (cd : TypeCode) (f : Nat), levelsAll ch ≤ f →
        Parses be (getTypeCompound (getType f) cd c) (strBytes be id ++ (sizeBytes be ch.length ++ kidBytes be ch))
          (assemble cd id ch (flatKids (cd == .Struct) 1 ch), c) := by
      intro cd f hf
      have hs := stepKids_start cd id ch
      simp only at hs
      rw [← hs.2]
      unfold getTypeCompound
      refine Parses.bind (parses_getStr be id hid) (Parses.bind (parses_getSize be false _ hch) ?_)
      exact Parses.map (parses_kids be ch f { code := cd, id := id } [] c hk hf) _
    by_cases hs : code.scalarOf = .Struct ∨ code.scalarOf = .Union
    · rcases valid_cases code hv hs with h | h | h | h
      · subst h
        obtain ⟨f, rfl⟩ : ∃ g, f = g + 1 := ⟨f - 1, by simp at hf; omega⟩
        exact parses_code (code := 0x80) (comp .Struct f (by simp at hf; omega))
      · subst h
        obtain ⟨f, rfl⟩ : ∃ g, f = g + 1 := ⟨f - 1, by simp at hf; omega⟩
        exact parses_code (code := 0x81) (comp .Union f (by simp at hf; omega))
      · subst h
        obtain ⟨f, rfl⟩ : ∃ g, f = g + 2 := ⟨f - 2, by simp at hf; omega⟩
        refine parses_code (code := 0x88) ?_
        have P := parses_code (code := 0x80) (comp .Struct f (by simp at hf; omega))
        show Parses be (getTypeArr (getType (f+1)) .StructA c) _ _
        unfold getTypeArr
        refine Parses.bind0 P (parses_failIf _ _ ?_ (Parses.pure be _))
        simp [assemble, wrongElem]; decide
      · subst h
        obtain ⟨f, rfl⟩ : ∃ g, f = g + 2 := ⟨f - 2, by simp at hf; omega⟩
        refine parses_code (code := 0x89) ?_
        have P := parses_code (code := 0x81) (comp .Union f (by simp at hf; omega))
        show Parses be (getTypeArr (getType (f+1)) .UnionA c) _ _
        unfold getTypeArr
        refine Parses.bind0 P (parses_failIf _ _ ?_ (Parses.pure be _))
        simp [assemble, wrongElem]; decide
    · have h1 : ¬ (code = .StructA ∨ code = .UnionA) := fun h => hs (struct_ne code h)
      have h2 : code ≠ .Struct := by rintro rfl; exact hs (Or.inl (by decide))
      have h3 : code ≠ .Union := by rintro rfl; exact hs (Or.inr (by decide))
      obtain ⟨f, rfl⟩ : ∃ g, f = g + 1 := ⟨f - 1, by simp only [h1, if_false] at hf; omega⟩
      obtain ⟨hid0, hch0⟩ := hc.resolve_left hs
      obtain ⟨a1, a2, a3, a4, a5, a6, a7⟩ := simple_valid code hv hs
      subst hid0; subst hch0
      simp only [flat, h1, if_false, assemble, h2, typeBytes, h3, or_self, flatKids, lookKids, kidIter]
      refine parses_code ?_
      simp only [getTypeBody, a1, a2, a3, a4, a5, a6, a7, if_false, ne_eq, not_true]
      exact Parses.pure be _
theorem parses_kids (be : Bool) : ∀ (ms : List Member) (f : Nat) (fld : FieldDesc) (kids : List FieldDesc) (c : TypeStore),
    EncodableKids ms → levelsAll ms ≤ f →
    Parses be (getKids (getType f) ms.length fld kids c) (kidBytes be ms) (stepKids fld kids ms, c)
  | [], f, fld, kids, c, h, hf => Parses.pure be _
  | m :: ms, f, fld, kids, c, h, hf => by
    simp only [EncodableKids] at h
    obtain ⟨hn, hm, hms⟩ := h
    simp only [levelsAll] at hf
    have P2 := parses_kids be ms f (stepKid fld kids m).1 (stepKid fld kids m).2 c hms (by omega)
    rw [← wireKid_flat fld kids m] at P2
    rw [stepKids, ← wireKid_flat fld kids m]
    have P1 := parses_type be m f c hm (by omega)
    exact Parses.bind (parses_getStr be m.name hn) (Parses.bind P1 (parses_failIf ((fld, kids), c) (flat m).isEmpty
      (by simp [flat_ne_nil]) P2))
end

end Pvxs
