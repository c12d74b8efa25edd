import Verif.Lemmas.Iterate
namespace Pvxs
open Wire Spec

/-! ### names -/

theorem entry_exists (m : Member) : Full m → m.code = .Struct → ∀ j, 1 ≤ j → j ≤ countKids m.children → ∃ k, (k, j) ∈ lookOf m := by
  induction m using Member.ind with
  | h m ih =>
    intro hf hs j h1 h2
    obtain ⟨o, c, hk, h3, h4⟩ := flatKids_node (off := 1) (show j - 1 < countKids m.children by omega)
    by_cases hj : j = o
    · exact ⟨c.name, (hf.mem hs _).mpr (mem_allEntries.mpr ⟨o, c, hk, mem_kidEntries.mpr (Or.inl (by rw [hj]))⟩)⟩
    · have hcs : c.code = .Struct := by
        refine Classical.byContradiction fun h => ?_
        rw [count_other c h] at h4; omega
      rw [count_struct c hcs] at h4
      obtain ⟨k, hk'⟩ := ih c hk.mem ((hf.entries hs).2.2 c hk.mem) hcs (j - o) (by omega) (by omega)
      refine ⟨c.name ++ [0x2e] ++ k, (hf.mem hs _).mpr (mem_allEntries.mpr ⟨o, c, hk, mem_kidEntries.mpr (Or.inr ⟨hcs, k, j - o, hk', ?_⟩)⟩)⟩
      rw [show o + (j - o) = j by omega]

theorem embeds_mem {s T : List FieldDesc} {b : Nat} (he : Embeds s T b) {d : FieldDesc} (hd : d ∈ s) : ∃ d' ∈ T, d'.miter = d.miter := by
  obtain ⟨k, hk, hk'⟩ := List.getElem_of_mem hd
  obtain ⟨n, hn⟩ := he.get k d (by rw [List.getElem?_eq_getElem hk, hk'])
  exact ⟨_, List.mem_of_getElem? hn, rfl⟩

theorem plain_sub {s T : List FieldDesc} {b : Nat} (he : Embeds s T b) (h : PlainNames T) : PlainNames s := by
  intro d hd
  obtain ⟨d', h1, h2⟩ := embeds_mem he hd
  rw [← h2]; exact h d' h1

theorem endsName_false {c : Byte} : endsName c = false ↔ c ≠ 0x3c ∧ c ≠ 0x5b ∧ c ≠ 0x2d := by
  simp only [endsName, Bool.or_eq_false_iff, beq_eq_false_iff_ne]
  exact ⟨fun h => ⟨h.1.1, h.1.2, h.2⟩, fun h => ⟨⟨h.1, h.2.1⟩, h.2.2⟩⟩

theorem lookup_plain (m : Member) : Full m → m.code = .Struct → PlainNames (flat m) → ∀ p ∈ lookOf m, p.1.any endsName = false := by
  induction m using Member.ind with
  | h m ih =>
    intro hf hs hp p hmem
    obtain ⟨o, c, hk, hq⟩ := mem_allEntries.mp ((hf.mem hs _).mp hmem)
    have hname : c.name.any endsName = false := by
      rw [List.any_eq_false]
      intro x hx
      have := hp (structRoot m) (by rw [flat_struct m hs]; simp) (c.name, o) (mem_kidIter.mpr ⟨c, hk, rfl⟩) x hx
      rw [Bool.not_eq_true]
      exact endsName_false.mpr this
    rcases mem_kidEntries.mp hq with rfl | ⟨hcs, k, x, hkx, rfl⟩
    · exact hname
    · have := ih c hk.mem ((hf.entries hs).2.2 c hk.mem) hcs (plain_sub (embeds_child hs hk) hp) _ hkx
      simp only [List.any_append, hname, Bool.false_or]
      simp only [this, Bool.or_false]
      decide

theorem name_roundtrip {m : Member} (hf : Full m) (hs : m.code = .Struct) (hp : PlainNames (flat m)) {j : Nat} (h1 : 1 ≤ j) (h2 : j < count m) :
    ∃ name, nameOf (flat m) j = .ok name ∧ findField (flat m) name = .ok (some j) := by
  rw [count_struct m hs] at h2
  obtain ⟨k, hk⟩ := entry_exists m hf hs j h1 (by omega)
  have hlen := hf hs
  rw [flat_struct m hs]
  have hfind : ∃ p, List.find? (fun p => p.2 == j) (lookOf m) = some p := by
    cases h : List.find? (fun p => p.2 == j) (lookOf m) with
    | some p => exact ⟨p, rfl⟩
    | none =>
      rw [List.find?_eq_none] at h
      exact absurd (show ((k, j) : Str × Nat).2 == j by simp) (h _ hk)
  obtain ⟨p, hpf⟩ := hfind
  have hpm := List.mem_of_find?_eq_some hpf
  have hpj : p.2 = j := by
    have := List.find?_some hpf
    simpa using this
  refine ⟨p.1, ?_, ?_⟩
  · show (if j = 0 ∨ (structRoot m).mlookup.length < j then _ else _) = _
    rw [if_neg (by show ¬ (j = 0 ∨ (lookOf m).length < j); omega)]
    show (match List.find? (fun p => p.2 == j) (lookOf m) with | none => _ | some p => Res.ok p.1) = _
    rw [hpf]
  · simp only [findField]
    rw [lookup_plain m hf hs hp p hpm]
    simp only [Bool.false_eq_true, if_false]
    show Res.ok (SMap.find? p.1 (lookOf m)) = _
    rw [(SMap.find?_some (lookOf_sorted m)).mpr (show (p.1, j) ∈ lookOf m by rw [← hpj]; exact hpm)]

/-! ### content -/

theorem copyScalar_same (env : CopyEnv) (d : FieldDesc) (x : Datum) (ok : DatumOK d x)
    (hk : (match d.code.wireKind with | .f64 | .f32 | .int _ | .uint _ | .bool | .str => true | _ => false) = true) :
    copyScalar env d.code d.code x = .ok x := by
  cases x with
  | real b =>
    simp only [DatumOK] at ok
    rcases ok with ⟨h, _⟩ | ⟨h, f, hf, hn, rfl⟩
    · simp [copyScalar, h, TypeCode.wireKind]
    · simp [copyScalar, h, TypeCode.wireKind]
      rw [narrow_widen f hf hn]
  | int v =>
    simp only [DatumOK] at ok
    rcases ok with ⟨h, h1, h2⟩ | ⟨h, h1, h2⟩ | ⟨h, h1, h2⟩ | ⟨h, h1, h2⟩ <;>
      (simp [copyScalar, h, TypeCode.wireKind]; rw [intOf_intBits _ _ (by omega) (by omega)])
  | uint v =>
    simp only [DatumOK] at ok
    rcases ok with ⟨h, h1⟩ | ⟨h, h1⟩ | ⟨h, h1⟩ | ⟨h, h1⟩ <;>
      (simp [copyScalar, h, TypeCode.wireKind]; omega)
  | bool b =>
    simp only [DatumOK] at ok
    simp [copyScalar, ok, TypeCode.wireKind]
  | str s =>
    simp only [DatumOK] at ok
    simp [copyScalar, ok.1, TypeCode.wireKind]
  | null => simp only [DatumOK] at ok; simp [ok, TypeCode.wireKind] at hk
  | unionNull => simp only [DatumOK] at ok; simp [ok, TypeCode.wireKind] at hk
  | union i v => simp only [DatumOK] at ok; simp [ok.1, TypeCode.wireKind] at hk
  | any v => simp only [DatumOK] at ok; simp [ok.1, TypeCode.wireKind] at hk
  | strs v => simp only [DatumOK] at ok; simp [ok.1, TypeCode.wireKind] at hk
  | pods vs =>
    simp only [DatumOK] at ok
    rcases ok with ⟨_, ⟨h, _⟩ | ⟨h | h, _⟩ | ⟨h | h, _⟩ | ⟨h | h | h, _⟩ | ⟨h | h | h, _⟩⟩ <;> simp [h, TypeCode.wireKind] at hk
  | vals vs =>
    simp only [DatumOK] at ok
    rcases ok with ⟨_, ⟨h, _⟩ | ⟨h, _⟩ | ⟨h, _⟩⟩ <;> simp [h, TypeCode.wireKind] at hk

theorem copyArray_same (env : CopyEnv) (rec : Assign) (d : FieldDesc) (x : Datum) (ok : DatumOK d x) (hw : CopiesWhole env d x)
    (hk : (match x with | .pods _ | .strs _ | .vals _ => true | _ => false) = true) :
    copyArray env rec d d.code x = .ok x := by
  cases x with
  | pods vs =>
    have hi : initDatum d.code = .pods [] := by
      simp only [DatumOK] at ok
      rcases ok with ⟨_, ⟨h, _⟩ | ⟨h | h, _⟩ | ⟨h | h, _⟩ | ⟨h | h | h, _⟩ | ⟨h | h | h, _⟩⟩ <;> simp [h, TypeCode.wireKind, initDatum]
    cases vs with
    | nil => simp [copyArray, emptyArray, hi]
    | cons v vs => simp [copyArray, emptyArray]
  | strs vs =>
    have hi : initDatum d.code = .strs [] := by
      simp only [DatumOK] at ok
      simp [ok.1, TypeCode.wireKind, initDatum]
    cases vs with
    | nil => simp [copyArray, emptyArray, hi]
    | cons v vs => simp [copyArray, emptyArray]
  | vals vs =>
    simp only [DatumOK] at ok
    have hc : d.code = .StructA ∨ d.code = .UnionA ∨ d.code = .AnyA := by
      rcases ok with ⟨_, ⟨h, _⟩ | ⟨h, _⟩ | ⟨h, _⟩⟩ <;> simp [h]
    have hi : initDatum d.code = .vals [] := by
      rcases hc with h | h | h <;> simp [h, TypeCode.wireKind, initDatum]
    cases vs with
    | nil => simp [copyArray, emptyArray, hi]
    | cons v vs =>
      have hn : needConvert env d (v :: vs) = false := by
        simp only [needConvert]
        by_cases ha : d.code = .AnyA
        · simp [ha]
        · have : (d.code != .AnyA) = true := by simpa using ha
          rw [this, Bool.true_and, List.any_eq_false]
          intro u hu
          cases u with
          | null => simp
          | mk t cs => simp [hw.2 _ rfl ha t cs hu]
      simp only [copyArray, emptyArray, Bool.false_eq_true, if_false]
      rw [if_pos hc, hn]
      rfl
  | _ => simp at hk

theorem copyDatum_same (env : CopyEnv) (rec : Assign) (d : FieldDesc) (old x : Datum) (ok : DatumOK d x) (hs : d.code ≠ .Struct)
    (hw : CopiesWhole env d x) : copyDatum env rec d old d.code x = .ok x := by
  have hu := hw.1
  cases x with
  | null => simp only [DatumOK] at ok; exact absurd ok hs
  | unionNull => simp only [DatumOK] at ok; exact absurd ok hu
  | union i v => simp only [DatumOK] at ok; exact absurd ok.1 hu
  | any v => simp only [DatumOK] at ok; simp [copyDatum, ok.1, TypeCode.wireKind, heldBy]
  | pods vs =>
    have := copyArray_same env rec d _ ok hw rfl
    simp only [DatumOK] at ok
    rcases ok with ⟨_, ⟨h, _⟩ | ⟨h | h, _⟩ | ⟨h | h, _⟩ | ⟨h | h | h, _⟩ | ⟨h | h | h, _⟩⟩ <;>
      (simp only [copyDatum]; simp only [h, TypeCode.wireKind] at this ⊢; exact this)
  | strs vs =>
    have := copyArray_same env rec d _ ok hw rfl
    simp only [DatumOK] at ok
    rw [copyDatum, show d.code.wireKind = .strs by simp [ok.1, TypeCode.wireKind]]; exact this
  | vals vs =>
    have := copyArray_same env rec d _ ok hw rfl
    simp only [DatumOK] at ok
    rcases ok with ⟨_, ⟨h, _⟩ | ⟨h, _⟩ | ⟨h, _⟩⟩
    · rw [copyDatum, show d.code.wireKind = .structs by simp [h, TypeCode.wireKind]]; exact this
    · rw [copyDatum, show d.code.wireKind = .unions by simp [h, TypeCode.wireKind]]; exact this
    · rw [copyDatum, show d.code.wireKind = .anys by simp [h, TypeCode.wireKind]]; exact this
  | real b =>
    have h2 := copyScalar_same env d _ ok
    simp only [DatumOK] at ok
    rcases ok with ⟨h, _⟩ | ⟨h, _⟩ <;>
    · have := h2 (by simp [h, TypeCode.wireKind])
      simp only [copyDatum, h, TypeCode.wireKind] at this ⊢
      exact this
  | int b =>
    have h2 := copyScalar_same env d _ ok
    simp only [DatumOK] at ok
    rcases ok with ⟨h, _⟩ | ⟨h, _⟩ | ⟨h, _⟩ | ⟨h, _⟩ <;>
    · have := h2 (by simp [h, TypeCode.wireKind])
      simp only [copyDatum, h, TypeCode.wireKind] at this ⊢
      exact this
  | uint b =>
    have h2 := copyScalar_same env d _ ok
    simp only [DatumOK] at ok
    rcases ok with ⟨h, _⟩ | ⟨h, _⟩ | ⟨h, _⟩ | ⟨h, _⟩ <;>
    · have := h2 (by simp [h, TypeCode.wireKind])
      simp only [copyDatum, h, TypeCode.wireKind] at this ⊢
      exact this
  | bool b =>
    have h2 := copyScalar_same env d _ ok
    simp only [DatumOK] at ok
    have := h2 (by simp [ok, TypeCode.wireKind])
    simp only [copyDatum, ok, TypeCode.wireKind] at this ⊢
    exact this
  | str b =>
    have h2 := copyScalar_same env d _ ok
    simp only [DatumOK] at ok
    have := h2 (by simp [ok.1, TypeCode.wireKind])
    simp only [copyDatum, ok.1, TypeCode.wireKind] at this ⊢
    exact this

/-! ### the loop over marked fields -/

/-- what a covered field becomes -/
def newCell (t : List FieldDesc) (scs : List Cell) (k : Nat) (old : Cell) : Cell :=
  match t[k]? with
  | some d => if d.code = .Struct then .mk true old.data else .mk true (datumAt scs k)
  | none => old

theorem cellsOK_all : ∀ {t : List FieldDesc} {cs : List Cell}, CellsOK t cs → cs.length = t.length ∧
    ∀ {k : Nat} {d : FieldDesc}, t[k]? = some d → ∃ c : Cell, cs[k]? = some c ∧ DatumOK d c.data := by
  intro t
  induction t with
  | nil => intro cs h; cases cs with
    | nil => simp
    | cons c cs => simp [CellsOK] at h
  | cons d t ih =>
    intro cs h
    cases cs with
    | nil => simp [CellsOK] at h
    | cons c cs =>
      cases c with
      | mk v x =>
        simp only [CellsOK] at h
        obtain ⟨h1, h2⟩ := ih h.2
        refine ⟨by simp [h1], fun {k d'} hk => ?_⟩
        cases k with
        | zero => simp at hk; subst hk; exact ⟨_, rfl, h.1⟩
        | succ k => simp at hk; simpa using h2 hk

theorem datumAt_eq {cs : List Cell} {k : Nat} {c : Cell} (h : cs[k]? = some c) : datumAt cs k = c.data := by simp [datumAt, h]

theorem copyFields_spec (env : CopyEnv) (rec : Assign) {m : Member} (hf : Full m) (hs : m.code = .Struct) (hp : PlainNames (flat m))
    {scs : List Cell} (ok : CellsOK (flat m) scs) :
    ∀ (js : List Nat) (cs : List Cell), js.Pairwise (· < ·) → cs.length = (flat m).length →
      (∀ j ∈ js, 1 ≤ j ∧ j < count m ∧ ∀ d, (flat m)[j]? = some d → d.code ≠ .Struct → CopiesWhole env d (datumAt scs j)) →
      ∃ r, copyFields env rec (flat m) scs (flat m) js cs = .ok r ∧ r.length = cs.length ∧
        ∀ k, r[k]? = if k ∈ js then (cs[k]?).map (newCell (flat m) scs k) else cs[k]? := by
  intro js
  induction js with
  | nil => intro cs _ _ _; exact ⟨cs, rfl, rfl, fun k => by simp⟩
  | cons j js ih =>
    intro cs hsort hlen hjs
    rw [List.pairwise_cons] at hsort
    obtain ⟨h1, h2, h3⟩ := hjs j (by simp)
    obtain ⟨name, hn1, hn2⟩ := name_roundtrip hf hs hp h1 h2
    have hjl : j < (flat m).length := by rw [flat_length]; exact h2
    have hd : (flat m)[j]? = some ((flat m)[j]'hjl) := List.getElem?_eq_getElem hjl
    generalize hde : (flat m)[j]'hjl = d at hd
    obtain ⟨sc, hsc, hdok⟩ := (cellsOK_all ok).2 hd
    have hcl : j < cs.length := by rw [hlen]; exact hjl
    have hc : cs[j]? = some (cs[j]'hcl) := List.getElem?_eq_getElem hcl
    generalize cs[j]'hcl = c at hc
    have step : ∃ r, copyField env rec (flat m) scs (flat m) cs j = .ok r ∧ r = cs.set j (newCell (flat m) scs j c) := by
      refine ⟨_, ?_, rfl⟩
      simp only [copyField, hn1, hn2, Res.bind_ok, hd]
      by_cases hds : d.code = .Struct
      · rw [if_pos hds]
        simp only [markCell, newCell, hd, hds, if_true, hc]
        cases c; rfl
      · rw [if_neg hds]
        rw [datumAt_eq hsc] at h3 ⊢
        rw [copyDatum_same env rec d _ _ hdok hds (h3 d hd hds)]
        simp only [Res.bind_ok, storeCell, newCell, hd, hds, if_false, datumAt_eq hsc]
    obtain ⟨r1, hr1, hr2⟩ := step
    obtain ⟨r, h4, h5, h6⟩ := ih r1 hsort.2 (by rw [hr2]; simpa using hlen) (fun k hk => hjs k (by simp [hk]))
    refine ⟨r, ?_, by rw [h5, hr2]; simp, fun k => ?_⟩
    · simp only [copyFields, hr1, Res.bind_ok, h4]
    · rw [h6, hr2]
      by_cases hkj : k = j
      · subst hkj
        have : k ∉ js := fun hk => Nat.lt_irrefl _ (hsort.1 k hk)
        rw [if_neg this, if_pos (by simp), List.getElem?_set, hc]
        simp [hcl]
      · have e : (cs.set j (newCell (flat m) scs j c))[k]? = cs[k]? := by
          rw [List.getElem?_set]; simp [Ne.symm hkj]
        rw [e]
        simp [hkj]

theorem validAt_eq {cs : List Cell} {k : Nat} {c : Cell} (h : cs[k]? = some c) : validAt cs k = c.valid := by simp [validAt, h]

theorem flat_root {m : Member} (hs : m.code = .Struct) : (flat m)[0]? = some (structRoot m) := by rw [flat_struct m hs]; rfl

open Classical in
theorem assign_spec (env : CopyEnv) (n : Nat) {m : Member} (hf : Full m) (hs : m.code = .Struct) (hp : PlainNames (flat m))
    {cs scs : List Cell} (hlen : cs.length = (flat m).length) (ok : CellsOK (flat m) scs)
    (hw : ∀ j d, CoveredBelow (flat m) (validAt scs) 0 j → (flat m)[j]? = some d → d.code ≠ .Struct → CopiesWhole env d (datumAt scs j)) :
    ∃ r, assign env (n+1) (.mk (flat m) cs) (.mk (flat m) scs) = .ok (.mk (flat m) r) ∧ r.length = cs.length ∧
      ∀ k c, cs[k]? = some c → r[k]? = some
        (if CoveredBelow (flat m) (validAt scs) 0 k then newCell (flat m) scs k c
         else if k = 0 then .mk (c.valid || validAt scs 0) c.data else c) := by
  obtain ⟨hm1, hm2⟩ := imarked_spec hf (flat_root hs) rfl (validAt scs)
  have pos : ∀ j, CoveredBelow (flat m) (validAt scs) 0 j → 1 ≤ j ∧ j < count m := by
    rintro j ⟨b, hb0, ⟨d, hd, hb1, hb2⟩, hb3, x, hx, hb4, hb5⟩
    refine ⟨by omega, ?_⟩
    have := (nodeOK_flat m hf b x hx).inside
    rw [flat_length] at this; omega
  obtain ⟨r, h1, h2, h3⟩ := copyFields_spec env (assign env n) hf hs hp ok _ cs hm2 hlen
    (fun j hj => by
      have hc := (hm1 j).mp hj
      exact ⟨(pos j hc).1, (pos j hc).2, fun d hd hds => hw j d hc hd hds⟩)
  refine ⟨if validAt scs 0 then markCell r 0 else r, ?_, ?_, ?_⟩
  · have e : flat m = structRoot m :: flatKids true 1 m.children := flat_struct m hs
    have key : ∀ (t : List FieldDesc), t = flat m → t = structRoot m :: flatKids true 1 m.children →
        assign env (n+1) (.mk t cs) (.mk t scs) = .ok (.mk t (if validAt scs 0 then markCell r 0 else r)) := by
      intro t ht ht'
      rw [← ht] at h1
      subst ht'
      simp only [assign]
      rw [if_pos (show (structRoot m).code = .Struct from rfl), if_pos (show (structRoot m).code = .Struct from rfl), h1]
      rfl
    exact key _ rfl e
  · split
    · rw [← h2]; simp only [markCell]; split <;> simp
    · exact h2
  · intro k c hk
    have hr := h3 k
    rw [hk] at hr
    have hr' : r[k]? = some (if CoveredBelow (flat m) (validAt scs) 0 k then newCell (flat m) scs k c else c) := by
      rw [hr]
      by_cases hc : CoveredBelow (flat m) (validAt scs) 0 k
      · rw [if_pos ((hm1 k).mpr hc), if_pos hc]; rfl
      · rw [if_neg (fun h => hc ((hm1 k).mp h)), if_neg hc]
    by_cases hk0 : k = 0
    · subst hk0
      have hnc : ¬ CoveredBelow (flat m) (validAt scs) 0 0 := fun h => by have := (pos 0 h).1; omega
      rw [if_neg hnc] at hr' ⊢
      simp only [if_true]
      cases hv : validAt scs 0 with
      | true =>
        simp only [if_true, markCell, hr']
        cases c
        simp only [Cell.data, Bool.or_true]
        rw [List.getElem?_set]
        have : 0 < r.length := (List.getElem?_eq_some_iff.mp hr').1
        simp [this]
      | false =>
        simp only [Bool.false_eq_true, if_false, hr', Bool.or_false]
        cases c; rfl
    · rw [if_neg hk0]
      have e : (if validAt scs 0 = true then markCell r 0 else r)[k]? = r[k]? := by
        split
        · simp only [markCell]
          split
          · rw [List.getElem?_set]; simp [Ne.symm hk0]
          · rfl
        · rfl
      rw [e, hr']

end Pvxs
namespace Pvxs
open Wire Spec

theorem validatedAll_mem {ms : List Member} (h : ValidatedAll ms) : ∀ c ∈ ms, Validated c := by
  induction ms with
  | nil => intro c hc; simp at hc
  | cons m ms ih =>
    simp only [ValidatedAll] at h
    intro c hc
    rcases List.mem_cons.mp hc with rfl | hc
    · exact h.1
    · exact ih h.2 c hc

theorem mem_setParent {n : Nat} {t : List FieldDesc} {d : FieldDesc} (h : d ∈ setParent n t) : ∃ d' ∈ t, d'.miter = d.miter := by
  cases t with
  | nil => simp [setParent] at h
  | cons x t =>
    simp only [setParent, List.mem_cons] at h
    rcases h with rfl | h
    · exact ⟨x, by simp, rfl⟩
    · exact ⟨d, by simp [h], rfl⟩

theorem mem_flatKids {st : Bool} {off : Nat} {ms : List Member} {d : FieldDesc} (h : d ∈ flatKids st off ms) :
    ∃ c ∈ ms, ∃ d' ∈ flat c, d'.miter = d.miter := by
  induction ms generalizing off with
  | nil => simp [flatKids] at h
  | cons m ms ih =>
    simp only [flatKids, List.mem_append] at h
    rcases h with h | h
    · refine ⟨m, by simp, ?_⟩
      cases st with
      | true => exact mem_setParent (by simpa using h)
      | false => exact ⟨d, by simpa using h, rfl⟩
    · obtain ⟨c, hc, h⟩ := ih h
      exact ⟨c, by simp [hc], h⟩

theorem validated_names (m : Member) : Validated m → ∀ d ∈ flat m, ∀ p ∈ d.miter, ∃ c, Validated c ∧ c.name = p.1 := by
  induction m using Member.ind with
  | h m ih =>
    intro hv d hd p hp
    obtain ⟨code, name, id, ch⟩ := m
    simp only [Validated] at hv
    have hall := validatedAll_mem hv.2
    have kid : ∀ off, p ∈ kidIter off ch → ∃ c, Validated c ∧ c.name = p.1 := by
      intro off h
      obtain ⟨c, hk, e⟩ := mem_kidIter.mp (show (p.1, p.2) ∈ kidIter off ch from h)
      exact ⟨c, hall c hk.mem, e⟩
    simp only [flat] at hd
    split at hd
    · simp only [List.mem_singleton] at hd
      subst hd; simp at hp
    · simp only [assemble] at hd
      split at hd
      · rcases List.mem_cons.mp hd with rfl | hd
        · exact kid _ hp
        · obtain ⟨c, hc, d', hd', e⟩ := mem_flatKids hd
          exact ih c hc (hall c hc) d' hd' p (by rw [e]; exact hp)
      · simp only [List.mem_singleton] at hd
        subst hd; exact kid _ hp

theorem takeWhile_all (p : α → Bool) : ∀ l : List α, (∀ y ∈ l, p y = true) → l.takeWhile p = l
  | [], _ => rfl
  | a :: l, h => by
    rw [List.takeWhile_cons, if_pos (h a (by simp)), takeWhile_all p l fun y hy => h y (by simp [hy])]

theorem dropWhile_all (p : α → Bool) : ∀ l : List α, (∀ y ∈ l, p y = true) → l.dropWhile p = []
  | [], _ => rfl
  | a :: l, h => by
    rw [List.dropWhile_cons, if_pos (h a (by simp)), dropWhile_all p l fun y hy => h y (by simp [hy])]

theorem validated_plain {c : Member} (h : Validated c) (hn : (0 : Byte) ∉ c.name) : ∀ x ∈ c.name, x ≠ 0x3c ∧ x ≠ 0x5b ∧ x ≠ 0x2d := by
  obtain ⟨code, name, id, ch⟩ := c
  simp only [Validated] at h
  intro x hx
  have hne : name ≠ [] := by intro e; simp only at hx; rw [e] at hx; simp at hx
  have h1 := h.1
  simp only [Member.validate, ifNamed, ne_eq, hne, not_false_eq_true, if_true] at h1
  obtain ⟨_, h2, _⟩ := Res.bind_eq_ok h1
  have hc : cstr name = name := by
    simp only [cstr]
    exact takeWhile_all _ _ fun y hy => by
      simp only [bne_iff_ne, ne_eq]
      rintro rfl; exact hn hy
  simp only [nameValidate, hc, hne, if_false] at h2
  split at h2
  · rename_i hall
    rw [List.all_eq_true] at hall
    simp only at hx
    obtain ⟨i, hi, rfl⟩ := List.getElem_of_mem hx
    have := hall (name[i], i) (by rw [List.mem_zipIdx_iff_getElem?]; simp [hi])
    simp only at this
    refine ⟨?_, ?_, ?_⟩ <;> (intro e; rw [e] at this; revert this; simp; try decide)
  · simp at h2

end Pvxs
