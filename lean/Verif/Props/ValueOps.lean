import Verif.Lemmas.Lookup
import Verif.Props.Value
/-
C15 marks, C16 iteration, C17 assignment, C18 lookup, C57 comparison of types.
-/
namespace Pvxs.Props
open Pvxs Wire Spec

theorem exT_usable : Usable exT :=
  ⟨.built exampleType exT (by rw [← exT_eq]; exact build_total _ exampleType_ok.1 exampleType_ok.2.2.1), rfl⟩

/-! ### C15 -/

/-- After any sequence of operations a program can perform, the effect of one more on the mark of any field: mark() sets the
mark of that field, and of each field which holds the storage it belongs to (the Union, Any, or array element it was created
for), of nothing else; mark(false) and unmark() clear that field, with `children` everything below it, with `parents`
everything above it in the same structure, nothing else. -/
theorem C15_step (ops : List MarkOp) (hr : LegalRun [] ops) (op : MarkOp) (hl : Legal (markRun [] ops) op) (f : Field) :
    Marked (markStep (markRun [] ops) op) f ↔
      SetsMark (markRun [] ops) op f ∨ (Marked (markRun [] ops) f ∧ ¬ ClearsMark (markRun [] ops) op f) :=
  mark_step (heapOK_run heapOK_nil hr) hl f

/-- Whole histories: a field is marked exactly when some operation marked it and none since has cleared it. -/
theorem C15_history (ops : List MarkOp) (hr : LegalRun [] ops) (f : Field) :
    Marked (markRun [] ops) f ↔
      ∃ pre op post, ops = pre ++ op :: post ∧ SetsMark (markRun [] pre) op f ∧
        ∀ mid op' post', post = mid ++ op' :: post' → ¬ ClearsMark (markRun [] (pre ++ op :: mid)) op' f := by
  have h0 : ¬ Marked [] f := by rintro ⟨x, hx, _⟩; simp at hx
  rw [mark_history heapOK_nil hr f]
  exact ⟨fun h => h.elim (fun h => absurd h.1 h0) id, Or.inr⟩

/-- isMarked() is defined for every field, and true iff the field is marked, or (children) one below it, or (parents) one above it. -/
theorem C15_isMarked (ops : List MarkOp) (hr : LegalRun [] ops) (f : Field) (he : Exists (markRun [] ops) f) (parents children : Bool) :
    ∃ b, isMarked (markRun [] ops) f parents children = .ok b ∧
      (b = true ↔ Marked (markRun [] ops) f ∨ (children = true ∧ ∃ g, Below (markRun [] ops) f g ∧ Marked (markRun [] ops) g) ∨
        (parents = true ∧ ∃ g, Below (markRun [] ops) g f ∧ Marked (markRun [] ops) g)) :=
  isMarked_spec (heapOK_run heapOK_nil hr) he parents children

/-! ### clear() -/

theorem cellsOK_at : ∀ (t : List FieldDesc) (cs : List Cell), CellsOK t cs → t.length = cs.length ∧
    ∀ (j : Nat) (d : FieldDesc) (b : Bool) (x : Datum), t[j]? = some d → cs[j]? = some (.mk b x) → DatumOK d x
  | [], [], _ => ⟨rfl, fun j d b x h _ => by simp at h⟩
  | [], _ :: _, h => by simp [CellsOK] at h
  | _ :: _, [], h => by simp [CellsOK] at h
  | d :: t, .mk b x :: cs, h => by
    rw [CellsOK] at h
    obtain ⟨h1, h2⟩ := cellsOK_at t cs h.2
    refine ⟨by simp [h1], fun j d' b' x' hd hc => ?_⟩
    cases j with
    | zero =>
      simp only [List.getElem?_cons_zero, Option.some.injEq, Cell.mk.injEq] at hd hc
      rw [← hd, ← hc.2]; exact h.1
    | succ j => exact h2 j d' b' x' (by simpa using hd) (by simpa using hc)

theorem clearDatum_ok (d : FieldDesc) (x : Datum) (h : DatumOK d x) : clearDatum x = initDatum d.code := by
  cases x with
  | null => rw [DatumOK] at h; rw [h]; rfl
  | real b => rw [DatumOK] at h; rcases h with h | h <;> rw [h.1] <;> rfl
  | int b => rw [DatumOK] at h; rcases h with h | h | h | h <;> rw [h.1] <;> rfl
  | uint b => rw [DatumOK] at h; rcases h with h | h | h | h <;> rw [h.1] <;> rfl
  | bool b => rw [DatumOK] at h; rw [h]; rfl
  | str b => rw [DatumOK] at h; rw [h.1]; rfl
  | unionNull => rw [DatumOK] at h; rw [h]; rfl
  | union i v => rw [DatumOK] at h; rw [h.1]; rfl
  | any v => rw [DatumOK] at h; rw [h.1]; rfl
  | pods vs =>
    rw [DatumOK] at h
    rcases h.2 with h | ⟨h | h, _⟩ | ⟨h | h, _⟩ | ⟨h | h | h, _⟩ | ⟨h | h | h, _⟩ <;> first | (rw [h.1]; rfl) | (rw [h]; rfl)
  | strs ss => rw [DatumOK] at h; rw [h.1]; rfl
  | vals vs => rw [DatumOK] at h; rcases h.2 with h | h | h <;> rw [h.1] <;> rfl

theorem clearFirst_at : ∀ (n : Nat) (cs : List Cell) (j : Nat), (clearFirst n cs)[j]? =
    if j < n then (cs[j]?).map (fun c => .mk false (clearDatum c.data)) else cs[j]?
  | 0, cs, j => by simp [clearFirst]
  | n + 1, [], j => by simp [clearFirst]
  | n + 1, .mk b x :: cs, 0 => by simp [clearFirst, Cell.data]
  | n + 1, .mk b x :: cs, j + 1 => by simp [clearFirst, clearFirst_at n cs j]

/-- clear() through a field gives this field and every field below it the content they had when the value was created, not marked; it has no effect on
others. -/
theorem C15_clear (t : List FieldDesc) (cs : List Cell) (h : CellsOK t cs) (i : Nat) (hi : i < t.length) (j : Nat) :
    (Within t i j → j < t.length → ∃ d, t[j]? = some d ∧ (clearAt t cs i)[j]? = some (.mk false (initDatum d.code))) ∧
    (¬ Within t i j → (clearAt t cs i)[j]? = cs[j]?) := by
  obtain ⟨hl, hk⟩ := cellsOK_at t cs h
  have hd : t[i]? = some t[i] := List.getElem?_eq_getElem hi
  have key : (clearAt t cs i)[j]? = if i ≤ j ∧ j < i + t[i].size then (cs[j]?).map (fun c => .mk false (clearDatum c.data)) else cs[j]? := by
    simp only [clearAt, hd]
    rw [List.getElem?_append]
    by_cases hij : j < i
    · have : ¬ (i ≤ j ∧ j < i + t[i].size) := by omega
      rw [if_neg this, if_pos (by rw [List.length_take]; omega), List.getElem?_take, if_pos hij]
    · rw [if_neg (by rw [List.length_take]; omega), List.length_take, Nat.min_eq_left (by omega), clearFirst_at, List.getElem?_drop]
      have e : i + (j - i) = j := by omega
      rw [e]
      by_cases hj : j < i + t[i].size
      · rw [if_pos (by omega), if_pos (by omega)]
      · rw [if_neg (by omega), if_neg (by omega)]
  have hw : Within t i j ↔ i ≤ j ∧ j < i + t[i].size := by
    constructor
    · rintro ⟨d, h1, h2, h3⟩
      rw [hd] at h1; injection h1 with h1; subst h1; exact ⟨h2, h3⟩
    · rintro ⟨h2, h3⟩; exact ⟨_, hd, h2, h3⟩
  rw [hw, key]
  refine ⟨fun hin hj => ?_, fun hout => by rw [if_neg hout]⟩
  have hc : cs[j]? = some cs[j] := List.getElem?_eq_getElem (by omega)
  refine ⟨t[j], List.getElem?_eq_getElem hj, ?_⟩
  rw [if_pos hin, hc]
  have := hk j t[j] cs[j].valid cs[j].data (List.getElem?_eq_getElem hj) (by rw [hc]; cases cs[j]; rfl)
  simp only [Option.map_some, clearDatum_ok _ _ this]

/-- A value which was cleared is as it was created. -/
theorem C15_clear_all (v : Val) (h : ValOK v) : newValue v.desc = .ok (clearVal v) := by
  cases v with
  | null => simp [ValOK] at h
  | mk t cs =>
    rw [ValOK] at h
    obtain ⟨h1, h2, h3, h4⟩ := h
    cases t with
    | nil => exact absurd rfl h3
    | cons d t =>
      obtain ⟨hl, hk⟩ := cellsOK_at _ cs h4
      have hn : newValue (d :: t) = .ok (.mk (nodesOf (d :: t)) ((nodesOf (d :: t)).map fun d => .mk false (initDatum d.code))) := by
        unfold newValue at h1 ⊢
        cases hx : checkNew (d :: t) with
        | ok u => rfl
        | throws w => rw [hx] at h1; cases h1
        | ub => rw [hx] at h1; cases h1
      simp only [Val.desc, hn, h2, clearVal]
      congr 2
      apply List.ext_getElem?
      intro j
      have hsz : (d :: t).length ≤ d.size := by
        have := congrArg List.length h2
        simp only [nodesOf, List.length_take] at this
        omega
      by_cases hj : j < (d :: t).length
      · obtain ⟨d', e1, e2⟩ := (C15_clear (d :: t) cs h4 0 (by simp) j).1 ⟨d, rfl, by omega, by omega⟩ hj
        rw [e2, List.getElem?_map, e1]; rfl
      · have hout : ¬ j < cs.length := by omega
        rw [List.getElem?_map, List.getElem?_eq_none (by omega : (d :: t).length ≤ j)]
        simp only [clearAt, List.getElem?_cons_zero, List.take_zero, List.nil_append, List.drop_zero, clearFirst_at, Option.map_none]
        rw [List.getElem?_eq_none (by omega : cs.length ≤ j)]
        simp

example : ∃ v, ValOK v ∧ v.cells.map Cell.valid = [false, true, true, false, true, false] ∧
    (clearVal v).cells.map Cell.valid = [false, false, false, false, false, false] := ⟨exV true, (exV_ok true).1, rfl, rfl⟩
example : ((clearAt exT (exV true).cells 2).map Cell.valid, (exV true).cells.length) = ([false, true, false, false, true, false], 6) := rfl

/-- a value, a second one created as content of its field 4, and marking inside the second, then clearing the first -/
def exOps : List MarkOp :=
  [.build exT none, .build exT (some ⟨0, 4⟩), .mark ⟨1, 3⟩ true, .unmark ⟨0, 0⟩ false true]

theorem exOps_legal : LegalRun [] exOps := by
  refine ⟨⟨exT_usable, by simp⟩, ⟨exT_usable, ?_⟩, ?_, ?_, trivial⟩
  · intro f hf; cases hf; exact ⟨_, rfl, rfl, by decide⟩
  · exact ⟨_, rfl, rfl, by decide⟩
  · exact ⟨_, rfl, rfl, by decide⟩

example : Marked (markRun [] (exOps.take 3)) ⟨0, 4⟩ ∧ ¬ Marked (markRun [] exOps) ⟨0, 4⟩ ∧ Marked (markRun [] exOps) ⟨1, 3⟩ ∧
    Exists (markRun [] exOps) ⟨1, 3⟩ := by
  refine ⟨⟨_, rfl, rfl⟩, ?_, ⟨_, rfl, rfl⟩, ⟨_, rfl, rfl, by decide⟩⟩
  rintro ⟨x, hx, h⟩
  cases hx
  cases h

/-! ### C16 -/

/-- iall() yields the fields below the Struct depth first, members in order of declaration; each once; all of them, and no others. -/
theorem C16_iall (t : List FieldDesc) (hu : Usable t) (i : Nat) (d : FieldDesc) (hd : t[i]? = some d) (_hs : d.code = .Struct) :
    DepthFirst t i (iall t i) ∧ (iall t i).Nodup ∧ ∀ j, j ∈ iall t i ↔ (j ≠ i ∧ Within t i j) := by
  obtain ⟨m, rfl, hf⟩ := usable_flat hu
  have hi := (List.getElem?_eq_some_iff.mp hd).1
  rw [flat_length] at hi
  obtain ⟨c, hc, he, e⟩ := iall_eq hf hi
  rw [e]
  refine ⟨depthFirst_embeds c hc _ _ he, List.nodup_range', fun j => ?_⟩
  obtain ⟨d', h1, h2, h3⟩ := embeds_root hc he
  rw [hd] at h1; cases h1
  have := count_pos c
  rw [List.mem_range'_1]
  constructor
  · rintro ⟨h4, h5⟩
    exact ⟨by omega, d, hd, by omega, by omega⟩
  · rintro ⟨h4, d', hd', h5, h6⟩
    rw [hd] at hd'; cases hd'
    omega

/-- ichildren() yields, in order of declaration (`miter`), precisely the fields whose parent is the Struct, each once. -/
theorem C16_ichildren (t : List FieldDesc) (hu : Usable t) (i : Nat) (d : FieldDesc) (hd : t[i]? = some d) (hs : d.code = .Struct) :
    ichildren t i = d.miter.map (fun p => i + p.2) ∧ (ichildren t i).Pairwise (· < ·) ∧
    ∀ j, j ∈ ichildren t i ↔ ∃ c, t[j]? = some c ∧ i < j ∧ i + c.parentIndex = j := by
  obtain ⟨m, rfl, hf⟩ := usable_flat hu
  have ok := nodeOK_flat m hf i d hd
  have e : ichildren (flat m) i = d.miter.map (fun p => i + p.2) := by simp [ichildren, hd, hs]
  refine ⟨e, ?_, fun j => ?_⟩
  · rw [e, List.pairwise_map, List.pairwise_iff_getElem]
    intro a b ha hb hab
    obtain ⟨c, hc, hle⟩ := ok.disjoint hs a b (d.miter[a]).1 (d.miter[a]).2 (d.miter[b]).1 (d.miter[b]).2
      (List.getElem?_eq_getElem ha) (List.getElem?_eq_getElem hb) hab
    have := size_pos c
    omega
  · rw [e, List.mem_map]
    constructor
    · rintro ⟨⟨name, off⟩, hm, rfl⟩
      obtain ⟨h1, c, h2, h3, _⟩ := ok.child hs name off hm
      exact ⟨c, h2, by simp only; omega, by rw [h3]⟩
    · rintro ⟨c, hc, hlt, hpi⟩
      obtain ⟨h1, h2, p, h3, h4, name, h5⟩ := (nodeOK_flat m hf j c hc).parent (by omega)
      have : j - c.parentIndex = i := by omega
      rw [this, hd] at h3; cases h3
      exact ⟨(name, c.parentIndex), h5, hpi⟩

/-- imarked() yields precisely the fields which are marked, or are inside a marked structure below the one iterated; in order, each once. -/
theorem C16_imarked (t : List FieldDesc) (hu : Usable t) (valid : Nat → Bool) (i : Nat) (d : FieldDesc) (hd : t[i]? = some d)
    (hs : d.code = .Struct) :
    (∀ j, j ∈ imarked t valid i ↔ CoveredBelow t valid i j) ∧ (imarked t valid i).Pairwise (· < ·) ∧ (imarked t valid i).Nodup := by
  obtain ⟨m, rfl, hf⟩ := usable_flat hu
  obtain ⟨h1, h2⟩ := imarked_spec hf hd hs valid
  exact ⟨h1, h2, h2.imp (fun h => Nat.ne_of_lt h)⟩

example : iall exT 0 = [1, 2, 3, 4, 5] ∧ ichildren exT 0 = [1, 2, 4, 5] ∧ imarked exT (fun j => j == 2 || j == 5) 0 = [2, 3, 5] ∧
    imarked exT (fun j => j == 0) 0 = [] := by decide

/-! ### C17 -/

/-- Assigning one Struct to another of the same type.  `CoveredBelow … k`: field k of the source is marked, or inside a marked
structure.  Such fields become equal to the source's and marked; of covered structures just the mark is set; all others keep
content and mark.  The mark of the source itself is copied if set.  No exception is thrown.

Missing from the full property: Unions (see below for what happens to them), content of arrays whose elements were allocated
from another type object, and names with `<`, `[` or `-`, which a peer can send (`C17_odd_name`). -/
theorem C17_assign_partial (env : CopyEnv) (n : Nat) (t : List FieldDesc) (hu : Usable t) (hp : PlainNames t)
    (hs : ∃ d, t[0]? = some d ∧ d.code = .Struct) (cs scs : List Cell) (hd : ValOK (.mk t cs)) (hsrc : ValOK (.mk t scs))
    (hw : ∀ j d, CoveredBelow t (validAt scs) 0 j → t[j]? = some d → d.code ≠ .Struct → CopiesWhole env d (datumAt scs j)) :
    ∃ r, assign env (n+1) (.mk t cs) (.mk t scs) = .ok (.mk t r) ∧ r.length = cs.length ∧
      ∀ k d old, t[k]? = some d → cs[k]? = some old → ∃ new, r[k]? = some new ∧
        (CoveredBelow t (validAt scs) 0 k → new.valid = true ∧
          new.data = if d.code = .Struct then old.data else datumAt scs k) ∧
        (¬ CoveredBelow t (validAt scs) 0 k → new.data = old.data ∧
          (new.valid = true ↔ old.valid = true ∨ (k = 0 ∧ validAt scs 0 = true))) := by
  obtain ⟨m, rfl, hf⟩ := usable_flat hu
  obtain ⟨d, hd0, hds⟩ := hs
  obtain ⟨d', ds, h1, h2, _⟩ := flat_head m
  have hms : m.code = .Struct := by rw [← h2]; rw [h1] at hd0; simp at hd0; rw [hd0]; exact hds
  simp only [ValOK] at hd hsrc
  obtain ⟨r, h3, h4, h5⟩ := assign_spec env n hf hms hp (cs := cs) (cellsOK_all hd.2.2.2).1 hsrc.2.2.2 hw
  refine ⟨r, h3, h4, fun k d old hkd hk => ⟨_, h5 k old hk, fun hc => ?_, fun hc => ?_⟩⟩
  · rw [if_pos hc]
    simp only [newCell, hkd]
    split <;> exact ⟨rfl, rfl⟩
  · rw [if_neg hc]
    by_cases h0 : k = 0
    · subst h0
      rw [if_pos rfl]
      refine ⟨rfl, ?_⟩
      simp [Cell.valid]
    · rw [if_neg h0]
      exact ⟨rfl, by simp [h0]⟩

/-- names accepted by the constructors of a definition are plain.  (A std::string with a NUL inside is only checked up to there.) -/
theorem C17_program_names (m : Member) (hv : Validated m) (t : List FieldDesc) (hb : build m = .ok t)
    (hn : ∀ d ∈ t, ∀ p ∈ d.miter, (0 : Byte) ∉ p.1) : PlainNames t := by
  have := build_ok m t hb
  subst this
  intro d hd p hp
  obtain ⟨c, hc, e⟩ := validated_names m hv d hd p hp
  rw [← e]
  exact validated_plain hc (by rw [e]; exact hn d hd p hp)

/-- struct { int32 v; struct { string s } a; any x } with contents; marked: a, or everything -/
def exA : List FieldDesc := flat { code := .Struct, children :=
    [{ code := .Int32, name := [0x76] },
     { code := .Struct, name := [0x61], children := [{ code := .String, name := [0x73] }] },
     { code := .Any, name := [0x78] }] }

def exCells (mark : Bool) (n : Int) : List Cell :=
  [.mk false .null, .mk false (.int n), .mk mark .null, .mk false (.str [UInt8.ofNat n.toNat]), .mk mark (.any .null)]

/-- hypotheses of C17_assign_partial are met, and its result is what one expects: `a.s` and `x` are copied, `v` is not -/
example (env : CopyEnv) : Usable exA ∧ PlainNames exA ∧ ValOK (.mk exA (exCells false 1)) ∧ ValOK (.mk exA (exCells true 2)) ∧
    (∀ j d, CoveredBelow exA (validAt (exCells true 2)) 0 j → exA[j]? = some d → d.code ≠ .Struct →
      CopiesWhole env d (datumAt (exCells true 2) j)) ∧
    assign env 1 (.mk exA (exCells false 1)) (.mk exA (exCells true 2)) =
      .ok (.mk exA [.mk false .null, .mk false (.int 1), .mk true .null, .mk true (.str [2]), .mk true (.any .null)]) := by
  refine ⟨⟨.built _ exA (build_total _ ?_ ?_), rfl⟩, ?_, ?_, ?_, ?_, rfl⟩
  · simp [Validated, ValidatedAll]; decide
  · simp [DistinctNames, DistinctNamesAll]
  · intro d hd p hp
    simp [exA, flat, flatKids, assemble, kidIter, count, setParent, countKids] at hd
    rcases hd with rfl | rfl | rfl | rfl | rfl <;> simp at hp
    · rcases hp with rfl | rfl | rfl <;> simp
    · subst hp; simp
  · simp only [ValOK, exCells]
    refine ⟨rfl, rfl, by simp [exA, flat, assemble], ?_⟩
    simp [exA, flat, flatKids, assemble, CellsOK, DatumOK, setParent, AnyOK]
  · simp only [ValOK, exCells]
    refine ⟨rfl, rfl, by simp [exA, flat, assemble], ?_⟩
    simp [exA, flat, flatKids, assemble, CellsOK, DatumOK, setParent, AnyOK]
  · rintro j d - hd hs
    refine ⟨?_, ?_⟩
    · rcases j with _ | _ | _ | _ | _ | j <;> simp [exA, flat, flatKids, assemble, setParent] at hd <;> subst hd <;> simp
    · intro vs hvs
      rcases j with _ | _ | _ | _ | _ | j <;> simp [datumAt, exCells] at hvs <;> cases hvs

/-- the type description of struct { int32 "a-b" }, as a peer may send it -/
def oddMsg : List Byte := [0x80, 0, 1, 3, 0x61, 0x2d, 0x62, 0x22]
def oddT : List FieldDesc := [{ code := .Struct, mlookup := [([0x61, 0x2d, 0x62], 1)], miter := [([0x61, 0x2d, 0x62], 1)] }, { code := .Int32, parentIndex := 1 }]

/-- A peer can send a type for which assignment, and clone(), of a value with a marked field throws, although both sides have
the same type: names are looked up as expressions. -/
theorem C17_odd_name (env : CopyEnv) (n : Nat) :
    (getTypeTop [] (input true oddMsg)).1.1 = oddT ∧ (getTypeTop [] (input true oddMsg)).2.err = false ∧
    ∀ x cs, assign env (n+1) (.mk oddT cs) (.mk oddT [.mk false .null, .mk true (.int x)]) = .throws "NoField" ∧
      clone env (n+1) (.mk oddT [.mk false .null, .mk true (.int x)]) = .throws "NoField" := by
  refine ⟨rfl, rfl, fun x cs => ⟨rfl, rfl⟩⟩

/-- struct { union { int32 i; int32 k } u } -/
def exU : List FieldDesc := flat { code := .Struct, children :=
    [{ code := .Union, name := [0x75], children := [{ code := .Int32, name := [0x69] }, { code := .Int32, name := [0x6b] }] }] }
def int32T : List FieldDesc := [{ code := .Int32 }]

theorem exU_usable : Usable exU := by
  refine ⟨.built _ exU (build_total _ ?_ ?_), rfl⟩
  · simp [Validated, ValidatedAll]; decide
  · simp [DistinctNames, DistinctNamesAll]

def uD : FieldDesc :=
  { code := .Union, parentIndex := 1, mlookup := [([0x69], 0), ([0x6b], 1)], miter := [([0x69], 0), ([0x6b], 1)],
    members := [{ code := .Int32 }, { code := .Int32 }] }

theorem exU_assign (env : CopyEnv) (n : Nat) (old x : Datum) :
    assign env (n+1) (.mk exU [.mk false .null, .mk false old]) (.mk exU [.mk false .null, .mk true x]) =
      (copyUnion (assign env n) uD old (heldBy x) >>= fun y => .ok (.mk exU [.mk false .null, .mk true y])) := by
  have h : ∀ t, t = exU → assign env (n+1) (.mk t [.mk false .null, .mk false old]) (.mk t [.mk false .null, .mk true x]) =
      (copyUnion (assign env n) uD old (heldBy x) >>= fun y => .ok (.mk t [.mk false .null, .mk true y])) := by
    intro t ht
    have e : t = [{ code := .Struct, mlookup := [([0x75], 1)], miter := [([0x75], 1)] }, uD] := ht
    subst e
    show ((copyUnion (assign env n) uD old (heldBy x) >>= fun y => Res.ok _) >>= fun cs => copyFields _ _ _ _ _ [] cs) >>= (fun cs => Res.ok (Val.mk _ cs)) = _
    cases copyUnion (assign env n) uD old (heldBy x) <;> rfl
  exact h _ rfl

/-- Unions are not copied: the selection of the source is lost when an earlier choice has the same type... -/
theorem C17_union_selection (env : CopyEnv) (n : Nat) (x : Int) (h : -2 ^ 31 ≤ x ∧ x < 2 ^ 31) :
    assign env (n+2) (.mk exU [.mk false .null, .mk false .unionNull])
        (.mk exU [.mk false .null, .mk true (.union 1 (.mk int32T [.mk true (.int x)]))]) =
      .ok (.mk exU [.mk false .null, .mk true (.union 0 (.mk int32T [.mk true (.int x)]))]) := by
  have hx : intOf 4 (intBits 4 x) = x := intOf_intBits 4 x (by omega) (by omega)
  have hf : firstChoice uD int32T 0 uD.miter = .ok (some 0) := by
    simp [firstChoice, uD, int32T, equalType, equalNodes, equalNode, FieldDesc.size]
  rw [exU_assign]
  have ha : assign env (n+1) (.mk int32T [.mk false (.int 0)]) (.mk int32T [.mk true (.int x)]) = .ok (.mk int32T [.mk true (.int (intOf 4 (intBits 4 x)))]) := rfl
  rw [hx] at ha
  simp only [copyUnion, heldBy, Val.desc, hf, Res.bind_ok]
  show ((assign env (n+1) (.mk int32T [.mk false (.int 0)]) (.mk int32T [.mk true (.int x)]) >>= fun t => Res.ok (Datum.union 0 t)) >>= _) = _
  rw [ha]; rfl

/-- ... a marked Union which selects nothing makes the assignment throw ... -/
theorem C17_union_empty (env : CopyEnv) (n : Nat) :
    assign env (n+1) (.mk exU [.mk false .null, .mk false .unionNull]) (.mk exU [.mk false .null, .mk true .unionNull]) =
      .throws "NoConvert" := by
  have hf : firstChoice uD [] 0 uD.miter = .ok none := by simp [firstChoice, uD, equalType]
  rw [exU_assign]
  simp only [copyUnion, heldBy, Val.desc, hf, Res.bind_ok, Res.bind_throws]

/-- ... or, if something is selected in the destination, keeps that. -/
theorem C17_union_keeps (env : CopyEnv) (n : Nat) (v : Val) :
    assign env (n+1) (.mk exU [.mk false .null, .mk false (.union 0 v)]) (.mk exU [.mk false .null, .mk true .unionNull]) =
      .ok (.mk exU [.mk false .null, .mk true (.union 0 v)]) := by
  have hf : firstChoice uD [] 0 uD.miter = .ok none := by simp [firstChoice, uD, equalType]
  rw [exU_assign]
  simp only [copyUnion, heldBy, Val.desc, hf, Res.bind_ok]

/-- A value whose own type is an array of Struct, Union or Any cannot be assigned, nor cloned. -/
theorem C17_compound_array (env : CopyEnv) (n : Nat) (t t' : List FieldDesc) (d d' : FieldDesc) (cs scs : List Cell)
    (h : d.code = .StructA ∨ d.code = .UnionA ∨ d.code = .AnyA) :
    assign env (n+1) (.mk (d :: t) cs) (.mk (d' :: t') scs) = .throws "NoConvert" := by
  simp only [assign]
  have h1 : d.code ≠ .Struct := by rcases h with h | h | h <;> rw [h] <;> decide
  have h2 : d.code ≠ .Any := by rcases h with h | h | h <;> rw [h] <;> decide
  have h3 : d.code ≠ .Union := by rcases h with h | h | h <;> rw [h] <;> decide
  rw [if_neg h1, if_neg h2, if_neg h3, if_pos h]
  rfl

/-! ### C18 -/

/-- a lookup expression made of member names and dots only -/
def PlainExpr (e : Str) : Prop := e ≠ [] ∧ ∀ c ∈ e, c ≠ 0x3c ∧ c ≠ 0x5b ∧ c ≠ 0x2d

/-- Looking up a dotted path in a structure yields precisely the field reached by going from member to member; in particular
an invalid Value iff there is no such field.  Never an exception from operator[]; lookup() throws LookupError instead.
Missing from the full property: expressions with `<` (parent), `->` (content of Union or Any) and `[n]` (array element). -/
theorem C18_dotted_partial (modify : Bool) (t : List FieldDesc) (hu : Usable t) (cs : List Cell) (i : Nat) (d : FieldDesc)
    (hd : t[i]? = some d) (hs : d.code = .Struct) (e : Str) (he : PlainExpr e) :
    ∃ r, index modify ⟨t, cs, i⟩ e = .ok r ∧
      (∀ h', r = some h' ↔ ∃ ps j, e = joinDots ps ∧ Descends t i ps j ∧ h' = ⟨t, cs, j⟩) ∧
      lookup modify ⟨t, cs, i⟩ e = (match r with | some h => .ok h | none => .throws "LookupError") := by
  obtain ⟨m, rfl, hf⟩ := usable_flat hu
  have hl : ∀ y ∈ e, (!endsName y) = true := fun y hy => by rw [endsName_false.mpr (he.2 y hy)]; rfl
  have hix : index modify ⟨flat m, cs, i⟩ e = .ok ((d.mlookup.find? e).map fun o => ⟨flat m, cs, i + o⟩) := by
    cases e with
    | nil => exact absurd rfl he.1
    | cons c s =>
      have hstep : stepLookup modify true false (c :: s) ⟨flat m, cs, i⟩ =
          (match d.mlookup.find? (c :: s) with | some o => .go false [] ⟨flat m, cs, i + o⟩ | none => .null) := by
        have hc := (he.2 c (by simp)).1
        simp only [stepLookup, hd]
        split
        · rename_i heq; cases heq; exact absurd rfl hc
        · rw [if_pos hs]
          simp only [stepStruct, Bool.false_eq_true, false_and, if_false]
          rw [takeWhile_all _ _ hl, dropWhile_all _ _ hl]
          simp
          cases SMap.find? (c :: s) d.mlookup <;> rfl
      rw [index, traverse, hstep]
      cases d.mlookup.find? (c :: s) with
      | none => rfl
      | some o => simp [traverse, advances]
  refine ⟨_, hix, fun h' => ?_, ?_⟩
  · constructor
    · intro h
      cases hfd : d.mlookup.find? e with
      | none => rw [hfd] at h; simp at h
      | some o =>
        rw [hfd] at h; simp at h
        obtain ⟨ps, _, h2, h3⟩ := (mlookup_descends hf hd hs e o).mp hfd
        exact ⟨ps, i + o, h2, h3, h.symm⟩
    · rintro ⟨ps, j, h1, h2, rfl⟩
      have hps : ps ≠ [] := by rintro rfl; exact he.1 h1
      have hij : i ≤ j := by
        clear h1 hps
        have : ∀ {a b : Nat} {ps : List Str}, Descends (flat m) a ps b → a ≤ b := by
          intro a b ps h
          induction h with
          | here => exact Nat.le_refl _
          | member => omega
        exact this h2
      have := (mlookup_descends hf hd hs e (j - i)).mpr ⟨ps, hps, h1, by rw [show i + (j - i) = j by omega]; exact h2⟩
      rw [this]
      simp
      omega
  · simp only [lookup, hix, Res.bind_ok]
    cases d.mlookup.find? e <;> rfl

/-- a scalar, or an array of scalars, has no members -/
theorem C18_scalar (modify : Bool) (t : List FieldDesc) (cs : List Cell) (i : Nat) (d : FieldDesc) (hd : t[i]? = some d)
    (hs : d.code ∉ [TypeCode.Struct, .Union, .Any, .StructA, .UnionA, .AnyA]) (e : Str) (he : PlainExpr e) :
    index modify ⟨t, cs, i⟩ e = .ok none := by
  simp only [List.mem_cons, not_or] at hs
  obtain ⟨h1, h2, h3, h4, h5, h6, _⟩ := hs
  cases e with
  | nil => exact absurd rfl he.1
  | cons c s =>
    have hstep : stepLookup modify true false (c :: s) ⟨t, cs, i⟩ = .null := by
      have hc := (he.2 c (by simp)).1
      simp only [stepLookup, hd]
      split
      · rename_i heq; cases heq; exact absurd rfl hc
      · simp [h1, h2, h3, h4, h5, h6]
    rw [index, traverse, hstep]

/-- "a.s" in the example -/
example : PlainExpr [0x61, 0x2e, 0x73] ∧ (∃ d, exT[0]? = some d ∧ d.code = .Struct) ∧
    Descends exT 0 [[0x61], [0x73]] 3 ∧ joinDots [[0x61], [0x73]] = [0x61, 0x2e, 0x73] := by
  refine ⟨⟨by simp, by simp⟩, ⟨_, rfl, rfl⟩, ?_, rfl⟩
  exact .member 0 _ _ 2 _ _ rfl rfl (by simp) (.member 2 _ _ 1 _ _ rfl rfl (by simp) (.here 3))

/-! ### C57 -/

/-- struct { union u {i} } and struct { union u { i, k } } -/
def union1 : List FieldDesc := flat { code := .Union, children := [{ code := .Int32, name := [0x69] }] }
def union2 : List FieldDesc := flat { code := .Union, children := [{ code := .Int32, name := [0x69] }, { code := .Int32, name := [0x6b] }] }

/-- equalType() does not compare how many choices two Unions have: it calls different types equal, and, the other way
around, reads past the end. -/
theorem C57_union_choices : equalType union1 union2 = .ok true ∧ equalType union2 union1 = .ub := by
  constructor
  · simp [union1, union2, flat, assemble, flatKids, lookKids, count, SMap.insert, equalType, equalNodes, equalNode, equalLookup,
      FieldDesc.size, kidIter, strLt]
  · simp [union1, union2, flat, assemble, flatKids, lookKids, count, SMap.insert, equalType, equalNodes, equalNode, equalLookup,
      FieldDesc.size, kidIter, strLt]

end Pvxs.Props
