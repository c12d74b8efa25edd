import Verif.Spec.RpcArgs
import Verif.Props.NT
import Verif.Props.PutBuild
import Verif.Lemmas.ReqParse
/-
C100: the argument of a remote procedure call has the arguments which were given, under their names, in their order, with their types and contents.
-/
namespace Pvxs.Props.Rpc
open Pvxs Pvxs.TypeDef Pvxs.Spec Pvxs.Rpc Pvxs.Spec.Rpc
open Pvxs.NT (lit plus fld)
open Pvxs.Spec.NT (txt Name)
open Pvxs.Props.NT (Good defOf)

/-! ### lemmas: types -/

theorem storedAs_valid (c : TypeCode) (h : c.valid = true) : ∃ s, c.storedAs = .ok s := by
  obtain ⟨⟨⟨n, hn⟩⟩⟩ := c
  have : ∀ n : Fin 256, (TypeCode.valid ⟨⟨⟨n⟩⟩⟩) = true → (TypeCode.storedAs ⟨⟨⟨n⟩⟩⟩).isOk = true := by decide +kernel
  have h1 := this ⟨n, hn⟩ h
  generalize hx : TypeCode.storedAs ⟨⟨⟨⟨n, hn⟩⟩⟩⟩ = r
  have h2 : r.isOk = true := by rw [← hx]; exact h1
  cases r with
  | ok a => exact ⟨a, rfl⟩
  | throws w => cases h2
  | ub => cases h2

theorem node_valid {m : Member} (hv : Validated m) (hd : DistinctNames m) {i : Nat} {d : FieldDesc} (h : (flat m)[i]? = some d) : d.code.valid = true := by
  have hi := (List.getElem?_eq_some_iff.mp h).1
  rw [flat_length] at hi
  obtain ⟨c, n, rest, h1, h2, _⟩ := Props.TypeDef.part_at m hv hd i hi
  obtain ⟨r, rs, h3, h4, _⟩ := flat_head c
  have : ((flat m).drop i)[0]? = some d := by rw [List.getElem?_drop]; exact h
  rw [h1, h3] at this
  injection this with this
  rw [← this]
  show r.code.valid = true
  rw [h4]
  exact (Props.TypeDef.validated_parts h2).2.1

theorem new_of {m : Member} (hv : Validated m) (hd : DistinctNames m) : (newValue (flat m)).isOk = true := by
  have hf := full_of_distinct m hd
  obtain ⟨d, ds, h1, h2, _⟩ := root_size m hf
  obtain ⟨d', ds', h1', h3, _, h4⟩ := flat_head m
  rw [h1] at h1'
  cases h1'
  have h0 : (flat m)[0]? = some d := by rw [h1]; rfl
  have hc : checkNew (flat m) = .ok () := by
    rw [h1]
    simp only [checkNew]
    obtain ⟨s, hs⟩ := storedAs_valid _ (node_valid hv hd h0)
    rw [hs, Res.bind_ok]
    by_cases hst : d.code = .Struct
    · rw [if_pos hst, h4 hst]
      have hall : ∀ l : List (Str × Nat), (∀ q ∈ l, 1 ≤ q.2 ∧ q.2 ≤ countKids m.children) → (l.forM fun p => initNode (d :: ds) d p.2) = .ok () := by
        intro l
        induction l with
        | nil => intro _; rfl
        | cons q l ih =>
          intro hq
          have hq1 := hq q (by simp)
          show (initNode (d :: ds) d q.2 >>= fun _ => l.forM fun p => initNode (d :: ds) d p.2) = _
          have hlt : q.2 < (flat m).length := by rw [flat_length, count_struct m (by rw [← h3]; exact hst)]; omega
          have hi : initNode (d :: ds) d q.2 = .ok () := by
            unfold initNode
            rw [if_pos (by rw [h2, ← flat_length]; exact hlt), ← h1, List.getElem?_eq_getElem hlt]
            obtain ⟨s, hs⟩ := storedAs_valid _ (node_valid hv hd (List.getElem?_eq_getElem hlt))
            simp only [hs, Res.bind_ok]
          rw [hi, Res.bind_ok]
          exact ih fun q hq' => hq q (by simp [hq'])
      exact hall _ (fun q hq => lookOf_le m (by rw [← h3]; exact hst) q hq)
    · rw [if_neg hst]
  unfold newValue
  rw [hc, Res.bind_ok, h1]
  rfl

theorem usable_def {m : Member} (hv : Validated m) (hd : DistinctNames m) : Usable (flat m) := ⟨.built m _ (build_total m hv hd), new_of hv hd⟩

/-- the initial content -/
def initCells (t : List FieldDesc) : List Cell := t.map fun d => .mk false (initDatum d.code)

theorem new_eq {m : Member} (hv : Validated m) (hd : DistinctNames m) : newValue (flat m) = .ok (.mk (flat m) (initCells (flat m))) :=
  PutBuild.newValue_usable (usable_def hv hd)

theorem init_ok {d : FieldDesc} {x : Datum} (h : DatumOK d x) : DatumOK d (initDatum d.code) := by
  cases x with
  | null => simp only [DatumOK] at h; rw [h]; simp [initDatum, TypeCode.wireKind, DatumOK, h]
  | real b =>
    simp only [DatumOK] at h
    rcases h with ⟨h, _⟩ | ⟨h, _⟩
    · rw [h]; simp [initDatum, TypeCode.wireKind, DatumOK, h]
    · rw [h]
      simp only [initDatum, TypeCode.wireKind, DatumOK]
      right
      exact ⟨h, 0, by decide, by unfold SignallingNaN; decide, by decide⟩
  | int v => simp only [DatumOK] at h; rcases h with ⟨h, _⟩ | ⟨h, _⟩ | ⟨h, _⟩ | ⟨h, _⟩ <;> rw [h] <;> simp [initDatum, TypeCode.wireKind, DatumOK, h]
  | uint v => simp only [DatumOK] at h; rcases h with ⟨h, _⟩ | ⟨h, _⟩ | ⟨h, _⟩ | ⟨h, _⟩ <;> rw [h] <;> simp [initDatum, TypeCode.wireKind, DatumOK, h]
  | bool b => simp only [DatumOK] at h; rw [h]; simp [initDatum, TypeCode.wireKind, DatumOK, h]
  | str s => simp only [DatumOK] at h; rw [h.1]; simp [initDatum, TypeCode.wireKind, DatumOK, h.1]
  | unionNull => simp only [DatumOK] at h; rw [h]; simp [initDatum, TypeCode.wireKind, DatumOK, h]
  | union i v => simp only [DatumOK] at h; rw [h.1]; simp [initDatum, TypeCode.wireKind, DatumOK, h.1]
  | any v => simp only [DatumOK] at h; rw [h.1]; simp [initDatum, TypeCode.wireKind, DatumOK, h.1, AnyOK]
  | pods vs =>
    simp only [DatumOK] at h
    rcases h.2 with ⟨h, _⟩ | ⟨h | h, _⟩ | ⟨h | h, _⟩ | ⟨h | h | h, _⟩ | ⟨h | h | h, _⟩ <;> rw [h] <;> simp [initDatum, TypeCode.wireKind, DatumOK, h]
  | strs ss => simp only [DatumOK] at h; rw [h.1]; simp [initDatum, TypeCode.wireKind, DatumOK, h.1]
  | vals vs =>
    simp only [DatumOK] at h
    rcases h.2 with ⟨h, _⟩ | ⟨h, hu, _⟩ | ⟨h, _⟩ <;> rw [h] <;> simp [initDatum, TypeCode.wireKind, DatumOK, h, SameElemsOK, AnyElemsOK]
    exact hu

/-- the type of a part -/
theorem partType_eq {c M : Member} (hf : Full c) {b : Nat} (he : Embeds (flat c) (flat M) b) : partType (flat M) b = flat c := by
  obtain ⟨d, h1, _, h3⟩ := embeds_root hf he
  obtain ⟨r, rs, h4, _, h5⟩ := root_size c hf
  unfold partType subTable
  rw [nodesOf_drop h1, h3]
  have hlen : ((flat M).drop b).take (count c) = { r with parentIndex := d.parentIndex } :: rs := by
    apply List.ext_getElem?
    intro k
    rw [List.getElem?_take, List.getElem?_drop]
    by_cases hk : k < count c
    · rw [if_pos hk]
      cases k with
      | zero =>
        obtain ⟨n, hn⟩ := he.get 0 r (by rw [h4]; rfl)
        rw [hn]
        rw [Nat.add_zero, h1] at hn
        cases hn
        rfl
      | succ k =>
        have hk' : k + 1 < (flat c).length := by rw [flat_length]; exact hk
        rw [he.keep (k+1) _ (by omega) (List.getElem?_eq_getElem hk')]
        rw [← List.getElem?_eq_getElem hk', h4]
        rfl
    · rw [if_neg hk]
      have : (flat c).length ≤ k := by rw [flat_length]; omega
      rw [h4] at this
      exact (List.getElem?_eq_none (by simpa using this)).symm
  rw [hlen, h4]
  simp only [asRoot]
  congr 1
  cases r
  simp only at h5
  subst h5
  rfl

/-! ### lemmas: what is made of one argument -/

theorem cellsOK_of : ∀ {t : List FieldDesc} {cs : List Cell}, cs.length = t.length →
    (∀ (k : Nat) (d : FieldDesc), t[k]? = some d → ∃ c : Cell, cs[k]? = some c ∧ DatumOK d c.data) → CellsOK t cs
  | [], [], _, _ => trivial
  | [], _ :: _, h, _ => by simp at h
  | _ :: _, [], h, _ => by simp at h
  | d :: t, .mk b x :: cs, hl, h => by
    refine ⟨?_, cellsOK_of (by simpa using hl) fun k d' hd => ?_⟩
    · obtain ⟨c, h1, h2⟩ := h 0 d rfl
      injection h1 with h1
      subst h1
      exact h2
    · exact h (k+1) d' hd

theorem init_get {t : List FieldDesc} {k : Nat} {d : FieldDesc} (h : t[k]? = some d) : (initCells t)[k]? = some (.mk false (initDatum d.code)) := by
  unfold initCells
  rw [List.getElem?_map, h]
  rfl

/-- what assignment to an empty structure leaves -/
def Left (t : List FieldDesc) (scs rs : List Cell) : Prop :=
  rs.length = t.length ∧ ∀ k d, t[k]? = some d → ∃ c : Cell, rs[k]? = some c ∧
    (Copied t scs k → c.valid = true ∧ (d.code ≠ .Struct → c.data = datumAt scs k)) ∧
    (¬ Copied t scs k → c.data = initDatum d.code ∧ (k ≠ 0 → c.valid = false))

theorem whole_of (env : CopyEnv) {d : FieldDesc} {x : Datum} (ok : DatumOK d x) (hc : d.code ∉ [TypeCode.Union, .StructA, .UnionA]) : CopiesWhole env d x := by
  simp only [List.mem_cons, not_or] at hc
  refine ⟨hc.1, fun vs hvs hA t cs hm => ?_⟩
  subst hvs
  simp only [DatumOK] at ok
  rcases ok.2 with ⟨h, _⟩ | ⟨h, _⟩ | ⟨h, _⟩
  · exact absurd h hc.2.1
  · exact absurd h hc.2.2.1
  · exact absurd h hA

theorem assign_leaf (env : CopyEnv) (n : Nat) (d : FieldDesc) (hs : Simple d.code) (c : Cell) (b : Bool) (x : Datum) (ok : DatumOK d x) :
    assign env (n+1) (.mk [d] [c]) (.mk [d] [.mk b x]) = .ok (.mk [d] [.mk true x]) := by
  simp only [Simple, List.mem_cons, not_or] at hs
  obtain ⟨h1, h2, h3, h4, h5, h6, _⟩ := hs
  simp only [assign]
  rw [if_neg h1, if_neg h3, if_neg h2, if_neg (by rintro (h | h | h) <;> contradiction)]
  show (copyDatum env (assign env n) d (datumAt [c] 0) d.code x >>= fun x => Res.ok (Val.mk [d] (storeCell [c] 0 x))) = _
  rw [copyDatum_same env _ d _ x ok h1 (whole_of env ok (by simp only [List.mem_cons, not_or]; exact ⟨h2, h4, h5, fun h => nomatch h⟩))]
  rfl

/-- assignment of a structure to an empty one of its type -/
theorem assign_init (env : CopyEnv) (n : Nat) {m : Member} (hv : Validated m) (hd : DistinctNames m) (hs : m.code = .Struct) (hp : PlainNames (flat m)) (scs : List Cell)
    (ok : CellsOK (flat m) scs)
    (hin : ∀ j d, CoveredBelow (flat m) (validAt scs) 0 j → (flat m)[j]? = some d → d.code ∉ [TypeCode.Union, .StructA, .UnionA]) :
    ∃ rs, assign env (n+1) (.mk (flat m) (initCells (flat m))) (.mk (flat m) scs) = .ok (.mk (flat m) rs) ∧ Left (flat m) scs rs ∧ CellsOK (flat m) rs ∧
      (∀ k, k ≠ 0 → (validAt rs k = true ↔ CoveredBelow (flat m) (validAt scs) 0 k)) := by
  have hf := full_of_distinct m hd
  obtain ⟨hsl, hsa⟩ := cellsOK_all ok
  obtain ⟨rs, h1, h2, h3⟩ := assign_spec env n hf hs hp (cs := initCells (flat m)) (by simp [initCells]) ok
    (fun j d hc hj hns => by
      obtain ⟨c, hc1, hc2⟩ := hsa hj
      have : datumAt scs j = c.data := by unfold datumAt; rw [hc1]
      rw [this]
      exact whole_of env hc2 (hin j d hc hj))
  have hroot : (flat m)[0]? = some (structRoot m) := flat_root hs
  have hcop : ∀ k, Copied (flat m) scs k ↔ CoveredBelow (flat m) (validAt scs) 0 k := by
    intro k
    constructor
    · rintro (⟨d, h, h'⟩ | h)
      · rw [hroot] at h; cases h; exact absurd rfl h'
      · exact h
    · exact Or.inr
  have hval : ∀ k d, (flat m)[k]? = some d → ∃ c : Cell, rs[k]? = some c ∧
      (CoveredBelow (flat m) (validAt scs) 0 k → c.valid = true ∧ c.data = if d.code = .Struct then initDatum d.code else datumAt scs k) ∧
      (¬ CoveredBelow (flat m) (validAt scs) 0 k → c.data = initDatum d.code ∧ (k ≠ 0 → c.valid = false)) := by
    intro k d hk
    refine ⟨_, h3 k _ (init_get hk), fun hc => ?_, fun hc => ?_⟩
    · rw [if_pos hc]
      simp only [newCell, hk]
      split <;> exact ⟨rfl, rfl⟩
    · rw [if_neg hc]
      by_cases h0 : k = 0
      · rw [if_pos h0]; exact ⟨rfl, fun h => absurd h0 h⟩
      · rw [if_neg h0]; exact ⟨rfl, fun _ => rfl⟩
  have hrl : rs.length = (flat m).length := by rw [h2]; simp [initCells]
  refine ⟨rs, h1, ⟨hrl, fun k d hk => ?_⟩, cellsOK_of hrl fun k d hk => ?_, fun k hk0 => ?_⟩
  · obtain ⟨c, hc1, hc2, hc3⟩ := hval k d hk
    refine ⟨c, hc1, fun h => ⟨(hc2 ((hcop k).mp h)).1, fun hns => ?_⟩, fun h => hc3 fun h' => h ((hcop k).mpr h')⟩
    rw [(hc2 ((hcop k).mp h)).2, if_neg hns]
  · obtain ⟨c, hc1, hc2, hc3⟩ := hval k d hk
    obtain ⟨sc, hsc1, hsc2⟩ := hsa hk
    refine ⟨c, hc1, ?_⟩
    by_cases hc : CoveredBelow (flat m) (validAt scs) 0 k
    · rw [(hc2 hc).2]
      split
      · exact init_ok hsc2
      · have : datumAt scs k = sc.data := by unfold datumAt; rw [hsc1]
        rw [this]; exact hsc2
    · rw [(hc3 hc).1]; exact init_ok hsc2
  · by_cases hkl : k < (flat m).length
    · obtain ⟨c, hc1, hc2, hc3⟩ := hval k _ (List.getElem?_eq_getElem hkl)
      unfold validAt at *
      rw [hc1]
      constructor
      · intro h
        refine Classical.byContradiction fun hn => ?_
        have := (hc3 hn).2 hk0
        simp only at h
        rw [h] at this
        cases this
      · intro h; exact (hc2 h).1
    · have : rs[k]? = none := List.getElem?_eq_none (by omega)
      unfold validAt
      rw [this]
      constructor
      · intro h; cases h
      · rintro ⟨b, hb0, _, _, x, hx, hb4, hb5⟩
        have := (nodeOK_flat m hf b x hx).inside
        omega

theorem covered_congr {t : List FieldDesc} {v v' : Nat → Bool} {k : Nat} (h : ∀ j, j ≠ 0 → (v' j = true ↔ CoveredBelow t v 0 j))
    (htr : ∀ a b c, Within t a b → Within t b c → Within t a c) : CoveredBelow t v' 0 k ↔ CoveredBelow t v 0 k := by
  constructor
  · rintro ⟨b, hb0, hb1, hb2, hb3⟩
    obtain ⟨b', h1, h2, h3, h4⟩ := (h b hb0).mp hb2
    exact ⟨b', h1, h2, h3, htr _ _ _ h4 hb3⟩
  · intro hc
    obtain ⟨b, hb0, hb1, hb2, hb3⟩ := hc
    have hself : Within t b b := by
      obtain ⟨x, hx, _, _⟩ := hb3
      exact ⟨x, hx, Nat.le_refl _, by have := size_pos x; omega⟩
    exact ⟨b, hb0, hb1, (h b hb0).mpr ⟨b, hb0, hb1, hb2, hself⟩, hb3⟩

/-- what is made of one argument: a value of the type `m`, and what assigning that to an empty field of this type leaves there -/
structure Made (env : CopyEnv) (n : Nat) (g : Given) (m : Member) (v : Val) (rs : List Cell) : Prop where
  type : typeOf g = flat m
  name : m.name = []
  valid : Validated m
  distinct : DistinctNames m
  built : Rpc.build env n g = .ok v
  desc : v.desc = flat m
  assigned : assign env n (.mk (flat m) (initCells (flat m))) v = .ok (.mk (flat m) rs)
  left : Left (flat m) (contentOf g) rs

theorem unnamed {m : Member} (hv : Validated m) (hd : DistinctNames m) :
    Validated { m with name := [] } ∧ DistinctNames { m with name := [] } ∧ flat { m with name := [] } = flat m := by
  refine ⟨⟨Props.TypeDef.validate_unnamed ((Props.TypeDef.validated_iff m).mp hv).1, ((Props.TypeDef.validated_iff m).mp hv).2⟩, ?_, ?_⟩
  · cases m; exact Pvxs.distinct_of _ _ _ _ _ _ _ hd
  · cases m; exact flat_name _ _ _ _ _

theorem leaf_one {m : Member} (h : m.code ≠ .Struct) : ∃ d, flat m = [d] ∧ d.code = m.code := by
  obtain ⟨d, ds, h1, h2, _⟩ := flat_head m
  have := flat_length m
  rw [count_other m h, h1] at this
  simp at this
  subst this
  exact ⟨d, h1, h2⟩

theorem left_leaf (d : FieldDesc) (hs : d.code ≠ .Struct) (b b' : Bool) (x : Datum) : Left [d] [.mk b x] [.mk true x] := by
  refine ⟨rfl, fun k d' hk => ?_⟩
  cases k with
  | zero =>
    refine ⟨_, rfl, fun _ => ⟨rfl, fun _ => rfl⟩, fun h => absurd (Or.inl ⟨d, rfl, hs⟩) h⟩
  | succ k => simp at hk

theorem made (env : CopyEnv) (n : Nat) (g : Given) (h : Allowed g) : ∃ m v rs, Made env (n+1) g m v rs := by
  cases h with
  | plain c x hc hv ok =>
    have hs : c ≠ .Struct := by intro e; subst e; exact hc (by simp)
    have hd0 : flat { code := c } = [({ code := c } : FieldDesc)] := by
      have h1 : c ≠ .StructA := by intro e; subst e; exact hc (by simp)
      have h2 : c ≠ .UnionA := by intro e; subst e; exact hc (by simp)
      simp only [flat]
      rw [if_neg (by rintro (h | h) <;> contradiction)]
      simp only [assemble]
      rw [if_neg hs]
      simp [lookKids, kidIter, flatKids]
    refine ⟨{ code := c }, leafVal c x, [.mk true x], ?_⟩
    have hw : CopiesWhole env { code := c } x := whole_of env ok (by
      intro h
      simp only [List.mem_cons] at h
      rcases h with h | h | h | h
      · exact hc (by simp [h])
      · exact hc (by simp [h])
      · exact hc (by simp [h])
      · cases h)
    refine ⟨hd0.symm, rfl, ?_, Props.NT.leaf_distinct _ _, ?_, hd0.symm, ?_, ?_⟩
    · simp [Validated, ValidatedAll, Member.validate, ifNamed, nodeValidate, hv, pure, List.forM]
    · simp only [Rpc.build]
      rw [copyDatum_same env _ { code := c } _ x ok hs hw]
      rfl
    · rw [hd0]
      exact assign_leaf env n _ hc _ _ _ ok
    · rw [hd0]
      exact left_leaf _ hs _ true _
  | value m t cs hv hd hb hp ok hr hin =>
    have ht : t = flat m := by rw [build_total m hv hd] at hb; injection hb with hb; exact hb.symm
    subst ht
    obtain ⟨u1, u2, u3⟩ := unnamed hv hd
    obtain ⟨c, hc, hc'⟩ := (Props.TypeDef.C80_copy m _ hv hd (build_total m hv hd)).2
    have hnew := new_eq hv hd
    simp only [ValOK] at ok
    have hcells := ok.2.2.2
    by_cases hs : m.code = .Struct
    · obtain ⟨ws, a1, a2, a3, a4⟩ := assign_init env n hv hd hs hp cs hcells hin
      have hf := full_of_distinct m hd
      have hcov : ∀ k, CoveredBelow (flat m) (validAt ws) 0 k ↔ CoveredBelow (flat m) (validAt cs) 0 k :=
        fun k => covered_congr a4 (fun a b c h1 h2 => within_trans hf h1 h2)
      obtain ⟨rs, b1, b2, _, _⟩ := assign_init env n hv hd hs hp ws a3 (fun j d h => hin j d ((hcov j).mp h))
      refine ⟨{ m with name := [] }, .mk (flat m) ws, rs, ?_⟩
      have hroot : (flat m)[0]? = some (structRoot m) := flat_root hs
      have hcop : ∀ (ss : List Cell) k, Copied (flat m) ss k ↔ CoveredBelow (flat m) (validAt ss) 0 k := by
        intro ss k
        constructor
        · rintro (⟨d, h, h'⟩ | h)
          · rw [hroot] at h; cases h; exact absurd rfl h'
          · exact h
        · exact Or.inr
      refine ⟨u3.symm, rfl, u1, u2, ?_, u3.symm, by rw [u3]; exact b1, ?_⟩
      · simp only [Rpc.build, hc, Res.bind_ok, Def.create, hnew]
        exact a1
      · rw [u3]
        refine ⟨b2.1, fun k d hk => ?_⟩
        obtain ⟨x, hx, hx1, hx2⟩ := b2.2 k d hk
        obtain ⟨y, hy, hy1, hy2⟩ := a2.2 k d hk
        have he : Copied (flat m) ws k ↔ Copied (flat m) cs k := by rw [hcop, hcop, hcov]
        refine ⟨x, hx, fun h => ⟨(hx1 (he.mpr h)).1, fun hns => ?_⟩, fun h => hx2 fun h' => h (he.mp h')⟩
        rw [(hx1 (he.mpr h)).2 hns]
        show datumAt ws k = datumAt cs k
        rw [← (hy1 h).2 hns]
        unfold datumAt
        rw [hy]
    · have hsm : Simple m.code := hr.resolve_right hs
      obtain ⟨d, hd1, hd2⟩ := leaf_one hs
      rw [hd1] at hcells
      match cs, hcells with
      | [.mk b x], hcells =>
        simp only [CellsOK] at hcells
        have hlf : ∀ c0, assign env (n+1) (.mk [d] [c0]) (.mk [d] [.mk b x]) = .ok (.mk [d] [.mk true x]) :=
          fun c0 => assign_leaf env n d (by rw [hd2]; exact hsm) c0 b x hcells.1
        refine ⟨{ m with name := [] }, .mk (flat m) [.mk true x], [.mk true x], ?_⟩
        refine ⟨u3.symm, rfl, u1, u2, ?_, u3.symm, ?_, ?_⟩
        · simp only [Rpc.build, hc, Res.bind_ok, Def.create, hnew]
          rw [hd1]
          exact hlf _
        · rw [u3, hd1]
          exact assign_leaf env n d (by rw [hd2]; exact hsm) _ true x hcells.1
        · rw [u3, hd1]
          exact left_leaf d (by rw [hd2]; exact hs) b true x

/-! ### lemmas: all arguments -/

theorem argAll_eq (env : CopyEnv) (n : Nat) (V : Given → Val) : ∀ (gs : List (Str × Given)) (a : PutBuild.Args), (∀ g ∈ gs, Rpc.build env n g.2 = .ok (V g.2)) →
    argAll env n a gs = PutBuild.setAll a (gs.map fun g => { name := g.1, value := V g.2, required := true })
  | [], _, _ => rfl
  | g :: gs, a, h => by
    simp only [argAll, List.map_cons, PutBuild.setAll, Rpc.arg]
    by_cases hf : (a.values.find? g.1).isSome = true
    · rw [if_pos hf]
      simp only [PutBuild.set, hf, if_true]
      rfl
    · rw [if_neg hf, h g (by simp), Res.bind_ok]
      cases hs : PutBuild.set a { name := g.1, value := V g.2, required := true } with
      | ok b => simp only [Res.bind_ok]; exact argAll_eq env n V gs b fun g' h' => h g' (by simp [h'])
      | throws w => rfl
      | ub => rfl

theorem members_eq (M : Given → Member) (V : Given → Val) (a : PutBuild.Args) : ∀ gs : List (Str × Given),
    (∀ g ∈ gs, a.values.find? g.1 = some (V g.2, true) ∧ (V g.2).desc = flat (M g.2) ∧ Validated (M g.2) ∧ DistinctNames (M g.2)) →
    members a (gs.map (·.1)) = .ok (gs.map fun g => { M g.2 with name := g.1 })
  | [], _ => rfl
  | g :: gs, h => by
    obtain ⟨h1, h2, h3, h4⟩ := h g (by simp)
    obtain ⟨c, hc, e1, e2, e3⟩ := (Props.TypeDef.C80_copy (M g.2) _ h3 h4 (build_total _ h3 h4)).2
    simp only [List.map_cons, members, h1, h2, hc, Res.bind_ok, Def.as, members_eq M V a gs fun g' h' => h g' (by simp [h'])]
    congr 2
    cases c; cases hM : M g.2
    rw [hM] at e1 e2 e3
    simp only at e1 e2 e3
    subst e1; subst e2; subst e3
    rfl

theorem adopt_all_new : ∀ (as cs : List Member), ((cs ++ as).map Member.name).Nodup → adoptAll cs as = .ok (cs ++ as)
  | [], cs, _ => by rw [adoptAll, List.append_nil]
  | a :: as, cs, h => by
    have h' : (((cs ++ [a]) ++ as).map Member.name).Nodup := by rwa [List.append_assoc]
    have hna : a.name ∉ cs.map Member.name := by
      rw [List.map_append, List.nodup_append] at h
      intro hm
      exact h.2.2 _ hm _ (by simp) rfl
    rw [adoptAll, Props.TypeDef.adopt_new a cs hna, Res.bind_ok, adopt_all_new as _ h', List.append_assoc]
    rfl

/-- the members of an NTURI -/
def uriKids (ms : List Member) : List Member :=
  [fld .String "scheme", fld .String "authority", fld .String "path", { code := .Struct, name := lit "query", children := ms }]

theorem uri_good (ms : List Member) (h : ∀ k ∈ ms, Good k) (hn : (ms.map Member.name).Nodup) :
    (∀ k ∈ uriKids ms, Good k) ∧ ((uriKids ms).map Member.name).Nodup := by
  refine ⟨Props.NT.all_cons (Props.NT.good_fld _ _ rfl rfl (by decide)) (Props.NT.all_cons (Props.NT.good_fld _ _ rfl rfl (by decide))
    (Props.NT.all_cons (Props.NT.good_fld _ _ rfl rfl (by decide)) (Props.NT.all_cons (Props.NT.good_struct _ _ _ rfl (by decide) h hn) Props.NT.all_nil))), ?_⟩
  show ([lit "scheme", lit "authority", lit "path", lit "query"] : List Str).Nodup
  decide

theorem uri_ok (ms : List Member) (h : ∀ k ∈ ms, Good k) (hn : (ms.map Member.name).Nodup) :
    NT.uri ms = .ok (defOf (lit "epics:nt/NTURI:1.0") (uriKids ms)) := by
  have hq := (uri_good ms h hn).1 { code := .Struct, name := lit "query", children := ms } (by simp [uriKids])
  unfold NT.uri
  rw [hq.1.1, Res.bind_ok]
  exact Props.NT.make_good _ _ (uri_good ms h hn).1 (uri_good ms h hn).2

theorem uri_plus (ms : List Member) (h : ∀ k ∈ ms, Good k) (hn : (ms.map Member.name).Nodup) :
    plus (defOf (lit "epics:nt/NTURI:1.0") (uriKids [])) [{ code := .Struct, name := lit "query", children := ms }] =
      .ok (defOf (lit "epics:nt/NTURI:1.0") (uriKids ms)) := by
  refine Props.NT.plus_good _ _ _ _ ?_ (uri_good ms h hn).1 (uri_good ms h hn).2
  have h1 := Props.TypeDef.adopt_old { code := .Struct, name := lit "query", children := ms } { code := .Struct, name := lit "query" } [] rfl
    [fld .String "scheme", fld .String "authority", fld .String "path"] (by
      show lit "query" ∉ ([lit "scheme", lit "authority", lit "path"] : List Str)
      decide)
  rw [adoptAll]
  rw [show uriKids [] = [fld .String "scheme", fld .String "authority", fld .String "path"] ++ ({ code := .Struct, name := lit "query" } : Member) :: [] from rfl]
  rw [h1, if_neg (by intro h; exact h rfl), adopt_all_new ms [] (by simpa using hn)]
  simp only [Res.bind_ok]
  rw [adoptAll]
  rfl

theorem kid_query (ms : List Member) : KidAt 1 (uriKids ms) 4 { code := .Struct, name := lit "query", children := ms } :=
  ⟨[fld .String "scheme", fld .String "authority", fld .String "path"], [], rfl, rfl⟩

/-- the definition of the argument -/
def uriM (ms : List Member) : Member := { code := .Struct, id := lit "epics:nt/NTURI:1.0", children := uriKids ms }

def queryM (ms : List Member) : Member := { code := .Struct, name := lit "query", children := ms }

theorem member_find {m : Member} (hf : Full m) (hs : m.code = .Struct) {name : Str} (hne : name ≠ []) (hp : name.any endsName = false) :
    member (flat m) name = .ok ((lookOf m).find? name) := by
  unfold member findField
  rw [if_neg hne, flat_struct m hs]
  simp only [hp, Bool.false_eq_true, if_false]
  rfl

theorem kid_iter {c : Member} {off o : Nat} {ms : List Member} (hk : KidAt off ms o c) : (c.name, o) ∈ kidIter off ms := by
  obtain ⟨pre, post, h1, h2⟩ := hk
  rw [h1, h2]
  have : ∀ (pre : List Member) (off : Nat), (c.name, off + countKids pre) ∈ kidIter off (pre ++ c :: post) := by
    intro pre
    induction pre with
    | nil => intro off; simp [kidIter, countKids]
    | cons a pre ih =>
      intro off
      simp only [List.cons_append, kidIter, countKids, List.mem_cons]
      right
      have := ih (off + count a)
      rwa [Nat.add_assoc] at this
  exact this pre off

theorem descends_kid {m : Member} (hs : m.code = .Struct) {o : Nat} {c : Member} (hk : KidAt 1 m.children o c) : Descends (flat m) 0 [c.name] o := by
  have h := Descends.member (t := flat m) 0 (structRoot m) c.name o [] (0 + o) (flat_root hs) rfl (kid_iter hk) (.here _)
  rwa [Nat.zero_add] at h

theorem member_kid {m : Member} (hf : Full m) (hs : m.code = .Struct) {o : Nat} {c : Member} (hk : KidAt 1 m.children o c) (hne : c.name ≠ [])
    (hp : c.name.any endsName = false) : member (flat m) c.name = .ok (some o) := by
  rw [member_find hf hs hne hp]
  congr 1
  have hd : (flat m)[0]? = some (structRoot m) := flat_root hs
  have := (mlookup_descends hf hd rfl c.name o).mpr ⟨[c.name], by simp, rfl, by rw [Nat.zero_add]; exact descends_kid hs hk⟩
  exact this

theorem splice_get (cs rs : List Cell) (k : Nat) (h : k + rs.length ≤ cs.length) (j : Nat) :
    (cs.take k ++ rs ++ cs.drop (k + rs.length))[j]? = if k ≤ j ∧ j < k + rs.length then rs[j - k]? else cs[j]? := by
  have h1 : (cs.take k).length = k := by rw [List.length_take]; omega
  by_cases a : j < k
  · rw [List.append_assoc, List.getElem?_append_left (by omega), List.getElem?_take, if_pos a, if_neg (by omega)]
  · by_cases b : j < k + rs.length
    · rw [if_pos ⟨by omega, b⟩, List.getElem?_append_left (by rw [List.length_append]; omega), List.getElem?_append_right (by omega), h1]
    · rw [if_neg (by omega), List.getElem?_append_right (by rw [List.length_append]; omega), List.getElem?_drop, List.length_append, h1]
      congr 1
      omega

theorem name_plain {s : Str} (h : Name s) : s ≠ [] ∧ s.any endsName = false := by
  obtain ⟨a, t, rfl, hall, ha⟩ := h
  refine ⟨by simp, ?_⟩
  rw [List.any_eq_false]
  intro c hc he
  have h1 := hall c hc
  simp only [endsName, Bool.or_eq_true, beq_iff_eq] at he
  rcases he with (he | he) | he <;> subst he <;> rcases h1 with h | h | h | h <;> revert h <;> decide

/-- one argument, with what becomes of it -/
structure Entry where
  name : Str
  m : Member
  v : Val
  rs : List Cell

def Entry.mem (e : Entry) : Member := { e.m with name := e.name }

/-- the entry is in order -/
structure EntryOK (env : CopyEnv) (n : Nat) (e : Entry) : Prop where
  name : Name e.name
  valid : Validated e.m
  distinct : DistinctNames e.m
  unnamed : e.m.name = []
  len : e.rs.length = count e.m
  assigned : assign env n (.mk (flat e.m) (initCells (flat e.m))) e.v = .ok (.mk (flat e.m) e.rs)

theorem mem_flat (e : Entry) : flat e.mem = flat e.m := by
  unfold Entry.mem
  cases e.m
  exact flat_name _ _ _ _ _

theorem mem_count (e : Entry) : count e.mem = count e.m := by rw [← flat_length, mem_flat, flat_length]

theorem mem_good {env : CopyEnv} {n : Nat} {e : Entry} (h : EntryOK env n e) : Good e.mem := by
  obtain ⟨h1, h2⟩ := Props.NT.name_ok h.name
  refine ⟨?_, h2, ?_⟩
  · have hv := (Props.TypeDef.validated_iff e.m).mp h.valid
    refine (Props.TypeDef.validated_iff _).mpr ⟨?_, hv.2⟩
    have hne : e.name ≠ [] := (name_plain h.name).1
    have := hv.1
    unfold Member.validate at this ⊢
    obtain ⟨_, _, h4⟩ := Res.bind_eq_ok this
    show (ifNamed e.name (nameValidate e.name) >>= _) = _
    unfold ifNamed
    rw [if_pos hne, h1, Res.bind_ok]
    exact h4
  · have := h.distinct
    unfold Entry.mem
    cases hm : e.m
    rw [hm] at this
    exact Pvxs.distinct_of _ _ _ _ _ _ _ this

theorem uri_full {ms : List Member} (h : ∀ k ∈ ms, Good k) (hn : (ms.map Member.name).Nodup) :
    Validated (uriM ms) ∧ DistinctNames (uriM ms) ∧ Validated (queryM ms) ∧ DistinctNames (queryM ms) := by
  obtain ⟨h1, h2⟩ := uri_good ms h hn
  obtain ⟨h3, h4⟩ := Props.NT.good_root (lit "epics:nt/NTURI:1.0") (uriKids ms) h1 h2
  have hq := h1 (queryM ms) (by simp [uriKids, queryM])
  exact ⟨h3, h4, hq.1, hq.2.2⟩

theorem query_embeds (ms : List Member) : Embeds (flat (queryM ms)) (flat (uriM ms)) 4 := embeds_child rfl (kid_query ms)

theorem kid_embeds {ms : List Member} {o : Nat} {c : Member} (hk : KidAt 1 ms o c) : Embeds (flat c) (flat (uriM ms)) (4 + o) :=
  Embeds.comp (embeds_child (m := queryM ms) rfl hk) (query_embeds ms)

/-- the loop which fills in the values -/
theorem each_ok (env : CopyEnv) (n : Nat) (es : List Entry) (hes : ∀ e ∈ es, EntryOK env n e) (hn : (es.map Entry.name).Nodup) :
    ∀ (ps : List Entry) (cs : List Cell), (∀ e ∈ ps, e ∈ es) → (ps.map Entry.name).Nodup → cs.length = (flat (uriM (es.map Entry.mem))).length →
    (∀ e ∈ ps, ∀ o, KidAt 1 (es.map Entry.mem) o e.mem → ∀ i, i < count e.m → cs[4 + o + i]? = (initCells (flat e.m))[i]?) →
    ∃ cs', assignEach env n (flat (uriM (es.map Entry.mem))) (ps.map fun e => (e.name, (e.v, true))) cs = .ok cs' ∧ cs'.length = cs.length ∧
      (∀ e ∈ ps, ∀ o, KidAt 1 (es.map Entry.mem) o e.mem → ∀ i, i < count e.m → cs'[4 + o + i]? = e.rs[i]?) ∧
      (∀ j, (∀ e ∈ ps, ∀ o, KidAt 1 (es.map Entry.mem) o e.mem → ¬ (4 + o ≤ j ∧ j < 4 + o + count e.m)) → cs'[j]? = cs[j]?)
  | [], cs, _, _, _, _ => ⟨cs, rfl, rfl, (fun _ h => nomatch h), fun _ _ => rfl⟩
  | e :: ps, cs, hsub, hnd, hlen, hinit => by
    have hms : ∀ k ∈ es.map Entry.mem, Good k := by
      intro k hk
      obtain ⟨x, hx, rfl⟩ := List.mem_map.mp hk
      exact mem_good (hes x hx)
    have hmn : ((es.map Entry.mem).map Member.name).Nodup := by rw [List.map_map]; exact hn
    obtain ⟨u1, u2, u3, u4⟩ := uri_full hms hmn
    have hfU := full_of_distinct _ u2
    have hfQ := full_of_distinct _ u4
    have he := hes e (hsub e (by simp))
    obtain ⟨o, hk⟩ := PVR.kidAt_of_mem (List.mem_map.mpr ⟨e, hsub e (by simp), rfl⟩ : e.mem ∈ es.map Entry.mem)
    have hfe : Full e.mem := full_of_distinct _ (mem_good he).2.2
    have hemb := kid_embeds hk
    have hpt : partType (flat (uriM (es.map Entry.mem))) (4 + o) = flat e.m := by rw [partType_eq hfe hemb, mem_flat]
    have hq : member (flat (uriM (es.map Entry.mem))) (lit "query") = .ok (some 4) :=
      member_kid (c := queryM (es.map Entry.mem)) hfU rfl (kid_query _) (show lit "query" ≠ [] by decide) (show (lit "query").any endsName = false by decide)
    have hm : member (partType (flat (uriM (es.map Entry.mem))) 4) e.name = .ok (some o) := by
      rw [partType_eq hfQ (query_embeds _)]
      exact member_kid (c := e.mem) hfQ rfl hk (name_plain he.name).1 (name_plain he.name).2
    have hb : 4 + o + count e.m ≤ cs.length := by
      have := hemb.len
      rw [flat_length, mem_count] at this
      omega
    have hpart : part (flat (uriM (es.map Entry.mem))) cs (4 + o) = .mk (flat e.m) (initCells (flat e.m)) := by
      unfold part
      rw [hpt]
      congr 1
      apply List.ext_getElem?
      intro i
      rw [List.getElem?_take, List.getElem?_drop, flat_length]
      by_cases hi : i < count e.m
      · rw [if_pos hi]; exact hinit e (by simp) o hk i hi
      · rw [if_neg hi]
        symm
        apply List.getElem?_eq_none
        simp only [initCells, List.length_map, flat_length]
        omega
    have hone : assignOne env n (flat (uriM (es.map Entry.mem))) cs (e.name, (e.v, true)) =
        .ok (cs.take (4 + o) ++ e.rs ++ cs.drop (4 + o + e.rs.length)) := by
      simp only [assignOne, hq, Res.bind_ok, hm, hpart, he.assigned, replace]
    have hrl : 4 + o + e.rs.length ≤ cs.length := by rw [he.len]; exact hb
    have hget := splice_get cs e.rs (4 + o) hrl
    have hlen' : (cs.take (4 + o) ++ e.rs ++ cs.drop (4 + o + e.rs.length)).length = cs.length := by
      simp only [List.length_append, List.length_take, List.length_drop]
      omega
    -- other arguments have other places
    have hdis : ∀ x ∈ ps, ∀ o', KidAt 1 (es.map Entry.mem) o' x.mem → 4 + o' + count x.m ≤ 4 + o ∨ 4 + o + count e.m ≤ 4 + o' := by
      intro x hx o' hk'
      have hne : o ≠ o' := by
        intro h
        subst h
        have := congrArg Member.name (kidAt_unique hk hk')
        have h1 : e.name = x.name := this
        simp only [List.map_cons, List.nodup_cons] at hnd
        exact hnd.1 (h1 ▸ List.mem_map.mpr ⟨x, hx, rfl⟩)
      rcases Nat.lt_or_gt_of_ne hne with h | h
      · have := kidAt_disjoint hk hk' h
        rw [mem_count] at this
        omega
      · have := kidAt_disjoint hk' hk h
        rw [mem_count] at this
        omega
    obtain ⟨cs', r1, r2, r3, r4⟩ := each_ok env n es hes hn ps _ (fun x hx => hsub x (by simp [hx])) (by simp only [List.map_cons, List.nodup_cons] at hnd; exact hnd.2)
      (by rw [hlen', hlen]) (fun x hx o' hk' i hi => by
        rw [hget, if_neg, hinit x (by simp [hx]) o' hk' i hi]
        rw [he.len]
        have := hdis x hx o' hk'
        omega)
    refine ⟨cs', ?_, by rw [r2, hlen'], ?_, ?_⟩
    · simp only [List.map_cons, assignEach, hone, Res.bind_ok]
      exact r1
    · intro x hx o' hk' i hi
      rcases List.mem_cons.mp hx with rfl | hx
      · have ho : o = o' := by
          refine Classical.byContradiction fun hne => ?_
          have hpair : ∀ {ms : List Member} {off o o' : Nat} {c c' : Member}, (ms.map Member.name).Nodup → KidAt off ms o c → KidAt off ms o' c' → c.name = c'.name → o = o' := by
            intro ms
            induction ms with
            | nil => intro off o o' c c' _ h; have := h.mem; simp at this
            | cons m ms ih =>
              intro off o o' c c' hnd h h' hcn
              simp only [List.map_cons, List.nodup_cons] at hnd
              rcases kidAt_cons.mp h with ⟨rfl, rfl⟩ | h1
              · rcases kidAt_cons.mp h' with ⟨rfl, rfl⟩ | h2
                · rfl
                · exact absurd (List.mem_map.mpr ⟨c', h2.mem, hcn.symm⟩) hnd.1
              · rcases kidAt_cons.mp h' with ⟨rfl, rfl⟩ | h2
                · exact absurd (List.mem_map.mpr ⟨c, h1.mem, hcn⟩) hnd.1
                · exact ih hnd.2 h1 h2 hcn
          exact hne (hpair hmn hk hk' rfl)
        subst ho
        rw [r4 (4 + o + i) (fun y hy o' hk' hbad => by have := hdis y hy o' hk'; omega), hget, if_pos ⟨by omega, by rw [he.len]; omega⟩]
        congr 1
        omega
      · exact r3 x hx o' hk' i hi
    · intro j hj
      rw [r4 j fun x hx => hj x (by simp [hx]), hget, if_neg]
      rw [he.len]
      exact hj e (by simp) o hk

theorem preimage {α β : Type} (f : α → β) (es : List α) : ∀ l : List β, (∀ p ∈ l, ∃ e ∈ es, p = f e) → ∃ ps : List α, l = ps.map f ∧ ∀ e ∈ ps, e ∈ es
  | [], _ => ⟨[], rfl, fun _ h => nomatch h⟩
  | p :: l, h => by
    obtain ⟨e, he, rfl⟩ := h p (by simp)
    obtain ⟨ps, h1, h2⟩ := preimage f es l fun q hq => h q (by simp [hq])
    refine ⟨e :: ps, by rw [h1]; rfl, fun x hx => ?_⟩
    rcases List.mem_cons.mp hx with rfl | hx
    · exact he
    · exact h2 x hx

theorem nodup_inj {α β : Type} (f : α → β) : ∀ {l : List α}, (l.map f).Nodup → ∀ {a b : α}, a ∈ l → b ∈ l → f a = f b → a = b
  | [], _, a, _, h, _, _ => nomatch h
  | x :: l, hn, a, b, ha, hb, he => by
    simp only [List.map_cons, List.nodup_cons] at hn
    rcases List.mem_cons.mp ha with rfl | ha' <;> rcases List.mem_cons.mp hb with rfl | hb'
    · rfl
    · exact absurd (List.mem_map.mpr ⟨b, hb', he.symm⟩) hn.1
    · exact absurd (List.mem_map.mpr ⟨a, ha', he⟩) hn.1
    · exact nodup_inj f hn.2 ha' hb' he

/-! ### C100 -/

/-- For any arguments with different names which are proper names of fields, the call is given an NTURI: `path` is the name of the PV, `scheme` and `authority` are empty, and the query has
one field for each argument, in the order of the calls of arg(), each with the name and the type of the argument.  A field which is `Copied` has the content of the argument; the others,
these are fields of a structure which are not marked, have their initial content.
Missing: that all fields of a structure are sent (C100_unmarked), arguments which are not `Allowed` (C100_union, C100_values, C100_any), other names (C100_name), a value given to rpc()
besides (C100_both). -/
theorem C100_args_partial (env : CopyEnv) (n : Nat) (name : Str) (gs : List (Str × Given)) (hne : gs ≠ []) (hname : ∀ g ∈ gs, Name g.1) (hn : (gs.map (·.1)).Nodup)
    (hok : ∀ g ∈ gs, Allowed g.2) :
    ∃ (ms : List Member) (v : Val) (t : List FieldDesc) (cs : List Cell), call env (n+1) name .null gs = .ok v ∧ v = .mk t cs ∧ cs.length = t.length ∧
      Pvxs.build (uriDef ms) = .ok t ∧ ms.map Member.name = gs.map (·.1) ∧
      (∃ d, Has v [txt "path"] d (.mk true (.str name)) ∧ d.code = .String) ∧
      (∃ d, Has v [txt "scheme"] d (.mk false (.str [])) ∧ d.code = .String) ∧
      (∃ d, Has v [txt "authority"] d (.mk false (.str [])) ∧ d.code = .String) ∧
      ∀ (i : Nat) (g : Str × Given), gs[i]? = some g → ∃ m : Member, ms[i]? = some m ∧ Pvxs.build m = .ok (typeOf g.2) ∧
        ∀ path k d, Descends (typeOf g.2) 0 path k → (typeOf g.2)[k]? = some d → ∃ (d' : FieldDesc) (c : Cell), Has v (txt "query" :: g.1 :: path) d' c ∧
          d'.code = d.code ∧ d'.id = d.id ∧
          (Copied (typeOf g.2) (contentOf g.2) k → c.valid = true ∧ (d.code ≠ .Struct → c.data = datumAt (contentOf g.2) k)) ∧
          (¬ Copied (typeOf g.2) (contentOf g.2) k → c.data = initDatum d.code ∧ (k ≠ 0 → c.valid = false)) := by
  have hall : ∀ g, ∃ p : Member × Val × List Cell, Allowed g → Made env (n+1) g p.1 p.2.1 p.2.2 := by
    intro g
    by_cases h : Allowed g
    · obtain ⟨m, v, rs, hm⟩ := made env n g h
      exact ⟨(m, v, rs), fun _ => hm⟩
    · exact ⟨({ code := .Struct }, .null, []), fun h' => absurd h' h⟩
  obtain ⟨F, hF⟩ := Classical.skolem.mp hall
  let ent : Str × Given → Entry := fun g => ⟨g.1, (F g.2).1, (F g.2).2.1, (F g.2).2.2⟩
  have hmade : ∀ g ∈ gs, Made env (n+1) g.2 (F g.2).1 (F g.2).2.1 (F g.2).2.2 := fun g hg => hF g.2 (hok g hg)
  have hEs : ∀ e ∈ gs.map ent, EntryOK env (n+1) e := by
    intro e he
    obtain ⟨g, hg, rfl⟩ := List.mem_map.mp he
    have := hmade g hg
    exact ⟨hname g hg, this.valid, this.distinct, this.name, by rw [← flat_length]; exact this.left.1, this.assigned⟩
  have hEn : ((gs.map ent).map Entry.name).Nodup := by rw [List.map_map]; exact hn
  -- the calls of arg()
  obtain ⟨a, ha1, ha2, ha3, ha4⟩ := PutBuild.setAll_spec (gs.map fun g => { name := g.1, value := (F g.2).2.1, required := true }) {} SMap.sorted_nil
    (by rw [List.map_map]; exact hn) (fun a _ h => by simp [SMap.keys] at h)
  have hargs : argAll env (n+1) {} gs = .ok a := by
    rw [argAll_eq env (n+1) (fun g => (F g).2.1) gs {} fun g hg => (hmade g hg).built]
    exact ha1
  have hnames : a.names = gs.map (·.1) := by
    rw [ha3, List.map_map]
    rfl
  have hval : ∀ p, p ∈ a.values ↔ ∃ e ∈ gs.map ent, p = (e.name, (e.v, true)) := by
    intro p
    rw [ha4]
    constructor
    · rintro (h | ⟨x, hx, rfl⟩)
      · exact nomatch h
      · obtain ⟨g, hg, rfl⟩ := List.mem_map.mp hx
        exact ⟨ent g, List.mem_map.mpr ⟨g, hg, rfl⟩, rfl⟩
    · rintro ⟨e, he, rfl⟩
      obtain ⟨g, hg, rfl⟩ := List.mem_map.mp he
      exact Or.inr ⟨_, List.mem_map.mpr ⟨g, hg, rfl⟩, rfl⟩
  obtain ⟨ps, hps1, hps2⟩ := preimage (fun e : Entry => (e.name, (e.v, true))) (gs.map ent) a.values fun p hp => (hval p).mp hp
  have hpn : (ps.map Entry.name).Nodup := by
    have := PutBuild.sorted_nodup ha2
    rw [hps1, List.map_map] at this
    exact this
  have hcover : ∀ e ∈ gs.map ent, e ∈ ps := by
    intro e he
    have : (e.name, (e.v, true)) ∈ a.values := (hval _).mpr ⟨e, he, rfl⟩
    rw [hps1] at this
    obtain ⟨e', he', heq⟩ := List.mem_map.mp this
    have hnm : e'.name = e.name := congrArg Prod.fst heq
    rw [← nodup_inj Entry.name hEn (hps2 e' he') he hnm]
    exact he'
  -- the type
  let ms := (gs.map ent).map Entry.mem
  have hms : ∀ k ∈ ms, Good k := by
    intro k hk
    obtain ⟨x, hx, rfl⟩ := List.mem_map.mp hk
    exact mem_good (hEs x hx)
  have hmn : (ms.map Member.name).Nodup := by show (((gs.map ent).map Entry.mem).map Member.name).Nodup; rw [List.map_map]; exact hEn
  have hmem : members a a.names = .ok ms := by
    rw [hnames]
    have := members_eq (fun g => (F g).1) (fun g => (F g).2.1) a gs (fun g hg => ⟨(SMap.find?_some ha2).mpr ((hval _).mpr ⟨ent g, List.mem_map.mpr ⟨g, hg, rfl⟩, rfl⟩),
      (hmade g hg).desc, (hmade g hg).valid, (hmade g hg).distinct⟩)
    rw [this]
    show _ = Res.ok ((gs.map ent).map Entry.mem)
    rw [List.map_map]
    rfl
  obtain ⟨u1, u2, u3, u4⟩ := uri_full hms hmn
  have hfU := full_of_distinct _ u2
  have hcreate : (defOf (lit "epics:nt/NTURI:1.0") (uriKids ms)).create = .ok (.mk (flat (uriM ms)) (initCells (flat (uriM ms)))) := new_eq u1 u2
  have hkg : ∀ g ∈ gs, ∃ o, KidAt 1 ms o (ent g).mem := fun g hg => PVR.kidAt_of_mem (List.mem_map.mpr ⟨ent g, List.mem_map.mpr ⟨g, hg, rfl⟩, rfl⟩)
  have hlast : ∀ (e : Entry) (o : Nat), KidAt 1 ms o e.mem → 1 ≤ o := fun e o hk => hk.bound.1
  -- the values
  obtain ⟨cs, c1, c2, c3, c4⟩ := each_ok env (n+1) (gs.map ent) hEs hEn ps (initCells (flat (uriM ms))) hps2 hpn (by simp [initCells, ms]) (by
    intro e he o hk i hi
    have hemb := kid_embeds (ms := ms) hk
    rw [mem_flat] at hemb
    have hil : i < (flat e.m).length := by rw [flat_length]; exact hi
    obtain ⟨pn, hpn⟩ := hemb.get i _ (List.getElem?_eq_getElem hil)
    rw [init_get hpn, init_get (List.getElem?_eq_getElem hil)])
  have huri : uriArgs env (n+1) a = .ok (.mk (flat (uriM ms)) cs) := by
    unfold uriArgs
    rw [uri_ok [] Props.NT.all_nil List.nodup_nil, Res.bind_ok, hmem, Res.bind_ok]
    have hq := (uri_good ms hms hmn).1 { code := .Struct, name := lit "query", children := ms } (by simp [uriKids])
    rw [hq.1.1, Res.bind_ok, uri_plus ms hms hmn, Res.bind_ok, hcreate, Res.bind_ok]
    simp only
    rw [hps1, show (flat (uriM ms)) = flat (uriM ((gs.map ent).map Entry.mem)) from rfl, c1, Res.bind_ok]
  have hpath : member (flat (uriM ms)) (lit "path") = .ok (some 3) :=
    member_kid (c := fld .String "path") hfU rfl ⟨[fld .String "scheme", fld .String "authority"], [{ code := .Struct, name := lit "query", children := ms }], rfl, rfl⟩ (by decide) (by decide)
  have hcall : call env (n+1) name .null gs = .ok (.mk (flat (uriM ms)) (storeCell cs 3 (.str name))) := by
    obtain ⟨g0, gs', rfl⟩ := List.exists_cons_of_ne_nil hne
    simp only [call]
    rw [hargs, Res.bind_ok]
    simp only [exec, Bool.true_eq_false, if_false, huri, Res.bind_ok, withPath, hpath]
  have hlenU : 4 < (flat (uriM ms)).length := by
    have := (query_embeds ms).len
    have hp := count_pos (queryM ms)
    rw [flat_length] at this
    omega
  have hcl : cs.length = (flat (uriM ms)).length := by rw [c2]; simp [initCells]
  have hfirst : ∀ j, j < 5 → cs[j]? = (initCells (flat (uriM ms)))[j]? := by
    intro j hj
    refine c4 j fun e he o hk hbad => ?_
    have := hlast e o hk
    omega
  have hleaf : ∀ (o : Nat) (s : String) (pre post : List Member), uriKids ms = pre ++ fld .String s :: post → o = 1 + countKids pre →
      Descends (flat (uriM ms)) 0 [lit s] o ∧ ∃ d, (flat (uriM ms))[o]? = some d ∧ d.code = .String := by
    intro o s pre post h1 h2
    have hk : KidAt 1 (uriM ms).children o (fld .String s) := ⟨pre, post, h1, h2⟩
    obtain ⟨d, hd1, hd2, _⟩ := embeds_root (full_of_distinct _ (Props.NT.leaf_distinct _ _)) (embeds_child (m := uriM ms) rfl hk)
    exact ⟨descends_kid (m := uriM ms) rfl hk, d, hd1, hd2⟩
  obtain ⟨p1, d1, p1a, p1b⟩ := hleaf 1 "scheme" [] [fld .String "authority", fld .String "path", queryM ms] rfl rfl
  obtain ⟨p2, d2, p2a, p2b⟩ := hleaf 2 "authority" [fld .String "scheme"] [fld .String "path", queryM ms] rfl rfl
  obtain ⟨p3, d3, p3a, p3b⟩ := hleaf 3 "path" [fld .String "scheme", fld .String "authority"] [queryM ms] rfl rfl
  have hset : ∀ j, j ≠ 3 → (storeCell cs 3 (.str name))[j]? = cs[j]? := fun j hj => List.getElem?_set_ne (fun h => hj h.symm)
  refine ⟨ms, _, _, _, hcall, rfl, by simp [storeCell, hcl], build_total _ u1 u2, ?_, ⟨d3, ⟨_, _, 3, rfl, p3, p3a, ?_⟩, p3b⟩,
    ⟨d1, ⟨_, _, 1, rfl, p1, p1a, ?_⟩, p1b⟩, ⟨d2, ⟨_, _, 2, rfl, p2, p2a, ?_⟩, p2b⟩, ?_⟩
  · show ((gs.map ent).map Entry.mem).map Member.name = _
    rw [List.map_map, List.map_map]
    rfl
  · exact List.getElem?_set_self (by omega)
  · rw [hset 1 (by decide), hfirst 1 (by decide), init_get p1a, p1b]
    rfl
  · rw [hset 2 (by decide), hfirst 2 (by decide), init_get p2a, p2b]
    rfl
  · intro i g hg
    have hgm := List.mem_of_getElem? hg
    have hmk := hmade g hgm
    have hgood := mem_good (hEs (ent g) (List.mem_map.mpr ⟨g, hgm, rfl⟩))
    have hfl : flat (ent g).mem = typeOf g.2 := by rw [mem_flat, hmk.type]
    refine ⟨(ent g).mem, ?_, ?_, ?_⟩
    · show ((gs.map ent).map Entry.mem)[i]? = _
      rw [List.getElem?_map, List.getElem?_map, hg]
      rfl
    · rw [build_total _ hgood.1 hgood.2.2, hfl]
    · intro path k d hpk hkd
      obtain ⟨o, hk⟩ := hkg g hgm
      have hemb := kid_embeds (ms := ms) hk
      have hkl := (List.getElem?_eq_some_iff.mp hkd).1
      rw [← hfl, flat_length, mem_count] at hkl
      rw [← hfl] at hpk
      obtain ⟨pn, hpn⟩ := hemb.get k d (by rw [hfl]; exact hkd)
      have hcell := c3 (ent g) (hcover _ (List.mem_map.mpr ⟨g, hgm, rfl⟩)) o hk k hkl
      obtain ⟨c, hc1, hc2, hc3⟩ := hmk.left.2 k d (by rw [← hmk.type]; exact hkd)
      have ho := hlast (ent g) o hk
      refine ⟨_, c, ⟨_, _, 4 + o + k, rfl, ?_, hpn, ?_⟩, rfl, rfl, ?_, ?_⟩
      · have e1 : Descends (flat (uriM ms)) 0 [lit "query"] 4 := descends_kid (m := uriM ms) rfl (kid_query ms)
        have e2 : Descends (flat (uriM ms)) 4 [g.1] (4 + o) := descends_embed (query_embeds ms) (descends_kid (m := queryM ms) rfl hk)
        have e3 : Descends (flat (uriM ms)) (4 + o) path (4 + o + k) := descends_embed hemb hpk
        have := descends_append.mpr ⟨_, e1, descends_append.mpr ⟨_, e2, e3⟩⟩
        exact this
      · rw [hset _ (by omega), hcell]
        exact hc1
      · rw [hmk.type]; exact hc2
      · rw [hmk.type]; exact hc3

/-- struct { int32_t a; int32_t b; } -/
def pairM : Member := { code := .Struct, children := [{ code := .Int32, name := txt "a" }, { code := .Int32, name := txt "b" }] }

/-- a = 5, which is marked, and b = 7, which is not -/
def pairV : Val := .mk (flat pairM) [.mk false .null, .mk true (.int 5), .mk false (.int 7)]

theorem pair_ok : Validated pairM ∧ DistinctNames pairM := by
  constructor
  · simp [pairM, Validated, ValidatedAll]; decide
  · simp [pairM, DistinctNames, DistinctNamesAll]; decide

theorem pair_flat : flat pairM = [{ code := .Struct, mlookup := [(txt "a", 1), (txt "b", 2)], miter := [(txt "a", 1), (txt "b", 2)] },
    { code := .Int32, parentIndex := 1 }, { code := .Int32, parentIndex := 2 }] := rfl

theorem pair_allowed : Allowed (.value pairV) := by
  refine .value pairM (flat pairM) _ pair_ok.1 pair_ok.2 (build_total _ pair_ok.1 pair_ok.2) ?_ ?_ (Or.inr rfl) ?_
  · intro d hd p hp
    rw [pair_flat] at hd
    simp only [List.mem_cons, List.not_mem_nil, or_false] at hd
    rcases hd with rfl | rfl | rfl
    · simp only [List.mem_cons, List.not_mem_nil, or_false] at hp
      rcases hp with rfl | rfl <;> decide
    · exact nomatch hp
    · exact nomatch hp
  · rw [pair_flat]
    simp only [ValOK, CellsOK, DatumOK]
    refine ⟨rfl, rfl, by simp, ?_⟩
    simp
  · intro j d _ hd
    rw [pair_flat] at hd
    rcases j with _ | _ | _ | j <;> simp at hd <;> subst hd <;> decide

/-- the hypotheses of C100_args_partial are met by rpc(..).arg("x", 5).arg("s", "t").arg("v", pair) -/
example : let gs : List (Str × Given) := [(txt "x", .plain .Int64 (.int 5)), (txt "s", .plain .String (.str (txt "t"))), (txt "v", .value pairV)]
    gs ≠ [] ∧ (∀ g ∈ gs, Name g.1) ∧ (gs.map (·.1)).Nodup ∧ ∀ g ∈ gs, Allowed g.2 := by
  refine ⟨by simp, ?_, by decide, ?_⟩
  · intro g hg
    simp only [List.mem_cons, List.not_mem_nil, or_false] at hg
    rcases hg with rfl | rfl | rfl <;> exact ⟨_, _, rfl, by decide, by decide⟩
  · intro g hg
    simp only [List.mem_cons, List.not_mem_nil, or_false] at hg
    rcases hg with rfl | rfl | rfl
    · exact .plain _ _ (by unfold Simple; decide) rfl (by simp [DatumOK])
    · refine .plain _ _ (by unfold Simple; decide) rfl ?_
      simp only [DatumOK]
      exact ⟨trivial, by decide⟩
    · exact pair_allowed

/-- A field of a structure which has a content but is not marked is not sent: the server gets 0.  (This is the case for most fields of a value which was received as an update of a
subscription.) -/
theorem C100_unmarked (env : CopyEnv) (n : Nat) (name : Str) : ∃ (v : Val) (d : FieldDesc) (c : Cell), call env (n+1) name .null [(txt "v", .value pairV)] = .ok v ∧
    Has v [txt "query", txt "v", txt "b"] d c ∧ c.data = .int 0 := by
  obtain ⟨ms, v, t, cs, h1, _, _, _, _, _, _, _, h2⟩ := C100_args_partial env n name [(txt "v", .value pairV)] (by simp)
    (fun g hg => by simp only [List.mem_cons, List.not_mem_nil, or_false] at hg; subst hg; exact ⟨_, _, rfl, by decide, by decide⟩) (by simp)
    (fun g hg => by simp only [List.mem_cons, List.not_mem_nil, or_false] at hg; subst hg; exact pair_allowed)
  obtain ⟨m, _, _, h3⟩ := h2 0 _ rfl
  obtain ⟨d, c, h4, _, _, _, h5⟩ := h3 [txt "b"] 2 { code := .Int32, parentIndex := 2 }
    (.member 0 _ (txt "b") 2 [] 2 rfl rfl (show (txt "b", 2) ∈ [(txt "a", 1), (txt "b", 2)] from .tail _ (.head _)) (.here 2)) rfl
  refine ⟨v, d, c, h1, h4, (h5 ?_).1⟩
  rintro (⟨d, hd, hd'⟩ | ⟨b, hb0, _, hb2, hb3⟩)
  · injection hd with hd
    subst hd
    exact hd' rfl
  · obtain ⟨x, hx, hle, hlt⟩ := hb3
    rcases b with _ | _ | _ | b
    · exact hb0 rfl
    · injection hx with hx
      subst hx
      revert hlt
      decide
    · revert hb2; decide
    · revert hb2
      simp [contentOf, pairV, validAt]

/-- When a value is given to rpc() the arguments given to arg() are not sent, without notice.  The example in the documentation of `Context::rpc(name, arg)` does this. -/
theorem C100_both (env : CopyEnv) (n : Nat) (name : Str) (t : List FieldDesc) (cs : List Cell) (gs : List (Str × Given)) (hn : (gs.map (·.1)).Nodup)
    (hok : ∀ g ∈ gs, Allowed g.2) : call env (n+1) name (.mk t cs) gs = .ok (.mk t cs) := by
  have hall : ∀ g, ∃ v : Val, Allowed g → Rpc.build env (n+1) g = .ok v := by
    intro g
    by_cases h : Allowed g
    · obtain ⟨m, v, rs, hm⟩ := made env n g h
      exact ⟨v, fun _ => hm.built⟩
    · exact ⟨.null, fun h' => absurd h' h⟩
  obtain ⟨F, hF⟩ := Classical.skolem.mp hall
  obtain ⟨a, ha1, _⟩ := PutBuild.setAll_spec (gs.map fun g => { name := g.1, value := F g.2, required := true }) {} SMap.sorted_nil
    (by rw [List.map_map]; exact hn) (fun a _ h => by simp [SMap.keys] at h)
  cases gs with
  | nil => rfl
  | cons g gs =>
    simp only [call]
    rw [argAll_eq env (n+1) F (g :: gs) {} fun g hg => hF g.2 (hok g hg), ha1]
    rfl

/-- a second argument of the same name is refused -/
theorem C100_twice (env : CopyEnv) (n : Nat) (name x : Str) (v : Val) (g g' : Given) (hg : Allowed g) :
    call env (n+1) name v [(x, g), (x, g')] = .throws "logic_error" := by
  obtain ⟨m, w, rs, hm⟩ := made env n g hg
  simp only [call, argAll, Rpc.arg, SMap.find?, Option.isSome_none, Bool.false_eq_true, if_false, hm.built, Res.bind_ok, PutBuild.set, SMap.insert, if_true,
    Option.isSome_some]
  rfl

/-- without arguments nothing is sent -/
theorem C100_none (env : CopyEnv) (n : Nat) (name : Str) : call env n name .null [] = .ok .null := rfl

/-! ### arguments which are not sent as given -/

theorem named_good {m : Member} {x : Str} (hx : Name x) (hv : Validated m) (hd : DistinctNames m) : Good { m with name := x } := by
  obtain ⟨hne, hpl⟩ := name_plain hx
  obtain ⟨h1, h2⟩ := Props.NT.name_ok hx
  refine ⟨?_, h2, ?_⟩
  · have hvv := (Props.TypeDef.validated_iff m).mp hv
    refine (Props.TypeDef.validated_iff _).mpr ⟨?_, hvv.2⟩
    have := hvv.1
    unfold Member.validate at this ⊢
    obtain ⟨_, _, h4⟩ := Res.bind_eq_ok this
    show (ifNamed x (nameValidate x) >>= _) = _
    unfold ifNamed
    rw [if_pos hne, h1, Res.bind_ok]
    exact h4
  · cases m
    exact Pvxs.distinct_of _ _ _ _ _ _ _ hd

/-- the call with one argument of which `v` was made -/
theorem one_arg (env : CopyEnv) (n : Nat) (name x : Str) (g : Given) (m : Member) (v : Val) (hx : Name x) (hv : Validated m) (hd : DistinctNames m) (hm : m.name = [])
    (hb : Rpc.build env n g = .ok v) (hdesc : v.desc = flat m) :
    call env n name .null [(x, g)] =
      ((assign env n (.mk (flat m) (initCells (flat m))) v >>= replace (initCells (flat (uriM [{ m with name := x }]))) 5) >>= fun cs =>
        withPath name (.mk (flat (uriM [{ m with name := x }])) cs)) := by
  obtain ⟨hne, hpl⟩ := name_plain hx
  let e : Entry := ⟨x, m, v, []⟩
  have hgood : Good e.mem := named_good hx hv hd
  have hms : ∀ k ∈ [e.mem], Good k := Props.NT.all_cons hgood Props.NT.all_nil
  have hmn : ([e.mem].map Member.name).Nodup := by simp
  obtain ⟨u1, u2, u3, u4⟩ := uri_full hms hmn
  have hfU := full_of_distinct _ u2
  have hfQ := full_of_distinct _ u4
  have hk : KidAt 1 [e.mem] 1 e.mem := ⟨[], [], rfl, rfl⟩
  have hpt : partType (flat (uriM [e.mem])) 5 = flat m := by
    have := partType_eq (full_of_distinct _ hgood.2.2) (kid_embeds hk)
    rw [mem_flat] at this
    exact this
  have hq : member (flat (uriM [e.mem])) (lit "query") = .ok (some 4) :=
    member_kid (c := queryM [e.mem]) hfU rfl (kid_query _) (show lit "query" ≠ [] by decide) (show (lit "query").any endsName = false by decide)
  have hm1 : member (partType (flat (uriM [e.mem])) 4) x = .ok (some 1) := by
    rw [partType_eq hfQ (query_embeds _)]
    exact member_kid (c := e.mem) hfQ rfl hk hne hpl
  have hpart : part (flat (uriM [e.mem])) (initCells (flat (uriM [e.mem]))) 5 = .mk (flat m) (initCells (flat m)) := by
    unfold part
    rw [hpt]
    congr 1
    have hemb := kid_embeds hk
    rw [mem_flat] at hemb
    apply List.ext_getElem?
    intro i
    rw [List.getElem?_take, List.getElem?_drop]
    by_cases hi : i < (flat m).length
    · rw [if_pos hi]
      obtain ⟨pn, hpn⟩ := hemb.get i _ (List.getElem?_eq_getElem hi)
      rw [init_get (List.getElem?_eq_getElem hi), show 5 + i = 4 + 1 + i from rfl, init_get hpn]
    · rw [if_neg hi]
      symm
      apply List.getElem?_eq_none
      simp only [initCells, List.length_map]
      omega
  obtain ⟨c, hc, e1, e2, e3⟩ := (Props.TypeDef.C80_copy m _ hv hd (build_total _ hv hd)).2
  have hcm : ({ c with name := x } : Member) = e.mem := by
    show _ = ({ m with name := x } : Member)
    cases c; cases m
    simp only at e1 e2 e3
    subst e1; subst e2; subst e3
    rfl
  have hval := hgood.1.1
  have hqv := (uri_good [e.mem] hms hmn).1 { code := .Struct, name := lit "query", children := [e.mem] } (by simp [uriKids])
  have hcreate : (defOf (lit "epics:nt/NTURI:1.0") (uriKids [e.mem])).create = .ok (.mk (flat (uriM [e.mem])) (initCells (flat (uriM [e.mem])))) := new_eq u1 u2
  have hargs : argAll env n {} [(x, g)] = .ok { values := [(x, (v, true))], names := [x] } := by
    simp only [argAll, Rpc.arg, SMap.find?, Option.isSome_none, Bool.false_eq_true, if_false, hb, Res.bind_ok, PutBuild.set, SMap.insert]
    rfl
  simp only [call]
  rw [hargs, Res.bind_ok]
  simp only [exec, Bool.true_eq_false, if_false]
  have hu : uriArgs env n { values := [(x, (v, true))], names := [x] } =
      ((assign env n (.mk (flat m) (initCells (flat m))) v >>= replace (initCells (flat (uriM [e.mem]))) 5) >>= fun cs => .ok (.mk (flat (uriM [e.mem])) cs)) := by
    unfold uriArgs
    rw [uri_ok [] Props.NT.all_nil List.nodup_nil, Res.bind_ok]
    simp only [members, SMap.find?, if_true, hdesc, hc, Res.bind_ok, Def.as, hcm]
    rw [hqv.1.1, Res.bind_ok, uri_plus [e.mem] hms hmn, Res.bind_ok, hcreate, Res.bind_ok]
    simp only [assignEach, assignOne, hq, Res.bind_ok, hm1]
    rw [show 4 + 1 = 5 from rfl, hpart]
    cases assign env n (.mk (flat m) (initCells (flat m))) v with
    | ok r =>
      simp only [Res.bind_ok]
      cases replace (initCells (flat (uriM [e.mem]))) 5 r <;> rfl
    | throws w => rfl
    | ub => rfl
  rw [hu]
  cases assign env n (.mk (flat m) (initCells (flat m))) v with
  | ok r =>
    simp only [Res.bind_ok]
    show (replace (initCells (flat (uriM [e.mem]))) 5 r >>= _) >>= _ = (replace (initCells (flat (uriM [e.mem]))) 5 r >>= _)
    cases replace (initCells (flat (uriM [e.mem]))) 5 r <;> rfl
  | throws w => rfl
  | ub => rfl

theorem compound_leaf (c : TypeCode) (hc : c = .Any ∨ c = .AnyA) :
    Validated { code := c } ∧ DistinctNames { code := c } ∧ flat { code := c } = [({ code := c } : FieldDesc)] := by
  refine ⟨?_, Props.NT.leaf_distinct _ _, ?_⟩
  · rcases hc with rfl | rfl <;> (simp [Validated, ValidatedAll]; decide)
  · rcases hc with rfl | rfl <;> rfl

/-- An array of values can not be an argument: exec() throws. -/
theorem C100_values (env : CopyEnv) (n : Nat) (name x : Str) (vs : List Val) (hx : Name x) :
    call env (n+1) name .null [(x, .vals vs)] = .throws "NoConvert" := by
  obtain ⟨h1, h2, h3⟩ := compound_leaf .AnyA (Or.inr rfl)
  rw [one_arg env (n+1) name x (.vals vs) { code := .AnyA } (leafVal .AnyA (.vals vs)) hx h1 h2 rfl rfl h3.symm, h3]
  rfl

/-- A field of type Any which is given as argument arrives inside of two more: the server has to look into an Any, then into another, to find what was in the field. -/
theorem C100_any (env : CopyEnv) (n : Nat) (name x : Str) (w : Val) (hx : Name x) : ∃ (v : Val) (d : FieldDesc),
    call env (n+1) name .null [(x, .value (.mk [{ code := .Any }] [.mk true (.any w)]))] = .ok v ∧
    Has v [txt "query", x] d (.mk true (.any (.mk [{ code := .Any }] [.mk true (.any (.mk [{ code := .Any }] [.mk true (.any w)]))]))) := by
  obtain ⟨h1, h2, h3⟩ := compound_leaf .Any (Or.inl rfl)
  obtain ⟨c, hc, _⟩ := (Props.TypeDef.C80_copy { code := .Any } _ h1 h2 (build_total _ h1 h2)).2
  rw [h3] at hc
  have hb : Rpc.build env (n+1) (.value (.mk [{ code := .Any }] [.mk true (.any w)])) =
      .ok (.mk [{ code := .Any }] [.mk true (.any (.mk [{ code := .Any }] [.mk true (.any w)]))]) := by
    simp only [Rpc.build, hc, Res.bind_ok, Def.create]
    rfl
  have hgood : Good { code := .Any, name := x } := named_good (m := { code := .Any }) hx h1 h2
  obtain ⟨u1, u2, u3, u4⟩ := uri_full (ms := [{ code := .Any, name := x }]) (Props.NT.all_cons hgood Props.NT.all_nil) (by simp)
  have hpath : member (flat (uriM [{ code := .Any, name := x }])) (lit "path") = .ok (some 3) :=
    member_kid (c := fld .String "path") (full_of_distinct _ u2) rfl
      ⟨[fld .String "scheme", fld .String "authority"], [queryM [{ code := .Any, name := x }]], rfl, rfl⟩ (by decide) (by decide)
  let y : Cell := .mk true (.any (.mk [{ code := .Any }] [.mk true (.any (.mk [{ code := .Any }] [.mk true (.any w)]))]))
  let cs : List Cell := storeCell [.mk false .null, .mk false (.str []), .mk false (.str []), .mk false (.str []), .mk false .null, y] 3 (.str name)
  refine ⟨.mk (flat (uriM [{ code := .Any, name := x }])) cs, { code := .Any, parentIndex := 1 }, ?_, ⟨_, _, 5, rfl, ?_, rfl, rfl⟩⟩
  · rw [one_arg env (n+1) name x _ { code := .Any } _ hx h1 h2 rfl hb h3.symm, h3]
    show withPath name (.mk (flat (uriM [{ code := .Any, name := x }])) [.mk false .null, .mk false (.str []), .mk false (.str []), .mk false (.str []), .mk false .null, y]) = _
    simp only [withPath, hpath, Res.bind_ok]
    rfl
  · exact .member 0 _ (txt "query") 4 _ 5 rfl rfl (.tail _ (.tail _ (.tail _ (.head _)))) (.member 4 _ x 1 [] 5 rfl rfl (.head _) (.here 5))

/-- union { int32_t i; }, with i = 5 -/
def unionT : List FieldDesc := flat { code := .Union, children := [{ code := .Int32, name := txt "i" }] }

/-- A union can not be an argument: arg() throws. -/
theorem C100_union (env : CopyEnv) (n : Nat) (name x : Str) :
    ∃ w : Val, ValOK w ∧ w.desc = unionT ∧ call env (n+1) name .null [(x, .value w)] = .throws "NoConvert" := by
  have h1 : Validated { code := .Union, children := [{ code := .Int32, name := txt "i" }] } := by simp [Validated, ValidatedAll]; decide
  have h2 : DistinctNames { code := .Union, children := [{ code := .Int32, name := txt "i" }] } := by simp [DistinctNames, DistinctNamesAll]; decide
  obtain ⟨c, hc, _⟩ := (Props.TypeDef.C80_copy _ _ h1 h2 (build_total _ h1 h2)).2
  refine ⟨.mk unionT [.mk true (.union 0 (.mk [{ code := .Int32 }] [.mk true (.int 5)]))], ?_, rfl, ?_⟩
  · have hu : unionT = [{ code := .Union, mlookup := [(txt "i", 0)], miter := [(txt "i", 0)], members := [{ code := .Int32 }] }] := rfl
    rw [hu]
    simp [ValOK, CellsOK, DatumOK]
    exact ⟨rfl, rfl, ⟨rfl, rfl⟩, rfl⟩
  · have hb : Rpc.build env (n+1) (.value (.mk unionT [.mk true (.union 0 (.mk [{ code := .Int32 }] [.mk true (.int 5)]))])) = .throws "NoConvert" := by
      simp only [Rpc.build]
      show (ofValue (flat _) >>= _) = _
      rw [hc, Res.bind_ok]
      have he : equalType unionT [{ code := .Int32 }] = .ok false := by
        show equalType [_] _ = _
        rw [equalType, if_neg (by decide)]
        show equalNodes 1 _ _ = _
        rw [equalNodes, equalNode, if_pos (by decide)]
        rfl
      show (copyUnion (assign env n) _ .unionNull (.mk unionT _) >>= _) = _
      unfold copyUnion
      show ((firstChoice { code := .Union, mlookup := [(txt "i", 0)], miter := [(txt "i", 0)], members := [{ code := .Int32 }] } unionT 0 [(txt "i", 0)] >>= _) >>= _) = _
      unfold firstChoice
      show (((equalType unionT [{ code := .Int32 }] >>= _) >>= _) >>= _) = _
      rw [he]
      rfl
    simp only [call, argAll, Rpc.arg, SMap.find?, Option.isSome_none, Bool.false_eq_true, if_false, hb]
    rfl

/-- The name of an argument is not checked: with arg("a-b", 5) the call fails, but only in exec(). -/
theorem C100_name (env : CopyEnv) (n : Nat) (name : Str) :
    (∃ a, argAll env (n+1) {} [(txt "a-b", .plain .Int64 (.int 5))] = .ok a) ∧
    call env (n+1) name .null [(txt "a-b", .plain .Int64 (.int 5))] = .throws "logic_error" := by
  have h1 : Validated { code := .Int64 } := by simp [Validated, ValidatedAll]; decide
  have h2 : DistinctNames { code := .Int64 } := Props.NT.leaf_distinct _ _
  obtain ⟨c, hc, e1, e2, e3⟩ := (Props.TypeDef.C80_copy _ _ h1 h2 (build_total _ h1 h2)).2
  have hcm : ({ c with name := txt "a-b" } : Member) = { code := .Int64, name := txt "a-b" } := by
    cases c
    simp only at e1 e2 e3
    subst e1; subst e2; subst e3
    rfl
  have hargs : argAll env (n+1) {} [(txt "a-b", .plain .Int64 (.int 5))] = .ok { values := [(txt "a-b", (leafVal .Int64 (.int 5), true))], names := [txt "a-b"] } := rfl
  refine ⟨⟨_, hargs⟩, ?_⟩
  simp only [call]
  rw [hargs, Res.bind_ok]
  simp only [exec, Bool.true_eq_false, if_false]
  have hf : flat { code := .Int64 } = [({ code := .Int64 } : FieldDesc)] := rfl
  rw [hf] at hc
  have hp : adoptAll (uriKids []) [{ code := .Struct, name := lit "query", children := [{ code := .Int64, name := txt "a-b" }] }] =
      .ok (uriKids [{ code := .Int64, name := txt "a-b" }]) := by
    have h1 := Props.TypeDef.adopt_old { code := .Struct, name := lit "query", children := [{ code := .Int64, name := txt "a-b" }] } { code := .Struct, name := lit "query" } [] rfl
      [fld .String "scheme", fld .String "authority", fld .String "path"] (by
        show lit "query" ∉ ([lit "scheme", lit "authority", lit "path"] : List Str)
        decide)
    rw [adoptAll]
    rw [show uriKids [] = [fld .String "scheme", fld .String "authority", fld .String "path"] ++ ({ code := .Struct, name := lit "query" } : Member) :: [] from rfl]
    rw [h1, if_neg (by intro h; exact h rfl), adopt_all_new _ [] (by simp)]
    simp only [Res.bind_ok]
    rw [adoptAll]
    rfl
  have hpl : plus (defOf (lit "epics:nt/NTURI:1.0") (uriKids [])) [{ code := .Struct, name := lit "query", children := [{ code := .Int64, name := txt "a-b" }] }] =
      .ok (defOf (lit "epics:nt/NTURI:1.0") (uriKids [{ code := .Int64, name := txt "a-b" }])) := by
    unfold plus Def.append defOf
    simp only
    rw [if_neg (by intro h; exact h.1 rfl), hp]
    rfl
  have hu : uriArgs env (n+1) { values := [(txt "a-b", (leafVal .Int64 (.int 5), true))], names := [txt "a-b"] } = .throws "logic_error" := by
    unfold uriArgs
    rw [uri_ok [] Props.NT.all_nil List.nodup_nil, Res.bind_ok]
    simp only [members, SMap.find?, if_true, leafVal, Val.desc, hc, Res.bind_ok, Def.as, hcm]
    rw [show Member.validate { code := .Struct, name := lit "query", children := [{ code := .Int64, name := txt "a-b" }] } = .ok () from rfl, Res.bind_ok, hpl, Res.bind_ok]
    rfl
  rw [hu]
  rfl

/-! ### NTURI::call -/

theorem simple_ok {d d' : FieldDesc} {x : Datum} (hc : d'.code = d.code) (hs : Simple d.code) (ok : DatumOK d x) : DatumOK d' x := by
  unfold Simple at hs
  simp only [List.mem_cons, not_or] at hs
  cases x <;> simp only [DatumOK, hc] at ok ⊢
  all_goals first
    | exact ok
    | exact absurd ok.1 hs.2.1
    | skip
  exact absurd ok.2 (by rintro (⟨h, _⟩ | ⟨h, _⟩ | ⟨h, _⟩) <;> simp_all)

theorem rest_ok (env : CopyEnv) (n : Nat) (t : List FieldDesc) : ∀ (ks : List Nat) (xs : List (TypeCode × Datum)) (cs : List Cell), ks.Nodup → xs.length ≤ ks.length →
    (∀ k ∈ ks, k < cs.length) →
    (∀ (i k : Nat) (x : TypeCode × Datum), ks[i]? = some k → xs[i]? = some x → ∃ d, t[k]? = some d ∧ d.code = x.1 ∧ Simple x.1 ∧ DatumOK d x.2) →
    ∃ cs' : List Cell, assignRest env n t ks xs cs = .ok cs' ∧ cs'.length = cs.length ∧
      (∀ (i k : Nat) (x : TypeCode × Datum), ks[i]? = some k → xs[i]? = some x → cs'[k]? = some (.mk true x.2)) ∧
      (∀ j, (∀ i, i < xs.length → ks[i]? ≠ some j) → cs'[j]? = cs[j]?)
  | ks, [], cs, _, _, _, _ => by
    refine ⟨cs, ?_, rfl, fun i k x _ h => ?_, fun _ _ => rfl⟩
    · cases ks <;> rfl
    · simp at h
  | [], x :: xs, cs, _, h, _, _ => by simp at h
  | k :: ks, (c, x) :: xs, cs, hn, hl, hcs, hok => by
    obtain ⟨d, hd, hdc, hs, ho⟩ := hok 0 k (c, x) rfl rfl
    have hcopy : copyDatum env (assign env n) d (datumAt cs k) c x = .ok x := by
      simp only at hdc hs ho
      subst hdc
      simp only [Simple, List.mem_cons, not_or] at hs
      obtain ⟨h1, h2, h3, h4, h5, h6, _⟩ := hs
      exact copyDatum_same env _ d _ x ho h1 (whole_of env ho (by simp only [List.mem_cons, not_or]; exact ⟨h2, h4, h5, fun h => nomatch h⟩))
    rw [List.nodup_cons] at hn
    obtain ⟨cs', h1, h2, h3, h4⟩ := rest_ok env n t ks xs (storeCell cs k x) hn.2 (by simpa using hl)
      (fun j hj => by simp only [storeCell, List.length_set]; exact hcs j (by simp [hj]))
      (fun i j y hi hy => hok (i+1) j y hi hy)
    refine ⟨cs', ?_, by rw [h2]; simp [storeCell], ?_, ?_⟩
    · simp only [assignRest, hd, hcopy, Res.bind_ok]
      exact h1
    · intro i j y hi hy
      cases i with
      | zero =>
        simp only [List.getElem?_cons_zero, Option.some.injEq] at hi hy
        subst hi; subst hy
        rw [h4 k fun i _ hi => hn.1 (List.mem_of_getElem? hi)]
        exact List.getElem?_set_self (hcs k (by simp))
      | succ i => exact h3 i j y hi hy
    · intro j hj
      rw [h4 j fun i hi hk => hj (i+1) (by simp only [List.length_cons]; omega) hk]
      exact List.getElem?_set_ne fun e => hj 0 (by simp) (by simp [e])

theorem rest_many (env : CopyEnv) (n : Nat) (t : List FieldDesc) : ∀ (ks : List Nat) (xs : List (TypeCode × Datum)) (cs : List Cell), ks.length < xs.length →
    (∀ (i k : Nat) (x : TypeCode × Datum), ks[i]? = some k → xs[i]? = some x → ∃ d, t[k]? = some d ∧ d.code = x.1 ∧ Simple x.1 ∧ DatumOK d x.2) →
    assignRest env n t ks xs cs = .throws "logic_error"
  | _, [], _, h, _ => by simp at h
  | [], x :: xs, cs, _, _ => rfl
  | k :: ks, (c, x) :: xs, cs, h, hok => by
    obtain ⟨d, hd, hdc, hs, ho⟩ := hok 0 k (c, x) rfl rfl
    have hcopy : copyDatum env (assign env n) d (datumAt cs k) c x = .ok x := by
      simp only at hdc hs ho
      subst hdc
      simp only [Simple, List.mem_cons, not_or] at hs
      obtain ⟨h1, h2, h3, h4, h5, h6, _⟩ := hs
      exact copyDatum_same env _ d _ x ho h1 (whole_of env ho (by simp only [List.mem_cons, not_or]; exact ⟨h2, h4, h5, fun h => nomatch h⟩))
    simp only [assignRest, hd, hcopy, Res.bind_ok]
    exact rest_many env n t ks xs _ (by simpa using h) (fun i j y hi hy => hok (i+1) j y hi hy)

theorem iter_get : ∀ (ms : List Member) (off i : Nat) (p : Str × Nat), (kidIter off ms)[i]? = some p → ∃ m, ms[i]? = some m ∧ m.name = p.1 ∧ KidAt off ms p.2 m
  | [], _, _, _, h => by simp [kidIter] at h
  | m :: ms, off, 0, p, h => by
    simp only [kidIter, List.getElem?_cons_zero, Option.some.injEq] at h
    subst h
    exact ⟨m, rfl, rfl, [], ms, rfl, rfl⟩
  | m :: ms, off, i+1, p, h => by
    simp only [kidIter, List.getElem?_cons_succ] at h
    obtain ⟨c, h1, h2, pre, post, h3, h4⟩ := iter_get ms _ i p h
    refine ⟨c, h1, h2, m :: pre, post, by rw [h3]; rfl, ?_⟩
    rw [h4]
    simp only [countKids]
    omega

theorem iter_length : ∀ (ms : List Member) (off : Nat), (kidIter off ms).length = ms.length
  | [], _ => rfl
  | m :: ms, off => by simp [kidIter, iter_length ms]

/-- `nt::NTURI({members}).call(args...)` gives an NTURI of which the fields of the query have the values of the arguments, in the order in which the members were given, and are marked;
the members for which there is no argument, and the scheme, the authority and the path, have no value and are not marked.  With more arguments than members it throws. -/
theorem C100_call (env : CopyEnv) (n : Nat) (ms : List Member) (hms : ∀ k ∈ ms, Validated k ∧ Name k.name ∧ DistinctNames k) (hn : (ms.map Member.name).Nodup)
    (xs : List (TypeCode × Datum))
    (hx : ∀ (i : Nat) (m : Member) (x : TypeCode × Datum), ms[i]? = some m → xs[i]? = some x → m.code = x.1 ∧ Simple x.1 ∧ DatumOK { code := x.1 } x.2) :
    (xs.length ≤ ms.length → ∃ (v : Val) (t : List FieldDesc) (cs : List Cell), uriCall env n ms xs = .ok v ∧ v = .mk t cs ∧ build (uriDef ms) = .ok t ∧ cs.length = t.length ∧
      (∀ (i : Nat) (m : Member) (x : TypeCode × Datum), ms[i]? = some m → xs[i]? = some x →
        ∃ d : FieldDesc, Has v [txt "query", m.name] d (.mk true x.2) ∧ d.code = x.1) ∧
      ∀ (path : List Str) (k : Nat) (d : FieldDesc), Descends t 0 path k → t[k]? = some d →
        (∀ (i : Nat) (m : Member), i < xs.length → ms[i]? = some m → path ≠ [txt "query", m.name]) → cs[k]? = some (.mk false (initDatum d.code))) ∧
    (ms.length < xs.length → uriCall env n ms xs = .throws "logic_error") := by
  have hg : ∀ k ∈ ms, Good k := fun k hk => ⟨(hms k hk).1, (Props.NT.name_ok (hms k hk).2.1).2, (hms k hk).2.2⟩
  obtain ⟨u1, u2, u3, u4⟩ := uri_full hg hn
  have hfU := full_of_distinct _ u2
  have hfQ := full_of_distinct _ u4
  have hcreate : (defOf (lit "epics:nt/NTURI:1.0") (uriKids ms)).create = .ok (.mk (flat (uriM ms)) (initCells (flat (uriM ms)))) := new_eq u1 u2
  have hq : member (flat (uriM ms)) (lit "query") = .ok (some 4) :=
    member_kid (c := queryM ms) hfU rfl (kid_query _) (show lit "query" ≠ [] by decide) (show (lit "query").any endsName = false by decide)
  obtain ⟨dq, q1, q2, _⟩ := embeds_root hfQ (query_embeds ms)
  have q1' : ∃ dq : FieldDesc, (flat (uriM ms))[4]? = some dq ∧ dq.code = .Struct ∧ dq.miter = kidIter 1 ms := by
    obtain ⟨pn, hpn⟩ := (query_embeds ms).get 0 (structRoot (queryM ms)) (flat_root rfl)
    exact ⟨_, hpn, rfl, rfl⟩
  obtain ⟨dq, q1, q2, q3⟩ := q1'
  have hch : ichildren (flat (uriM ms)) 4 = (kidIter 1 ms).map fun p => 4 + p.2 := by
    simp [ichildren, q1, q2, q3]
  have hlen : (ichildren (flat (uriM ms)) 4).length = ms.length := by rw [hch, List.length_map, iter_length]
  have hgetk : ∀ (i k : Nat), (ichildren (flat (uriM ms)) 4)[i]? = some k → ∃ (m : Member) (o : Nat), ms[i]? = some m ∧ KidAt 1 ms o m ∧ k = 4 + o ∧ m.name ∈ ms.map Member.name := by
    intro i k h
    rw [hch, List.getElem?_map] at h
    obtain ⟨p, hp1, hp2⟩ := Option.map_eq_some_iff.mp h
    obtain ⟨m, h1, h2, h3⟩ := iter_get ms 1 i p hp1
    exact ⟨m, p.2, h1, h3, hp2.symm, List.mem_map.mpr ⟨m, List.mem_of_getElem? h1, rfl⟩⟩
  have hok : ∀ (i k : Nat) (x : TypeCode × Datum), (ichildren (flat (uriM ms)) 4)[i]? = some k → xs[i]? = some x →
      ∃ d, (flat (uriM ms))[k]? = some d ∧ d.code = x.1 ∧ Simple x.1 ∧ DatumOK d x.2 := by
    intro i k x hi hxi
    obtain ⟨m, o, h1, h2, rfl, _⟩ := hgetk i k hi
    obtain ⟨d, hd1, hd2, _⟩ := embeds_root (full_of_distinct _ (hg m (List.mem_of_getElem? h1)).2.2) (kid_embeds h2)
    obtain ⟨h3, h4, h5⟩ := hx i m x h1 hxi
    exact ⟨d, hd1, by rw [hd2, h3], h4, simple_ok (d := { code := x.1 }) (by rw [hd2, h3]) h4 h5⟩
  have hcall : uriCall env n ms xs = (assignRest env n (flat (uriM ms)) (ichildren (flat (uriM ms)) 4) xs (initCells (flat (uriM ms))) >>= fun cs => .ok (.mk (flat (uriM ms)) cs)) := by
    unfold uriCall
    rw [uri_ok ms hg hn, Res.bind_ok, hcreate, Res.bind_ok]
    simp only [hq, Res.bind_ok]
  have hpw := (C16_ichildren _ (usable_def u1 u2) 4 dq q1 q2).2.1
  have hnd : (ichildren (flat (uriM ms)) 4).Nodup := hpw.imp fun h => Nat.ne_of_lt h
  refine ⟨fun hle => ?_, fun hlt => ?_⟩
  · obtain ⟨cs, c1, c2, c3, c4⟩ := rest_ok env n (flat (uriM ms)) (ichildren (flat (uriM ms)) 4) xs (initCells (flat (uriM ms))) hnd (by rw [hlen]; exact hle)
      (by
        intro k hk
        obtain ⟨i, hi⟩ := List.getElem?_of_mem hk
        obtain ⟨m, o, h1, h2, rfl, _⟩ := hgetk i k hi
        obtain ⟨d, hd1, _⟩ := embeds_root (full_of_distinct _ (hg m (List.mem_of_getElem? h1)).2.2) (kid_embeds h2)
        simp only [initCells, List.length_map]
        exact (List.getElem?_eq_some_iff.mp hd1).1) hok
    refine ⟨.mk (flat (uriM ms)) cs, flat (uriM ms), cs, by rw [hcall, c1, Res.bind_ok], rfl, build_total _ u1 u2, by rw [c2]; simp [initCells], ?_, ?_⟩
    · intro i m x hi hxi
      have hil : i < (ichildren (flat (uriM ms)) 4).length := by rw [hlen]; exact (List.getElem?_eq_some_iff.mp hi).1
      obtain ⟨m', o, h1, h2, h3, _⟩ := hgetk i _ (List.getElem?_eq_getElem hil)
      rw [hi] at h1
      injection h1 with h1
      subst h1
      obtain ⟨d, hd1, hd2, _⟩ := hok i _ x (List.getElem?_eq_getElem hil) hxi
      refine ⟨d, ⟨_, _, _, rfl, ?_, hd1, c3 i _ x (List.getElem?_eq_getElem hil) hxi⟩, hd2⟩
      rw [h3]
      have e1 : Descends (flat (uriM ms)) 0 [lit "query"] 4 := descends_kid (m := uriM ms) rfl (kid_query ms)
      have e2 : Descends (flat (uriM ms)) 4 [m.name] (4 + o) := descends_embed (query_embeds ms) (descends_kid (m := queryM ms) rfl h2)
      exact descends_append.mpr ⟨_, e1, e2⟩
    · intro path k d hp hd hne
      rw [c4 k ?_]
      · exact init_get hd
      · intro i hi hk
        obtain ⟨m, o, h1, h2, h3, _⟩ := hgetk i k hk
        refine hne i m hi h1 ?_
        have e1 : Descends (flat (uriM ms)) 0 [lit "query"] 4 := descends_kid (m := uriM ms) rfl (kid_query ms)
        have e2 : Descends (flat (uriM ms)) 4 [m.name] (4 + o) := descends_embed (query_embeds ms) (descends_kid (m := queryM ms) rfl h2)
        subst h3
        exact PutBuild.path_unique (nodeOK_flat _ hfU) hp _ (descends_append.mpr ⟨_, e1, e2⟩)
  · rw [hcall, rest_many env n _ _ xs _ (by rw [hlen]; exact hlt) hok]
    rfl

/-- the hypotheses of C100_call are met by NTURI({Int32("a"), String("b")}).call(5) -/
example : ∀ (i : Nat) (m : Member) (x : TypeCode × Datum), [({ code := .Int32, name := txt "a" } : Member), { code := .String, name := txt "b" }][i]? = some m →
    [(TypeCode.Int32, Datum.int 5)][i]? = some x → m.code = x.1 ∧ Simple x.1 ∧ DatumOK { code := x.1 } x.2 := by
  intro i m x hm hx
  cases i with
  | zero =>
    injection hm with hm
    injection hx with hx
    subst hm; subst hx
    exact ⟨rfl, by unfold Simple; decide, by simp [DatumOK]⟩
  | succ i => simp at hx

end Pvxs.Props.Rpc
