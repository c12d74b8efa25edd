import Verif.Lemmas.PVRequest
import Verif.Props.ValueOps
/-
C32 field selection.
-/
namespace Pvxs.Props
open Pvxs Wire Spec

/-- request `field(a.s)`, as a client sends it: struct { struct field { struct a { struct s {} } } } -/
def exReqM : Member :=
  { code := .Struct, children := [{ code := .Struct, name := fieldName, children :=
    [{ code := .Struct, name := [0x61], children := [{ code := .Struct, name := [0x73] }] }] }] }
def exReq : List FieldDesc := flat exReqM

theorem exReq_usable : Usable exReq :=
  ⟨.built exReqM exReq (build_total _ (by simp [exReqM, Validated, ValidatedAll]; decide)
    (by simp [exReqM, DistinctNames, DistinctNamesAll]; exact fieldName_noDot)), rfl⟩
theorem exReq_struct : TopStruct exReq := ⟨_, rfl, rfl⟩
theorem exT_struct : TopStruct exT := ⟨_, rfl, rfl⟩

/-! ### C32 -/

theorem request_flat {pvr : List FieldDesc} (hp : pvr = [] ∨ (Usable pvr ∧ TopStruct pvr)) :
    pvr = [] ∨ ∃ mp, pvr = flat mp ∧ Full mp ∧ ∃ d, (flat mp)[0]? = some d ∧ d.code = .Struct := by
  rcases hp with h | ⟨h1, h2⟩
  · exact Or.inl h
  · obtain ⟨mp, rfl, hf⟩ := usable_flat h1
    exact Or.inr ⟨mp, rfl, hf, h2⟩

/-- For every type and every request which asks for everything, or has a path in common with the type: the mask holds the top
level, the fields on the paths of the request, and everything below a field the request names without naming parts of it; all
fields for a request which asks for everything; nothing else. -/
theorem C32_mask (t pvr : List FieldDesc) (ht : Usable t) (hts : TopStruct t) (hn : t.length < 2 ^ 16)
    (hp : pvr = [] ∨ (Usable pvr ∧ TopStruct pvr)) (hr : AsksAll pvr ∨ ∃ i d, Requests t pvr i d) :
    ∃ mask, request2mask t pvr = .ok mask ∧ mask.size = t.length ∧
      ∀ j, Has mask j ↔ j < t.length ∧ (AsksAll pvr ∨ Selects t pvr j ∨ j = 0) := by
  obtain ⟨mt, rfl, hf⟩ := usable_flat ht
  obtain ⟨td, htd, hc⟩ := hts
  exact (request2mask_spec hf htd hc pvr (request_flat hp) hn).1 hr

/-- Every other request is refused: `field` is not a structure, or none of its paths exists. -/
theorem C32_refused (t pvr : List FieldDesc) (ht : Usable t) (hts : TopStruct t) (hn : t.length < 2 ^ 16)
    (hp : pvr = [] ∨ (Usable pvr ∧ TopStruct pvr)) (hr : ¬ (AsksAll pvr ∨ ∃ i d, Requests t pvr i d)) :
    request2mask t pvr = .throws "pvRequest must select at least one field" := by
  obtain ⟨mt, rfl, hf⟩ := usable_flat ht
  obtain ⟨td, htd, hc⟩ := hts
  exact (request2mask_spec hf htd hc pvr (request_flat hp) hn).2 hr

theorem exReq_requests : Requests exT exReq 3 { code := .Struct, parentIndex := 1 } :=
  ⟨[[0x61], [0x73]], 3, [[0x61], [0x73]], by simp,
    .member 0 _ _ 1 _ _ rfl rfl (by decide) (.member 1 _ _ 1 _ _ rfl rfl (by decide) (.member 2 _ _ 1 _ _ rfl rfl (by decide) (.here _))),
    rfl, rfl, by simp, rfl,
    .member 0 _ _ 2 _ _ rfl rfl (by decide) (.member 2 _ _ 1 _ _ rfl rfl (by decide) (.here _))⟩

example : ∃ mask, request2mask exT exReq = .ok mask ∧ ∀ j, Has mask j ↔ j < 6 ∧ (AsksAll exReq ∨ Selects exT exReq j ∨ j = 0) := by
  obtain ⟨m, h1, _, h2⟩ := C32_mask exT exReq exT_usable exT_struct (by decide) (Or.inr ⟨exReq_usable, exReq_struct⟩)
    (Or.inr ⟨_, _, exReq_requests⟩)
  exact ⟨m, h1, h2⟩
/-- the mask: the top level, a, a.s -/
theorem exReq_mask : request2mask exT exReq = .ok ⟨[13#64], 6⟩ := by
  have h : requestBits exT exT[0].mlookup (fieldsOf exReq) ⟨[1#64], 6⟩ = .ok (⟨[13#64], 6⟩, true) := by decide
  have h2 : (BitMask.mk [13#64] 6).findSet 1 = some 2 := by
    rw [BitMask.findSet]; decide
  rw [request2mask_of (d := exT[0]) rfl (ret := ⟨[1#64], 6⟩) (by decide) h rfl]
  simp only [requestEnd, h2]
  decide

/-- request `field(zz)` -/
def exReqNoneM : Member :=
  { code := .Struct, children := [{ code := .Struct, name := fieldName, children := [{ code := .Struct, name := [0x7a, 0x7a] }] }] }
example : request2mask exT (flat exReqNoneM) = .throws "pvRequest must select at least one field" := by decide
example : request2mask exT (flat { code := .Struct, children := [{ code := .Int32, name := fieldName }] }) =
    .throws "pvRequest must select at least one field" := by decide

/-- An update is worth sending exactly if one of its marked fields is in the mask (testmask()). -/
theorem C32_testmask (t : List FieldDesc) (cs : List Cell) (mask : BitMask) (ht : Usable t) (hts : TopStruct t)
    (hc : cs.length = t.length) (hm : mask.size = t.length) (hv : Valid mask) :
    ∃ b, testmask (.mk t cs) mask = .ok b ∧ (b = true ↔ ∃ i c, cs[i]? = some c ∧ c.valid = true ∧ Has mask i) := by
  obtain ⟨mt, rfl, hf⟩ := usable_flat ht
  obtain ⟨td, htd, hcode⟩ := hts
  obtain ⟨d, ds, h1, h2, _⟩ := root_size mt hf
  have hd : td = d := by rw [h1] at htd; exact (Option.some.inj htd).symm
  have hwl : mask.words.length = ((flat mt).length + 63) / 64 := by rw [← hm]; exact hv.2
  obtain ⟨b, e, hb⟩ := anyMasked_spec (mask := mask) cs 0 (by rw [hwl]; omega)
  refine ⟨b, ?_, ?_⟩
  · have : testmask (.mk (flat mt) cs) mask = anyMasked mask 0 cs := by
      rw [h1]
      simp only [testmask]
      rw [← hd, if_pos hcode, hd, h2, List.take_of_length_le (by rw [hc, flat_length]; exact Nat.le_refl _)]
    rw [this, e]
  · rw [hb]
    constructor
    · rintro ⟨i, c, a1, a2, a3⟩
      rw [Nat.zero_add] at a3
      exact ⟨i, c, a1, a2, (has_bit hm hwl i).mpr ⟨by rw [← hc]; exact (List.getElem?_eq_some_iff.mp a1).1, a3⟩⟩
    · rintro ⟨i, c, a1, a2, a3⟩
      exact ⟨i, c, a1, a2, by rw [Nat.zero_add]; exact ((has_bit hm hwl i).mp a3).2⟩

example : testmask (exV true) ⟨[13#64], 6⟩ = .ok true ∧ testmask (exV false) ⟨[13#64], 6⟩ = .ok false := by decide

/-- What is sent, when the program marks fields and not whole structures: the marked fields the request selects, no others.
Missing: a program may mark a structure as a whole; see `C32_sends_more`. -/
theorem C32_sent_partial (t pvr : List FieldDesc) (ht : Usable t) (hts : TopStruct t) (hn : t.length < 2 ^ 16)
    (hp : pvr = [] ∨ (Usable pvr ∧ TopStruct pvr)) (mask : BitMask) (hm : request2mask t pvr = .ok mask)
    (cs : List Cell) (hc : cs.length = t.length)
    (hleaf : ∀ (i : Nat) (c : Cell) (d : FieldDesc), cs[i]? = some c → c.valid = true → t[i]? = some d → d.code ≠ .Struct) (i : Nat) :
    Transferred (some mask) t cs i ↔ (∃ c, cs[i]? = some c ∧ c.valid = true) ∧ (AsksAll pvr ∨ Selects t pvr i) := by
  have hmask : ∀ j, Has mask j ↔ j < t.length ∧ (AsksAll pvr ∨ Selects t pvr j ∨ j = 0) := by
    by_cases hr : AsksAll pvr ∨ ∃ i d, Requests t pvr i d
    · obtain ⟨m', e, _, h⟩ := C32_mask t pvr ht hts hn hp hr
      rw [hm] at e; cases e
      exact h
    · have := C32_refused t pvr ht hts hn hp hr
      rw [hm] at this; cases this
  obtain ⟨td, htd, htc⟩ := hts
  have hpick : ∀ j, Picked (some mask) cs j ↔ (∃ c, cs[j]? = some c ∧ c.valid = true) ∧ (AsksAll pvr ∨ Selects t pvr j) := by
    intro j
    constructor
    · rintro ⟨⟨c, h1, h2⟩, h3⟩
      refine ⟨⟨c, h1, h2⟩, ?_⟩
      rcases ((hmask j).mp (h3 mask rfl)).2 with h | h | h
      · exact Or.inl h
      · exact Or.inr h
      · subst h; exact absurd htc (hleaf 0 c td h1 h2 htd)
    · rintro ⟨⟨c, h1, h2⟩, h3⟩
      refine ⟨⟨c, h1, h2⟩, fun m e => ?_⟩
      cases e
      exact (hmask j).mpr ⟨by rw [← hc]; exact (List.getElem?_eq_some_iff.mp h1).1, h3.elim Or.inl (fun h => Or.inr (Or.inl h))⟩
  rw [← hpick]
  constructor
  · rintro ⟨b, hpk, d, h2, h3, h4⟩
    obtain ⟨⟨c, h5, h6⟩, _⟩ := id hpk
    have hd : d.size = 1 := by
      have hne := hleaf b c d h5 h6 h2
      obtain ⟨mt, rfl, hf⟩ := usable_flat ht
      have hbl := (List.getElem?_eq_some_iff.mp h2).1
      rw [flat_length] at hbl
      obtain ⟨x, hx, he⟩ := embeds_node mt hf b hbl
      obtain ⟨d', h7, h8, h9⟩ := embeds_root hx he
      rw [h2] at h7; cases Option.some.inj h7
      rw [h9]; exact count_other x (by rw [← h8]; exact hne)
    have : b = i := by omega
    exact this ▸ hpk
  · intro h
    refine ⟨i, h, ?_⟩
    obtain ⟨⟨c, h5, _⟩, _⟩ := h
    exact Within.refl' (by rw [← hc]; exact (List.getElem?_eq_some_iff.mp h5).1)

/-- marks `v` and `a.s` -/
def exLeaves : List Cell :=
  [.mk false .null, .mk true (.int (-5)), .mk false .null, .mk true (.str [0x68, 0x69]), .mk false (.null), .mk false (.null)]
theorem exLeaves_ok : ∀ (i : Nat) (c : Cell) (d : FieldDesc), exLeaves[i]? = some c → c.valid = true → exT[i]? = some d → d.code ≠ .Struct
  | 0, _, _, h, hv, _ => by cases h; cases hv
  | 1, _, _, _, _, hd => by cases hd; decide
  | 2, _, _, h, hv, _ => by cases h; cases hv
  | 3, _, _, _, _, hd => by cases hd; decide
  | 4, _, _, h, hv, _ => by cases h; cases hv
  | 5, _, _, h, hv, _ => by cases h; cases hv
  | n + 6, _, _, h, _, _ => by simp [exLeaves] at h
example : ∃ mask, request2mask exT exReq = .ok mask ∧ Transferred (some mask) exT exLeaves 3 := by
  obtain ⟨m, e, _⟩ := C32_mask exT exReq exT_usable exT_struct (by decide) (Or.inr ⟨exReq_usable, exReq_struct⟩)
    (Or.inr ⟨_, _, exReq_requests⟩)
  refine ⟨m, e, (C32_sent_partial exT exReq exT_usable exT_struct (by decide) (Or.inr ⟨exReq_usable, exReq_struct⟩) m e exLeaves rfl
    exLeaves_ok 3).mpr ⟨⟨_, rfl, rfl⟩, Or.inr ⟨3, _, exReq_requests, Or.inl rfl⟩⟩⟩

theorem exReq_not_v : ¬ AsksAll exReq ∧ ¬ Selects exT exReq 1 := by
  constructor
  · intro h
    have := (h _ ⟨1, .member 0 _ _ 1 _ _ rfl rfl (by decide) (.here _), rfl⟩).2
    cases this
  · intro h
    obtain ⟨m, e, _, hm⟩ := C32_mask exT exReq exT_usable exT_struct (by decide) (Or.inr ⟨exReq_usable, exReq_struct⟩)
      (Or.inr ⟨_, _, exReq_requests⟩)
    have h1 := ((hm 1).mpr ⟨by decide, Or.inr (Or.inl h)⟩).2
    rw [exReq_mask] at e; cases e
    revert h1; decide

/-- The full claim fails: when the program marks the value as a whole, everything is sent, whatever the request selects. -/
theorem C32_sends_more : ∃ mask cs, request2mask exT exReq = .ok mask ∧ cs.length = exT.length ∧
    Transferred (some mask) exT cs 1 ∧ ¬ AsksAll exReq ∧ ¬ Selects exT exReq 1 := by
  obtain ⟨m, e, _, hm⟩ := C32_mask exT exReq exT_usable exT_struct (by decide) (Or.inr ⟨exReq_usable, exReq_struct⟩)
    (Or.inr ⟨_, _, exReq_requests⟩)
  refine ⟨m, .mk true .null :: exLeaves.drop 1, e, rfl, ⟨0, ⟨⟨_, rfl, rfl⟩, fun m' e' => ?_⟩, _, rfl, by decide, by decide⟩, exReq_not_v⟩
  cases e'
  exact (hm 0).mpr ⟨by decide, Or.inr (Or.inr rfl)⟩

end Pvxs.Props
