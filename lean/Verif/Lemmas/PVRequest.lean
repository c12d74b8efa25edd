import Verif.Spec.PVRequest
import Verif.Lemmas.Lookup
import Verif.Lemmas.BitMask
namespace Pvxs
open Wire Spec

theorem setEach_spec : ∀ (bs : List Nat) (m : BitMask), (∀ b ∈ bs, b < 64 * m.words.length) →
    ∃ m', setEach bs m = .ok m' ∧ m'.size = m.size ∧ m'.words.length = m.words.length ∧
      ∀ j, m'.bit j = true ↔ j ∈ bs ∨ m.bit j = true
  | [], m, _ => ⟨m, rfl, rfl, rfl, by simp⟩
  | b :: bs, m, h => by
    obtain ⟨m1, e1, s1, l1, b1⟩ := BitMask.set_spec m b true (h b (by simp))
    obtain ⟨m2, e2, s2, l2, b2⟩ := setEach_spec bs m1 (by intro x hx; rw [l1]; exact h x (by simp [hx]))
    refine ⟨m2, by simp only [setEach, e1]; exact e2, by rw [s2, s1], by rw [l2, l1], fun j => ?_⟩
    rw [b2, b1]
    by_cases hj : j = b
    · simp [hj]
    · simp [hj]

/-- the bits one requested path sets -/
def requestSet (t r : List FieldDesc) (lookup : SMap Nat) (pair : Str × Nat) : List Nat :=
  match r[pair.2]? with
  | none => []
  | some crdesc =>
    if crdesc.code = .Struct then
      match lookup.find? pair.1 with
      | none => []
      | some i =>
        match t[i]? with
        | none => []
        | some cdesc => i :: (if crdesc.mlookup.isEmpty ∧ cdesc.code = .Struct then cdesc.mlookup.map (fun p => i + p.2) else [])
    else []

theorem requestOne_spec {t r : List FieldDesc} {lookup : SMap Nat} {pair : Str × Nat} {s : BitMask × Bool}
    (h1 : pair.2 < r.length) (h2 : ∀ k i, lookup.find? k = some i → i < t.length)
    (hb : ∀ b ∈ requestSet t r lookup pair, b < 64 * s.1.words.length) :
    ∃ m', requestOne t r lookup pair s = .ok (m', s.2 || !(requestSet t r lookup pair).isEmpty) ∧ m'.size = s.1.size ∧
      m'.words.length = s.1.words.length ∧ ∀ j, m'.bit j = true ↔ j ∈ requestSet t r lookup pair ∨ s.1.bit j = true := by
  unfold requestOne
  unfold requestSet at hb ⊢
  rw [List.getElem?_eq_getElem h1] at hb ⊢
  dsimp only at hb ⊢
  by_cases hc : r[pair.2].code = .Struct
  · simp only [hc, ↓reduceIte] at hb ⊢
    cases hf : lookup.find? pair.1 with
    | none => exact ⟨s.1, by simp, rfl, rfl, by simp⟩
    | some i =>
      rw [hf] at hb
      have ht := h2 _ _ hf
      simp only [List.getElem?_eq_getElem ht] at hb ⊢
      obtain ⟨m', e, a, b, c⟩ := setEach_spec _ s.1 hb
      refine ⟨m', ?_, a, b, c⟩
      rw [e]; simp
  · simp only [hc, ↓reduceIte]
    exact ⟨s.1, by simp, rfl, rfl, by simp⟩

theorem requestAll_spec {t r : List FieldDesc} {lookup : SMap Nat} (h2 : ∀ k i, lookup.find? k = some i → i < t.length) :
    ∀ (ps : List (Str × Nat)) (s : BitMask × Bool), (∀ p ∈ ps, p.2 < r.length) →
    (∀ p ∈ ps, ∀ b ∈ requestSet t r lookup p, b < 64 * s.1.words.length) →
    ∃ m', requestAll t r lookup ps s = .ok (m', s.2 || ps.any fun p => !(requestSet t r lookup p).isEmpty) ∧ m'.size = s.1.size ∧
      m'.words.length = s.1.words.length ∧ ∀ j, m'.bit j = true ↔ (∃ p ∈ ps, j ∈ requestSet t r lookup p) ∨ s.1.bit j = true
  | [], s, _, _ => ⟨s.1, by simp [requestAll], rfl, rfl, by simp⟩
  | p :: ps, s, h1, hb => by
    obtain ⟨m1, e1, s1, l1, b1⟩ := requestOne_spec (h1 p (by simp)) h2 (hb p (by simp))
    obtain ⟨m2, e2, s2, l2, b2⟩ := requestAll_spec h2 ps (m1, s.2 || !(requestSet t r lookup p).isEmpty)
      (fun q hq => h1 q (by simp [hq])) (fun q hq b hb' => by rw [l1]; exact hb q (by simp [hq]) b hb')
    refine ⟨m2, ?_, by rw [s2, s1], by rw [l2, l1], fun j => ?_⟩
    · simp only [requestAll, e1, Res.bind_ok, e2, List.any_cons, Bool.or_assoc]
    · rw [b2, b1]
      simp only [List.mem_cons, exists_eq_or_imp]
      constructor
      · rintro (h | h | h)
        · exact Or.inl (Or.inr h)
        · exact Or.inl (Or.inl h)
        · exact Or.inr h
      · rintro ((h | h) | h)
        · exact Or.inr (Or.inl h)
        · exact Or.inl h
        · exact Or.inr (Or.inr h)

theorem joinDots_noDot {ps : List Str} (hne : ps ≠ []) (h : (0x2e : Byte) ∉ joinDots ps) : ps = [joinDots ps] := by
  match ps, hne with
  | [a], _ => rfl
  | a :: b :: l, _ =>
    exfalso; apply h
    simp [joinDots]

theorem descends_append {t : List FieldDesc} {i k : Nat} {ps qs : List Str} :
    Descends t i (ps ++ qs) k ↔ ∃ j, Descends t i ps j ∧ Descends t j qs k := by
  induction ps generalizing i with
  | nil =>
    constructor
    · intro h; exact ⟨i, .here i, h⟩
    · rintro ⟨j, h1, h2⟩; cases h1; exact h2
  | cons a ps ih =>
    constructor
    · intro h
      cases h with
      | member _ d _ off _ _ hd hc hm h =>
        obtain ⟨j, h1, h2⟩ := ih.mp h
        exact ⟨j, .member i d a off ps j hd hc hm h1, h2⟩
    · rintro ⟨j, h1, h2⟩
      cases h1 with
      | member _ d _ off _ _ hd hc hm h => exact .member i d a off _ k hd hc hm (ih.mpr ⟨j, h, h2⟩)

theorem descends_inside {m : Member} (hf : Full m) {i j : Nat} {ps : List Str} (hi : i < (flat m).length)
    (h : Descends (flat m) i ps j) : j < (flat m).length ∧ i ≤ j := by
  induction h with
  | here i => exact ⟨hi, Nat.le_refl _⟩
  | member i d name off more j hd hc hm _ ih =>
    obtain ⟨h0, c, h1, _⟩ := (nodeOK_flat m hf i d hd).child hc name off hm
    obtain ⟨a, b⟩ := ih (List.getElem?_eq_some_iff.mp h1).1
    exact ⟨a, by omega⟩

theorem descends_struct {t : List FieldDesc} {i j : Nat} {ps : List Str} (hne : ps ≠ []) (h : Descends t i ps j) :
    ∃ d, t[i]? = some d ∧ d.code = .Struct ∧ d.miter ≠ [] := by
  cases h with
  | here => exact absurd rfl hne
  | member _ d name off more _ hd hc hm _ => exact ⟨d, hd, hc, by rintro h; rw [h] at hm; simp at hm⟩

theorem descends_pos {m : Member} (hf : Full m) {i j : Nat} {ps : List Str} (hne : ps ≠ []) (h : Descends (flat m) i ps j) : i < j := by
  cases h with
  | here => exact absurd rfl hne
  | member _ d name off more _ hd hc hm h =>
    obtain ⟨h0, c, h1, _⟩ := (nodeOK_flat m hf i d hd).child hc name off hm
    have := (descends_inside hf (List.getElem?_eq_some_iff.mp h1).1 h).2
    omega

theorem mlookup_mem {m : Member} (hf : Full m) {i : Nat} {d : FieldDesc} (hd : (flat m)[i]? = some d) (hs : d.code = .Struct)
    (k : Str) (o : Nat) : (k, o) ∈ d.mlookup ↔ ∃ ps, ps ≠ [] ∧ k = joinDots ps ∧ Descends (flat m) i ps (i + o) := by
  have hi := (List.getElem?_eq_some_iff.mp hd).1
  rw [flat_length] at hi
  obtain ⟨c, hc, he⟩ := embeds_node m hf i hi
  obtain ⟨d', h1, h2, h2'⟩ := embeds_root hc he
  rw [hd] at h1; cases h1
  have hcs : c.code = .Struct := by rw [← h2]; exact hs
  obtain ⟨d', h1, _, h3, h4, h5⟩ := embeds_struct hcs he
  rw [hd] at h1; cases h1
  rw [← mlookup_descends hf hd hs, h4, SMap.find?_some (lookOf_sorted c)]

/-- an empty table of names means no members -/
theorem mlookup_empty {m : Member} (hf : Full m) {i : Nat} {d : FieldDesc} (hd : (flat m)[i]? = some d) (hs : d.code = .Struct) :
    d.mlookup.isEmpty = true ↔ d.miter = [] := by
  rw [List.isEmpty_iff]
  constructor
  · intro h
    match hm : d.miter with
    | [] => rfl
    | (n, o) :: l =>
      have := (nodeOK_flat m hf i d hd).byName hs n o (by rw [hm]; simp)
      rw [h] at this; cases this
  · intro h
    match hm : d.mlookup with
    | [] => rfl
    | (k, o) :: l =>
      obtain ⟨ps, h1, _, h3⟩ := (mlookup_mem hf hd hs k o).mp (by rw [hm]; simp)
      obtain ⟨d', h4, _, h5⟩ := descends_struct h1 h3
      rw [hd] at h4; cases h4
      exact absurd h h5

theorem fieldName_noDot : (0x2e : Byte) ∉ fieldName := by decide

theorem field_find {mp : Member} (hp : Full mp) {d0 : FieldDesc} (h0 : (flat mp)[0]? = some d0) (hs : d0.code = .Struct) (q : Nat) :
    d0.mlookup.find? fieldName = some q ↔ Descends (flat mp) 0 [fieldName] q := by
  rw [mlookup_descends hp h0 hs, Nat.zero_add]
  constructor
  · rintro ⟨ps, h1, h2, h3⟩
    have := joinDots_noDot h1 (by rw [← h2]; exact fieldName_noDot)
    rw [this, ← h2] at h3; exact h3
  · intro h; exact ⟨[fieldName], by simp, rfl, h⟩

theorem mem_requestSet {mt mp : Member} (ht : Full mt) (hp : Full mp) {td : FieldDesc} (htd : (flat mt)[0]? = some td)
    (hts : td.code = .Struct) {off o : Nat} (k : Str) (j : Nat) (hin : off + o < (flat mp).length) :
    j ∈ requestSet (flat mt) ((flat mp).drop off) td.mlookup (k, o) ↔
      ∃ c i qs, (flat mp)[off + o]? = some c ∧ c.code = .Struct ∧ qs ≠ [] ∧ k = joinDots qs ∧ Descends (flat mt) 0 qs i ∧
        (j = i ∨ (c.miter = [] ∧ ∃ ps, Descends (flat mt) i ps j)) := by
  have hlt0 : 0 < (flat mt).length := (List.getElem?_eq_some_iff.mp htd).1
  have hget := List.getElem?_eq_getElem hin
  unfold requestSet
  simp only [List.getElem?_drop]
  rw [hget]
  dsimp only
  generalize (flat mp)[off + o] = c at hget ⊢
  constructor
  · intro h
    split at h
    · rename_i hc
      split at h
      · cases h
      · rename_i i hfi
        obtain ⟨qs, h1, h2, h3⟩ := (mlookup_descends ht htd hts k i).mp hfi
        rw [Nat.zero_add] at h3
        have hil := (descends_inside ht hlt0 h3).1
        have hti := List.getElem?_eq_getElem hil
        rw [hti] at h
        dsimp only at h
        refine ⟨c, i, qs, rfl, hc, h1, h2, h3, ?_⟩
        rcases List.mem_cons.mp h with h | h
        · exact Or.inl h
        · split at h
          · rename_i hh
            obtain ⟨⟨k2, o2⟩, h4, h5⟩ := List.mem_map.mp h
            obtain ⟨ps, _, _, h6⟩ := (mlookup_mem ht hti hh.2 k2 o2).mp h4
            dsimp only at h5
            rw [h5] at h6
            exact Or.inr ⟨(mlookup_empty hp hget hc).mp hh.1, ps, h6⟩
          · cases h
    · cases h
  · rintro ⟨c', i, qs, h0, hc, h1, h2, h3, h4⟩
    cases h0
    have hfi := (mlookup_descends ht htd hts k i).mpr ⟨qs, h1, h2, by rw [Nat.zero_add]; exact h3⟩
    have hil := (descends_inside ht hlt0 h3).1
    have hti := List.getElem?_eq_getElem hil
    rw [if_pos hc, hfi]
    dsimp only
    rw [hti]
    dsimp only
    rcases h4 with h4 | ⟨h5, ps, h6⟩
    · rw [h4]; exact List.mem_cons_self
    · by_cases hps : ps = []
      · subst hps; cases h6; exact List.mem_cons_self
      · refine List.mem_cons_of_mem _ ?_
        obtain ⟨d', h7, h8, _⟩ := descends_struct hps h6
        rw [hti] at h7
        have h7 := Option.some.inj h7
        rw [h7] at hti ⊢
        rw [if_pos ⟨(mlookup_empty hp hget hc).mpr h5, h8⟩]
        obtain ⟨o2, rfl⟩ : ∃ o2, j = i + o2 := ⟨j - i, by have := (descends_inside ht hil h6).2; omega⟩
        exact List.mem_map.mpr ⟨(joinDots ps, o2), (mlookup_mem ht hti h8 _ o2).mpr ⟨ps, hps, rfl, h6⟩, rfl⟩

theorem requested_iff {mt mp : Member} (ht : Full mt) (hp : Full mp) {td : FieldDesc} (htd : (flat mt)[0]? = some td)
    (hts : td.code = .Struct) {off : Nat} {rd : FieldDesc} (hoff : Descends (flat mp) 0 [fieldName] off)
    (huniq : ∀ q, Descends (flat mp) 0 [fieldName] q → q = off)
    (hrd : (flat mp)[off]? = some rd) (hrs : rd.code = .Struct) (j : Nat) :
    (∃ p ∈ rd.mlookup, j ∈ requestSet (flat mt) ((flat mp).drop off) td.mlookup p) ↔ Selects (flat mt) (flat mp) j := by
  have hol : off < (flat mp).length := (List.getElem?_eq_some_iff.mp hrd).1
  constructor
  · rintro ⟨⟨k, o⟩, h1, h2⟩
    obtain ⟨ps, h3, h4, h5⟩ := (mlookup_mem hp hrd hrs k o).mp h1
    have hin := (descends_inside hp hol h5).1
    obtain ⟨c, i, qs, h6, h7, h8, h9, h10, h11⟩ := (mem_requestSet ht hp htd hts k j hin).mp h2
    exact ⟨i, c, ⟨ps, off + o, qs, h3, descends_append.mpr ⟨off, hoff, h5⟩, h6, h7, h8, by rw [← h9, h4], h10⟩, h11⟩
  · rintro ⟨i, c, ⟨ps, q, qs, h3, h5, h6, h7, h8, h9, h10⟩, h11⟩
    obtain ⟨x, hx, h5⟩ := (descends_append (ps := [fieldName])).mp h5
    have := huniq x hx
    subst this
    obtain ⟨o, rfl⟩ : ∃ o, q = x + o := ⟨q - x, by have := (descends_inside hp hol h5).2; omega⟩
    have hin := (descends_inside hp hol h5).1
    exact ⟨(joinDots ps, o), (mlookup_mem hp hrd hrs _ o).mpr ⟨ps, h3, rfl, h5⟩,
      (mem_requestSet ht hp htd hts _ j hin).mpr ⟨c, i, qs, h6, h7, h8, h9.symm, h10, h11⟩⟩

/-- the last part of request2mask() -/
theorem finish_mask {n : Nat} {m : BitMask} (hn : n < 2 ^ 16) (hn0 : 0 < n) (hs : m.size = n) (hl : m.words.length = (n + 63) / 64)
    (hc : ∀ j, m.bit j = true → j < n) :
    ∃ m', requestEnd n (m, true) = .ok m' ∧ m'.size = n ∧
        m'.words.length = (n + 63) / 64 ∧
        ∀ j, m'.bit j = true ↔ j < n ∧ ((∀ i, 0 < i → m.bit i = false) ∨ m.bit j = true) := by
  have wf : BitMask.WF m := by unfold BitMask.WF; omega
  have cl : BitMask.Clean m := fun i hi => by
    cases hb : m.bit i with
    | false => rfl
    | true => have := hc i hb; omega
  obtain ⟨k, e, h1, h2, h3, h4, h5⟩ := BitMask.findSet_clean m wf cl 1
  simp only [requestEnd, ↓reduceIte]
  rw [e]
  dsimp only
  by_cases hk : k = m.size
  · rw [if_pos hk]
    obtain ⟨m', a, b, c, d⟩ := setEach_spec (List.range n) m (by intro b hb; have := List.mem_range.mp hb; omega)
    refine ⟨m', a, by rw [b, hs], by rw [c, hl], fun j => ?_⟩
    rw [d, List.mem_range]
    have : ∀ i, 0 < i → m.bit i = false := by
      intro i hi
      by_cases hin : i < k
      · exact h3 i hi hin
      · exact cl i (by omega)
    constructor
    · rintro (h | h)
      · exact ⟨h, Or.inl this⟩
      · exact ⟨hc j h, Or.inl this⟩
    · intro h; exact Or.inl h.1
  · rw [if_neg hk]
    refine ⟨m, rfl, hs, hl, fun j => ?_⟩
    constructor
    · intro h; exact ⟨hc j h, Or.inr h⟩
    · rintro ⟨_, h | h⟩
      · have hb := h4.resolve_left hk
        have : 0 < k := by
          by_cases h1n : 1 < m.size
          · have := h2 h1n; omega
          · have := h5 (by omega); exact absurd this hk
        rw [h k this] at hb; cases hb
      · exact h

theorem ofBits_zero {n : Nat} (hn : n < 2 ^ 16) (hn0 : 0 < n) :
    ∃ m, BitMask.ofBits [0] n = some m ∧ m.size = n ∧ m.words.length = (n + 63) / 64 ∧ ∀ j, m.bit j = true ↔ j = 0 := by
  have hmax : max n (1 + [0].foldl max 0) = n := by simp only [List.foldl_cons, List.foldl_nil]; omega
  obtain ⟨s1, s2, s3, s4⟩ := BitMask.sized_wf n hn
  obtain ⟨m, e, es, el, eb⟩ := BitMask.setAll_spec [0] (BitMask.sized n) (by intro b hb; rw [s3]; simp at hb; omega)
  refine ⟨m, ?_, by rw [es, s2], by rw [el, s3], fun j => by rw [eb, s4]; simp⟩
  unfold BitMask.ofBits
  rw [hmax, e]; rfl

theorem has_bit {m : BitMask} {n : Nat} (hs : m.size = n) (hl : m.words.length = (n + 63) / 64) (j : Nat) :
    Has m j ↔ j < n ∧ m.bit j = true := by
  unfold Has
  rw [hs]
  constructor
  · rintro ⟨h1, h2⟩
    rw [BitMask.test_eq m j (by omega)] at h2
    exact ⟨h1, Option.some.inj h2⟩
  · rintro ⟨h1, h2⟩
    exact ⟨h1, by rw [BitMask.test_eq m j (by omega), h2]⟩

theorem request2mask_of {t pvr : List FieldDesc} {d : FieldDesc} {ret : BitMask} {s : BitMask × Bool} {n : Nat} (ht : t.head? = some d)
    (h1 : BitMask.ofBits [0] d.size = some ret) (h2 : requestBits t d.mlookup (fieldsOf pvr) ret = .ok s) (hn : d.size = n) :
    request2mask t pvr = requestEnd n s := by
  cases t with
  | nil => cases ht
  | cons a l =>
    cases Option.some.inj ht
    rw [request2mask, h1, requestFrom, h2, hn, Res.bind_ok]

theorem request2mask_eq {mt : Member} (ht : Full mt) {td : FieldDesc} (htd : (flat mt)[0]? = some td) (pvr : List FieldDesc)
    (hn : (flat mt).length < 2 ^ 16) {P : Prop} {Q : Nat → Prop}
    (hreq : ∀ ret, ret.size = (flat mt).length → ret.words.length = ((flat mt).length + 63) / 64 → (∀ j, ret.bit j = true ↔ j = 0) →
      ∃ m b, requestBits (flat mt) td.mlookup (fieldsOf pvr) ret = .ok (m, b) ∧ m.size = (flat mt).length ∧
        m.words.length = ((flat mt).length + 63) / 64 ∧ (b = true ↔ P) ∧ ∀ j, m.bit j = true ↔ Q j ∨ j = 0)
    (hQ : ∀ j, Q j → j < (flat mt).length) :
    (P → ∃ mask, request2mask (flat mt) pvr = .ok mask ∧ mask.size = (flat mt).length ∧
      ∀ j, Has mask j ↔ j < (flat mt).length ∧ ((∀ i, 0 < i → ¬ Q i) ∨ Q j ∨ j = 0)) ∧
    (¬ P → request2mask (flat mt) pvr = .throws "pvRequest must select at least one field") := by
  obtain ⟨d, ds, h1, h2, _⟩ := root_size mt ht
  have hlen : d.size = (flat mt).length := by rw [h2, flat_length]
  have hd : td = d := by rw [h1] at htd; exact (Option.some.inj htd).symm
  have h0 : 0 < (flat mt).length := (List.getElem?_eq_some_iff.mp htd).1
  obtain ⟨ret, e, s1, s2, s3⟩ := ofBits_zero hn h0
  obtain ⟨m, b, e2, m1, m2, m3, m4⟩ := hreq ret s1 s2 s3
  have hun : request2mask (flat mt) pvr = requestEnd (flat mt).length (m, b) :=
    request2mask_of (by rw [h1]; rfl) (by rw [hlen]; exact e) (by rw [← hd]; exact e2) hlen
  rw [hun]
  constructor
  · intro hp
    rw [m3.mpr hp]
    obtain ⟨m', f1, f2, f3, f4⟩ := finish_mask hn h0 m1 m2 (fun j hj => by
      rcases (m4 j).mp hj with h | h
      · exact hQ j h
      · omega)
    refine ⟨m', f1, f2, fun j => ?_⟩
    rw [has_bit f2 f3, f4, m4]
    have : (∀ i, 0 < i → m.bit i = false) ↔ ∀ i, 0 < i → ¬ Q i := by
      constructor
      · intro h i hi hq
        have := (m4 i).mpr (Or.inl hq)
        rw [h i hi] at this; cases this
      · intro h i hi
        cases hb : m.bit i with
        | false => rfl
        | true =>
          rcases (m4 i).mp hb with hq | hq
          · exact absurd hq (h i hi)
          · omega
    rw [this]
    constructor
    · rintro ⟨a, _, b⟩; exact ⟨a, b⟩
    · rintro ⟨a, b⟩; exact ⟨a, a, b⟩
  · intro hp
    have : b = false := by
      cases b with
      | false => rfl
      | true => exact absurd (m3.mp rfl) hp
    rw [this]; simp only [requestEnd, Bool.false_eq_true, ↓reduceIte]

theorem request2mask_spec {mt : Member} (ht : Full mt) {td : FieldDesc} (htd : (flat mt)[0]? = some td) (hts : td.code = .Struct)
    (pvr : List FieldDesc) (hp : pvr = [] ∨ ∃ mp, pvr = flat mp ∧ Full mp ∧ ∃ d, (flat mp)[0]? = some d ∧ d.code = .Struct)
    (hn : (flat mt).length < 2 ^ 16) :
    (AsksAll pvr ∨ (∃ i d, Requests (flat mt) pvr i d) → ∃ mask, request2mask (flat mt) pvr = .ok mask ∧ mask.size = (flat mt).length ∧
      ∀ j, Has mask j ↔ j < (flat mt).length ∧ (AsksAll pvr ∨ Selects (flat mt) pvr j ∨ j = 0)) ∧
    (¬ (AsksAll pvr ∨ ∃ i d, Requests (flat mt) pvr i d) →
      request2mask (flat mt) pvr = .throws "pvRequest must select at least one field") := by
  have h0 : 0 < (flat mt).length := (List.getElem?_eq_some_iff.mp htd).1
  have hQ : ∀ j, Selects (flat mt) pvr j → j < (flat mt).length ∧ 0 < j := by
    rintro j ⟨i, d, ⟨ps, q, qs, _, _, _, _, hne, _, h1⟩, h2⟩
    have hi := (descends_inside ht h0 h1).1
    have hpos := descends_pos ht hne h1
    rcases h2 with rfl | ⟨_, ps', h2⟩
    · exact ⟨hi, hpos⟩
    · have := descends_inside ht hi h2
      exact ⟨this.1, by omega⟩
  have hreq : (∃ i d, Requests (flat mt) pvr i d) ↔ ∃ j, Selects (flat mt) pvr j :=
    ⟨fun ⟨i, d, h⟩ => ⟨i, i, d, h, Or.inl rfl⟩, fun ⟨_, i, d, h, _⟩ => ⟨i, d, h⟩⟩
  -- what is done when nothing is looked for
  have hnone : ∀ (b : Bool), (∀ ret, requestBits (flat mt) td.mlookup (fieldsOf pvr) ret = .ok (ret, b)) →
      (∀ j, ¬ Selects (flat mt) pvr j) → (b = true ↔ AsksAll pvr) → _ := fun b hb hsel hab =>
    request2mask_eq (P := AsksAll pvr ∨ ∃ i d, Requests (flat mt) pvr i d) (Q := Selects (flat mt) pvr) ht htd pvr hn
      (fun ret r1 r2 r3 => ⟨ret, b, hb ret, r1, r2, by
        rw [hab, hreq]
        exact ⟨Or.inl, fun h => h.elim id (fun ⟨j, hj⟩ => absurd hj (hsel j))⟩, fun j => by
        rw [r3]
        exact ⟨Or.inr, fun h => h.elim (fun h => absurd h (hsel j)) id⟩⟩) (fun j hj => (hQ j hj).1)
  have fin : ((AsksAll pvr ∨ ∃ i d, Requests (flat mt) pvr i d) → ∃ mask, request2mask (flat mt) pvr = .ok mask ∧ mask.size = (flat mt).length ∧
      ∀ j, Has mask j ↔ j < (flat mt).length ∧ ((∀ i, 0 < i → ¬ Selects (flat mt) pvr i) ∨ Selects (flat mt) pvr j ∨ j = 0)) ∧
      (¬ (AsksAll pvr ∨ ∃ i d, Requests (flat mt) pvr i d) →
        request2mask (flat mt) pvr = .throws "pvRequest must select at least one field") ∧
      (AsksAll pvr → ∀ j, ¬ Selects (flat mt) pvr j) := by
    rcases hp with rfl | ⟨mp, rfl, hp, d0, hd0, hs0⟩
    · have hsel : ∀ j, ¬ Selects (flat mt) [] j := by
        rintro j ⟨i, d, ⟨ps, q, qs, _, h, _⟩, _⟩
        obtain ⟨d', h', _⟩ := descends_struct (by simp) h
        simp at h'
      have hall : AsksAll [] := by
        rintro d ⟨q, h, _⟩
        obtain ⟨d', h', _⟩ := descends_struct (by simp) h
        simp at h'
      obtain ⟨a, b⟩ := hnone true (fun ret => rfl) hsel (by simp [hall])
      exact ⟨a, b, fun _ => hsel⟩
    · cases hf : d0.mlookup.find? fieldName with
      | none =>
        have hno : ∀ q, ¬ Descends (flat mp) 0 [fieldName] q := fun q h => by
          rw [(field_find hp hd0 hs0 q).mpr h] at hf; cases hf
        have hsel : ∀ j, ¬ Selects (flat mt) (flat mp) j := by
          rintro j ⟨i, d, ⟨ps, q, qs, _, h, _⟩, _⟩
          obtain ⟨x, hx, _⟩ := (descends_append (ps := [fieldName])).mp h
          exact hno x hx
        have hall : AsksAll (flat mp) := fun d ⟨q, h, _⟩ => absurd h (hno q)
        have hfo : fieldsOf (flat mp) = .absent := by
          obtain ⟨d, ds, h1, _⟩ := flat_head mp
          rw [h1] at hd0 ⊢
          cases Option.some.inj hd0
          simp only [fieldsOf, hf]
        obtain ⟨a, b⟩ := hnone true (fun ret => by rw [hfo]; rfl) hsel (by simp [hall])
        exact ⟨a, b, fun _ => hsel⟩
      | some off =>
        have hoff := (field_find hp hd0 hs0 off).mp hf
        have huniq : ∀ q, Descends (flat mp) 0 [fieldName] q → q = off := fun q h => by
          rw [(field_find hp hd0 hs0 q).mpr h] at hf; exact Option.some.inj hf
        have hol := (descends_inside hp (List.getElem?_eq_some_iff.mp hd0).1 hoff).1
        have hget := List.getElem?_eq_getElem hol
        generalize (flat mp)[off] = rd at hget
        have hfo : fieldsOf (flat mp) = if rd.code = .Struct then .struct ((flat mp).drop off) else .other := by
          obtain ⟨d, ds, h1, _⟩ := flat_head mp
          rw [h1] at hd0 hget ⊢
          cases Option.some.inj hd0
          simp only [fieldsOf, hf, hget]
        have hpart : ∀ d, FieldPart (flat mp) d ↔ d = rd := by
          intro d
          constructor
          · rintro ⟨q, h1, h2⟩
            rw [huniq q h1, hget] at h2; exact (Option.some.inj h2).symm
          · rintro rfl; exact ⟨off, hoff, hget⟩
        by_cases hrs : rd.code = .Struct
        · rw [if_pos hrs] at hfo
          have hall : AsksAll (flat mp) ↔ rd.mlookup.isEmpty = true := by
            rw [mlookup_empty hp hget hrs]
            exact ⟨fun h => (h rd ((hpart rd).mpr rfl)).2, fun h d hd => by rw [(hpart d).mp hd]; exact ⟨hrs, h⟩⟩
          have hselE : AsksAll (flat mp) → ∀ j, ¬ Selects (flat mt) (flat mp) j := by
            intro h j hj
            obtain ⟨p, hpm, _⟩ := (requested_iff ht hp htd hts hoff huniq hget hrs j).mpr hj
            rw [List.isEmpty_iff.mp (hall.mp h)] at hpm; cases hpm
          have hdrop : (flat mp).drop off = rd :: (flat mp).drop (off + 1) := by
            rw [List.drop_eq_getElem_cons hol]
            congr 1
            rw [List.getElem?_eq_getElem hol] at hget; exact Option.some.inj hget
          have hbits : ∀ ret : BitMask, ret.size = (flat mt).length → ret.words.length = ((flat mt).length + 63) / 64 →
              (∀ j, ret.bit j = true ↔ j = 0) →
              ∃ m b, requestBits (flat mt) td.mlookup (fieldsOf (flat mp)) ret = .ok (m, b) ∧ m.size = (flat mt).length ∧
                m.words.length = ((flat mt).length + 63) / 64 ∧
                (b = true ↔ AsksAll (flat mp) ∨ ∃ i d, Requests (flat mt) (flat mp) i d) ∧
                ∀ j, m.bit j = true ↔ Selects (flat mt) (flat mp) j ∨ j = 0 := by
            intro ret r1 r2 r3
            obtain ⟨m', e, m1, m2, m3⟩ := requestAll_spec (t := flat mt) (r := (flat mp).drop off) (lookup := td.mlookup)
              (fun k i h => by
                obtain ⟨qs, _, _, h3⟩ := (mlookup_descends ht htd hts k i).mp h
                rw [Nat.zero_add] at h3
                exact (descends_inside ht h0 h3).1)
              rd.mlookup (ret, rd.mlookup.isEmpty)
              (fun p hpm => by
                obtain ⟨ps, _, _, h⟩ := (mlookup_mem hp hget hrs p.1 p.2).mp hpm
                have := (descends_inside hp hol h).1
                rw [List.length_drop]; omega)
              (fun p hpm b hb => by
                have := (hQ b ((requested_iff ht hp htd hts hoff huniq hget hrs b).mp ⟨p, hpm, hb⟩)).1
                rw [r2]; omega)
            refine ⟨m', (ret, rd.mlookup.isEmpty).2 || rd.mlookup.any fun p => !(requestSet (flat mt) ((flat mp).drop off) td.mlookup p).isEmpty,
              ?_, by rw [m1, r1], by rw [m2, r2], ?_, fun j => ?_⟩
            · rw [hfo]
              simp only [requestBits]
              rw [hdrop] at e ⊢
              exact e
            · dsimp only
              rw [Bool.or_eq_true, ← hall, hreq, List.any_eq_true]
              have : (∃ x, x ∈ rd.mlookup ∧ (!(requestSet (flat mt) ((flat mp).drop off) td.mlookup x).isEmpty) = true) ↔
                  ∃ j, Selects (flat mt) (flat mp) j := by
                constructor
                · rintro ⟨x, hx, h⟩
                  match hl : requestSet (flat mt) ((flat mp).drop off) td.mlookup x with
                  | [] => rw [hl] at h; simp at h
                  | j :: l => exact ⟨j, (requested_iff ht hp htd hts hoff huniq hget hrs j).mp ⟨x, hx, by rw [hl]; simp⟩⟩
                · rintro ⟨j, hj⟩
                  obtain ⟨x, hx, h⟩ := (requested_iff ht hp htd hts hoff huniq hget hrs j).mpr hj
                  refine ⟨x, hx, ?_⟩
                  match hl : requestSet (flat mt) ((flat mp).drop off) td.mlookup x with
                  | [] => rw [hl] at h; cases h
                  | j :: l => rfl
              rw [this]
            · rw [m3, r3, requested_iff ht hp htd hts hoff huniq hget hrs j]
          obtain ⟨a, b⟩ := request2mask_eq ht htd (flat mp) hn hbits (fun j hj => (hQ j hj).1)
          exact ⟨a, b, hselE⟩
        · rw [if_neg hrs] at hfo
          have hsel : ∀ j, ¬ Selects (flat mt) (flat mp) j := by
            rintro j ⟨i, d, ⟨ps, q, qs, hne, h, _⟩, _⟩
            obtain ⟨x, hx, h2⟩ := (descends_append (ps := [fieldName])).mp h
            rw [huniq x hx] at h2
            obtain ⟨d', h3, h4, _⟩ := descends_struct hne h2
            rw [hget] at h3; cases Option.some.inj h3
            exact hrs h4
          have hall : ¬ AsksAll (flat mp) := fun h => hrs (h rd ((hpart rd).mpr rfl)).1
          obtain ⟨a, b⟩ := hnone false (fun ret => by rw [hfo]; rfl) hsel (by simp [hall])
          exact ⟨a, b, fun _ => hsel⟩
  obtain ⟨a, b, c⟩ := fin
  refine ⟨fun h => ?_, b⟩
  obtain ⟨mask, e, hs, hm⟩ := a h
  refine ⟨mask, e, hs, fun j => ?_⟩
  rw [hm j]
  have : (∀ i, 0 < i → ¬ Selects (flat mt) pvr i) ↔ AsksAll pvr := by
    constructor
    · intro hi
      rcases h with h | h
      · exact h
      · obtain ⟨j, hj⟩ := hreq.mp h
        exact absurd hj (hi j (hQ j hj).2)
    · intro hA i _; exact c hA i
  rw [this]

theorem anyMasked_spec {mask : BitMask} : ∀ (cs : List Cell) (i : Nat), i + cs.length ≤ 64 * mask.words.length →
    ∃ b, anyMasked mask i cs = .ok b ∧ (b = true ↔ ∃ j c, cs[j]? = some c ∧ c.valid = true ∧ mask.bit (i + j) = true)
  | [], i, _ => ⟨false, rfl, by simp⟩
  | c :: cs, i, h => by
    simp only [List.length_cons] at h
    obtain ⟨b, e, hb⟩ := anyMasked_spec (mask := mask) cs (i + 1) (by omega)
    have hrec : b = true ↔ ∃ j c', (c :: cs)[j + 1]? = some c' ∧ c'.valid = true ∧ mask.bit (i + (j + 1)) = true := by
      rw [hb]
      simp only [List.getElem?_cons_succ]
      constructor <;> rintro ⟨j, c', h1, h2, h3⟩
      · exact ⟨j, c', h1, h2, by rw [show i + (j + 1) = i + 1 + j by omega]; exact h3⟩
      · exact ⟨j, c', h1, h2, by rw [show i + 1 + j = i + (j + 1) by omega]; exact h3⟩
    have hsplit : (∃ j c', (c :: cs)[j]? = some c' ∧ c'.valid = true ∧ mask.bit (i + j) = true) ↔
        (c.valid = true ∧ mask.bit i = true) ∨ b = true := by
      rw [hrec]
      constructor
      · rintro ⟨j, c', h1, h2, h3⟩
        cases j with
        | zero => simp at h1; subst h1; exact Or.inl ⟨h2, h3⟩
        | succ j => exact Or.inr ⟨j, c', h1, h2, h3⟩
      · rintro (⟨h1, h2⟩ | ⟨j, c', h1, h2, h3⟩)
        · exact ⟨0, c, rfl, h1, h2⟩
        · exact ⟨j + 1, c', h1, h2, h3⟩
    simp only [hsplit]
    unfold anyMasked
    by_cases hv : c.valid = true
    · rw [if_pos hv, BitMask.test_eq mask i (by omega)]
      cases hbit : mask.bit i with
      | true => exact ⟨true, rfl, by simp [hv]⟩
      | false => exact ⟨b, e, by simp⟩
    · rw [if_neg hv]
      exact ⟨b, e, by simp [hv]⟩

end Pvxs
