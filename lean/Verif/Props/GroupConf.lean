import Verif.Spec.GroupConf
import Verif.Lemmas.SMap
import Verif.Props.FieldName
/-
C67: group definitions.
-/
namespace Pvxs.Props.Grc
open Pvxs.Group Spec.Group
open Pvxs.FieldName (getlines)
open Props.Fnm (getlines_one getlines_app)
open Wire (Byte)

/-! ### names in a text -/

theorem split_first {c : Byte} (s : Str) : c ∉ s ∨ ∃ p r, s = p ++ c :: r ∧ c ∉ p := by
  induction s with
  | nil => exact Or.inl (by simp)
  | cons x s ih =>
    by_cases hx : x = c
    · exact Or.inr ⟨[], s, by simp [hx], by simp⟩
    · rcases ih with h | ⟨p, r, h1, h2⟩
      · exact Or.inl (by simp [Ne.symm hx, h])
      · exact Or.inr ⟨x :: p, r, by simp [h1], by simp [Ne.symm hx, h2]⟩

theorem first_unique {c : Byte} {p q r t : Str} (h : p ++ c :: r = q ++ c :: t) (hp : c ∉ p) (hq : c ∉ q) : p = q ∧ r = t := by
  induction p generalizing q with
  | nil =>
    cases q with
    | nil => simpa using h
    | cons y q =>
      simp only [List.nil_append, List.cons_append, List.cons.injEq] at h
      exact absurd h.1 (by rintro rfl; simp at hq)
  | cons x p ih =>
    cases q with
    | nil =>
      simp only [List.nil_append, List.cons_append, List.cons.injEq] at h
      exact absurd h.1 (by rintro rfl; simp at hp)
    | cons y q =>
      simp only [List.cons_append, List.cons.injEq] at h
      simp only [List.mem_cons, not_or] at hp hq
      obtain ⟨h1, h2⟩ := ih h.2 hp.2 hq.2
      exact ⟨by rw [h.1, h1], h2⟩

theorem last_mem {c : Byte} {a : Str} (h : a.getLast? = some c) : ∃ a', a = a' ++ [c] := by
  cases a with
  | nil => simp at h
  | cons x a =>
    rw [List.getLast?_eq_some_getLast (by simp)] at h
    refine ⟨(x :: a).dropLast, ?_⟩
    have := List.dropLast_concat_getLast (l := x :: a) (by simp)
    rw [Option.some.inj h] at this
    exact this.symm

theorem head_cons {c : Byte} {b : Str} (h : b.head? = some c) : ∃ b', b = c :: b' := by
  cases b with
  | nil => simp at h
  | cons x b => simp at h; exact ⟨b, by rw [h]⟩

theorem getlines_listed (s n : Str) : n ∈ getlines 0x2c s ↔ Listed s n := by
  generalize hl : s.length = l
  induction l using Nat.strongRecOn generalizing s n with
  | ind l ih =>
    rcases split_first (c := 0x2c) s with h | ⟨p, r, h1, h2⟩
    · by_cases hs : s = []
      · subst hs
        refine ⟨fun h => by simp [getlines] at h, ?_⟩
        rintro ⟨_, a, b, e, _, _, h0⟩
        have := congrArg List.length e
        simp only [List.length_nil, List.length_append] at this
        have hn : n = [] := List.eq_nil_of_length_eq_zero (by omega)
        have hb : b = [] := List.eq_nil_of_length_eq_zero (by omega)
        rcases h0 with h0 | h0
        · exact absurd hn h0
        · exact absurd hb h0
      · rw [getlines_one hs h, List.mem_singleton]
        constructor
        · rintro rfl
          exact ⟨h, [], [], by simp, Or.inl rfl, Or.inl rfl, Or.inl hs⟩
        · rintro ⟨_, a, b, e, ha, hb, _⟩
          have ha' : a = [] := by
            rcases ha with ha | ha
            · exact ha
            · obtain ⟨a', rfl⟩ := last_mem ha
              exact absurd (by rw [e]; simp) h
          have hb' : b = [] := by
            rcases hb with hb | hb
            · exact hb
            · obtain ⟨b', rfl⟩ := head_cons hb
              exact absurd (by rw [e]; simp) h
          subst ha' hb'
          simpa using e.symm
    · subst h1
      rw [getlines_app h2, List.mem_cons, ih r.length (by subst hl; simp; omega) r n rfl]
      constructor
      · rintro (rfl | ⟨hn, a, b, e, ha, hb, h0⟩)
        · exact ⟨h2, [], 0x2c :: r, by simp, Or.inl rfl, Or.inr rfl, Or.inr (by simp)⟩
        · refine ⟨hn, p ++ 0x2c :: a, b, by simp [e], Or.inr ?_, hb, h0⟩
          rcases ha with ha | ha
          · subst ha; simp
          · obtain ⟨a', rfl⟩ := last_mem ha
            rw [show p ++ 0x2c :: (a' ++ [0x2c]) = (p ++ 0x2c :: a') ++ [0x2c] by simp, List.getLast?_concat]
      · rintro ⟨hn, a, b, e, ha, hb, h0⟩
        rcases split_first (c := 0x2c) a with hna | ⟨q, t, rfl, hq⟩
        · have ha' : a = [] := by
            rcases ha with ha | ha
            · exact ha
            · obtain ⟨a', rfl⟩ := last_mem ha
              exact absurd (by simp) hna
          subst ha'
          rcases hb with hb | hb
          · subst hb
            exact absurd (by rw [show n = p ++ 0x2c :: r by simpa using e.symm]; simp) hn
          · obtain ⟨b', rfl⟩ := head_cons hb
            exact Or.inl (first_unique (by simpa using e.symm) hn h2).1
        · right
          have e' : p ++ 0x2c :: r = q ++ 0x2c :: (t ++ n ++ b) := by rw [e]; simp
          obtain ⟨_, e2⟩ := first_unique e' h2 hq
          refine ⟨hn, t, b, e2, ?_, hb, h0⟩
          rcases ha with ha | ha
          · simp at ha
          · by_cases ht : t = []
            · exact Or.inl ht
            · right
              cases t with
              | nil => exact absurd rfl ht
              | cons y t => simpa [List.getLast?_append] using ha

/-! ### sets of names -/

theorem sorted_insertAll (ns : List Str) {s : SMap Unit} (h : s.Sorted) : (insertAll ns s).Sorted := by
  induction ns generalizing s with
  | nil => exact h
  | cons n ns ih => exact ih (SMap.sorted_insert h)

theorem keys_insert {s : SMap Unit} (h : s.Sorted) (n x : Str) : x ∈ (s.insert n ()).keys ↔ x = n ∨ x ∈ s.keys := by
  simp only [SMap.mem_keys, SMap.mem_insert h]
  constructor
  · rintro ⟨v, hv | hv⟩
    · exact Or.inl (congrArg Prod.fst hv)
    · exact Or.inr ⟨v, hv.2⟩
  · rintro (rfl | ⟨v, hv⟩)
    · exact ⟨(), Or.inl rfl⟩
    · by_cases e : x = n
      · exact ⟨(), Or.inl (by rw [e])⟩
      · exact ⟨v, Or.inr ⟨e, hv⟩⟩

theorem keys_insertAll (ns : List Str) {s : SMap Unit} (h : s.Sorted) (x : Str) :
    x ∈ (insertAll ns s).keys ↔ x ∈ ns ∨ x ∈ s.keys := by
  induction ns generalizing s with
  | nil => simp [insertAll]
  | cons n ns ih =>
    rw [show insertAll (n :: ns) s = insertAll ns (s.insert n ()) from rfl, ih (SMap.sorted_insert h), keys_insert h, List.mem_cons]
    constructor
    · rintro (h | h | h) <;> simp [h]
    · rintro ((h | h) | h) <;> simp [h]

theorem sorted_targetsOf (t : Str) : (targetsOf t).Sorted := by
  unfold targetsOf
  split
  · exact SMap.sorted_nil
  · exact sorted_insertAll _ SMap.sorted_nil

theorem keys_targetsOf (t x : Str) : x ∈ (targetsOf t).keys ↔ Listed t x := by
  rw [← getlines_listed]
  unfold targetsOf
  split
  · rename_i h; subst h; simp [getlines, SMap.keys]
  · rw [keys_insertAll _ SMap.sorted_nil]; simp [SMap.keys]

/-! ### the map of fields -/

theorem mapFields_spec (ds : List Def) (hd : (ds.map (·.name)).Nodup) : ∀ (m : SMap Nat) (i : Nat), m.Sorted →
    (mapFields m i ds).Sorted ∧ ∀ k v, (k, v) ∈ mapFields m i ds ↔
      (∃ j d, ds[j]? = some d ∧ d.name = k ∧ v = i + j) ∨ (k ∉ ds.map (·.name) ∧ (k, v) ∈ m) := by
  induction ds with
  | nil => intro m i h; exact ⟨h, fun k v => by simp [mapFields]⟩
  | cons d ds ih =>
    intro m i h
    simp only [List.map_cons, List.nodup_cons] at hd
    obtain ⟨h1, h2⟩ := ih hd.2 (m.insert d.name i) (i + 1) (SMap.sorted_insert h)
    refine ⟨h1, fun k v => ?_⟩
    rw [mapFields, h2 k v, SMap.mem_insert h]
    constructor
    · rintro (⟨j, e, hj, hk, hv⟩ | ⟨hk, hv⟩)
      · exact Or.inl ⟨j + 1, e, by simpa using hj, hk, by omega⟩
      · rcases hv with hv | ⟨hv1, hv2⟩
        · injection hv with e1 e2
          exact Or.inl ⟨0, d, rfl, e1.symm, by omega⟩
        · right
          simp only [List.map_cons, List.mem_cons, not_or]
          exact ⟨⟨hv1, hk⟩, hv2⟩
    · rintro (⟨j, e, hj, hk, hv⟩ | ⟨hk, hv⟩)
      · cases j with
        | zero =>
          simp only [List.getElem?_cons_zero, Option.some.injEq] at hj
          subst hj; subst hk
          exact Or.inr ⟨hd.1, Or.inl (by rw [hv]; rfl)⟩
        | succ j =>
          exact Or.inl ⟨j, e, by simpa using hj, hk, by omega⟩
      · simp only [List.map_cons, List.mem_cons, not_or] at hk
        exact Or.inr ⟨hk.2, Or.inr ⟨hk.1, hv⟩⟩

theorem fieldMap_find {ds : List Def} (hd : (ds.map (·.name)).Nodup) (k : Str) (v : Nat) :
    (fieldMap ds).find? k = some v ↔ ∃ d, ds[v]? = some d ∧ d.name = k := by
  obtain ⟨h1, h2⟩ := mapFields_spec ds hd [] 0 SMap.sorted_nil
  rw [show fieldMap ds = mapFields [] 0 ds from rfl, SMap.find?_some h1, h2]
  constructor
  · rintro (⟨j, d, hj, hk, hv⟩ | ⟨_, h⟩)
    · rw [show v = j by omega]; exact ⟨d, hj, hk⟩
    · simp at h
  · rintro ⟨d, hv, hk⟩
    exact Or.inl ⟨v, d, hv, hk, by omega⟩

theorem find_none_iff {ds : List Def} (hd : (ds.map (·.name)).Nodup) (k : Str) :
    (fieldMap ds).find? k = none ↔ k ∉ ds.map (·.name) := by
  constructor
  · intro h hm
    obtain ⟨d, hd', rfl⟩ := List.mem_map.mp hm
    obtain ⟨j, hj⟩ := List.mem_iff_getElem?.mp hd'
    rw [(fieldMap_find hd d.name j).mpr ⟨d, hj, rfl⟩] at h
    cases h
  · intro h
    cases hf : (fieldMap ds).find? k with
    | none => rfl
    | some v =>
      obtain ⟨d, h1, h2⟩ := (fieldMap_find hd k v).mp hf
      exact absurd (List.mem_map.mpr ⟨d, List.mem_of_getElem? h1, h2⟩) h

/-! ### triggers of a definition -/

theorem mem_channelNames {ds : List Def} {x : Str} : x ∈ channelNames ds ↔ ∃ d ∈ ds, d.name = x ∧ d.conf.channel ≠ [] := by
  simp only [channelNames, List.mem_map, List.mem_filter, bne_iff_ne, ne_eq]
  constructor
  · rintro ⟨d, ⟨h1, h2⟩, h3⟩; exact ⟨d, h1, h3, h2⟩
  · rintro ⟨d, h1, h3, h2⟩; exact ⟨d, ⟨h1, h2⟩, h3⟩

theorem addTarget_spec {ds : List Def} (hd : (ds.map (·.name)).Nodup) {s : SMap Unit} (hs : s.Sorted) (t : Str) :
    (addTarget ds s t).Sorted ∧ ∀ x, x ∈ (addTarget ds s t).keys ↔ x ∈ s.keys ∨ (x ∈ channelNames ds ∧ (t = [0x2a] ∨ t = x)) := by
  unfold addTarget
  by_cases ht : t = [0x2a]
  · rw [if_pos ht]
    refine ⟨sorted_insertAll _ hs, fun x => ?_⟩
    rw [keys_insertAll _ hs]
    simp only [ht, true_or, and_true]
    exact Or.comm
  · rw [if_neg ht]
    cases hf : (fieldMap ds).find? t with
    | none =>
      refine ⟨hs, fun x => ?_⟩
      constructor
      · exact Or.inl
      · rintro (h | ⟨h1, h2 | rfl⟩)
        · exact h
        · exact absurd h2 ht
        · obtain ⟨d, hd1, hd2, _⟩ := mem_channelNames.mp h1
          exact absurd (List.mem_map.mpr ⟨d, hd1, hd2⟩) ((find_none_iff hd _).mp hf)
    | some i =>
      obtain ⟨d, h1, h2⟩ := (fieldMap_find hd t i).mp hf
      simp only [h1]
      by_cases hc : d.conf.channel = []
      · rw [if_pos hc]
        refine ⟨hs, fun x => ?_⟩
        constructor
        · exact Or.inl
        · rintro (h | ⟨h3, h4 | rfl⟩)
          · exact h
          · exact absurd h4 ht
          · obtain ⟨e, he1, he2, he3⟩ := mem_channelNames.mp h3
            obtain ⟨j, hj⟩ := List.mem_iff_getElem?.mp he1
            have := (fieldMap_find hd t j).mpr ⟨e, hj, he2⟩
            rw [hf] at this
            injection this with this
            subst this
            rw [h1] at hj
            injection hj with hj
            subst hj
            exact absurd hc he3
      · rw [if_neg hc]
        refine ⟨SMap.sorted_insert hs, fun x => ?_⟩
        rw [keys_insert hs]
        constructor
        · rintro (rfl | h)
          · exact Or.inr ⟨mem_channelNames.mpr ⟨d, List.mem_of_getElem? h1, rfl, hc⟩, Or.inr h2.symm⟩
          · exact Or.inl h
        · rintro (h | ⟨_, h4 | rfl⟩)
          · exact Or.inr h
          · exact absurd h4 ht
          · exact Or.inl h2.symm

theorem addTargets_spec {ds : List Def} (hd : (ds.map (·.name)).Nodup) (ts : SMap Unit) :
    (addTargets ds ts).Sorted ∧
    ∀ x, x ∈ (addTargets ds ts).keys ↔ x ∈ channelNames ds ∧ ∃ t ∈ ts.keys, t = [0x2a] ∨ t = x := by
  have main : ∀ (ts : SMap Unit) (s : SMap Unit), s.Sorted →
      (ts.foldl (fun s t => addTarget ds s t.1) s).Sorted ∧
      ∀ x, x ∈ (ts.foldl (fun s t => addTarget ds s t.1) s).keys ↔
        x ∈ s.keys ∨ (x ∈ channelNames ds ∧ ∃ t ∈ ts.keys, t = [0x2a] ∨ t = x) := by
    intro ts
    induction ts with
    | nil => intro s hs; exact ⟨hs, fun x => by simp [SMap.keys]⟩
    | cons p ts ih =>
      intro s hs
      obtain ⟨h1, h2⟩ := addTarget_spec hd hs p.1
      obtain ⟨h3, h4⟩ := ih _ h1
      refine ⟨h3, fun x => ?_⟩
      rw [List.foldl_cons, h4, h2]
      simp only [SMap.keys, List.map_cons, List.mem_cons]
      constructor
      · rintro ((h | ⟨h5, h6⟩) | ⟨h5, t, h6, h7⟩)
        · exact Or.inl h
        · exact Or.inr ⟨h5, p.1, Or.inl rfl, h6⟩
        · exact Or.inr ⟨h5, t, Or.inr h6, h7⟩
      · rintro (h | ⟨h5, t, rfl | h6, h7⟩)
        · exact Or.inl (Or.inl h)
        · exact Or.inl (Or.inr ⟨h5, h7⟩)
        · exact Or.inr ⟨h5, t, h6, h7⟩
  obtain ⟨h1, h2⟩ := main ts [] SMap.sorted_nil
  refine ⟨h1, fun x => ?_⟩
  rw [addTargets, h2]
  simp [SMap.keys]

/-! ### sorting -/

theorem insertDef_perm (d : Def) (ds : List Def) : (insertDef d ds).Perm (d :: ds) := by
  induction ds with
  | nil => exact List.Perm.refl _
  | cons e ds ih =>
    rw [insertDef]
    split
    · exact List.Perm.refl _
    · exact (ih.cons e).trans (List.Perm.swap d e ds)

theorem sortDefs_perm (ds : List Def) : (sortDefs ds).Perm ds := by
  have main : ∀ (ds acc : List Def), (ds.foldl (fun acc d => insertDef d acc) acc).Perm (acc ++ ds) := by
    intro ds
    induction ds with
    | nil => intro acc; simp
    | cons d ds ih =>
      intro acc
      rw [List.foldl_cons]
      refine (ih _).trans ?_
      refine ((insertDef_perm d acc).append_right ds).trans ?_
      rw [List.cons_append]
      exact List.perm_middle.symm
  simpa [sortDefs] using main ds []

theorem before_of_not_lt {a b : Option Int} (h : orderLt a b = false) : Before b a := by
  cases a <;> cases b <;> simp_all [orderLt, Before]

theorem before_of_lt {a b : Option Int} (h : orderLt a b = true) : Before a b := by
  cases a <;> cases b <;> simp_all [orderLt, Before]; omega

theorem before_trans {a b c : Option Int} (h1 : Before a b) (h2 : Before b c) : Before a c := by
  cases a <;> cases b <;> cases c <;> simp_all [Before]; omega

theorem insertDef_sorted (d : Def) {ds : List Def} (h : ds.Pairwise fun a b => Before a.conf.putOrder b.conf.putOrder) :
    (insertDef d ds).Pairwise fun a b => Before a.conf.putOrder b.conf.putOrder := by
  induction ds with
  | nil => exact List.pairwise_singleton _ _
  | cons e ds ih =>
    rw [insertDef]
    have h' := List.pairwise_cons.mp h
    split
    · rename_i hlt
      refine List.pairwise_cons.mpr ⟨fun x hx => ?_, h⟩
      rcases List.mem_cons.mp hx with rfl | hx
      · exact before_of_lt hlt
      · exact before_trans (before_of_lt hlt) (h'.1 x hx)
    · rename_i hlt
      refine List.pairwise_cons.mpr ⟨fun x hx => ?_, ih h'.2⟩
      rcases List.mem_cons.mp ((insertDef_perm d ds).mem_iff.mp hx) with rfl | hx
      · exact before_of_not_lt (by simpa using hlt)
      · exact h'.1 x hx

theorem insertDef_filter (d : Def) {ds : List Def} (h : ds.Pairwise fun a b => Before a.conf.putOrder b.conf.putOrder)
    (o : Option Int) : (insertDef d ds).filter (fun x => x.conf.putOrder == o) =
      ds.filter (fun x => x.conf.putOrder == o) ++ [d].filter (fun x => x.conf.putOrder == o) := by
  induction ds with
  | nil => rfl
  | cons e ds ih =>
    have h' := List.pairwise_cons.mp h
    rw [insertDef]
    split
    · rename_i hlt
      by_cases hd : d.conf.putOrder = o
      · have none_eq : (e :: ds).filter (fun x => x.conf.putOrder == o) = [] := by
          rw [List.filter_eq_nil_iff]
          intro x hx
          simp only [beq_iff_eq]
          intro hxo
          have hb : Before e.conf.putOrder x.conf.putOrder := by
            rcases List.mem_cons.mp hx with rfl | hx
            · cases x.conf.putOrder <;> simp [Before]
            · exact h'.1 x hx
          rw [hxo, ← hd] at hb
          revert hb hlt
          cases d.conf.putOrder <;> cases e.conf.putOrder <;> simp [orderLt, Before] <;> omega
        rw [List.filter_cons, none_eq]
        simp [hd]
      · rw [List.filter_cons]
        simp [hd]
    · rw [List.filter_cons, List.filter_cons, ih h'.2]
      split <;> rfl

theorem sortDefs_spec (ds : List Def) : ((sortDefs ds).Pairwise fun a b => Before a.conf.putOrder b.conf.putOrder) ∧
    ∀ o, (sortDefs ds).filter (fun x => x.conf.putOrder == o) = ds.filter (fun x => x.conf.putOrder == o) := by
  have main : ∀ (ds acc : List Def), (acc.Pairwise fun a b => Before a.conf.putOrder b.conf.putOrder) →
      ((ds.foldl (fun acc d => insertDef d acc) acc).Pairwise fun a b => Before a.conf.putOrder b.conf.putOrder) ∧
      ∀ o, (ds.foldl (fun acc d => insertDef d acc) acc).filter (fun x => x.conf.putOrder == o) =
        acc.filter (fun x => x.conf.putOrder == o) ++ ds.filter (fun x => x.conf.putOrder == o) := by
    intro ds
    induction ds with
    | nil => intro acc h; exact ⟨h, fun o => by simp⟩
    | cons d ds ih =>
      intro acc h
      obtain ⟨h1, h2⟩ := ih _ (insertDef_sorted d h)
      refine ⟨h1, fun o => ?_⟩
      rw [List.foldl_cons, h2, insertDef_filter d h]
      rw [show (d :: ds).filter (fun x => x.conf.putOrder == o) = [d].filter (fun x => x.conf.putOrder == o) ++ ds.filter (fun x => x.conf.putOrder == o) by
        rw [← List.filter_append]; rfl]
      rw [List.append_assoc]
  simpa [sortDefs] using main ds [] List.Pairwise.nil

/-! ### creating the fields -/

/-- the field made from a definition -/
def mk (d : Def) : GField := { fullName := d.name, conf := d.conf }

theorem fieldOf_good {exist : Str → Bool} {d : Def} (hn : GoodName d.name) (hx : d.conf.channel ≠ [] → exist d.conf.channel = true) :
    fieldOf exist d = .ok (mk d) := by
  have hx' : ¬ (d.conf.channel ≠ [] ∧ exist d.conf.channel = false) := by
    rintro ⟨h1, h2⟩
    rw [hx h1] at h2
    cases h2
  unfold fieldOf
  rcases hn with hn | ⟨l, hl⟩
  · rw [hn]
    simp only [(Fnm.C70_root_partial).1, Res.bind_ok, if_neg hx', if_pos]
    simp [mk, hn]
  · obtain ⟨h1, h2⟩ := Fnm.C70_partial _ l hl
    have hne : Spec.FieldName.comps l ≠ [] := by
      have := (Fnm.name_ne hl).2
      cases l with
      | nil => exact absurd rfl this
      | cons p l => simp [Spec.FieldName.comps]
    simp only [h1, Res.bind_ok, if_neg hx', if_neg hne, h2]
    rfl

theorem initialise_good {exist : Str → Bool} (ds : List Def) (h : ∀ d ∈ ds, fieldOf exist d = .ok (mk d)) :
    initialiseGroupFields exist ds = (ds.map mk, true) := by
  induction ds with
  | nil => rfl
  | cons d ds ih =>
    rw [initialiseGroupFields, h d (by simp)]
    simp only [ih fun e he => h e (List.mem_cons_of_mem _ he), List.map_cons]

theorem lookup_app {fs gs : List GField} {f : GField} {n : Str} (h1 : ∀ x ∈ fs, x.fullName ≠ n) (h2 : f.fullName = n) :
    Group.lookup (fs ++ f :: gs) n = some fs.length := by
  induction fs with
  | nil => simp [Group.lookup, h2]
  | cons x fs ih =>
    rw [List.cons_append, Group.lookup, if_neg (h1 x (by simp)), ih fun y hy => h1 y (List.mem_cons_of_mem _ hy)]
    simp

/-- the fields which the names stand for -/
def refs (fm : SMap Nat) (ns : SMap Unit) : List Nat := ns.filterMap fun p => fm.find? p.1

theorem references_ok {fm : SMap Nat} {fs : List GField} (h : ∀ k v, fm.find? k = some v → v < fs.length) (ns : SMap Unit) :
    references fm fs ns = .ok (refs fm ns) := by
  induction ns with
  | nil => rfl
  | cons p ns ih =>
    obtain ⟨n, u⟩ := p
    rw [references]
    cases hf : fm.find? n with
    | none => simp only [ih, refs, List.filterMap_cons, hf]
    | some i =>
      simp only [h n i hf, if_true, ih, Res.bind_ok, refs, List.filterMap_cons, hf]
      rfl

/-- the field, with its triggers -/
def fin (fm : SMap Nat) (chan : Nat → Bool) (d : Def) : GField :=
  if d.conf.channel = [] then mk d
  else { mk d with triggers := refs fm d.triggerNames, lock := (refs fm d.triggerNames).filter chan }

theorem fin_name (fm : SMap Nat) (chan : Nat → Bool) (d : Def) : (fin fm chan d).fullName = d.name ∧ (fin fm chan d).conf = d.conf := by
  unfold fin
  split <;> exact ⟨rfl, rfl⟩

theorem modify_app {fs gs : List GField} {f : GField} (g : GField → GField) :
    (fs ++ f :: gs).modify fs.length g = fs ++ g f :: gs := by
  induction fs with
  | nil => simp
  | cons x fs ih => simp [ih]

theorem initialiseTriggers_ok {fm : SMap Nat} (all : List Def) (hd : (all.map (·.name)).Nodup)
    (hfm : ∀ k v, fm.find? k = some v → v < all.length) : ∀ (rest done : List Def), all = done ++ rest →
    initialiseTriggers fm rest (done.map (fin fm (hasChannel (all.map mk))) ++ rest.map mk) =
      .ok (all.map (fin fm (hasChannel (all.map mk)))) := by
  intro rest
  induction rest with
  | nil => intro done h; simp [initialiseTriggers, h]
  | cons d rest ih =>
    intro done h
    have step := ih (done ++ [d]) (by rw [h]; simp)
    have hchan : hasChannel (done.map (fin fm (hasChannel (all.map mk))) ++ (d :: rest).map mk) = hasChannel (all.map mk) := by
      funext i
      have key : ∀ l : List Def, (l.map (fin fm (hasChannel (all.map mk)))).map (fun f => f.conf.channel != []) =
          (l.map mk).map (fun f => f.conf.channel != []) := by
        intro l
        simp only [List.map_map]
        refine List.map_congr_left fun x _ => ?_
        simp only [Function.comp, (fin_name fm (hasChannel (all.map mk)) x).2]
        rfl
      unfold hasChannel at key ⊢
      rw [← List.getElem?_map, ← List.getElem?_map, List.map_append, key, ← List.map_append, ← List.map_append, ← h]
    have hlen : (done.map (fin fm (hasChannel (all.map mk))) ++ (d :: rest).map mk).length = all.length := by
      rw [h]; simp
    have hnames : ∀ x ∈ done.map (fin fm (hasChannel (all.map mk))), x.fullName ≠ d.name := by
      intro x hx
      obtain ⟨e, he, rfl⟩ := List.mem_map.mp hx
      rw [(fin_name fm (hasChannel (all.map mk)) e).1]
      rw [h, List.map_append, List.nodup_append] at hd
      exact hd.2.2 e.name (List.mem_map_of_mem he) d.name (by simp)
    have href := references_ok (fm := fm) (fs := done.map (fin fm (hasChannel (all.map mk))) ++ (d :: rest).map mk)
      (fun k v hk => by rw [hlen]; exact hfm k v hk) d.triggerNames
    rw [List.map_cons] at hchan hlen href ⊢
    have hlook := lookup_app (fs := done.map (fin fm (hasChannel (all.map mk)))) (gs := rest.map mk) (f := mk d) (n := d.name) hnames rfl
    rw [initialiseTriggers]
    by_cases hc : d.conf.channel = []
    · rw [if_pos hc]
      rw [← step]
      simp [fin, hc]
    · rw [if_neg hc, hlook]
      simp only [href, Res.bind_ok, modify_app]
      rw [← step, hchan]
      simp [fin, hc, mk]

/-! ### C67 -/

/-- the field of the definition after validation -/
def clear (f : Str × FieldConf) : Str × FieldConf := if f.2.type.needsChannel then f else (f.1, { f.2 with channel := [] })

theorem clear_fst (f : Str × FieldConf) : (clear f).1 = f.1 ∧ (clear f).2.type = f.2.type ∧ (clear f).2.trigger = f.2.trigger ∧
    (clear f).2.putOrder = f.2.putOrder ∧ ((clear f).2.channel ≠ [] ↔ Mapped f.2) ∧ (Mapped f.2 → (clear f).2.channel = f.2.channel) := by
  unfold clear Mapped
  cases h : f.2.type <;> simp [MapType.needsChannel, h]

theorem validate_ok {g : SMap FieldConf} (h : ∀ p ∈ g, Complete p.2) : validate g = some (g.map clear) := by
  unfold validate
  rw [if_neg]
  · rfl
  · rw [List.any_eq_true]
    rintro ⟨p, hp, hq⟩
    rw [Bool.and_eq_true, beq_iff_eq] at hq
    rcases h p hp with h | h | h
    · exact h hq.2
    · rw [h] at hq; simp [MapType.needsChannel] at hq
    · rw [h] at hq; simp [MapType.needsChannel] at hq

/-- the definition of a field -/
def toDef (f : Str × FieldConf) : Def := { name := f.1, conf := f.2, targets := targetsOf f.2.trigger }

theorem isIn_iff (g : List (Str × FieldConf)) (f : Str × FieldConf) : (f ∈ g ∧ isIn f = true) ↔ IsField g f.1 f.2 := by
  unfold isIn IsField
  simp only [Bool.not_eq_true', Bool.and_eq_false_iff, beq_eq_false_iff_ne, bne_eq_false_iff_eq, ne_eq]

theorem filter_clear (g : List (Str × FieldConf)) : (g.map clear).filter isIn = (g.filter isIn).map clear := by
  rw [List.filter_map]
  congr 1
  refine List.filter_congr fun x _ => ?_
  simp only [Function.comp, isIn, (clear_fst x).1, (clear_fst x).2.1]

theorem define_eq (g : SMap FieldConf) : defineFields (g.map clear) = ((g.filter isIn).map clear).map toDef := by
  rw [← filter_clear]
  rfl

/-- the definitions, in order, before the triggers are resolved -/
def sorted (g : SMap FieldConf) : List Def := sortDefs (((g.filter isIn).map clear).map toDef)

theorem mem_sorted {g : SMap FieldConf} {d : Def} : d ∈ sorted g ↔ ∃ n c, IsField g n c ∧ d = toDef (clear (n, c)) := by
  rw [sorted, (sortDefs_perm _).mem_iff]
  simp only [List.mem_map, List.mem_filter]
  constructor
  · rintro ⟨p, ⟨q, hq, rfl⟩, rfl⟩
    exact ⟨q.1, q.2, (isIn_iff g q).mp hq, rfl⟩
  · rintro ⟨n, c, h, rfl⟩
    exact ⟨_, ⟨(n, c), (isIn_iff g (n, c)).mpr h, rfl⟩, rfl⟩

theorem names_sorted {g : SMap FieldConf} (hg : (g.map (·.1)).Nodup) : ((sorted g).map (·.name)).Nodup := by
  have : ((sorted g).map (·.name)).Perm ((g.filter isIn).map (·.1)) := by
    refine ((sortDefs_perm _).map _).trans ?_
    rw [List.map_map, List.map_map]
    refine List.Perm.of_eq (List.map_congr_left fun x _ => ?_)
    simp only [Function.comp, toDef, (clear_fst x).1]
  rw [this.nodup_iff]
  exact List.Nodup.sublist (List.Sublist.map _ List.filter_sublist) hg

theorem field_unique {g : SMap FieldConf} (hg : (g.map (·.1)).Nodup) {n : Str} {c c' : FieldConf} (h : IsField g n c) (h' : IsField g n c') :
    c = c' := by
  have key : ∀ (g : List (Str × FieldConf)), (g.map (·.1)).Nodup → (n, c) ∈ g → (n, c') ∈ g → c = c' := by
    intro g
    induction g with
    | nil => intro _ h; simp at h
    | cons p g ih =>
      intro hn h1 h2
      simp only [List.map_cons, List.nodup_cons] at hn
      rcases List.mem_cons.mp h1 with e1 | h1 <;> rcases List.mem_cons.mp h2 with e2 | h2
      · rw [← e1] at e2; injection e2 with _ e2; exact e2.symm
      · exact absurd (by rw [← e1]; exact List.mem_map.mpr ⟨_, h2, rfl⟩) hn.1
      · exact absurd (by rw [← e2]; exact List.mem_map.mpr ⟨_, h1, rfl⟩) hn.1
      · exact ih hn.2 h1 h2
  exact key g hg h.1 h'.1

/-- the trigger names of a definition, after they are resolved -/
def trig (ds : List Def) (d : Def) : SMap Unit :=
  if hasTriggers ds then addTargets ds d.targets else if d.conf.channel = [] then d.triggerNames else insertAll [d.name] []

theorem resolve_eq (ds : List Def) : resolve ds = ds.map fun d => { d with triggerNames := trig ds d } := by
  unfold resolve trig
  by_cases h : hasTriggers ds = true
  · simp [h]
  · simp only [h, if_false, Bool.false_eq_true]
    refine List.map_congr_left fun d _ => ?_
    split <;> rfl

theorem hasTriggers_iff (g : SMap FieldConf) : hasTriggers (sorted g) = true ↔ AnyTrigger g := by
  unfold hasTriggers AnyTrigger
  rw [List.any_eq_true]
  constructor
  · rintro ⟨d, hd, ht⟩
    obtain ⟨n, c, h, rfl⟩ := mem_sorted.mp hd
    refine ⟨n, c, h, ?_⟩
    simp only [toDef, bne_iff_ne, ne_eq, (clear_fst (n, c)).2.2.1] at ht
    exact ht
  · rintro ⟨n, c, h, ht⟩
    refine ⟨_, mem_sorted.mpr ⟨n, c, h, rfl⟩, ?_⟩
    simp only [toDef, bne_iff_ne, ne_eq, (clear_fst (n, c)).2.2.1]
    exact ht

theorem trig_spec {g : SMap FieldConf} (hg : (g.map (·.1)).Nodup) {n : Str} {c : FieldConf} (h : IsField g n c) (hm : Mapped c) :
    (trig (sorted g) (toDef (clear (n, c)))).Sorted ∧
    ∀ x, x ∈ (trig (sorted g) (toDef (clear (n, c)))).keys ↔ Updates g n x := by
  have hn := names_sorted hg
  have hch : (toDef (clear (n, c))).conf.channel ≠ [] := (clear_fst (n, c)).2.2.2.2.1.mpr hm
  have hchn : ∀ x, x ∈ channelNames (sorted g) ↔ ∃ d, IsField g x d ∧ Mapped d := by
    intro x
    rw [mem_channelNames]
    constructor
    · rintro ⟨e, he, hx, hc⟩
      obtain ⟨m, d, hd, rfl⟩ := mem_sorted.mp he
      have : m = x := by rw [← hx]; exact ((clear_fst (m, d)).1).symm
      subst this
      exact ⟨d, hd, (clear_fst (m, d)).2.2.2.2.1.mp hc⟩
    · rintro ⟨d, hd, hmd⟩
      exact ⟨_, mem_sorted.mpr ⟨x, d, hd, rfl⟩, (clear_fst (x, d)).1, (clear_fst (x, d)).2.2.2.2.1.mpr hmd⟩
  have htg : (toDef (clear (n, c))).targets = targetsOf c.trigger := by
    simp only [toDef, (clear_fst (n, c)).2.2.1]
  have hnm : (toDef (clear (n, c))).name = n := (clear_fst (n, c)).1
  unfold trig
  by_cases ha : hasTriggers (sorted g) = true
  · rw [if_pos ha]
    have ha' := (hasTriggers_iff g).mp ha
    obtain ⟨h1, h2⟩ := addTargets_spec hn (toDef (clear (n, c))).targets
    refine ⟨h1, fun x => ?_⟩
    rw [h2, htg, hchn]
    constructor
    · rintro ⟨⟨d, hd, hmd⟩, t, ht, he⟩
      rw [keys_targetsOf] at ht
      refine ⟨c, d, h, hm, hd, hmd, Or.inl ⟨ha', ?_⟩⟩
      rcases he with rfl | rfl
      · exact Or.inl ht
      · exact Or.inr ht
    · rintro ⟨c', d, h', _, hd, hmd, ⟨_, he⟩ | ⟨hno, _⟩⟩
      · rw [field_unique hg h' h] at he
        refine ⟨⟨d, hd, hmd⟩, ?_⟩
        rcases he with he | he
        · exact ⟨[0x2a], (keys_targetsOf _ _).mpr he, Or.inl rfl⟩
        · exact ⟨x, (keys_targetsOf _ _).mpr he, Or.inr rfl⟩
      · exact absurd ha' hno
  · rw [if_neg ha, if_neg hch, hnm]
    have ha' : ¬ AnyTrigger g := fun h => ha ((hasTriggers_iff g).mpr h)
    refine ⟨sorted_insertAll _ SMap.sorted_nil, fun x => ?_⟩
    rw [keys_insertAll _ SMap.sorted_nil]
    simp only [SMap.keys, List.map_nil, List.not_mem_nil, or_false, List.mem_singleton]
    constructor
    · rintro rfl
      exact ⟨c, c, h, hm, h, hm, Or.inr ⟨ha', rfl⟩⟩
    · rintro ⟨_, _, _, _, _, _, ⟨he, _⟩ | ⟨_, he⟩⟩
      · exact absurd he ha'
      · exact he

/-- what is created: every field in turn -/
theorem load_eq {exist : Str → Bool} {g : SMap FieldConf} (hg : (g.map (·.1)).Nodup) (hn : ∀ n c, IsField g n c → GoodName n)
    (hc : ∀ p ∈ g, Complete p.2) (hx : ∀ n c, IsField g n c → Mapped c → exist c.channel = true) :
    load exist g = some (.ok ((resolve (sorted g)).map
      (fin (fieldMap (resolve (sorted g))) (hasChannel ((resolve (sorted g)).map mk))))) := by
  have hdn : ((resolve (sorted g)).map (·.name)).Nodup := by
    rw [resolve_eq, List.map_map]
    exact names_sorted hg
  unfold load
  rw [validate_ok hc]
  have e : definition (g.map clear) = resolve (sorted g) := by
    unfold definition sorted
    rw [define_eq]
  rw [Option.map_some, e]
  unfold create
  rw [initialise_good]
  · congr 1
    have := initialiseTriggers_ok (fm := fieldMap (resolve (sorted g))) (resolve (sorted g)) hdn
      (fun k v hk => by
        obtain ⟨d, h1, _⟩ := (fieldMap_find hdn k v).mp hk
        exact (List.getElem?_eq_some_iff.mp h1).1)
      (resolve (sorted g)) [] rfl
    simpa using this
  · intro d hd
    rw [resolve_eq, List.mem_map] at hd
    obtain ⟨e, he, rfl⟩ := hd
    obtain ⟨n, c, h, rfl⟩ := mem_sorted.mp he
    refine fieldOf_good ?_ ?_
    · show GoodName (clear (n, c)).1
      rw [(clear_fst (n, c)).1]
      exact hn n c h
    · intro hch
      have hm := (clear_fst (n, c)).2.2.2.2.1.mp hch
      show exist (clear (n, c)).2.channel = true
      rw [(clear_fst (n, c)).2.2.2.2.2 hm]
      exact hx n c h hm

/-- C67, what is proved of it.  A definition in which every field has what its mapping needs, the names are written as documented, and
    the records exist, gives a group with
    - the fields of the definition, each once,
    - in increasing put order, and as they were for the same order,
    - each of which, if it is mapped to a record, updates just the fields it should, and locks the records of these.
    Missing: definitions which name a record that does not exist, see `C67_dangling`. -/
theorem C67_partial (exist : Str → Bool) (g : SMap FieldConf) (hg : (g.map (·.1)).Nodup)
    (hn : ∀ n c, IsField g n c → GoodName n) (hc : ∀ p ∈ g, Complete p.2)
    (hx : ∀ n c, IsField g n c → Mapped c → exist c.channel = true) :
    ∃ fs, load exist g = some (.ok fs) ∧
      (fs.map (·.fullName)).Nodup ∧
      (∀ n, (∃ f ∈ fs, f.fullName = n) ↔ ∃ c, IsField g n c) ∧
      (∀ f ∈ fs, ∀ c, IsField g f.fullName c → f.conf.type = c.type ∧ f.conf.putOrder = c.putOrder ∧
        (if f.conf.channel = [] then ¬ Mapped c else Mapped c ∧ f.conf.channel = c.channel)) ∧
      (fs.Pairwise fun a b => Before a.conf.putOrder b.conf.putOrder) ∧
      (∀ o, (fs.filter fun f => f.conf.putOrder == o).map (·.fullName) =
        (g.filter fun p => isIn p && p.2.putOrder == o).map (·.1)) ∧
      (∀ f ∈ fs, f.conf.channel = [] → f.triggers = []) ∧
      (∀ f ∈ fs, f.lock = f.triggers ∧ f.triggers.Nodup ∧ ∀ j ∈ f.triggers, j < fs.length) ∧
      (∀ f ∈ fs, ∀ j f', fs[j]? = some f' → (j ∈ f.triggers ↔ Updates g f.fullName f'.fullName)) := by
  refine ⟨_, load_eq hg hn hc hx, ?_⟩
  have hds := names_sorted hg
  have hdn : ((resolve (sorted g)).map (·.name)).Nodup := by
    rw [resolve_eq, List.map_map]
    exact hds
  -- what a field of the result is
  have hmem : ∀ d, d ∈ resolve (sorted g) ↔ ∃ n c, IsField g n c ∧
      d = { toDef (clear (n, c)) with triggerNames := trig (sorted g) (toDef (clear (n, c))) } := by
    intro d
    rw [resolve_eq, List.mem_map]
    constructor
    · rintro ⟨e, he, rfl⟩
      obtain ⟨n, c, h, rfl⟩ := mem_sorted.mp he
      exact ⟨n, c, h, rfl⟩
    · rintro ⟨n, c, h, rfl⟩
      exact ⟨_, mem_sorted.mpr ⟨n, c, h, rfl⟩, rfl⟩
  generalize hR : resolve (sorted g) = R at hdn hmem
  generalize hH : hasChannel (R.map mk) = H
  have hfind := fun k v => fieldMap_find hdn k v
  generalize hF : fieldMap R = F at hfind
  have hnameOf : ∀ n c, (clear (n, c)).1 = n := fun n c => (clear_fst (n, c)).1
  have htrig : ∀ n c, IsField g n c → Mapped c → ∀ j f', (R.map (fin F H))[j]? = some f' →
      (j ∈ refs F (trig (sorted g) (toDef (clear (n, c)))) ↔ Updates g n f'.fullName) := by
    intro n c h hm j f' hj
    rw [List.getElem?_map] at hj
    obtain ⟨d, hd, rfl⟩ := Option.map_eq_some_iff.mp hj
    rw [(fin_name F H d).1, ← (trig_spec hg h hm).2, refs, List.mem_filterMap, SMap.mem_keys]
    constructor
    · rintro ⟨⟨k, u⟩, hp, hk⟩
      obtain ⟨e, he, hek⟩ := (hfind k j).mp hk
      rw [hd] at he
      injection he with he
      subst he
      exact ⟨u, by rw [hek]; exact hp⟩
    · rintro ⟨u, hp⟩
      exact ⟨(d.name, u), hp, (hfind d.name j).mpr ⟨d, hd, rfl⟩⟩
  have hchan : ∀ n c, IsField g n c → Mapped c → ∀ j ∈ refs F (trig (sorted g) (toDef (clear (n, c)))), H j = true ∧ j < R.length := by
    intro n c h hm j hj
    obtain ⟨⟨k, u⟩, hp, hk⟩ := List.mem_filterMap.mp hj
    obtain ⟨d, hd, hdk⟩ := (hfind k j).mp hk
    have hlt : j < R.length := (List.getElem?_eq_some_iff.mp hd).1
    refine ⟨?_, hlt⟩
    have hup := (htrig n c h hm j (fin F H d) (by rw [List.getElem?_map, hd]; rfl)).mp hj
    rw [(fin_name F H d).1] at hup
    obtain ⟨_, d', _, _, hd', hmd, _⟩ := hup
    obtain ⟨m, c2, h2, rfl⟩ := (hmem d).mp (List.mem_of_getElem? hd)
    rw [show Def.name _ = m from hnameOf m c2] at hd'
    rw [field_unique hg hd' h2] at hmd
    rw [← hH]
    unfold hasChannel
    rw [List.getElem?_map, hd]
    simp only [Option.map_some, Option.getD_some, bne_iff_ne, ne_eq]
    exact (clear_fst (m, c2)).2.2.2.2.1.mpr hmd
  have hfield : ∀ f ∈ R.map (fin F H), ∃ n c, IsField g n c ∧ f.fullName = n ∧ f.conf = (clear (n, c)).2 ∧
      ((f.conf.channel = [] ∧ f.triggers = [] ∧ f.lock = []) ∨
        (Mapped c ∧ f.triggers = refs F (trig (sorted g) (toDef (clear (n, c)))) ∧ f.lock = f.triggers.filter H)) := by
    intro f hf
    obtain ⟨d, hd, rfl⟩ := List.mem_map.mp hf
    obtain ⟨n, c, h, rfl⟩ := (hmem d).mp hd
    refine ⟨n, c, h, ?_, ?_, ?_⟩
    · rw [(fin_name F H _).1]; exact hnameOf n c
    · rw [(fin_name F H _).2]; rfl
    · rw [(fin_name F H _).2]
      by_cases hch : (clear (n, c)).2.channel = []
      · left
        refine ⟨hch, ?_, ?_⟩ <;> simp [fin, toDef, hch, mk]
      · right
        refine ⟨(clear_fst (n, c)).2.2.2.2.1.mp hch, ?_, ?_⟩ <;> simp [fin, toDef, hch]
  refine ⟨?_, ?_, ?_, ?_, ?_, ?_, ?_, ?_⟩
  · have : (R.map (fin F H)).map (·.fullName) = R.map (·.name) := by
      rw [List.map_map]
      exact List.map_congr_left fun d _ => (fin_name F H d).1
    rw [this]
    exact hdn
  · intro n
    constructor
    · rintro ⟨f, hf, rfl⟩
      obtain ⟨n, c, h, h1, _⟩ := hfield f hf
      rw [h1]
      exact ⟨c, h⟩
    · rintro ⟨c, h⟩
      refine ⟨_, List.mem_map.mpr ⟨_, (hmem _).mpr ⟨n, c, h, rfl⟩, rfl⟩, ?_⟩
      rw [(fin_name F H _).1]
      exact hnameOf n c
  · intro f hf c hc
    obtain ⟨n, c', h, h1, h2, _⟩ := hfield f hf
    rw [h1] at hc
    have := field_unique hg h hc
    subst this
    obtain ⟨_, e2, _, e4, e5, e6⟩ := clear_fst (n, c')
    rw [h2]
    refine ⟨e2, e4, ?_⟩
    split
    · rename_i hch
      exact fun hm => (e5.mpr hm) hch
    · rename_i hch
      exact ⟨e5.mp hch, e6 (e5.mp hch)⟩
  · rw [List.pairwise_map, ← hR, resolve_eq, List.pairwise_map]
    refine List.Pairwise.imp ?_ (sortDefs_spec _).1
    intro a b hab
    rw [(fin_name F H _).2, (fin_name F H _).2]
    exact hab
  · intro o
    rw [List.filter_map, List.map_map, ← hR, resolve_eq, List.filter_map, List.map_map]
    have e1 : (sorted g).filter (((fun f : GField => f.conf.putOrder == o) ∘ fin F H) ∘ fun d => { d with triggerNames := trig (sorted g) d })
        = (sorted g).filter (fun d => d.conf.putOrder == o) := by
      refine List.filter_congr fun d _ => ?_
      simp only [Function.comp, (fin_name F H _).2]
    rw [e1]
    have e2 := (sortDefs_spec (((g.filter isIn).map clear).map toDef)).2 o
    rw [show sortDefs (((g.filter isIn).map clear).map toDef) = sorted g from rfl] at e2
    rw [e2, List.filter_map, List.filter_map, List.map_map, List.map_map, List.filter_filter]
    have e3 : (fun a => (((fun x : Def => x.conf.putOrder == o) ∘ toDef) ∘ clear) a && isIn a) =
        fun p : Str × FieldConf => isIn p && p.2.putOrder == o := by
      funext p
      simp only [Function.comp, toDef, (clear_fst p).2.2.2.1]
      exact Bool.and_comm _ _
    rw [e3]
    refine List.map_congr_left fun p _ => ?_
    simp only [Function.comp, (fin_name F H _).1]
    exact (clear_fst p).1
  · intro f hf hch
    obtain ⟨n, c, h, h1, h2, h3 | h3⟩ := hfield f hf
    · exact h3.2.1
    · exact absurd hch (by rw [h2]; exact (clear_fst (n, c)).2.2.2.2.1.mpr h3.1)
  · intro f hf
    obtain ⟨n, c, h, h1, h2, h3 | ⟨hm, h3, h4⟩⟩ := hfield f hf
    · rw [h3.2.1, h3.2.2]
      exact ⟨rfl, List.nodup_nil, fun j hj => by simp at hj⟩
    · have hall := hchan n c h hm
      rw [← h3] at hall
      refine ⟨?_, ?_, ?_⟩
      · rw [h4, List.filter_eq_self]
        exact fun j hj => (hall j hj).1
      · rw [h3]
        have hs := SMap.sorted_keys_nodup (trig_spec hg h hm).1
        unfold refs List.Nodup
        rw [List.pairwise_filterMap]
        unfold SMap.keys at hs
        rw [List.Nodup, List.pairwise_map] at hs
        refine List.Pairwise.imp ?_ hs
        intro a b hab v hv w hw e
        subst e
        obtain ⟨d1, x1, y1⟩ := (hfind _ _).mp hv
        obtain ⟨d2, x2, y2⟩ := (hfind _ _).mp hw
        rw [x1] at x2
        injection x2 with x2
        subst x2
        exact hab (by rw [← y1, ← y2])
      · intro j hj
        rw [List.length_map]
        exact (hall j hj).2
  · intro f hf j f' hj
    obtain ⟨n, c, h, h1, h2, h3 | ⟨hm, h3, _⟩⟩ := hfield f hf
    · rw [h3.2.1, h1]
      refine ⟨fun h => by simp at h, ?_⟩
      rintro ⟨c', _, h', hm', _⟩
      rw [field_unique hg h' h] at hm'
      exact absurd h3.1 (by rw [h2]; exact (clear_fst (n, c)).2.2.2.2.1.mpr hm')
    · rw [h3, h1]
      exact htrig n c h hm j f' hj

/-- a group is not created if one of the fields lacks a channel which its mapping needs -/
theorem C67_incomplete_partial (exist : Str → Bool) (g : SMap FieldConf) (h : ∃ p ∈ g, ¬ Complete p.2) : load exist g = none := by
  obtain ⟨p, hp, hc⟩ := h
  simp only [Complete, not_or] at hc
  unfold load validate
  rw [if_pos]
  · rfl
  · rw [List.any_eq_true]
    refine ⟨p, hp, ?_⟩
    have : p.2.channel = [] := Classical.byContradiction hc.1
    rw [Bool.and_eq_true, beq_iff_eq]
    refine ⟨?_, this⟩
    revert hc
    cases p.2.type <;> simp [MapType.needsChannel]

/-! ### where it does not hold -/

/-- "a" and "b" -/
def a : Str := [0x61]
def b : Str := [0x62]

/-- a record which does not exist: the fields before it are created, and then a trigger refers to a field which is not there -/
theorem C67_dangling : load (fun n => n == a)
    [(a, { channel := a, trigger := [0x2a] }), (b, { channel := b })] = some .ub := by decide

/-- "a, b": documentation/qgroup.rst:128 has a blank after the comma, but the name is then " b", which is no field -/
theorem C67_blank : ∃ f0 f1, load (fun _ => true) [(a, { channel := a, trigger := [0x61, 0x2c, 0x20, 0x62] }), (b, { channel := b })] =
    some (.ok [f0, f1]) ∧ f0.triggers = [0] :=
  ⟨{ fullName := a, conf := { channel := a, trigger := [0x61, 0x2c, 0x20, 0x62] }, triggers := [0], lock := [0] },
    { fullName := b, conf := { channel := b } }, by decide, rfl⟩

/-! ### the hypotheses are met -/

/-- three fields: `a` has put order 2 and triggers all; `b` has put order 1 and no trigger; `c` is a constant -/
def sample : SMap FieldConf :=
  [(a, { channel := a, trigger := [0x2a], putOrder := some 2 }), (b, { channel := b, putOrder := some 1 }), ([0x63], { type := .const })]

example : (sample.map (·.1)).Nodup := by decide
example : ∀ p ∈ sample, Complete p.2 := by
  intro p hp
  simp only [sample, List.mem_cons, List.not_mem_nil, or_false] at hp
  rcases hp with rfl | rfl | rfl
  · exact Or.inl (by decide)
  · exact Or.inl (by decide)
  · exact Or.inr (Or.inr rfl)
example : ∀ n c, IsField sample n c → GoodName n := by
  intro n c h
  have hp := h.1
  simp only [sample, List.mem_cons, List.not_mem_nil, or_false, Prod.mk.injEq] at hp
  rcases hp with ⟨rfl, _⟩ | ⟨rfl, _⟩ | ⟨rfl, _⟩ <;>
    exact Or.inr ⟨_, Spec.FieldName.Name.one (Spec.FieldName.Part.plain (by decide) (by decide) (by decide))⟩
/-- in the order c, b, a: and a updates b and itself -/
example : (load (fun _ => true) sample).map (fun r => match r with | .ok fs => fs.map fun f => (f.fullName, f.triggers) | _ => []) =
    some [([0x63], []), (b, []), (a, [2, 1])] := by decide
example : Updates sample a b := by
  have ha : IsField sample a { channel := a, trigger := [0x2a], putOrder := some 2 } := ⟨by decide, Or.inl (by decide)⟩
  have hb : IsField sample b { channel := b, putOrder := some 1 } := ⟨by decide, Or.inl (by decide)⟩
  refine ⟨_, _, ha, ⟨by decide, by decide, by decide⟩, hb, ⟨by decide, by decide, by decide⟩, Or.inl ⟨⟨a, _, ha, by decide⟩, Or.inl ?_⟩⟩
  exact ⟨by decide, [], [], rfl, Or.inl rfl, Or.inl rfl, Or.inl (by decide)⟩

end Pvxs.Props.Grc
