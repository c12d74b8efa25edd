import Verif.Lemmas.Assign
namespace Pvxs
open Wire Spec

theorem joinDots_cons (a : Str) (l : List Str) (h : l ≠ []) : joinDots (a :: l) = a ++ [0x2e] ++ joinDots l := by
  cases l with
  | nil => exact absurd rfl h
  | cons b l => rfl

theorem descends_embed {s T : List FieldDesc} {b : Nat} (he : Embeds s T b) {i j : Nat} {ps : List Str} (h : Descends s i ps j) :
    Descends T (b + i) ps (b + j) := by
  induction h with
  | here i => exact .here _
  | member i d name off more j hd hc hm h ih =>
    obtain ⟨n, hn⟩ := he.get i d hd
    exact .member _ _ name off more _ hn hc hm (by rw [Nat.add_assoc]; exact ih)

/-- the dotted table finds what is reached by descending -/
theorem lookOf_descends (m : Member) : Full m → m.code = .Struct → ∀ k j, (k, j) ∈ lookOf m ↔
    ∃ ps, ps ≠ [] ∧ k = joinDots ps ∧ Descends (flat m) 0 ps j := by
  induction m using Member.ind with
  | h m ih =>
    intro hf hs k j
    have hroot := flat_root hs
    constructor
    · intro hkj
      obtain ⟨o, c, hk, hq⟩ := mem_allEntries.mp ((hf.mem hs _).mp hkj)
      have hmem : (c.name, o) ∈ (structRoot m).miter := mem_kidIter.mpr ⟨c, hk, rfl⟩
      rcases mem_kidEntries.mp hq with e | ⟨hcs, p, x, hpx, e⟩
      · cases e
        exact ⟨[c.name], by simp, rfl, .member 0 _ _ _ _ _ hroot rfl hmem (by rw [Nat.zero_add]; exact .here _)⟩
      · cases e
        obtain ⟨ps, h1, h2, h3⟩ := (ih c hk.mem ((hf.entries hs).2.2 c hk.mem) hcs p x).mp hpx
        refine ⟨c.name :: ps, by simp, by rw [joinDots_cons _ _ h1, h2], .member 0 _ _ o _ _ hroot rfl hmem ?_⟩
        have := descends_embed (embeds_child hs hk) h3
        rw [Nat.zero_add]; exact this
    · rintro ⟨ps, h1, rfl, h3⟩
      cases h3 with
      | here => exact absurd rfl h1
      | member i d name off more j hd hc hm h =>
        rw [hroot] at hd; cases hd
        obtain ⟨c, hk, rfl⟩ := mem_kidIter.mp hm
        refine (hf.mem hs _).mpr (mem_allEntries.mpr ⟨off, c, hk, mem_kidEntries.mpr ?_⟩)
        rw [Nat.zero_add] at h
        by_cases hmore : more = []
        · subst hmore
          cases h
          exact Or.inl rfl
        · refine Or.inr ?_
          have hcF := (hf.entries hs).2.2 c hk.mem
          have he := embeds_child hs hk
          -- pull the descent back into the child
          have back : ∀ {i j : Nat} {ps : List Str}, Descends (flat m) i ps j → ∀ i', i = off + i' → i' < count c →
              ∃ j', j = off + j' ∧ Descends (flat c) i' ps j' ∧ j' < count c := by
            intro i j ps hD
            induction hD with
            | here i => intro i' e hi'; exact ⟨i', e, .here _, hi'⟩
            | member i d name o2 more j hd hc hm _ ih2 =>
              intro i' e hi'
              subst e
              have hlt : i' < (flat c).length := by rw [flat_length]; exact hi'
              obtain ⟨n, hn⟩ := he.get i' _ (List.getElem?_eq_getElem hlt)
              rw [hd] at hn; cases hn
              have hget : (flat c)[i']? = some ((flat c)[i']'hlt) := List.getElem?_eq_getElem hlt
              have hnode := nodeOK_flat c hcF i' _ hget
              obtain ⟨_, x, hx, _⟩ := hnode.child hc name o2 hm
              have hxl := (List.getElem?_eq_some_iff.mp hx).1
              rw [flat_length] at hxl
              obtain ⟨j', h4, h5, h6⟩ := ih2 (i' + o2) (by omega) hxl
              exact ⟨j', h4, .member i' _ name o2 more j' hget hc hm h5, h6⟩
          obtain ⟨j', rfl, hD, hj'⟩ := back h 0 (by omega) (count_pos c)
          have hcs : c.code = .Struct := by
            cases hD with
            | here => exact absurd rfl hmore
            | member i d name o2 more j hd hc hm _ =>
              obtain ⟨d', ds, h4, h5, _⟩ := flat_head c
              rw [h4] at hd; simp at hd; subst hd
              rw [← h5]; exact hc
          have := (ih c hk.mem hcF hcs _ j').mpr ⟨more, hmore, rfl, hD⟩
          exact ⟨hcs, joinDots more, j', this, by rw [joinDots_cons _ _ hmore]⟩

/-- the same, for the name table of any Struct in the type -/
theorem mlookup_descends {m : Member} (hf : Full m) {i : Nat} {d : FieldDesc} (hd : (flat m)[i]? = some d) (hs : d.code = .Struct)
    (k : Str) (o : Nat) : d.mlookup.find? k = some o ↔ ∃ ps, ps ≠ [] ∧ k = joinDots ps ∧ Descends (flat m) i ps (i + o) := by
  have hi := (List.getElem?_eq_some_iff.mp hd).1
  rw [flat_length] at hi
  obtain ⟨c, hc, he⟩ := embeds_node m hf i hi
  obtain ⟨d', h1, h2, h2'⟩ := embeds_root hc he
  rw [hd] at h1; cases h1
  have hcs : c.code = .Struct := by rw [← h2]; exact hs
  obtain ⟨d', h1, _, h3, h4, h5⟩ := embeds_struct hcs he
  rw [hd] at h1; cases h1
  rw [h4, SMap.find?_some (lookOf_sorted c), lookOf_descends c hc hcs]
  constructor
  · rintro ⟨ps, h6, h7, h8⟩
    exact ⟨ps, h6, h7, by have := descends_embed he h8; rwa [Nat.add_zero] at this⟩
  · rintro ⟨ps, h6, h7, h8⟩
    refine ⟨ps, h6, h7, ?_⟩
    have back : ∀ {a j : Nat} {ps : List Str}, Descends (flat m) a ps j → ∀ a', a = i + a' → a' < count c →
        ∃ j', j = i + j' ∧ Descends (flat c) a' ps j' := by
      intro a j ps hD
      induction hD with
      | here a => intro a' e ha'; exact ⟨a', e, .here _⟩
      | member a d name o2 more j hd hcd hm _ ih2 =>
        intro a' e ha'
        subst e
        have hlt : a' < (flat c).length := by rw [flat_length]; exact ha'
        obtain ⟨n, hn⟩ := he.get a' _ (List.getElem?_eq_getElem hlt)
        rw [hd] at hn; cases hn
        have hget : (flat c)[a']? = some ((flat c)[a']'hlt) := List.getElem?_eq_getElem hlt
        obtain ⟨_, x, hx, _⟩ := (nodeOK_flat c hc a' _ hget).child hcd name o2 hm
        have hxl := (List.getElem?_eq_some_iff.mp hx).1
        rw [flat_length] at hxl
        obtain ⟨j', h4, h5⟩ := ih2 (a' + o2) (by omega) hxl
        exact ⟨j', h4, .member a' _ name o2 more j' hget hcd hm h5⟩
    obtain ⟨j', h9, h10⟩ := back h8 0 (by omega) (count_pos c)
    have : j' = o := by omega
    subst this; exact h10

end Pvxs
