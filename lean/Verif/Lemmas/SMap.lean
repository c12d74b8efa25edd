import Verif.Model.SMap
/-! Helper lemmas: sorted maps. -/
namespace Pvxs

theorem strLt_irrefl (a : Str) : strLt a a = false := by
  induction a with
  | nil => rfl
  | cons x a ih => simp [strLt, ih]

theorem strLt_trans {a b c : Str} (h1 : strLt a b = true) (h2 : strLt b c = true) : strLt a c = true := by
  induction a generalizing b c with
  | nil =>
    cases b with
    | nil => simp [strLt] at h1
    | cons y b =>
      cases c with
      | nil => simp [strLt] at h2
      | cons z c => rfl
  | cons x a ih =>
    cases b with
    | nil => simp [strLt] at h1
    | cons y b =>
      cases c with
      | nil => simp [strLt] at h2
      | cons z c =>
        simp only [strLt, Bool.or_eq_true, Bool.and_eq_true, decide_eq_true_eq] at *
        rcases h1 with h1 | ⟨rfl, h1⟩
        · rcases h2 with h2 | ⟨rfl, h2⟩
          · exact Or.inl (UInt8.lt_trans h1 h2)
          · exact Or.inl h1
        · rcases h2 with h2 | ⟨rfl, h2⟩
          · exact Or.inl h2
          · exact Or.inr ⟨rfl, ih h1 h2⟩

theorem strLt_total {a b : Str} (h : a ≠ b) : strLt a b = true ∨ strLt b a = true := by
  induction a generalizing b with
  | nil =>
    cases b with
    | nil => exact absurd rfl h
    | cons y b => exact Or.inl rfl
  | cons x a ih =>
    cases b with
    | nil => exact Or.inr rfl
    | cons y b =>
      simp only [strLt, Bool.or_eq_true, Bool.and_eq_true, decide_eq_true_eq]
      by_cases hxy : x = y
      · subst hxy
        have : a ≠ b := fun e => h (by rw [e])
        rcases ih this with h1 | h1
        · exact Or.inl (Or.inr ⟨rfl, h1⟩)
        · exact Or.inr (Or.inr ⟨rfl, h1⟩)
      · have : x < y ∨ y < x := by
          rw [UInt8.lt_iff_toNat_lt, UInt8.lt_iff_toNat_lt]
          have : x.toNat ≠ y.toNat := fun e => hxy (UInt8.toNat_inj.mp e)
          omega
        rcases this with h1 | h1
        · exact Or.inl (Or.inl h1)
        · exact Or.inr (Or.inl h1)

namespace SMap

def Sorted (m : SMap α) : Prop := m.Pairwise fun a b => strLt a.1 b.1 = true

def keys (m : SMap α) : List Str := m.map (·.1)

theorem sorted_nil : Sorted ([] : SMap α) := List.Pairwise.nil

theorem mem_insert {k : Str} {v : α} {m : SMap α} (h : Sorted m) (p : Str × α) :
    p ∈ m.insert k v ↔ p = (k, v) ∨ (p.1 ≠ k ∧ p ∈ m) := by
  induction m with
  | nil => simp [insert]
  | cons q m ih =>
    obtain ⟨k', v'⟩ := q
    have hs := List.pairwise_cons.mp h
    simp only [insert]
    split
    · rename_i hk
      subst hk
      simp only [List.mem_cons]
      constructor
      · rintro (h1 | h1)
        · exact Or.inl h1
        · refine Or.inr ⟨?_, Or.inr h1⟩
          intro e
          have := hs.1 p h1
          simp only [e, strLt_irrefl] at this
          cases this
      · rintro (h1 | ⟨h1, h2 | h2⟩)
        · exact Or.inl h1
        · subst h2; exact absurd rfl h1
        · exact Or.inr h2
    · rename_i hk
      split
      · rename_i hlt
        simp only [List.mem_cons]
        constructor
        · rintro (h1 | h1 | h1)
          · exact Or.inl h1
          · subst h1; exact Or.inr ⟨fun e => hk e.symm, Or.inl rfl⟩
          · refine Or.inr ⟨?_, Or.inr h1⟩
            intro e
            have := strLt_trans hlt (hs.1 p h1)
            simp only [e, strLt_irrefl] at this
            cases this
        · rintro (h1 | ⟨h1, h2⟩)
          · exact Or.inl h1
          · exact Or.inr h2
      · simp only [List.mem_cons, ih hs.2]
        constructor
        · rintro (h1 | h1 | h1)
          · subst h1; exact Or.inr ⟨fun e => hk e.symm, Or.inl rfl⟩
          · exact Or.inl h1
          · exact Or.inr ⟨h1.1, Or.inr h1.2⟩
        · rintro (h1 | ⟨h1, h2 | h2⟩)
          · exact Or.inr (Or.inl h1)
          · exact Or.inl h2
          · exact Or.inr (Or.inr ⟨h1, h2⟩)

theorem sorted_insert {k : Str} {v : α} {m : SMap α} (h : Sorted m) : Sorted (m.insert k v) := by
  induction m with
  | nil => exact List.pairwise_singleton _ _
  | cons q m ih =>
    obtain ⟨k', v'⟩ := q
    have hs := List.pairwise_cons.mp h
    simp only [insert]
    split
    · rename_i hk
      subst hk
      exact List.pairwise_cons.mpr hs
    · rename_i hk
      split
      · rename_i hlt
        refine List.pairwise_cons.mpr ⟨?_, h⟩
        intro p hp
        rcases List.mem_cons.mp hp with rfl | hp
        · exact hlt
        · exact strLt_trans hlt (hs.1 p hp)
      · rename_i hlt
        refine List.pairwise_cons.mpr ⟨?_, ih hs.2⟩
        intro p hp
        rcases (mem_insert hs.2 p).mp hp with rfl | ⟨_, hp⟩
        · rcases strLt_total hk with h1 | h1
          · exact absurd h1 hlt
          · exact h1
        · exact hs.1 p hp

theorem mem_keys {k : Str} {m : SMap α} : k ∈ m.keys ↔ ∃ v, (k, v) ∈ m := by
  simp [keys]

theorem sorted_keys_nodup {m : SMap α} (h : Sorted m) : m.keys.Nodup := by
  unfold keys
  rw [List.Nodup, List.pairwise_map]
  refine List.Pairwise.imp ?_ h
  intro a b hab e
  rw [e, strLt_irrefl] at hab; cases hab

theorem length_insert {k : Str} {v : α} {m : SMap α} (h : Sorted m) :
    (m.insert k v).length = if k ∈ m.keys then m.length else m.length + 1 := by
  induction m with
  | nil => simp [insert, keys]
  | cons q m ih =>
    obtain ⟨k', v'⟩ := q
    have hs := List.pairwise_cons.mp h
    simp only [insert]
    split
    · rename_i hk; subst hk; simp [keys]
    · rename_i hk
      split
      · rename_i hlt
        have : k ∉ keys ((k', v') :: m) := by
          intro hm
          obtain ⟨w, hw⟩ := mem_keys.mp hm
          rcases List.mem_cons.mp hw with e | hw
          · exact hk (Prod.mk.inj e).1
          · have := strLt_trans hlt (hs.1 _ hw)
            simp only [strLt_irrefl] at this
            cases this
        simp [this]
      · have : (k ∈ keys ((k', v') :: m)) ↔ k ∈ keys m := by simp [keys, hk]
        simp only [List.length_cons, ih hs.2, this]
        split <;> rfl

theorem find?_some {k : Str} {v : α} {m : SMap α} (h : Sorted m) : m.find? k = some v ↔ (k, v) ∈ m := by
  induction m with
  | nil => simp [find?]
  | cons q m ih =>
    obtain ⟨k', v'⟩ := q
    have hs := List.pairwise_cons.mp h
    simp only [find?]
    split
    · rename_i hk
      subst hk
      simp only [Option.some.injEq, List.mem_cons, Prod.mk.injEq, true_and]
      constructor
      · exact fun e => Or.inl e.symm
      · rintro (e | hm)
        · exact e.symm
        · have := hs.1 _ hm
          simp only [strLt_irrefl] at this
          cases this
    · rename_i hk
      rw [ih hs.2]
      simp [hk]

theorem find?_none {k : Str} {m : SMap α} (h : Sorted m) : m.find? k = none ↔ k ∉ m.keys := by
  constructor
  · intro hn hk
    obtain ⟨v, hv⟩ := mem_keys.mp hk
    rw [(find?_some h).mpr hv] at hn; cases hn
  · intro hk
    cases hf : m.find? k with
    | none => rfl
    | some v => exact absurd (mem_keys.mpr ⟨v, (find?_some h).mp hf⟩) hk

/-- insert a list of pairs, in order -/
def insertAll (m : SMap α) (l : List (Str × α)) : SMap α := l.foldl (fun m p => m.insert p.1 p.2) m

theorem insertAll_append (m : SMap α) (l l' : List (Str × α)) :
    insertAll m (l ++ l') = insertAll (insertAll m l) l' := by simp [insertAll, List.foldl_append]

theorem sorted_insertAll {m : SMap α} (h : Sorted m) (l : List (Str × α)) : Sorted (m.insertAll l) := by
  induction l generalizing m with
  | nil => exact h
  | cons p l ih => exact ih (sorted_insert h)

theorem length_insertAll_le {m : SMap α} (h : Sorted m) (l : List (Str × α)) :
    (m.insertAll l).length ≤ m.length + l.length := by
  induction l generalizing m with
  | nil => simp [insertAll]
  | cons p l ih =>
    have h1 := ih (sorted_insert (k := p.1) (v := p.2) h)
    have h2 := length_insert (k := p.1) (v := p.2) h
    simp only [insertAll, List.foldl_cons, List.length_cons] at *
    split at h2 <;> omega

/-- distinct keys: the result holds exactly the old and the new pairs -/
theorem mem_insertAll {m : SMap α} (h : Sorted m) {l : List (Str × α)} (hn : (l.map (·.1)).Nodup)
    (hd : ∀ p ∈ l, p.1 ∉ m.keys) (q : Str × α) : q ∈ m.insertAll l ↔ q ∈ m ∨ q ∈ l := by
  induction l generalizing m with
  | nil => simp [insertAll]
  | cons p l ih =>
    simp only [List.map_cons, List.nodup_cons] at hn
    have hd' : ∀ r ∈ l, r.1 ∉ SMap.keys (m.insert p.1 p.2) := by
      intro r hr hk
      obtain ⟨v, hv⟩ := mem_keys.mp hk
      rcases (mem_insert h _).mp hv with e | ⟨_, hv⟩
      · exact hn.1 (List.mem_map.mpr ⟨r, hr, (Prod.mk.inj e).1⟩)
      · exact hd r (by simp [hr]) (mem_keys.mpr ⟨v, hv⟩)
    have := ih (sorted_insert (k := p.1) (v := p.2) h) hn.2 hd'
    simp only [insertAll, List.foldl_cons] at this ⊢
    rw [this, mem_insert h]
    have hp := hd p (by simp)
    constructor
    · rintro ((rfl | ⟨_, hq⟩) | hq)
      · exact Or.inr (by simp)
      · exact Or.inl hq
      · exact Or.inr (by simp [hq])
    · rintro (hq | hq)
      · refine Or.inl (Or.inr ⟨?_, hq⟩)
        intro e
        exact hp (mem_keys.mpr ⟨q.2, by rw [← e]; exact hq⟩)
      · rcases List.mem_cons.mp hq with rfl | hq
        · exact Or.inl (Or.inl rfl)
        · exact Or.inr hq

theorem length_insertAll {m : SMap α} (h : Sorted m) {l : List (Str × α)} (hn : (l.map (·.1)).Nodup)
    (hd : ∀ p ∈ l, p.1 ∉ m.keys) : (m.insertAll l).length = m.length + l.length := by
  induction l generalizing m with
  | nil => simp [insertAll]
  | cons p l ih =>
    simp only [List.map_cons, List.nodup_cons] at hn
    have hd' : ∀ r ∈ l, r.1 ∉ SMap.keys (m.insert p.1 p.2) := by
      intro r hr hk
      obtain ⟨v, hv⟩ := mem_keys.mp hk
      rcases (mem_insert h _).mp hv with e | ⟨_, hv⟩
      · exact hn.1 (List.mem_map.mpr ⟨r, hr, (Prod.mk.inj e).1⟩)
      · exact hd r (by simp [hr]) (mem_keys.mpr ⟨v, hv⟩)
    have h1 := ih (sorted_insert (k := p.1) (v := p.2) h) hn.2 hd'
    have h2 := length_insert (k := p.1) (v := p.2) h
    rw [if_neg (hd p (by simp))] at h2
    simp only [insertAll, List.foldl_cons, List.length_cons] at *
    omega

/-- nothing was lost only if the keys were distinct -/
theorem insertAll_full {m : SMap α} (h : Sorted m) {l : List (Str × α)}
    (hl : (m.insertAll l).length = m.length + l.length) :
    (l.map (·.1)).Nodup ∧ ∀ p ∈ l, p.1 ∉ m.keys := by
  induction l generalizing m with
  | nil => simp
  | cons p l ih =>
    have h2 := length_insert (k := p.1) (v := p.2) h
    have h3 := length_insertAll_le (sorted_insert (k := p.1) (v := p.2) h) l
    have hl' : (insertAll (m.insert p.1 p.2) l).length = m.length + l.length + 1 := by
      simpa [insertAll, Nat.add_assoc] using hl
    have hp : p.1 ∉ m.keys := by
      intro hk
      rw [if_pos hk] at h2
      omega
    rw [if_neg hp] at h2
    have := ih (sorted_insert (k := p.1) (v := p.2) h) (by omega)
    have hkey : ∀ r ∈ l, r.1 ≠ p.1 ∧ r.1 ∉ m.keys := by
      intro r hr
      have := this.2 r hr
      constructor
      · intro e; exact this (mem_keys.mpr ⟨p.2, (mem_insert h _).mpr (Or.inl (by rw [e]))⟩)
      · intro hk
        obtain ⟨v, hv⟩ := mem_keys.mp hk
        by_cases e : r.1 = p.1
        · exact this (mem_keys.mpr ⟨p.2, (mem_insert h _).mpr (Or.inl (by rw [e]))⟩)
        · exact this (mem_keys.mpr ⟨v, (mem_insert h _).mpr (Or.inr ⟨e, hv⟩)⟩)
    refine ⟨?_, ?_⟩
    · simp only [List.map_cons, List.nodup_cons]
      refine ⟨?_, this.1⟩
      intro hm
      obtain ⟨r, hr, e⟩ := List.mem_map.mp hm
      exact (hkey r hr).1 e
    · intro r hr
      rcases List.mem_cons.mp hr with rfl | hr
      · exact hp
      · exact (hkey r hr).2

/-- two sorted maps with the same pairs are the same list -/
theorem ext {m n : SMap α} (hm : Sorted m) (hn : Sorted n) (h : ∀ p, p ∈ m ↔ p ∈ n) : m = n := by
  induction m generalizing n with
  | nil =>
    cases n with
    | nil => rfl
    | cons q n => exact absurd ((h q).mpr (by simp)) (by simp)
  | cons p m ih =>
    cases n with
    | nil => exact absurd ((h p).mp (by simp)) (by simp)
    | cons q n =>
      have hms := List.pairwise_cons.mp hm
      have hns := List.pairwise_cons.mp hn
      have irr : ∀ x : Str × α, strLt x.1 x.1 = true → False := by intro x hx; rw [strLt_irrefl] at hx; cases hx
      have hpq : p = q := by
        rcases List.mem_cons.mp ((h p).mp (by simp)) with e | h1
        · exact e
        · rcases List.mem_cons.mp ((h q).mpr (by simp)) with e | h2
          · exact e.symm
          · exact (irr p (strLt_trans (hms.1 q h2) (hns.1 p h1))).elim
      subst hpq
      congr 1
      refine ih hms.2 hns.2 fun r => ?_
      constructor
      · intro hr
        rcases List.mem_cons.mp ((h r).mp (by simp [hr])) with e | h1
        · subst e; exact (irr r (hms.1 r hr)).elim
        · exact h1
      · intro hr
        rcases List.mem_cons.mp ((h r).mpr (by simp [hr])) with e | h1
        · subst e; exact (irr r (hns.1 r hr)).elim
        · exact h1

end SMap
end Pvxs
