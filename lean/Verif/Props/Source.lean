import Verif.Lemmas.Udp
import Verif.Spec.Source
import Verif.Props.Ids
/-
C40, C41: sources, channels and searches.
-/
namespace Pvxs.Props.Src
open Wire Pvxs.Source Spec.Source Spec.Packet

/-! ### the order of sources -/

theorem strLt_iff (a b : Str) : strLt a b = true ↔ Before a b := by
  induction a generalizing b with
  | nil =>
    cases b with
    | nil =>
      constructor
      · intro h; cases h
      · rintro (⟨x, t, h⟩ | ⟨p, x, y, s, t, h, _⟩)
        · cases h
        · cases p <;> cases h
    | cons x t =>
      constructor
      · intro _; exact Or.inl ⟨x, t, rfl⟩
      · intro _; rfl
  | cons a as ih =>
    cases b with
    | nil =>
      constructor
      · intro h; cases h
      · rintro (⟨x, t, h⟩ | ⟨p, x, y, s, t, _, h, _⟩)
        · cases h
        · cases p <;> cases h
    | cons b bs =>
      rw [strLt, Bool.or_eq_true, Bool.and_eq_true, decide_eq_true_eq, decide_eq_true_eq, ih]
      constructor
      · rintro (h | ⟨rfl, ⟨x, t, rfl⟩ | ⟨p, x, y, s, t, rfl, rfl, h⟩⟩)
        · exact Or.inr ⟨[], a, b, as, bs, rfl, rfl, h⟩
        · exact Or.inl ⟨x, t, rfl⟩
        · exact Or.inr ⟨a :: p, x, y, s, t, rfl, rfl, h⟩
      · rintro (⟨x, t, h⟩ | ⟨p, x, y, s, t, h1, h2, h⟩)
        · injection h with h1 h2
          exact Or.inr ⟨h1.symm, Or.inl ⟨x, t, h2⟩⟩
        · cases p with
          | nil =>
            injection h1 with h1 _
            injection h2 with h2 _
            rw [h1, h2]
            exact Or.inl h
          | cons p ps =>
            injection h1 with h1 h3
            injection h2 with h2 h4
            exact Or.inr ⟨h1.trans h2.symm, Or.inr ⟨ps, x, y, s, t, h3, h4, h⟩⟩

theorem keyLt_iff (a b : Key) : keyLt a b = true ↔ Earlier (a.2, a.1) (b.2, b.1) := by
  unfold keyLt Earlier
  rw [Bool.or_eq_true, Bool.and_eq_true, decide_eq_true_eq, decide_eq_true_eq, strLt_iff]

theorem strLt_trans {a b c : Str} (h1 : strLt a b = true) (h2 : strLt b c = true) : strLt a c = true := by
  induction a generalizing b c with
  | nil =>
    cases c with
    | nil => cases b <;> cases h2
    | cons => rfl
  | cons a as ih =>
    cases b with
    | nil => cases h1
    | cons b bs =>
      cases c with
      | nil => cases h2
      | cons c cs =>
        simp only [strLt, Bool.or_eq_true, Bool.and_eq_true, decide_eq_true_eq] at *
        rcases h1 with h1 | ⟨rfl, h1⟩
        · rcases h2 with h2 | ⟨rfl, h2⟩
          · exact Or.inl (UInt8.lt_trans h1 h2)
          · exact Or.inl h1
        · rcases h2 with h2 | ⟨rfl, h2⟩
          · exact Or.inl h2
          · exact Or.inr ⟨rfl, ih h1 h2⟩

theorem strLt_total {a b : Str} (h : a ≠ b) (h1 : strLt a b = false) : strLt b a = true := by
  induction a generalizing b with
  | nil =>
    cases b with
    | nil => exact absurd rfl h
    | cons => cases h1
  | cons a as ih =>
    cases b with
    | nil => rfl
    | cons b bs =>
      simp only [strLt, Bool.or_eq_true, Bool.and_eq_true, decide_eq_true_eq, Bool.or_eq_false_iff, Bool.and_eq_false_iff, decide_eq_false_iff_not] at *
      by_cases he : a = b
      · subst he
        refine Or.inr ⟨rfl, ih (fun h' => h (by rw [h'])) ?_⟩
        rcases h1.2 with h2 | h2
        · exact absurd rfl h2
        · exact h2
      · left
        rcases UInt8.lt_or_lt_of_ne he with h2 | h2
        · exact absurd h2 h1.1
        · exact h2

theorem keyLt_trans {a b c : Key} (h1 : keyLt a b = true) (h2 : keyLt b c = true) : keyLt a c = true := by
  unfold keyLt at *
  simp only [Bool.or_eq_true, Bool.and_eq_true, decide_eq_true_eq] at *
  rcases h1 with h1 | ⟨h1, h3⟩
  · rcases h2 with h2 | ⟨h2, _⟩ <;> left <;> omega
  · rcases h2 with h2 | ⟨h2, h4⟩
    · left; omega
    · exact Or.inr ⟨by omega, strLt_trans h3 h4⟩

theorem keyLt_total {a b : Key} (h : a ≠ b) (h1 : keyLt a b = false) : keyLt b a = true := by
  obtain ⟨a1, a2⟩ := a
  obtain ⟨b1, b2⟩ := b
  unfold keyLt at *
  simp only [Bool.or_eq_true, Bool.and_eq_true, decide_eq_true_eq, Bool.or_eq_false_iff, Bool.and_eq_false_iff, decide_eq_false_iff_not] at *
  by_cases he : a1 = b1
  · subst he
    refine Or.inr ⟨rfl, strLt_total (fun h' => h (by rw [h'])) ?_⟩
    rcases h1.2 with h2 | h2
    · exact absurd rfl h2
    · exact h2
  · left; omega

def Sorted (m : Sources α) : Prop := m.Pairwise fun a b => keyLt a.1 b.1 = true

theorem mem_put {k : Key} {v : α} {m : Sources α} {p : Key × α} (h : p ∈ put k v m) : p = (k, v) ∨ p ∈ m := by
  induction m with
  | nil => exact Or.inl (List.mem_singleton.mp h)
  | cons q m ih =>
    obtain ⟨k', v'⟩ := q
    unfold put at h
    split at h
    · rcases List.mem_cons.mp h with h | h
      · exact Or.inl h
      · exact Or.inr (List.mem_cons_of_mem _ h)
    · split at h
      · rcases List.mem_cons.mp h with h | h
        · exact Or.inl h
        · exact Or.inr h
      · rcases List.mem_cons.mp h with h | h
        · exact Or.inr (List.mem_cons.mpr (Or.inl h))
        · rcases ih h with h | h
          · exact Or.inl h
          · exact Or.inr (List.mem_cons_of_mem _ h)

theorem sorted_put {k : Key} {v : α} {m : Sources α} (h : Sorted m) : Sorted (put k v m) := by
  induction m with
  | nil => exact List.pairwise_singleton _ _
  | cons q m ih =>
    obtain ⟨k', v'⟩ := q
    obtain ⟨h1, h2⟩ := List.pairwise_cons.mp h
    unfold put
    split
    · rename_i he
      subst he
      exact List.pairwise_cons.mpr ⟨h1, h2⟩
    · rename_i hne
      split
      · rename_i hlt
        refine List.pairwise_cons.mpr ⟨?_, h⟩
        intro p hp
        rcases List.mem_cons.mp hp with rfl | hp
        · exact hlt
        · exact keyLt_trans hlt (h1 p hp)
      · rename_i hlt
        refine List.pairwise_cons.mpr ⟨?_, ih h2⟩
        intro p hp
        rcases mem_put hp with rfl | hp
        · exact keyLt_total hne (by simpa using hlt)
        · exact h1 p hp

theorem find_put (k k' : Key) (v : α) (m : Sources α) : find? k' (put k v m) = if k' = k then some v else find? k' m := by
  unfold find?
  induction m with
  | nil =>
    by_cases h : k' = k
    · simp [put, h]
    · have : ¬(k = k') := fun h' => h h'.symm
      simp [put, h, this]
  | cons q m ih =>
    obtain ⟨k0, v0⟩ := q
    unfold put
    split
    · rename_i he
      subst he
      by_cases h : k = k'
      · simp [h]
      · have : ¬(k' = k) := fun h' => h h'.symm
        simp [h, this]
    · rename_i hne
      split
      · by_cases h : k = k'
        · simp [h]
        · have : ¬(k' = k) := fun h' => h h'.symm
          simp [List.find?_cons, h, this]
      · by_cases h : k0 = k'
        · subst h
          have : ¬(k0 = k) := fun h' => hne h'.symm
          simp [this]
        · simp only [List.find?_cons, h, decide_false]
          exact ih

theorem find_erase (k k' : Key) (m : Sources α) : find? k' (erase k m) = if k' = k then none else find? k' m := by
  unfold find? erase
  rw [List.find?_filter]
  by_cases h : k' = k
  · subst h
    rw [if_pos rfl]
    rw [List.find?_eq_none.mpr]
    · rfl
    · intro p _
      by_cases hp : p.1 = k' <;> simp [hp]
  · rw [if_neg h]
    congr 2
    funext p
    by_cases hp : p.1 = k'
    · simp [hp, h]
    · simp [hp]

def run (l : List (Use α)) : Sources α := l.foldl use []

theorem run_snoc (l : List (Use α)) (u : Use α) : run (l ++ [u]) = use (run l) u := by
  unfold run
  rw [List.foldl_append]; rfl

theorem list_snoc_induction {P : List β → Prop} (h0 : P []) (h1 : ∀ l a, P l → P (l ++ [a])) (l : List β) : P l := by
  have : ∀ l : List β, P l.reverse := by
    intro l
    induction l with
    | nil => exact h0
    | cons a l ih => rw [List.reverse_cons]; exact h1 _ _ ih
  have := this l.reverse
  rwa [List.reverse_reverse] at this

theorem run_inv (l : List (Use α)) : Sorted (run l) ∧ ∀ n o, find? (o, n) (run l) = registered l.reverse n o := by
  induction l using list_snoc_induction with
  | h0 => exact ⟨List.Pairwise.nil, fun _ _ => rfl⟩
  | h1 l u ih =>
    obtain ⟨hs, hf⟩ := ih
    rw [run_snoc, List.reverse_append, List.reverse_singleton, List.singleton_append]
    cases u with
    | add name src order =>
      unfold use addSource
      cases src with
      | none =>
        refine ⟨hs, fun n o => ?_⟩
        show find? (o, n) (run l) = _
        rw [hf, registered]
        split
        · cases registered l.reverse n o <;> rfl
        · rfl
      | some src =>
        dsimp only
        cases hx : find? (order, name) (run l) with
        | some s =>
          refine ⟨hs, fun n o => ?_⟩
          show find? (o, n) (run l) = _
          rw [hf, registered]
          split
          · rename_i h
            obtain ⟨rfl, rfl⟩ := h
            rw [← hf, hx]
          · rfl
        | none =>
          refine ⟨sorted_put hs, fun n o => ?_⟩
          show find? (o, n) (put (order, name) src (run l)) = _
          rw [find_put, registered]
          by_cases h : n = name ∧ o = order
          · obtain ⟨rfl, rfl⟩ := h
            rw [if_pos rfl, if_pos ⟨rfl, rfl⟩, ← hf, hx]
          · rw [if_neg (fun he => h (by injection he with h1 h2; exact ⟨h2, h1⟩)), if_neg h, hf]
    | remove name order =>
      refine ⟨hs.filter _, fun n o => ?_⟩
      show find? (o, n) (erase (order, name) (run l)) = _
      rw [find_erase, registered]
      by_cases h : n = name ∧ o = order
      · obtain ⟨rfl, rfl⟩ := h
        rw [if_pos rfl, if_pos ⟨rfl, rfl⟩]
      · rw [if_neg (fun he => h (by injection he with h1 h2; exact ⟨h2, h1⟩)), if_neg h, hf]

theorem keyLt_irrefl (a : Key) : keyLt a a = false := by
  have : ∀ s : Str, strLt s s = false := by
    intro s
    induction s with
    | nil => rfl
    | cons a s ih => simp [strLt, ih]
  simp [keyLt, this]

theorem mem_iff_find {m : Sources α} (hs : Sorted m) (k : Key) (v : α) : (k, v) ∈ m ↔ find? k m = some v := by
  unfold find?
  induction m with
  | nil => simp
  | cons q m ih =>
    obtain ⟨k0, v0⟩ := q
    obtain ⟨h1, h2⟩ := List.pairwise_cons.mp hs
    rw [List.mem_cons, ih h2]
    by_cases h : k0 = k
    · subst h
      simp only [List.find?_cons, decide_true, Option.map_some, Option.some.injEq, Prod.mk.injEq, true_and]
      constructor
      · rintro (h | h)
        · exact h.symm
        · exfalso
          obtain ⟨p, hp, _⟩ := Option.map_eq_some_iff.mp h
          have hk : p.1 = k0 := by simpa using List.find?_some hp
          have := h1 p (List.mem_of_find?_eq_some hp)
          rw [hk, keyLt_irrefl] at this
          cases this
      · intro h; exact Or.inl h.symm
    · have : ¬(k = k0) := fun h' => h h'.symm
      simp only [List.find?_cons, h, decide_false, Prod.mk.injEq, this, false_and, false_or]

/-- C40, the order: sources are listed, and asked, by order and name; those which are there are those which were added, under a name which was
free, and not removed since -/
theorem C40_order (l : List (Use α)) : (listSource (run l)).Pairwise Earlier ∧ (∀ n o, getSource (run l) n o = registered l.reverse n o) ∧
    ∀ n o s, (((o, n), s) ∈ run l) ↔ registered l.reverse n o = some s := by
  obtain ⟨hs, hf⟩ := run_inv l
  refine ⟨?_, hf, fun n o s => by rw [mem_iff_find hs, hf]⟩
  unfold listSource
  rw [List.pairwise_map]
  exact hs.imp fun h => (keyLt_iff _ _).mp h

/-- -1 "__server", then 0 "a", 0 "b"; "b" only once -/
example : listSource (run [.add [0x62] (some 1) 0, .add [0x61] (some 2) 0, .add [0x62] (some 3) 0, .add [0x5f] (some 4) (-1), .add [0x63] (some 5) 0,
    .remove [0x63] 0]) = [([0x5f], -1), ([0x61], 0), ([0x62], 0)] := by decide

/-! ### who gets a channel -/

theorem deeds_keep (k : Nat) (ds : List Deed) (c : Offer) :
    (ds.foldl (deed k) c).asked = c.asked ∧ (ds.foldl (deed k) c).null = c.null ∧
    ((ds.foldl (deed k) c).destroyed = true ↔ c.destroyed = true ∨ .close ∈ ds) ∧
    ((ds.foldl (deed k) c).taken = true ↔ c.taken = true ∨ .take ∈ ds) ∧
    (ds.foldl (deed k) c).onOp = (if .onOp ∈ ds then some k else c.onOp) ∧
    (ds.foldl (deed k) c).onRPC = (if .onRPC ∈ ds then some k else c.onRPC) ∧
    (ds.foldl (deed k) c).onSubscribe = (if .onSubscribe ∈ ds then some k else c.onSubscribe) ∧
    (c.destroyed = false → .close ∉ ds → (ds.foldl (deed k) c).onClose = if .onClose ∈ ds then some k else c.onClose) ∧
    ((c.destroyed = true → c.onClose = none) → (ds.foldl (deed k) c).destroyed = true → (ds.foldl (deed k) c).onClose = none) := by
  induction ds generalizing c with
  | nil => simp
  | cons d ds ih =>
    rw [List.foldl_cons]
    obtain ⟨h1, h2, h3, h4, h5, h6, h7, h8, h9⟩ := ih (deed k c d)
    cases d <;> simp only [deed] at *
    · refine ⟨h1, h2, by simpa using h3, by simpa using h4, ?_, by simpa using h6, by simpa using h7, by simpa using h8, h9⟩
      rw [h5]; by_cases h : Deed.onOp ∈ ds <;> simp [h]
    · refine ⟨h1, h2, by simpa using h3, by simpa using h4, by simpa using h5, ?_, by simpa using h7, by simpa using h8, h9⟩
      rw [h6]; by_cases h : Deed.onRPC ∈ ds <;> simp [h]
    · refine ⟨h1, h2, by simpa using h3, by simpa using h4, by simpa using h5, by simpa using h6, ?_, by simpa using h8, h9⟩
      rw [h7]; by_cases h : Deed.onSubscribe ∈ ds <;> simp [h]
    · cases hd : c.destroyed with
      | true =>
        simp only [hd, if_true] at *
        exact ⟨h1, h2, by simpa [hd] using h3, by simpa using h4, by simpa using h5, by simpa using h6, by simpa using h7, by simp, h9⟩
      | false =>
        simp only [hd, Bool.false_eq_true, if_false] at *
        refine ⟨h1, h2, by simpa using h3, by simpa using h4, by simpa using h5, by simpa using h6, by simpa using h7, ?_, ?_⟩
        · intro _ hc
          rw [h8 trivial (by simpa using hc)]
          by_cases h : Deed.onClose ∈ ds <;> simp [h]
        · intro _ h
          exact h9 (by simp) h
    · cases hd : c.destroyed with
      | true =>
        simp only [hd, if_true] at *
        exact ⟨h1, h2, by simpa [hd] using h3, by simpa using h4, by simpa using h5, by simpa using h6, by simpa using h7, by simp, h9⟩
      | false =>
        simp only [hd, Bool.false_eq_true, if_false] at *
        refine ⟨h1, h2, by simpa using h3, by simpa using h4, by simpa using h5, by simpa using h6, by simpa using h7, by simp, ?_⟩
        intro _ h
        exact h9 (by simp) h
    · refine ⟨h1, h2, by simpa using h3, by simpa using h4, by simpa using h5, by simpa using h6, by simpa using h7, by simpa using h8, h9⟩

/-- nothing was done yet -/
structure Clean (c : Offer) : Prop where
  destroyed : c.destroyed = false
  onOp : c.onOp = none
  onRPC : c.onRPC = none
  onSubscribe : c.onSubscribe = none
  onClose : c.onClose = none
  taken : c.taken = false
  null : c.null = false

theorem gets_cons (b : Behav) (bs : List Behav) : (∃ j, Gets (b :: bs) j) ↔ Accepts b ∨ (Passes b ∧ ∃ j, Gets bs j) := by
  constructor
  · rintro ⟨j, x, hj, ha, hp⟩
    cases j with
    | zero =>
      simp only [List.getElem?_cons_zero, Option.some.injEq] at hj
      subst hj; exact Or.inl ha
    | succ j =>
      refine Or.inr ⟨hp 0 (by omega) b rfl, j, x, by simpa using hj, ha, ?_⟩
      intro i hi b' hb'
      exact hp (i + 1) (by omega) b' (by simpa using hb')
  · rintro (h | ⟨h, j, x, hj, ha, hp⟩)
    · exact ⟨0, b, rfl, h, by intro j hj; omega⟩
    · refine ⟨j + 1, x, by simpa using hj, ha, ?_⟩
      intro i hi b' hb'
      cases i with
      | zero => simp only [List.getElem?_cons_zero, Option.some.injEq] at hb'; subst hb'; exact h
      | succ i => exact hp i (by omega) b' (by simpa using hb')

theorem accepts_not_passes {b : Behav} (h : Accepts b) : ¬Passes b := by
  intro hp
  rw [Passes] at hp
  have := h.2
  rw [hp] at this
  simp at this

/-- the handlers which a source sets -/
structure Handlers (c : Offer) (k : Nat) (b : Behav) : Prop where
  onOp : c.onOp = if .onOp ∈ b.deeds then some k else none
  onRPC : c.onRPC = if .onRPC ∈ b.deeds then some k else none
  onSubscribe : c.onSubscribe = if .onSubscribe ∈ b.deeds then some k else none
  onClose : c.onClose = if .onClose ∈ b.deeds then some k else none

theorem offer_spec (k : Nat) (bs : List Behav) (c : Offer) (hc : Clean c) (ht : ∀ b ∈ bs, b.throws = true → Passes b) :
    (∃ n, Asks bs n ∧ (offer k bs c).2.asked = c.asked ++ List.range' k n) ∧ (offer k bs c).2.null = false ∧
    ((offer k bs c).1 = true ↔ ∃ j, Gets bs j) ∧ ((offer k bs c).1 = false → (offer k bs c).2.onClose = none) ∧
    ∀ j b, Gets bs j → bs[j]? = some b → Handlers (offer k bs c).2 (k + j) b ∧ (offer k bs c).2.destroyed = false := by
  induction bs generalizing k c with
  | nil =>
    refine ⟨⟨0, ⟨Nat.le_refl _, by simp, by simp⟩, by simp [offer]⟩, hc.null, ?_, fun _ => hc.onClose, by simp⟩
    simp only [offer, Bool.false_eq_true, false_iff]
    rintro ⟨j, b, hb, _⟩
    simp at hb
  | cons b bs ih =>
    have htb := ht b (List.mem_cons_self ..)
    have ht' : ∀ b ∈ bs, b.throws = true → Passes b := fun x hx => ht x (List.mem_cons_of_mem _ hx)
    obtain ⟨h1, h2, h3, h4, h5, h6, h7, h8, h9⟩ := deeds_keep k b.deeds { c with asked := c.asked ++ [k], null := c.null || c.taken }
    by_cases hp : Passes b
    · -- nothing happens
      have hask : ask k b c = { c with asked := c.asked ++ [k] } := by
        unfold ask
        rw [hp, hc.null, hc.taken]
        simp [hc.null]
      have hc' : Clean ({ c with asked := c.asked ++ [k] } : Offer) := ⟨hc.1, hc.2, hc.3, hc.4, hc.5, hc.6, hc.7⟩
      have he : offer k (b :: bs) c = offer (k + 1) bs { c with asked := c.asked ++ [k] } := by
        rw [offer]
        rw [hask]
        split
        · rfl
        · simp [hc.1, hc.2, hc.3, hc.4, hc.5, hc.6, Offer.handled]
      rw [he]
      obtain ⟨⟨n, hn, ha⟩, i2, i3, i4, i5⟩ := ih (k + 1) _ hc' ht'
      refine ⟨⟨n + 1, ?_, ?_⟩, i2, ?_, i4, ?_⟩
      · refine ⟨by simpa using hn.le, ?_, ?_⟩
        · intro j x hj hx
          cases j with
          | zero => simp only [List.getElem?_cons_zero, Option.some.injEq] at hx; subst hx; exact hp
          | succ j => exact hn.passed j x (by omega) (by simpa using hx)
        · intro hl
          obtain ⟨j, x, hj, hx, hnp⟩ := hn.stopped (by simpa using hl)
          exact ⟨j + 1, x, by omega, by simpa using hx, hnp⟩
      · rw [ha, List.append_assoc]
        simp only [List.range'_succ, List.singleton_append]
      · rw [i3, gets_cons]
        have : ¬Accepts b := fun h => accepts_not_passes h hp
        simp [hp, this]
      · intro j x hg hx
        cases j with
        | zero =>
          obtain ⟨y, hy, hacc, _⟩ := hg
          simp only [List.getElem?_cons_zero, Option.some.injEq] at hy
          subst hy
          exact absurd hp (accepts_not_passes hacc)
        | succ j =>
          have hg' : Gets bs j := by
            obtain ⟨y, hy, hacc, hpp⟩ := hg
            exact ⟨y, by simpa using hy, hacc, fun i hi z hz => hpp (i + 1) (by omega) z (by simpa using hz)⟩
          have := i5 j x hg' (by simpa using hx)
          rwa [show k + 1 + j = k + (j + 1) by omega] at this
    · -- it does something, and does not throw
      have hth : b.throws = false := by
        cases h : b.throws with
        | false => rfl
        | true => exact absurd (htb h) hp
      have hasks : Asks (b :: bs) 1 := by
        refine ⟨by simp, by intro j x hj; omega, fun _ => ⟨0, b, rfl, rfl, hp⟩⟩
      have hasked : (ask k b c).asked = c.asked ++ List.range' k 1 := h1
      have hnull : (ask k b c).null = false := by
        show (b.deeds.foldl (deed k) { c with asked := c.asked ++ [k], null := c.null || c.taken }).null = false
        rw [h2]; simp [hc.null, hc.taken]
      have hdes : (ask k b c).destroyed = true ↔ .close ∈ b.deeds := by
        show (b.deeds.foldl (deed k) { c with asked := c.asked ++ [k], null := c.null || c.taken }).destroyed = true ↔ _
        rw [h3]; simp [hc.destroyed]
      have htak : (ask k b c).taken = true ↔ .take ∈ b.deeds := by
        show (b.deeds.foldl (deed k) { c with asked := c.asked ++ [k], null := c.null || c.taken }).taken = true ↔ _
        rw [h4]; simp [hc.taken]
      have hh : .close ∉ b.deeds → Handlers (ask k b c) k b := by
        intro hcl
        refine ⟨?_, ?_, ?_, ?_⟩
        · exact h5.trans (by rw [hc.onOp])
        · exact h6.trans (by rw [hc.onRPC])
        · exact h7.trans (by rw [hc.onSubscribe])
        · exact (h8 hc.destroyed hcl).trans (by rw [hc.onClose])
      have hcl : (ask k b c).destroyed = true → (ask k b c).onClose = none := h9 (fun _ => hc.onClose)
      have hhand : .close ∉ b.deeds → ((ask k b c).handled = true ↔ Accepts b) := by
        intro hx
        have h := hh hx
        unfold Offer.handled Accepts
        rw [h.onOp, h.onRPC, h.onSubscribe, h.onClose]
        by_cases a1 : Deed.onOp ∈ b.deeds <;> by_cases a2 : Deed.onRPC ∈ b.deeds <;> by_cases a3 : Deed.onSubscribe ∈ b.deeds <;>
          by_cases a4 : Deed.onClose ∈ b.deeds <;> simp [a1, a2, a3, a4, hx]
      have hget : ∀ j x, Gets (b :: bs) j → (b :: bs)[j]? = some x → j = 0 ∧ x = b ∧ Accepts b := by
        intro j x hg hx
        obtain ⟨y, hy, hacc, hpp⟩ := hg
        cases j with
        | zero =>
          simp only [List.getElem?_cons_zero, Option.some.injEq] at hy hx
          subst hy hx
          exact ⟨rfl, rfl, hacc⟩
        | succ j => exact absurd (hpp 0 (by omega) b rfl) hp
      have hgi : (∃ j, Gets (b :: bs) j) ↔ Accepts b := by
        rw [gets_cons]; simp [hp]
      rw [offer]
      rw [hth]
      simp only [Bool.false_eq_true, if_false]
      by_cases hd : (ask k b c).destroyed = true
      · rw [if_pos hd]
        have hna : ¬Accepts b := fun h => h.1 (hdes.mp hd)
        refine ⟨⟨1, hasks, hasked⟩, hnull, ?_, fun _ => hcl hd, ?_⟩
        · rw [hgi]; simp [hna]
        · intro j x hg hx
          exact absurd (hget j x hg hx).2.2 hna
      · rw [if_neg hd]
        have hnc : .close ∉ b.deeds := fun h => hd (hdes.mpr h)
        by_cases hha : (ask k b c).handled = true
        · rw [if_pos hha]
          refine ⟨⟨1, hasks, hasked⟩, hnull, ?_, ?_, ?_⟩
          · rw [hgi]; simp [(hhand hnc).mp hha]
          · intro h; cases h
          · intro j x hg hx
            obtain ⟨rfl, rfl, _⟩ := hget j x hg hx
            exact ⟨hh hnc, by simpa using hd⟩
        · rw [if_neg hha]
          have hna : ¬Accepts b := fun h => hha ((hhand hnc).mpr h)
          have htake : (ask k b c).taken = true := by
            rw [htak]
            have : b.deeds ≠ [] := hp
            obtain ⟨d, hd'⟩ := List.exists_mem_of_ne_nil _ this
            have hn2 : ¬(.onOp ∈ b.deeds ∨ .onRPC ∈ b.deeds ∨ .onSubscribe ∈ b.deeds ∨ .onClose ∈ b.deeds) := fun h => hna ⟨hnc, h⟩
            cases d
            · exact absurd (Or.inl hd') hn2
            · exact absurd (Or.inr (Or.inl hd')) hn2
            · exact absurd (Or.inr (Or.inr (Or.inl hd'))) hn2
            · exact absurd (Or.inr (Or.inr (Or.inr hd'))) hn2
            · exact absurd hd' hnc
            · exact hd'
          rw [if_pos htake]
          refine ⟨⟨1, hasks, hasked⟩, hnull, ?_, ?_, ?_⟩
          · rw [hgi]; simp [hna]
          · intro _
            have h := hh hnc
            rw [h.onClose, if_neg (fun h => hna ⟨hnc, Or.inr (Or.inr (Or.inr h))⟩)]
          · intro j x hg hx
            exact absurd (hget j x hg hx).2.2 hna

/-- C40: sources are asked one after the other, until one does something; the channel is open if that one accepts, and has its handlers.
Proved for sources which throw only before they do anything. -/
theorem C40_first_partial (bs : List Behav) (ht : ∀ b ∈ bs, b.throws = true → Passes b) :
    (∃ n, Asks bs n ∧ (offer 0 bs {}).2.asked = List.range n) ∧ (offer 0 bs {}).2.null = false ∧
    ((offer 0 bs {}).1 = true ↔ ∃ j, Gets bs j) ∧ ((offer 0 bs {}).1 = false → (offer 0 bs {}).2.onClose = none) ∧
    ∀ j b, Gets bs j → bs[j]? = some b → Handlers (offer 0 bs {}).2 j b ∧ (offer 0 bs {}).2.destroyed = false := by
  obtain ⟨⟨n, h1, h2⟩, h3, h4, h5, h6⟩ := offer_spec 0 bs {} ⟨rfl, rfl, rfl, rfl, rfl, rfl, rfl⟩ ht
  refine ⟨⟨n, h1, by rw [h2, List.range_eq_range']; rfl⟩, h3, h4, h5, ?_⟩
  intro j b hg hb
  have := h6 j b hg hb
  rwa [Nat.zero_add] at this

/-- the second of three sources gets the channel -/
example : offer 0 [⟨[], true⟩, ⟨[.take, .onOp, .onClose], false⟩, ⟨[.onRPC], false⟩] {} =
    (true, { onOp := some 1, onClose := some 1, taken := true, asked := [0, 1] }) := by decide

/-- C40 does not hold: a source which fails after it set a handler gets the channel if the next one does nothing -/
theorem C40_throw_accept : offer 0 [⟨[.onOp], true⟩, ⟨[], false⟩] {} = (true, { onOp := some 0, asked := [0, 1] }) := by decide

/-- C40 does not hold: if there is no next one, the channel is refused, and with an onClose() handler an assertion fails -/
theorem C40_throw_abort (c : Conn) (cid : Nat) (h : c.tab = { next := 0x07050301 }) : (create c cid [⟨[.onClose], true⟩]).aborted = true := by
  have hf : Ids.fresh c.tab.used c.tab.next = some 0x07050301 := by
    rw [h]; rfl
  have hl : c.tab.tab.length ≠ 0xffffffff := by rw [h]; decide
  unfold create
  rw [if_neg hl, hf]
  show (c.aborted || true) = true
  simp

/-- C40 does not hold: after a source which fails with the channel in its hands, the next one gets a null pointer -/
theorem C40_throw_null : (offer 0 [⟨[.take], true⟩, ⟨[.onOp], false⟩] {}).2.null = true := by decide

/-! ### messages -/

/-- what holds for the table of a connection -/
structure Ready (t : Ids.Tab) : Prop where
  inv : Id.Inv t
  stuck : t.stuck = false
  few : t.tab.length ≤ 0xffffffff

theorem create_ok {c : Conn} (hc : Ready c.tab) (cid : Nat) (srcs : List Behav) (hl : c.tab.tab.length < 0xffffffff)
    (ht : ∀ b ∈ srcs, b.throws = true → Passes b) :
    ∃ r, (create c cid srcs).replies = c.replies ++ [r] ∧ (create c cid srcs).closed = c.closed ∧ (create c cid srcs).aborted = c.aborted ∧
      Ready (create c cid srcs).tab ∧ (create c cid srcs).tab.tab.length ≤ c.tab.tab.length + 1 ∧
      r.cid = cid ∧ ((∃ j, Gets srcs j) → r.status = ⟨0, [], []⟩ ∧ r.sid < 2 ^ 32 ∧ r.sid ∉ c.tab.tab.map (·.1) ∧
        (create c cid srcs).tab.tab.map (·.1) = r.sid :: c.tab.tab.map (·.1)) ∧
      ((¬∃ j, Gets srcs j) → r.status = refused ∧ r.sid = 0xffffffff ∧ (create c cid srcs).tab.tab = c.tab.tab) := by
  obtain ⟨_, _, h3, h4, _⟩ := C40_first_partial srcs ht
  unfold create
  rw [if_neg (by omega)]
  cases hf : Ids.fresh c.tab.used c.tab.next with
  | none =>
    have := Id.all_used c.tab (Id.fresh_none _ _ hc.inv.next hf)
    omega
  | some sid =>
    dsimp only
    obtain ⟨h1, h2⟩ := Id.scan_some _ _ _ _ hc.inv.next hf
    have hinv := Id.inv_server hc.inv (offer 0 srcs {}).1
    have hst : Ids.serverCreate c.tab (offer 0 srcs {}).1 = if (offer 0 srcs {}).1 then
        { ({ c.tab with next := Ids.succ sid } : Ids.Tab).insert sid c.tab.count with count := c.tab.count + 1 } else { c.tab with next := Ids.succ sid } := by
      unfold Ids.serverCreate
      rw [if_neg (by rw [hc.stuck]; decide), if_neg (by omega), hf]
    cases ho : (offer 0 srcs {}).1 with
    | true =>
      rw [ho] at hst hinv h3 h4
      simp only [if_true] at hst ⊢
      have hin := Id.inv_insert hc.inv sid (Ids.succ sid) h1 h2 (Id.succ_lt sid)
      have hg := h3.mp rfl
      have htab : (Ids.serverCreate c.tab true).tab = (sid, c.tab.count) :: c.tab.tab := by rw [hst]; exact hin.2
      refine ⟨_, rfl, trivial, trivial, ⟨hinv, by rw [hst]; exact hc.stuck, by rw [htab, List.length_cons]; omega⟩, by rw [htab, List.length_cons]; omega, rfl, ?_, ?_⟩
      · intro _
        exact ⟨rfl, h2, Id.notin_of_unused h1, by rw [htab]; rfl⟩
      · intro h; exact absurd hg h
    | false =>
      rw [ho] at hst hinv h3 h4
      simp only [Bool.false_eq_true, if_false] at hst ⊢
      have hg : ¬∃ j, Gets srcs j := fun h => by cases h3.mpr h
      have htab : (Ids.serverCreate c.tab false).tab = c.tab.tab := by rw [hst]
      refine ⟨_, rfl, trivial, ?_, ⟨hinv, by rw [hst]; exact hc.stuck, by rw [htab]; omega⟩, by rw [htab]; omega, rfl, ?_, ?_⟩
      · rw [h4 rfl]; simp
      · intro h; exact absurd h hg
      · intro _; exact ⟨rfl, rfl, htab⟩

theorem createLoop_ok (beh : Str → List Behav) (ht : ∀ name, ∀ b ∈ beh name, b.throws = true → Passes b) {be : Bool} {items : List (Nat × Str)} {x : List Byte}
    (hx : IsSeq (IsItem be) items x) (hn : ∀ y ∈ items, y.2 ≠ []) (m : Nat) (rest : List Byte) (c : Conn) (hc : Ready c.tab)
    (hl : c.tab.tab.length + items.length < 2 ^ 32 - 1) :
    ∃ c' rs, createLoop beh (items.length + m) ⟨be, false, x ++ rest⟩ c = createLoop beh m ⟨be, false, rest⟩ c' ∧ Ready c'.tab ∧
      c'.tab.tab.length ≤ c.tab.tab.length + items.length ∧
      c'.replies = c.replies ++ rs ∧ c'.closed = c.closed ∧ c'.aborted = c.aborted ∧ AnswersAll beh (c.tab.tab.map (·.1)) items rs := by
  induction hx generalizing c with
  | nil => exact ⟨c, [], by simp, hc, by simp, by simp, rfl, rfl, trivial⟩
  | @cons a l bs bs' ha hs ih =>
    obtain ⟨i, s, hi, hstr, rfl⟩ := ha
    have e1 := ((reads_getInt 4).exact be (i ++ (s ++ (bs' ++ rest))) a.1 (s ++ (bs' ++ rest))).mpr ⟨i, rfl, hi⟩
    have e2 := (reads_getStr.exact be (s ++ (bs' ++ rest)) a.2 (bs' ++ rest)).mpr ⟨s, rfl, hstr⟩
    have hstep : createLoop beh ((a :: l).length + m) ⟨be, false, i ++ s ++ bs' ++ rest⟩ c =
        createLoop beh (l.length + m) ⟨be, false, bs' ++ rest⟩ (create c a.1 (beh a.2)) := by
      rw [List.length_cons, Nat.add_right_comm]
      show createLoop beh (_ + 1) _ _ = _
      rw [createLoop]
      simp only [List.append_assoc]
      rw [e1, e2]
      simp [hn a (List.mem_cons_self ..)]
    simp only [List.length_cons] at hl
    obtain ⟨r, h1, h2, h3, h4, h5, h6, h7, h8⟩ := create_ok hc a.1 (beh a.2) (by omega) (ht a.2)
    obtain ⟨c', rs, g1, g2, g3, g4, g5, g6, g7⟩ := ih (fun y hy => hn y (List.mem_cons_of_mem _ hy)) (create c a.1 (beh a.2)) h4 (by omega)
    refine ⟨c', r :: rs, hstep.trans g1, g2, by simp only [List.length_cons]; omega, ?_, by rw [g5, h2], by rw [g6, h3], ?_⟩
    · rw [g4, h1, List.append_assoc]; rfl
    · refine ⟨⟨h6, fun h => ⟨(h7 h).1, (h7 h).2.1, (h7 h).2.2.1⟩, fun h => ⟨by rw [(h8 h).1]; rfl, (h8 h).2.1⟩⟩, ?_⟩
      by_cases hg : ∃ j, Gets (beh a.2) j
      · rw [(h7 hg).2.2.2] at g7
        rw [(h7 hg).1]
        exact g7
      · rw [(h8 hg).2.2] at g7
        rw [(h8 hg).1]
        exact g7

theorem handleCreate_ready (beh : Str → List Behav) (i : In) (c : Conn) (hc : Ready c.tab) : Ready (handleCreate beh i c).tab := by
  have key : ∀ n i c, Ready c.tab → Ready (createLoop beh n i c).tab := by
    intro n
    induction n with
    | zero => intro i c h; unfold createLoop; split <;> exact h
    | succ n ih =>
      intro i c h
      rw [createLoop]
      split
      · exact h
      · split
        · exact h
        · refine ih _ _ ?_
          generalize beh (getStr (getInt 4 i).2).1 = srcs
          unfold create
          split
          · exact h
          · rename_i hne
            split
            · rename_i hf
              have := Id.all_used c.tab (Id.fresh_none _ _ h.inv.next hf)
              have := h.few
              omega
            · rename_i sid hf
              have hr : Ready (Ids.serverCreate c.tab (offer 0 srcs {}).1) := by
                obtain ⟨h1, h2⟩ := Id.scan_some _ _ _ _ h.inv.next hf
                have hin := Id.inv_insert h.inv sid (Ids.succ sid) h1 h2 (Id.succ_lt sid)
                refine ⟨Id.inv_server h.inv _, ?_, ?_⟩
                · unfold Ids.serverCreate
                  rw [if_neg (by rw [h.stuck]; decide), if_neg hne, hf]
                  dsimp only
                  split
                  · exact h.stuck
                  · exact h.stuck
                · unfold Ids.serverCreate
                  rw [if_neg (by rw [h.stuck]; decide), if_neg hne, hf]
                  dsimp only
                  have := h.few
                  split
                  · show (({ c.tab with next := Ids.succ sid } : Ids.Tab).insert sid c.tab.count).tab.length ≤ _
                    rw [hin.2, List.length_cons]; omega
                  · exact this
              dsimp only
              split
              · exact hr
              · exact hr
  exact key _ _ _ hc

/-- a connection after these messages, with what sources do then -/
def connRun (l : List ((Str → List Behav) × In)) : Conn := l.foldl (fun c x => handleCreate x.1 x.2 c) {}

theorem connRun_ready (l : List ((Str → List Behav) × In)) : Ready (connRun l).tab := by
  unfold connRun
  have key : ∀ c : Conn, Ready c.tab → Ready (l.foldl (fun c x => handleCreate x.1 x.2 c) c).tab := by
    induction l with
    | nil => intro c h; exact h
    | cons x l ih => intro c h; exact ih _ (handleCreate_ready _ _ _ h)
  exact key {} ⟨⟨by decide, ⟨by simp, by simp, by simp⟩, by simp⟩, rfl, by simp⟩

/-- C40, messages: whatever came before, each name in a message is answered, in order, once: the channel is open with a number of its own if the
first source to do anything accepts it, or refused -/
theorem C40_replies_partial (l : List ((Str → List Behav) × In)) (beh : Str → List Behav) (ht : ∀ name, ∀ b ∈ beh name, b.throws = true → Passes b)
    (be : Bool) (items : List (Nat × Str)) (bs rest : List Byte) (hm : IsCreate be items bs) (hn : ∀ x ∈ items, x.2 ≠ [])
    (hl : (connRun l).tab.tab.length + items.length < 2 ^ 32 - 1) :
    ∃ rs, (connRun (l ++ [(beh, ⟨be, false, bs ++ rest⟩)])).replies = (connRun l).replies ++ rs ∧
      AnswersAll beh ((connRun l).tab.tab.map (·.1)) items rs ∧
      (connRun (l ++ [(beh, ⟨be, false, bs ++ rest⟩)])).closed = (connRun l).closed ∧
      (connRun (l ++ [(beh, ⟨be, false, bs ++ rest⟩)])).aborted = (connRun l).aborted := by
  obtain ⟨n, x, h1, h2, rfl⟩ := hm
  have e : connRun (l ++ [(beh, ⟨be, false, n ++ x ++ rest⟩)]) = handleCreate beh ⟨be, false, n ++ x ++ rest⟩ (connRun l) := by simp [connRun]
  have e1 := ((reads_getInt 2).exact be (n ++ (x ++ rest)) items.length (x ++ rest)).mpr ⟨n, rfl, h1⟩
  obtain ⟨c', rs, g1, g2, g3, g4, g5, g6, g7⟩ := createLoop_ok beh ht h2 hn 0 rest (connRun l) (connRun_ready l) hl
  have e2 : handleCreate beh ⟨be, false, n ++ x ++ rest⟩ (connRun l) = c' := by
    unfold handleCreate
    rw [List.append_assoc, e1]
    exact g1.trans (by unfold createLoop; rfl)
  rw [e, e2]
  exact ⟨rs, g4, g7, g5, g6⟩

/-- C40 does not hold: the names after one which is empty are not answered -/
theorem C40_empty_name (l : List ((Str → List Behav) × In)) (beh : Str → List Behav) (be : Bool) (cid : Nat) (i : List Byte) (hi : IsNum be 4 cid i)
    (m : Nat) (n rest : List Byte) (hm : IsNum be 2 (m + 1) n) :
    (connRun (l ++ [(beh, ⟨be, false, n ++ (i ++ ([0] ++ rest))⟩)])) = connRun l := by
  have e : connRun (l ++ [(beh, ⟨be, false, n ++ (i ++ ([0] ++ rest))⟩)]) = handleCreate beh ⟨be, false, n ++ (i ++ ([0] ++ rest))⟩ (connRun l) := by
    simp [connRun]
  have e1 := ((reads_getInt 2).exact be (n ++ (i ++ ([0] ++ rest))) (m + 1) (i ++ ([0] ++ rest))).mpr ⟨n, rfl, hm⟩
  have e2 := ((reads_getInt 4).exact be (i ++ ([0] ++ rest)) cid ([0] ++ rest)).mpr ⟨i, rfl, hi⟩
  have e3 := (reads_getStr.exact be ([0] ++ rest) [] rest).mpr ⟨[0], rfl, Or.inr ⟨[0], Or.inl ⟨by decide, rfl⟩, rfl⟩⟩
  rw [e]
  unfold handleCreate
  rw [e1]
  dsimp only
  rw [createLoop, e2]
  dsimp only
  rw [e3]
  simp

end Pvxs.Props.Src
