import Verif.Lemmas.Marks
namespace Pvxs
open Wire Spec

theorem Embeds.refl (m : Member) : Embeds (flat m) (flat m) 0 :=
  ⟨by omega, fun k x hx => ⟨x.parentIndex, by rw [Nat.zero_add, hx]; cases x; rfl⟩, fun k x _ hx => by rw [Nat.zero_add]; exact hx⟩

theorem Embeds.comp {s t T : List FieldDesc} {a b : Nat} (h1 : Embeds s t a) (h2 : Embeds t T b) : Embeds s T (b + a) := by
  refine ⟨by have := h1.len; have := h2.len; omega, fun k x hx => ?_, fun k x hk hx => ?_⟩
  · obtain ⟨n, hn⟩ := h1.get k x hx
    obtain ⟨n', hn'⟩ := h2.get _ _ hn
    exact ⟨n', by rw [Nat.add_assoc]; exact hn'⟩
  · have := h2.keep _ _ (by omega) (h1.keep k x hk hx)
    rw [Nat.add_assoc]; exact this

theorem embeds_child {m : Member} (hs : m.code = .Struct) {o : Nat} {c : Member} (hk : KidAt 1 m.children o c) : Embeds (flat c) (flat m) o := by
  have he := embeds_kid hk (structRoot m)
  rwa [← flat_struct m hs] at he

/-- each node is the root of a part of the definition -/
theorem embeds_node (m : Member) : Full m → ∀ i, i < count m → ∃ c, Full c ∧ Embeds (flat c) (flat m) i := by
  induction m using Member.ind with
  | h m ih =>
    intro hf i hi
    by_cases h0 : i = 0
    · subst h0; exact ⟨m, hf, Embeds.refl m⟩
    · by_cases hs : m.code = .Struct
      · rw [count_struct m hs] at hi
        obtain ⟨o, c, hk, h3, h4⟩ := flatKids_node (off := 1) (show i - 1 < countKids m.children by omega)
        obtain ⟨c', hc', he⟩ := ih c hk.mem ((hf.entries hs).2.2 c hk.mem) (i - o) (by omega)
        refine ⟨c', hc', ?_⟩
        have := he.comp (embeds_child hs hk)
        rwa [show o + (i - o) = i by omega] at this
      · rw [count_other m hs] at hi; omega

theorem embeds_root {c : Member} (hf : Full c) {T : List FieldDesc} {b : Nat} (he : Embeds (flat c) T b) :
    ∃ d, T[b]? = some d ∧ d.code = c.code ∧ d.size = count c := by
  obtain ⟨r, rs, h1, h2, _⟩ := root_size c hf
  obtain ⟨r', rs', h3, h4, _⟩ := flat_head c
  rw [h1] at h3; cases h3
  obtain ⟨n, hn⟩ := he.get 0 r (by rw [h1]; rfl)
  exact ⟨_, hn, h4, h2⟩

theorem embeds_struct {c : Member} (hs : c.code = .Struct) {T : List FieldDesc} {b : Nat} (he : Embeds (flat c) T b) :
    ∃ d, T[b]? = some d ∧ d.code = .Struct ∧ d.miter = kidIter 1 c.children ∧ d.mlookup = lookOf c ∧ d.members = [] := by
  obtain ⟨n, hn⟩ := he.get 0 (structRoot c) (by rw [flat_struct c hs]; rfl)
  exact ⟨_, hn, rfl, rfl, rfl, rfl⟩

theorem depthFirst_embeds (m : Member) : Full m → ∀ (T : List FieldDesc) (b : Nat), Embeds (flat m) T b →
    DepthFirst T b (List.range' (b+1) (count m - 1)) := by
  induction m using Member.ind with
  | h m ih =>
    intro hf T b he
    by_cases hs : m.code = .Struct
    · obtain ⟨d, h1, h2, h3, _⟩ := embeds_struct hs he
      refine .struct b d _ h1 h2 ?_
      rw [h3, count_struct m hs]
      have hfc := (hf.entries hs).2.2
      have key : ∀ ms off, (∀ o c, KidAt off ms o c → KidAt 1 m.children o c) →
          DepthFirstKids T b (kidIter off ms) (List.range' (b + off) (countKids ms)) := by
        intro ms
        induction ms with
        | nil => intro off _; exact .nil b
        | cons c ms ih2 =>
          intro off hk
          have hkc := hk off c (kidAt_cons.mpr (Or.inl ⟨rfl, rfl⟩))
          have hd := ih c hkc.mem (hfc c hkc.mem) T (b + off) ((embeds_child hs hkc).comp he)
          have hr := ih2 (off + count c) (fun o c' h => hk o c' (kidAt_cons.mpr (Or.inr h)))
          have := DepthFirstKids.cons b c.name off (kidIter (off + count c) ms) _ _ hd hr
          have e : List.range' (b + off) (countKids (c :: ms)) =
              (b + off) :: (List.range' (b + off + 1) (count c - 1) ++ List.range' (b + (off + count c)) (countKids ms)) := by
            simp only [countKids]
            have hp := count_pos c
            rw [show count c + countKids ms = (count c - 1 + countKids ms) + 1 by omega, List.range'_succ]
            congr 1
            rw [← List.range'_append_1]
            congr 2
            omega
          rw [e]
          exact this
      have := key m.children 1 (fun _ _ h => h)
      rwa [show 1 + countKids m.children - 1 = countKids m.children by omega]
    · obtain ⟨d, h1, h2, _⟩ := embeds_root hf he
      rw [count_other m hs]
      exact .leaf b d h1 (by rw [h2]; exact hs)

theorem iall_eq {m : Member} (hf : Full m) {i : Nat} (hi : i < count m) :
    ∃ c, Full c ∧ Embeds (flat c) (flat m) i ∧ iall (flat m) i = List.range' (i+1) (count c - 1) := by
  obtain ⟨c, hc, he⟩ := embeds_node m hf i hi
  refine ⟨c, hc, he, ?_⟩
  by_cases hs : c.code = .Struct
  · obtain ⟨d, h1, h2, h3, h4, h5⟩ := embeds_struct hs he
    simp only [iall, h1, h2, if_true, h4]
    rw [hc hs, count_struct c hs, show 1 + countKids c.children - 1 = countKids c.children by omega, List.range'_eq_map_range]
  · obtain ⟨d, h1, h2, _⟩ := embeds_root hc he
    simp only [iall, h1]
    rw [if_neg (by rw [h2]; exact hs), count_other c hs]
    rfl

theorem range'_sorted (a n : Nat) : (List.range' a n).Pairwise (· < ·) := by
  induction n generalizing a with
  | zero => exact List.Pairwise.nil
  | succ n ih =>
    rw [List.range'_succ, List.pairwise_cons]
    exact ⟨fun x hx => by rw [List.mem_range'_1] at hx; omega, ih _⟩

/-! ### imarked -/

section
variable (t : List FieldDesc) (valid : Nat → Bool) (i n : Nat)

/-- position `q` is covered by a marked position -/
def CovPos (q : Nat) : Prop := ∃ p, p < n ∧ valid (i + 1 + p) = true ∧ p ≤ q ∧ q < p + sizeAt t (i + 1 + p)

/-- marks before `a` cover nothing from `a` on -/
def Sealed (a : Nat) : Prop := ∀ p, p < a → valid (i + 1 + p) = true → p + sizeAt t (i + 1 + p) ≤ a

structure ItOK (pos nc : Nat) : Prop where
  le : pos ≤ n
  ncLe : nc ≤ n
  before : pos < nc ∨ (pos = n ∧ nc = n)
  sealed' : Sealed t valid i nc
  cov : ∀ q, pos ≤ q → q < nc → CovPos t valid i n q

structure Shape : Prop where
  pos : ∀ p, p < n → 0 < sizeAt t (i + 1 + p)
  fits : ∀ p, p < n → p + sizeAt t (i + 1 + p) ≤ n
  lam : ∀ p q, p < n → p ≤ q → q < p + sizeAt t (i + 1 + p) → q + sizeAt t (i + 1 + q) ≤ p + sizeAt t (i + 1 + p)

variable {t valid i n}

theorem scan_spec (sh : Shape t i n) : ∀ (k a : Nat), a + k = n → Sealed t valid i a →
    a ≤ (scanMarked t valid i k a).1 ∧ ItOK t valid i n (scanMarked t valid i k a).1 (scanMarked t valid i k a).2 ∧
    ∀ q, a ≤ q → q < (scanMarked t valid i k a).1 → ¬ CovPos t valid i n q := by
  intro k
  induction k with
  | zero =>
    intro a ha hs
    simp only [scanMarked]
    exact ⟨Nat.le_refl _, ⟨by omega, by omega, Or.inr ⟨by omega, by omega⟩, hs, by intro q h1 h2; omega⟩, by intro q h1 h2; omega⟩
  | succ k ih =>
    intro a ha hs
    simp only [scanMarked]
    by_cases hv : valid (i + 1 + a) = true
    · rw [if_pos hv]
      have h1 := sh.pos a (by omega)
      have h2 := sh.fits a (by omega)
      refine ⟨Nat.le_refl _, ⟨by simp only; omega, h2, Or.inl (by simp only; omega), ?_, ?_⟩, by intro q h3 h4; simp only at h4; omega⟩
      · intro p hp hpv
        simp only at hp ⊢
        by_cases hpa : p < a
        · have := hs p hpa hpv; omega
        · exact sh.lam a p (by omega) (by omega) hp
      · intro q h3 h4
        exact ⟨a, by omega, hv, h3, h4⟩
    · rw [if_neg hv]
      have hs' : Sealed t valid i (a+1) := by
        intro p hp hpv
        by_cases hpa : p < a
        · have := hs p hpa hpv; omega
        · have : p = a := by omega
          subst this; exact absurd hpv hv
      obtain ⟨h1, h2, h3⟩ := ih (a+1) (by omega) hs'
      refine ⟨by omega, h2, fun q hq1 hq2 => ?_⟩
      by_cases hqa : q = a
      · subst hqa
        rintro ⟨p, hp1, hp2, hp3, hp4⟩
        by_cases hpq : p = q
        · subst hpq; exact hv hp2
        · have := hs p (by omega) hp2; omega
      · exact h3 q (by omega) hq2

theorem next_spec (sh : Shape t i n) {pos nc : Nat} (ok : ItOK t valid i n pos nc) (hp : pos ≠ n) :
    let r := nextMarked t valid i n (pos+1) nc
    pos < r.1 ∧ ItOK t valid i n r.1 r.2 ∧ ∀ q, pos < q → q < r.1 → ¬ CovPos t valid i n q := by
  have hle := ok.le
  have hnc := ok.ncLe
  have hb := ok.before
  simp only [nextMarked]
  by_cases h : pos + 1 < nc
  · rw [if_pos h]
    exact ⟨by simp, ⟨by simp only; omega, hnc, Or.inl h, ok.sealed', fun q h1 h2 => ok.cov q (by simp only at h1; omega) h2⟩, by intro q h1 h2; simp only at h2; omega⟩
  · rw [if_neg h]
    have he : pos + 1 = nc := by omega
    obtain ⟨h1, h2, h3⟩ := scan_spec (valid := valid) sh (n - (pos+1)) (pos+1) (by omega) (by rw [he]; exact ok.sealed')
    exact ⟨by omega, h2, fun q hq1 hq2 => h3 q (by omega) hq2⟩

theorem imarkedFrom_spec (sh : Shape t i n) : ∀ (k pos nc : Nat), ItOK t valid i n pos nc → n - pos < k →
    (∀ j, j ∈ imarkedFrom t valid i n k (pos, nc) ↔ ∃ q, pos ≤ q ∧ j = i + 1 + q ∧ CovPos t valid i n q) ∧
    (imarkedFrom t valid i n k (pos, nc)).Pairwise (· < ·) := by
  intro k
  induction k with
  | zero => intro pos nc _ h; omega
  | succ k ih =>
    intro pos nc ok hk
    have hle := ok.le
    simp only [imarkedFrom]
    by_cases hp : pos = n
    · rw [if_pos hp]
      refine ⟨fun j => ?_, List.Pairwise.nil⟩
      simp only [List.not_mem_nil, false_iff]
      rintro ⟨q, h1, _, p, h2, _, h3, h4⟩
      have := sh.fits p h2
      omega
    · rw [if_neg hp]
      obtain ⟨h1, h2, h3⟩ := next_spec sh ok hp
      obtain ⟨h4, h5⟩ := ih _ _ h2 (by have := h2.le; omega)
      refine ⟨fun j => ?_, ?_⟩
      · rw [List.mem_cons, h4]
        constructor
        · rintro (rfl | ⟨q, hq1, hq2, hq3⟩)
          · refine ⟨pos, Nat.le_refl _, rfl, ok.cov pos (Nat.le_refl _) ?_⟩
            rcases ok.before with h | h <;> omega
          · exact ⟨q, by omega, hq2, hq3⟩
        · rintro ⟨q, hq1, hq2, hq3⟩
          by_cases hq : q = pos
          · subst hq; exact Or.inl hq2
          · refine Or.inr ⟨q, ?_, hq2, hq3⟩
            refine Classical.byContradiction fun hc => ?_
            exact h3 q (by omega) (by omega) hq3
      · rw [List.pairwise_cons]
        refine ⟨fun j hj => ?_, h5⟩
        obtain ⟨q, hq1, rfl, _⟩ := (h4 j).mp hj
        omega
end

theorem sizeAt_eq {t : List FieldDesc} {i : Nat} {d : FieldDesc} (h : t[i]? = some d) : sizeAt t i = d.size := by simp [sizeAt, h]

theorem imarked_spec {m : Member} (hf : Full m) {i : Nat} {d : FieldDesc} (hd : (flat m)[i]? = some d) (hs : d.code = .Struct)
    (valid : Nat → Bool) :
    (∀ j, j ∈ imarked (flat m) valid i ↔ CoveredBelow (flat m) valid i j) ∧ (imarked (flat m) valid i).Pairwise (· < ·) := by
  have hi := (List.getElem?_eq_some_iff.mp hd).1
  rw [flat_length] at hi
  obtain ⟨c, hc, he⟩ := embeds_node m hf i hi
  obtain ⟨d', h1, h2, h2'⟩ := embeds_root hc he
  rw [hd] at h1; cases h1
  have hcs : c.code = .Struct := by rw [← h2]; exact hs
  obtain ⟨d', h1, _, h3, h4, h5⟩ := embeds_struct hcs he
  rw [hd] at h1; cases h1
  have hn : d.mlookup.length = countKids c.children := by rw [h4]; exact hc hcs
  have hsz : d.size = d.mlookup.length + 1 := by simp [FieldDesc.size, h5]; omega
  have hin := (nodeOK_flat m hf i d hd).inside
  have node : ∀ p, p < d.mlookup.length → ∃ x, (flat m)[i + 1 + p]? = some x := fun p hp =>
    ⟨_, List.getElem?_eq_getElem (show i + 1 + p < (flat m).length by omega)⟩
  have sh : Shape (flat m) i d.mlookup.length := by
    refine ⟨fun p hp => ?_, fun p hp => ?_, fun p q hp hpq hq => ?_⟩
    · obtain ⟨x, hx⟩ := node p hp
      rw [sizeAt_eq hx]; exact size_pos x
    · obtain ⟨x, hx⟩ := node p hp
      rw [sizeAt_eq hx]
      have := laminar_flat m hf i d hd _ x (by omega) (by omega) hx
      omega
    · obtain ⟨x, hx⟩ := node p hp
      rw [sizeAt_eq hx] at hq ⊢
      have h6 := laminar_flat m hf i d hd _ x (by omega) (by omega) hx
      obtain ⟨y, hy⟩ := node q (by omega)
      rw [sizeAt_eq hy]
      have := laminar_flat m hf _ x hx _ y (by omega) (by omega) hy
      omega
  simp only [imarked, hd, hs, if_true]
  have h0 : nextMarked (flat m) valid i d.mlookup.length 0 0 = scanMarked (flat m) valid i d.mlookup.length 0 := by
    simp [nextMarked]
  rw [h0]
  obtain ⟨h6, h7, h8⟩ := scan_spec (valid := valid) sh d.mlookup.length 0 (by omega) (by intro p hp; omega)
  obtain ⟨h9, h10⟩ := imarkedFrom_spec sh (d.mlookup.length + 1) _ _ h7 (by omega)
  refine ⟨fun j => ?_, h10⟩
  rw [h9]
  constructor
  · rintro ⟨q, _, rfl, p, hp1, hp2, hp3, hp4⟩
    obtain ⟨x, hx⟩ := node p hp1
    rw [sizeAt_eq hx] at hp4
    exact ⟨i + 1 + p, by omega, ⟨d, hd, by omega, by omega⟩, hp2, x, hx, by omega, by omega⟩
  · rintro ⟨b, hb1, ⟨d', hd', hb2, hb3⟩, hb4, x, hx, hb5, hb6⟩
    rw [hd] at hd'; cases hd'
    have hcov : CovPos (flat m) valid i d.mlookup.length (j - i - 1) := by
      refine ⟨b - i - 1, by omega, by rw [show i + 1 + (b - i - 1) = b by omega]; exact hb4, by omega, ?_⟩
      rw [show i + 1 + (b - i - 1) = b by omega, sizeAt_eq hx]
      omega
    refine ⟨j - i - 1, ?_, by omega, hcov⟩
    refine Classical.byContradiction fun hc' => ?_
    exact h8 (j - i - 1) (by omega) (by omega) hcov

end Pvxs
