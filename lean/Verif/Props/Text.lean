import Verif.Spec.Text
/-
C50 escaped text, C55 line difference.
-/
namespace Pvxs.Props.Txt
open Text Spec.Txt

/-! ### C50 -/

theorem short_cases {c n : Nat} (h : short c = some n) :
    (c = 7 ∧ n = 0x61) ∨ (c = 8 ∧ n = 0x62) ∨ (c = 12 ∧ n = 0x66) ∨ (c = 10 ∧ n = 0x6e) ∨ (c = 13 ∧ n = 0x72) ∨ (c = 9 ∧ n = 0x74) ∨
    (c = 11 ∧ n = 0x76) ∨ (c = 0x5c ∧ n = 0x5c) ∨ (c = 0x27 ∧ n = 0x27) ∨ (c = 0x22 ∧ n = 0x22) := by
  unfold short at h
  repeat' split at h
  all_goals simp_all

theorem escapeByte_printable (c : Nat) : ∀ d ∈ escapeByte c, Printable d := by
  intro d hd
  unfold escapeByte at hd
  split at hd
  · rename_i next hn
    simp only [List.mem_cons, List.not_mem_nil, or_false] at hd
    rcases hd with rfl | rfl
    · exact ⟨by decide, by decide⟩
    · have := short_cases hn
      unfold Printable
      omega
  · split at hd
    · simp only [List.mem_cons, List.not_mem_nil, or_false] at hd; subst hd; assumption
    · have hx : ∀ n, n < 16 → Printable (hexDigit n) := by
        intro n hn; unfold Printable hexDigit; split <;> omega
      simp only [List.mem_cons, List.not_mem_nil, or_false] at hd
      rcases hd with rfl | rfl | rfl | rfl
      · exact ⟨by decide, by decide⟩
      · exact ⟨by decide, by decide⟩
      · exact hx _ (Nat.mod_lt _ (by decide))
      · exact hx _ (Nat.mod_lt _ (by decide))

/-- Escaped text is printable ASCII. -/
theorem C50_printable (s : List Nat) : ∀ d ∈ escape s, Printable d := by
  intro d hd
  unfold escape at hd
  rw [List.mem_flatMap] at hd
  obtain ⟨c, _, hc⟩ := hd
  exact escapeByte_printable c d hc

theorem unescape_byte (c : Nat) (hc : IsByte c) (s : List Nat) : unescape (escapeByte c ++ s) = c :: unescape s := by
  unfold escapeByte
  split
  · rename_i next hn
    have hx : next ≠ 0x78 ∧ unshort next = c := by
      rcases short_cases hn with ⟨rfl, rfl⟩ | ⟨rfl, rfl⟩ | ⟨rfl, rfl⟩ | ⟨rfl, rfl⟩ | ⟨rfl, rfl⟩ | ⟨rfl, rfl⟩ | ⟨rfl, rfl⟩ | ⟨rfl, rfl⟩ | ⟨rfl, rfl⟩ | ⟨rfl, rfl⟩ <;> decide
    show unescape (0x5c :: next :: s) = _
    rw [unescape.eq_2]
    · rw [hx.2]
    · intro a b s' h1
      exact absurd h1 hx.1
  · rename_i hn
    have h5c : c ≠ 0x5c := by rintro rfl; simp [short] at hn
    split
    · show unescape (c :: s) = _
      rw [unescape.eq_3]
      · intro a b s' h; exact absurd h h5c
      · intro a s' h; exact absurd h h5c
    · show unescape (0x5c :: 0x78 :: hexDigit (c / 16 % 16) :: hexDigit (c % 16) :: s) = _
      rw [unescape.eq_1]
      have hx : ∀ n, n < 16 → hexVal (hexDigit n) = n := by
        intro n hn; unfold hexVal hexDigit; split <;> split <;> omega
      rw [hx _ (Nat.mod_lt _ (by decide)), hx _ (Nat.mod_lt _ (by decide))]
      unfold IsByte at hc
      congr 1
      omega

/-- Escaped text can be read back, whatever the bytes. -/
theorem C50_roundtrip (s : List Nat) (hs : ∀ c ∈ s, IsByte c) : unescape (escape s) = s := by
  induction s with
  | nil => rfl
  | cons c s ih =>
    show unescape (escapeByte c ++ escape s) = _
    rw [unescape_byte c (hs c (by simp)), ih (fun d hd => hs d (by simp [hd]))]

/-- Distinct byte strings have distinct renderings. -/
theorem C50_injective (s t : List Nat) (hs : ∀ c ∈ s, IsByte c) (ht : ∀ c ∈ t, IsByte c) (h : escape s = escape t) : s = t := by
  rw [← C50_roundtrip s hs, ← C50_roundtrip t ht, h]

example : escape [0x41, 10, 0x5c, 0, 255] = [0x41, 0x5c, 0x6e, 0x5c, 0x5c, 0x5c, 0x78, 0x30, 0x30, 0x5c, 0x78, 0x66, 0x66] ∧
    ∀ c ∈ [0x41, 10, 0x5c, 0, 255], IsByte c := by
  refine ⟨by decide, ?_⟩
  unfold IsByte
  decide

/-- The null pointer is rendered like a string. -/
theorem C50_null : escapePtr none = escapePtr (some [0x3c, 0x4e, 0x55, 0x4c, 0x4c, 0x3e]) := by decide

theorem literal_plain {q c : Nat} (hc : c ≠ 0x5c) (hq : c ≠ q) (s : List Nat) :
    literal q (c :: s) = (literal q s).map fun r => (c :: r.1, r.2) := by
  rw [literal.eq_2 q c s (fun _ _ h => absurd h hc), if_neg hq]

/-- A byte does not end the literal it is in. -/
theorem literal_byte {q c : Nat} (hq : q = 0x22 ∨ q = 0x27) (s : List Nat) :
    literal q (escapeByte c ++ s) = (literal q s).map fun r => (escapeByte c ++ r.1, r.2) := by
  unfold escapeByte
  split
  · rfl
  · rename_i hn
    have hne : c ≠ 0x5c ∧ c ≠ 0x22 ∧ c ≠ 0x27 := by
      refine ⟨?_, ?_, ?_⟩ <;> (rintro rfl; simp [short] at hn)
    split
    · exact literal_plain hne.1 (by omega) s
    · have hx : ∀ n, n < 16 → hexDigit n ≠ 0x5c ∧ hexDigit n ≠ q := by
        intro n hn; unfold hexDigit; split <;> omega
      have h1 := hx (c / 16 % 16) (Nat.mod_lt _ (by decide))
      have h2 := hx (c % 16) (Nat.mod_lt _ (by decide))
      show literal q (0x5c :: 0x78 :: hexDigit (c / 16 % 16) :: hexDigit (c % 16) :: s) = _
      rw [literal, literal_plain h1.1 h1.2, literal_plain h2.1 h2.2, Option.map_map, Option.map_map]
      rfl

/-- Between single or double quotes, escaped text ends where it ends. -/
theorem C50_quoted (q : Nat) (hq : q = 0x22 ∨ q = 0x27) (s rest : List Nat) :
    literal q (escape s ++ q :: rest) = some (escape s, rest) := by
  induction s with
  | nil =>
    show literal q (q :: rest) = some ([], rest)
    rcases hq with rfl | rfl <;> (unfold literal; split <;> simp_all)
  | cons c s ih =>
    show literal q (escapeByte c ++ escape s ++ q :: rest) = some (escapeByte c ++ escape s, rest)
    rw [List.append_assoc, literal_byte hq, ih]
    rfl

example : literal 0x22 (escape [0x61, 0x22, 0x62] ++ [0x22, 0x2c]) = some ([0x61, 0x5c, 0x22, 0x62], [0x2c]) := by decide

/-! ### C55 -/

theorem tidy_tail {c : Nat} {s : List Nat} (h : Tidy (c :: s)) : Tidy s := by
  cases s with
  | nil => trivial
  | cons d s => exact h.2

theorem splitStep_tidy {s : List Nat} (h : Tidy s) (hn : s ≠ []) : Tidy (splitStep s).2 ∧ (splitStep s).2.length < s.length := by
  induction s with
  | nil => exact absurd rfl hn
  | cons c s ih =>
    unfold splitStep
    split
    · rename_i hc; cases hc
    · rename_i s' hc
      injection hc with h1 h2
      subst h1 h2
      exact ⟨tidy_tail (tidy_tail h), by simp; omega⟩
    · rename_i s' hc
      injection hc with h1 h2
      subst h1 h2
      exact ⟨tidy_tail (tidy_tail h), by simp; omega⟩
    · rename_i s' _ hc
      injection hc with h1 h2
      subst h1 h2
      exact ⟨tidy_tail h, by simp⟩
    · rename_i s' h1 hc
      injection hc with h1 h2
      subst h1 h2
      cases s with
      | nil => exact absurd rfl h
      | cons d s => exact absurd (by rw [h.1 rfl]) (h1 s)
    · rename_i c' s' _ _ _ _ hc
      injection hc with h1 h2
      subst h1 h2
      cases s with
      | nil => simp [splitStep, Tidy]
      | cons d s =>
        have := ih (tidy_tail h) (by simp)
        simp only [List.length_cons] at this ⊢
        exact ⟨this.1, by omega⟩

/-- Splitting a text ends, if every CR is followed by LF. -/
theorem C55_split_partial (s : List Nat) (h : Tidy s) : ∃ ls, Splits s ls := by
  generalize hn : s.length = n
  induction n using Nat.strongRecOn generalizing s with
  | ind n ih =>
    subst hn
    cases s with
    | nil => exact ⟨[], .done⟩
    | cons c s =>
      obtain ⟨h1, h2⟩ := splitStep_tidy h (by simp)
      obtain ⟨ls, hl⟩ := ih _ h2 _ h1 rfl
      exact ⟨_, .line (by simp) hl⟩

example : Tidy [0x61, 13, 10, 0x62, 10, 13, 10] := by simp [Tidy]

/-- It does not if a line ends with a lone CR. -/
theorem C55_hang (s : List Nat) (h : s.head? ≠ some 10) (ls : List (List Nat)) : ¬ Splits (13 :: s) ls := by
  intro hs
  generalize ht : 13 :: s = t at hs
  induction hs with
  | done => cases ht
  | line hne _ ih =>
    subst ht
    apply ih
    have : (splitStep (13 :: s)).2 = 13 :: s := by
      cases s with
      | nil => rfl
      | cons d s =>
        have hd : d ≠ 10 := by simpa using h
        rw [splitStep.eq_5]
        rintro s' h'
        injection h' with h1 _
        exact hd h1
    rw [this]

example : ¬ ∃ ls, Splits [13, 0x61] ls := by
  rintro ⟨ls, h⟩
  exact C55_hang [0x61] (by decide) ls h

theorem across_some {l r : List (List Nat)} {dist : Nat} (n : Nat) : ∀ {c a b : Nat}, across l r dist n c = some (.pair a b) →
    a < l.length ∧ b < r.length ∧ l[a]? = r[b]? := by
  induction n with
  | zero => intro c a b h; cases h
  | succ n ih =>
    intro c a b h
    unfold across at h
    split at h
    · cases h
    · split at h
      · exact ih h
      · split at h
        · injection h with h; injection h with h1 h2
          subst h1 h2
          rename_i h1 h2 h3
          exact ⟨by omega, by omega, h3⟩
        · exact ih h

theorem outward_pair {l r : List (List Nat)} (n : Nat) : ∀ {dist a b : Nat}, outward l r n dist = some (.pair a b) →
    a < l.length ∧ b < r.length ∧ l[a]? = r[b]? := by
  induction n with
  | zero => intro dist a b h; cases h
  | succ n ih =>
    intro dist a b h
    unfold outward at h
    split at h
    · rename_i f hf
      injection h with h
      rw [h] at hf
      exact across_some _ hf
    · exact ih h

theorem across_ends {l r : List (List Nat)} {dist : Nat} (hd : l.length + r.length ≤ dist) (n : Nat) : ∀ {c : Nat}, c ≤ l.length → l.length < c + n →
    across l r dist n c ≠ none := by
  induction n with
  | zero => intro c h1 h2; omega
  | succ n ih =>
    intro c h1 h2
    unfold across
    split
    · simp
    · split
      · exact ih (by omega) (by omega)
      · split
        · simp
        · exact ih (by omega) (by omega)

theorem outward_ends {l r : List (List Nat)} (n : Nat) : ∀ {dist : Nat}, dist ≤ l.length + r.length → l.length + r.length < dist + n →
    outward l r n dist ≠ none := by
  induction n with
  | zero => intro dist h1 h2; omega
  | succ n ih =>
    intro dist h1 h2
    unfold outward
    by_cases hd : l.length + r.length ≤ dist
    · have := across_ends hd (dist + 1) (c := 0) (by omega) (by omega)
      split
      · simp
      · rename_i hx; exact absurd hx this
    · split
      · simp
      · exact ih (by omega) (by omega)

theorem lefts_append (a b : List Line) : lefts (a ++ b) = lefts a ++ lefts b := by
  induction a with
  | nil => rfl
  | cons x a ih => cases x <;> simp [lefts, ih]

theorem rights_append (a b : List Line) : rights (a ++ b) = rights a ++ rights b := by
  induction a with
  | nil => rfl
  | cons x a ih => cases x <;> simp [rights, ih]

theorem lefts_left (l : List (List Nat)) : lefts (l.map .left) = l ∧ rights (l.map .left) = [] ∧ lefts (l.map .right) = [] ∧ rights (l.map .right) = l ∧
    lefts (l.map .both) = l ∧ rights (l.map .both) = l := by
  induction l with
  | nil => exact ⟨rfl, rfl, rfl, rfl, rfl, rfl⟩
  | cons x l ih => simp [lefts, rights, ih]

theorem take_get_drop (l : List (List Nat)) (a : Nat) : l.take a ++ (l[a]?.toList ++ l.drop (a + 1)) = l := by
  induction l generalizing a with
  | nil => simp
  | cons x l ih =>
    cases a with
    | zero => simp
    | succ a => simp [ih a]

theorem diffLoop_ends (n : Nat) : ∀ (l r : List (List Nat)), l.length < n → ∃ o, diffLoop n l r = some o ∧ lefts o = l ∧ rights o = r := by
  induction n with
  | zero => intro l r h; omega
  | succ n ih =>
    intro l r h
    have htr : lefts (trailing l r) = l ∧ rights (trailing l r) = r := by
      unfold trailing
      rw [lefts_append, rights_append, (lefts_left l).1, (lefts_left l).2.1, (lefts_left r).2.2.1, (lefts_left r).2.2.2.1]
      simp
    unfold diffLoop
    split
    · exact ⟨_, rfl, htr⟩
    · rename_i hne
      have hl : l ≠ [] := fun h => hne (Or.inl h)
      have he := outward_ends (l := l) (r := r) (l.length + r.length + 1) (dist := 0) (by omega) (by omega)
      split
      · rename_i hx; exact absurd hx he
      · exact ⟨_, rfl, htr⟩
      · rename_i a b hx
        obtain ⟨ha, hb, hab⟩ := outward_pair _ hx
        have hlen : (l.drop (a + 1)).length < n := by
          rw [List.length_drop]; omega
        obtain ⟨o, ho, h1, h2⟩ := ih (l.drop (a + 1)) (r.drop (b + 1)) hlen
        refine ⟨_, by rw [ho]; rfl, ?_, ?_⟩
        · simp only [lefts_append, (lefts_left _).1, (lefts_left (r.take b)).2.2.1, (lefts_left l[a]?.toList).2.2.2.2.1, h1, List.append_nil, List.append_assoc]
          exact take_get_drop l a
        · simp only [rights_append, (lefts_left (l.take a)).2.1, (lefts_left (r.take b)).2.2.2.1, (lefts_left l[a]?.toList).2.2.2.2.2, h2, List.nil_append, List.append_assoc]
          rw [hab]
          exact take_get_drop r b

/-- The comparison ends, and its output has every line of both texts exactly once, in order; a line marked as common is in both. -/
theorem C55_diff (l r : List (List Nat)) : ∃ o, diff l r = some o ∧ lefts o = l ∧ rights o = r :=
  diffLoop_ends _ l r (Nat.lt_succ_self _)

example : diff [[1], [2], [3]] [[2], [4], [3]] = some [.left [1], .both [2], .right [4], .both [3]] := by decide

end Pvxs.Props.Txt
