import Verif.Spec.FieldName
import Verif.Lemmas.Config
/-
C70: names of group fields.
-/
namespace Pvxs.Props.Fnm
open Pvxs.FieldName Spec.FieldName
open Wire (Byte)
open Cfg (splitLast splitLast_mid showNat_chars not_mem_of)

/-! ### decimal numbers -/

theorem dec_show {s : Str} {n : Nat} (h : Dec s n) : s = showNat n := by
  induction h with
  | one h => rw [showNat, if_pos h]
  | more hs hn hd ih =>
    rename_i n d
    rw [showNat, if_neg (by omega), show (10 * n + d) / 10 = n by omega, show (10 * n + d) % 10 = d by omega, ← ih]

theorem dec_of_show (n : Nat) : Dec (showNat n) n := by
  induction n using Nat.strongRecOn with
  | ind n ih =>
    rw [showNat]
    split
    · rename_i h; exact Dec.one h
    · rename_i h
      have := Dec.more (ih (n / 10) (by omega)) (by omega) (show n % 10 < 10 by omega)
      rwa [show 10 * (n / 10) + n % 10 = n by omega] at this

theorem digit_of_range {c : Byte} (h : 0x30 ≤ c.toNat ∧ c.toNat ≤ 0x39) : isDigit 10 c = true ∧ isSpace c = false ∧ c ≠ 0x2d ∧ c ≠ 0x2b := by
  have h' : 0x30 ≤ c ∧ c ≤ 0x39 := ⟨UInt8.le_iff_toNat_le.mpr h.1, UInt8.le_iff_toNat_le.mpr h.2⟩
  refine ⟨?_, ?_, ?_, ?_⟩
  · simp only [isDigit, digitVal, if_pos h', decide_eq_true_eq]; omega
  · simp only [isSpace, Bool.or_eq_false_iff, Bool.and_eq_false_iff, decide_eq_false_iff_not, beq_eq_false_iff_ne]
    refine ⟨?_, Or.inr ?_⟩
    · rintro rfl; simp at h
    · intro hc; have := UInt8.le_iff_toNat_le.mp hc; simp at this; omega
  · rintro rfl; simp at h
  · rintro rfl; simp at h

theorem all_show (n : Nat) : (showNat n).all (isDigit 10) = true := by
  rw [List.all_eq_true]
  exact fun c hc => (digit_of_range (showNat_chars n c hc)).1

theorem takeWhile_app {p : Byte → Bool} {a : Str} (h : a.all p = true) {c : Byte} (hc : p c = false) (b : Str) :
    (a ++ c :: b).takeWhile p = a ∧ (a ++ c :: b).dropWhile p = c :: b := by
  induction a with
  | nil => simp [List.takeWhile_cons, List.dropWhile_cons, hc]
  | cons x a ih =>
    simp only [List.all_cons, Bool.and_eq_true] at h
    simp [List.takeWhile_cons, List.dropWhile_cons, h.1, ih h.2]

theorem strtol_show (n : Nat) (hn : n < 2 ^ 32) (t : Str) : strtol (showNat n ++ 0x5d :: t) = ((n : Int), 0x5d :: t) := by
  have hne : showNat n ≠ [] := showNat_ne n
  have hv : digitsVal 10 (showNat n) = n := ((digits_iff (by omega) _ _).mp (showNat_digits n)).2.2
  obtain ⟨e1, e2⟩ := takeWhile_app (all_show n) (c := 0x5d) (by decide) t
  have e3 : (showNat n ++ 0x5d :: t).dropWhile isSpace = showNat n ++ 0x5d :: t := by
    cases hs : showNat n with
    | nil => exact absurd hs hne
    | cons a r =>
      have := (digit_of_range (showNat_chars n a (by simp [hs]))).2.1
      simp [List.dropWhile_cons, this]
  have e4 : strtolDigits false (showNat n ++ 0x5d :: t) = ((n : Int), 0x5d :: t) := by
    simp only [strtolDigits, e1, e2, hv]
    rw [if_neg (by simp), if_neg (by omega)]
  unfold strtol
  rw [e3]
  cases hs : showNat n with
  | nil => exact absurd hs hne
  | cons a r =>
    have hd := digit_of_range (showNat_chars n a (by simp [hs]))
    rw [hs] at e1 e4
    simp only [List.cons_append] at e1 e4 ⊢
    split
    · rename_i h; simp only [List.cons.injEq] at h; exact absurd h.1 hd.2.2.1
    · rename_i h; simp only [List.cons.injEq] at h; exact absurd h.1 hd.2.2.2
    · rw [e1, if_neg (by simp), e4]

/-! ### one part -/

/-- the component a part stands for -/
def comp (n : Str) : Option Nat → Comp
  | none => { name := n }
  | some i => { name := n, index := i }

theorem part_parse {s n : Str} {i : Option Nat} (h : Part s n i) :
    parsePart s = .ok (comp n i) ∧ showComp (comp n i) = s ∧ s ≠ [] ∧ (0x2e : Byte) ∉ s := by
  cases h with
  | plain h0 h1 h2 =>
    refine ⟨?_, ?_, h0, h1⟩
    · simp only [parsePart, if_neg h0, if_neg h2]; rfl
    · simp [showComp, comp, Comp.isArray]
  | index h1 hd hi =>
    rename_i ds i
    have hds := dec_show hd
    subst hds
    have hsh : n ++ [0x5b] ++ showNat i ++ [0x5d] = n ++ 0x5b :: (showNat i ++ [0x5d]) := by simp
    rw [hsh]
    have hb : (0x5b : Byte) ∉ showNat i ++ [0x5d] := by
      intro hm
      rcases List.mem_append.mp hm with hm | hm
      · have := showNat_chars i _ hm; simp at this
      · simp at hm
    have hdot : (0x2e : Byte) ∉ showNat i := by
      intro hm
      have := showNat_chars i _ hm; simp at this
    refine ⟨?_, ?_, by simp, ?_⟩
    · unfold parsePart
      rw [if_neg (by simp), if_pos (by simp [List.getLast?_cons]), splitLast_mid _ hb]
      simp only [strtol_show i (by omega) [], List.head?_cons, ne_eq, not_true_eq_false, if_false, comp]
      congr 2
      omega
    · have hx : (i != 2 ^ 32 - 1) = true := by simp; omega
      simp only [showComp, comp, Comp.isArray, hx, if_true]
    · simp only [List.mem_append, List.mem_cons, not_or]
      exact ⟨h1, by decide, hdot, by decide, by simp⟩

/-! ### parts of a name -/

theorem getlines_one {c : Byte} {s : Str} (h0 : s ≠ []) (h : c ∉ s) : getlines c s = [s] := by
  induction s with
  | nil => exact absurd rfl h0
  | cons x s ih =>
    simp only [List.mem_cons, not_or] at h
    rw [getlines, if_neg (Ne.symm h.1)]
    cases s with
    | nil => rfl
    | cons y s => rw [ih (by simp) h.2]

theorem getlines_app {c : Byte} {s : Str} (h : c ∉ s) (t : Str) : getlines c (s ++ c :: t) = s :: getlines c t := by
  induction s with
  | nil => simp [getlines]
  | cons x s ih =>
    simp only [List.mem_cons, not_or] at h
    rw [List.cons_append, getlines, if_neg (Ne.symm h.1), ih h.2]

theorem name_ne {s : Str} {l : List (Str × Option Nat)} (h : Name s l) : s ≠ [] ∧ l ≠ [] := by
  cases h with
  | one h => exact ⟨(part_parse h).2.2.1, by simp⟩
  | more h _ => exact ⟨by simp, by simp⟩

theorem comps_cons (n : Str) (i : Option Nat) (l : List (Str × Option Nat)) : comps ((n, i) :: l) = comp n i :: comps l := by
  cases i <;> rfl

theorem name_parts {s : Str} {l : List (Str × Option Nat)} (h : Name s l) :
    parseParts (getlines 0x2e s) = .ok (comps l) ∧ showComps (comps l) = s := by
  induction h with
  | one h =>
    obtain ⟨h1, h2, h3, h4⟩ := part_parse h
    rw [getlines_one h3 h4, comps_cons]
    simp only [parseParts, h1]
    exact ⟨rfl, h2⟩
  | more h ht ih =>
    obtain ⟨h1, h2, h3, h4⟩ := part_parse h
    rename_i s n t i l
    rw [show s ++ [0x2e] ++ t = s ++ 0x2e :: t by simp, getlines_app h4, comps_cons]
    simp only [parseParts, h1, ih.1]
    refine ⟨rfl, ?_⟩
    cases hl : comps l with
    | nil => exact absurd hl (by have := (name_ne ht).2; cases l with | nil => exact absurd rfl this | cons p l => simp [comps])
    | cons c cs => rw [showComps, ← hl, ih.2, h2]; simp

/-! ### C70 -/

/-- C70, what is proved of it: a name which is written as documented is understood as its parts, and is printed as it was written.
    Missing: names which are not written in this way are not all refused, see `C70_lenient`. -/
theorem C70_partial (s : Str) (l : List (Str × Option Nat)) (h : Name s l) :
    parse s = .ok (comps l) ∧ Pvxs.FieldName.toString (comps l) = s := by
  obtain ⟨h1, h2⟩ := name_parts h
  obtain ⟨h3, h4⟩ := name_ne h
  have hc : comps l ≠ [] := by cases l with | nil => exact absurd rfl h4 | cons p l => simp [comps]
  constructor
  · simp [parse, h3, h1, hc]
  · simp [Pvxs.FieldName.toString, hc, h2]

/-- and so a name has one meaning -/
theorem C70_unique_partial (s : Str) (l l' : List (Str × Option Nat)) (h : Name s l) (h' : Name s l') : comps l = comps l' := by
  have h1 := (C70_partial s l h).1
  rw [(C70_partial s l' h').1] at h1
  exact (Res.ok.inj h1).symm

/-- conversely, every list of parts which a name can have is what some name is understood as -/
theorem C70_all_partial (c : Comp) (cs : List Comp)
    (hc : ∀ d ∈ c :: cs, d.index < 2 ^ 32 ∧ (0x2e : Byte) ∉ d.name ∧
      (d.index = 2 ^ 32 - 1 → d.name ≠ [] ∧ d.name.getLast? ≠ some 0x5d)) :
    parse (Pvxs.FieldName.toString (c :: cs)) = .ok (c :: cs) := by
  have key : ∀ (d : Comp), (d.index < 2 ^ 32 ∧ (0x2e : Byte) ∉ d.name ∧
      (d.index = 2 ^ 32 - 1 → d.name ≠ [] ∧ d.name.getLast? ≠ some 0x5d)) →
      ∃ i, comp d.name i = d ∧ Part (showComp d) d.name i := by
    intro d ⟨h1, h2, h3⟩
    by_cases hi : d.index = 2 ^ 32 - 1
    · refine ⟨none, by cases d; simp only [comp] at *; rw [hi], ?_⟩
      have : showComp d = d.name := by simp [showComp, Comp.isArray, hi]
      rw [this]
      exact Part.plain (h3 hi).1 h2 (h3 hi).2
    · refine ⟨some d.index, rfl, ?_⟩
      have : showComp d = d.name ++ [0x5b] ++ showNat d.index ++ [0x5d] := by
        simp [showComp, Comp.isArray, hi]
      rw [this]
      exact Part.index h2 (dec_of_show _) (by omega)
  have main : ∀ (cs : List Comp) (c : Comp), (∀ d ∈ c :: cs, d.index < 2 ^ 32 ∧ (0x2e : Byte) ∉ d.name ∧
      (d.index = 2 ^ 32 - 1 → d.name ≠ [] ∧ d.name.getLast? ≠ some 0x5d)) →
      ∃ l, comps l = c :: cs ∧ Name (showComps (c :: cs)) l := by
    intro cs
    induction cs with
    | nil =>
      intro c hc
      obtain ⟨i, h1, h2⟩ := key c (hc c (by simp))
      exact ⟨[(c.name, i)], by rw [comps_cons, h1]; rfl, Name.one h2⟩
    | cons c' cs ih =>
      intro c hc
      obtain ⟨i, h1, h2⟩ := key c (hc c (by simp))
      obtain ⟨l, h3, h4⟩ := ih c' (fun d hd => hc d (List.mem_cons_of_mem _ hd))
      refine ⟨(c.name, i) :: l, by rw [comps_cons, h1, h3], ?_⟩
      have := Name.more h2 h4
      rw [show showComps (c :: c' :: cs) = showComp c ++ [0x2e] ++ showComps (c' :: cs) by simp [showComps]]
      exact this
  obtain ⟨l, h1, h2⟩ := main cs c hc
  have := (C70_partial _ l h2).1
  rw [h1] at this
  simpa [Pvxs.FieldName.toString] using this

/-- the empty name is the group itself, and is printed as `/` -/
theorem C70_root_partial : parse [] = .ok [] ∧ Pvxs.FieldName.toString [] = [0x2f] := ⟨rfl, rfl⟩

/-- what is refused: an empty part before a dot, wherever it is -/
theorem C70_empty_part_partial (s t : Str) (l : List (Str × Option Nat)) (h : s = [] ∨ ∃ u, s = u ++ [0x2e] ∧ Name u l) :
    parse (s ++ 0x2e :: t) = .throws "Empty field component" := by
  have emp : ∀ t : Str, parseParts (getlines 0x2e (0x2e :: t)) = .throws "Empty field component" := by
    intro t; simp [getlines, parseParts, parsePart]
  have main : ∀ {u : Str} {l : List (Str × Option Nat)}, Name u l →
      parseParts (getlines 0x2e (u ++ 0x2e :: 0x2e :: t)) = .throws "Empty field component" := by
    intro u l hu
    induction hu with
    | one h =>
      obtain ⟨h1, _, _, h4⟩ := part_parse h
      rw [getlines_app h4]
      simp only [parseParts, h1, emp]
      rfl
    | @more s n v i l h _ ih =>
      obtain ⟨h1, _, _, h4⟩ := part_parse h
      rw [show s ++ [0x2e] ++ v ++ 0x2e :: 0x2e :: t = s ++ 0x2e :: (v ++ 0x2e :: 0x2e :: t) by simp, getlines_app h4]
      simp only [parseParts, h1, ih]
      rfl
  rcases h with rfl | ⟨u, rfl, hu⟩
  · simp only [parse, List.nil_append]
    rw [if_neg (by simp), emp]
    rfl
  · rw [show u ++ [0x2e] ++ 0x2e :: t = u ++ 0x2e :: 0x2e :: t by simp]
    simp only [parse]
    rw [if_neg (by simp), main hu]
    rfl

/-- "a" -/
def a : Str := [0x61]

/-- What is accepted although it is not written as documented: `a[]` is the element 0, `a[-1]` is not an array at all, and `a[4294967297]`
    is the element 1; what is between the first and the last `]` is ignored, and so is a dot at the end.  None of these is printed as
    it was written. -/
theorem C70_lenient :
    parse (a ++ [0x5b, 0x5d]) = .ok [{ name := a, index := 0 }] ∧
    parse (a ++ [0x5b, 0x2d, 0x31, 0x5d]) = .ok [{ name := a }] ∧
    parse (a ++ [0x5b, 0x34, 0x32, 0x39, 0x34, 0x39, 0x36, 0x37, 0x32, 0x39, 0x37, 0x5d]) = .ok [{ name := a, index := 1 }] ∧
    parse (a ++ [0x5b, 0x31, 0x5d, 0x78, 0x5d]) = .ok [{ name := a, index := 1 }] ∧
    parse (a ++ [0x2e]) = .ok [{ name := a }] := by decide

/-! ### the hypotheses are met -/

/-- `a.b[12].c` -/
example : Name (a ++ [0x2e] ++ ([0x62, 0x5b, 0x31, 0x32, 0x5d] ++ [0x2e] ++ [0x63]))
    [(a, none), ([0x62], some 12), ([0x63], none)] :=
  Name.more (Part.plain (by decide) (by decide) (by decide))
    (Name.more (Part.index (n := [0x62]) (ds := [0x31] ++ [0x32]) (by decide) (Dec.more (n := 1) (d := 2) (Dec.one (d := 1) (by decide)) (by decide) (by decide)) (by decide))
      (Name.one (Part.plain (by decide) (by decide) (by decide))))
example : parse (a ++ [0x2e, 0x62, 0x5b, 0x31, 0x32, 0x5d, 0x2e, 0x63]) =
    .ok [{ name := a }, { name := [0x62], index := 12 }, { name := [0x63] }] := by decide
example : parse (a ++ [0x5b, 0x78, 0x5d]) = .throws "Invalid field array sub-script" := by decide
example : parse (a ++ 0x2e :: 0x2e :: a) = .throws "Empty field component" :=
  C70_empty_part_partial (a ++ [0x2e]) a _ (Or.inr ⟨a, rfl, Name.one (Part.plain (by decide) (by decide) (by decide))⟩)

end Pvxs.Props.Fnm
