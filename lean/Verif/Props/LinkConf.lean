import Verif.Spec.LinkConf
namespace Pvxs.Props.LinkConf
open Pvxs.LinkConf Pvxs.Spec.LinkConf

/-! ### maps within the map are ignored -/

mutual
theorem deep (j : J) (p : P) (h : 2 ≤ p.depth) : ∃ k, (toks j).foldl step p = { p with jkey := k } := by
  have h1 : p.depth ≠ 1 := by omega
  have h0 : ¬ (p.depth = 0 ∨ (p.depth = 1 ∧ p.jkey = "pv")) := by omega
  cases j with
  | null => exact ⟨"", by simp [toks, step, setNull, h1]⟩
  | bool b => exact ⟨"", by simp [toks, step, setBool, h1]⟩
  | int v => exact ⟨"", by simp [toks, step, setInt, h1]⟩
  | str s => exact ⟨"", by simp only [toks, List.foldl_cons, List.foldl_nil, step, setStr, if_neg h0, if_pos (show p.depth > 1 by omega)]⟩
  | map ms =>
    obtain ⟨k, hk⟩ := deepMembers ms { p with depth := p.depth + 1 } (by show 2 ≤ p.depth + 1; omega)
    refine ⟨k, ?_⟩
    simp only [toks, List.foldl_cons, List.foldl_append, List.foldl_nil]
    rw [show step p .startMap = { p with depth := p.depth + 1 } from rfl, hk]
    rfl
theorem deepMembers (ms : Ms) (p : P) (h : 2 ≤ p.depth) : ∃ k, (members ms).foldl step p = { p with jkey := k } := by
  cases ms with
  | nil => exact ⟨p.jkey, rfl⟩
  | cons k v more =>
    obtain ⟨k1, h1⟩ := deep v { p with jkey := k } h
    obtain ⟨k2, h2⟩ := deepMembers more { p with jkey := k1 } h
    refine ⟨k2, ?_⟩
    simp only [members, List.foldl_cons, List.foldl_append]
    rw [show step p (.key k) = { p with jkey := k } from rfl, h1]
    exact h2
end

theorem option_map (c : Conf) (k : String) (ms : Ms) : option c k (.map ms) = c := by
  unfold option; split <;> first | rfl | simp_all

theorem option_null (c : Conf) (k : String) (hf : Fine k .null) : setNull { conf := c, depth := 1, jkey := k } = option c k .null := by
  by_cases h1 : k = "proc"
  · subst h1; rfl
  · by_cases h2 : k = "sevr"
    · subst h2; exact hf.elim
    · by_cases h3 : k = "local"
      · subst h3; exact hf.elim
      · have : option c k .null = c := by unfold option; split <;> simp_all
        rw [this]
        simp [setNull, h1, h2, h3]

theorem option_bool (c : Conf) (k : String) (b : Bool) : setBool { conf := c, depth := 1, jkey := k } b = option c k (.bool b) := by
  by_cases h1 : k = "proc"
  · subst h1; cases b <;> rfl
  by_cases h2 : k = "sevr"
  · subst h2; cases b <;> rfl
  by_cases h3 : k = "defer"
  · subst h3; rfl
  by_cases h4 : k = "pipeline"
  · subst h4; rfl
  by_cases h5 : k = "time"
  · subst h5; rfl
  by_cases h6 : k = "retry"
  · subst h6; rfl
  by_cases h7 : k = "local"
  · subst h7; rfl
  by_cases h8 : k = "always"
  · subst h8; rfl
  by_cases h9 : k = "atomic"
  · subst h9; rfl
  have : option c k (.bool b) = c := by unfold option; split <;> simp_all
  rw [this]
  simp [setBool, h1, h2, h3, h4, h5, h6, h7, h8, h9]

theorem option_int (c : Conf) (k : String) (v : Int) (hf : Fine k (.int v)) : setInt { conf := c, depth := 1, jkey := k } v = option c k (.int v) := by
  by_cases h1 : k = "Q"
  · subst h1
    have : 1 ≤ v ∧ v < 2 ^ 63 := hf
    show ({ c with queueSize := if v < 1 then 1 else v.toNat } : Conf) = { c with queueSize := v.toNat }
    rw [if_neg (by omega)]
  by_cases h2 : k = "monorder"
  · subst h2
    have : -1024 ≤ v ∧ v ≤ 1024 := hf
    show ({ c with monorder := max (-1024) (min (toInt32 v) 1024) } : Conf) = { c with monorder := v }
    have : max (-1024) (min (toInt32 v) 1024) = v := by unfold toInt32; omega
    rw [this]
  have : option c k (.int v) = c := by unfold option; split <;> simp_all
  rw [this]
  simp [setInt, h1, h2]

theorem option_str (c : Conf) (k : String) (s : String) (hf : Fine k (.str s)) : setStr { conf := c, depth := 1, jkey := k } s = option c k (.str s) := by
  by_cases h1 : k = "pv"
  · subst h1; rfl
  by_cases h2 : k = "field"
  · subst h2; rfl
  by_cases h3 : k = "proc"
  · subst h3
    have hs : s ≠ "" := hf
    by_cases e1 : s = "CP"
    · subst e1; rfl
    by_cases e2 : s = "CPP"
    · subst e2; rfl
    by_cases e3 : s = "PP"
    · subst e3; rfl
    by_cases e4 : s = "NPP"
    · subst e4; rfl
    have : option c "proc" (.str s) = c := by unfold option; split <;> simp_all
    rw [this]
    simp [setStr, hs, e1, e2, e3, e4]
  by_cases h4 : k = "sevr"
  · subst h4
    have hs : s ≠ "MSS" := hf
    by_cases e1 : s = "NMS"
    · subst e1; rfl
    by_cases e2 : s = "MS"
    · subst e2; rfl
    by_cases e3 : s = "MSI"
    · subst e3; rfl
    have : option c "sevr" (.str s) = c := by unfold option; split <;> simp_all
    rw [this]
    simp [setStr, hs, e1, e2, e3]
  have : option c k (.str s) = c := by unfold option; split <;> simp_all
  rw [this]
  simp [setStr, h1, h2, h3, h4]

theorem member (k : String) (v : J) (c : Conf) (hf : Fine k v) :
    ∃ k', (toks v).foldl step { conf := c, depth := 1, jkey := k } = { conf := option c k v, depth := 1, jkey := k' } := by
  cases v with
  | map ms =>
    obtain ⟨k1, h1⟩ := deepMembers ms { conf := c, depth := 2, jkey := k } (Nat.le_refl 2)
    refine ⟨k1, ?_⟩
    simp only [toks, List.foldl_cons, List.foldl_append, List.foldl_nil]
    rw [show step { conf := c, depth := 1, jkey := k } .startMap = { conf := c, depth := 2, jkey := k } from rfl, h1, option_map]
    rfl
  | null => exact ⟨"", by rw [← option_null c k hf]; rfl⟩
  | bool b => exact ⟨"", by rw [← option_bool c k b]; rfl⟩
  | int v => exact ⟨"", by rw [← option_int c k v hf]; rfl⟩
  | str s => exact ⟨"", by rw [← option_str c k s hf]; rfl⟩

theorem all (ms : Ms) (hf : AllFine ms) : ∀ (c : Conf) (k : String),
    ∃ k', (members ms).foldl step { conf := c, depth := 1, jkey := k } = { conf := options c ms, depth := 1, jkey := k' } := by
  match ms with
  | .nil => exact fun c k => ⟨k, rfl⟩
  | .cons key v more =>
    intro c k
    obtain ⟨k1, h1⟩ := member key v c hf.1
    obtain ⟨k2, h2⟩ := all more hf.2 (option c key v) k1
    refine ⟨k2, ?_⟩
    simp only [members, List.foldl_cons, List.foldl_append]
    rw [show step { conf := c, depth := 1, jkey := k } (.key key) = { conf := c, depth := 1, jkey := key } from rfl, h1]
    exact h2

/-- C89: the options of a link are those of its JSON text, as documented; what is not documented, and maps in the map, change
nothing. Missing: values for which `Fine` does not hold, see below. -/
theorem C89_options_partial (ms : Ms) (hf : AllFine ms) : parse (.map ms) = options defaults ms := by
  obtain ⟨k, hk⟩ := all ms hf {} ""
  unfold parse
  simp only [toks, List.foldl_cons, List.foldl_append, List.foldl_nil]
  rw [show step {} .startMap = { conf := {}, depth := 1, jkey := "" } from rfl, hk]
  rfl

/-- C89: a text is the name of the target. -/
theorem C89_short (s : String) : parse (.str s) = { defaults with pv := s } := rfl

/-- the members of a map -/
def pairs : Ms → List (String × J)
  | .nil => []
  | .cons k v more => (k, v) :: pairs more

/-- C89: members with other keys do not change the order in which documents are read: an option is that of the last member
with its key. Here for the name of the target. -/
theorem C89_last (ms : Ms) (c : Conf) (h : ∀ s, ("pv", .str s) ∉ pairs ms) : (options c ms).pv = c.pv := by
  match ms with
  | .nil => rfl
  | .cons k v more =>
    have h1 : (option c k v).pv = c.pv := by
      unfold option
      split <;> first
        | rfl
        | (rename_i s; exact absurd (List.mem_cons_self) (h s))
    have h2 := C89_last more (option c k v) (fun s hm => h s (List.mem_cons_of_mem _ hm))
    show (options (option c k v) more).pv = _
    rw [h2, h1]

/-! ### what does not hold -/

/-- `MSS` is documented as equivalent to `MSI`, but is taken as `MS`. -/
theorem C89_mss : (parse (.map (.cons "sevr" (.str "MSS") .nil))).sevr = .ms ∧ (options defaults (.cons "sevr" (.str "MSS") .nil)).sevr = .msi := by
  constructor <;> rfl

/-- `monorder` is cut to the range from -1024 to 1024, so that the order of links beyond is lost; and still larger numbers
change their sign. -/
theorem C89_monorder : (∀ v : Int, 1024 ≤ v → v < 2 ^ 31 → (parse (.map (.cons "monorder" (.int v) .nil))).monorder = 1024) ∧
    (parse (.map (.cons "monorder" (.int (2 ^ 31)) .nil))).monorder = -1024 := by
  refine ⟨?_, by rfl⟩
  intro v h1 h2
  show max (-1024) (min (toInt32 v) 1024) = 1024
  unfold toInt32; omega

/-- the hypotheses are met -/
example : AllFine (.cons "pv" (.str "a:b") (.cons "proc" (.str "CP") (.cons "x" (.map (.cons "pv" (.str "c") .nil)) (.cons "monorder" (.int 5) .nil)))) ∧
    parse (.map (.cons "pv" (.str "a:b") (.cons "proc" (.str "CP") (.cons "x" (.map (.cons "pv" (.str "c") .nil)) (.cons "monorder" (.int 5) .nil))))) =
      { pv := "a:b", proc := .cp, monorder := 5 } := by
  refine ⟨⟨trivial, ?_, trivial, ?_, trivial⟩, by decide⟩
  · show "CP" ≠ ""; decide
  · show (-1024 : Int) ≤ 5 ∧ (5 : Int) ≤ 1024; omega

end Pvxs.Props.LinkConf
