import Verif.Spec.Print
import Verif.Props.Lookup
import Verif.Props.Text
import Verif.Lemmas.Config
/-
C99: a value printed.
-/
namespace Pvxs.Props.Prt
open Pvxs Pvxs.Spec Pvxs.Spec.Prt Pvxs.Print Pvxs.Props.Lkp Pvxs.NT Wire

/-! ### names of fields -/

theorem root_struct {t : List FieldDesc} (hu : Usable t) : ∀ (j : Nat), 0 < j → j < t.length → ∃ d, t[0]? = some d ∧ d.code = .Struct := by
  intro j
  induction j using Nat.strongRecOn with
  | ind j ih =>
    intro h0 hl
    obtain ⟨h1, h2, p, hp, hs, _⟩ := ((table_of hu).1 j _ (List.getElem?_eq_getElem hl)).parent h0
    by_cases hz : j - (t[j]).parentIndex = 0
    · rw [hz] at hp; exact ⟨p, hp, hs⟩
    · exact ih _ (by omega) (by omega) (List.getElem?_eq_some_iff.mp hp).1

theorem covered_range {t : List FieldDesc} (hu : Usable t) {v : Nat → Bool} {j : Nat} (hj : CoveredBelow t v 0 j) : 0 < j ∧ j < t.length := by
  obtain ⟨b, hb0, _, _, ⟨e2, he2, hb3, hb4⟩⟩ := hj
  have := ((table_of hu).1 b e2 he2).inside
  omega

theorem name_of {t : List FieldDesc} (hu : Usable t) {v : Nat → Bool} {j : Nat} (hj : CoveredBelow t v 0 j) :
    ∃ ps, ps ≠ [] ∧ nameOf t j = .ok (joinDots ps) ∧ Descends t 0 ps j := by
  obtain ⟨h0, hl⟩ := covered_range hu hj
  obtain ⟨d, hd, hs⟩ := root_struct hu j h0 hl
  obtain ⟨m, rfl, hf⟩ := usable_flat hu
  obtain ⟨d', ds, h1, h2, _⟩ := flat_head m
  have hms : m.code = .Struct := by
    rw [h1] at hd
    cases hd
    exact h2 ▸ hs
  rw [flat_length, count_struct m hms] at hl
  obtain ⟨k, hk⟩ := entry_exists m hf hms j h0 (by omega)
  have hlen := hf hms
  have hfind : ∃ p, List.find? (fun p => p.2 == j) (lookOf m) = some p := by
    cases h : List.find? (fun p => p.2 == j) (lookOf m) with
    | some p => exact ⟨p, rfl⟩
    | none =>
      rw [List.find?_eq_none] at h
      exact absurd (show ((k, j) : Str × Nat).2 == j by simp) (h _ hk)
  obtain ⟨p, hpf⟩ := hfind
  have hpm := List.mem_of_find?_eq_some hpf
  have hpj : p.2 = j := by
    have := List.find?_some hpf
    simpa using this
  obtain ⟨ps, h3, h4, h5⟩ := (lookOf_descends m hf hms p.1 p.2).mp hpm
  refine ⟨ps, h3, ?_, hpj ▸ h5⟩
  rw [flat_struct m hms]
  show (if j = 0 ∨ (structRoot m).mlookup.length < j then _ else _) = _
  rw [if_neg (by show ¬ (j = 0 ∨ (lookOf m).length < j); omega)]
  show (match List.find? (fun p => p.2 == j) (lookOf m) with | none => _ | some p => Res.ok p.1) = _
  rw [hpf, ← h4]

theorem covered_iff {t : List FieldDesc} (hu : Usable t) (v : Nat → Bool) (j : Nat) : j ∈ imarked t v 0 ↔ CoveredBelow t v 0 j := by
  constructor
  · intro h
    unfold imarked at h
    cases hd : t[0]? with
    | none => rw [hd] at h; simp at h
    | some d =>
      rw [hd] at h
      by_cases hs : d.code = .Struct
      · exact ((C16_imarked t hu v 0 d hd hs).1 j).mp (by unfold imarked; rw [hd]; exact h)
      · simp [hs] at h
  · intro h
    obtain ⟨h0, hl⟩ := covered_range hu h
    obtain ⟨d, hd, hs⟩ := root_struct hu j h0 hl
    exact ((C16_imarked t hu v 0 d hd hs).1 j).mpr h

/-! ### where a name leads -/

/-- what may follow -/
def Next (dot : Bool) (s : Str) : Prop := NameEnds s ∨ (dot = true ∧ ∃ r, s = 0x2e :: r)

/-- `pre`, followed by something, leads from `H` to what the latter leads to from `h` -/
def Ext (H : Handle) (pre : Str) (dot : Bool) (h : Handle) : Prop :=
  ∀ s h', Next dot s → Leads dot h s h' → Leads false H (pre ++ s) h'

theorem Ext.here {H h : Handle} {pre : Str} {dot : Bool} (e : Ext H pre dot h) : Leads false H pre h := by
  have := e [] h (Or.inl (Or.inl rfl)) (.here dot h)
  rwa [List.append_nil] at this

theorem ext_choice {H h : Handle} {pre : Str} {dot : Bool} (e : Ext H pre dot h) {d : FieldDesc} {i : Nat} {t : List FieldDesc}
    {cs : List Cell} (hx : At h d (.union i (.mk t cs))) {name : Str} {off : Nat} (hi : d.miter[i]? = some (name, off)) :
    Ext H (pre ++ [0x2d, 0x3e] ++ name) true ⟨t, cs, 0⟩ := by
  intro s h' hs hl
  have := e (0x2d :: 0x3e :: (name ++ s)) h' (Or.inl (Or.inr ⟨_, Or.inr (Or.inr rfl)⟩))
    (.choice dot h h' d name off i t cs s hx hi (hs.elim Or.inl fun h => Or.inr h.2) hl)
  simpa using this

theorem ext_any {H h : Handle} {pre : Str} {dot : Bool} (e : Ext H pre dot h) {d : FieldDesc} {t : List FieldDesc}
    {cs : List Cell} (hx : At h d (.any (.mk t cs))) : Ext H (pre ++ [0x2d, 0x3e]) false ⟨t, cs, 0⟩ := by
  intro s h' hs hl
  have := e (0x2d :: 0x3e :: s) h' (Or.inl (Or.inr ⟨_, Or.inr (Or.inr rfl)⟩)) (.any dot h h' d t cs s hx hl)
  simpa using this

theorem showNat_bracket (n : Nat) : (0x5d : Byte) ∉ showNat n := fun h => by
  have := Cfg.showNat_chars n _ h
  revert this; decide

theorem ext_element {H h : Handle} {pre : Str} {dot : Bool} (e : Ext H pre dot h) {d : FieldDesc} {vs : List Val} {n : Nat} {t : List FieldDesc}
    {cs : List Cell} (hx : At h d (.vals vs)) (hn : n < 2 ^ 64) (hv : vs[n]? = some (.mk t cs)) :
    Ext H (pre ++ 0x5b :: (showNat n ++ [0x5d])) true ⟨t, cs, 0⟩ := by
  intro s h' hs hl
  have := e (0x5b :: (showNat n ++ 0x5d :: s)) h' (Or.inl (Or.inr ⟨_, Or.inr (Or.inl rfl)⟩))
    (.element dot h h' d vs (showNat n) n t cs s hx ((index_text _ _).mp (Scl.C58_text_roundtrip_unsigned n hn)) (showNat_bracket n) hv hl)
  simpa using this

theorem ext_member {t : List FieldDesc} {cs : List Cell} {j : Nat} {ps : List Str} (hne : ps ≠ []) (hd : Descends t 0 ps j) :
    Ext ⟨t, cs, 0⟩ (joinDots ps) false ⟨t, cs, j⟩ := by
  intro s h' hs hl
  rcases hs with hs | ⟨h, _⟩
  · exact .member ⟨t, cs, 0⟩ h' ps j s hne hd hs hl
  · cases h

theorem ext_dotted {H : Handle} {pre : Str} {t : List FieldDesc} {cs : List Cell} (e : Ext H pre true ⟨t, cs, 0⟩) {j : Nat} {ps : List Str}
    (hne : ps ≠ []) (hjn : joinDots ps ≠ []) (hd : Descends t 0 ps j) : Ext H (pre ++ [0x2e] ++ joinDots ps) false ⟨t, cs, j⟩ := by
  intro s h' hs hl
  rcases hs with hs | ⟨h, _⟩
  · obtain ⟨d, h1, h2⟩ := descends_struct hd hne
    have := e (0x2e :: (joinDots ps ++ s)) h' (Or.inr ⟨rfl, _, rfl⟩)
      (.dotted ⟨t, cs, 0⟩ h' d _ h1 h2 (by simp [hjn]) (.member ⟨t, cs, 0⟩ h' ps j s hne hd hs hl))
    simpa using this
  · cases h

/-! ### lines -/

/-- the line for the field at `h` -/
def LineOf (o : Opts) (H h : Handle) (l : Line) : Prop :=
  ∃ d x, At h d x ∧ Leads false H l.1 h ∧ l.2 = fieldText o l.1.isEmpty d x

/-- the line for something which is not there, at `h` -/
def VoidOf (H h : Handle) (l : Line) : Prop :=
  ∃ d x p suf, At h d x ∧ Leads false H p h ∧ Nothing x suf ∧ l = (p ++ suf, lit " null\n")

/-- the lines are for fields of `R`, or for something which is not there at a field of `N`; and each of `R` has one -/
def Lists (o : Opts) (H : Handle) (R N : Handle → Prop) (ls : List Line) : Prop :=
  (∀ l ∈ ls, (∃ h, R h ∧ LineOf o H h l) ∨ (∃ h, N h ∧ VoidOf H h l)) ∧ ∀ h, R h → ∃ l ∈ ls, LineOf o H h l

theorem Lists.append {o : Opts} {H : Handle} {R N R' N' : Handle → Prop} {ls ls' : List Line} (h : Lists o H R N ls) (h' : Lists o H R' N' ls') :
    Lists o H (fun x => R x ∨ R' x) (fun x => N x ∨ N' x) (ls ++ ls') := by
  refine ⟨fun l hl => ?_, fun x hx => ?_⟩
  · rcases List.mem_append.mp hl with hl | hl
    · rcases h.1 l hl with ⟨y, h1, h2⟩ | ⟨y, h1, h2⟩
      · exact Or.inl ⟨y, Or.inl h1, h2⟩
      · exact Or.inr ⟨y, Or.inl h1, h2⟩
    · rcases h'.1 l hl with ⟨y, h1, h2⟩ | ⟨y, h1, h2⟩
      · exact Or.inl ⟨y, Or.inr h1, h2⟩
      · exact Or.inr ⟨y, Or.inr h1, h2⟩
  · rcases hx with hx | hx
    · obtain ⟨l, h1, h2⟩ := h.2 x hx
      exact ⟨l, List.mem_append_left _ h1, h2⟩
    · obtain ⟨l, h1, h2⟩ := h'.2 x hx
      exact ⟨l, List.mem_append_right _ h1, h2⟩

theorem Lists.iff {o : Opts} {H : Handle} {R N R' N' : Handle → Prop} {ls : List Line} (h : Lists o H R N ls) (hr : ∀ x, R x ↔ R' x)
    (hn : ∀ x, N x → N' x) : Lists o H R' N' ls := by
  refine ⟨fun l hl => ?_, fun x hx => h.2 x ((hr x).mpr hx)⟩
  rcases h.1 l hl with ⟨y, h1, h2⟩ | ⟨y, h1, h2⟩
  · exact Or.inl ⟨y, (hr y).mp h1, h2⟩
  · exact Or.inr ⟨y, hn y h1, h2⟩

theorem Lists.nil {o : Opts} {H : Handle} {N : Handle → Prop} : Lists o H (fun _ => False) N [] :=
  ⟨fun l hl => by simp at hl, fun _ h => h.elim⟩

theorem Lists.void {o : Opts} {H h : Handle} {l : Line} (hv : VoidOf H h l) : Lists o H (fun _ => False) (· = h) [l] :=
  ⟨fun l' hl => Or.inr ⟨h, rfl, by rw [List.mem_singleton.mp hl]; exact hv⟩, fun _ h => h.elim⟩

/-- what the content of the field at `h` lists -/
def Within' (x : Datum) (h' : Handle) : Prop := ∃ v', Inside x v' ∧ Listed true v' h'

/-- the lines of what a field holds -/
def InnerOK (o : Opts) (d : FieldDesc) (x : Datum) (f : Str → Res (List Line)) : Prop :=
  ∀ H h pre dot, At h d x → Ext H pre dot h →
    ∃ ls, f pre = .ok ls ∧ Lists o H (Within' x) (fun y => y = h ∨ Within' x y) ls

/-- the lines of a value inside of another -/
def DeltaOK (o : Opts) (v : Val) : Prop :=
  ∀ t cs, v = .mk t cs → ∀ H pre dot, pre ≠ [] → (dot = false → codeOf v ≠ .Struct) → Ext H pre dot ⟨t, cs, 0⟩ →
    ∃ ls, delta o v pre false = .ok ls ∧ Lists o H (Listed true v) (Listed true v) ls

theorem at_datum {t : List FieldDesc} {cs : List Cell} (hp : ProperCells t cs) {j : Nat} {d : FieldDesc} (hd : t[j]? = some d) :
    At ⟨t, cs, j⟩ d (datumOf cs j) := by
  obtain ⟨m, x, h1, _⟩ := at_of hp hd
  refine ⟨hd, m, ?_⟩
  simp only [datumOf, h1]
  rfl

/-- the handles listed because of one field -/
def Because (t : List FieldDesc) (cs : List Cell) (j : Nat) (y : Handle) : Prop := y = ⟨t, cs, j⟩ ∨ Within' (datumOf cs j) y

theorem field_lists {o : Opts} {t : List FieldDesc} {cs : List Cell} {fs : List (Str → Res (List Line))} (hp : ProperCells t cs)
    (hf : ∀ j d, t[j]? = some d → ∃ f, fs[j]? = some f ∧ InnerOK o d (datumOf cs j) f) {H : Handle} {pre : Str} {verytop dot : Bool} {j : Nat}
    (hj : j < t.length) (hpre : pre.isEmpty = verytop) (e : Ext H pre dot ⟨t, cs, j⟩) :
    ∃ ls, fieldLines o t cs fs pre verytop j = .ok ls ∧ Lists o H (Because t cs j) (Because t cs j) ls := by
  have hd := List.getElem?_eq_getElem hj
  obtain ⟨f, hf1, hf2⟩ := hf j _ hd
  have hat := at_datum hp hd
  obtain ⟨ls, h1, h2⟩ := hf2 H _ pre dot hat e
  refine ⟨(pre, fieldText o verytop t[j] (datumOf cs j)) :: ls, ?_, ?_⟩
  · simp only [fieldLines, hd, hf1, ownLine, h1]
    rfl
  · have hown : LineOf o H ⟨t, cs, j⟩ (pre, fieldText o verytop t[j] (datumOf cs j)) := by
      refine ⟨_, _, hat, e.here, ?_⟩
      show _ = fieldText o pre.isEmpty _ _
      rw [hpre]
    refine ⟨fun l hl => ?_, fun y hy => ?_⟩
    · rcases List.mem_cons.mp hl with rfl | hl
      · exact Or.inl ⟨_, Or.inl rfl, hown⟩
      · rcases h2.1 l hl with ⟨y, h3, h4⟩ | ⟨y, h3, h4⟩
        · exact Or.inl ⟨y, Or.inr h3, h4⟩
        · exact Or.inr ⟨y, h3, h4⟩
    · rcases hy with rfl | hy
      · exact ⟨_, List.mem_cons_self, hown⟩
      · obtain ⟨l, h3, h4⟩ := h2.2 y hy
        exact ⟨l, List.mem_cons_of_mem _ h3, h4⟩

theorem members_lists {o : Opts} {t : List FieldDesc} {cs : List Cell} {fs : List (Str → Res (List Line))} (hp : ProperCells t cs)
    (hf : ∀ j d, t[j]? = some d → ∃ f, fs[j]? = some f ∧ InnerOK o d (datumOf cs j) f) {H : Handle} {pre : Str} {verytop : Bool} :
    ∀ (js : List Nat), (∀ j ∈ js, j < t.length ∧ ∃ ps, nameOf t j = .ok (joinDots ps) ∧ joinDots ps ≠ [] ∧
        Ext H (pre ++ (if verytop then [] else [0x2e]) ++ joinDots ps) false ⟨t, cs, j⟩) →
      ∃ ls, memberLines o t cs fs pre verytop js = .ok ls ∧
        Lists o H (fun y => ∃ j ∈ js, Because t cs j y) (fun y => ∃ j ∈ js, Because t cs j y) ls := by
  intro js
  induction js with
  | nil => exact fun _ => ⟨[], rfl, fun l hl => by simp at hl, fun y ⟨j, hj, _⟩ => by simp at hj⟩
  | cons j js ih =>
    intro h
    obtain ⟨hjl, ps, h1, h2, h3⟩ := h j (by simp)
    obtain ⟨ls, h4, h5⟩ := field_lists (verytop := false) hp hf hjl (by rw [List.isEmpty_eq_false_iff]; simp [h2]) h3
    obtain ⟨ls', h6, h7⟩ := ih fun j' hj' => h j' (by simp [hj'])
    refine ⟨ls ++ ls', ?_, (h5.append h7).iff (fun y => ?_) (fun y hy => ?_)⟩
    · simp only [memberLines, h1]
      show (fieldLines o t cs fs _ false j >>= _) = _
      rw [h4]
      show (memberLines o t cs fs pre verytop js >>= _) = _
      rw [h6]
      rfl
    · simp
    · simpa using hy

/-- own fields, and what they hold -/
theorem listed_iff {t : List FieldDesc} (hu : Usable t) {cs : List Cell} (hp : ProperCells t cs) (b : Bool) (y : Handle) :
    Listed b (.mk t cs) y ↔ ((b = true ∨ validAt cs 0 = true) ∧ Because t cs 0 y) ∨ ∃ j ∈ imarked t (validAt cs) 0, Because t cs j y := by
  have hlen : 0 < t.length := by
    obtain ⟨m, rfl, _⟩ := usable_flat hu
    rw [flat_length]; exact count_pos m
  have hat : ∀ j, j < t.length → ∀ d x, At ⟨t, cs, j⟩ d x → x = datumOf cs j := by
    intro j hj d x hx
    exact (at_unique hx (at_datum hp (List.getElem?_eq_getElem hj))).2
  have hown : ∀ h, Own b (.mk t cs) h ↔ ((b = true ∨ validAt cs 0 = true) ∧ h = ⟨t, cs, 0⟩) ∨ ∃ j ∈ imarked t (validAt cs) 0, h = ⟨t, cs, j⟩ := by
    intro h
    constructor
    · intro ho
      cases ho with
      | whole _ _ h => exact Or.inl ⟨h, rfl⟩
      | field _ _ j h => exact Or.inr ⟨j, (covered_iff hu _ j).mpr h, rfl⟩
    · rintro (⟨h, rfl⟩ | ⟨j, hj, rfl⟩)
      · exact .whole _ _ h
      · exact .field _ _ j ((covered_iff hu _ j).mp hj)
  have hl : ∀ j ∈ imarked t (validAt cs) 0, j < t.length := fun j hj => (covered_range hu ((covered_iff hu _ j).mp hj)).2
  constructor
  · intro h
    cases h with
    | own _ _ _ ho =>
      rcases (hown y).mp ho with ⟨h1, rfl⟩ | ⟨j, h1, rfl⟩
      · exact Or.inl ⟨h1, Or.inl rfl⟩
      · exact Or.inr ⟨j, h1, Or.inl rfl⟩
    | inside _ _ h _ d x v' ho ha hi hl' =>
      rcases (hown h).mp ho with ⟨h1, rfl⟩ | ⟨j, h1, rfl⟩
      · exact Or.inl ⟨h1, Or.inr ⟨v', hat 0 hlen d x ha ▸ hi, hl'⟩⟩
      · exact Or.inr ⟨j, h1, Or.inr ⟨v', hat j (hl j h1) d x ha ▸ hi, hl'⟩⟩
  · rintro (⟨h1, rfl | ⟨v', hi, hl'⟩⟩ | ⟨j, h1, rfl | ⟨v', hi, hl'⟩⟩)
    · exact .own _ _ _ ((hown _).mpr (Or.inl ⟨h1, rfl⟩))
    · exact .inside b _ ⟨t, cs, 0⟩ y _ _ v' ((hown _).mpr (Or.inl ⟨h1, rfl⟩)) (at_datum hp (List.getElem?_eq_getElem hlen)) hi hl'
    · exact .own _ _ _ ((hown _).mpr (Or.inr ⟨j, h1, rfl⟩))
    · exact .inside b _ ⟨t, cs, j⟩ y _ _ v' ((hown _).mpr (Or.inr ⟨j, h1, rfl⟩)) (at_datum hp (List.getElem?_eq_getElem (hl j h1))) hi hl'

theorem top_lists {o : Opts} {t : List FieldDesc} {cs : List Cell} {fs : List (Str → Res (List Line))} (hu : Usable t) (hc : ClearNames t)
    (hp : ProperCells t cs) (hf : ∀ j d, t[j]? = some d → ∃ f, fs[j]? = some f ∧ InnerOK o d (datumOf cs j) f) {H : Handle} {pre : Str}
    {dot : Bool} (hpre : pre ≠ []) (hns : dot = false → ∀ d, t[0]? = some d → d.code ≠ .Struct) (e : Ext H pre dot ⟨t, cs, 0⟩) :
    ∃ ls, topLines o t cs fs pre false = .ok ls ∧ Lists o H (Listed true (.mk t cs)) (Listed true (.mk t cs)) ls := by
  have hlen : 0 < t.length := by
    obtain ⟨m, rfl, _⟩ := usable_flat hu
    rw [flat_length]; exact count_pos m
  obtain ⟨ls, h1, h2⟩ := field_lists (verytop := false) hp hf hlen (by rw [List.isEmpty_eq_false_iff]; exact hpre) e
  obtain ⟨ls', h3, h4⟩ := members_lists (o := o) (H := H) (pre := pre) (verytop := false) hp hf (imarked t (validAt cs) 0) (by
    intro j hj
    have hcov := (covered_iff hu _ j).mp hj
    obtain ⟨hj0, hjl⟩ := covered_range hu hcov
    obtain ⟨ps, hne, hn, hd⟩ := name_of hu hcov
    have hjn := (descends_clear hc hd).1 hne
    refine ⟨hjl, ps, hn, hjn, ?_⟩
    cases dot with
    | false =>
      obtain ⟨d, h5, h6⟩ := descends_struct hd hne
      exact absurd h6 (hns rfl d h5)
    | true => exact ext_dotted e hne hjn hd)
  refine ⟨ls ++ ls', ?_, (h2.append h4).iff (fun y => ?_) (fun y hy => ?_)⟩
  · simp only [topLines, Bool.false_and, Bool.false_eq_true, if_false, h1]
    show (memberLines o t cs fs pre false _ >>= _) = _
    rw [h3]; rfl
  · rw [listed_iff hu hp]; simp
  · rw [listed_iff hu hp]; simpa using hy

mutual
theorem delta_ok (o : Opts) : ∀ (v : Val), Proper v → Plain v → DeltaOK o v
  | .null, _, _ => fun t cs e => by cases e
  | .mk t cs, hp, hl => fun t' cs' e H pre dot hpre hns hext => by
    cases e
    simp only [Proper] at hp
    simp only [Plain] at hl
    simp only [delta]
    refine top_lists hp.1 hp.2.1 hp.2.2 (innerCells_ok o t cs hp.2.2 hl) hpre (fun h d hd => ?_) hext
    have := hns h
    cases t with
    | nil => simp at hd
    | cons a t => simp at hd; subst hd; exact this
theorem innerCells_ok (o : Opts) : ∀ (t : List FieldDesc) (cs : List Cell), ProperCells t cs → PlainCells t cs →
    ∀ j d, t[j]? = some d → ∃ f, (innerCells o t cs)[j]? = some f ∧ InnerOK o d (datumOf cs j) f
  | t, [], hp, _ => by
    intro j d hd
    cases t with
    | nil => simp at hd
    | cons a t => simp [ProperCells] at hp
  | t, .mk m x :: cs, hp, hl => by
    intro j d hd
    cases t with
    | nil => simp at hd
    | cons a t =>
      simp only [ProperCells] at hp
      simp only [PlainCells] at hl
      simp only [innerCells]
      cases j with
      | zero =>
        simp at hd
        subst hd
        exact ⟨_, rfl, inner_ok o a x hp.1 hl.1⟩
      | succ j =>
        simp only [List.getElem?_cons_succ] at hd ⊢
        obtain ⟨f, h1, h2⟩ := innerCells_ok o t cs hp.2 hl.2 j d hd
        exact ⟨f, h1, by simpa [datumOf] using h2⟩
theorem inner_ok (o : Opts) (d : FieldDesc) : ∀ (x : Datum), ProperDatum d x → PlainDatum d x → InnerOK o d x (inner o d x)
  | .union i v, hp, hl => by
    intro H h pre dot hat hext
    simp only [ProperDatum] at hp
    simp only [PlainDatum] at hl
    obtain ⟨hcode, hne, ⟨p, hp1, hp2⟩, hpv⟩ := hp
    cases hv : v with
    | null => exact absurd hv hne
    | mk t cs =>
      subst hv
      have hu : Usable t := by simp only [Proper] at hpv; exact hpv.1
      have hoff := hl.1 p hp1
      have hlt : p.2 < d.members.length := by
        apply Classical.byContradiction
        intro hge
        have hnil : d.members.drop p.2 = [] := List.drop_eq_nil_of_le (by omega)
        simp only [Val.desc, subTable, hnil, nodesOf] at hp2
        obtain ⟨m, rfl, _⟩ := usable_flat hu
        have := flat_length m
        have := count_pos m
        rw [hp2] at *
        simp at *
        omega
      obtain ⟨name, off⟩ := p
      simp only at hoff hlt
      subst hoff
      have hname : choiceName d off = .ok name := by
        simp only [choiceName, hp1, if_pos hlt]
      have hext' := ext_choice hext hat hp1
      obtain ⟨ls, h1, h2⟩ := delta_ok o (.mk t cs) hpv hl.2 t cs rfl H _ true (by simp) (by simp) hext'
      refine ⟨ls, ?_, h2.iff (fun y => ⟨fun hy => ⟨_, .choice _ _, hy⟩, ?_⟩) (fun y hy => Or.inr ⟨_, .choice _ _, hy⟩)⟩
      · simp only [inner, hname]; exact h1
      · rintro ⟨v', hi, hy⟩; cases hi; exact hy
  | .unionNull, hp, hl => by
    intro H h pre dot hat hext
    refine ⟨_, by simp only [inner]; rfl, (Lists.void (h := h) ⟨d, _, pre, _, hat, hext.here, .union, rfl⟩).iff (fun y => ⟨False.elim, ?_⟩) (fun y hy => Or.inl hy)⟩
    rintro ⟨v', hi, _⟩; cases hi
  | .any v, hp, hl => by
    intro H h pre dot hat hext
    simp only [ProperDatum] at hp
    simp only [PlainDatum] at hl
    cases hv : v with
    | null =>
      subst hv
      refine ⟨_, by simp only [inner, delta]; rfl, (Lists.void (h := h) ⟨d, _, pre, _, hat, hext.here, .any, rfl⟩).iff (fun y => ⟨False.elim, ?_⟩) (fun y hy => Or.inl hy)⟩
      rintro ⟨v', hi, hy⟩; cases hi
      cases hy with
      | own _ _ _ ho => cases ho
      | inside _ _ _ _ _ _ _ ho => cases ho
    | mk t cs =>
      subst hv
      obtain ⟨ls, h1, h2⟩ := delta_ok o (.mk t cs) hp.2 hl.2 t cs rfl H _ false (by simp) (fun _ => hl.1) (ext_any hext hat)
      refine ⟨ls, ?_, h2.iff (fun y => ⟨fun hy => ⟨_, .any _, hy⟩, ?_⟩) (fun y hy => Or.inr ⟨_, .any _, hy⟩)⟩
      · simp only [inner]; exact h1
      · rintro ⟨v', hi, hy⟩; cases hi; exact hy
  | .vals vs, hp, hl => by
    intro H h pre dot hat hext
    simp only [ProperDatum] at hp
    simp only [PlainDatum] at hl
    obtain ⟨ls, h1, h2⟩ := innerVals_ok o vs hp.2 hl.2 d vs 0 (by simp) (by omega) H h pre dot hat hext
    refine ⟨ls, by simp only [inner]; exact h1, h2.iff (fun y => ⟨?_, ?_⟩) (fun y hy => hy.imp id ?_)⟩
    · rintro ⟨v', n, hn, hy⟩; exact ⟨v', .element vs n v' hn, hy⟩
    · rintro ⟨v', hi, hy⟩
      cases hi with
      | element _ n _ hn => exact ⟨v', n, hn, hy⟩
    · rintro ⟨v', n, hn, hy⟩; exact ⟨v', .element vs n v' hn, hy⟩
  | .null, _, _ => by
    intro H h pre dot hat hext
    refine ⟨[], by simp only [inner], Lists.nil.iff (fun y => ⟨False.elim, ?_⟩) (fun _ h => h)⟩
    rintro ⟨v', hi, _⟩; cases hi
  | .real _, _, _ => by
    intro H h pre dot hat hext
    refine ⟨[], by simp only [inner], Lists.nil.iff (fun y => ⟨False.elim, ?_⟩) (fun _ h => h)⟩
    rintro ⟨v', hi, _⟩; cases hi
  | .int _, _, _ => by
    intro H h pre dot hat hext
    refine ⟨[], by simp only [inner], Lists.nil.iff (fun y => ⟨False.elim, ?_⟩) (fun _ h => h)⟩
    rintro ⟨v', hi, _⟩; cases hi
  | .uint _, _, _ => by
    intro H h pre dot hat hext
    refine ⟨[], by simp only [inner], Lists.nil.iff (fun y => ⟨False.elim, ?_⟩) (fun _ h => h)⟩
    rintro ⟨v', hi, _⟩; cases hi
  | .bool _, _, _ => by
    intro H h pre dot hat hext
    refine ⟨[], by simp only [inner], Lists.nil.iff (fun y => ⟨False.elim, ?_⟩) (fun _ h => h)⟩
    rintro ⟨v', hi, _⟩; cases hi
  | .str _, _, _ => by
    intro H h pre dot hat hext
    refine ⟨[], by simp only [inner], Lists.nil.iff (fun y => ⟨False.elim, ?_⟩) (fun _ h => h)⟩
    rintro ⟨v', hi, _⟩; cases hi
  | .pods _, _, _ => by
    intro H h pre dot hat hext
    refine ⟨[], by simp only [inner], Lists.nil.iff (fun y => ⟨False.elim, ?_⟩) (fun _ h => h)⟩
    rintro ⟨v', hi, _⟩; cases hi
  | .strs _, _, _ => by
    intro H h pre dot hat hext
    refine ⟨[], by simp only [inner], Lists.nil.iff (fun y => ⟨False.elim, ?_⟩) (fun _ h => h)⟩
    rintro ⟨v', hi, _⟩; cases hi
theorem innerVals_ok (o : Opts) : ∀ (vs : List Val), ProperVals vs → PlainVals vs → ∀ (d : FieldDesc) (all : List Val) (k : Nat),
    (∀ n, vs[n]? = all[k + n]?) → all.length ≤ 2 ^ 64 → ∀ H h pre dot, At h d (.vals all) → Ext H pre dot h →
    ∃ ls, innerVals o vs k pre = .ok ls ∧
      Lists o H (fun y => ∃ (v' : Val) (n : Nat), vs[n]? = some v' ∧ Listed true v' y) (fun y => y = h ∨ ∃ (v' : Val) (n : Nat), vs[n]? = some v' ∧ Listed true v' y) ls
  | [], _, _ => by
    intro d all k hk hlen H h pre dot hat hext
    refine ⟨[], by simp only [innerVals], Lists.nil.iff (fun y => ⟨False.elim, ?_⟩) (fun _ h => h)⟩
    rintro ⟨v', n, hn, _⟩; simp at hn
  | v :: vs, hp, hl => by
    intro d all k hk hlen H h pre dot hat hext
    simp only [ProperVals] at hp
    simp only [PlainVals] at hl
    obtain ⟨ls', h1, h2⟩ := innerVals_ok o vs hp.2 hl.2 d all (k + 1) (fun n => by have := hk (n + 1); rw [show k + (n + 1) = k + 1 + n by omega] at this; simpa using this) hlen H h pre dot hat hext
    have h0 := hk 0
    simp only [List.getElem?_cons_zero, Nat.add_zero] at h0
    have hkl : k < all.length := (List.getElem?_eq_some_iff.mp h0.symm).1
    have hsplit : ∀ y, (∃ (v' : Val) (n : Nat), (v :: vs)[n]? = some v' ∧ Listed true v' y) ↔ Listed true v y ∨ ∃ (v' : Val) (n : Nat), vs[n]? = some v' ∧ Listed true v' y := by
      intro y
      constructor
      · rintro ⟨v', n, hn, hy⟩
        cases n with
        | zero => simp at hn; subst hn; exact Or.inl hy
        | succ n => exact Or.inr ⟨v', n, by simpa using hn, hy⟩
      · rintro (hy | ⟨v', n, hn, hy⟩)
        · exact ⟨v, 0, rfl, hy⟩
        · exact ⟨v', n + 1, by simpa using hn, hy⟩
    have hone : ∃ ls, delta o v (pre ++ 0x5b :: (showNat k ++ [0x5d])) false = .ok ls ∧
        Lists o H (Listed true v) (fun y => y = h ∨ Listed true v y) ls := by
      cases hv : v with
      | null =>
        subst hv
        refine ⟨_, by simp only [delta]; rfl, (Lists.void (h := h) ⟨d, _, pre, _, hat, hext.here, .element all k h0.symm, rfl⟩).iff (fun y => ⟨False.elim, ?_⟩) (fun y hy => Or.inl hy)⟩
        intro hy
        cases hy with
        | own _ _ _ ho => cases ho
        | inside _ _ _ _ _ _ _ ho => cases ho
      | mk t cs =>
        subst hv
        obtain ⟨ls, h3, h4⟩ := delta_ok o (.mk t cs) hp.1 hl.1 t cs rfl H _ true (by simp) (by simp) (ext_element hext hat (by omega) h0.symm)
        exact ⟨ls, h3, h4.iff (fun _ => Iff.rfl) (fun y hy => Or.inr hy)⟩
    obtain ⟨ls, h3, h4⟩ := hone
    refine ⟨ls ++ ls', ?_, (h4.append h2).iff (fun y => (hsplit y).symm) (fun y hy => ?_)⟩
    · simp only [innerVals, h3]
      show (innerVals o vs (k + 1) pre >>= _) = _
      rw [h1]; rfl
    · rw [hsplit]
      rcases hy with (h | h) | (h | h)
      · exact Or.inl h
      · exact Or.inr (Or.inl h)
      · exact Or.inl h
      · exact Or.inr (Or.inr h)
end

/-! ### C99 -/

/-- The delta print-out of a value lists each field which is to be listed, and nothing else: every line has, before the type and the content
of a field, an expression which finds this field (`Leads`, see C18), or says that what would be found is null.
Missing: a Union whose choice comes after a structure, an Any which holds a structure (see below), types with odd names. -/
theorem C99_delta_partial (o : Opts) (t : List FieldDesc) (cs : List Cell) (hp : Proper (.mk t cs)) (hl : Plain (.mk t cs)) :
    ∃ ls, deltaLines o (.mk t cs) = .ok ls ∧
      (∀ l ∈ ls,
        (∃ h d x, Listed false (.mk t cs) h ∧ At h d x ∧ Leads false ⟨t, cs, 0⟩ l.1 h ∧ l.2 = fieldText o l.1.isEmpty d x) ∨
        (∃ h d x p suf, Listed false (.mk t cs) h ∧ At h d x ∧ Leads false ⟨t, cs, 0⟩ p h ∧ Nothing x suf ∧ l = (p ++ suf, lit " null\n"))) ∧
      ∀ h, Listed false (.mk t cs) h → ∃ d x p, At h d x ∧ Leads false ⟨t, cs, 0⟩ p h ∧ (p, fieldText o p.isEmpty d x) ∈ ls := by
  simp only [Proper] at hp
  simp only [Plain] at hl
  obtain ⟨hu, hc, hp⟩ := hp
  have hf := innerCells_ok o t cs hp hl
  have hlen : 0 < t.length := by
    obtain ⟨m, rfl, _⟩ := usable_flat hu
    rw [flat_length]; exact count_pos m
  obtain ⟨ls', h3, h4⟩ := members_lists (o := o) (H := ⟨t, cs, 0⟩) (pre := []) (verytop := true) hp hf (imarked t (validAt cs) 0) (by
    intro j hj
    have hcov := (covered_iff hu _ j).mp hj
    obtain ⟨hj0, hjl⟩ := covered_range hu hcov
    obtain ⟨ps, hne, hn, hd⟩ := name_of hu hcov
    exact ⟨hjl, ps, hn, (descends_clear hc hd).1 hne, ext_member hne hd⟩)
  have hroot : ∃ ls, (if validAt cs 0 = true then fieldLines o t cs (innerCells o t cs) [] true 0 else .ok []) = .ok ls ∧
      Lists o ⟨t, cs, 0⟩ (fun y => validAt cs 0 = true ∧ Because t cs 0 y) (fun y => validAt cs 0 = true ∧ Because t cs 0 y) ls := by
    by_cases hm : validAt cs 0 = true
    · obtain ⟨ls, h1, h2⟩ := field_lists (o := o) (H := ⟨t, cs, 0⟩) (pre := []) (verytop := true) (dot := false) hp hf hlen rfl (fun s h' _ hl => hl)
      rw [if_pos hm]
      exact ⟨ls, h1, h2.iff (fun y => by simp [hm]) (fun y hy => ⟨hm, hy⟩)⟩
    · rw [if_neg hm]
      exact ⟨[], rfl, Lists.nil.iff (fun y => by simp [hm]) (fun y hy => hy)⟩
  obtain ⟨ls, h1, h2⟩ := hroot
  have hall := (h2.append h4).iff (R' := Listed false (.mk t cs)) (N' := Listed false (.mk t cs)) (fun y => by rw [listed_iff hu hp]; simp)
    (fun y hy => by rw [listed_iff hu hp]; simpa using hy)
  refine ⟨ls ++ ls', ?_, fun l hl => ?_, fun h hh => ?_⟩
  · simp only [deltaLines, delta, topLines]
    have : (if (true && !validAt cs 0) = true then Res.ok [] else fieldLines o t cs (innerCells o t cs) [] true 0) = .ok ls := by
      rw [← h1]; cases validAt cs 0 <;> rfl
    rw [this]
    show (memberLines o t cs _ [] true _ >>= _) = _
    rw [h3]; rfl
  · rcases hall.1 l hl with ⟨h, hr, d, x, a, b, c⟩ | ⟨h, hr, d, x, p, suf, a, b, c, e⟩
    · exact Or.inl ⟨h, d, x, hr, a, b, c⟩
    · exact Or.inr ⟨h, d, x, p, suf, hr, a, b, c, e⟩
  · obtain ⟨l, h5, d, x, a, b, c⟩ := hall.2 h hh
    exact ⟨d, x, l.1, a, b, by rw [← c]; exact h5⟩

/-! ### order -/

theorem inner_simple (o : Opts) (d : FieldDesc) (x : Datum) (hs : ∀ v, ¬ Inside x v) (hn : ∀ suf, ¬ Nothing x suf) (pre : Str) :
    inner o d x pre = .ok [] := by
  cases x with
  | union i v => exact absurd (.choice i v) (hs v)
  | any v => exact absurd (.any v) (hs v)
  | unionNull => exact absurd .union (hn _)
  | vals vs =>
    cases vs with
    | nil => simp only [inner, innerVals]
    | cons v vs => exact absurd (.element _ 0 v rfl) (hs v)
  | _ => simp only [inner]

theorem innerCells_get (o : Opts) : ∀ (t : List FieldDesc) (cs : List Cell), ProperCells t cs → ∀ j d, t[j]? = some d →
    (innerCells o t cs)[j]? = some (inner o d (datumOf cs j))
  | t, [], hp => by
    intro j d hd
    cases t with
    | nil => simp at hd
    | cons a t => simp [ProperCells] at hp
  | t, .mk m x :: cs, hp => by
    intro j d hd
    cases t with
    | nil => simp at hd
    | cons a t =>
      simp only [ProperCells] at hp
      simp only [innerCells]
      cases j with
      | zero => simp at hd; subst hd; rfl
      | succ j =>
        simp only [List.getElem?_cons_succ] at hd ⊢
        have := innerCells_get o t cs hp.2 j d hd
        rw [this]; simp [datumOf]

/-- A structure whose fields hold no values: the lines are, if it is marked, one for the whole, then one for each field which is to be listed,
once, in order. -/
theorem C99_order (o : Opts) (t : List FieldDesc) (cs : List Cell) (hp : Proper (.mk t cs))
    (hs : ∀ j d x, At ⟨t, cs, j⟩ d x → (∀ v, ¬ Inside x v) ∧ ∀ suf, ¬ Nothing x suf) :
    ∃ (js : List Nat) (ls top : List Line), deltaLines o (.mk t cs) = .ok (top ++ ls) ∧ js.Pairwise (· < ·) ∧ (∀ j, j ∈ js ↔ CoveredBelow t (validAt cs) 0 j) ∧
      (if validAt cs 0 = true then ∃ d x, At ⟨t, cs, 0⟩ d x ∧ top = [([], fieldText o true d x)] else top = []) ∧
      Matched (fun j l => ∃ d x ps, At ⟨t, cs, j⟩ d x ∧ ps ≠ [] ∧ Descends t 0 ps j ∧ l = (joinDots ps, fieldText o false d x)) js ls := by
  simp only [Proper] at hp
  obtain ⟨hu, hc, hp⟩ := hp
  have hlen : 0 < t.length := by
    obtain ⟨m, rfl, _⟩ := usable_flat hu
    rw [flat_length]; exact count_pos m
  have hline : ∀ pre b j, j < t.length → ∃ d, At ⟨t, cs, j⟩ d (datumOf cs j) ∧
      fieldLines o t cs (innerCells o t cs) pre b j = .ok [(pre, fieldText o b d (datumOf cs j))] := by
    intro pre b j hj
    have hd := List.getElem?_eq_getElem hj
    have hat := at_datum hp hd
    refine ⟨_, hat, ?_⟩
    simp only [fieldLines, hd, innerCells_get o t cs hp j _ hd, ownLine, inner_simple o _ _ (hs j _ _ hat).1 (hs j _ _ hat).2]
    rfl
  have hmem : ∀ js : List Nat, (∀ j ∈ js, CoveredBelow t (validAt cs) 0 j) → ∃ ls, memberLines o t cs (innerCells o t cs) [] true js = .ok ls ∧
      Matched (fun j l => ∃ d x ps, At ⟨t, cs, j⟩ d x ∧ ps ≠ [] ∧ Descends t 0 ps j ∧ l = (joinDots ps, fieldText o false d x)) js ls := by
    intro js
    induction js with
    | nil => exact fun _ => ⟨[], rfl, .nil⟩
    | cons j js ih =>
      intro h
      have hcov := h j (by simp)
      obtain ⟨ps, hne, hn, hd⟩ := name_of hu hcov
      obtain ⟨d, hat, hl⟩ := hline (joinDots ps) false j (covered_range hu hcov).2
      obtain ⟨ls, h1, h2⟩ := ih fun j' hj' => h j' (by simp [hj'])
      refine ⟨_ :: ls, ?_, .cons _ _ _ _ ⟨d, _, ps, hat, hne, hd, rfl⟩ h2⟩
      simp only [memberLines, hn]
      show (fieldLines o t cs _ (joinDots ps) false j >>= _) = _
      rw [hl]
      show (memberLines o t cs _ [] true js >>= _) = _
      rw [h1]; rfl
  obtain ⟨ls, h1, h2⟩ := hmem (imarked t (validAt cs) 0) fun j hj => (covered_iff hu _ j).mp hj
  have hsorted : (imarked t (validAt cs) 0).Pairwise (· < ·) := by
    by_cases hst : ∃ d, t[0]? = some d ∧ d.code = .Struct
    · obtain ⟨d, hd, hst⟩ := hst
      exact (C16_imarked t hu (validAt cs) 0 d hd hst).2.1
    · have : imarked t (validAt cs) 0 = [] := by
        cases hm : imarked t (validAt cs) 0 with
        | nil => rfl
        | cons j js =>
          exfalso
          have hcov := (covered_iff hu (validAt cs) j).mp (by rw [hm]; simp)
          obtain ⟨h0, hl⟩ := covered_range hu hcov
          exact hst (root_struct hu j h0 hl)
      rw [this]; exact .nil
  obtain ⟨d, hat, hl⟩ := hline [] true 0 hlen
  cases hm : validAt cs 0 with
  | false =>
    refine ⟨imarked t (validAt cs) 0, ls, [], ?_, hsorted, covered_iff hu _, by simp, h2⟩
    simp only [deltaLines, delta, topLines, hm, Bool.not_false, Bool.and_self, if_true]
    show (memberLines o t cs _ [] true _ >>= _) = _
    rw [h1]; rfl
  | true =>
    refine ⟨imarked t (validAt cs) 0, ls, _, ?_, hsorted, covered_iff hu _, by simp only [if_true]; exact ⟨d, _, hat, rfl⟩, h2⟩
    simp only [deltaLines, delta, topLines, hm, Bool.not_true, Bool.and_false, Bool.false_eq_true, if_false, hl]
    show (memberLines o t cs _ [] true _ >>= _) = _
    rw [h1]; rfl

/-! ### text -/

theorem arrLoop_uncut (limit : Nat) : ∀ (es : List Str) (i : Nat), (limit = 0 ∨ i + es.length ≤ limit) →
    arrLoop limit i es = (if i ≠ 0 ∧ es ≠ [] then lit ", " else []) ++ commas es := by
  intro es
  induction es with
  | nil => intro i _; simp [arrLoop, commas]
  | cons e es ih =>
    intro i h
    have hc : ¬ (limit ≠ 0 ∧ limit ≤ i) := by simp only [List.length_cons] at h; omega
    rw [arrLoop, if_neg hc, ih (i + 1) (by simp only [List.length_cons] at h; omega)]
    cases es with
    | nil => simp [commas]
    | cons f es => simp [commas, lit]

theorem arrLoop_cut (limit : Nat) (hl : limit ≠ 0) : ∀ (es : List Str) (i : Nat), i ≤ limit → limit < i + es.length →
    arrLoop limit i es = (if i ≠ 0 then lit ", " else []) ++ commas (es.take (limit - i) ++ [lit "..."]) := by
  intro es
  induction es with
  | nil => intro i h1 h2; simp at h2; omega
  | cons e es ih =>
    intro i h1 h2
    rw [arrLoop]
    by_cases hc : limit ≤ i
    · have hcc : limit ≠ 0 ∧ limit ≤ i := ⟨hl, hc⟩
      rw [if_pos (c := limit ≠ 0 ∧ limit ≤ i) hcc, show limit - i = 0 by omega]
      simp [commas]
    · rw [if_neg (c := limit ≠ 0 ∧ limit ≤ i) (by omega), ih (i + 1) (by omega) (by simp only [List.length_cons] at h2; omega), show limit - i = (limit - (i + 1)) + 1 by omega,
        List.take_succ_cons]
      have hne : ∃ a l, es.take (limit - (i + 1)) ++ [lit "..."] = a :: l := by
        cases h : es.take (limit - (i + 1)) with
        | nil => exact ⟨_, _, rfl⟩
        | cons a l => exact ⟨a, _, rfl⟩
      obtain ⟨a, l, ha⟩ := hne
      rw [List.cons_append, ha]
      simp [commas, lit]

/-- An array of scalars or strings: the number of elements, and the elements; with a limit, which is exceeded, so many of them, then "...". -/
theorem C99_array (o : Opts) (es : List Str) (hne : es ≠ []) :
    arrText o es = lit "{" ++ showNat es.length ++ lit "}[" ++
      commas (if o.limit = 0 ∨ es.length ≤ o.limit then es else es.take o.limit ++ [lit "..."]) ++ lit "]" := by
  have key : arrLoop o.limit 0 es = commas (if o.limit = 0 ∨ es.length ≤ o.limit then es else es.take o.limit ++ [lit "..."]) := by
    by_cases h : o.limit = 0 ∨ es.length ≤ o.limit
    · rw [if_pos h, arrLoop_uncut _ _ _ (by omega)]; simp
    · rw [if_neg h, arrLoop_cut _ (by omega) _ _ (by omega) (by omega)]; simp
  simp only [arrText, if_neg hne, key]
  simp [lit]

theorem esc_printable (s : Str) : ∀ c ∈ esc s, 0x20 ≤ c.toNat ∧ c.toNat ≤ 0x7e := by
  intro c hc
  unfold esc at hc
  obtain ⟨n, hn, rfl⟩ := List.mem_map.mp hc
  have := Txt.C50_printable _ n hn
  unfold Spec.Txt.Printable at this
  rw [UInt8.toNat_ofNat']
  omega

theorem esc_inj {s s' : Str} (h : esc s = esc s') : s = s' := by
  have hl : ∀ l l' : List Nat, (∀ c ∈ l, Spec.Txt.Printable c) → (∀ c ∈ l', Spec.Txt.Printable c) → l.map UInt8.ofNat = l'.map UInt8.ofNat → l = l' := by
    intro l
    induction l with
    | nil => intro l' _ _ h; cases l' with | nil => rfl | cons => simp at h
    | cons a l ih =>
      intro l' h1 h2 h
      cases l' with
      | nil => simp at h
      | cons b l' =>
        simp only [List.map_cons, List.cons.injEq] at h
        have ha := h1 a (by simp)
        have hb := h2 b (by simp)
        unfold Spec.Txt.Printable at ha hb
        have : a = b := by
          have := congrArg UInt8.toNat h.1
          rw [UInt8.toNat_ofNat', UInt8.toNat_ofNat'] at this
          omega
        rw [this, ih l' (fun c hc => h1 c (by simp [hc])) (fun c hc => h2 c (by simp [hc])) h.2]
  have h1 := hl _ _ (Txt.C50_printable _) (Txt.C50_printable _) h
  have hb : ∀ (r : Str), ∀ c ∈ r.map UInt8.toNat, Spec.Txt.IsByte c := by
    intro r c hc
    obtain ⟨b, _, rfl⟩ := List.mem_map.mp hc
    exact b.toNat_lt
  have h2 := congrArg Spec.Txt.unescape h1
  rw [Txt.C50_roundtrip _ (hb s), Txt.C50_roundtrip _ (hb s')] at h2
  have h3 := congrArg (List.map UInt8.ofNat) h2
  simpa [List.map_map, Function.comp_def] using h3

/-- What a line shows of a scalar, other than a real, tells its content: two fields of the same type with the same text are equal. -/
theorem C99_content (o : Opts) (hshow : o.showValue = true) (top : Bool) (d : FieldDesc) (x y : Datum) (hxy : Alike x y)
    (h : fieldText o top d x = fieldText o top d y) : x = y := by
  simp only [fieldText, hshow, if_true, List.append_cancel_left_eq, List.append_cancel_right_eq] at h
  cases hxy with
  | int v w hv hw =>
    simp only [valueText, List.append_cancel_left_eq] at h
    have := Scl.C58_text_roundtrip v hv
    rw [h, Scl.C58_text_roundtrip w hw] at this
    cases this; rfl
  | uint v w hv hw =>
    simp only [valueText, List.append_cancel_left_eq] at h
    have := Scl.C58_text_roundtrip_unsigned v hv
    rw [h, Scl.C58_text_roundtrip_unsigned w hw] at this
    cases this; rfl
  | bool a b =>
    simp only [valueText, List.append_cancel_left_eq] at h
    cases a <;> cases b <;> first | rfl | (exfalso; revert h; decide)
  | str a b =>
    simp only [valueText, List.append_cancel_left_eq, quoted, List.cons.injEq, true_and, List.append_cancel_right_eq] at h
    rw [esc_inj h]

/-! one line each -/

theorem lit_name (c : TypeCode) : (0x0a : Byte) ∉ lit c.name := by
  unfold TypeCode.name
  split <;> decide

theorem quoted_line (s : Str) : (0x0a : Byte) ∉ quoted s := by
  intro h
  simp only [quoted, List.mem_cons, List.mem_append, List.not_mem_nil, or_false] at h
  rcases h with h | h | h
  · revert h; decide
  · have := esc_printable s _ h; revert this; decide
  · revert h; decide

theorem showNat_line (n : Nat) : (0x0a : Byte) ∉ showNat n := fun h => by
  have := Cfg.showNat_chars n _ h
  revert this; decide

theorem showInt_line (v : Int) : (0x0a : Byte) ∉ showInt v := fun h => by
  have := Cfg.showInt_chars v _ h
  revert this; decide

theorem elem_line (o : Opts) (hr : (∀ x, (0x0a : Byte) ∉ o.R.show32 x) ∧ ∀ x, (0x0a : Byte) ∉ o.R.show64 x) (c : TypeCode) (x : Nat) :
    (0x0a : Byte) ∉ elem o c x := by
  unfold elem
  split
  · split <;> decide
  split
  · exact hr.1 x
  split
  · exact hr.2 x
  split
  · exact showInt_line _
  split
  · exact showInt_line _
  split
  · exact showInt_line _
  split
  · exact showInt_line _
  exact showNat_line x

theorem arrLoop_line (limit : Nat) : ∀ (es : List Str) (i : Nat), (∀ e ∈ es, (0x0a : Byte) ∉ e) → (0x0a : Byte) ∉ arrLoop limit i es := by
  intro es
  induction es with
  | nil => intro i _; simp [arrLoop]
  | cons e es ih =>
    intro i h
    rw [arrLoop, List.mem_append, not_or]
    refine ⟨by split <;> decide, ?_⟩
    split
    · decide
    · rw [List.mem_append, not_or]
      exact ⟨h e (by simp), ih _ fun e' he' => h e' (by simp [he'])⟩

theorem arrText_line (o : Opts) (he : (0x0a : Byte) ∉ o.empty) (es : List Str) (h : ∀ e ∈ es, (0x0a : Byte) ∉ e) : (0x0a : Byte) ∉ arrText o es := by
  unfold arrText
  split
  · exact he
  · simp only [List.mem_cons, List.mem_append, not_or, List.not_mem_nil]
    exact ⟨by decide, ⟨⟨showNat_line _, by decide⟩, arrLoop_line _ _ _ h⟩, by decide, fun h => h⟩

theorem valueText_line (o : Opts) (he : (0x0a : Byte) ∉ o.empty)
    (hr : (∀ x, (0x0a : Byte) ∉ o.R.show32 x) ∧ ∀ x, (0x0a : Byte) ∉ o.R.show64 x) (c : TypeCode) (x : Datum) :
    (0x0a : Byte) ∉ valueText o c x := by
  have hq : (0x0a : Byte) ∉ lit " = " := by decide
  cases x with
  | real x => simp only [valueText, List.mem_append, not_or]; exact ⟨hq, hr.2 x⟩
  | int x => simp only [valueText, List.mem_append, not_or]; exact ⟨hq, showInt_line x⟩
  | uint x => simp only [valueText, List.mem_append, not_or]; exact ⟨hq, showNat_line x⟩
  | bool x => simp only [valueText, List.mem_append, not_or]; exact ⟨hq, by cases x <;> decide⟩
  | str x => simp only [valueText, List.mem_append, not_or]; exact ⟨hq, quoted_line x⟩
  | pods xs =>
    simp only [valueText, List.mem_append, not_or]
    refine ⟨hq, arrText_line o he _ fun e h => ?_⟩
    obtain ⟨y, _, rfl⟩ := List.mem_map.mp h
    exact elem_line o hr c y
  | strs xs =>
    simp only [valueText, List.mem_append, not_or]
    refine ⟨hq, arrText_line o he _ fun e h => ?_⟩
    obtain ⟨y, _, rfl⟩ := List.mem_map.mp h
    exact quoted_line y
  | _ => simp [valueText]

/-- What is printed for a field ends with the only newline in it, whatever the content, or the ID of its type. -/
theorem C99_line (o : Opts) (he : (0x0a : Byte) ∉ o.empty) (hr : (∀ x, (0x0a : Byte) ∉ o.R.show32 x) ∧ ∀ x, (0x0a : Byte) ∉ o.R.show64 x)
    (top : Bool) (d : FieldDesc) (x : Datum) : ∃ body, fieldText o top d x = body ++ [0x0a] ∧ (0x0a : Byte) ∉ body := by
  refine ⟨_, rfl, ?_⟩
  simp only [List.mem_append, not_or, typeText]
  refine ⟨⟨by cases top <;> decide, lit_name d.code, ?_⟩, ?_⟩
  · split
    · simp only [List.mem_append, not_or]
      refine ⟨⟨by decide, fun h => ?_⟩, by decide⟩
      have := esc_printable _ _ h
      revert this; decide
    · simp
  · split
    · exact valueText_line o he hr _ x
    · simp

/-- The line of a scalar in the tree format tells its content, if this is not of one of the 8 bit types. -/
theorem C99_tree (o : Opts) (hshow : o.showValue = true) (d : FieldDesc) (hd : d.code ≠ .Int8 ∧ d.code ≠ .UInt8) (name : Str) (x y : Datum)
    (hxy : Alike x y) (h : treeLine o d x name = treeLine o d y name) : x = y := by
  simp only [treeLine, hshow, if_true, List.append_cancel_left_eq, List.append_cancel_right_eq] at h
  cases hxy with
  | int v w hv hw =>
    simp only [treeValue, if_neg hd.1] at h
    have := Scl.C58_text_roundtrip v hv
    rw [h, Scl.C58_text_roundtrip w hw] at this
    cases this; rfl
  | uint v w hv hw =>
    simp only [treeValue, if_neg hd.2] at h
    have := Scl.C58_text_roundtrip_unsigned v hv
    rw [h, Scl.C58_text_roundtrip_unsigned w hw] at this
    cases this; rfl
  | bool a b =>
    simp only [treeValue] at h
    cases a <;> cases b <;> first | rfl | (exfalso; revert h; decide)
  | str a b =>
    simp only [treeValue, quoted, List.cons.injEq, true_and, List.append_cancel_right_eq] at h
    rw [esc_inj h]

/-! ### what goes wrong -/

/-- The default format shows a number of an 8 bit type as a character: of 65, the letter A; of 10, an end of line. -/
theorem C99_int8 (o : Opts) (hshow : o.showValue = true) (d : FieldDesc) (hd : d.code = .Int8 ∨ d.code = .UInt8) (hid : d.id = []) :
    treeLine o d (if d.code = .Int8 then .int 65 else .uint 65) [] = lit d.code.name ++ lit " = A\n" ∧
    treeLine o d (if d.code = .Int8 then .int 10 else .uint 10) [] = lit d.code.name ++ lit " = \n\n" ∧
    showNat 65 = lit "65" ∧ showNat 10 = lit "10" := by
  refine ⟨?_, ?_, by rw [showNat, showNat]; decide, by rw [showNat, showNat]; decide⟩
  all_goals
    rcases hd with hd | hd <;>
    · simp only [treeLine, hid, hd, hshow]
      rfl

/-- struct { union { struct { double a; } s; int32_t x; int32_t y; } u; } -/
def badU : Member :=
  { code := .Struct, children := [{ code := .Union, name := lit "u", children :=
    [{ code := .Struct, name := lit "s", children := [{ code := .Float64, name := lit "a" }] }, { code := .Int32, name := lit "x" },
     { code := .Int32, name := lit "y" }] }] }

/-- the choice `x` is selected, with content 5 -/
def badUV : Val := .mk (flat badU) [.mk false .null, .mk true (.union 1 (.mk [{ code := .Int32 }] [.mk true (.int 5)]))]

/-- the same without `y` -/
def badW : Member :=
  { code := .Struct, children := [{ code := .Union, name := lit "u", children :=
    [{ code := .Struct, name := lit "s", children := [{ code := .Float64, name := lit "a" }] }, { code := .Int32, name := lit "x" }] }] }

def badWV : Val := .mk (flat badW) [.mk false .null, .mk true (.union 1 (.mk [{ code := .Int32 }] [.mk true (.int 5)]))]

theorem usable_of (m : Member) (h1 : Validated m) (h2 : DistinctNames m) (h3 : (newValue (flat m)).isOk = true) : Usable (flat m) :=
  ⟨.built m _ (build_total m h1 h2), h3⟩

theorem badU_ok : Validated badU ∧ DistinctNames badU := by
  constructor
  · simp [badU, Validated, ValidatedAll]; decide
  · simp [badU, DistinctNames, DistinctNamesAll]; decide

theorem badW_ok : Validated badW ∧ DistinctNames badW := by
  constructor
  · simp [badW, Validated, ValidatedAll]; decide
  · simp [badW, DistinctNames, DistinctNamesAll]; decide

theorem int_ok : Usable [{ code := .Int32 }] ∧ ClearNames [{ code := .Int32 }] :=
  ⟨usable_of { code := .Int32 } (by simp [Validated, ValidatedAll]; decide) (by simp [DistinctNames, DistinctNamesAll]) rfl, by unfold ClearNames; decide⟩

theorem badUV_proper : Proper badUV ∧ Proper badWV := by
  have hc : ClearNames (flat badU) := by unfold ClearNames; decide
  have hw : ClearNames (flat badW) := by unfold ClearNames; decide
  refine ⟨?_, ?_⟩
  · show Usable (flat badU) ∧ _ ∧ _
    refine ⟨usable_of badU badU_ok.1 badU_ok.2 rfl, hc, trivial, ⟨rfl, by simp, ⟨_, rfl, rfl⟩, ?_⟩, trivial⟩
    exact ⟨int_ok.1, int_ok.2, trivial, trivial⟩
  · show Usable (flat badW) ∧ _ ∧ _
    refine ⟨usable_of badW badW_ok.1 badW_ok.2 rfl, hw, trivial, ⟨rfl, by simp, ⟨_, rfl, rfl⟩, ?_⟩, trivial⟩
    exact ⟨int_ok.1, int_ok.2, trivial, trivial⟩

theorem traverse_go {m f d : Bool} {c : Byte} {s : Str} {h : Handle} {dot : Bool} {rest : Str} {h' : Handle}
    (e : stepLookup m f d (c :: s) h = .go dot rest h') (ha : advances (c :: s) rest h h' = true) :
    traverse m f d (c :: s) h = traverse m false dot rest h' := by
  rw [traverse, e]
  simp [ha]

theorem traverse_null {m f d : Bool} {c : Byte} {s : Str} {h : Handle} (e : stepLookup m f d (c :: s) h = .null) :
    traverse m f d (c :: s) h = .ok none := by
  rw [traverse, e]

/-- A Union which has a structure before other choices: the content of `x` is printed as that of `y`; where there is no `y`, printing is
undefined. -/
theorem C99_choice (o : Opts) : Proper badUV ∧ Proper badWV ∧
    deltaLines o badUV = .ok [(lit "u", fieldText o false { code := .Union } .null), (lit "u->y", fieldText o false { code := .Int32 } (.int 5))] ∧
    index false ⟨badUV.desc, badUV.cells, 0⟩ (lit "u->y") = .ok none ∧
    (∃ h, index false ⟨badUV.desc, badUV.cells, 0⟩ (lit "u->x") = .ok (some h) ∧ At h { code := .Int32 } (.int 5)) ∧
    deltaLines o badWV = .ub := by
  refine ⟨badUV_proper.1, badUV_proper.2, ?_, ?_, ?_, rfl⟩
  · rfl
  · have e1 : stepLookup false true false (lit "u->y") ⟨badUV.desc, badUV.cells, 0⟩ = .go false (lit "->y") ⟨badUV.desc, badUV.cells, 1⟩ := rfl
    have e2 : stepLookup false false false (lit "->y") ⟨badUV.desc, badUV.cells, 1⟩ = .null := rfl
    exact (traverse_go e1 (by decide)).trans (traverse_null e2)
  · refine ⟨⟨[{ code := .Int32 }], [.mk true (.int 5)], 0⟩, ?_, rfl, true, rfl⟩
    have hp := badUV_proper.1
    refine ((C18_partial ⟨badUV.desc, badUV.cells, 0⟩ hp (by decide) _).1 _).mpr ?_
    refine .member _ _ [lit "u"] 1 (lit "->x") (by simp) (.member 0 _ (lit "u") 1 [] _ rfl rfl (by decide) (.here 1)) (Or.inr ⟨_, Or.inr (Or.inr rfl)⟩) ?_
    exact .choice false _ _ _ (lit "x") 2 1 [{ code := .Int32 }] [.mk true (.int 5)] [] ⟨rfl, _, rfl⟩ rfl (Or.inl (Or.inl rfl)) (.here _ _)

/-- struct { any a; } which holds struct { int32_t x; } -/
def anyT : Member := { code := .Struct, children := [{ code := .Any, name := lit "a" }] }
def xT : Member := { code := .Struct, children := [{ code := .Int32, name := lit "x" }] }
def anyV : Val := .mk (flat anyT) [.mk false .null, .mk true (.any (.mk (flat xT) [.mk false .null, .mk true (.int 5)]))]

theorem xT_proper (v : Int) : Proper (.mk (flat xT) [.mk false .null, .mk true (.int v)]) := by
  show Usable (flat xT) ∧ _ ∧ _
  exact ⟨usable_of xT (by simp [xT, Validated, ValidatedAll]; decide) (by simp [xT, DistinctNames, DistinctNamesAll]; decide) rfl,
    (by unfold ClearNames; decide), trivial, trivial, trivial⟩

/-- A structure inside of an Any: the field is printed as "a->.x", by which it can not be found; "a->x" finds it. -/
theorem C99_any (o : Opts) : Proper anyV ∧
    (∃ l1 l2 l3, deltaLines o anyV = .ok [(lit "a", l1), (lit "a->", l2), (lit "a->.x", l3)]) ∧
    index false ⟨anyV.desc, anyV.cells, 0⟩ (lit "a->.x") = .ok none ∧
    (∃ h, index false ⟨anyV.desc, anyV.cells, 0⟩ (lit "a->x") = .ok (some h)) := by
  have hp : Proper anyV := by
    show Usable (flat anyT) ∧ _ ∧ _
    refine ⟨usable_of anyT (by simp [anyT, Validated, ValidatedAll]; decide) (by simp [anyT, DistinctNames, DistinctNamesAll]; decide) rfl,
      (by unfold ClearNames; decide), trivial, ⟨rfl, ?_⟩, trivial⟩
    exact xT_proper _
  refine ⟨hp, ⟨_, _, _, rfl⟩, ?_, ?_⟩
  · have e1 : stepLookup false true false (lit "a->.x") ⟨anyV.desc, anyV.cells, 0⟩ = .go false (lit "->.x") ⟨anyV.desc, anyV.cells, 1⟩ := rfl
    have e2 : stepLookup false false false (lit "->.x") ⟨anyV.desc, anyV.cells, 1⟩ =
        .go false (lit ".x") ⟨flat xT, [.mk false .null, .mk true (.int 5)], 0⟩ := rfl
    have e3 : stepLookup false false false (lit ".x") ⟨flat xT, [.mk false .null, .mk true (.int 5)], 0⟩ = .null := rfl
    exact (traverse_go e1 (by decide)).trans ((traverse_go e2 (by decide)).trans (traverse_null e3))
  · refine ⟨⟨flat xT, [.mk false .null, .mk true (.int 5)], 1⟩, ?_⟩
    refine ((C18_partial ⟨anyV.desc, anyV.cells, 0⟩ hp (by decide) _).1 _).mpr ?_
    refine .member _ _ [lit "a"] 1 (lit "->x") (by simp) (.member 0 _ (lit "a") 1 [] _ rfl rfl (by decide) (.here 1)) (Or.inr ⟨_, Or.inr (Or.inr rfl)⟩) ?_
    refine .any false _ _ _ (flat xT) _ (lit "x") ⟨rfl, _, rfl⟩ ?_
    exact .member _ _ [lit "x"] 1 [] (by simp) (.member 0 _ (lit "x") 1 [] _ rfl rfl (by decide) (.here 1)) (Or.inl rfl) (.here _ _)

/-- struct { struct { int32_t x; }[] r; }, with two elements -/
def arrT : Member := { code := .Struct, children := [{ code := .StructA, name := lit "r", children := [{ code := .Int32, name := lit "x" }] }] }
def arrV : Val := .mk (flat arrT) [.mk false .null, .mk true (.vals [.mk (flat xT) [.mk false .null, .mk true (.int 5)], .null])]

/-- The limit on the number of elements does not hold for an array of structures: with a limit of one, both are printed. -/
theorem C99_limit (o : Opts) (h : o.limit = 1) : Proper arrV ∧ Plain arrV ∧
    (∃ l1 l2 l3 l4, deltaLines o arrV = .ok [(lit "r", l1), (lit "r[0]", l2), (lit "r[0].x", l3), (lit "r[1]", l4)]) := by
  have hp : Proper arrV := by
    show Usable (flat arrT) ∧ _ ∧ _
    refine ⟨usable_of arrT (by simp [arrT, Validated, ValidatedAll]; decide) (by simp [arrT, DistinctNames, DistinctNamesAll]; decide) rfl,
      (by unfold ClearNames; decide), trivial, ⟨Or.inl rfl, xT_proper 5, trivial, trivial⟩, trivial⟩
  have h0 : showNat 0 = lit "0" := by rw [showNat]; decide
  have h1 : showNat 1 = lit "1" := by rw [showNat]; decide
  refine ⟨hp, ⟨trivial, ⟨by decide, ⟨trivial, trivial, trivial⟩, trivial, trivial⟩, trivial⟩, ?_⟩
  have e : ∃ l1 l2 l3 l4, deltaLines o arrV = .ok [(lit "r", l1), (lit "r" ++ 0x5b :: (showNat 0 ++ [0x5d]), l2),
      (lit "r" ++ 0x5b :: (showNat 0 ++ [0x5d]) ++ [0x2e] ++ lit "x", l3), (lit "r" ++ 0x5b :: (showNat 1 ++ [0x5d]), l4)] := ⟨_, _, _, _, rfl⟩
  rw [h0, h1] at e
  exact e

/-- the width of the elements of an array of integers, and whether they have a sign -/
def IntArray : TypeCode → Nat → Bool → Prop
  | .Int8A, w, s => w = 1 ∧ s = true
  | .Int16A, w, s => w = 2 ∧ s = true
  | .Int32A, w, s => w = 4 ∧ s = true
  | .Int64A, w, s => w = 8 ∧ s = true
  | .UInt8A, w, s => w = 1 ∧ s = false
  | .UInt16A, w, s => w = 2 ∧ s = false
  | .UInt32A, w, s => w = 4 ∧ s = false
  | .UInt64A, w, s => w = 8 ∧ s = false
  | _, _, _ => False

theorem intOf_range (w x : Nat) (hw : 0 < w ∧ w ≤ 8) (hx : x < 256 ^ w) : -2 ^ 63 ≤ intOf w x ∧ intOf w x < 2 ^ 63 := by
  unfold intOf
  have : w = 1 ∨ w = 2 ∨ w = 3 ∨ w = 4 ∨ w = 5 ∨ w = 6 ∨ w = 7 ∨ w = 8 := by omega
  rcases this with rfl | rfl | rfl | rfl | rfl | rfl | rfl | rfl <;> simp only [Nat.reducePow, Int.reducePow] at hx ⊢ <;> split <;> omega

/-- Each element of an array of integers is shown as text which reads as this integer; an element of an array of bool as 0 or 1. -/
theorem C99_elements (o : Opts) :
    (∀ x, elem o .BoolA x = if x = 0 then lit "0" else lit "1") ∧
    (∀ c w x, IntArray c w true → x < 256 ^ w → parseI64 (elem o c x) = some (intOf w x)) ∧
    ∀ c w x, IntArray c w false → x < 256 ^ w → parseU64 (elem o c x) = some x := by
  refine ⟨fun x => ?_, fun c w x hc hx => ?_, fun c w x hc hx => ?_⟩
  · by_cases h : x = 0 <;> simp [elem, h]
  · unfold IntArray at hc
    split at hc <;> first | exact hc.elim | exact absurd hc.2 (by decide) | skip
    all_goals
      obtain ⟨rfl, _⟩ := hc
      exact Scl.C58_text_roundtrip _ (intOf_range _ x (by decide) hx)
  · unfold IntArray at hc
    split at hc <;> first | exact hc.elim | exact absurd hc.2 (by decide) | skip
    all_goals
      obtain ⟨rfl, _⟩ := hc
      exact Scl.C58_text_roundtrip_unsigned x (by simp only [Nat.reducePow] at hx ⊢; omega)

/-- An integer, a bool and a string are shown as text which reads as this integer, bool or string. -/
theorem C99_scalars (o : Opts) (c : TypeCode) :
    (∀ v : Int, -2 ^ 63 ≤ v → v < 2 ^ 63 → ∃ s, valueText o c (.int v) = lit " = " ++ s ∧ parseI64 s = some v) ∧
    (∀ n : Nat, n < 2 ^ 64 → ∃ s, valueText o c (.uint n) = lit " = " ++ s ∧ parseU64 s = some n) ∧
    (∀ b, ∃ s, valueText o c (.bool b) = lit " = " ++ s ∧ parseBool s = some b) ∧
    ∀ r : Str, ∃ s, valueText o c (.str r) = lit " = \"" ++ s ++ lit "\"" ∧ Spec.Txt.unescape (s.map UInt8.toNat) = r.map UInt8.toNat := by
  refine ⟨fun v h1 h2 => ⟨_, rfl, Scl.C58_text_roundtrip v ⟨h1, h2⟩⟩, fun n h => ⟨_, rfl, Scl.C58_text_roundtrip_unsigned n h⟩,
    fun b => ⟨_, rfl, by cases b <;> decide⟩, fun r => ⟨esc r, ?_, ?_⟩⟩
  · simp [valueText, quoted, lit]
  · have : (esc r).map UInt8.toNat = Text.escape (r.map UInt8.toNat) := by
      unfold esc
      rw [List.map_map]
      refine (List.map_congr_left fun n hn => ?_).trans (List.map_id _)
      have := Txt.C50_printable _ n hn
      simp only [Function.comp_apply, UInt8.toNat_ofNat', id]
      have h2 : n < 256 := by
        obtain ⟨_, h2⟩ := this
        omega
      exact Nat.mod_eq_of_lt h2
    rw [this]
    refine Txt.C50_roundtrip (r.map UInt8.toNat) fun c hc => ?_
    obtain ⟨b, _, rfl⟩ := List.mem_map.mp hc
    exact UInt8.toNat_lt b

/-! ### examples -/

/-- the hypotheses of `C99_delta_partial`, with a Union, an array and an Any in it; the element of the array, and what its field holds, are listed
(`r` is marked here) -/
def exMarked : Val := .mk exT
  [.mk false .null, .mk true (.int (-5)), .mk true .null, .mk false (.str [0x68, 0x69]), .mk true (.union 1 (.mk strsT [.mk false (.strs [[0x61], []])])),
   .mk true (.vals [.null, .mk elemT [.mk false .null, .mk true (.any (.mk dblT [.mk false (.real 0x3ff0000000000000)]))]])]

example : Proper exMarked ∧ Plain exMarked ∧ Listed false exMarked ⟨exT, exMarked.cells, 3⟩ ∧
    Listed false exMarked ⟨dblT, [.mk false (.real 0x3ff0000000000000)], 0⟩ := by
  have hp : Proper exMarked := by
    simp only [exMarked, Proper]
    refine ⟨exT_usable, exT_clear, ?_⟩
    simp only [exT, ProperCells, ProperDatum, ProperVals, Proper]
    refine ⟨trivial, trivial, trivial, trivial, ⟨trivial, by simp, ⟨_, rfl, rfl⟩, strs_usable, strs_clear, ?_⟩,
      ⟨Or.inl trivial, trivial, ⟨elem_usable, elem_clear, ?_⟩, trivial⟩, trivial⟩
    · simp [strsT, ProperCells, ProperDatum]
    · simp only [elemT, ProperCells, ProperDatum, Proper]
      exact ⟨trivial, ⟨trivial, dbl_usable, dbl_clear, by simp [dblT, ProperCells, ProperDatum]⟩, trivial⟩
  refine ⟨hp, ?_, ?_, ?_⟩
  · simp only [exMarked, exT, Plain, PlainCells, PlainDatum, PlainVals, strsT, elemT, dblT, codeOf]
    refine ⟨trivial, trivial, trivial, trivial, ⟨?_, trivial, trivial⟩, ⟨by decide, trivial, ⟨trivial, ⟨by decide, trivial, trivial⟩, trivial⟩, trivial⟩, trivial⟩
    intro p hp
    cases hp; rfl
  · exact .own _ _ _ (.field _ _ 3 ⟨2, by decide, ⟨_, rfl, by decide, by decide⟩, rfl, ⟨_, rfl, by decide, by decide⟩⟩)
  · refine .inside _ _ ⟨exT, exMarked.cells, 5⟩ _ _ _ _ (.field _ _ 5 ⟨5, by decide, ⟨_, rfl, by decide, by decide⟩, rfl, ⟨_, rfl, by decide, by decide⟩⟩)
      ⟨rfl, _, rfl⟩ (.element _ 1 _ rfl) ?_
    exact .inside _ _ ⟨elemT, _, 1⟩ _ _ _ _ (.field _ _ 1 ⟨1, by decide, ⟨_, rfl, by decide, by decide⟩, rfl, ⟨_, rfl, by decide, by decide⟩⟩)
      ⟨rfl, _, rfl⟩ (.any _) (.own _ _ _ (.whole _ _ (Or.inl rfl)))

/-- those of `C99_order` -/
example : Proper (.mk (flat xT) [.mk true .null, .mk true (.int 5)]) ∧
    ∀ j d x, At ⟨flat xT, [.mk true .null, .mk true (.int 5)], j⟩ d x → (∀ v, ¬ Inside x v) ∧ ∀ suf, ¬ Nothing x suf := by
  refine ⟨(xT_proper 5), ?_⟩
  rintro (_ | _ | j) d x ⟨_, m, hx⟩
  · cases hx; exact ⟨fun v h => (by cases h), fun s h => (by cases h)⟩
  · cases hx; exact ⟨fun v h => (by cases h), fun s h => (by cases h)⟩
  · simp at hx

/-- those of `C99_content` and `C99_tree` -/
example : Alike (.int (-5)) (.int 7) ∧ Alike (.str [0x22]) (.str [0x0a]) := ⟨.int _ _ (by decide) (by decide), .str _ _⟩

/-- two of three elements -/
example (R : ArrayConv.Reals) : arrText { R := R, empty := lit "{0}[]", limit := 2 } [lit "7", lit "8", lit "9"] = lit "{3}[7, 8, ...]" := by
  rw [C99_array _ _ (by simp)]
  have : showNat 3 = lit "3" := by rw [showNat]; decide
  simp only [List.length_cons, List.length_nil, this]
  decide

/-- A line shows the type of the field: its name, and for a structure which has an ID, this ID, quoted; then the content, unless this is not wanted. -/
theorem C99_type (o : Opts) (top : Bool) (d : FieldDesc) (x : Datum) :
    ∃ i v, fieldText o top d x = (if top then [] else lit " ") ++ lit d.code.name ++ i ++ v ++ lit "\n" ∧
      (d.code ≠ .Struct ∨ d.id = [] → i = []) ∧
      (d.code = .Struct → d.id ≠ [] → ∃ s, i = lit " \"" ++ s ++ lit "\"" ∧ Spec.Txt.unescape (s.map UInt8.toNat) = d.id.map UInt8.toNat) ∧
      (o.showValue = true → v = valueText o d.code x) ∧ (o.showValue = false → v = []) := by
  refine ⟨if d.code = .Struct ∧ d.id ≠ [] then lit " \"" ++ esc d.id ++ [0x22] else [], if o.showValue then valueText o d.code x else [], ?_, ?_, ?_, ?_, ?_⟩
  · cases top <;> simp [fieldText, typeText, lit]
  · intro h; rw [if_neg]; rintro ⟨h1, h2⟩; rcases h with h | h <;> contradiction
  · intro h1 h2
    rw [if_pos ⟨h1, h2⟩]
    obtain ⟨s, hs, hu⟩ := (C99_scalars o .String).2.2.2 d.id
    have e : s = esc d.id := by
      have : lit " = \"" ++ esc d.id ++ lit "\"" = lit " = \"" ++ s ++ lit "\"" := by rw [← hs]; simp [valueText, quoted, lit]
      simpa using this.symm
    exact ⟨esc d.id, by simp [lit], by rw [← e]; exact hu⟩
  · intro h; simp [h]
  · intro h; simp [h]

end Pvxs.Props.Prt
